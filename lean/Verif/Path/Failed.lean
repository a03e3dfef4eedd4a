import Verif.Path.Props
/-
Exactly what a failed `path::set` leaves behind, and which error it reports (C12, C16).
-/
namespace Verif.Path.Spec

/-- Text that begins with an escape that cannot be decoded, and what is wrong with it: no two
hexadecimal digits follow, or they spell '/'. -/
inductive BadEscape : List (BitVec 8) → ParseError → Prop
  | digits {post} :
      (¬ ∃ h l rest a b, post = h :: l :: rest ∧ hexDigit h a ∧ hexDigit l b) →
      BadEscape (0x25#8 :: post) .invalidPercent
  | slash {h l a b rest} : hexDigit h a → hexDigit l b → 16 * a + b = 0x2F →
      BadEscape (0x25#8 :: h :: l :: rest) .containsSlash

/-- Walking the text reaches the location `loc`; the next segment decodes to `part` up to an
escape that is wrong. -/
structure FailsAt (v : List (BitVec 8)) (loc : List Seg) (part : Seg) (e : ParseError) : Prop where
  stop : ∃ before good bad after, split v = before ++ (good ++ bad) :: after ∧
    Walk [] before loc ∧ Decodes good part ∧ BadEscape bad e

end Verif.Path.Spec

namespace Verif.Path
open Spec

theorem hexDigit_of_nonneg {c : Byte} (h : ¬ fromXDigit c < 0) : hexDigit c (fromXDigit c).toNat := by
  rw [hexDigit_iff]; omega

theorem not_hexDigit_of_neg {c : Byte} (h : fromXDigit c < 0) (a : Nat) : ¬ hexDigit c a := by
  rw [hexDigit_iff]; omega

theorem slash_of_value {a b : Nat} (ha : a < 16) (hb : b < 16) :
    (BitVec.ofNat 8 (a * 16 + b) = slash) ↔ 16 * a + b = 0x2F := by
  constructor
  · intro he
    have := congrArg BitVec.toNat he
    rw [BitVec.toNat_ofNat] at this
    have h2 : slash.toNat = 47 := rfl
    omega
  · intro he
    have : a * 16 + b = 47 := by omega
    rw [this]

theorem decodeInto_stop (value : Str) {raw value' : Str} {e : ParseError}
    (h : decodeInto value raw = (value', some e)) :
    ∃ good bad part, raw = good ++ bad ∧ Decodes good part ∧ BadEscape bad e ∧
      value' = value ++ part := by
  fun_induction decodeInto value raw with
  | case1 value => simp at h
  | case2 value c rest hc ih =>
    obtain ⟨good, bad, part, rfl, hd, hb, hv⟩ := ih h
    exact ⟨c :: good, bad, c :: part, rfl, .lit hc hd, hb, by rw [hv]; simp⟩
  | case3 value c hc h' l rest' hneg =>
    have hc' : c = 0x25#8 := by simpa using hc
    subst hc'
    simp only [Prod.mk.injEq, Option.some.injEq] at h
    obtain ⟨rfl, rfl⟩ := h
    refine ⟨[], _, [], rfl, .nil, .digits ?_, by simp⟩
    rintro ⟨h, l', rest, a, b, he, ha, hb⟩
    simp only [List.cons.injEq] at he
    obtain ⟨rfl, rfl, rfl⟩ := he
    rcases hneg with hn | hn
    · exact not_hexDigit_of_neg hn a ha
    · exact not_hexDigit_of_neg hn b hb
  | case4 value c hc h' l rest' hneg ch hch =>
    have hc' : c = 0x25#8 := by simpa using hc
    subst hc'
    simp only [Prod.mk.injEq, Option.some.injEq] at h
    obtain ⟨rfl, rfl⟩ := h
    have h1 : ¬ fromXDigit h' < 0 := fun x => hneg (.inl x)
    have h2 : ¬ fromXDigit l < 0 := fun x => hneg (.inr x)
    have d1 := hexDigit_of_nonneg h1
    have d2 := hexDigit_of_nonneg h2
    exact ⟨[], _, [], rfl, .nil, .slash d1 d2 ((slash_of_value d1.1 d2.1).1 hch), by simp⟩
  | case5 value c hc h' l rest' hneg ch hch ih =>
    have hc' : c = 0x25#8 := by simpa using hc
    subst hc'
    obtain ⟨good, bad, part, rfl, hd, hb, hv⟩ := ih h
    have h1 : ¬ fromXDigit h' < 0 := fun x => hneg (.inl x)
    have h2 : ¬ fromXDigit l < 0 := fun x => hneg (.inr x)
    have d1 := hexDigit_of_nonneg h1
    have d2 := hexDigit_of_nonneg h2
    refine ⟨_ :: h' :: l :: good, bad, _ :: part, rfl, .esc d1 d2 ?_ hd, hb, ?_⟩
    · intro he; exact hch ((slash_of_value d1.1 d2.1).2 he)
    · rw [hv, Nat.mul_comm 16]; simp [ch]
  | case6 value c rest hc hshort =>
    have hc' : c = 0x25#8 := by simpa using hc
    subst hc'
    simp only [Prod.mk.injEq, Option.some.injEq] at h
    obtain ⟨rfl, rfl⟩ := h
    refine ⟨[], _, [], rfl, .nil, .digits ?_, by simp⟩
    rintro ⟨h, l', rest', a, b, rfl, -, -⟩
    exact hshort _ _ _ rfl

theorem decodeInto_bad {bad : Str} {e : ParseError} (h : BadEscape bad e) (value : Str) :
    decodeInto value bad = (value, some e) := by
  cases h with
  | digits hn =>
    rename_i post
    match post with
    | [] => simp [decodeInto]
    | [x] => simp [decodeInto]
    | x :: y :: rest =>
      have : fromXDigit x < 0 ∨ fromXDigit y < 0 := by
        apply Classical.byContradiction
        intro hc
        exact hn ⟨x, y, rest, _, _, rfl, hexDigit_of_nonneg (fun z => hc (.inl z)),
          hexDigit_of_nonneg (fun z => hc (.inr z))⟩
      simp [decodeInto, this]
  | slash ha hb he =>
    rename_i x y a b rest
    have h1 := (hexDigit_iff _ _).1 ha
    have h2 := (hexDigit_iff _ _).1 hb
    have hs := (slash_of_value ha.1 hb.1).2 he
    have hneg : ¬ ((a : Int) < 0 ∨ (b : Int) < 0) := by omega
    simp [decodeInto, h1, h2, hneg, hs]

theorem decodeInto_good {good part bad : Str} (h : Decodes good part) (value : Str) :
    decodeInto value (good ++ bad) = decodeInto (value ++ part) bad := by
  induction h generalizing value with
  | nil => simp
  | @lit c raw seg hc _ ih =>
    rw [List.cons_append, decodeInto.eq_def]; simp only [hc, ne_eq, not_false_eq_true, if_true]
    rw [ih]; simp
  | @esc x y a b raw seg ha hb hn _ ih =>
    have h1 := (hexDigit_iff _ _).1 ha
    have h2 := (hexDigit_iff _ _).1 hb
    have hs : ¬ BitVec.ofNat 8 (a * 16 + b) = slash := fun h => hn ((slash_of_value ha.1 hb.1).1 h)
    have hneg : ¬ ((a : Int) < 0 ∨ (b : Int) < 0) := by omega
    simp only [List.cons_append]
    rw [decodeInto.eq_def]
    simp only [h1, h2, hneg, if_false, Int.toNat_natCast, hs, ne_eq, not_true_eq_false]
    rw [ih, Nat.mul_comm a 16]; simp

theorem bad_name {good bad part : Str} {e : ParseError} (_hd : Decodes good part)
    (h : BadEscape bad e) : ¬ isDot (good ++ bad) ∧ ¬ isDotDot (good ++ bad) := by
  obtain ⟨post, rfl⟩ : ∃ post, bad = 0x25#8 :: post := by cases h <;> exact ⟨_, rfl⟩
  have hm : (0x25#8 : BitVec 8) ∈ good ++ 0x25#8 :: post := by simp
  refine ⟨?_, ?_⟩
  · rintro (h | h) <;> rw [h] at hm <;> simp at hm
  · intro h; rw [isDotDot] at h; rw [h] at hm; simp at hm

theorem walk_append {l m n : List Seg} {a b : List Str} (h1 : Walk l a m) (h2 : Walk m b n) :
    Walk l (a ++ b) n := by
  induction h1 with
  | done => exact h2
  | stay h _ ih => exact .stay h (ih h2)
  | up h _ ih => exact .up h (ih h2)
  | down h h' hd _ ih => exact .down h h' hd (ih h2)

theorem lead_value {p : Path} {loc : List Seg} (h : Rep p loc) :
    (if !p.value.isEmpty then p.value ++ [slash] else p.value) = lead loc := by
  rw [h.value]
  by_cases hl : loc = []
  · subst hl; simp [join, lead]
  · have : join loc ≠ [] := fun h' => hl ((join_eq_nil h.valid).1 h')
    rw [lead_eq_join hl]
    simp [this]

/-- One segment of the loop, when it throws. -/
theorem step_stop {p q : Path} {loc : List Seg} (h : Rep p loc) {raw : Str} {e : ParseError}
    (hs : p.stepSegment raw = (q, some e)) :
    ∃ good bad part, raw = good ++ bad ∧ Decodes good part ∧ BadEscape bad e ∧
      q = ⟨lead loc ++ part, layout 0 loc⟩ := by
  unfold Path.stepSegment at hs
  split at hs
  · split at hs
    · simp at hs
    · split at hs
      · simp at hs
      · unfold Path.push at hs
        simp only [lead_value h] at hs
        split at hs
        · rename_i v' e' hd
          simp only [Prod.mk.injEq, Option.some.injEq] at hs
          obtain ⟨rfl, rfl⟩ := hs
          obtain ⟨good, bad, part, h1, h2, h3, h4⟩ := decodeInto_stop _ hd
          exact ⟨good, bad, part, h1, h2, h3, by rw [h4, h.segs]⟩
        · simp at hs
  · simp at hs

theorem setLoop_stop (p : Path) (value : Str) {loc : List Seg} (h : Rep p loc) {q : Path}
    {e : ParseError} (hs : p.setLoop value = (q, some e)) :
    ∃ loc' before good bad after part, split value = before ++ (good ++ bad) :: after ∧
      Walk loc before loc' ∧ Decodes good part ∧ BadEscape bad e ∧ Valid loc' ∧
      q = ⟨lead loc' ++ part, layout 0 loc'⟩ := by
  fun_induction Path.setLoop p value generalizing loc with
  | case1 p value segment q' e' =>
    have hstep : p.stepSegment (value.takeWhile (· != slash)) = (q', some e') := by assumption
    simp only [Prod.mk.injEq, Option.some.injEq] at hs
    obtain ⟨rfl, rfl⟩ := hs
    obtain ⟨good, bad, part, h1, h2, h3, h4⟩ := step_stop h hstep
    rw [split_eq, h1]
    exact ⟨loc, [], good, bad, _, part, rfl, .done, h2, h3, h.valid, h4⟩
  | case2 => simp at hs
  | case3 p value segment p' hx c rest hdrop =>
    rename_i ih
    have hstep : p.stepSegment (value.takeWhile (· != slash)) = (p', none) := by assumption
    have ho := step_ok h (raw := value.takeWhile (· != slash)) (takeWhile_no_slash value)
    rw [hstep] at ho
    simp only at ho
    obtain ⟨loc', hr, hw1, -⟩ := ho
    have hsp : split value = value.takeWhile (· != slash) :: split rest := by
      rw [split_eq, hdrop]
    obtain ⟨loc'', before, good, bad, after, part, h1, h2, h3⟩ := ih hr hs
    rw [hsp]
    refine ⟨loc'', _ :: before, good, bad, after, part, ?_, hw1 _ _ h2, h3⟩
    rw [h1]; rfl

theorem set_stop (p q : Path) (v : Str) (e : ParseError) (h : p.set v = (q, some e)) :
    ∃ loc part, FailsAt v loc part e ∧ Valid loc ∧ q = ⟨lead loc ++ part, layout 0 loc⟩ := by
  unfold Path.set at h
  cases v with
  | nil => simp at h
  | cons c rest =>
    simp only at h
    split at h
    · simp at h
    · by_cases hc : c = slash
      · subst hc
        simp only [if_true] at h
        obtain ⟨loc, before, good, bad, after, part, h1, h2, h3, h4, h5, h6⟩ :=
          setLoop_stop p.clear rest rep_default h
        refine ⟨loc, part, ⟨[] :: before, good, bad, after, ?_, .stay (.inl rfl) h2, h3, h4⟩, h5, h6⟩
        simp [split, h1]
      · simp only [hc, if_false] at h
        obtain ⟨loc, before, good, bad, after, part, h1, h2, h3, h4, h5, h6⟩ :=
          setLoop_stop p.clear (c :: rest) rep_default h
        exact ⟨loc, part, ⟨before, good, bad, after, h1, h2, h3, h4⟩, h5, h6⟩

/-! ### A text fails at one place only -/

theorem decodes_bad {good bad part seg : Str} {e : ParseError} (hd : Decodes good part)
    (h : BadEscape bad e) : ¬ Decodes (good ++ bad) seg := by
  intro hs
  have h1 := decodeInto_ok hs []
  rw [decodeInto_good hd, decodeInto_bad h] at h1
  simp at h1

theorem bad_unique {g1 b1 g2 b2 p1 p2 : Str} {e1 e2 : ParseError} (he : g1 ++ b1 = g2 ++ b2)
    (hd1 : Decodes g1 p1) (h1 : BadEscape b1 e1) (hd2 : Decodes g2 p2) (h2 : BadEscape b2 e2) :
    p1 = p2 ∧ e1 = e2 := by
  have a := decodeInto_good (bad := b1) hd1 []
  have b := decodeInto_good (bad := b2) hd2 []
  rw [decodeInto_bad h1] at a
  rw [decodeInto_bad h2, ← he, a] at b
  simpa using b

theorem walk_stop_unique : ∀ {a b : List Str} {loc m n : List Seg} {x y : Str} {c d : List Str}
    {gx bx px gy by' py : Str} {ex ey : ParseError},
    a ++ x :: c = b ++ y :: d → Walk loc a m → Walk loc b n →
    x = gx ++ bx → Decodes gx px → BadEscape bx ex →
    y = gy ++ by' → Decodes gy py → BadEscape by' ey → m = n ∧ px = py ∧ ex = ey
  | [], [], _, _, _, _, _, _, _, _, _, _, _, _, _, _, _, he, .done, .done, hx, dx, ex, hy, dy, ey => by
    simp only [List.nil_append, List.cons.injEq] at he
    obtain ⟨h1, h2⟩ := bad_unique (by rw [← hx, ← hy, he.1]) dx ex dy ey
    exact ⟨rfl, h1, h2⟩
  | [], b :: bs, _, _, _, _, _, _, _, _, _, _, _, _, _, _, _, he, _, hw, hx, dx, ex, _, _, _ => by
    simp only [List.nil_append, List.cons_append, List.cons.injEq] at he
    have hn := bad_name dx ex
    have hb : b = _ := he.1.symm.trans hx
    subst hb
    cases hw with
    | stay hd _ => exact absurd hd hn.1
    | up hd _ => exact absurd hd hn.2
    | down _ _ hd _ => exact absurd hd (decodes_bad dx ex)
  | a :: as, [], _, _, _, _, _, _, _, _, _, _, _, _, _, _, _, he, hw, _, _, _, _, hy, dy, ey => by
    simp only [List.nil_append, List.cons_append, List.cons.injEq] at he
    have hn := bad_name dy ey
    have hb : a = _ := he.1.trans hy
    subst hb
    cases hw with
    | stay hd _ => exact absurd hd hn.1
    | up hd _ => exact absurd hd hn.2
    | down _ _ hd _ => exact absurd hd (decodes_bad dy ey)
  | a :: as, b :: bs, _, _, _, _, _, _, _, _, _, _, _, _, _, _, _, he, hw, hv, hx, dx, ex, hy, dy, ey => by
    simp only [List.cons_append, List.cons.injEq] at he
    obtain ⟨rfl, he⟩ := he
    cases hw with
    | stay hd hw =>
      cases hv with
      | stay _ hv => exact walk_stop_unique he hw hv hx dx ex hy dy ey
      | up hd' _ => rcases hd with rfl | rfl <;> simp [isDotDot] at hd'
      | down hd' => exact absurd hd hd'
    | up hd hw =>
      cases hv with
      | stay hd' _ => rcases hd' with rfl | rfl <;> simp [isDotDot] at hd
      | up _ hv => exact walk_stop_unique he hw hv hx dx ex hy dy ey
      | down _ hd' => exact absurd hd hd'
    | down h1 h2 hd hw =>
      cases hv with
      | stay hd' _ => exact absurd hd' h1
      | up hd' _ => exact absurd hd' h2
      | down _ _ hd' hv =>
        rw [decodes_unique hd' hd] at hv
        exact walk_stop_unique he hw hv hx dx ex hy dy ey

theorem failsAt_unique {v : Str} {l1 l2 : List Seg} {p1 p2 : Seg} {e1 e2 : ParseError}
    (h1 : FailsAt v l1 p1 e1) (h2 : FailsAt v l2 p2 e2) : l1 = l2 ∧ p1 = p2 ∧ e1 = e2 := by
  obtain ⟨a, gx, bx, c, hs, hw, hd, hb⟩ := h1.stop
  obtain ⟨b, gy, by', d, hs', hw', hd', hb'⟩ := h2.stop
  exact walk_stop_unique (hs ▸ hs') hw hw' rfl hd hb rfl hd' hb'

/-! ### The properties -/

/-- C12: `set` throws the error `e` exactly for the texts whose first undecodable escape, on the
way through the segments, is wrong in the way `e` says. -/
theorem C12_which (p : Path) (v : Str) (e : ParseError) :
    (p.set v).2 = some e ↔ ∃ loc part, FailsAt v loc part e := by
  constructor
  · intro h
    obtain ⟨loc, part, h, -⟩ := set_stop p (p.set v).1 v e (by rw [← h])
    exact ⟨loc, part, h⟩
  · rintro ⟨loc, part, h⟩
    have hne : (p.set v).2 ≠ none := by
      rw [C12_rejects]
      obtain ⟨before, good, bad, after, hs, -, hd, hb⟩ := h.stop
      have hn := bad_name hd hb
      refine ⟨good ++ bad, by rw [hs]; simp, hn.1, hn.2, ?_⟩
      rw [← decodes_iff_wellEscaped]
      rintro ⟨seg, hx⟩
      exact decodes_bad hd hb hx
    cases he : (p.set v).2 with
    | none => exact absurd he hne
    | some e' =>
      obtain ⟨l, q, h', -⟩ := set_stop p (p.set v).1 v e' (by rw [← he])
      rw [(failsAt_unique h h').2.2]

example : (Path.default.set (str "/a/b%2")).2 = some .invalidPercent ∧
    (Path.default.set (str "/%2fb%2")).2 = some .containsSlash ∧
    (Path.default.set (str "/%2/%2f")).2 = some .invalidPercent := by
  decide +kernel

/-- C16 (exactly what happens instead): when `set` throws, the object shows the location reached
before the segment that failed, and `joined(k)` is the text from segment `k` of that location,
followed by '/' and the part of the failed segment that was decoded. -/
theorem C16_exact (p q : Path) (v : Str) (e : ParseError) (h : p.set v = (q, some e)) :
    ∃ loc part, FailsAt v loc part e ∧ Valid loc ∧ q.size = loc.length ∧
      (∀ i, q.at i = loc[i]?) ∧
      ∀ k, q.joined k = if k < loc.length then join (loc.drop k) ++ slash :: part else [] := by
  obtain ⟨loc, part, hf, hv, rfl⟩ := set_stop p q v e h
  refine ⟨loc, part, hf, hv, by simp [Path.size, layout_length], ?_, ?_⟩
  · intro i
    by_cases h0 : loc = []
    · subst h0; simp [Path.at, segmentAt, layout]
    · have := at_slice loc (slash :: part) 0 loc.length i
      rw [List.drop_zero, List.take_of_length_le (by rw [layout_length]; omega)] at this
      rw [Path.at, lead_eq_join h0, List.append_assoc]
      refine Eq.trans ?_ (this.trans ?_)
      · rfl
      · rw [Nat.zero_add]
        split
        · rfl
        · rw [List.getElem?_eq_none (by omega)]
  · intro k
    unfold Path.joined
    rw [layout_at]
    split
    · rename_i hn
      have hn' : loc[k]? = none := by simpa using hn
      rw [if_neg (by rw [List.getElem?_eq_none_iff] at hn'; omega)]
    · rename_i s hs
      rw [Option.map_eq_some_iff] at hs
      obtain ⟨s', hk, rfl⟩ := hs
      have hlt : k < loc.length := (List.getElem?_eq_some_iff.1 hk).1
      rw [if_pos hlt]
      have hne : loc.drop k ≠ [] := by simp; omega
      show (lead loc ++ part).drop (lead (loc.take k)).length = _
      have : lead loc = lead (loc.take k) ++ lead (loc.drop k) := by
        rw [← lead_append, List.take_append_drop]
      rw [this, List.append_assoc, List.drop_left, lead_eq_join hne]
      simp

/-- C16: so after a throw the text is consistent with the segments iff there are none. -/
theorem C16_consistent_iff (p q : Path) (v : Str) (e : ParseError) (h : p.set v = (q, some e)) :
    (∃ loc, q.size = loc.length ∧ (∀ i, q.at i = loc[i]?) ∧ q.joined 0 = join loc) ↔ q.size = 0 := by
  obtain ⟨loc, part, hf, hv, hsz, hat, hj⟩ := C16_exact p q v e h
  constructor
  · rintro ⟨loc', hsz', hat', hj'⟩
    have : loc' = loc := by
      apply List.ext_getElem?
      intro i; rw [← hat', hat]
    subst this
    rw [hj 0] at hj'
    split at hj'
    · have := congrArg List.length hj'
      simp at this
    · omega
  · intro h0
    exact ⟨loc, hsz, hat, by
      rw [hj 0, if_neg (by omega)]
      have : loc = [] := List.eq_nil_of_length_eq_zero (by omega)
      rw [this]; rfl⟩

example : ∃ q, Path.default.set (str "/a/../b/c%41%") = (q, some .invalidPercent) ∧
    q.joined 0 = str "b/cA" ∧ q.size = 1 :=
  ⟨⟨str "b/cA", [⟨0, 1⟩]⟩, by decide +kernel, by decide, rfl⟩

end Verif.Path
