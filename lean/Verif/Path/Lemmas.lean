import Verif.Path.Model
import Verif.Path.Spec
/-
Helper lemmas for the path properties.
-/
namespace Verif.Path
open Spec

instance (c : BitVec 8) (n : Nat) : Decidable (hexDigit c n) := by
  unfold hexDigit; infer_instance

theorem hex_table : ∀ n < 256, ∀ a : Nat, a < 16 →
    (fromXDigit (BitVec.ofNat 8 n) = (a : Int)) = hexDigit (BitVec.ofNat 8 n) a := by
  have : ∀ n : Nat, n < 256 → ∀ a : Nat, a < 16 →
    decide (fromXDigit (BitVec.ofNat 8 n) = (a : Int)) = decide (hexDigit (BitVec.ofNat 8 n) a) := by
    decide +kernel
  intro n hn a ha
  have := this n hn a ha
  exact propext (by simpa using this)

theorem fromX_range (c : Byte) : fromXDigit c < 0 ∨ (0 ≤ fromXDigit c ∧ fromXDigit c < 16) := by
  unfold fromXDigit
  split
  · omega
  · split
    · omega
    · split <;> omega

theorem hexDigit_iff (c : Byte) (a : Nat) : hexDigit c a ↔ fromXDigit c = (a : Int) := by
  constructor
  · intro h
    have := hex_table c.toNat c.isLt a h.1
    simp only [BitVec.ofNat_toNat, BitVec.setWidth_eq] at this
    exact this.mpr h
  · intro h
    have ha : a < 16 := by
      rcases fromX_range c with h' | h' <;> omega
    have := hex_table c.toNat c.isLt a ha
    simp only [BitVec.ofNat_toNat, BitVec.setWidth_eq] at this
    exact this.mp h

theorem hexDigit_ne_percent {c : Byte} {a : Nat} (h : hexDigit c a) : c ≠ percent := by
  rintro rfl
  rw [hexDigit_iff] at h
  have : fromXDigit percent = -1 := by decide
  omega

/-! ### Percent decoding -/

theorem decodeInto_ok {raw seg : Str} (h : Decodes raw seg) (value : Str) :
    decodeInto value raw = (value ++ seg, none) := by
  induction h generalizing value with
  | nil => simp [decodeInto]
  | @lit c raw seg hc _ ih => unfold decodeInto; rw [if_pos hc, ih]; simp
  | @esc h l a b raw seg ha hb hn _ ih =>
    rw [hexDigit_iff] at ha hb
    have hlt : 16 * a + b < 256 := by
      have h1 := fromX_range h
      have h2 := fromX_range l
      omega
    have hne : BitVec.ofNat 8 (a * 16 + b) ≠ slash := by
      intro he
      have := congrArg BitVec.toNat he
      rw [BitVec.toNat_ofNat] at this
      have h2 : slash.toNat = 47 := rfl
      omega
    have hcomm : a * 16 + b = 16 * a + b := by omega
    have hneg : ¬ ((a : Int) < 0 ∨ (b : Int) < 0) := by omega
    rw [hcomm] at hne
    simp only [decodeInto, ha, hb, hneg, if_false, Int.toNat_natCast, hcomm]
    simp only [ne_eq, not_true_eq_false, if_false, hne]
    rw [ih]
    simp

theorem decodeInto_err {raw : Str} (h : ¬ ∃ seg, Decodes raw seg) (value : Str) :
    ∃ part e, decodeInto value raw = (value ++ part, some e) := by
  fun_induction decodeInto value raw with
  | case1 value => exact absurd ⟨[], .nil⟩ h
  | case2 value c rest hc ih =>
    have : ¬ ∃ seg, Decodes rest seg := fun ⟨seg, hs⟩ => h ⟨c :: seg, .lit hc hs⟩
    obtain ⟨part, e, hp⟩ := ih this
    exact ⟨c :: part, e, by rw [hp]; simp⟩
  | case3 value c hc h' l rest' hneg => exact ⟨[], _, by simp; rfl⟩
  | case4 value c hc h' l rest' hneg ch hch => exact ⟨[], _, by simp; rfl⟩
  | case5 value c hc h' l rest' hneg ch hch ih =>
    have : ¬ ∃ seg, Decodes rest' seg := by
      rintro ⟨seg, hs⟩
      apply h
      have hc' : c = 0x25#8 := by simpa using hc
      subst hc'
      have r1 := fromX_range h'
      have r2 := fromX_range l
      refine ⟨_, .esc (h := h') (l := l) (a := (fromXDigit h').toNat) (b := (fromXDigit l).toNat)
        ?_ ?_ ?_ hs⟩
      · rw [hexDigit_iff]; omega
      · rw [hexDigit_iff]; omega
      · intro he
        apply hch
        apply BitVec.eq_of_toNat_eq
        simp only [ch, BitVec.toNat_ofNat]
        have : (fromXDigit h').toNat * 16 + (fromXDigit l).toNat = 47 := by omega
        rw [this]
    obtain ⟨part, e, hp⟩ := ih this
    exact ⟨ch :: part, e, by rw [hp]; simp⟩
  | case6 value c rest hc hshort => exact ⟨[], _, by simp; rfl⟩

theorem decodes_iff_wellEscaped (raw : Str) : (∃ seg, Decodes raw seg) ↔ WellEscaped raw := by
  constructor
  · rintro ⟨seg, h⟩
    induction h with
    | nil =>
      intro pre post he
      simp at he
    | @lit c raw seg hc _ ih =>
      intro pre post he
      cases pre with
      | nil => simp only [List.nil_append, List.cons.injEq] at he; exact absurd he.1 hc
      | cons x xs =>
        simp only [List.cons_append, List.cons.injEq] at he
        exact ih xs post he.2
    | @esc h l a b raw seg ha hb hn _ ih =>
      intro pre post he
      match pre with
      | [] =>
        simp only [List.nil_append, List.cons.injEq, true_and] at he
        exact ⟨h, l, raw, a, b, he.symm, ha, hb, hn⟩
      | [x] =>
        simp only [List.cons_append, List.nil_append, List.cons.injEq] at he
        exact absurd he.2.1 (hexDigit_ne_percent ha)
      | [x, y] =>
        simp only [List.cons_append, List.nil_append, List.cons.injEq] at he
        exact absurd he.2.2.1 (hexDigit_ne_percent hb)
      | x :: y :: z :: pre' =>
        simp only [List.cons_append, List.cons.injEq] at he
        exact ih pre' post he.2.2.2
  · intro h
    have key : ∀ n (raw : Str), raw.length ≤ n → WellEscaped raw → ∃ seg, Decodes raw seg := by
      intro n
      induction n with
      | zero =>
        intro raw hl _
        have : raw = [] := List.eq_nil_of_length_eq_zero (by omega)
        exact ⟨[], this ▸ .nil⟩
      | succ n ih =>
        intro raw hl hw
        cases raw with
        | nil => exact ⟨[], .nil⟩
        | cons c rest =>
          by_cases hc : c = 0x25#8
          · subst hc
            obtain ⟨h, l, rest', a, b, rfl, ha, hb, hn⟩ := hw [] rest rfl
            obtain ⟨seg, hs⟩ := ih rest' (by simp only [List.length_cons] at hl; omega) (by
              intro pre post he
              exact hw (0x25#8 :: h :: l :: pre) post (by simp [he]))
            exact ⟨_, .esc ha hb hn hs⟩
          · obtain ⟨seg, hs⟩ := ih rest (by simp only [List.length_cons] at hl; omega) (by
              intro pre post he
              exact hw (c :: pre) post (by simp [he]))
            exact ⟨_, .lit hc hs⟩
    exact key raw.length raw (Nat.le_refl _) h

theorem decodes_no_slash {raw seg : Str} (h : Decodes raw seg) (hr : slash ∉ raw) :
    slash ∉ seg := by
  induction h with
  | nil => exact hr
  | lit hc _ ih =>
    simp only [List.mem_cons, not_or] at hr ⊢
    exact ⟨hr.1, ih hr.2⟩
  | @esc h l a b raw seg ha hb hn _ ih =>
    simp only [List.mem_cons, not_or] at hr ⊢
    refine ⟨?_, ih hr.2.2.2⟩
    have hlt : 16 * a + b < 256 := by
      have := ha.1; have := hb.1; omega
    intro he
    have := congrArg BitVec.toNat he
    simp at this
    omega

theorem decodes_nonempty {raw seg : Str} (h : Decodes raw seg) (hr : raw ≠ []) : seg ≠ [] := by
  cases h with
  | nil => exact absurd rfl hr
  | lit => simp
  | esc => simp

theorem decodes_unique {raw s t : Str} (h1 : Decodes raw s) (h2 : Decodes raw t) : s = t := by
  have a := decodeInto_ok h1 []
  have b := decodeInto_ok h2 []
  rw [a] at b
  simpa using b

/-! ### Splitting and joining -/

theorem split_ne_nil (s : Str) : split s ≠ [] := by
  cases s with
  | nil => simp [split]
  | cons c cs =>
    simp only [split]
    split
    · simp
    · split <;> simp

theorem split_eq (s : Str) :
    split s = s.takeWhile (· != slash) ::
      (match s.dropWhile (· != slash) with | [] => [] | _ :: rest => split rest) := by
  induction s with
  | nil => simp [split]
  | cons c cs ih =>
    by_cases hc : c = slash
    · subst hc; simp [split]
    · have hb : (c != slash) = true := by simp [hc]
      simp only [split, hc, if_false, List.takeWhile_cons, List.dropWhile_cons, hb, if_true]
      rw [ih]

theorem split_no_slash {s raw : Str} (h : raw ∈ split s) : slash ∉ raw := by
  induction s generalizing raw with
  | nil => simp [split] at h; simp [h]
  | cons c cs ih =>
    simp only [split] at h
    split at h
    · rcases List.mem_cons.1 h with rfl | h
      · simp
      · exact ih h
    · rename_i hc
      split at h
      · simp at h; subst h; simp; exact fun h => hc h.symm
      · rename_i s ss heq
        rcases List.mem_cons.1 h with rfl | h
        · simp only [List.mem_cons, not_or]
          exact ⟨fun h => hc h.symm, ih (by rw [heq]; simp)⟩
        · exact ih (by rw [heq]; simp [h])

/-- The text before the segment that follows `pre`. -/
def lead (pre : List Seg) : Str := pre.flatMap (· ++ [slash])
/-- The text after the segment that precedes `post`. -/
def trail (post : List Seg) : Str := post.flatMap (slash :: ·)

theorem join_cons (s : Seg) (post : List Seg) : join (s :: post) = s ++ trail post := by
  induction post generalizing s with
  | nil => simp [join, trail]
  | cons t ts ih =>
    simp only [join, ih, trail, List.flatMap_cons]
    simp

theorem join_mid (pre : List Seg) (s : Seg) (post : List Seg) :
    join (pre ++ s :: post) = lead pre ++ s ++ trail post := by
  induction pre with
  | nil => simp [lead, join_cons]
  | cons p ps ih =>
    have : join (p :: (ps ++ s :: post)) = p ++ slash :: join (ps ++ s :: post) := by
      cases ps <;> rfl
    simp only [List.cons_append, this, ih, lead, List.flatMap_cons]
    simp

theorem lead_append (a b : List Seg) : lead (a ++ b) = lead a ++ lead b := by
  simp [lead]

theorem lead_eq_join {pre : List Seg} (h : pre ≠ []) : lead pre = join pre ++ [slash] := by
  obtain ⟨ps, p, rfl⟩ : ∃ ps p, pre = ps ++ [p] := ⟨pre.dropLast, pre.getLast h,
    (List.dropLast_concat_getLast h).symm⟩
  rw [lead_append, join_mid]
  simp [lead, trail]

theorem join_eq_nil {loc : List Seg} (hv : Valid loc) : join loc = [] ↔ loc = [] := by
  cases loc with
  | nil => simp [join]
  | cons s ss =>
    rw [join_cons]
    have := (hv s (by simp)).1
    simp [this]

/-! ### The offset table -/

def layout (off : Nat) : List Seg → List Segment
  | [] => []
  | s :: ss => ⟨off, s.length⟩ :: layout (off + s.length + 1) ss

theorem layout_append (off : Nat) (a b : List Seg) :
    layout off (a ++ b) = layout off a ++ layout (off + (lead a).length) b := by
  induction a generalizing off with
  | nil => simp [layout, lead]
  | cons s ss ih =>
    simp only [List.cons_append, layout, ih, lead, List.flatMap_cons, List.length_append,
      List.length_cons, List.length_nil]
    congr 2
    congr 1
    omega

theorem layout_length (off : Nat) (a : List Seg) : (layout off a).length = a.length := by
  induction a generalizing off with
  | nil => rfl
  | cons s ss ih => simp [layout, ih]

theorem layout_get (pre : List Seg) (s : Seg) (post : List Seg) :
    (layout 0 (pre ++ s :: post))[pre.length]? = some ⟨(lead pre).length, s.length⟩ := by
  rw [layout_append, List.getElem?_append_right (by rw [layout_length]; omega), layout_length]
  simp [layout]

/-- `p` represents the location `loc`. -/
structure Rep (p : Path) (loc : List Seg) : Prop where
  value : p.value = join loc
  segs : p.segments = layout 0 loc
  valid : Valid loc

theorem rep_default : Rep Path.default [] := ⟨rfl, rfl, by intro s hs; simp at hs⟩

theorem push_ok {p : Path} {loc : List Seg} (h : Rep p loc) {raw seg : Str}
    (hd : Decodes raw seg) (hr : raw ≠ []) (hs : slash ∉ raw) :
    (p.push raw).2 = none ∧ Rep (p.push raw).1 (loc ++ [seg]) := by
  have hv : (if !p.value.isEmpty then p.value ++ [slash] else p.value) = lead loc := by
    rw [h.value]
    by_cases hl : loc = []
    · subst hl; simp [join, lead]
    · have : join loc ≠ [] := fun h' => hl ((join_eq_nil h.valid).1 h')
      rw [lead_eq_join hl]
      simp [this]
  unfold Path.push
  simp only [hv, decodeInto_ok hd]
  refine ⟨trivial, ?_, ?_, ?_⟩
  · show lead loc ++ seg = join (loc ++ [seg])
    rw [join_mid]; simp [trail]
  · show p.segments ++ _ = _
    rw [h.segs, layout_append]
    simp [layout]
  · intro t ht
    rcases List.mem_append.1 ht with ht | ht
    · exact h.valid t ht
    · simp only [List.mem_singleton] at ht
      subst ht
      exact ⟨decodes_nonempty hd hr, decodes_no_slash hd hs⟩

theorem pop_rep {p : Path} {loc : List Seg} (h : Rep p loc) : Rep p.pop loc.dropLast := by
  by_cases hl : loc = []
  · subst hl
    have : p.segments = [] := h.segs
    simp only [Path.pop, this, List.getLast?_nil, List.dropLast_nil]
    exact h
  · obtain ⟨pre, s, rfl⟩ : ∃ ps p, loc = ps ++ [p] := ⟨loc.dropLast, loc.getLast hl,
      (List.dropLast_concat_getLast hl).symm⟩
    have hg : p.segments = layout 0 pre ++ [⟨(lead pre).length, s.length⟩] := by
      rw [h.segs, layout_append]; simp [layout]
    have hvp : Valid pre := fun t ht => h.valid t (by simp [ht])
    have hpop : p.pop = ⟨p.value.take (if (lead pre).length = 0 then (lead pre).length
        else (lead pre).length - 1), layout 0 pre⟩ := by
      simp [Path.pop, hg]
    rw [hpop, List.dropLast_concat]
    refine ⟨?_, rfl, hvp⟩
    show List.take _ p.value = join pre
    rw [h.value, join_mid]
    simp only [trail, List.flatMap_nil, List.append_nil]
    by_cases hp : pre = []
    · subst hp; simp [lead, join]
    · rw [lead_eq_join hp]
      simp

theorem step_ok {p : Path} {loc : List Seg} (h : Rep p loc) {raw : Str} (hs : slash ∉ raw) :
    match p.stepSegment raw with
    | (q, none) => ∃ loc', Rep q loc' ∧ (∀ rest final, Walk loc' rest final → Walk loc (raw :: rest) final) ∧
        (∀ rest final, Walk loc (raw :: rest) final → Walk loc' rest final)
    | (q, some _) => ¬ isDot raw ∧ ¬ isDotDot raw ∧ (¬ ∃ seg, Decodes raw seg) ∧
        q.segments = p.segments ∧ ∃ part, q.value = lead loc ++ part := by
  by_cases h0 : raw = []
  · subst h0
    simp only [Path.stepSegment, ne_eq, not_true_eq_false, if_false]
    refine ⟨loc, h, fun _ _ hw => .stay (.inl rfl) hw, fun _ _ hw => ?_⟩
    cases hw with
    | stay _ hw => exact hw
    | up hd _ => simp [isDotDot] at hd
    | down hd => exact absurd (.inl rfl) hd
  by_cases h1 : raw = [dot]
  · subst h1
    simp only [Path.stepSegment, ne_eq, List.cons_ne_self, not_false_eq_true, if_true]
    refine ⟨loc, h, fun _ _ hw => .stay (.inr rfl) hw, fun _ _ hw => ?_⟩
    cases hw with
    | stay _ hw => exact hw
    | up hd _ => simp [isDotDot] at hd
    | down hd => exact absurd (.inr rfl) hd
  by_cases h2 : raw = [dot, dot]
  · subst h2
    simp only [Path.stepSegment, ne_eq, h0, not_false_eq_true, if_true, h1, if_false]
    refine ⟨loc.dropLast, pop_rep h, fun _ _ hw => .up rfl hw, fun _ _ hw => ?_⟩
    cases hw with
    | stay hd _ => simp [isDot] at hd
    | up _ hw => exact hw
    | down _ hd => exact absurd rfl hd
  have hnd : ¬ isDot raw := by simp only [isDot, not_or]; exact ⟨h0, h1⟩
  simp only [Path.stepSegment, ne_eq, h0, not_false_eq_true, if_true, h1, if_false, h2]
  by_cases hd : ∃ seg, Decodes raw seg
  · obtain ⟨seg, hd⟩ := hd
    obtain ⟨e1, e2⟩ := push_ok h hd h0 hs
    have he : p.push raw = ((p.push raw).1, none) := by rw [← e1]
    rw [he]
    refine ⟨_, e2, fun _ _ hw => .down hnd h2 hd hw, fun _ _ hw => ?_⟩
    cases hw with
    | stay hd _ => exact absurd hd hnd
    | up hd _ => exact absurd hd h2
    | down _ _ hd' hw => rw [decodes_unique hd hd']; exact hw
  · have hv : (if !p.value.isEmpty then p.value ++ [slash] else p.value) = lead loc := by
      rw [h.value]
      by_cases hl : loc = []
      · subst hl; simp [join, lead]
      · have : join loc ≠ [] := fun h' => hl ((join_eq_nil h.valid).1 h')
        rw [lead_eq_join hl]
        simp [this]
    obtain ⟨part, e, hp⟩ := decodeInto_err hd (lead loc)
    have : p.push raw = (⟨lead loc ++ part, p.segments⟩, some e) := by
      unfold Path.push
      simp only [hv, hp]
    rw [this]
    exact ⟨hnd, h2, hd, rfl, part, rfl⟩

theorem takeWhile_no_slash (s : Str) : slash ∉ s.takeWhile (· != slash) := by
  intro h
  have := List.all_takeWhile (p := (· != slash)) (l := s)
  rw [List.all_eq_true] at this
  have := this _ h
  simp at this

theorem setLoop_ok (p : Path) (value : Str) {loc : List Seg} (h : Rep p loc) :
    match p.setLoop value with
    | (q, none) => ∃ loc', Walk loc (split value) loc' ∧ Rep q loc'
    | (q, some _) => (¬ ∃ loc', Walk loc (split value) loc') ∧
        (∃ raw ∈ split value, ¬ isDot raw ∧ ¬ isDotDot raw ∧ ¬ ∃ seg, Decodes raw seg) ∧
        ∃ loc' part, q.segments = layout 0 loc' ∧ Valid loc' ∧ q.value = lead loc' ++ part := by
  fun_induction Path.setLoop p value generalizing loc with
  | case1 p value segment q e =>
    have hstep : p.stepSegment (value.takeWhile (· != slash)) = (q, some e) := by assumption
    have hs := step_ok h (raw := value.takeWhile (· != slash)) (takeWhile_no_slash value)
    rw [hstep] at hs
    simp only at hs ⊢
    rw [split_eq]
    refine ⟨?_, ⟨_, List.mem_cons_self .., hs.1, hs.2.1, hs.2.2.1⟩, ?_⟩
    · rintro ⟨loc', hw⟩
      cases hw with
      | stay hd _ => exact hs.1 hd
      | up hd _ => exact hs.2.1 hd
      | down _ _ hd _ => exact hs.2.2.1 ⟨_, hd⟩
    · obtain ⟨part, hp⟩ := hs.2.2.2.2
      exact ⟨loc, part, by rw [hs.2.2.2.1, h.segs], h.valid, hp⟩
  | case2 p value segment q hx =>
    have hdrop : value.dropWhile (· != slash) = [] := by assumption
    have hstep : p.stepSegment (value.takeWhile (· != slash)) = (q, none) := by assumption
    have hs := step_ok h (raw := value.takeWhile (· != slash)) (takeWhile_no_slash value)
    rw [hstep] at hs
    simp only at hs ⊢
    obtain ⟨loc', hr, hw1, hw2⟩ := hs
    rw [split_eq, hdrop]
    exact ⟨loc', hw1 _ _ .done, hr⟩
  | case3 p value segment q hx c rest hdrop =>
    rename_i ih
    have hstep : p.stepSegment (value.takeWhile (· != slash)) = (q, none) := by assumption
    have hs := step_ok h (raw := value.takeWhile (· != slash)) (takeWhile_no_slash value)
    rw [hstep] at hs
    simp only at hs ⊢
    obtain ⟨loc', hr, hw1, hw2⟩ := hs
    have ih := ih hr
    have hsp : split value = value.takeWhile (· != slash) :: split rest := by
      rw [split_eq, hdrop]
    rw [hsp]
    generalize q.setLoop rest = res at ih
    obtain ⟨r, o⟩ := res
    cases o with
    | none =>
      obtain ⟨loc'', hw, hr'⟩ := ih
      exact ⟨loc'', hw1 _ _ hw, hr'⟩
    | some e =>
      obtain ⟨hn, ⟨raw, hm, hraw⟩, hex⟩ := ih
      refine ⟨?_, ⟨raw, List.mem_cons_of_mem _ hm, hraw⟩, hex⟩
      rintro ⟨final, hw⟩
      exact hn ⟨final, hw2 _ _ hw⟩

theorem walk_skip_empty (loc final : List Seg) (rest : List Str) :
    Walk loc ([] :: rest) final ↔ Walk loc rest final := by
  constructor
  · intro h
    cases h with
    | stay _ h => exact h
    | up hd _ => simp [isDotDot] at hd
    | down hd => exact absurd (.inl rfl) hd
  · exact .stay (.inl rfl)

theorem set_ok (p : Path) (value : Str) :
    match p.set value with
    | (q, none) => ∃ loc, Denotes value loc ∧ Rep q loc
    | (q, some _) => (¬ ∃ loc, Denotes value loc) ∧
        (∃ raw ∈ split value, ¬ isDot raw ∧ ¬ isDotDot raw ∧ ¬ ∃ seg, Decodes raw seg) ∧
        ∃ loc' part, q.segments = layout 0 loc' ∧ Valid loc' ∧ q.value = lead loc' ++ part := by
  unfold Path.set Denotes
  cases value with
  | nil =>
    simp only [List.isEmpty_nil, Bool.true_or, if_true]
    exact ⟨[], .stay (.inl rfl) .done, rep_default⟩
  | cons c rest =>
    by_cases he : (c :: rest) = [slash]
    · simp only [he]
      exact ⟨[], .stay (.inl rfl) (.stay (.inl rfl) .done), rep_default⟩
    · have : ((c :: rest).isEmpty || (c :: rest) == [slash]) = false := by
        simp only [List.isEmpty_cons, Bool.false_or, beq_eq_false_iff_ne]
        exact he
      simp only [this]
      by_cases hc : c = slash
      · subst hc
        simp only [if_true, split]
        have := setLoop_ok p.clear rest rep_default
        revert this
        generalize p.clear.setLoop rest = res
        obtain ⟨q, o⟩ := res
        cases o with
        | none =>
          rintro ⟨loc, hw, hr⟩
          exact ⟨loc, (walk_skip_empty ..).2 hw, hr⟩
        | some e =>
          rintro ⟨hn, ⟨raw, hm, hraw⟩, hex⟩
          refine ⟨?_, ⟨raw, List.mem_cons_of_mem _ hm, hraw⟩, hex⟩
          rintro ⟨loc, hw⟩
          exact hn ⟨loc, (walk_skip_empty ..).1 hw⟩
      · simp only [hc, if_false]
        exact setLoop_ok p.clear (c :: rest) rep_default

theorem walk_det {loc : List Seg} {raws : List Str} {a b : List Seg}
    (h1 : Walk loc raws a) (h2 : Walk loc raws b) : a = b := by
  induction h1 with
  | done => cases h2; rfl
  | stay hd _ ih =>
    cases h2 with
    | stay _ h => exact ih h
    | up hd' _ => rcases hd with rfl | rfl <;> simp [isDotDot] at hd'
    | down hd' => exact absurd hd hd'
  | up hd _ ih =>
    cases h2 with
    | stay hd' _ => rcases hd' with rfl | rfl <;> simp [isDotDot] at hd
    | up _ h => exact ih h
    | down _ hd' => exact absurd hd hd'
  | down hn1 hn2 hd _ ih =>
    cases h2 with
    | stay hd' _ => exact absurd hd' hn1
    | up hd' _ => exact absurd hd' hn2
    | down _ _ hd' h => exact ih (decodes_unique hd hd' ▸ h)


/-! ### Observation -/

/-- The segments of `p` spell `loc`; `extra` trails the buffer. -/
structure RepW (p : Path) (loc : List Seg) (extra : Str) : Prop where
  value : p.value = join loc ++ extra
  segs : p.segments = layout 0 loc
  valid : Valid loc

theorem Rep.weak {p : Path} {loc : List Seg} (h : Rep p loc) : RepW p loc [] :=
  ⟨by simp [h.value], h.segs, h.valid⟩

theorem split_at {loc : List Seg} {i : Nat} {s : Seg} (h : loc[i]? = some s) :
    ∃ pre post, loc = pre ++ s :: post ∧ pre.length = i := by
  obtain ⟨hi, rfl⟩ := List.getElem?_eq_some_iff.1 h
  exact ⟨loc.take i, loc.drop (i + 1), by
    rw [List.getElem_cons_drop, List.take_append_drop], by simp; omega⟩

theorem layout_at {loc : List Seg} (i : Nat) :
    (layout 0 loc)[i]? = (loc[i]?).map fun s => ⟨(lead (loc.take i)).length, s.length⟩ := by
  cases h : loc[i]? with
  | none =>
    rw [List.getElem?_eq_none_iff] at h
    simp only [Option.map_none, List.getElem?_eq_none_iff, layout_length]
    exact h
  | some s =>
    obtain ⟨pre, post, rfl, rfl⟩ := split_at h
    rw [layout_get]
    simp

theorem at_slice (loc : List Seg) (extra : Str) (a n i : Nat) :
    segmentAt (join loc ++ extra) (((layout 0 loc).drop a).take n) i =
      if i < n then loc[a + i]? else none := by
  unfold segmentAt
  rw [List.getElem?_take]
  by_cases hin : i < n
  · simp only [hin, if_true]
    rw [List.getElem?_drop, layout_at]
    cases h : loc[a + i]? with
    | none => rfl
    | some s =>
      obtain ⟨pre, post, rfl, hl⟩ := split_at h
      simp only [Option.map_some]
      rw [← hl, List.take_left, join_mid]
      rw [if_pos (by simp)]
      simp [substr]
  · simp only [hin, if_false]

theorem join_take_prefix (loc : List Seg) (i : Nat) (s : Seg) (h : loc[i]? = some s) (extra : Str) :
    (join loc ++ extra).take ((lead (loc.take i)).length + s.length) = join (loc.take (i + 1)) := by
  obtain ⟨pre, post, rfl, rfl⟩ := split_at h
  have h1 : (pre ++ s :: post).take (pre.length + 1) = pre ++ [s] := by
    rw [List.take_append, List.take_of_length_le (by omega)]
    simp
  rw [h1, List.take_left, join_mid, join_mid]
  simp only [trail, List.flatMap_nil, List.append_nil, List.append_assoc]
  rw [← List.append_assoc, ← List.length_append, List.take_left]

theorem prefix_slice (loc : List Seg) (extra : Str) (a n k : Nat) (ha : a ≤ loc.length)
    (hn : n ≤ loc.length - a) :
    View.prefix ⟨join loc ++ extra, ((layout 0 loc).drop a).take n⟩ k =
      if k > n then none else if k = 0 then some [] else some (join (loc.take (a + k))) := by
  unfold View.prefix
  have hlen : (((layout 0 loc).drop a).take n).length = n := by
    simp only [List.length_take, List.length_drop, layout_length]
    omega
  rw [hlen]
  by_cases hk : k > n
  · simp [hk]
  · simp only [hk, if_false]
    by_cases h0 : k = 0
    · simp [h0]
    · simp only [h0, if_false]
      have hlt : a + (k - 1) < loc.length := by omega
      have hs : loc[a + (k - 1)]? = some loc[a + (k - 1)] := List.getElem?_eq_getElem hlt
      rw [List.getElem?_take_of_lt (by omega), List.getElem?_drop, layout_at, hs]
      simp only [Option.map_some]
      rw [join_take_prefix loc _ _ hs]
      congr 3
      omega

theorem joined_rep {p : Path} {loc : List Seg} (h : Rep p loc) (k : Nat) :
    p.joined k = join (loc.drop k) := by
  unfold Path.joined
  rw [h.segs, layout_at, h.value]
  cases hk : loc[k]? with
  | none =>
    rw [List.getElem?_eq_none_iff] at hk
    simp [List.drop_eq_nil_of_le hk, join]
  | some s =>
    obtain ⟨pre, post, rfl, rfl⟩ := split_at hk
    simp only [Option.map_some]
    rw [List.take_left, List.drop_left, join_mid, join_cons]
    simp

/-! ### Injectivity and addressability -/

theorem split_prefix (s rest : Str) (hs : slash ∉ s) :
    split (s ++ slash :: rest) = s :: split rest := by
  induction s with
  | nil => simp [split]
  | cons c cs ih =>
    simp only [List.mem_cons, not_or] at hs
    have hc : ¬ c = slash := fun h => hs.1 h.symm
    simp only [List.cons_append, split, hc, if_false, ih hs.2]

theorem split_single (s : Str) (hs : slash ∉ s) : split s = [s] := by
  induction s with
  | nil => simp [split]
  | cons c cs ih =>
    simp only [List.mem_cons, not_or] at hs
    have hc : ¬ c = slash := fun h => hs.1 h.symm
    simp only [split, hc, if_false, ih hs.2]

theorem split_join {l : List Str} (hl : l ≠ []) (hs : ∀ s ∈ l, slash ∉ s) :
    split (join l) = l := by
  induction l with
  | nil => exact absurd rfl hl
  | cons s ss ih =>
    cases ss with
    | nil => exact split_single s (hs s (by simp))
    | cons t ts =>
      have : join (s :: t :: ts) = s ++ slash :: join (t :: ts) := rfl
      rw [this, split_prefix _ _ (hs s (by simp)), ih (by simp) (fun u hu => hs u (by simp [hu]))]

theorem join_inj {a b : List Seg} (ha : Valid a) (hb : Valid b) (h : join a = join b) : a = b := by
  by_cases ha0 : a = []
  · subst ha0
    exact ((join_eq_nil hb).1 h.symm).symm
  · by_cases hb0 : b = []
    · subst hb0
      exact (join_eq_nil ha).1 h
    · have h1 := split_join ha0 (fun s hs => (ha s hs).2)
      have h2 := split_join hb0 (fun s hs => (hb s hs).2)
      rw [← h1, h, h2]

theorem walk_encodes {raws : List Str} {segs : List Seg} (h : Encodes raws segs)
    (loc : List Seg) : Walk loc raws (loc ++ segs) := by
  induction h generalizing loc with
  | nil => simpa using Walk.done
  | @cons raw seg raws segs h1 h2 h3 _ ih =>
    refine .down h1 h2 h3 ?_
    have := ih (loc ++ [seg])
    simpa using this

theorem hexChar_digit (n : Nat) (h : n < 16) : hexDigit (hexChar n) n := by
  have : ∀ n < 16, hexDigit (hexChar n) n := by decide +kernel
  exact this n h

theorem hexChar_ne_slash (n : Nat) (h : n < 16) : hexChar n ≠ slash := by
  have : ∀ n < 16, hexChar n ≠ slash := by decide +kernel
  exact this n h

theorem decodes_percentEncode (s : Seg) (h : slash ∉ s) : Decodes (percentEncode s) s := by
  induction s with
  | nil => exact .nil
  | cons c cs ih =>
    simp only [List.mem_cons, not_or] at h
    have hc : c.toNat < 256 := c.isLt
    have e : 16 * (c.toNat / 16) + c.toNat % 16 = c.toNat := by omega
    have := Decodes.esc (hexChar_digit (c.toNat / 16) (by omega))
      (hexChar_digit (c.toNat % 16) (by omega)) (by
        rw [e]; intro he; apply h.1
        apply BitVec.eq_of_toNat_eq
        rw [he]; rfl) (ih h.2)
    rw [e] at this
    simpa [percentEncode] using this

theorem percentEncode_no_slash (s : Seg) : slash ∉ percentEncode s := by
  intro h
  simp only [percentEncode, List.mem_flatMap, List.mem_cons, List.not_mem_nil, or_false] at h
  obtain ⟨c, _, h | h | h⟩ := h
  · exact absurd h (by decide)
  · exact hexChar_ne_slash _ (by have := c.isLt; omega) h.symm
  · exact hexChar_ne_slash _ (by have := c.isLt; omega) h.symm

theorem percentEncode_shape (s : Seg) (h : s ≠ []) :
    ¬ isDot (percentEncode s) ∧ ¬ isDotDot (percentEncode s) := by
  cases s with
  | nil => exact absurd rfl h
  | cons c cs =>
    simp [percentEncode, isDot, isDotDot]

theorem encodes_percentEncode {loc : List Seg} (h : Valid loc) :
    Encodes (loc.map percentEncode) loc := by
  induction loc with
  | nil => exact .nil
  | cons s ss ih =>
    have hv := h s (by simp)
    have hp := percentEncode_shape s hv.1
    exact .cons hp.1 hp.2 (decodes_percentEncode s hv.2) (ih fun t ht => h t (by simp [ht]))

end Verif.Path
