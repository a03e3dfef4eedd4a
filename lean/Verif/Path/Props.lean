import Verif.Path.Lemmas
/-
Properties C11-C16 of `kl::path`.
-/
namespace Verif.Path
open Spec

/-- Bytes of an ASCII literal, for the examples. -/
def str (s : String) : Str := s.toList.map fun c => BitVec.ofNat 8 c.toNat

/-- C11: a successful parse yields exactly the location the text denotes (`Denotes`:
split at '/', drop empty and ".", ".." cancels, decode every other segment once),
whatever the object held before. -/
theorem C11_normalisation (p : Path) (v : Str) (q : Path) (h : p.set v = (q, none)) :
    ∃ loc, Denotes v loc ∧ q.size = loc.length ∧ ∀ i, q.at i = loc[i]? := by
  have hs := set_ok p v
  rw [h] at hs
  obtain ⟨loc, hd, hr⟩ := hs
  refine ⟨loc, hd, by rw [Path.size, hr.segs, layout_length], fun i => ?_⟩
  have := at_slice loc [] 0 (loc.length) i
  rw [List.drop_zero, List.take_of_length_le (by rw [layout_length]; omega), List.append_nil,
    ← hr.segs, ← hr.value] at this
  unfold Path.at
  rw [this, Nat.zero_add]
  split
  · rfl
  · rw [List.getElem?_eq_none (by omega)]

/-- C11: a text denotes at most one location, so `C11_normalisation` determines the result. -/
theorem C11_denotes_unique (v : Str) (a b : List Seg) (h1 : Denotes v a) (h2 : Denotes v b) :
    a = b := walk_det h1 h2

example : Path.default.set (str "/a//./b/../%2e%2E/c%41/") =
    (⟨str "a/../cA", [⟨0, 1⟩, ⟨2, 2⟩, ⟨5, 2⟩]⟩, none) := by
  decide +kernel

/-- C12: parsing throws iff some name segment is not well escaped. -/
theorem C12_rejects (p : Path) (v : Str) :
    (p.set v).2 ≠ none ↔
      ∃ raw ∈ split v, ¬ isDot raw ∧ ¬ isDotDot raw ∧ ¬ WellEscaped raw := by
  have hs := set_ok p v
  revert hs
  generalize p.set v = res
  obtain ⟨q, o⟩ := res
  cases o with
  | none =>
    rintro ⟨loc, hd, hrep⟩
    clear hrep
    simp only [ne_eq, not_true_eq_false, false_iff]
    rintro ⟨raw, hm, hn1, hn2, hw⟩
    rw [← decodes_iff_wellEscaped] at hw
    unfold Denotes at hd
    generalize [] = start at hd
    generalize split v = raws at hd hm
    induction hd with
    | done => simp at hm
    | stay hd _ ih =>
      rcases List.mem_cons.1 hm with rfl | hm
      · exact hn1 hd
      · exact ih hm
    | up hd _ ih =>
      rcases List.mem_cons.1 hm with rfl | hm
      · exact hn2 hd
      · exact ih hm
    | down _ _ hd _ ih =>
      rcases List.mem_cons.1 hm with rfl | hm
      · exact hw ⟨_, hd⟩
      · exact ih hm
  | some e =>
    rintro ⟨_, ⟨raw, hm, hn1, hn2, hw⟩, _⟩
    simp only [ne_eq, reduceCtorEq, not_false_eq_true, true_iff]
    exact ⟨raw, hm, hn1, hn2, by rwa [← decodes_iff_wellEscaped]⟩

example : (Path.default.set (str "a/%2f")).2 = some .containsSlash := by
  decide +kernel
example : (Path.default.set (str "a/%4")).2 = some .invalidPercent := by
  decide +kernel

/-- C13: what a valid path object looks like through its whole read interface: `joined`,
`operator[]`, and every view obtained by dropping `a` segments in front and keeping `n`. -/
structure Observes (p : Path) (loc : List Seg) : Prop where
  valid : Valid loc
  size : p.size = loc.length
  emp : p.empty = loc.isEmpty
  at_ : ∀ i, p.at i = loc[i]?
  joined : ∀ k, p.joined k = join (loc.drop k)

/-- Dropping `a` segments at the front, then `b` at the back; `none` if that runs past
the end. -/
def dropFronts : Nat → View → Option View
  | 0, w => some w
  | n + 1, w => w.dropFront.bind (dropFronts n)
def dropBacks : Nat → View → Option View
  | 0, w => some w
  | n + 1, w => w.dropBack.bind (dropBacks n)

theorem dropFronts_eq (a : Nat) (w : View) : dropFronts a w =
    if a ≤ w.segments.length then some ⟨w.value, w.segments.drop a⟩ else none := by
  induction a generalizing w with
  | zero => simp [dropFronts]
  | succ a ih =>
    unfold dropFronts View.dropFront
    cases h : w.segments with
    | nil => simp
    | cons s ss => simp [ih]

theorem dropBacks_eq (b : Nat) (w : View) : dropBacks b w =
    if b ≤ w.segments.length then some ⟨w.value, w.segments.take (w.segments.length - b)⟩
    else none := by
  induction b generalizing w with
  | zero => simp [dropBacks]
  | succ b ih =>
    unfold dropBacks View.dropBack
    cases h : w.segments with
    | nil => simp
    | cons s ss =>
      simp only [Option.bind_some, ih, List.length_take, List.length_cons, List.take_take]
      by_cases hb : b + 1 ≤ ss.length + 1
      · rw [if_pos (by omega), if_pos hb]
        congr 3
        omega
      · rw [if_neg (by omega), if_neg hb]

theorem observes_of_rep {p : Path} {loc : List Seg} (hr : Rep p loc) : Observes p loc where
  valid := hr.valid
  size := by rw [Path.size, hr.segs, layout_length]
  emp := by
    have : p.segments.length = loc.length := by rw [hr.segs, layout_length]
    unfold Path.empty
    cases h1 : p.segments <;> cases h2 : loc <;> simp [h1, h2] at this <;> rfl
  at_ := by
    intro i
    have := at_slice loc [] 0 (loc.length) i
    rw [List.drop_zero, List.take_of_length_le (by rw [layout_length]; omega), List.append_nil,
      ← hr.segs, ← hr.value] at this
    unfold Path.at
    rw [this, Nat.zero_add]
    split
    · rfl
    · rw [List.getElem?_eq_none (by omega)]
  joined := joined_rep hr

/-- C13: every path object holds non-empty, slash-free segments and every observer agrees
with them; this covers default construction, `clear` and a successful `set` from any state. -/
theorem C13_invariants :
    Observes Path.default [] ∧ (∀ p : Path, Observes p.clear []) ∧
    ∀ (p q : Path) (v : Str), p.set v = (q, none) → ∃ loc, Denotes v loc ∧ Observes q loc := by
  refine ⟨observes_of_rep rep_default, fun _ => observes_of_rep rep_default, fun p q v h => ?_⟩
  have hs := set_ok p v
  rw [h] at hs
  obtain ⟨loc, hd, hr⟩ := hs
  exact ⟨loc, hd, observes_of_rep hr⟩

/-- C13, views: dropping `a` segments in front and `b` at the back of a parsed path is
defined iff there are that many, and then `size`, `operator[]` and `prefix` show the
corresponding slice; `prefix k` is the location of the `k`-th shown segment, from the root. -/
theorem C13_views (p q : Path) (v : Str) (h : p.set v = (q, none)) (loc : List Seg)
    (hd : Denotes v loc) (a b : Nat) :
    ((dropFronts a q.view).bind (dropBacks b) = none ↔ loc.length < a + b) ∧
    ∀ w, (dropFronts a q.view).bind (dropBacks b) = some w →
      w.size = loc.length - a - b ∧
      (∀ i, w.at i = ((loc.drop a).take (loc.length - a - b))[i]?) ∧
      (∀ k, w.prefix k = if k > loc.length - a - b then none
        else if k = 0 then some [] else some (join (loc.take (a + k)))) := by
  have hs := set_ok p v
  rw [h] at hs
  obtain ⟨loc', hd', hr⟩ := hs
  have := walk_det hd hd'
  subst this
  have hlen : q.view.segments.length = loc.length := by
    show q.segments.length = _
    rw [hr.segs, layout_length]
  rw [dropFronts_eq, hlen]
  by_cases ha : a ≤ loc.length
  · rw [if_pos ha]
    simp only [Option.bind_some]
    rw [dropBacks_eq]
    simp only [List.length_drop, hlen]
    by_cases hb : b ≤ loc.length - a
    · rw [if_pos hb]
      refine ⟨by simp; omega, ?_⟩
      intro w hw
      simp only [Option.some.injEq] at hw
      subst hw
      have e1 : q.view.value = join loc ++ [] := by simp [Path.view, hr.value]
      have e2 : q.view.segments = layout 0 loc := hr.segs
      rw [e1, e2]
      refine ⟨?_, ?_, ?_⟩
      · simp only [View.size, List.length_take, List.length_drop, layout_length]; omega
      · intro i
        show segmentAt _ _ _ = _
        rw [at_slice, List.getElem?_take, List.getElem?_drop]
      · intro k
        exact prefix_slice loc [] a _ k ha (by omega)
    · rw [if_neg hb]
      exact ⟨by simp; omega, by simp⟩
  · rw [if_neg ha]
    exact ⟨by simp; omega, by simp⟩

example : ∃ q, Path.default.set (str "/x/yy") = (q, none) ∧
    (dropFronts 1 q.view).bind (·.prefix 1) = some (str "x/yy") := by
  refine ⟨⟨str "x/yy", [⟨0, 1⟩, ⟨2, 2⟩]⟩, ?_, by decide⟩
  decide +kernel

/-- C14: the joined text determines the location. -/
theorem C14_join_injective (a b : List Seg) (ha : Valid a) (hb : Valid b)
    (h : join a = join b) : a = b := join_inj ha hb h

/-- C14: two parsed paths whose prefixes of `k` and `l` segments are the same string agree
on those segments (and `k = l`). -/
theorem C14_prefix_injective (p p' q q' : Path) (v v' : Str) (h : p.set v = (q, none))
    (h' : p'.set v' = (q', none)) (k l : Nat) (s : Str)
    (hk : q.view.prefix k = some s) (hl : q'.view.prefix l = some s) :
    k = l ∧ ∀ i, i < k → q.at i = q'.at i := by
  have hs := set_ok p v
  rw [h] at hs
  obtain ⟨loc, _, hr⟩ := hs
  have hs := set_ok p' v'
  rw [h'] at hs
  obtain ⟨loc', _, hr'⟩ := hs
  have key : ∀ {q : Path} {loc : List Seg} (_ : Rep q loc) (k : Nat) (s : Str),
      q.view.prefix k = some s → k ≤ loc.length ∧ s = join (loc.take k) := by
    intro q loc hr k s hk
    have := prefix_slice loc [] 0 loc.length k (by omega) (by omega)
    rw [List.drop_zero, List.take_of_length_le (by rw [layout_length]; omega), List.append_nil,
      ← hr.segs, ← hr.value] at this
    have hk' : q.view.prefix k = some s := hk
    unfold Path.view at hk'
    rw [this] at hk'
    split at hk'
    · simp at hk'
    · split at hk'
      · rename_i h0
        subst h0
        simp only [Option.some.injEq] at hk'
        exact ⟨by omega, by rw [← hk']; simp [join]⟩
      · simp only [Nat.zero_add, Option.some.injEq] at hk'
        exact ⟨by omega, hk'.symm⟩
  obtain ⟨k1, e1⟩ := key hr k s hk
  obtain ⟨l1, e2⟩ := key hr' l s hl
  have hj : loc.take k = loc'.take l :=
    join_inj (fun s hs => hr.valid s (List.mem_of_mem_take hs))
      (fun s hs => hr'.valid s (List.mem_of_mem_take hs)) (e1 ▸ e2)
  have hkl : k = l := by
    have := congrArg List.length hj
    simp only [List.length_take] at this
    omega
  refine ⟨hkl, fun i hi => ?_⟩
  rw [(observes_of_rep hr).at_, (observes_of_rep hr').at_]
  have := congrArg (·[i]?) hj
  simp only [List.getElem?_take] at this
  rw [if_pos hi, if_pos (by omega)] at this
  exact this

example : Valid [str "a", str "b"] ∧ Valid [str "a", str "c"] := by
  simp [Valid, ValidSeg, str]
-- validity matters: an empty or slash-containing segment would collide
example : join [str "a/b"] = join [str "a", str "b"] := by decide

theorem split_join_slash {raws : List Str} (hs : ∀ r ∈ raws, slash ∉ r) (segs : List Seg)
    (h : Encodes raws segs) : Denotes (join raws) segs := by
  unfold Denotes
  by_cases h0 : raws = []
  · subst h0
    cases h
    exact .stay (.inl rfl) .done
  · rw [split_join h0 hs]
    simpa using walk_encodes h []

/-- C15: any list of names written with any valid encoding parses back to that list. -/
theorem C15_any_encoding (p : Path) (raws : List Str) (segs : List Seg)
    (hs : ∀ r ∈ raws, slash ∉ r) (h : Encodes raws segs) :
    ∃ q, p.set (join raws) = (q, none) ∧ Observes q segs := by
  have hd := split_join_slash hs segs h
  have hs := set_ok p (join raws)
  revert hs
  generalize p.set (join raws) = res
  obtain ⟨q, o⟩ := res
  cases o with
  | none =>
    rintro ⟨loc, hd', hr⟩
    have := walk_det hd hd'
    subst this
    exact ⟨q, rfl, observes_of_rep hr⟩
  | some e =>
    rintro ⟨hn, _⟩
    exact absurd ⟨_, hd⟩ hn

/-- C15: every list of non-empty slash-free byte strings is the parse of its
percent-encoding. -/
theorem C15_addressable (p : Path) (segs : List Seg) (h : Valid segs) :
    ∃ q, p.set (join (segs.map percentEncode)) = (q, none) ∧ Observes q segs := by
  refine C15_any_encoding p _ segs ?_ (encodes_percentEncode h)
  intro r hr
  obtain ⟨s, _, rfl⟩ := List.mem_map.1 hr
  exact percentEncode_no_slash s

example : Valid [str "..", str "%", [0#8, 255#8]] := by simp [Valid, ValidSeg, str]

/-- C16 (violated): after a failed `set` the buffer keeps the partially decoded segment, so
`joined(0)` is not the text of the segments the object shows. -/
theorem C16_failed_set_violated :
    ∃ (v : Str) (q : Path) (e : ParseError), Path.default.set v = (q, some e) ∧
      ∀ loc : List Seg, q.size = loc.length → (∀ i, q.at i = loc[i]?) →
        q.joined 0 ≠ join loc := by
  refine ⟨str "/a/b%", ⟨str "a/b", [⟨0, 1⟩]⟩, .invalidPercent, ?_, ?_⟩
  · decide +kernel
  · intro loc hl ha
    match loc, hl with
    | [s], _ =>
      have := ha 0
      have h0 : Path.at ⟨str "a/b", [⟨0, 1⟩]⟩ 0 = some (str "a") := by decide
      rw [h0] at this
      simp only [List.getElem?_cons_zero, Option.some.injEq] at this
      subst this
      decide

/-- C16 (partial; missing: `joined`, which the code gets wrong): after a failed `set` the
segment list, `operator[]` and every `prefix` are those of a valid location, and the next
`set` is unaffected by the failure. -/
theorem C16_failed_set_partial (p q : Path) (v : Str) (e : ParseError)
    (h : p.set v = (q, some e)) :
    (∃ loc, Valid loc ∧ q.size = loc.length ∧ (∀ i, q.at i = loc[i]?) ∧
      (∀ k, q.view.prefix k = if k > loc.length then none else some (join (loc.take k))) ∧
      join loc <+: q.joined 0) ∧
    ∀ v', q.set v' = Path.default.set v' := by
  refine ⟨?_, fun _ => rfl⟩
  have hs := set_ok p v
  rw [h] at hs
  obtain ⟨_, _, loc, part, hsegs, hval, hv⟩ := hs
  obtain ⟨extra, he⟩ : ∃ extra, q.value = join loc ++ extra := by
    by_cases h0 : loc = []
    · subst h0; exact ⟨part, by simpa [lead, join] using hv⟩
    · exact ⟨slash :: part, by rw [hv, lead_eq_join h0]; simp⟩
  have hlay : q.segments = ((layout 0 loc).drop 0).take loc.length := by
    rw [hsegs, List.drop_zero, List.take_of_length_le (by rw [layout_length]; omega)]
  refine ⟨loc, hval, by rw [Path.size, hsegs, layout_length], fun i => ?_, fun k => ?_, ?_⟩
  · unfold Path.at
    rw [he, hlay, at_slice, Nat.zero_add]
    split
    · rfl
    · rw [List.getElem?_eq_none (by omega)]
  · have : q.view = ⟨join loc ++ extra, ((layout 0 loc).drop 0).take loc.length⟩ := by
      unfold Path.view; rw [he, hlay]
    rw [this, prefix_slice _ _ _ _ _ (by omega) (by omega), Nat.zero_add]
    by_cases h0 : k = 0
    · subst h0; simp [join]
    · simp [h0]
  · unfold Path.joined
    rw [hsegs, layout_at]
    cases loc with
    | nil => simp [join]
    | cons s ss => simp [lead, he]

example : ∃ q e, Path.default.set (str "/a/b%") = (q, some e) :=
  ⟨⟨str "a/b", [⟨0, 1⟩]⟩, .invalidPercent, by
    decide +kernel⟩

end Verif.Path
