import Verif.Enums.Range

/-!
Property theorems for enum sets, enum reflection, enum ranges and the iterator facade
(C53-C58, C68, C69).
-/

namespace Verif.Enums

variable {s : Bool} {w : Nat}

/-! ### C53 -/

/-- Membership of a flag: the spec reads an `enum_set` as the set of its bits. -/
def EnumSet.Mem (x : EnumSet s w) (i : Nat) : Prop := x.value.getLsbD i = true

/-- C53: the operators are the set operations. -/
theorem C53_bits (x y : EnumSet s w) (i : Nat) (hi : i < w) :
    ((x.or y).Mem i ↔ x.Mem i ∨ y.Mem i) ∧
    ((x.and y).Mem i ↔ x.Mem i ∧ y.Mem i) ∧
    ((x.xor y).Mem i ↔ ¬ (x.Mem i ↔ y.Mem i)) ∧
    (x.not.Mem i ↔ ¬ x.Mem i) ∧
    ¬ (EnumSet.empty : EnumSet s w).Mem i := by
  simp only [or_eq, and_eq, xor_eq, not_eq, EnumSet.Mem, EnumSet.empty]
  refine ⟨by simp, by simp, ?_, ?_, by simp⟩
  · simp only [BitVec.getLsbD_xor]
    cases x.value.getLsbD i <;> cases y.value.getLsbD i <;> simp
  · simp [BitVec.getLsbD_not, hi]

example : ((EnumSet.of 0x41#8 : EnumSet true 8).or (.of 0x80#8)).value = 0xC1#8 ∧
    ((EnumSet.of 0x81#8 : EnumSet true 8).not).value = 0x7E#8 := by decide

theorem set_ext {x y : EnumSet s w} : x = y ↔ ∀ i, i < w → (x.Mem i ↔ y.Mem i) := by
  refine ⟨by rintro rfl; simp, fun h => ?_⟩
  cases x; cases y
  congr 1
  apply BitVec.eq_of_getLsbD_eq
  intro i hi
  have := h i hi
  simp only [EnumSet.Mem] at this
  exact Bool.eq_iff_iff.mpr this

/-- C53: the queries: inclusion, non-empty intersection, equality, non-emptiness. -/
theorem C53_queries (x y : EnumSet s w) :
    (x.hasAll y = true ↔ ∀ i, i < w → y.Mem i → x.Mem i) ∧
    (x.hasAny y = true ↔ ∃ i, i < w ∧ x.Mem i ∧ y.Mem i) ∧
    (x.toBool = true ↔ ∃ i, i < w ∧ x.Mem i) ∧
    (x.beq y = true ↔ ∀ i, i < w → (x.Mem i ↔ y.Mem i)) ∧
    (x.bne y = true ↔ ¬ ∀ i, i < w → (x.Mem i ↔ y.Mem i)) := by
  have hne : ∀ z : EnumSet s w, z ≠ .empty ↔ ∃ i, i < w ∧ z.Mem i := by
    intro z
    rw [Ne, set_ext]
    simp only [Classical.not_forall]
    constructor
    · rintro ⟨i, hi, h⟩
      have h0 := (C53_bits z z i hi).2.2.2.2
      exact ⟨i, hi, Classical.byContradiction fun hz => h ⟨fun a => absurd a hz, fun a => absurd a h0⟩⟩
    · rintro ⟨i, hi, h⟩
      have h0 := (C53_bits z z i hi).2.2.2.2
      exact ⟨i, hi, fun hh => h0 (hh.1 h)⟩
  have hbne : ∀ a b : EnumSet s w, a.bne b = true ↔ a ≠ b := by
    intro a b
    rw [Ne, ← beq_iff a b]
    simp [EnumSet.bne]
  refine ⟨?_, ?_, ?_, ?_, ?_⟩
  · unfold EnumSet.hasAll
    rw [beq_iff, set_ext]
    constructor
    · intro h i hi hy
      exact ((C53_bits x y i hi).2.1.1 ((h i hi).2 hy)).1
    · intro h i hi
      rw [(C53_bits x y i hi).2.1]
      exact ⟨fun a => a.2, fun a => ⟨h i hi a, a⟩⟩
  · unfold EnumSet.hasAny
    rw [hbne, hne]
    constructor
    · rintro ⟨i, hi, h⟩; exact ⟨i, hi, (C53_bits x y i hi).2.1.1 h⟩
    · rintro ⟨i, hi, h⟩; exact ⟨i, hi, (C53_bits x y i hi).2.1.2 h⟩
  · rw [← hne]
    unfold EnumSet.toBool EnumSet.underlying
    rw [bne_iff_ne, Ne, promo_eq_zero]
    cases x
    simp [EnumSet.empty]
  · rw [beq_iff, set_ext]
  · rw [hbne, Ne, set_ext]

example : (EnumSet.of 7#8 : EnumSet false 8).hasAll (.of 5#8) = true ∧
    (EnumSet.of 3#8 : EnumSet false 8).hasAll (.of 5#8) = false ∧
    (EnumSet.of 3#8 : EnumSet false 8).hasAny (.of 5#8) = true ∧
    (EnumSet.of 3#8 : EnumSet false 8).hasAny (.of 4#8) = false := by decide

/-- C53: the laws of Boolean algebra as equations between values. -/
theorem C53_algebra (x y z : EnumSet s w) :
    x.or y = y.or x ∧ x.and y = y.and x ∧ x.xor y = y.xor x ∧
    (x.or y).or z = x.or (y.or z) ∧ (x.and y).and z = x.and (y.and z) ∧
    (x.xor y).xor z = x.xor (y.xor z) ∧
    x.and (y.or z) = (x.and y).or (x.and z) ∧ x.or (y.and z) = (x.or y).and (x.or z) ∧
    x.or (x.and y) = x ∧ x.and (x.or y) = x ∧
    x.or .empty = x ∧ x.and EnumSet.empty.not = x ∧
    x.or x.not = EnumSet.empty.not ∧ x.and x.not = .empty ∧
    x.not.not = x ∧ (x.or y).not = x.not.and y.not ∧ (x.and y).not = x.not.or y.not ∧
    x.xor y = (x.and y.not).or (y.and x.not) ∧ x.xor x = .empty := by
  refine ⟨?_, ?_, ?_, ?_, ?_, ?_, ?_, ?_, ?_, ?_, ?_, ?_, ?_, ?_, ?_, ?_, ?_, ?_, ?_⟩ <;>
  · rw [set_ext]
    intro i hi
    have ho := fun a b => (C53_bits (s := s) a b i hi).1
    have ha := fun a b => (C53_bits (s := s) a b i hi).2.1
    have hx := fun a b => (C53_bits (s := s) a b i hi).2.2.1
    have hn := fun a => (C53_bits (s := s) a a i hi).2.2.2.1
    have h0 := (C53_bits x x i hi).2.2.2.2
    simp only [ho, ha, hx, hn, h0]
    by_cases h1 : x.Mem i <;> by_cases h2 : y.Mem i <;> by_cases h3 : z.Mem i <;>
      simp [h1, h2, h3]

/-- C53: the order is that of the underlying integers. -/
theorem C53_order (x y : EnumSet s w) :
    x.lt y = true ↔ (if s then x.value.toInt < y.value.toInt else x.value.toNat < y.value.toNat) := by
  unfold EnumSet.lt
  cases s
  · simp [BitVec.ult]
  · simp [BitVec.slt]

example : (EnumSet.of 0x80#8 : EnumSet true 8).lt (.of 1#8) = true ∧
    (EnumSet.of 0x80#8 : EnumSet false 8).lt (.of 1#8) = false := by decide

/-- C53: every overload and compound assignment agrees with the basic operator applied to
the singleton set. -/
theorem C53_overloads (x y : EnumSet s w) (e : BitVec w) :
    x.orE e = x.or (.of e) ∧ x.andE e = x.and (.of e) ∧ x.xorE e = x.xor (.of e) ∧
    EnumSet.eOr e x = (EnumSet.of e).or x ∧ EnumSet.eAnd e x = (EnumSet.of e).and x ∧
    EnumSet.eXor e x = (EnumSet.of e).xor x ∧
    x.orAssign y = x.or y ∧ x.andAssign y = x.and y ∧ x.xorAssign y = x.xor y ∧
    x.orAssignE e = x.or (.of e) ∧ x.andAssignE e = x.and (.of e) ∧
    x.xorAssignE e = x.xor (.of e) ∧
    x.beqE e = x.beq (.of e) ∧ x.bneE e = x.bne (.of e) ∧ x.ltE e = x.lt (.of e) ∧
    EnumSet.eBeq e x = (EnumSet.of e).beq x ∧ EnumSet.eBne e x = (EnumSet.of e).bne x ∧
    EnumSet.eLt e x = (EnumSet.of e).lt x ∧
    x.hasAnyE e = x.hasAny (.of e) ∧ x.hasAllE e = x.hasAll (.of e) ∧
    x.test e = x.hasAll (.of e) := by
  have hb : ∀ a b : EnumSet s w, a.beq b = b.beq a := by
    intro a b
    rw [Bool.eq_iff_iff, beq_iff, beq_iff]
    exact ⟨Eq.symm, Eq.symm⟩
  obtain ⟨h1, h2, h3, -⟩ := C53_algebra x (.of e) x
  refine ⟨rfl, rfl, rfl, h1, h2, h3, rfl, rfl, rfl, rfl, rfl, rfl, rfl, rfl, rfl, hb _ _, ?_, rfl,
    rfl, rfl, rfl⟩
  show (!(x.beq (.of e))) = !((EnumSet.of e).beq x)
  rw [hb]

/-! ### C54, C55 -/

/-- C54: `to_string` is total, never leaves the table, and returns the name of the first
entry with the value, the default if there is none. -/
theorem C54_to_string (t : IT) (ht : t.WF) (rng : List Entry) (hr : rng ≠ [])
    (htab : ∀ e ∈ rng, t.InRange e.value) (v : Int) (hv : t.InRange v) (d : String) :
    toStr t rng v d = some (((rng.find? fun e => e.value = v).map Entry.name).getD d) :=
  toStr_eq ht hr htab hv

/-- An ordinary table: the fast path is taken, with a negative value. -/
example : isOrdinary ⟨true, 8⟩ [⟨0, "a"⟩, ⟨1, "b"⟩, ⟨2, "c"⟩] = some true ∧
    toStr ⟨true, 8⟩ [⟨0, "a"⟩, ⟨1, "b"⟩, ⟨2, "c"⟩] 1 "?" = some "b" ∧
    toStr ⟨true, 8⟩ [⟨0, "a"⟩, ⟨1, "b"⟩, ⟨2, "c"⟩] (-1) "?" = some "?" ∧
    toStr ⟨true, 8⟩ [⟨0, "a"⟩, ⟨1, "b"⟩, ⟨2, "c"⟩] 3 "?" = some "?" := by decide

/-- A table that is not ordinary although its ends are right. -/
example : isOrdinary ⟨true, 32⟩ [⟨0, "a"⟩, ⟨3, "b"⟩, ⟨2, "c"⟩] = some false ∧
    toStr ⟨true, 32⟩ [⟨0, "a"⟩, ⟨3, "b"⟩, ⟨2, "c"⟩] 3 "?" = some "b" ∧
    (∀ e ∈ [(⟨0, "a"⟩ : Entry), ⟨3, "b"⟩, ⟨2, "c"⟩], (⟨true, 32⟩ : IT).InRange e.value) := by decide

/-- C54: the fast path is taken exactly for the tables 0, 1, ..., n-1. -/
theorem C54_ordinary_iff (t : IT) (ht : t.WF) (rng : List Entry) (hr : rng ≠ [])
    (htab : ∀ e ∈ rng, t.InRange e.value) :
    isOrdinary t rng = some true ↔ ∀ i (hi : i < rng.length), rng[i].value = i :=
  isOrdinary_iff ht hr htab

/-- C55: `from_string` is the value of the first entry with the name. -/
theorem C55_from_string (rng : List Entry) (str : String) :
    fromStr rng str = (rng.find? fun e => e.name = str).map Entry.value :=
  fromStr_eq str rng

example : fromStr [⟨0, "a"⟩, ⟨5, "b"⟩, ⟨7, "b"⟩] "b" = some 5 ∧
    fromStr [⟨0, "a"⟩, ⟨5, "b"⟩] "c" = none := by decide

/-- C55: parsing the printed name gives the value back, for listed values when the names
are unique (values may repeat). -/
theorem C55_roundtrip (t : IT) (ht : t.WF) (rng : List Entry)
    (htab : ∀ e ∈ rng, t.InRange e.value) (huniq : (rng.map Entry.name).Nodup)
    (v : Int) (hv : v ∈ rng.map Entry.value) (d : String) :
    ∃ n, toStr t rng v d = some n ∧ fromStr rng n = some v := by
  obtain ⟨e, he, rfl⟩ := List.mem_map.mp hv
  have hr : rng ≠ [] := by rintro rfl; simp at he
  rw [toStr_eq ht hr htab (htab e he)]
  refine ⟨_, rfl, ?_⟩
  rw [fromStr_eq]
  have hsome : ∃ x, rng.find? (fun x => decide (x.value = e.value)) = some x := by
    have : (rng.find? (fun x => decide (x.value = e.value))).isSome := by
      rw [List.find?_isSome]; exact ⟨e, he, by simp⟩
    exact Option.isSome_iff_exists.mp this
  obtain ⟨x, hx⟩ := hsome
  rw [hx]
  have hxv : x.value = e.value := by simpa using List.find?_some hx
  have hxm := List.mem_of_find?_eq_some hx
  simp only [Option.map_some, Option.getD_some]
  rw [find_name_of_nodup huniq hxm]
  simp [hxv]

example : ([(⟨0, "a"⟩ : Entry), ⟨5, "b"⟩, ⟨5, "c"⟩].map Entry.name).Nodup ∧
    toStr ⟨false, 8⟩ [⟨0, "a"⟩, ⟨5, "b"⟩, ⟨5, "c"⟩] 5 "?" = some "b" := by decide

/-- C55: conversely, printing a parsed value gives the name back when values are unique, and
`values()` lists the parsed values in table order, `count()` of them. -/
theorem C55_roundtrip_str (t : IT) (ht : t.WF) (rng : List Entry)
    (htab : ∀ e ∈ rng, t.InRange e.value) (huniq : (rng.map Entry.value).Nodup)
    (str : String) (v : Int) (h : fromStr rng str = some v) (d : String) :
    toStr t rng v d = some str ∧ v ∈ values rng ∧ (values rng).length = count rng := by
  rw [fromStr_eq, Option.map_eq_some_iff] at h
  obtain ⟨e, he, rfl⟩ := h
  have hm := List.mem_of_find?_eq_some he
  have hn : e.name = str := by simpa using List.find?_some he
  have hr : rng ≠ [] := by rintro rfl; simp at hm
  refine ⟨?_, List.mem_map.mpr ⟨e, hm, rfl⟩, by simp [values, count]⟩
  rw [toStr_eq ht hr htab (htab e hm), find_value_of_nodup huniq hm]
  simp [hn]

/-! ### C56 -/

/-- C56: `for_each_enum(first, last)` terminates and calls the function on exactly the
values from `first` to `last - 1`, increasing, each once; nothing if `last ≤ first`. -/
theorem C56_for_each (t : IT) (ht : t.WF) (first last : Int)
    (hf : t.InRange first) (hl : t.InRange last) :
    ∃ l, ForEach t last first l ∧ l.Pairwise (· < ·) ∧ (∀ v, v ∈ l ↔ first ≤ v ∧ v < last) ∧
      l.length = (last - first).toNat ∧ ∀ l', ForEach t last first l' → l' = l := by
  refine ⟨ints first (last - first).toNat, forEach_ints ht hf hl, ints_pairwise _ _, ?_,
    by simp [ints], ?_⟩
  · intro v; rw [mem_ints]; omega
  · intro l' h'; exact forEach_det h' (forEach_ints ht hf hl)

example : (⟨false, 8⟩ : IT).WF ∧ (⟨false, 8⟩ : IT).InRange 250 ∧ (⟨false, 8⟩ : IT).InRange 255 := by
  decide

/-- The bound of a range, as a mathematical value. -/
def Trait.bound (r : Trait) : Int := if r.openClosed then r.max else r.max + 1

/-- C56: a range whose bound is a value of the underlying type.  `enum_range` visits exactly
the values from `Min` to the bound, increasing, each once, `count()` of them, the loop
ends, and `in_range` holds for exactly these. -/
theorem C56_range_partial (r : Trait) (ht : r.t.WF) (hmin : r.t.InRange r.min)
    (hmax : r.t.InRange r.max) (hc : r.Compiles) (hlt : r.min < r.bound)
    (hb : r.t.InRange r.bound) :
    ∃ l e, r.end_ = some e ∧ Visits (enumIter r.t) e r.begin l ∧
      l.Pairwise (· < ·) ∧ (∀ v, v ∈ l ↔ r.min ≤ v ∧ v < r.bound) ∧
      r.count = some (l.length : Int) ∧ (∀ v, r.inRange v = some (decide (v ∈ l))) ∧
      ∀ l', Visits (enumIter r.t) e r.begin l' → l' = l := by
  have hmx : r.maxValue = some r.bound := maxValue_eq ht hb
  refine ⟨ints r.min (r.bound - r.min).toNat, r.bound, hmx, ?_, ints_pairwise _ _, ?_, ?_, ?_, ?_⟩
  · exact visits_ints ht hmin hb (Int.le_of_lt hlt)
  · intro v; rw [mem_ints]; omega
  · have hcount := count_eq ht hmin hb hmx hlt hc
    rw [hcount]
    simp [ints]
    omega
  · intro v
    unfold Trait.inRange
    rw [hmx]
    simp only [Option.map_some, Trait.minValue, Option.some.injEq, ge_iff_le]
    rw [← Bool.decide_and]
    congr 1
    rw [mem_ints]
    apply propext
    omega
  · intro l' h'
    exact visits_det h' (visits_ints ht hmin hb (Int.le_of_lt hlt))

/-- C56: for a type at least as wide as `int`, or an open range, the static assertions
already guarantee the hypothesis on the bound. -/
theorem C56_bound_checked (r : Trait) (ht : r.t.WF) (hmax : r.t.InRange r.max) (hc : r.Compiles)
    (hw : r.openClosed = true ∨ 32 ≤ r.t.w) : r.t.InRange r.bound := by
  unfold Trait.bound
  rcases hw with hw | hw
  · simpa [hw] using hmax
  · rcases hc.1 with h | ⟨m, hm, hgt⟩
    · simpa [h] using hmax
    · split
      · exact hmax
      · have hp : r.t.promote = r.t := by unfold IT.promote; rw [if_neg (by omega)]
        rw [hp] at hm
        exact arith_succ_inRange hmax hm hgt

example : (⟨⟨false, 8⟩, 1, 3, false⟩ : Trait).Compiles ∧
    (⟨⟨false, 8⟩, 1, 3, false⟩ : Trait).min < (⟨⟨false, 8⟩, 1, 3, false⟩ : Trait).bound ∧
    (⟨false, 8⟩ : IT).InRange (⟨⟨false, 8⟩, 1, 3, false⟩ : Trait).bound := by
  refine ⟨⟨Or.inr ⟨4, ?_⟩, ⟨3, ?_⟩⟩, ?_, ?_⟩ <;> decide

/-- C56, violated: a closed range up to the maximum of an 8-bit type passes the static
assertions, yet `max_value()` wraps to 0, `in_range` is false for every value of the range
and `count()` is near 2^64. -/
theorem C56_closed_max_violated :
    ∃ r : Trait, r.t.WF ∧ r.t.InRange r.min ∧ r.t.InRange r.max ∧ r.Compiles ∧ r.min < r.bound ∧
      r.maxValue = some 0 ∧ (∀ v, r.inRange v = some false) ∧
      r.count = some (2 ^ 64 - 1) ∧ r.bound - r.min = 255 := by
  refine ⟨⟨⟨false, 8⟩, 1, 255, false⟩, by decide, by decide, by decide,
    ⟨Or.inr ⟨256, by decide, by decide⟩, ⟨2 ^ 64 - 1, by decide, by decide⟩⟩, by decide, by decide, ?_,
    by decide, by decide⟩
  intro v
  have hm : (⟨⟨false, 8⟩, 1, 255, false⟩ : Trait).maxValue = some 0 := by decide
  unfold Trait.inRange
  rw [hm]
  simp only [Option.map_some, Trait.minValue, Option.some.injEq, Bool.and_eq_false_iff,
    decide_eq_false_iff_not, ge_iff_le, Int.not_le]
  have h1 : (1 : Int) ≤ v ∨ v < 1 := by omega
  rcases h1 with h | h
  · right; omega
  · left; exact h

/-! ### C58 -/

/-- The convention of `iterator_facade`, with positions as integers between `lo` and `hi`:
`increment`, `decrement` and `advance` move the position, `equal_to` compares positions,
`a.distance_to(b)` is the position of `a` minus that of `b`, and `dereference` gives the
element at the position. -/
structure Convention {σ ρ : Type} (F : Impl σ ρ) (pos : σ → Int) (lo hi : Int) (elem : Int → ρ) :
    Prop where
  inc : ∀ a, lo ≤ pos a → pos a < hi → ∃ a', F.increment a = some a' ∧ pos a' = pos a + 1
  dec : ∀ a, lo < pos a → pos a ≤ hi → ∃ a', F.decrement a = some a' ∧ pos a' = pos a - 1
  adv : ∀ a n, lo ≤ pos a → pos a ≤ hi → lo ≤ pos a + n → pos a + n ≤ hi →
    ∃ a', F.advance a n = some a' ∧ pos a' = pos a + n
  eql : ∀ a b, F.equalTo a b = decide (pos a = pos b)
  dist : ∀ a b, lo ≤ pos a → pos a ≤ hi → lo ≤ pos b → pos b ≤ hi →
    F.distanceTo a b = some (pos a - pos b)
  drf : ∀ a, lo ≤ pos a → pos a < hi → F.dereference a = some (elem (pos a))

/-- C58: the operators that move. -/
theorem C58_moves {σ ρ : Type} {F : Impl σ ρ} {pos : σ → Int} {lo hi : Int} {elem : Int → ρ}
    (C : Convention F pos lo hi elem) (a : σ) (h1 : lo ≤ pos a) (h2 : pos a ≤ hi) :
    (pos a < hi → ∃ a', F.preInc a = some a' ∧ F.postInc a = some (a, a') ∧ pos a' = pos a + 1 ∧
      ∃ a'', F.preDec a' = some a'' ∧ F.eq a'' a = true) ∧
    (lo < pos a → ∃ a', F.preDec a = some a' ∧ F.postDec a = some (a, a') ∧ pos a' = pos a - 1 ∧
      ∃ a'', F.preInc a' = some a'' ∧ F.eq a'' a = true) ∧
    (∀ n, lo ≤ pos a + n → pos a + n ≤ hi →
      ∃ a', F.add a n = some a' ∧ F.addAssign a n = some a' ∧ pos a' = pos a + n) ∧
    (∀ n, ptrdiff.InRange (-n) → lo ≤ pos a - n → pos a - n ≤ hi →
      ∃ a', F.sub a n = some a' ∧ F.subAssign a n = some a' ∧ pos a' = pos a - n) ∧
    (∀ n, lo ≤ pos a + n → pos a + n < hi → F.index a n = some (elem (pos a + n))) := by
  refine ⟨?_, ?_, ?_, ?_, ?_⟩
  · intro h
    obtain ⟨a', e, p⟩ := C.inc a h1 h
    obtain ⟨a'', e', p'⟩ := C.dec a' (by omega) (by omega)
    exact ⟨a', e, by simp [Impl.postInc, e], p, a'', e', by
      simp only [Impl.eq, C.eql, decide_eq_true_eq]; omega⟩
  · intro h
    obtain ⟨a', e, p⟩ := C.dec a h h2
    obtain ⟨a'', e', p'⟩ := C.inc a' (by omega) (by omega)
    exact ⟨a', e, by simp [Impl.postDec, e], p, a'', e', by
      simp only [Impl.eq, C.eql, decide_eq_true_eq]; omega⟩
  · intro n ha hb
    obtain ⟨a', e, p⟩ := C.adv a n h1 h2 ha hb
    exact ⟨a', e, e, p⟩
  · intro n hn ha hb
    obtain ⟨a', e, p⟩ := C.adv a (-n) h1 h2 (by omega) (by omega)
    have hs : F.subAssign a n = some a' := by
      unfold Impl.subAssign
      rw [show ptrdiff.arith (-n) = some (-n) by simp [IT.arith, hn, show ptrdiff.signed = true from rfl]]
      exact e
    exact ⟨a', hs, hs, by omega⟩
  · intro n ha hb
    obtain ⟨a', e, p⟩ := C.adv a n h1 h2 ha (by omega)
    unfold Impl.index Impl.add Impl.addAssign
    rw [e]
    show F.dereference a' = _
    rw [C.drf a' (by omega) (by omega), p]

/-- C58: difference and comparisons. -/
theorem C58_compare {σ ρ : Type} {F : Impl σ ρ} {pos : σ → Int} {lo hi : Int} {elem : Int → ρ}
    (C : Convention F pos lo hi elem) (a b : σ) (ha : lo ≤ pos a) (ha' : pos a ≤ hi)
    (hb : lo ≤ pos b) (hb' : pos b ≤ hi) :
    F.diff b a = some (pos b - pos a) ∧
    (∃ c, F.add a (pos b - pos a) = some c ∧ F.eq c b = true) ∧
    F.eq a b = decide (pos a = pos b) ∧ F.ne a b = decide (pos a ≠ pos b) ∧
    F.lt a b = some (decide (pos a < pos b)) ∧ F.gt a b = some (decide (pos b < pos a)) ∧
    F.le a b = some (decide (pos a ≤ pos b)) ∧ F.ge a b = some (decide (pos b ≤ pos a)) := by
  have hd := C.dist b a hb hb' ha ha'
  have hd' := C.dist a b ha ha' hb hb'
  refine ⟨hd, ?_, C.eql a b, ?_, ?_, ?_, ?_, ?_⟩
  · obtain ⟨c, e, p⟩ := C.adv a (pos b - pos a) ha ha' (by omega) (by omega)
    exact ⟨c, e, by simp only [Impl.eq, C.eql, decide_eq_true_eq]; omega⟩
  · simp [Impl.ne, Impl.eq, C.eql]
  · simp only [Impl.lt, Impl.diff, hd, Option.map_some, Option.some.injEq, decide_eq_decide]; omega
  · simp only [Impl.gt, Impl.diff, hd', Option.map_some, Option.some.injEq, decide_eq_decide]; omega
  · simp only [Impl.le, Impl.gt, Impl.diff, hd', Option.map_some, Option.some.injEq, ← decide_not,
      decide_eq_decide]; omega
  · simp only [Impl.ge, Impl.lt, Impl.diff, hd, Option.map_some, Option.some.injEq, ← decide_not,
      decide_eq_decide]; omega

/-- A pointer into an array, as an implementation of the facade's interface. -/
def arrayImpl (xs : List Nat) : Impl Int Nat where
  increment i := some (i + 1)
  decrement i := some (i - 1)
  advance i n := some (i + n)
  equalTo a b := decide (a = b)
  distanceTo a b := some (a - b)
  dereference i := if 0 ≤ i then xs[i.toNat]? else none

/-- The convention is satisfiable: array pointers meet it. -/
example (xs : List Nat) :
    Convention (arrayImpl xs) id 0 xs.length (fun i => (xs[i.toNat]?).getD 0) where
  inc a _ _ := ⟨a + 1, rfl, rfl⟩
  dec a _ _ := ⟨a - 1, rfl, rfl⟩
  adv a n _ _ _ _ := ⟨a + n, rfl, rfl⟩
  eql _ _ := rfl
  dist _ _ _ _ _ _ := rfl
  drf a h0 h1 := by
    simp only [id] at h0 h1 ⊢
    have : a.toNat < xs.length := by omega
    simp [arrayImpl, h0, this]

/-! ### C57 -/

/-- C57, what holds: enum iterators move and compare for equality as they should. -/
theorem C57_moves_partial (t : IT) (ht : t.WF) (a : Int) (ha : t.InRange a) :
    (t.InRange (a + 1) → (enumIter t).preInc a = some (a + 1)) ∧
    (t.InRange (a - 1) → (enumIter t).preDec a = some (a - 1)) ∧
    (∀ n, ptrdiff.InRange n → t.InRange (a + n) → (enumIter t).add a n = some (a + n)) ∧
    (∀ n, ptrdiff.InRange n → ptrdiff.InRange (-n) → t.InRange (a - n) →
      (enumIter t).sub a n = some (a - n)) ∧
    (∀ b, (enumIter t).eq a b = decide (a = b)) ∧ (enumIter t).deref a = some a := by
  refine ⟨fun h => incr_eq ht ha h, fun h => decr_eq ht ha h, fun n hn h => adv_eq ht ha hn h, ?_, ?_,
    rfl⟩
  · intro n _ hn h
    show (enumIter t).subAssign a n = _
    unfold Impl.subAssign
    rw [show ptrdiff.arith (-n) = some (-n) by simp [IT.arith, hn, show ptrdiff.signed = true from rfl]]
    have := adv_eq ht ha hn (n := -n) (by rw [← Int.sub_eq_add_neg]; exact h)
    rw [← Int.sub_eq_add_neg] at this
    exact this
  · intro b
    show decide (b = a) = decide (a = b)
    simp [eq_comm]

example : (⟨true, 8⟩ : IT).WF ∧ (⟨true, 8⟩ : IT).InRange (-3) ∧ (⟨true, 8⟩ : IT).InRange (-3 + 5) := by
  decide

/-- C57, violated for every underlying type: with `b` one step after `a`, `b - a` is not 1,
`b - a` added to `a` does not give `b`, and `a < b` is false or `b < a` is true. -/
theorem C57_difference_violated (t : IT) (ht : t.WF) :
    ∃ a b, t.InRange a ∧ t.InRange b ∧ (enumIter t).preInc a = some b ∧
      (∃ d, (enumIter t).diff b a = some d ∧ d ≠ 1) ∧
      ((enumIter t).lt a b = some false ∨ (enumIter t).lt b a = some true) := by
  refine ⟨0, 1, ?_⟩
  obtain ⟨sg, w⟩ := t
  rcases ht with h | h | h | h <;> simp only at h <;> subst h <;> cases sg <;>
    refine ⟨by decide, by decide, by decide, ⟨_, rfl, by decide⟩, by decide⟩

/-- C57: what the difference is for types whose promoted subtraction does not wrap: the
negation of the number of steps. -/
theorem C57_reversed (t : IT) (a b : Int) (hp : t.promote.InRange (a - b)) (hw : t.WF)
    (hs : t.promote.signed = true) : (enumIter t).diff b a = some (a - b) := by
  show (t.promote.arith (a - b)).map ptrdiff.conv = _
  have h1 : t.promote.arith (a - b) = some (a - b) := by simp [IT.arith, hs, hp]
  rw [h1]
  simp only [Option.map_some, Option.some.injEq]
  apply conv_of_inRange (t := ptrdiff) (by decide)
  obtain ⟨sg, w⟩ := t
  rcases hw with h | h | h | h <;> simp only at h <;> subst h <;> cases sg <;>
    simp [IT.promote] at hs hp <;> simp [IT.InRange, ptrdiff] at hp ⊢ <;> omega

example : (enumIter ⟨false, 8⟩).diff 3 0 = some (-3) := by decide

/-! ### C68 -/

/-- C68, what holds: `in_range(Integral)` is exact when the argument and both bounds are
values of the common type, e.g. when both types have the same signedness or the argument's
type is a wider signed type. -/
theorem C68_in_range_integral_partial (r : Trait) (ht : r.t.WF) (a : IT) (ha : a.WF) (v : Int)
    (hb : r.t.InRange r.bound) (hv : (a.common r.t).InRange v)
    (h1 : (a.common r.t).InRange r.min) (h2 : (a.common r.t).InRange r.bound) :
    r.inRangeI a v = some (decide (r.min ≤ v ∧ v < r.bound)) := by
  have hmx : r.maxValue = some r.bound := maxValue_eq ht hb
  have hc := common_wf ha ht
  unfold Trait.inRangeI
  rw [hmx]
  simp only [Option.map_some, Trait.minValue, conv_of_inRange hc hv, conv_of_inRange hc h1,
    conv_of_inRange hc h2, ge_iff_le, Bool.decide_and]

/-- C68: in particular for equal signedness. -/
theorem C68_same_sign (r : Trait) (ht : r.t.WF) (a : IT) (ha : a.WF) (hs : a.signed = r.t.signed)
    (v : Int) (hv : a.InRange v) (hmin : r.t.InRange r.min) (hb : r.t.InRange r.bound) :
    r.inRangeI a v = some (decide (r.min ≤ v ∧ v < r.bound)) :=
  C68_in_range_integral_partial r ht a ha v hb (common_left ha ht hs hv) (common_right ha ht hs hmin)
    (common_right ha ht hs hb)

example : (⟨⟨true, 32⟩, -2, 3, true⟩ : Trait).inRangeI ⟨true, 8⟩ (-1) = some true := by decide

/-- C68, violated: with a signed enum range -2..3, `in_range(0u)` is false. -/
theorem C68_mixed_sign_violated :
    ∃ (r : Trait) (a : IT) (v : Int), r.t.WF ∧ a.WF ∧ a.InRange v ∧ r.Compiles ∧
      r.t.InRange r.min ∧ r.t.InRange r.bound ∧ r.min ≤ v ∧ v < r.bound ∧
      r.inRangeI a v = some false :=
  ⟨⟨⟨true, 32⟩, -2, 3, true⟩, ⟨false, 32⟩, 0, by decide, by decide, by decide,
    ⟨Or.inl rfl, ⟨5, by decide, by decide⟩⟩, by decide, by decide, by decide, by decide, by decide⟩

/-! ### C69 -/

/-- C69: the bit mask operators of plain enums act bit by bit, and `check_mask` tells whether
a common bit exists. -/
theorem C69_mask (x y : BitVec w) :
    (∀ i, i < w → (maskOr s x y).getLsbD i = (x.getLsbD i || y.getLsbD i) ∧
      (maskAnd s x y).getLsbD i = (x.getLsbD i && y.getLsbD i) ∧
      (maskXor s x y).getLsbD i = (x.getLsbD i ^^ y.getLsbD i) ∧
      (maskNot s x).getLsbD i = !x.getLsbD i) ∧
    (checkMask s x y = true ↔ ∃ i, i < w ∧ x.getLsbD i = true ∧ y.getLsbD i = true) := by
  constructor
  · intro i hi
    simp [maskOr_eq, maskAnd_eq, maskXor_eq, maskNot_eq, hi]
  · unfold checkMask
    rw [bne_iff_ne, Ne, promo_and, promo_eq_zero]
    have h := (C53_queries (⟨x⟩ : EnumSet s w) ⟨y⟩).2.1
    refine Iff.trans ?_ h
    have hb := beq_iff (EnumSet.and (⟨x⟩ : EnumSet s w) ⟨y⟩) .empty
    unfold EnumSet.hasAny EnumSet.bne
    rw [Bool.not_eq_true', ← Bool.not_eq_true, hb]
    simp [and_eq, EnumSet.empty]

example : checkMask (w := 8) true 0x80#8 0xC0#8 = true ∧ maskNot (w := 8) true 0x80#8 = 0x7F#8 := by
  decide

/-- C69: the shifts: where they are defined, bits move by the count, the sign filling in from
the left in a right shift of a signed value; for unsigned types at least as wide as `int`
they are defined for every count below the width. -/
theorem C69_shift (x : BitVec w) (hw : 0 < w) (k : Int) :
    (∀ y, shl s x k = some y → ∀ i, i < w →
      y.getLsbD i = (decide (k ≤ i) && x.getLsbD (i - k.toNat))) ∧
    (∀ y, shr s x k = some y → ∀ i, i < w →
      y.getLsbD i = if i + k.toNat < w then x.getLsbD (i + k.toNat) else (s && x.msb)) ∧
    (0 ≤ k → k < w → (shr s x k).isSome) ∧
    (0 ≤ k → k < w → s = false → 32 ≤ w → (shl s x k).isSome) := by
  refine ⟨?_, ?_, ?_, ?_⟩
  · intro y h i hi
    unfold shl at h
    split at h
    · cases h
    · rename_i hk
      split at h
      · cases h
      · simp only [Option.some.injEq] at h
        subst h
        simp only [demo, BitVec.getLsbD_setWidth, hi, decide_true, Bool.true_and,
          BitVec.getLsbD_shiftLeft]
        have h1 : i < max w 32 := by omega
        by_cases h2 : k ≤ i
        · have h3 : ¬ i < k.toNat := by omega
          have h4 : i - k.toNat < w := by omega
          simp [h1, h2, h3, getLsbD_promo _ h4]
        · have h3 : i < k.toNat := by omega
          simp [h2, h3]
  · intro y h i hi
    unfold shr at h
    split at h
    · cases h
    · rename_i hk
      cases s with
      | false =>
        simp only [Bool.false_eq_true, if_false, Option.some.injEq] at h
        subst h
        simp only [demo, BitVec.getLsbD_setWidth, hi, decide_true, Bool.true_and,
          BitVec.getLsbD_ushiftRight, Bool.false_and]
        split
        · rename_i h2
          rw [Nat.add_comm, getLsbD_promo _ h2]
        · rename_i h2
          simp [promo, BitVec.getLsbD_setWidth]
          intro _
          exact BitVec.getLsbD_of_ge _ _ (by omega)
      | true =>
        simp only [if_true, Option.some.injEq] at h
        subst h
        have h1 : i < max w 32 := by omega
        have hmsb : (promo true x).msb = x.msb := by
          rw [promo, if_pos rfl, BitVec.msb_eq_getLsbD_last, BitVec.getLsbD_signExtend]
          by_cases h32 : w < 32
          · rw [if_neg (by omega)]
            simp; omega
          · rw [if_pos (by omega), BitVec.msb_eq_getLsbD_last]
            have : max w 32 = w := by omega
            simp [this, hw]
            omega
        simp only [demo, BitVec.getLsbD_setWidth, hi, decide_true, Bool.true_and,
          BitVec.getLsbD_sshiftRight, hmsb]
        have h2 : ¬ max w 32 ≤ i := by omega
        simp only [h2, decide_false, Bool.not_false, Bool.true_and]
        split
        · rename_i h3
          split
          · rename_i h4
            rw [Nat.add_comm, getLsbD_promo _ h4]
          · rename_i h4
            rw [promo, if_pos rfl, BitVec.getLsbD_signExtend, if_neg (by omega)]
            simp [h3]
        · rename_i h3
          rw [if_neg (by omega)]
  · intro h0 h1
    unfold shr
    rw [if_neg (by omega)]
    split <;> rfl
  · intro h0 h1 hs h32
    subst hs
    unfold shl
    rw [if_neg (by omega)]
    have : ¬ w < 32 := by omega
    simp [this]

/-- C69: `++` adds one, wrapping for types narrower than `int` and for unsigned types; it is
undefined only at the maximum of a signed type at least as wide as `int`. -/
theorem C69_inc (hw : w = 8 ∨ w = 16 ∨ w = 32 ∨ w = 64) (x : BitVec w) :
    (∀ y, enumInc s x = some y → y = x + 1) ∧
    (enumInc s x = none ↔ s = true ∧ 32 ≤ w ∧ x.toInt = 2 ^ (w - 1) - 1) := by
  constructor
  · intro y h
    unfold enumInc at h
    split at h
    · cases h
    · simp only [Option.some.injEq] at h
      subst h
      have := demo_promo (s := s) x
      unfold demo at this ⊢
      rw [BitVec.setWidth_add _ _ (by omega), this]
      rcases hw with rfl | rfl | rfl | rfl <;> rfl
  · have h1 := BitVec.toInt_lt (x := x)
    have h2 := x.isLt
    unfold enumInc promo
    rcases hw with rfl | rfl | rfl | rfl <;> cases s <;>
      simp [BitVec.toInt_signExtend_of_le] at h1 ⊢ <;> try omega
    · rw [Int.bmod_def]; omega
    · rw [Int.bmod_def]; omega

example : enumInc (w := 8) true 0x7F#8 = some 0x80#8 ∧ enumInc (w := 32) true 0x7FFFFFFF#32 = none := by
  decide

example : shr (w := 8) true 0x80#8 3 = some 0xF0#8 ∧ shl (w := 8) false 0x81#8 1 = some 0x02#8 ∧
    shl (w := 8) true 0x80#8 1 = none ∧ shr (w := 8) true 0x80#8 (-1) = none := by decide

end Verif.Enums
