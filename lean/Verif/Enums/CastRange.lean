import Verif.Enums.SetRange
/-
Casts to enumerations without a fixed underlying type: ranges, `++`, `>>` and reading from documents (C151).
-/
namespace Verif.Enums.SetRange

/-! ### Model -/

/-- `static_cast<Enum>(v)` of a value of the underlying type. (enum_traits.hpp:17, 73, 77; enum_range.hpp:46; detail/serialization.hpp:1060) -/
def castInt {w : Nat} (k : Kind w) (v : Int) : Option Int := if k.fixed || holds k v then some v else none

/-- The loop of `for_each_enum` with `n` rounds left, at `i`: the values that the function is called with. (enum_traits.hpp:16-17) -/
def forEachFrom {w : Nat} (k : Kind w) : Nat → Int → Option (List Int)
  | 0, _ => some []
  | n + 1, i => (castInt k i).bind fun e => (forEachFrom k n (i + 1)).map (e :: ·)

/-- `for_each_enum(first, last, func)`. `++i` stays below `last`, so it does not overflow. (enum_traits.hpp:13-18) -/
def forEach {w : Nat} (k : Kind w) (first last : Int) : Option (List Int) := forEachFrom k (last - first).toNat first

/-- `max_value()`: the end of a range, as a number. (enum_traits.hpp:63-69) -/
def maxValue (max : Int) (openClosed : Bool) : Int := if openClosed then max else max + 1

/-- A loop over an `enum_range`: the iterator holds numbers and casts where it is dereferenced; its end is never cast.
(enum_range.hpp:22-26, 34, 41-46, 52-57) -/
def rangeLoop {w : Nat} (k : Kind w) (min max : Int) (openClosed : Bool) : Option (List Int) :=
  forEachFrom k (maxValue max openClosed - min).toNat min

/-- `enum_traits<Enum>::max()`. (enum_traits.hpp:75-78) -/
def maxEnum {w : Nat} (k : Kind w) (max : Int) (openClosed : Bool) : Option Int := castInt k (maxValue max openClosed)

/-- `underlying_cast(e) + 1`: undefined if a signed type overflows. (enum_traits.hpp:110, 118) -/
def addOne {w : Nat} (k : Kind w) (v : Int) : Option Int :=
  if k.sgn then (if v + 1 < 2 ^ (w - 1) then some (v + 1) else none) else some ((v + 1) % 2 ^ w)

/-- `++e`. (enum_traits.hpp:107-120) -/
def next {w : Nat} (k : Kind w) (v : Int) : Option Int := (addOne k v).bind (castInt k)

/-- `e >> n`: arithmetic for signed types. (enum_traits.hpp:170-174, 183-188) Simplified: `n` is less than the width. -/
def shiftRight {w : Nat} (k : Kind w) (v : Int) (n : Nat) : Option Int := castInt k (v / 2 ^ n)

/-- Reading an enumeration that is not reflected from a document that holds the number `v`, which is in the range of the underlying type
(others are an error: C46). (detail/serialization.hpp:1056-1061) -/
def readEnum {w : Nat} (k : Kind w) (v : Int) : Option Int := castInt k v

/-! ### Specification -/

/-- The largest value of the enumeration. -/
def Kind.top {w : Nat} (k : Kind w) : Int := if k.neg then 2 ^ (k.bits - 1) - 1 else 2 ^ k.bits - 1

/-- All values from `a` on, `n` of them. -/
def countUp (a : Int) (n : Nat) : List Int := (List.range n).map fun (i : Nat) => a + (i : Int)

/-! ### Proofs -/

theorem holds_between {w : Nat} {k : Kind w} {a b v : Int} (ha : holds k a = true) (hb : holds k b = true) (h1 : a ≤ v) (h2 : v ≤ b) :
    holds k v = true := by
  simp only [holds] at *
  split at ha <;> simp_all <;> omega

theorem holds_iff_top {w : Nat} {k : Kind w} {a v : Int} (ha : holds k a = true) (h : a ≤ v) : holds k v = true ↔ v ≤ k.top := by
  simp only [holds, Kind.top] at ha ⊢
  cases hn : k.neg with
  | true => simp only [hn, if_true, decide_eq_true_eq] at ha ⊢; omega
  | false => simp only [hn, Bool.false_eq_true, if_false, decide_eq_true_eq] at ha ⊢; omega

theorem castInt_iff {w : Nat} {k : Kind w} (hf : k.fixed = false) {v : Int} : (∃ x, castInt k v = some x) ↔ holds k v = true := by
  simp only [castInt, hf, Bool.false_or]
  split <;> simp [*]

theorem castInt_eq {w : Nat} {k : Kind w} {v : Int} (h : holds k v = true) : castInt k v = some v := by simp [castInt, h]

theorem countUp_succ (a : Int) (n : Nat) : countUp a (n + 1) = a :: countUp (a + 1) n := by
  simp only [countUp, List.range_succ_eq_map, List.map_cons, List.map_map, Int.natCast_zero, Int.add_zero]
  congr 1
  apply List.map_congr_left
  intro i _
  simp only [Function.comp_apply, Nat.succ_eq_add_one]
  omega

theorem forEachFrom_eq {w : Nat} {k : Kind w} (n : Nat) : ∀ (i : Int), (∀ v, i ≤ v → v < i + n → holds k v = true) →
    forEachFrom k n i = some (countUp i n) := by
  induction n with
  | zero => intro i _; rfl
  | succ n ih =>
    intro i h
    rw [forEachFrom, castInt_eq (h i (Int.le_refl _) (by omega)), ih (i + 1) fun v h1 h2 => h v (by omega) (by omega), countUp_succ]
    rfl

/-! ### C151 -/

/-- C151: `for_each_enum` between two values of the enumeration casts only values of the enumeration, and calls the function with all from
the first up to the last, without it, also with those that have no name. -/
theorem C151_for_each {w : Nat} {k : Kind w} {first last : Int} (h1 : holds k first = true) (h2 : holds k last = true) :
    forEach k first last = some (countUp first (last - first).toNat) :=
  forEachFrom_eq _ _ fun _ ha hb => holds_between h1 h2 ha (by omega)

/-- C151: so does a loop over an `enum_range`, also if the last enumerator is included and is the largest value. -/
theorem C151_range {w : Nat} {k : Kind w} {min max : Int} {openClosed : Bool} (h1 : holds k min = true) (h2 : holds k max = true) :
    rangeLoop k min max openClosed = some (countUp min (maxValue max openClosed - min).toNat) := by
  refine forEachFrom_eq _ _ fun v ha hb => holds_between h1 h2 ha ?_
  cases openClosed <;> simp only [maxValue, if_true, Bool.false_eq_true, if_false] at hb <;> omega

/-- C151: `max()` is defined exactly if the last enumerator is not included or is not the largest value (or the underlying type is fixed). -/
theorem C151_max {w : Nat} {k : Kind w} (hf : k.fixed = false) {max : Int} {openClosed : Bool} (h : holds k max = true) :
    (∃ x, maxEnum k max openClosed = some x) ↔ openClosed = true ∨ max ≠ k.top := by
  have ht := (holds_iff_top h (Int.le_refl _)).1 h
  rw [maxEnum, castInt_iff hf]
  cases openClosed with
  | true => simp only [maxValue, if_true, true_or, iff_true]; exact h
  | false =>
    simp only [maxValue, Bool.false_eq_true, if_false, false_or]
    rw [holds_iff_top h (by omega)]
    omega

/-- C151: `++` is defined exactly below the largest value, or if the type is unsigned with all bits needed: there it wraps to zero. -/
theorem C151_next {w : Nat} {k : Kind w} (hk : k.Ok) (hs : k.sgn = true → k.neg = false → k.bits < w) (hf : k.fixed = false) {v : Int}
    (h : holds k v = true) : next k v = if v ≠ k.top then some (v + 1) else if k.sgn = false ∧ k.bits = w then some 0 else none := by
  have ht := (holds_iff_top h (Int.le_refl _)).1 h
  have hnext : holds k (v + 1) = true ↔ v + 1 ≤ k.top := holds_iff_top h (by omega)
  have hw : 0 < w := Nat.lt_of_lt_of_le hk.pos hk.fits
  have pow : ∀ {a b : Nat}, a ≤ b → (2 : Int) ^ a ≤ 2 ^ b := by
    intro a b hab
    have := Nat.pow_le_pow_right (n := 2) (by decide) hab
    exact_mod_cast this
  cases hsg : k.sgn with
  | true =>
    have hbound : k.top < 2 ^ (w - 1) := by
      cases hn : k.neg with
      | true =>
        have := pow (show k.bits - 1 ≤ w - 1 by have := hk.fits; omega)
        simp only [Kind.top, hn, if_true]; omega
      | false =>
        have := pow (show k.bits ≤ w - 1 by have := hs hsg hn; omega)
        simp only [Kind.top, hn, Bool.false_eq_true, if_false]; omega
    simp only [next, addOne, hsg, if_true, Bool.true_eq_false, false_and, if_false]
    by_cases hv : v = k.top
    · rw [if_neg (show ¬ v ≠ k.top by simp [hv])]
      split
      · simp only [Option.bind_some, castInt, hf, Bool.false_or]
        rw [if_neg]
        rw [hnext]; omega
      · rfl
    · rw [if_pos (show v ≠ k.top from hv), if_pos (by omega)]
      exact castInt_eq (hnext.2 (by omega))
  | false =>
    have hn : k.neg = false := by
      cases hn : k.neg with
      | false => rfl
      | true => have := hk.sgn hn; rw [hsg] at this; cases this
    have h0 : 0 ≤ v := by simp only [holds, hn, Bool.false_eq_true, if_false, decide_eq_true_eq] at h; exact h.1
    have htop : k.top = 2 ^ k.bits - 1 := by simp [Kind.top, hn]
    have hp := pow hk.fits
    simp only [next, addOne, hsg, Bool.false_eq_true, if_false, Option.bind_some, true_and]
    by_cases hv : v = k.top
    · rw [if_neg (show ¬ v ≠ k.top by simp [hv])]
      rcases Nat.lt_or_eq_of_le hk.fits with hlt | he
      · have hp' : (2 : Int) ^ (k.bits + 1) ≤ 2 ^ w := pow hlt
        have hpos : (0 : Int) < 2 ^ k.bits := Int.pow_pos (by decide)
        rw [Int.pow_succ] at hp'
        rw [Int.emod_eq_of_lt (by omega) (by omega), if_neg (by omega)]
        simp only [castInt, hf, Bool.false_or]
        rw [if_neg]
        rw [hnext]; omega
      · rw [if_pos he]
        have : (v + 1) % 2 ^ w = 0 := by
          rw [hv, htop, he, Int.sub_add_cancel, Int.emod_self]
        rw [this]
        refine castInt_eq ?_
        have hpos : (0 : Int) < 2 ^ k.bits := Int.pow_pos (by decide)
        simp only [holds, hn, Bool.false_eq_true, if_false, decide_eq_true_eq]
        exact ⟨Int.le_refl _, hpos⟩
    · rw [if_pos hv, Int.emod_eq_of_lt (by omega) (by omega)]
      exact castInt_eq (hnext.2 (by omega))

/-- C151: `>>` is always defined. -/
theorem C151_shift_right {w : Nat} {k : Kind w} {v : Int} (h : holds k v = true) (n : Nat) : shiftRight k v n = some (v / 2 ^ n) := by
  have hp : (0 : Int) < 2 ^ n := Int.pow_pos (by decide)
  have h0 : holds k 0 = true := by
    have a : (0 : Int) < 2 ^ k.bits := Int.pow_pos (by decide)
    have b : (0 : Int) < 2 ^ (k.bits - 1) := Int.pow_pos (by decide)
    simp only [holds]
    split <;> simp <;> omega
  refine castInt_eq ?_
  by_cases hv : 0 ≤ v
  · exact holds_between h0 h (Int.ediv_nonneg hv (by omega)) (Int.ediv_le_self _ hv)
  · have h1 : v / 2 ^ n < 0 := Int.ediv_neg_of_neg_of_pos (by omega) hp
    refine holds_between h h0 ?_ (by omega)
    rw [Int.le_ediv_iff_mul_le hp]
    have := Int.mul_le_mul_of_nonpos_left (show v ≤ 0 by omega) (show (1 : Int) ≤ 2 ^ n by omega)
    omega

/-- C151: reading is defined exactly for documents that hold a value of the enumeration (or if the underlying type is fixed). -/
theorem C151_read {w : Nat} {k : Kind w} {v : Int} : (∃ x, readEnum k v = some x) ↔ k.fixed = true ∨ holds k v = true := by
  simp only [readEnum, castInt]
  split <;> simp_all

/-- `enum dir { north, east, south, west };` -/
def dir : Kind 32 := ⟨false, false, false, 2⟩

example : holds dir 3 = true ∧ dir.top = 3 := by decide

example : forEach dir 0 3 = some [0, 1, 2] ∧ rangeLoop dir 0 3 false = some [0, 1, 2, 3] := by decide

example : next dir 2 = some 3 ∧ shiftRight dir 3 1 = some 1 := by decide

/-- C151: a document with the number 4 makes reading an `enum { north, east, south, west }` undefined. -/
theorem C151_read_violated : readEnum dir 4 = none ∧ readEnum ({ dir with fixed := true } : Kind 32) 4 = some 4 := by decide

/-- C151: `max()` of the closed range of the same enumeration is undefined, and so is `++` of its last value. -/
theorem C151_end_violated : maxEnum dir 3 false = none ∧ next dir 3 = none := by decide

end Verif.Enums.SetRange
