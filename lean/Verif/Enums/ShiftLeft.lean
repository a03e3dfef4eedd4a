import Verif.Enums.CastRange
/-
`<<` of a flag of an enumeration without a fixed underlying type (C151).
-/
namespace Verif.Enums.SetRange

/-! ### Model -/

/-- `e << n` in a type of `w` bits: undefined if `n` is not less than the width, and for a signed type if the value is negative or the result
has more than `w` bits (C++17); a signed result of `w` bits becomes negative. (enum_traits.hpp:164-168, 176-181) -/
def shiftLeft {w : Nat} (k : Kind w) (v : Int) (n : Nat) : Option Int :=
  if w ≤ n then none
  else if k.sgn then
    if 0 ≤ v ∧ v * 2 ^ n < 2 ^ w then castInt k (if v * 2 ^ n < 2 ^ (w - 1) then v * 2 ^ n else v * 2 ^ n - 2 ^ w) else none
  else castInt k (v * 2 ^ n % 2 ^ w)

/-! ### Proofs -/

theorem pow_lt_iff {a b : Nat} : (2 : Int) ^ a < 2 ^ b ↔ a < b := by
  have e : ∀ c : Nat, ((2 ^ c : Nat) : Int) = 2 ^ c := fun c => by simp
  rw [← e, ← e, Int.ofNat_lt]
  exact Nat.pow_lt_pow_iff_right (by decide)

/-! ### C151 -/

/-- C151: shifting a flag by less than the width is defined exactly if the result is less than the values of the enumeration, or the type is
unsigned and the flag is shifted out. -/
theorem C151_shift_left {w : Nat} {k : Kind w} (hk : k.Ok) (hs : k.sgn = true → k.bits < w) (hn : k.neg = false) (hf : k.fixed = false) {a n : Nat}
    (ha : a < k.bits) (hnw : n < w) : shiftLeft k (2 ^ a) n =
      if a + n < k.bits then some (2 ^ (a + n)) else if k.sgn = false ∧ w ≤ a + n then some 0 else none := by
  have pos : ∀ c : Nat, (0 : Int) < 2 ^ c := fun c => Int.pow_pos (by decide)
  have hfit := hk.fits
  have hh : ∀ v : Int, holds k v = true ↔ 0 ≤ v ∧ v < 2 ^ k.bits := by
    intro v
    simp only [holds, hn, Bool.false_eq_true, if_false, decide_eq_true_eq]
  have cast_no : ∀ {v : Int}, ¬ holds k v = true → castInt k v = none := by
    intro v hv
    simp only [castInt, hf, Bool.false_or]
    rw [if_neg hv]
  simp only [shiftLeft]
  rw [if_neg (show ¬ w ≤ n by omega), ← Int.pow_add]
  cases hsg : k.sgn with
  | true =>
    have hlt := hs hsg
    simp only [if_true, Bool.true_eq_false, false_and, if_false]
    by_cases h1 : a + n < k.bits
    · rw [if_pos h1, if_pos ⟨Int.le_of_lt (pos a), pow_lt_iff.2 (by omega)⟩, if_pos (pow_lt_iff.2 (by omega))]
      exact castInt_eq ((hh _).2 ⟨Int.le_of_lt (pos _), pow_lt_iff.2 h1⟩)
    · rw [if_neg h1]
      by_cases h2 : a + n < w
      · rw [if_pos ⟨Int.le_of_lt (pos a), pow_lt_iff.2 h2⟩]
        apply cast_no
        rw [hh]
        by_cases h3 : a + n < w - 1
        · rw [if_pos (pow_lt_iff.2 h3), pow_lt_iff]; omega
        · rw [if_neg (by rw [pow_lt_iff]; exact h3)]
          have := pow_lt_iff.2 h2
          omega
      · rw [if_neg (by rw [pow_lt_iff]; omega)]
  | false =>
    simp only [Bool.false_eq_true, if_false, true_and]
    by_cases h2 : a + n < w
    · rw [Int.emod_eq_of_lt (Int.le_of_lt (pos _)) (pow_lt_iff.2 h2)]
      by_cases h1 : a + n < k.bits
      · rw [if_pos h1]
        exact castInt_eq ((hh _).2 ⟨Int.le_of_lt (pos _), pow_lt_iff.2 h1⟩)
      · rw [if_neg h1, if_neg (by omega)]
        apply cast_no
        rw [hh, pow_lt_iff]; omega
    · have hz : (2 : Int) ^ (a + n) % 2 ^ w = 0 := by
        obtain ⟨d, hd⟩ : ∃ d, a + n = w + d := ⟨a + n - w, by omega⟩
        rw [hd, Int.pow_add]
        exact Int.mul_emod_right _ _
      rw [hz, if_neg (show ¬ a + n < k.bits by omega), if_pos (by omega)]
      exact castInt_eq ((hh _).2 ⟨Int.le_refl _, pos _⟩)

/-- `b << 1` is `c`; `c << 1` is undefined; `c << 30` is zero if the type is unsigned. -/
example : shiftLeft plainFlags (2 ^ 1) 1 = some 4 ∧ shiftLeft plainFlags (2 ^ 2) 1 = none ∧ shiftLeft plainFlags (2 ^ 2) 30 = some 0 := by decide

/-- C151: the loop over flags `for (f = a; ...; f <<= 1)` is undefined when it leaves the last flag, whatever type the compiler takes. -/
theorem C151_flag_loop_violated : shiftLeft plainFlags 4 1 = none ∧ shiftLeft ({ plainFlags with sgn := true } : Kind 32) 4 1 = none := by decide

end Verif.Enums.SetRange
