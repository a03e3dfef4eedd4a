import Verif.Bounds.Props
import Verif.Serial.Props

namespace Verif.Bounds
open Spec Verif.Enums

/-! ### Bounds of the wrong sign -/

theorem wrap_nonneg {t : IT} {n : Int} (hs : t.signed = false) (h0 : 0 ≤ n) (h1 : n < 2 ^ t.w) :
    wrap t n = n := by
  simp [wrap, hs]; exact Int.emod_eq_of_lt h0 h1

theorem wrap_neg {t : IT} {n : Int} (hs : t.signed = false) (h0 : n < 0) (h1 : -2 ^ t.w ≤ n) :
    wrap t n = n + 2 ^ t.w := by
  simp [wrap, hs]
  rw [← Int.add_emod_right, Int.emod_eq_of_lt (by omega) (by omega)]

/-- An unsigned type of at least the width of `int` against `int`. -/
theorem common_unsigned {u : IT} (hw : u.w = 32 ∨ u.w = 64) (hs : u.signed = false) :
    common (.int u) (.int intT) = .int u ∧ common (.int intT) (.int u) = .int u := by
  rcases u with ⟨sg, w⟩
  simp only at hw hs
  subst hs
  rcases hw with rfl | rfl <;> decide

/-- C119 (violated): `range(lo, hi)` with `int`s `lo < 0 ≤ hi` for a field of an unsigned type with at least
as many bits as `int` rejects every value, though 0 at least is within. -/
theorem C119_unsigned_violated {u : IT} (hw : u.w = 32 ∨ u.w = 64) (hs : u.signed = false) {lo hi : Int}
    (hl : intT.InRange lo) (hh : intT.InRange hi) (h0 : lo < 0) (h1 : 0 ≤ hi) :
    (∀ n, u.InRange n →
      check (.int u) (.plain (.int n)) (.range ⟨.int intT, .int lo⟩ ⟨.int intT, .int hi⟩) ≠ none) ∧
    u.InRange 0 ∧ Within (exact (.int 0)) (.range ⟨.int intT, .int lo⟩ ⟨.int intT, .int hi⟩) := by
  have hp : (2 : Int) ^ 32 ≤ 2 ^ u.w := by rcases hw with h | h <;> rw [h] <;> decide
  have hr : -2 ^ 31 ≤ lo ∧ hi < 2 ^ 31 := by
    simp [IT.InRange, intT] at hl hh; omega
  refine ⟨?_, ?_, ?_⟩
  · intro n hn
    simp [IT.InRange, hs] at hn
    rw [Ne, check, ite_none, Bool.or_eq_false_iff]
    simp [heldLess, heldGreater, less, (common_unsigned hw hs).1, (common_unsigned hw hs).2, ltIn,
      Val.toInt, wrap_nonneg hs hn.1 hn.2, wrap_neg hs h0 (show -2 ^ u.w ≤ lo by omega),
      wrap_nonneg hs h1 (show hi < 2 ^ u.w by omega)]
    omega
  · simp [IT.InRange, hs]; omega
  · have := one_pos
    exact ⟨.fin (Int.mul_le_mul_of_nonneg_right (by omega) (by omega)),
      .fin (Int.mul_le_mul_of_nonneg_right (by omega) (by omega))⟩

/-- `range(-1, 100)` for an `unsigned`. -/
example : check (.int ⟨false, 32⟩) (.plain (.int 7)) (.range ⟨.int intT, .int (-1)⟩ ⟨.int intT, .int 100⟩) =
    some "value is outside allowed range [-1, 100]" := by decide +kernel

/-- C119 (violated): `greater_equal(k)` with an unsigned `k` accepts every negative `int`, for `k` up to
2^31. -/
theorem C119_negative_violated {u : IT} (hw : u.w = 32 ∨ u.w = 64) (hs : u.signed = false) {k n : Int}
    (h0 : 0 ≤ k) (h1 : k ≤ 2 ^ 31) (hn : intT.InRange n) (hneg : n < 0) :
    check (.int intT) (.plain (.int n)) (.ge ⟨.int u, .int k⟩) = none ∧
      ¬ Within (exact (.int n)) (.ge ⟨.int u, .int k⟩) := by
  have hp : (2 : Int) ^ 32 ≤ 2 ^ u.w := by rcases hw with h | h <;> rw [h] <;> decide
  have hr : -2 ^ 31 ≤ n := by simp [IT.InRange, intT] at hn; omega
  refine ⟨?_, ?_⟩
  · rw [check, ite_none]
    simp [heldLess, less, (common_unsigned hw hs).2, ltIn, Val.toInt,
      wrap_neg hs hneg (show -2 ^ u.w ≤ n by omega), wrap_nonneg hs h0 (show k < 2 ^ u.w by omega)]
    omega
  · intro h
    simp only [Within, exact] at h
    cases h with
    | fin h =>
      have := Int.le_of_mul_le_mul_right h one_pos
      omega

/-- `greater_equal(1u)` for an `int`. -/
example : check (.int intT) (.plain (.int (-5))) (.ge ⟨.int ⟨false, 32⟩, .int 1⟩) = none := by decide +kernel

/-- C119 (violated): 9007199254740993 is above 9007199254740992, but `less_equal(9007199254740992.0)`
accepts it. -/
theorem C119_rounding_violated :
    check (.int ⟨true, 64⟩) (.plain (.int 9007199254740993)) (.le ⟨.dbl, .dbl 0x4340000000000000#64⟩) = none ∧
      ¬ Within (exact (.int 9007199254740993)) (.le ⟨.dbl, .dbl 0x4340000000000000#64⟩) := by
  refine ⟨by decide +kernel, ?_⟩
  rw [Within, ← not_lt_iff (by decide +kernel) (by decide +kernel)]
  decide +kernel

/-! ### Conversion to floating point -/

theorem divNear_near (a : Nat) {b : Nat} (hb : 0 < b) :
    2 * a ≤ (2 * divNear a b + 1) * b ∧ (2 * divNear a b) * b ≤ 2 * a + b := by
  have h := Nat.div_add_mod a b
  have hm := Nat.mod_lt a hb
  have e1 : (2 * (a / b) + 1) * b = 2 * (b * (a / b)) + b := by
    rw [Nat.add_mul, Nat.mul_assoc, Nat.mul_comm (a / b)]; omega
  have e2 : (2 * (a / b + 1) + 1) * b = 2 * (b * (a / b)) + 3 * b := by
    rw [show 2 * (a / b + 1) + 1 = 2 * (a / b) + 3 by omega, Nat.add_mul, Nat.mul_assoc, Nat.mul_comm (a / b)]
  have e3 : 2 * (a / b + 1) * b = 2 * (b * (a / b)) + 2 * b := by
    rw [show 2 * (a / b + 1) = 2 * (a / b) + 2 by omega, Nat.add_mul, Nat.mul_assoc, Nat.mul_comm (a / b)]
  have e4 : 2 * (a / b) * b = 2 * (b * (a / b)) := by rw [Nat.mul_assoc, Nat.mul_comm (a / b)]
  unfold divNear
  split
  · rename_i hu
    have : b ≤ 2 * (a % b) := by simp at hu; omega
    rw [e2, e3]; omega
  · rename_i hu
    have : 2 * (a % b) ≤ b := by simp at hu; omega
    rw [e1, e4]; omega

theorem roundNat_eq {p n : Nat} (h : 2 ^ p ≤ n) :
    roundNat p n = divNear n (2 ^ (n.log2 + 1 - p)) * 2 ^ (n.log2 + 1 - p) := by
  simp only [roundNat, Nat.not_lt.2 h, if_false, divNear]

/-- C119: a converted integer has at most as many significant bits as the type has. -/
theorem C119_short {p n : Nat} (hp : 0 < p) : Short p (roundNat p n) := by
  by_cases h : n < 2 ^ p
  · exact ⟨n, 0, h, by simp [roundNat, h]⟩
  · have hn : 2 ^ p ≤ n := by omega
    have h0 : n ≠ 0 := by have := Nat.two_pow_pos p; omega
    have hl : p ≤ n.log2 := (Nat.le_log2 h0).2 hn
    have hlt : n < 2 ^ (n.log2 + 1) := Nat.lt_log2_self
    rw [roundNat_eq hn]
    generalize hk : n.log2 + 1 - p = k at *
    have hq : divNear n (2 ^ k) ≤ 2 ^ p := by
      have : n / 2 ^ k < 2 ^ p := by
        apply Nat.div_lt_of_lt_mul
        rw [← Nat.pow_add, show k + p = n.log2 + 1 by omega]; exact hlt
      unfold divNear
      split <;> omega
    rcases Nat.lt_or_ge (divNear n (2 ^ k)) (2 ^ p) with h | h
    · exact ⟨_, k, h, rfl⟩
    · refine ⟨2 ^ (p - 1), k + 1, Nat.pow_lt_pow_right (by omega) (by omega), ?_⟩
      rw [show divNear n (2 ^ k) = 2 ^ p by omega, ← Nat.pow_add, ← Nat.pow_add]
      congr 1; omega

/-- A number with few significant bits that is at least as large has a last bit at least as high. -/
theorem short_multiple {p k m : Nat} (hm : Short p m) (h : 2 ^ (p + k) ≤ 2 * m) : ∃ j, m = j * 2 ^ k := by
  obtain ⟨q, l, hq, rfl⟩ := hm
  have : k ≤ l := by
    rcases Nat.lt_or_ge l k with hl | hl
    · exfalso
      have h1 : 2 * (q * 2 ^ l) < 2 * (2 ^ p * 2 ^ l) := by
        have := Nat.mul_lt_mul_of_pos_right hq (Nat.two_pow_pos l); omega
      have h2 : 2 * (2 ^ p * 2 ^ l) ≤ 2 ^ (p + k) := by
        rw [← Nat.pow_add, ← Nat.pow_succ']
        exact Nat.pow_le_pow_right (by omega) (by omega)
      omega
    · exact hl
  refine ⟨q * 2 ^ (l - k), ?_⟩
  rw [Nat.mul_assoc, ← Nat.pow_add]
  congr 2; omega

/-- No multiple of the divisor is nearer than the rounded quotient. -/
theorem multiple_near (n j : Nat) {b : Nat} (hb : 0 < b) :
    (n : Int) - (divNear n b * b : Nat) ≤ ((n : Int) - (j * b : Nat)).natAbs ∧
      ((divNear n b * b : Nat) : Int) - n ≤ ((n : Int) - (j * b : Nat)).natAbs := by
  obtain ⟨hu, hv⟩ := divNear_near n hb
  rw [Nat.add_mul, Nat.mul_assoc] at hu
  rw [Nat.mul_assoc] at hv
  generalize divNear n b = d at *
  rcases Nat.lt_trichotomy j d with h | rfl | h
  · have := Nat.mul_le_mul_right b (show j + 1 ≤ d by omega)
    rw [Nat.add_mul] at this
    omega
  · omega
  · have := Nat.mul_le_mul_right b (show d + 1 ≤ j by omega)
    rw [Nat.add_mul] at this
    omega

/-- C119: no number with so few significant bits is nearer than the converted integer. -/
theorem C119_nearest {p n m : Nat} (hp : 0 < p) (hm : Short p m) :
    ((n : Int) - roundNat p n).natAbs ≤ ((n : Int) - m).natAbs := by
  by_cases h : n < 2 ^ p
  · simp [roundNat, h]
  · have hn : 2 ^ p ≤ n := by omega
    have h0 : n ≠ 0 := by have := Nat.two_pow_pos p; omega
    have hl : p ≤ n.log2 := (Nat.le_log2 h0).2 hn
    have hge : 2 ^ n.log2 ≤ n := Nat.log2_self_le h0
    rw [roundNat_eq hn]
    generalize hk : n.log2 + 1 - p = k at *
    have hpk : p + k = n.log2 + 1 := by omega
    rcases Nat.lt_or_ge (2 * m) (2 ^ (p + k)) with hs | hs
    · rw [hpk, Nat.pow_succ] at hs
      have := multiple_near n (2 ^ (n.log2 - k)) (Nat.two_pow_pos k)
      rw [← Nat.pow_add, show n.log2 - k + k = n.log2 by omega] at this
      omega
    · obtain ⟨j, rfl⟩ := short_multiple hm hs
      have := multiple_near n j (Nat.two_pow_pos k)
      omega

/-- Ties go to the even one. -/
example : roundNat 24 (2 ^ 24 + 1) = 2 ^ 24 ∧ roundNat 24 (2 ^ 24 + 3) = 2 ^ 24 + 4 := by decide +kernel

/-- C119: of two that are equally near, it is the even multiple of the last bit. -/
theorem C119_tie {p n k : Nat} (hn : 2 ^ p ≤ n) (hk : k = n.log2 + 1 - p) (ht : 2 * (n % 2 ^ k) = 2 ^ k) :
    roundNat p n % 2 ^ (k + 1) = 0 := by
  rw [roundNat_eq hn, ← hk]
  have : divNear n (2 ^ k) % 2 = 0 := by
    unfold divNear
    simp only [ht, Nat.lt_irrefl, decide_false, Bool.false_or, beq_self_eq_true, Bool.true_and,
      beq_iff_eq, gt_iff_lt]
    split <;> omega
  obtain ⟨c, hc⟩ := Nat.dvd_of_mod_eq_zero this
  rw [hc, Nat.pow_succ, Nat.mul_comm (2 ^ k), Nat.mul_assoc, Nat.mul_mod_mul_left]
  simp

example : roundNat 24 (2 ^ 24 + 1) % 2 ^ 2 = 0 := C119_tie (by decide) (k := 1) (by decide +kernel) (by decide)

/-! ### The text of a bound -/

theorem digits6_text {n : Nat} (h : n < 10 ^ 6) : (digits6 n).toList.length = 6 ∧
    (∀ c ∈ (digits6 n).toList, c.isDigit = true) ∧
    ∀ i, Nat.ofDigitChars 10 (digits6 n).toList i = 10 ^ 6 * i + n := by
  have hl : (Nat.toDigits 10 n).length ≤ 6 := (Nat.length_toDigits_le_iff (by omega) (by omega)).2 h
  have e : (digits6 n).toList = List.replicate (6 - (Nat.toDigits 10 n).length) '0' ++ Nat.toDigits 10 n := by
    simp [digits6, Nat.toString_eq_repr, ← String.length_toList, Nat.toList_repr]
  refine ⟨?_, ?_, ?_⟩
  · rw [e]; simp; omega
  · rw [e]
    intro c hc
    rcases List.mem_append.1 hc with hc | hc
    · rw [(List.mem_replicate.1 hc).2]; rfl
    · exact Nat.isDigit_of_mem_toDigits (by omega) (by omega) hc
  · intro i
    rw [e, Nat.ofDigitChars_append, Nat.ofDigitChars_replicate_zero, Nat.ofDigitChars_eq_ofDigitChars_zero,
      Nat.ofDigitChars_ten_toDigits, ← Nat.mul_assoc, ← Nat.pow_add,
      show (Nat.toDigits 10 n).length + (6 - (Nat.toDigits 10 n).length) = 6 by omega]

theorem fixed6_text (neg : Bool) (k : Nat) :
    ∃ s, (fixed6 neg k).toList = (if neg then ['-'] else []) ++ s ∧ Decimal s k := by
  obtain ⟨h1, h2, h3⟩ := digits6_text (Nat.mod_lt k (show 0 < 10 ^ 6 by decide))
  refine ⟨Nat.toDigits 10 (k / 10 ^ 6) ++ '.' :: (digits6 (k % 10 ^ 6)).toList, ?_,
    Nat.toDigits 10 (k / 10 ^ 6), (digits6 (k % 10 ^ 6)).toList, rfl, Nat.toDigits_ne_nil, h1, ?_, ?_⟩
  · cases neg <;> simp [fixed6, Nat.toString_eq_repr, Nat.toList_repr]
  · intro c hc
    rcases List.mem_append.1 hc with hc | hc
    · exact Nat.isDigit_of_mem_toDigits (by omega) (by omega) hc
    · exact h2 c hc
  · have := Nat.div_add_mod k (10 ^ 6)
    rw [← Nat.ofDigitChars_eq_foldl (b := 10), Nat.ofDigitChars_append, Nat.ofDigitChars_ten_toDigits, h3]
    exact this

/-- C119: the text of a finite bound is a decimal number that is off by at most half a millionth. -/
theorem C119_text {b : BitVec 64} {u : Int} (h : decode64 b = .fin u) :
    ∃ s k, (text (.dbl b)).toList = (if b.toNat / 2 ^ 63 != 0 then ['-'] else []) ++ s ∧ Decimal s k ∧
      2 * (u.natAbs * 10 ^ 6) ≤ (2 * k + 1) * 2 ^ 1074 ∧ 2 * k * 2 ^ 1074 ≤ 2 * (u.natAbs * 10 ^ 6) + 2 ^ 1074 := by
  have hone : one.toNat = 2 ^ 1074 := by
    have : one = ((2 ^ 1074 : Nat) : Int) := (Int.natCast_pow 2 1074).symm
    rw [this, Int.toNat_natCast]
  simp only [text, h, fpText, hone]
  obtain ⟨s, h1, h2⟩ := fixed6_text (b.toNat / 2 ^ 63 != 0) (divNear (u.natAbs * 10 ^ 6) (2 ^ 1074))
  exact ⟨s, _, h1, h2, divNear_near _ (Nat.two_pow_pos 1074)⟩

/-- 1.5, and a third. -/
example : text (.dbl 0x3FF8000000000000#64) = "1.500000" ∧ text (.dbl 0xBFD5555555555555#64) = "-0.333333" ∧
    decode64 0x3FF8000000000000#64 = .fin (3 * 2 ^ 1073) := by decide +kernel

/-- C119 (violated): different bounds have the same text, so that the message can deny what is the case:
0.0000001 is outside of `[0.000000, 0.000000]` when that is what 1e-7 less than it is shown as. -/
theorem C119_text_violated :
    check .dbl (.plain (.dbl 0x3E8AD7F29ABCAF48#64)) (.le ⟨.dbl, .dbl 0x3E7AD7F29ABCAF48#64⟩) =
      some "value is greater than allowed limit of 0.000000" ∧
    text (.dbl 0x3E8AD7F29ABCAF48#64) = "0.000000" := by decide +kernel

end Verif.Bounds
