import Verif.Floating.Lemmas

/-!
Both formats, with signs.
-/

namespace Verif.Floating
open Verif.Bounds Verif.Floating.Spec

theorem value_zero (f low : Nat) : value f low 0 = 0 := by simp [value]

theorem value_infinity {f low emax : Nat} (h : 2 ≤ emax) :
    value f low (emax * 2 ^ f) = 2 ^ (f + 1) * 2 ^ (low + emax - 2) := by
  have hs : 2 ^ (f + 1) = 2 * 2 ^ f := Nat.pow_succ'
  have := value_at (f := f) (low := low) (k := low + emax - 2) (q := 2 ^ (f + 1)) (by omega) (Nat.le_refl _) (by omega)
  rw [← this, show low + emax - 2 - low = emax - 2 by omega, hs, ← Nat.add_mul, show emax - 2 + 2 = emax by omega]

theorem value_greatest {f low emax : Nat} (h : 2 ≤ emax) :
    value f low (emax * 2 ^ f - 1) = (2 ^ (f + 1) - 1) * 2 ^ (low + emax - 2) := by
  have hs : 2 ^ (f + 1) = 2 * 2 ^ f := Nat.pow_succ'
  have hp := Nat.two_pow_pos f
  have := value_at (f := f) (low := low) (k := low + emax - 2) (q := 2 ^ (f + 1) - 1) (by omega) (by omega) (by omega)
  rw [← this, show low + emax - 2 - low = emax - 2 by omega]
  have : (emax - 2) * 2 ^ f + 2 ^ (f + 1) = emax * 2 ^ f := by
    rw [hs, ← Nat.add_mul, show emax - 2 + 2 = emax by omega]
  congr 1; omega

/-- When the pattern runs into infinity: from halfway between the greatest number and the next power of two. -/
theorem pattern_overflow {f : Nat} (hf : 0 < f) {emax : Nat} (he : 2 ≤ emax) (low u : Nat) :
    emax * 2 ^ f ≤ pattern f low u ↔ (2 * 2 ^ (f + 1) - 1) * 2 ^ (low + emax - 2) ≤ 2 * u := by
  have hT := value_infinity (f := f) (low := low) he
  have hM := value_greatest (f := f) (low := low) he
  have hp := Nat.two_pow_pos (f + 1)
  have hE : 2 ≤ emax * 2 ^ f := Nat.le_trans he (Nat.le_mul_of_pos_right _ (Nat.two_pow_pos f))
  have hsum : (2 * 2 ^ (f + 1) - 1) * 2 ^ (low + emax - 2) =
      value f low (emax * 2 ^ f) + value f low (emax * 2 ^ f - 1) := by
    rw [hT, hM, ← Nat.add_mul]; congr 1; omega
  have hlt : value f low (emax * 2 ^ f - 1) < value f low (emax * 2 ^ f) := value_lt (by omega)
  rw [hsum]
  constructor
  · intro h
    have h1 : value f low (emax * 2 ^ f) ≤ value f low (pattern f low u) := by
      rcases Nat.lt_or_eq_of_le h with h | h
      · exact Nat.le_of_lt (value_lt h)
      · rw [h]; exact Nat.le_refl _
    have h2 := (pattern_nearest hf low u (emax * 2 ^ f - 1)).1
    omega
  · intro h
    rcases Nat.lt_or_ge (pattern f low u) (emax * 2 ^ f) with hl | hl
    · exfalso
      have h1 : value f low (pattern f low u) ≤ value f low (emax * 2 ^ f - 1) := by
        rcases Nat.lt_or_eq_of_le (show pattern f low u ≤ emax * 2 ^ f - 1 by omega) with h | h
        · exact Nat.le_of_lt (value_lt h)
        · rw [h]; exact Nat.le_refl _
      have h2 := pattern_nearest hf low u (emax * 2 ^ f)
      have h3 : value f low (pattern f low u) = value f low (emax * 2 ^ f - 1) := by omega
      have h4 := value_inj h3
      rcases h2.2 (by omega) with h5 | h5
      · omega
      · obtain ⟨g, rfl⟩ : ∃ g, f = g + 1 := ⟨f - 1, by omega⟩
        have : emax * 2 ^ (g + 1) = 2 * (emax * 2 ^ g) := by rw [Nat.pow_succ]; simp only [Nat.mul_comm, Nat.mul_left_comm]
        omega
    · exact hl

/-- A multiple of an allowed unit with few enough bits is a number of the format. -/
theorem pattern_exact {f low q k : Nat} (hq : q < 2 ^ (f + 1)) (hk : low ≤ k) : value f low (pattern f low (q * 2 ^ k)) = q * 2 ^ k := by
  rw [pattern_value]
  have hK : unit f low (q * 2 ^ k) ≤ k := by
    rcases Nat.eq_zero_or_pos q with rfl | h0
    · simpa [unit] using hk
    · have hne : q * 2 ^ k ≠ 0 := Nat.pos_iff_ne_zero.1 (Nat.mul_pos h0 (Nat.two_pow_pos k))
      have : (q * 2 ^ k).log2 < f + 1 + k := by
        rw [Nat.log2_lt hne, Nat.pow_add]
        exact Nat.mul_lt_mul_of_pos_right hq (Nat.two_pow_pos k)
      unfold unit; omega
  generalize unit f low (q * 2 ^ k) = K at *
  obtain ⟨j, hj⟩ : ∃ j, q * 2 ^ k = j * 2 ^ K := ⟨q * 2 ^ (k - K), by rw [Nat.mul_assoc, ← Nat.pow_add]; congr 2; omega⟩
  have := multiple_near (q * 2 ^ k) j (Nat.two_pow_pos K)
  rw [← hj] at this
  omega

theorem pow_split {a b : Nat} (h : a ≤ b) : (2 : Nat) ^ b = 2 ^ (b - a) * 2 ^ a := by
  rw [← Nat.pow_add]; congr 1; omega

/-! ### Signs -/

def sgn (neg : Bool) (n : Nat) : Int := if neg then -(n : Int) else n

theorem sgn_natAbs (neg : Bool) (n : Nat) : (sgn neg n).natAbs = n := by cases neg <;> simp [sgn]

theorem make32_toNat (neg : Bool) {m : Nat} (h : m < 2 ^ 31) : (make32 neg m).toNat = (if neg then 2 ^ 31 else 0) + m := by
  cases neg <;> simp [make32] <;> omega

theorem make64_toNat (neg : Bool) {m : Nat} (h : m < 2 ^ 63) : (make64 neg m).toNat = (if neg then 2 ^ 63 else 0) + m := by
  cases neg <;> simp [make64] <;> omega

theorem exists32 (b : BitVec 32) : ∃ neg m, m < 2 ^ 31 ∧ b = make32 neg m := by
  refine ⟨b.toNat / 2 ^ 31 != 0, b.toNat % 2 ^ 31, Nat.mod_lt _ (by decide), ?_⟩
  apply BitVec.eq_of_toNat_eq
  rw [make32_toNat _ (Nat.mod_lt _ (by decide))]
  have := b.isLt
  by_cases h : b.toNat / 2 ^ 31 = 0
  · simp only [h, bne_self_eq_false]; simp; omega
  · simp only [bne_iff_ne.2 h, if_true]; omega

theorem exists64 (b : BitVec 64) : ∃ neg m, m < 2 ^ 63 ∧ b = make64 neg m := by
  refine ⟨b.toNat / 2 ^ 63 != 0, b.toNat % 2 ^ 63, Nat.mod_lt _ (by decide), ?_⟩
  apply BitVec.eq_of_toNat_eq
  rw [make64_toNat _ (Nat.mod_lt _ (by decide))]
  have := b.isLt
  by_cases h : b.toNat / 2 ^ 63 = 0
  · simp only [h, bne_self_eq_false]; simp; omega
  · simp only [bne_iff_ne.2 h, if_true]; omega

theorem sign32 (neg : Bool) {m : Nat} (h : m < 2 ^ 31) : ((make32 neg m).toNat / 2 ^ 31 != 0) = neg := by
  rw [make32_toNat _ h]; cases neg <;> simp <;> omega

theorem sign64 (neg : Bool) {m : Nat} (h : m < 2 ^ 63) : ((make64 neg m).toNat / 2 ^ 63 != 0) = neg := by
  rw [make64_toNat _ h]; cases neg <;> simp <;> omega

/-- The meaning of all patterns of a `float`. -/
theorem decode32_make (neg : Bool) {m : Nat} (h : m < 2 ^ 31) : decode32 (make32 neg m) =
    if m < 255 * 2 ^ 23 then .fin (sgn neg (value 23 925 m)) else if m = 255 * 2 ^ 23 then (if neg then .negInf else .posInf)
    else .nan := by
  have hpos : decode32 (make32 false m) =
      if m < 255 * 2 ^ 23 then .fin (value 23 925 m) else if m = 255 * 2 ^ 23 then .posInf else .nan := by
    have e := make32_toNat false h
    simp only [Bool.false_eq_true, if_false, Nat.zero_add] at e
    rw [decode32_pos (by omega), e]
    by_cases h1 : m < 255 * 2 ^ 23
    · rw [if_pos h1, decode_value h1]
    · rw [if_neg h1, decode_infinity (by omega) (by omega)]
  cases neg with
  | false => rw [hpos]; simp [sgn]
  | true =>
    have e := make32_toNat false h
    have e2 := make32_toNat true h
    rw [decode32_flip (b := make32 false m) (by simp at e; omega) (by simp at e e2; omega), hpos]
    by_cases h1 : m < 255 * 2 ^ 23
    · simp only [if_pos h1, Fp.neg, sgn, if_true]
    · rw [if_neg h1, if_neg h1]
      by_cases h2 : m = 255 * 2 ^ 23
      · rw [if_pos h2, if_pos h2]; rfl
      · rw [if_neg h2, if_neg h2]; rfl

/-- The meaning of all patterns of a `double`. -/
theorem decode64_make (neg : Bool) {m : Nat} (h : m < 2 ^ 63) : decode64 (make64 neg m) =
    if m < 2047 * 2 ^ 52 then .fin (sgn neg (value 52 0 m)) else if m = 2047 * 2 ^ 52 then (if neg then .negInf else .posInf)
    else .nan := by
  have hpos : decode64 (make64 false m) =
      if m < 2047 * 2 ^ 52 then .fin (value 52 0 m) else if m = 2047 * 2 ^ 52 then .posInf else .nan := by
    have e := make64_toNat false h
    simp only [Bool.false_eq_true, if_false, Nat.zero_add] at e
    rw [decode64_pos (by omega), e]
    by_cases h1 : m < 2047 * 2 ^ 52
    · rw [if_pos h1, decode_value h1]
    · rw [if_neg h1, decode_infinity (by omega) (by omega)]
  cases neg with
  | false => rw [hpos]; simp [sgn]
  | true =>
    have e := make64_toNat false h
    have e2 := make64_toNat true h
    rw [decode64_flip (b := make64 false m) (by simp at e; omega) (by simp at e e2; omega), hpos]
    by_cases h1 : m < 2047 * 2 ^ 52
    · simp only [if_pos h1, Fp.neg, sgn, if_true]
    · rw [if_neg h1, if_neg h1]
      by_cases h2 : m = 2047 * 2 ^ 52
      · rw [if_pos h2, if_pos h2]; rfl
      · rw [if_neg h2, if_neg h2]; rfl

/-- The finite patterns. -/
theorem fin32 {b : BitVec 32} {w : Int} (h : decode32 b = .fin w) :
    ∃ neg m, m < 255 * 2 ^ 23 ∧ b = make32 neg m ∧ w = sgn neg (value 23 925 m) := by
  obtain ⟨neg, m, hm, rfl⟩ := exists32 b
  rw [decode32_make neg hm] at h
  split at h
  · rename_i h1
    exact ⟨neg, m, h1, rfl, (Fp.fin.inj h).symm⟩
  · split at h
    · split at h <;> cases h
    · cases h

theorem fin64 {b : BitVec 64} {w : Int} (h : decode64 b = .fin w) :
    ∃ neg m, m < 2047 * 2 ^ 52 ∧ b = make64 neg m ∧ w = sgn neg (value 52 0 m) := by
  obtain ⟨neg, m, hm, rfl⟩ := exists64 b
  rw [decode64_make neg hm] at h
  split at h
  · rename_i h1
    exact ⟨neg, m, h1, rfl, (Fp.fin.inj h).symm⟩
  · split at h
    · split at h <;> cases h
    · cases h

/-- Rounding with a sign is nearest among the numbers of both signs. -/
theorem signed_nearest {f : Nat} (hf : 0 < f) (low u : Nat) (neg neg' : Bool) (n : Nat) :
    (sgn neg u - sgn neg (value f low (pattern f low u))).natAbs ≤ (sgn neg u - sgn neg' (value f low n)).natAbs ∧
    ((sgn neg u - sgn neg (value f low (pattern f low u))).natAbs = (sgn neg u - sgn neg' (value f low n)).natAbs →
      sgn neg' (value f low n) = sgn neg (value f low (pattern f low u)) ∨ pattern f low u % 2 = 0) := by
  have h1 := pattern_nearest hf low u n
  have h0 := pattern_nearest hf low u 0
  rw [value_zero] at h0
  cases neg <;> cases neg' <;> simp only [sgn, Bool.false_eq_true, if_false, if_true] at *
  · exact ⟨h1.1, fun h => (h1.2 h).imp (congrArg _) id⟩
  · refine ⟨by omega, fun h => ?_⟩
    rcases h0.2 (by omega) with h2 | h2
    · exact .inl (by omega)
    · exact .inr h2
  · refine ⟨by omega, fun h => ?_⟩
    rcases h0.2 (by omega) with h2 | h2
    · exact .inl (by omega)
    · exact .inr h2
  · refine ⟨by omega, fun h => ?_⟩
    rcases h1.2 (by omega) with h2 | h2
    · exact .inl (by omega)
    · exact .inr h2

theorem nearest32 {neg : Bool} {u : Nat} (h : pattern 23 925 u < 255 * 2 ^ 23) :
    Nearest decode32 (sgn neg u) (make32 neg (magnitude 23 925 255 u)) := by
  have hm : magnitude 23 925 255 u = pattern 23 925 u := by rw [magnitude_eq]; exact Nat.min_eq_left (by omega)
  rw [hm]
  refine ⟨sgn neg (value 23 925 (pattern 23 925 u)), ?_, ?_⟩
  · rw [decode32_make neg (by omega), if_pos h]
  · intro c w hc
    obtain ⟨neg', m', -, -, rfl⟩ := fin32 hc
    have hp : (make32 neg (pattern 23 925 u)).toNat % 2 = pattern 23 925 u % 2 := by
      rw [make32_toNat neg (by omega)]; cases neg <;> simp <;> omega
    rw [hp]
    exact signed_nearest (by decide) 925 u neg neg' m'

theorem nearest64 {neg : Bool} {u : Nat} (h : pattern 52 0 u < 2047 * 2 ^ 52) :
    Nearest decode64 (sgn neg u) (make64 neg (magnitude 52 0 2047 u)) := by
  have hm : magnitude 52 0 2047 u = pattern 52 0 u := by rw [magnitude_eq]; exact Nat.min_eq_left (by omega)
  rw [hm]
  refine ⟨sgn neg (value 52 0 (pattern 52 0 u)), ?_, ?_⟩
  · rw [decode64_make neg (by omega), if_pos h]
  · intro c w hc
    obtain ⟨neg', m', -, -, rfl⟩ := fin64 hc
    have hp : (make64 neg (pattern 52 0 u)).toNat % 2 = pattern 52 0 u % 2 := by
      rw [make64_toNat neg (by omega)]; cases neg <;> simp <;> omega
    rw [hp]
    exact signed_nearest (by decide) 0 u neg neg' m'

/-- The nearest number passes no number of the format. -/
theorem nearest_faithful {n : Nat} {dec : BitVec n → Fp} {u : Int} {b : BitVec n} (h : Nearest dec u b) : Faithful dec u b := by
  obtain ⟨v, hv, hn⟩ := h
  refine ⟨v, hv, fun c w hc => ?_⟩
  have := (hn c w hc).1
  constructor <;> intro <;> omega

end Verif.Floating
