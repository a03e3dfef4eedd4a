import Verif.Floating.Spec

/-!
Rounding to a format, magnitudes first.
-/

namespace Verif.Floating
open Verif.Bounds

/-- The number of units of a finite pattern without sign. -/
def value (f low n : Nat) : Nat :=
  if n / 2 ^ f = 0 then n % 2 ^ f * 2 ^ low else (2 ^ f + n % 2 ^ f) * 2 ^ (low + (n / 2 ^ f - 1))

theorem decode_value {f low emax n : Nat} (h : n < emax * 2 ^ f) :
    decode f low emax false (n / 2 ^ f) (n % 2 ^ f) = .fin (value f low n) := by
  have hp : 0 < 2 ^ f := Nat.two_pow_pos f
  have h1 : n / 2 ^ f < emax := (Nat.div_lt_iff_lt_mul hp).2 h
  simp only [decode, if_neg (Nat.ne_of_lt h1), value, Bool.false_eq_true, if_false, Fp.fin.injEq]
  by_cases h0 : n / 2 ^ f = 0
  · simp only [h0, if_true]; simp
  · simp only [h0, if_false]; simp

theorem value_step {f low n : Nat} : value f low n < value f low (n + 1) := by
  have hp : 0 < 2 ^ f := Nat.two_pow_pos f
  have hb : n + 1 < (n + 2) * 2 ^ f := Nat.lt_of_lt_of_le (by omega) (Nat.le_mul_of_pos_right (n + 2) hp)
  obtain ⟨u, h1, h2⟩ := decode_step (low := low) hb
  rw [decode_value (by omega)] at h1
  rw [decode_value hb] at h2
  simp only [Fp.fin.injEq] at h1 h2
  have := pow2_pos (low + (max (n / 2 ^ f) 1 - 1))
  omega

theorem value_lt {f low n m : Nat} (h : n < m) : value f low n < value f low m := by
  induction m with
  | zero => omega
  | succ m ih =>
    rcases Nat.lt_or_ge n m with h1 | h1
    · exact Nat.lt_trans (ih h1) value_step
    · rw [show n = m by omega]; exact value_step

theorem value_lt_iff {f low n m : Nat} : value f low n < value f low m ↔ n < m := by
  refine ⟨fun h => ?_, value_lt⟩
  rcases Nat.lt_trichotomy n m with h1 | rfl | h1
  · exact h1
  · omega
  · have := value_lt (f := f) (low := low) h1; omega

theorem value_inj {f low n m : Nat} (h : value f low n = value f low m) : n = m := by
  rcases Nat.lt_trichotomy n m with h1 | rfl | h1
  · have := value_lt (f := f) (low := low) h1; omega
  · rfl
  · have := value_lt (f := f) (low := low) h1; omega

/-- A pattern by its exponent and the multiple of its unit; a carry is allowed. -/
theorem value_at {f low k q : Nat} (hk : low ≤ k) (hq : q ≤ 2 ^ (f + 1)) (h : k = low ∨ 2 ^ f ≤ q) :
    value f low ((k - low) * 2 ^ f + q) = q * 2 ^ k := by
  have hp : 0 < 2 ^ f := Nat.two_pow_pos f
  have hs : 2 ^ (f + 1) = 2 * 2 ^ f := Nat.pow_succ'
  rcases Nat.lt_or_ge q (2 ^ f) with h1 | h1
  · have : k = low := by omega
    subst this
    simp only [Nat.sub_self, Nat.zero_mul, Nat.zero_add, value, Nat.div_eq_of_lt h1, Nat.mod_eq_of_lt h1, if_true]
  · rcases Nat.lt_or_ge q (2 ^ (f + 1)) with h2 | h2
    · have e : (k - low) * 2 ^ f + q = 2 ^ f * (k - low + 1) + (q - 2 ^ f) := by
        rw [Nat.mul_add, Nat.mul_comm]; omega
      have e1 : (2 ^ f * (k - low + 1) + (q - 2 ^ f)) / 2 ^ f = k - low + 1 := by
        rw [Nat.mul_add_div hp, Nat.div_eq_of_lt (by omega), Nat.add_zero]
      have e2 : (2 ^ f * (k - low + 1) + (q - 2 ^ f)) % 2 ^ f = q - 2 ^ f := by
        rw [Nat.mul_add_mod, Nat.mod_eq_of_lt (by omega)]
      rw [e, value, e1, e2, if_neg (by omega)]
      congr 1
      · omega
      · congr 1; omega
    · have hq' : q = 2 * 2 ^ f := by omega
      have e : (k - low) * 2 ^ f + q = 2 ^ f * (k - low + 2) := by
        rw [Nat.mul_add, Nat.mul_comm, hq']; omega
      rw [e, value, Nat.mul_div_cancel_left _ hp, Nat.mul_mod_right, if_neg (by omega), hq']
      rw [show low + (k - low + 2 - 1) = k + 1 by omega, Nat.pow_succ]
      rw [Nat.add_zero, Nat.mul_comm (2 ^ k), ← Nat.mul_assoc, Nat.mul_comm (2 ^ f)]

/-- Every pattern is such a multiple. -/
theorem value_of (f low n : Nat) : ∃ k q, low ≤ k ∧ q < 2 ^ (f + 1) ∧ (k = low ∨ 2 ^ f ≤ q) ∧ n = (k - low) * 2 ^ f + q ∧
    value f low n = q * 2 ^ k := by
  have hp : 0 < 2 ^ f := Nat.two_pow_pos f
  have hs : 2 ^ (f + 1) = 2 * 2 ^ f := Nat.pow_succ'
  have hm := Nat.mod_lt n hp
  have hd := Nat.div_add_mod n (2 ^ f)
  by_cases h0 : n / 2 ^ f = 0
  · refine ⟨low, n % 2 ^ f, Nat.le_refl _, by omega, .inl rfl, ?_, ?_⟩
    · rw [h0] at hd; simp only [Nat.sub_self, Nat.zero_mul, Nat.zero_add]; omega
    · simp [value, h0]
  · refine ⟨low + (n / 2 ^ f - 1), 2 ^ f + n % 2 ^ f, by omega, by omega, .inr (by omega), ?_, ?_⟩
    · rw [Nat.add_sub_cancel_left, Nat.sub_mul, Nat.one_mul]
      have h1 : 2 ^ f ≤ n / 2 ^ f * 2 ^ f := Nat.le_mul_of_pos_left _ (Nat.pos_of_ne_zero h0)
      rw [Nat.mul_comm] at hd
      omega
    · simp [value, h0]

/-! ### Rounding -/

/-- The unit in the last place of the result. -/
def unit (f low u : Nat) : Nat := max low (u.log2 - f)

/-- The pattern before infinity is considered. -/
def pattern (f low u : Nat) : Nat := (unit f low u - low) * 2 ^ f + divNear u (2 ^ unit f low u)

theorem magnitude_eq (f low emax u : Nat) : magnitude f low emax u = min (pattern f low u) (emax * 2 ^ f) := rfl

theorem divNear_le {a b q : Nat} (h : a ≤ q * b) (hb : 0 < b) : divNear a b ≤ q := by
  have := (divNear_near a hb)
  have h1 : a / b ≤ q := by rw [← Nat.mul_div_cancel q hb]; exact Nat.div_le_div_right h
  rcases Nat.lt_or_ge (a / b) q with h2 | h2
  · unfold divNear; split <;> omega
  · have h3 : a / b = q := by omega
    have h4 : a % b = 0 := by
      have := Nat.div_add_mod a b
      rw [h3, Nat.mul_comm] at this; omega
    unfold divNear
    simp [h4]
    split <;> omega

theorem le_divNear {a b q : Nat} (h : q * b ≤ a) (hb : 0 < b) : q ≤ divNear a b := by
  have : q ≤ a / b := (Nat.le_div_iff_mul_le hb).2 h
  unfold divNear; split <;> omega

/-- What `unit` means: the number has at most one bit more than the fraction, and exactly that many above the least unit. -/
theorem unit_spec (f low u : Nat) : low ≤ unit f low u ∧ u < 2 ^ (f + 1) * 2 ^ unit f low u ∧
    (unit f low u = low ∨ 2 ^ f * 2 ^ unit f low u ≤ u) := by
  have hlt : u < 2 ^ (u.log2 + 1) := Nat.lt_log2_self
  refine ⟨Nat.le_max_left _ _, ?_, ?_⟩
  · rw [← Nat.pow_add]
    exact Nat.lt_of_lt_of_le hlt (Nat.pow_le_pow_right (by omega) (by unfold unit; omega))
  · by_cases h : unit f low u = low
    · exact .inl h
    · have h1 : unit f low u = u.log2 - f := by unfold unit at *; omega
      have h2 : low < u.log2 - f := by unfold unit at *; omega
      have h0 : u ≠ 0 := by rintro rfl; simp at h2
      refine .inr ?_
      rw [h1, ← Nat.pow_add, show f + (u.log2 - f) = u.log2 by omega]
      exact Nat.log2_self_le h0

theorem pattern_value (f low u : Nat) : value f low (pattern f low u) = divNear u (2 ^ unit f low u) * 2 ^ unit f low u := by
  obtain ⟨h1, h2, h3⟩ := unit_spec f low u
  have hp := Nat.two_pow_pos (unit f low u)
  refine value_at h1 (divNear_le (by omega) hp) ?_
  rcases h3 with h3 | h3
  · exact .inl h3
  · exact .inr (le_divNear h3 hp)

/-- The pattern is the nearest of all patterns, and even if another one is as near. -/
theorem pattern_nearest {f : Nat} (hf : 0 < f) (low u n : Nat) :
    ((u : Int) - value f low (pattern f low u)).natAbs ≤ ((u : Int) - value f low n).natAbs ∧
    (((u : Int) - value f low (pattern f low u)).natAbs = ((u : Int) - value f low n).natAbs →
      value f low n = value f low (pattern f low u) ∨ pattern f low u % 2 = 0) := by
  obtain ⟨h1, h2, h3⟩ := unit_spec f low u
  have hp := Nat.two_pow_pos (unit f low u)
  obtain ⟨k, q, hk, hq, hkq, -, hv⟩ := value_of f low n
  rw [pattern_value, hv]
  have hpar : pattern f low u % 2 = divNear u (2 ^ unit f low u) % 2 := by
    obtain ⟨g, rfl⟩ : ∃ g, f = g + 1 := ⟨f - 1, by omega⟩
    rw [pattern, Nat.pow_succ, ← Nat.mul_assoc, Nat.add_comm, Nat.add_mul_mod_self_right]
  rw [hpar]
  generalize unit f low u = K at *
  rcases Nat.lt_or_ge k K with h | h
  · -- a finer unit: below the least number with the unit of the result
    have hK : 2 ^ f * 2 ^ K ≤ u := by rcases h3 with h3 | h3 <;> omega
    have hlt : q * 2 ^ k < 2 ^ f * 2 ^ K := by
      have a1 : q * 2 ^ k < 2 ^ (f + 1) * 2 ^ k := Nat.mul_lt_mul_of_pos_right hq (Nat.two_pow_pos k)
      have a2 : 2 ^ (f + 1) * 2 ^ k ≤ 2 ^ f * 2 ^ K := by
        rw [← Nat.pow_add, ← Nat.pow_add]; exact Nat.pow_le_pow_right (by omega) (by omega)
      omega
    have := multiple_near u (2 ^ f) hp
    omega
  · obtain ⟨j, hj⟩ : ∃ j, q * 2 ^ k = j * 2 ^ K := ⟨q * 2 ^ (k - K), by rw [Nat.mul_assoc, ← Nat.pow_add]; congr 2; omega⟩
    rw [hj]
    refine ⟨?_, ?_⟩
    · have := multiple_near u j hp
      omega
    · intro he
      by_cases hjd : j = divNear u (2 ^ K)
      · left; rw [hjd]
      · right
        have hu := Nat.div_add_mod u (2 ^ K)
        have hm := Nat.mod_lt u hp
        rw [Nat.mul_comm] at hu
        have htie : 2 * (u % 2 ^ K) = 2 ^ K := by
          have hnear := divNear_near u hp
          have e3 : (2 * divNear u (2 ^ K) + 1) * 2 ^ K = 2 * (divNear u (2 ^ K) * 2 ^ K) + 2 ^ K := by
            rw [Nat.add_mul, Nat.mul_assoc]; omega
          have e4 : 2 * divNear u (2 ^ K) * 2 ^ K = 2 * (divNear u (2 ^ K) * 2 ^ K) := Nat.mul_assoc ..
          have hcase : divNear u (2 ^ K) = u / 2 ^ K ∨ divNear u (2 ^ K) = u / 2 ^ K + 1 := by
            unfold divNear; split <;> omega
          have e5 : (u / 2 ^ K + 1) * 2 ^ K = u / 2 ^ K * 2 ^ K + 2 ^ K := by rw [Nat.add_mul]; omega
          have hD : divNear u (2 ^ K) * 2 ^ K = u / 2 ^ K * 2 ^ K ∨
              divNear u (2 ^ K) * 2 ^ K = u / 2 ^ K * 2 ^ K + 2 ^ K := by
            rcases hcase with hc | hc <;> rw [hc]
            · exact .inl rfl
            · exact .inr e5
          have hJ : j * 2 ^ K + 2 ^ K ≤ divNear u (2 ^ K) * 2 ^ K ∨ divNear u (2 ^ K) * 2 ^ K + 2 ^ K ≤ j * 2 ^ K := by
            rcases Nat.lt_or_ge j (divNear u (2 ^ K)) with hl | hl
            · have := Nat.mul_le_mul_right (2 ^ K) (show j + 1 ≤ divNear u (2 ^ K) by omega)
              rw [Nat.add_mul] at this; omega
            · have := Nat.mul_le_mul_right (2 ^ K) (show divNear u (2 ^ K) + 1 ≤ j by omega)
              rw [Nat.add_mul] at this; omega
          obtain ⟨n1, n2⟩ := hnear
          rw [e3] at n1
          rw [e4] at n2
          generalize divNear u (2 ^ K) * 2 ^ K = D at *
          generalize j * 2 ^ K = J at *
          generalize u / 2 ^ K * 2 ^ K = A at *
          generalize u % 2 ^ K = r at *
          generalize 2 ^ K = B at *
          clear hcase e5 hjd
          omega
        unfold divNear
        simp only [htie, Nat.lt_irrefl, decide_false, Bool.false_or, beq_self_eq_true, Bool.true_and, beq_iff_eq, gt_iff_lt]
        split <;> omega

/-- A number of the format is its own pattern. -/
theorem pattern_self {f : Nat} (hf : 0 < f) (low n : Nat) : pattern f low (value f low n) = n := by
  have := (pattern_nearest hf low (value f low n) n).1
  exact value_inj (f := f) (low := low) (by omega)

end Verif.Floating
