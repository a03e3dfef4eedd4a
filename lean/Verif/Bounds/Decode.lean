import Verif.Bounds.Props2

/-!
C119, continued: what the bits of floating-point numbers mean. The numbers are given by their order only:
the bits 0 are zero, each pattern of bits is one unit in the last place above its predecessor, and the sign
bit negates. That determines all finite numbers, the subnormal ones included.
-/

namespace Verif.Bounds

/-- Negation. -/
def Fp.neg : Fp → Fp
  | .nan => .nan
  | .negInf => .posInf
  | .fin u => .fin (-u)
  | .posInf => .negInf

theorem decode_neg (f low emax e m : Nat) : decode f low emax true e m = (decode f low emax false e m).neg := by
  unfold decode
  split
  · split <;> rfl
  · simp [Fp.neg]

theorem decode_step {f low emax n : Nat} (h : n + 1 < emax * 2 ^ f) :
    ∃ u, decode f low emax false (n / 2 ^ f) (n % 2 ^ f) = .fin u ∧
      decode f low emax false ((n + 1) / 2 ^ f) ((n + 1) % 2 ^ f) =
        .fin (u + 2 ^ (low + (max (n / 2 ^ f) 1 - 1))) := by
  have hp : 0 < 2 ^ f := Nat.two_pow_pos f
  have h1 : n / 2 ^ f < emax := (Nat.div_lt_iff_lt_mul hp).2 (by omega)
  have h2 : (n + 1) / 2 ^ f < emax := (Nat.div_lt_iff_lt_mul hp).2 h
  have hm := Nat.mod_lt n hp
  have hd := Nat.div_add_mod n (2 ^ f)
  simp only [decode, if_neg (Nat.ne_of_lt h1), if_neg (Nat.ne_of_lt h2)]
  refine ⟨_, rfl, ?_⟩
  simp only [Bool.false_eq_true, if_false, Fp.fin.injEq]
  by_cases hc : n % 2 ^ f + 1 < 2 ^ f
  · -- the same exponent
    have e : n + 1 = 2 ^ f * (n / 2 ^ f) + (n % 2 ^ f + 1) := by omega
    have e1 : (n + 1) / 2 ^ f = n / 2 ^ f := by
      rw [e, Nat.mul_add_div hp, Nat.div_eq_of_lt hc, Nat.add_zero]
    have e2 : (n + 1) % 2 ^ f = n % 2 ^ f + 1 := by
      rw [e, Nat.mul_add_mod, Nat.mod_eq_of_lt hc]
    rw [e1, e2]
    split
    · rename_i h0
      simp only [h0, Nat.max_def]
      simp only [Int.natCast_add, Int.add_mul]
      simp
    · rename_i h0
      have : max (n / 2 ^ f) 1 = n / 2 ^ f := Nat.max_eq_left (Nat.pos_of_ne_zero h0)
      rw [this]
      simp only [Int.natCast_add, Int.add_mul]
      simp [Int.add_assoc]
  · have e : n + 1 = 2 ^ f * (n / 2 ^ f + 1) := by rw [Nat.mul_add]; omega
    have e1 : (n + 1) / 2 ^ f = n / 2 ^ f + 1 := by rw [e, Nat.mul_div_cancel_left _ hp]
    have e2 : (n + 1) % 2 ^ f = 0 := by rw [e, Nat.mul_mod_right]
    have e3 : ((n % 2 ^ f : Nat) : Int) = 2 ^ f - 1 := by
      have : n % 2 ^ f + 1 = 2 ^ f := by omega
      have := congrArg (Nat.cast (R := Int)) this
      simp only [Int.natCast_add, Int.natCast_pow, Int.natCast_one] at this
      exact (Int.sub_eq_iff_eq_add.2 this.symm).symm
    rw [e1, e2, e3]
    simp only [Nat.add_one_ne_zero, if_false]
    split
    · rename_i h0
      simp [h0, Int.sub_mul]
    · rename_i h0
      have h3 : max (n / 2 ^ f) 1 = n / 2 ^ f := Nat.max_eq_left (Nat.pos_of_ne_zero h0)
      have h4 : n / 2 ^ f + 1 - 1 = (n / 2 ^ f - 1) + 1 := by
        have := Nat.pos_of_ne_zero h0; rw [Nat.sub_add_cancel this, Nat.add_sub_cancel]
      rw [h3, h4, ← Nat.add_assoc, Int.pow_succ]
      simp only [Int.add_mul, Int.sub_mul]
      simp
      generalize (2 : Int) ^ f = a
      generalize (2 : Int) ^ (low + (n / 2 ^ f - 1)) = b
      have : a * (b * 2) = a * b + a * b := by rw [← Int.mul_assoc]; omega
      omega

theorem decode_infinity {f low emax n : Nat} (h : emax * 2 ^ f ≤ n) (h2 : n < (emax + 1) * 2 ^ f) :
    decode f low emax false (n / 2 ^ f) (n % 2 ^ f) = if n = emax * 2 ^ f then .posInf else .nan := by
  have hp : 0 < 2 ^ f := Nat.two_pow_pos f
  have h1 : n / 2 ^ f = emax := by
    apply Nat.le_antisymm
    · exact Nat.le_of_lt_succ ((Nat.div_lt_iff_lt_mul hp).2 h2)
    · exact (Nat.le_div_iff_mul_le hp).2 h
  have hd := Nat.div_add_mod n (2 ^ f)
  rw [h1, Nat.mul_comm] at hd
  simp only [decode, h1, if_true]
  by_cases hm : n % 2 ^ f = 0
  · rw [hm, Nat.add_zero] at hd
    rw [if_pos hm, if_pos hd.symm]; rfl
  · have : n ≠ emax * 2 ^ f := fun h => hm (Nat.add_left_cancel (hd.trans (h.trans (Nat.add_zero _).symm)))
    rw [if_neg hm, if_neg this]

/-! ### Both formats -/

theorem decode64_pos {b : BitVec 64} (h : b.toNat < 2 ^ 63) :
    decode64 b = decode 52 0 2047 false (b.toNat / 2 ^ 52) (b.toNat % 2 ^ 52) := by
  have e1 : (b.toNat / 2 ^ 63 != 0) = false := by simp; omega
  have e2 : b.toNat / 2 ^ 52 % 2 ^ 11 = b.toNat / 2 ^ 52 := by omega
  simp only [decode64, e1, e2]

theorem decode64_flip {b c : BitVec 64} (h : b.toNat < 2 ^ 63) (hc : c.toNat = b.toNat + 2 ^ 63) :
    decode64 c = (decode64 b).neg := by
  have e1 : (c.toNat / 2 ^ 63 != 0) = true := by simp; omega
  have e2 : c.toNat / 2 ^ 52 % 2 ^ 11 = b.toNat / 2 ^ 52 := by omega
  have e3 : c.toNat % 2 ^ 52 = b.toNat % 2 ^ 52 := by omega
  rw [decode64_pos h, ← decode_neg]
  simp only [decode64, e1, e2, e3]

theorem decode32_pos {b : BitVec 32} (h : b.toNat < 2 ^ 31) :
    decode32 b = decode 23 925 255 false (b.toNat / 2 ^ 23) (b.toNat % 2 ^ 23) := by
  have e1 : (b.toNat / 2 ^ 31 != 0) = false := by simp; omega
  have e2 : b.toNat / 2 ^ 23 % 2 ^ 8 = b.toNat / 2 ^ 23 := by omega
  simp only [decode32, e1, e2]

theorem decode32_flip {b c : BitVec 32} (h : b.toNat < 2 ^ 31) (hc : c.toNat = b.toNat + 2 ^ 31) :
    decode32 c = (decode32 b).neg := by
  have e1 : (c.toNat / 2 ^ 31 != 0) = true := by simp; omega
  have e2 : c.toNat / 2 ^ 23 % 2 ^ 8 = b.toNat / 2 ^ 23 := by omega
  have e3 : c.toNat % 2 ^ 23 = b.toNat % 2 ^ 23 := by omega
  rw [decode32_pos h, ← decode_neg]
  simp only [decode32, e1, e2, e3]

/-- C119: the bits of a `double`. From zero, each pattern is one unit in the last place above the one before
it; the units start with 2^-1074. The patterns after the finite ones are infinity and no numbers. -/
theorem C119_decode64 (b : BitVec 64) (h : b.toNat < 2 ^ 63) :
    decode64 0#64 = .fin 0 ∧
    (b.toNat + 1 < 2047 * 2 ^ 52 → ∃ u, decode64 b = .fin u ∧
      decode64 (b + 1#64) = .fin (u + 2 ^ (0 + (max (b.toNat / 2 ^ 52) 1 - 1)))) ∧
    (2047 * 2 ^ 52 ≤ b.toNat → decode64 b = if b.toNat = 2047 * 2 ^ 52 then .posInf else .nan) ∧
    decode64 (b + 0x8000000000000000#64) = (decode64 b).neg := by
  refine ⟨by decide +kernel, ?_, ?_, ?_⟩
  · intro hb
    obtain ⟨u, h1, h2⟩ := decode_step (f := 52) (low := 0) (emax := 2047) hb
    have hs : (b + 1#64).toNat = b.toNat + 1 := by
      rw [BitVec.toNat_add]; exact Nat.mod_eq_of_lt (by simp; omega)
    refine ⟨u, (decode64_pos h).trans h1, ?_⟩
    rw [decode64_pos (by omega), hs]
    exact h2
  · intro hb
    exact (decode64_pos h).trans (decode_infinity (f := 52) (emax := 2047) hb (by omega))
  · refine decode64_flip h ?_
    rw [BitVec.toNat_add]; exact Nat.mod_eq_of_lt (by simp; omega)

/-- C119: the bits of a `float`; the units start with 2^-149. -/
theorem C119_decode32 (b : BitVec 32) (h : b.toNat < 2 ^ 31) :
    decode32 0#32 = .fin 0 ∧
    (b.toNat + 1 < 255 * 2 ^ 23 → ∃ u, decode32 b = .fin u ∧
      decode32 (b + 1#32) = .fin (u + 2 ^ (925 + (max (b.toNat / 2 ^ 23) 1 - 1)))) ∧
    (255 * 2 ^ 23 ≤ b.toNat → decode32 b = if b.toNat = 255 * 2 ^ 23 then .posInf else .nan) ∧
    decode32 (b + 0x80000000#32) = (decode32 b).neg := by
  refine ⟨by decide +kernel, ?_, ?_, ?_⟩
  · intro hb
    obtain ⟨u, h1, h2⟩ := decode_step (f := 23) (low := 925) (emax := 255) hb
    have hs : (b + 1#32).toNat = b.toNat + 1 := by
      rw [BitVec.toNat_add]; exact Nat.mod_eq_of_lt (by simp; omega)
    refine ⟨u, (decode32_pos h).trans h1, ?_⟩
    rw [decode32_pos (by omega), hs]
    exact h2
  · intro hb
    exact (decode32_pos h).trans (decode_infinity (f := 23) (emax := 255) hb (by omega))
  · refine decode32_flip h ?_
    rw [BitVec.toNat_add]; exact Nat.mod_eq_of_lt (by simp; omega)

/-- The least positive numbers, and those around the first normal one. -/
example : decode64 1#64 = .fin 1 ∧ decode64 2#64 = .fin 2 ∧ decode64 0x8000000000000001#64 = .fin (-1) ∧
    decode64 0x000FFFFFFFFFFFFF#64 = .fin (2 ^ 52 - 1) ∧ decode64 0x0010000000000000#64 = .fin (2 ^ 52) ∧
    decode64 0x0020000000000001#64 = .fin (2 ^ 53 + 2) ∧ decode64 0x7FF0000000000001#64 = .nan := by decide +kernel
example : (0x0020000000000001#64).toNat + 1 < 2047 * 2 ^ 52 := by decide
example : decode32 1#32 = .fin (2 ^ 925) ∧ decode32 0x3F800000#32 = .fin (2 ^ 1074) := by decide +kernel

end Verif.Bounds
