import Verif.Floating.Formats
import Verif.JsonText.Props

/-!
C132: floating-point members of JSON documents.
-/

namespace Verif.Floating
open Verif.Bounds Verif.Bounds.Spec Verif.Floating.Spec Verif.Serial Verif.JsonText Verif.JsonText.Spec

/-! ### The spec determines the number -/

theorem between {f low n m : Nat} (h : n + 1 < m) :
    value f low n < value f low (n + 1) ∧ value f low (n + 1) < value f low m := ⟨value_step, value_lt h⟩

theorem nearest_le32 {u : Int} {b c : BitVec 32} {v w : Int} (hb : Nearest decode32 u b) (hc : Nearest decode32 u c)
    (ev : decode32 b = .fin v) (ew : decode32 c = .fin w) : ¬ v < w := by
  intro hlt
  obtain ⟨v', ev', hnb⟩ := hb
  obtain ⟨w', ew', hnc⟩ := hc
  rw [ev] at ev'; rw [ew] at ew'
  cases ev'; cases ew'
  have h1 := (hnb c w ew).2 (by have := (hnb c w ew).1; have := (hnc b v ev).1; omega)
  have h2 := (hnc b v ev).2 (by have := (hnb c w ew).1; have := (hnc b v ev).1; omega)
  have hd : (u - v).natAbs = (u - w).natAbs := by have := (hnb c w ew).1; have := (hnc b v ev).1; omega
  have hbe : b.toNat % 2 = 0 := by omega
  have hce : c.toNat % 2 = 0 := by omega
  -- a number strictly between the two is nearer
  have key : ∃ d x, decode32 d = .fin x ∧ v < x ∧ x < w := by
    obtain ⟨nb, mb, hmb, rfl, rfl⟩ := fin32 ev
    obtain ⟨nc, mc, hmc, rfl, rfl⟩ := fin32 ew
    rw [make32_toNat nb (by omega)] at hbe
    rw [make32_toNat nc (by omega)] at hce
    have hbe' : mb % 2 = 0 := by cases nb <;> simp at hbe <;> omega
    have hce' : mc % 2 = 0 := by cases nc <;> simp at hce <;> omega
    have mk : ∀ neg m, m < 255 * 2 ^ 23 → decode32 (make32 neg m) = .fin (sgn neg (value 23 925 m)) := fun neg m hm => by
      rw [decode32_make neg (by omega), if_pos hm]
    cases nb <;> cases nc <;> simp only [sgn, Bool.false_eq_true, if_false, if_true] at hlt
    · have hm : mb < mc := (value_lt_iff (f := 23) (low := 925)).1 (by omega)
      obtain ⟨b1, b2⟩ := between (f := 23) (low := 925) (show mb + 1 < mc by omega)
      exact ⟨_, _, mk false (mb + 1) (by omega), by simp only [sgn, Bool.false_eq_true, if_false, if_true]; omega, by simp only [sgn, Bool.false_eq_true, if_false, if_true]; omega⟩
    · omega
    · rcases Nat.eq_zero_or_pos mb with rfl | h0
      · rw [value_zero] at hlt ⊢
        have hm : 0 < mc := (value_lt_iff (f := 23) (low := 925)).1 (by rw [value_zero]; omega)
        obtain ⟨b1, b2⟩ := between (f := 23) (low := 925) (show 0 + 1 < mc by omega)
        rw [value_zero] at b1
        exact ⟨_, _, mk false (0 + 1) (by omega), by simp only [sgn, Bool.false_eq_true, if_false, if_true]; omega, by simp only [sgn, Bool.false_eq_true, if_false, if_true]; omega⟩
      · obtain ⟨b1, b2⟩ := between (f := 23) (low := 925) (show 0 + 1 < mb by omega)
        rw [value_zero] at b1
        exact ⟨_, _, mk true (0 + 1) (by omega), by simp only [sgn, Bool.false_eq_true, if_false, if_true]; omega, by simp only [sgn, Bool.false_eq_true, if_false, if_true]; omega⟩
    · have hm : mc < mb := (value_lt_iff (f := 23) (low := 925)).1 (by omega)
      obtain ⟨b1, b2⟩ := between (f := 23) (low := 925) (show mc + 1 < mb by omega)
      exact ⟨_, _, mk true (mc + 1) (by omega), by simp only [sgn, Bool.false_eq_true, if_false, if_true]; omega, by simp only [sgn, Bool.false_eq_true, if_false, if_true]; omega⟩
  obtain ⟨d, x, hx, h3, h4⟩ := key
  have := (hnb d x hx).1
  omega

theorem nearest_le64 {u : Int} {b c : BitVec 64} {v w : Int} (hb : Nearest decode64 u b) (hc : Nearest decode64 u c)
    (ev : decode64 b = .fin v) (ew : decode64 c = .fin w) : ¬ v < w := by
  intro hlt
  obtain ⟨v', ev', hnb⟩ := hb
  obtain ⟨w', ew', hnc⟩ := hc
  rw [ev] at ev'; rw [ew] at ew'
  cases ev'; cases ew'
  have h1 := (hnb c w ew).2 (by have := (hnb c w ew).1; have := (hnc b v ev).1; omega)
  have h2 := (hnc b v ev).2 (by have := (hnb c w ew).1; have := (hnc b v ev).1; omega)
  have hd : (u - v).natAbs = (u - w).natAbs := by have := (hnb c w ew).1; have := (hnc b v ev).1; omega
  have hbe : b.toNat % 2 = 0 := by omega
  have hce : c.toNat % 2 = 0 := by omega
  have key : ∃ d x, decode64 d = .fin x ∧ v < x ∧ x < w := by
    obtain ⟨nb, mb, hmb, rfl, rfl⟩ := fin64 ev
    obtain ⟨nc, mc, hmc, rfl, rfl⟩ := fin64 ew
    rw [make64_toNat nb (by omega)] at hbe
    rw [make64_toNat nc (by omega)] at hce
    have hbe' : mb % 2 = 0 := by cases nb <;> simp at hbe <;> omega
    have hce' : mc % 2 = 0 := by cases nc <;> simp at hce <;> omega
    have mk : ∀ neg m, m < 2047 * 2 ^ 52 → decode64 (make64 neg m) = .fin (sgn neg (value 52 0 m)) := fun neg m hm => by
      rw [decode64_make neg (by omega), if_pos hm]
    cases nb <;> cases nc <;> simp only [sgn, Bool.false_eq_true, if_false, if_true] at hlt
    · have hm : mb < mc := (value_lt_iff (f := 52) (low := 0)).1 (by omega)
      obtain ⟨b1, b2⟩ := between (f := 52) (low := 0) (show mb + 1 < mc by omega)
      exact ⟨_, _, mk false (mb + 1) (by omega), by simp only [sgn, Bool.false_eq_true, if_false, if_true]; omega, by simp only [sgn, Bool.false_eq_true, if_false, if_true]; omega⟩
    · omega
    · rcases Nat.eq_zero_or_pos mb with rfl | h0
      · rw [value_zero] at hlt ⊢
        have hm : 0 < mc := (value_lt_iff (f := 52) (low := 0)).1 (by rw [value_zero]; omega)
        obtain ⟨b1, b2⟩ := between (f := 52) (low := 0) (show 0 + 1 < mc by omega)
        rw [value_zero] at b1
        exact ⟨_, _, mk false (0 + 1) (by omega), by simp only [sgn, Bool.false_eq_true, if_false, if_true]; omega, by simp only [sgn, Bool.false_eq_true, if_false, if_true]; omega⟩
      · obtain ⟨b1, b2⟩ := between (f := 52) (low := 0) (show 0 + 1 < mb by omega)
        rw [value_zero] at b1
        exact ⟨_, _, mk true (0 + 1) (by omega), by simp only [sgn, Bool.false_eq_true, if_false, if_true]; omega, by simp only [sgn, Bool.false_eq_true, if_false, if_true]; omega⟩
    · have hm : mc < mb := (value_lt_iff (f := 52) (low := 0)).1 (by omega)
      obtain ⟨b1, b2⟩ := between (f := 52) (low := 0) (show mc + 1 < mb by omega)
      exact ⟨_, _, mk true (mc + 1) (by omega), by simp only [sgn, Bool.false_eq_true, if_false, if_true]; omega, by simp only [sgn, Bool.false_eq_true, if_false, if_true]; omega⟩
  obtain ⟨d, x, hx, h3, h4⟩ := key
  have := (hnb d x hx).1
  omega

/-- C132: there is one nearest `float` and one nearest `double` to every number (zero has two patterns). -/
theorem C132_unique {u : Int} : (∀ {b c : BitVec 32}, Nearest decode32 u b → Nearest decode32 u c → decode32 b = decode32 c) ∧
    (∀ {b c : BitVec 64}, Nearest decode64 u b → Nearest decode64 u c → decode64 b = decode64 c) := by
  constructor
  · intro b c hb hc
    obtain ⟨v, ev, _⟩ := id hb
    obtain ⟨w, ew, _⟩ := id hc
    have h1 := nearest_le32 hb hc ev ew
    have h2 := nearest_le32 hc hb ew ev
    rw [ev, ew, show v = w by omega]
  · intro b c hb hc
    obtain ⟨v, ev, _⟩ := id hb
    obtain ⟨w, ew, _⟩ := id hc
    have h1 := nearest_le64 hb hc ev ew
    have h2 := nearest_le64 hc hb ew ev
    rw [ev, ew, show v = w by omega]

/-! ### `double` -/

theorem ofInt_eq (n : Int) : sgn (decide (n < 0)) (n.natAbs * one.toNat) = n * one := by
  have h1 : ((one.toNat : Nat) : Int) = one := Int.toNat_of_nonneg (Int.le_of_lt one_pos)
  by_cases h : n < 0
  · simp only [sgn, h, decide_true, if_true, Int.natCast_mul, h1, ← Int.neg_mul]
    rw [show -(n.natAbs : Int) = n by omega]
  · simp only [sgn, h, decide_false, Bool.false_eq_true, if_false, Int.natCast_mul, h1]
    rw [show (n.natAbs : Int) = n by omega]

theorem ofInt_small {n : Int} (h : n.natAbs ≤ 2 ^ 64) : pattern 52 0 (n.natAbs * one.toNat) < 2047 * 2 ^ 52 := by
  rw [← Nat.not_le, pattern_overflow (by decide) (by decide)]
  have h1 : n.natAbs * one.toNat ≤ 2 ^ 64 * one.toNat := Nat.mul_le_mul_right _ h
  have h2 : 2 * (2 ^ 64 * one.toNat) < (2 * 2 ^ (52 + 1) - 1) * 2 ^ (0 + 2047 - 2) := by decide +kernel
  omega

/-- C132: an integer of a document is read into a `double` as the nearest one; the sign bit is that of the integer. -/
theorem C132_double {n : Int} (h : -2 ^ 63 ≤ n ∧ n < 2 ^ 64) :
    ∃ b, Json.deserDbl ofInt (.scalar (.int n)) = .ok b ∧ Nearest decode64 (n * one) b ∧ (2 ^ 63 ≤ b.toNat ↔ n < 0) := by
  refine ⟨ofInt n, rfl, ?_, ?_⟩
  · rw [← ofInt_eq n]
    exact nearest64 (ofInt_small (by omega))
  · have hs : magnitude 52 0 2047 (n.natAbs * one.toNat) < 2 ^ 63 :=
      Nat.lt_of_le_of_lt (Nat.min_le_right _ _) (by decide)
    rw [ofInt, make64_toNat _ hs]
    by_cases h0 : n < 0
    · simp only [h0, decide_true, if_true, iff_true]; exact Nat.le_add_right _ _
    · simp only [h0, decide_false, Bool.false_eq_true, if_false, Nat.zero_add, iff_false, Nat.not_le]; exact hs

/-- At most 53 bits after trailing zeros are removed. -/
example : Short 53 (2 ^ 60 + 2 ^ 10) := ⟨2 ^ 50 + 1, 10, by decide, by decide⟩

/-- C132: it is that integer exactly if the integer has at most 53 bits, trailing zeros not counted. -/
theorem C132_double_exact {n : Int} (h : -2 ^ 63 ≤ n ∧ n < 2 ^ 64) :
    decode64 (ofInt n) = .fin (n * one) ↔ Short 53 n.natAbs := by
  have hs := ofInt_small (n := n) (by omega)
  have hm : magnitude 52 0 2047 (n.natAbs * one.toNat) = pattern 52 0 (n.natAbs * one.toNat) := by
    rw [magnitude_eq]; exact Nat.min_eq_left (by omega)
  have ho : one.toNat = 2 ^ 1074 := rfl
  rw [ofInt, hm, decode64_make _ (by omega), if_pos hs, ← ofInt_eq n, ho]
  constructor
  · intro he
    have he' := congrArg Int.natAbs (Fp.fin.inj he)
    rw [sgn_natAbs, sgn_natAbs] at he'
    obtain ⟨k, q, -, hq, -, -, hv⟩ := value_of 52 0 (pattern 52 0 (n.natAbs * 2 ^ 1074))
    rw [he'] at hv
    rcases Nat.lt_or_ge k 1074 with hk | hk
    · refine ⟨n.natAbs, 0, ?_, by simp⟩
      have : n.natAbs * 2 ^ (1074 - k) = q := by
        rw [pow_split (Nat.le_of_lt hk), ← Nat.mul_assoc] at hv
        exact Nat.eq_of_mul_eq_mul_right (Nat.two_pow_pos k) hv
      have := Nat.le_mul_of_pos_right n.natAbs (Nat.two_pow_pos (1074 - k))
      omega
    · refine ⟨q, k - 1074, hq, ?_⟩
      rw [pow_split hk, ← Nat.mul_assoc] at hv
      exact Nat.eq_of_mul_eq_mul_right (Nat.two_pow_pos 1074) hv
  · rintro ⟨q, k, hq, he⟩
    have := pattern_exact (f := 52) (low := 0) (k := k + 1074) hq (by omega)
    rw [he, Nat.mul_assoc, ← Nat.pow_add, this]

example : ofInt 1 = 0x3FF0000000000000#64 ∧ ofInt (-3) = 0xC008000000000000#64 ∧ ofInt 0 = 0#64 ∧
    ofInt (2 ^ 53 + 1) = 0x4340000000000000#64 ∧ ofInt (2 ^ 53 + 3) = 0x4340000000000002#64 ∧
    ofInt (2 ^ 64 - 1) = 0x43F0000000000000#64 := by decide +kernel

/-! ### `float` and `double` -/

/-- Every number of `float` is one of `double`. -/
theorem widen_pattern {m : Nat} (h : m < 255 * 2 ^ 23) : value 52 0 (pattern 52 0 (value 23 925 m)) = value 23 925 m ∧
    pattern 52 0 (value 23 925 m) < 2047 * 2 ^ 52 := by
  obtain ⟨k, q, hk, hq, -, -, hv⟩ := value_of 23 925 m
  have h1 : value 52 0 (pattern 52 0 (value 23 925 m)) = value 23 925 m := by
    rw [hv]; exact pattern_exact (Nat.lt_of_lt_of_le hq (by decide)) (by omega)
  refine ⟨h1, ?_⟩
  refine (value_lt_iff (f := 52) (low := 0)).1 ?_
  rw [h1]
  have h2 := value_lt (f := 23) (low := 925) h
  rw [value_infinity (by decide)] at h2
  rw [value_infinity (by decide)]
  have : (2 : Nat) ^ (23 + 1) * 2 ^ (925 + 255 - 2) < 2 ^ (52 + 1) * 2 ^ (0 + 2047 - 2) := by decide +kernel
  omega

/-- What `widen` does to a finite `float`. -/
theorem widen_fin (neg : Bool) {m : Nat} (h : m < 255 * 2 ^ 23) :
    widen (make32 neg m) = make64 neg (pattern 52 0 (value 23 925 m)) := by
  have hm : m < 2 ^ 31 := by omega
  have hp := (widen_pattern h).2
  simp only [widen, sign32 neg hm, decode32_make neg hm, if_pos h, sgn_natAbs, magnitude_eq,
    Nat.min_eq_left (Nat.le_of_lt hp)]

theorem widen_inf (neg : Bool) : widen (make32 neg (255 * 2 ^ 23)) = make64 neg (2047 * 2 ^ 52) := by
  cases neg <;> decide +kernel

/-- C132: a `float` is written as the same number, infinite ones and nan included. -/
theorem C132_float_written (b : BitVec 32) : decode64 (widen b) = decode32 b := by
  obtain ⟨neg, m, hm, rfl⟩ := exists32 b
  by_cases h1 : m < 255 * 2 ^ 23
  · obtain ⟨hv, hp⟩ := widen_pattern h1
    rw [widen_fin neg h1, decode64_make neg (by omega), if_pos hp, decode32_make neg hm, if_pos h1, hv]
  · by_cases h2 : m = 255 * 2 ^ 23
    · subst h2
      rw [widen_inf, decode64_make neg (by decide), decode32_make neg hm]
      simp only [Nat.lt_irrefl, if_false, if_true]
    · have hd : decode32 (make32 neg m) = .nan := by rw [decode32_make neg hm, if_neg h1, if_neg h2]
      have hx : widen (make32 neg m) =
          make64 neg (2047 * 2 ^ 52 + 2 ^ 51 + (make32 neg m).toNat % 2 ^ 22 * 2 ^ 29) := by
        simp only [widen, sign32 neg hm, hd]
      have hl : (make32 neg m).toNat % 2 ^ 22 < 2 ^ 22 := Nat.mod_lt _ (by decide)
      rw [hx, hd, decode64_make neg (by omega), if_neg (by omega), if_neg (by omega)]

example : widen 0x3FC00000#32 = 0x3FF8000000000000#64 ∧ widen 0x80000001#32 = 0xB6A0000000000000#64 ∧
    widen 0x80000000#32 = 0x8000000000000000#64 ∧ widen 0x7F800000#32 = 0x7FF0000000000000#64 := by decide +kernel

theorem narrow_fin (neg : Bool) {m : Nat} (h : m < 2047 * 2 ^ 52) :
    narrow (make64 neg m) = make32 neg (magnitude 23 925 255 (value 52 0 m)) := by
  have hm : m < 2 ^ 63 := by omega
  simp only [narrow, sign64 neg hm, decode64_make neg hm, if_pos h, sgn_natAbs]

theorem limit_eq {u : Nat} : 255 * 2 ^ 23 ≤ pattern 23 925 u ↔ floatLimit ≤ u := by
  rw [pattern_overflow (by decide) (by decide)]
  have : floatLimit = (((2 * 2 ^ (23 + 1) - 1) * 2 ^ 1177 : Nat) : Int) := by decide +kernel
  have h2 : (2 * 2 ^ (23 + 1) - 1) * 2 ^ (925 + 255 - 2) = 2 * ((2 * 2 ^ (23 + 1) - 1) * 2 ^ 1177) := by decide +kernel
  rw [this, h2]
  generalize (2 * 2 ^ (23 + 1) - 1) * 2 ^ 1177 = x
  omega

/-- C132: a finite `double` of a document is read into a `float` as the nearest one, below the limit of `float`; from there on
it becomes an infinity of its sign. The sign bit stays, that of zero too. -/
theorem C132_float {b : BitVec 64} {u : Int} (h : decode64 b = .fin u) :
    ∃ c, deserFloat (.scalar (.dbl b)) = .ok c ∧
      ((u.natAbs : Int) < floatLimit → Nearest decode32 u c) ∧
      ((u.natAbs : Int) ≥ floatLimit → decode32 c = if u < 0 then .negInf else .posInf) ∧
      (2 ^ 31 ≤ c.toNat ↔ 2 ^ 63 ≤ b.toNat) := by
  refine ⟨narrow b, rfl, ?_⟩
  obtain ⟨neg, m, hm, rfl, rfl⟩ := fin64 h
  rw [sgn_natAbs, narrow_fin neg hm]
  refine ⟨?_, ?_, ?_⟩
  · intro hl
    exact nearest32 (by have := (limit_eq (u := value 52 0 m)); omega)
  · intro hg
    have hp := limit_eq.2 hg
    rw [magnitude_eq, Nat.min_eq_right hp, decode32_make neg (by decide), if_neg (by decide), if_pos rfl]
    have h0 : (0 : Int) < floatLimit := by decide +kernel
    cases neg
    · rw [if_neg (by simp), if_neg (by simp [sgn])]
    · have : sgn true (value 52 0 m) < 0 := by simp only [sgn, if_true]; omega
      rw [if_pos rfl, if_pos this]
  · have hs : magnitude 23 925 255 (value 52 0 m) < 2 ^ 31 := Nat.lt_of_le_of_lt (Nat.min_le_right _ _) (by decide)
    rw [make32_toNat neg hs, make64_toNat neg (by omega)]
    cases neg <;> simp <;> omega

/-- 1/10 as a `double`; the greatest `float`, and half a unit above it; the least `double`. -/
example : narrow 0x3FB999999999999A#64 = 0x3DCCCCCD#32 ∧ narrow 0x47EFFFFFE0000000#64 = 0x7F7FFFFF#32 ∧
    narrow 0x47EFFFFFEFFFFFFF#64 = 0x7F7FFFFF#32 ∧ narrow 0x47EFFFFFF0000000#64 = 0x7F800000#32 ∧
    narrow 0x8000000000000001#64 = 0x80000000#32 ∧ narrow 0x36A0000000000000#64 = 0x00000001#32 := by decide +kernel
example : ∃ u, decode64 0x3FB999999999999A#64 = .fin u ∧ (u.natAbs : Int) < floatLimit := ⟨_, rfl, by decide +kernel⟩
example : ∃ u, decode64 0xFFE0000000000000#64 = .fin u ∧ (u.natAbs : Int) ≥ floatLimit := ⟨_, rfl, by decide +kernel⟩

/-- C132: what is not finite stays what it is. -/
theorem C132_float_nonfinite {b : BitVec 64} (h : ∀ u, decode64 b ≠ .fin u) :
    ∃ c, deserFloat (.scalar (.dbl b)) = .ok c ∧ decode32 c = decode64 b := by
  refine ⟨narrow b, rfl, ?_⟩
  obtain ⟨neg, m, hm, rfl⟩ := exists64 b
  have h1 : ¬ m < 2047 * 2 ^ 52 := fun h1 => h _ (by rw [decode64_make neg hm, if_pos h1])
  by_cases h2 : m = 2047 * 2 ^ 52
  · subst h2
    cases neg <;> decide +kernel
  · have hd : decode64 (make64 neg m) = .nan := by rw [decode64_make neg hm, if_neg h1, if_neg h2]
    have hx : narrow (make64 neg m) = make32 neg (255 * 2 ^ 23 + 2 ^ 22 + (make64 neg m).toNat / 2 ^ 29 % 2 ^ 22) := by
      simp only [narrow, sign64 neg hm, hd]
    have hl : (make64 neg m).toNat / 2 ^ 29 % 2 ^ 22 < 2 ^ 22 := Nat.mod_lt _ (by decide)
    rw [hx, hd, decode32_make neg (by omega), if_neg (by omega), if_neg (by omega)]

example : ∀ u, decode64 0x7FF0000000000001#64 ≠ .fin u := by
  have : decode64 0x7FF0000000000001#64 = .nan := by decide +kernel
  rw [this]; simp

/-! ### Round trip of `float` -/

/-- C132: a `float` written to a document is read back, bit by bit; a nan is read back as a nan. -/
theorem C132_round_trip (b : BitVec 32) :
    ∃ c, deserFloat (serFloat b) = .ok c ∧ decode32 c = decode32 b ∧ (decode32 b ≠ .nan → c = b) := by
  refine ⟨narrow (widen b), rfl, ?_⟩
  by_cases hn : decode32 b = .nan
  · have h : decode64 (widen b) = .nan := by rw [C132_float_written, hn]
    obtain ⟨c, hc, he⟩ := C132_float_nonfinite (b := widen b) (by rw [h]; simp)
    cases hc
    exact ⟨by rw [he, h, hn], fun h => absurd hn h⟩
  · have hb : narrow (widen b) = b := by
      obtain ⟨neg, m, hm, rfl⟩ := exists32 b
      by_cases h1 : m < 255 * 2 ^ 23
      · obtain ⟨hv, hp⟩ := widen_pattern h1
        rw [widen_fin neg h1, narrow_fin neg hp, hv, magnitude_eq, pattern_self (by decide), Nat.min_eq_left (by omega)]
      · have h2 : m = 255 * 2 ^ 23 := by
          rw [decode32_make neg hm, if_neg h1] at hn
          by_cases h2 : m = 255 * 2 ^ 23
          · exact h2
          · rw [if_neg h2] at hn; exact absurd rfl hn
        subst h2
        cases neg <;> decide +kernel
    exact ⟨by rw [hb], fun _ => hb⟩

example : decode32 0x80000001#32 ≠ .nan := by decide +kernel

/-- C132: the same through the text of the document, if printing and reading keep that `double`. -/
theorem C132_text {F : Floats} (hF : Printable F) {b : BitVec 32} (hx : exactScalar F (.dbl (widen b)) = true) (pretty : Bool)
    (hn : decode32 b ≠ .nan) : ∃ d, parse F (dumpText F pretty (dumpFloat b)) = some d ∧ deserFloat d = .ok b := by
  have hr : reread F (.scalar (.dbl (widen b))) = some (.scalar (.dbl (widen b))) :=
    exact_scalars (by simpa [scalarsAll] using hx)
  refine ⟨serFloat b, C131_view hF pretty rfl hr, ?_⟩
  obtain ⟨c, hc, -, h⟩ := C132_round_trip b
  rw [hc, h hn]

/-! ### Integers read into `float` -/

/-- C132: an integer read into a `float` is converted twice. The result passes no `float` on either side of the integer, and it is
the nearest one if the integer is exact as a `double`. -/
theorem C132_float_int {n : Int} (h : -2 ^ 63 ≤ n ∧ n < 2 ^ 64) :
    ∃ c, deserFloat (.scalar (.int n)) = .ok c ∧ Faithful decode32 (n * one) c ∧
      (Short 53 n.natAbs → Nearest decode32 (n * one) c) := by
  refine ⟨narrow (ofInt n), rfl, ?_⟩
  have hn : Nearest decode64 (n * one) (ofInt n) := by
    obtain ⟨b, hb, hn, -⟩ := C132_double h
    rwa [← Except.ok.inj hb] at hn
  obtain ⟨v, hv, hvn⟩ := id hn
  have hsmall : (v.natAbs : Int) < floatLimit := by
    -- 2^64 is a `double`
    have h64 := (nearest_faithful hn)
    obtain ⟨v', hv', hf⟩ := h64
    rw [hv] at hv'; cases hv'
    have p1 : decode64 0x43F0000000000000#64 = .fin (2 ^ 64 * one) := by decide +kernel
    have p2 : decode64 0xC3F0000000000000#64 = .fin (-(2 ^ 64 * one)) := by decide +kernel
    have a1 := (hf _ _ p1).1 (Int.mul_le_mul_of_nonneg_right (by omega) (Int.le_of_lt one_pos))
    have a2 := (hf _ _ p2).2 (by
      rw [← Int.neg_mul]
      exact Int.mul_le_mul_of_nonneg_right (by omega) (Int.le_of_lt one_pos))
    have a3 : 2 ^ 64 * one < floatLimit := by decide +kernel
    omega
  obtain ⟨c, hc, hnear, -, -⟩ := C132_float hv
  cases hc
  have hnear := hnear hsmall
  constructor
  · obtain ⟨x, hx, hf⟩ := nearest_faithful hnear
    obtain ⟨v', hv', hg⟩ := nearest_faithful hn
    rw [hv] at hv'; cases hv'
    refine ⟨x, hx, fun c w hc => ?_⟩
    have hw : decode64 (widen c) = .fin w := by rw [C132_float_written, hc]
    exact ⟨fun hle => (hf c w hc).1 ((hg _ w hw).1 hle), fun hle => (hf c w hc).2 ((hg _ w hw).2 hle)⟩
  · intro hs
    rw [(C132_double_exact h).2 hs] at hv
    rw [Fp.fin.inj hv]
    exact hnear

/-- C132, violated: an integer is not always read into a `float` as the nearest one, because it is rounded twice. -/
theorem C132_twice_violated : ¬ ∀ (n : Int) (c : BitVec 32), -2 ^ 63 ≤ n ∧ n < 2 ^ 64 → deserFloat (.scalar (.int n)) = .ok c →
    Nearest decode32 (n * one) c := by
  intro h
  obtain ⟨v, hv, hn⟩ := h (2 ^ 54 + 2 ^ 30 + 1) 0x5A800000#32 (by decide)
    (congrArg Except.ok (by decide +kernel : narrow (ofInt (2 ^ 54 + 2 ^ 30 + 1)) = 0x5A800000#32))
  have h1 : decode32 0x5A800000#32 = .fin (2 ^ 54 * one) := by decide +kernel
  have h2 : decode32 0x5A800001#32 = .fin ((2 ^ 54 + 2 ^ 31) * one) := by decide +kernel
  rw [h1] at hv
  cases hv
  have := (hn _ _ h2).1
  revert this
  decide +kernel

/-- C132, violated: unlike integers (C46), numbers are read into `float` and `double` with loss and without an error; a finite number
can become infinite. -/
theorem C132_lossless_violated :
    (¬ ∀ (n : Int) (b : BitVec 64), -2 ^ 63 ≤ n ∧ n < 2 ^ 64 → Json.deserDbl ofInt (.scalar (.int n)) = .ok b →
      decode64 b = .fin (n * one)) ∧
    (¬ ∀ (b : BitVec 64) (u : Int) (c : BitVec 32), decode64 b = .fin u → deserFloat (.scalar (.dbl b)) = .ok c →
      ∃ v, decode32 c = .fin v) := by
  constructor
  · intro h
    have := h (2 ^ 53 + 1) (ofInt (2 ^ 53 + 1)) (by decide) rfl
    revert this
    decide +kernel
  · intro h
    have h1 : decode64 0x7FE0000000000000#64 = .fin (2 ^ 2097) := by decide +kernel
    obtain ⟨v, hv⟩ := h _ _ (narrow 0x7FE0000000000000#64) h1 rfl
    have h2 : decode32 (narrow 0x7FE0000000000000#64) = .posInf := by decide +kernel
    rw [h2] at hv
    cases hv

/-- C132: anything but a number is refused. -/
theorem C132_numbers_only (d : JDoc) : (∃ c, deserFloat d = .ok c) ↔ (∃ n, d = .scalar (.int n)) ∨ ∃ b, d = .scalar (.dbl b) := by
  constructor
  · rintro ⟨c, hc⟩
    match d, hc with
    | .scalar (.int n), _ => exact .inl ⟨n, rfl⟩
    | .scalar (.dbl b), _ => exact .inr ⟨b, rfl⟩
  · rintro (⟨n, rfl⟩ | ⟨b, rfl⟩) <;> exact ⟨_, rfl⟩

end Verif.Floating
