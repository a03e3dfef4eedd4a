import Verif.Bounds.Spec

namespace Verif.Bounds
open Spec Verif.Enums

theorem pow2_pos (k : Nat) : (0 : Int) < 2 ^ k := Int.pow_pos (by decide)

theorem one_pos : 0 < one := pow2_pos 1074

theorem lt_iff {x y : Fp} : x.lt y = true ↔ Lt x y := by
  constructor
  · intro h
    cases x <;> cases y <;> simp [Fp.lt] at h
    · exact ⟨.bottom (by simp), by simp⟩
    · exact ⟨.bottom (by simp), by simp⟩
    · exact ⟨.fin (by omega), by simp; omega⟩
    · exact ⟨.top (by simp), by simp⟩
  · rintro ⟨h, hne⟩
    cases h with
    | bottom h => cases y <;> simp_all [Fp.lt]
    | top h => cases x <;> simp_all [Fp.lt]
    | fin h => simp only [Fp.lt, decide_eq_true_eq]; simp at hne; omega

theorem not_lt_iff {x y : Fp} (hx : x ≠ .nan) (hy : y ≠ .nan) : x.lt y = false ↔ Le y x := by
  cases x <;> cases y <;> simp_all [Fp.lt] <;>
    first
    | exact .bottom (by simp)
    | exact .top (by simp)
    | (intro h; cases h; done)
    | (constructor
       · exact fun h => .fin h
       · intro h; cases h; assumption)

theorem round_short {p : Nat} {n : Int} (h : n.natAbs < 2 ^ p) : roundInt p n = n := by
  unfold roundInt roundNat
  rw [if_pos h]
  split <;> omega

theorem lt_scale {a b : Int} : a * one < b * one ↔ a < b :=
  ⟨fun h => Int.lt_of_mul_lt_mul_right h (Int.le_of_lt one_pos),
    fun h => Int.mul_lt_mul_of_pos_right h one_pos⟩

theorem Lt_int {a b : Int} : Lt (.fin (a * one)) (.fin (b * one)) ↔ a < b := by
  rw [← lt_iff]; simp only [Fp.lt, decide_eq_true_eq]; exact lt_scale

theorem wrap_id {t : IT} {n : Int} (hw : 0 < t.w) (h : t.InRange n) : wrap t n = n := by
  have h2 : (2 : Int) ^ t.w = 2 * 2 ^ (t.w - 1) := by
    rw [show t.w = (t.w - 1) + 1 by omega, Int.pow_succ]; simp; omega
  have hp : (0 : Int) < 2 ^ (t.w - 1) := pow2_pos _
  unfold wrap
  unfold IT.InRange at h
  by_cases hs : t.signed = true
  · simp only [hs, if_true, true_and] at h ⊢
    by_cases h0 : 0 ≤ n
    · rw [Int.emod_eq_of_lt h0 (by omega), if_neg (by omega)]
    · have : n % 2 ^ t.w = n + 2 ^ t.w := by
        rw [← Int.add_emod_right, Int.emod_eq_of_lt (by omega) (by omega)]
      rw [this, if_pos (by omega)]; omega
  · simp only [Bool.not_eq_true] at hs
    simp [hs] at h ⊢
    exact Int.emod_eq_of_lt h.1 h.2

/-- The value as one of the promoted type. -/
theorem promoted {t : IT} {n : Int} (ht : Known (.int t)) (h : t.InRange n) :
    ∃ u : IT, promote (.int t) = .int u ∧ u.InRange n ∧ (u.w = 32 ∨ u.w = 64) ∧
      (u = t ∨ u = intT ∧ t.w < 32) := by
  rcases t with ⟨sg, w⟩
  simp only [Known] at ht
  simp only [promote]
  by_cases hw : w < 32
  · refine ⟨intT, by simp [hw], ?_, .inl rfl, .inr ⟨rfl, hw⟩⟩
    rcases ht with rfl | rfl | rfl | rfl <;> cases sg <;> simp [IT.InRange, intT] at h hw ⊢ <;> omega
  · exact ⟨⟨sg, w⟩, by simp [hw], h, by simp; omega, .inl rfl⟩

/-- Both values are values of the common type, unless it is unsigned and one of them is not. -/
theorem common_holds {u v : IT} {n m : Int} (hu : u.w = 32 ∨ u.w = 64) (hv : v.w = 32 ∨ v.w = 64)
    (hn : u.InRange n) (hm : v.InRange m)
    (hs : u.signed = v.signed ∨ (u.signed ∧ v.w < u.w) ∨ (v.signed ∧ u.w < v.w) ∨
      (u.signed ∧ 0 ≤ n) ∨ (v.signed ∧ 0 ≤ m)) :
    (commonIT u v).InRange n ∧ (commonIT u v).InRange m ∧ 0 < (commonIT u v).w := by
  rcases u with ⟨su, wu⟩
  rcases v with ⟨sv, wv⟩
  simp only at hu hv hs
  rcases hu with rfl | rfl <;> rcases hv with rfl | rfl <;> cases su <;> cases sv <;>
    simp [IT.InRange, commonIT] at hn hm hs ⊢ <;> omega

theorem less_ints {s t : IT} {n m : Int} (hs : Known (.int s)) (ht : Known (.int t)) (hn : s.InRange n)
    (hm : t.InRange m) (h : Safe (.int s) (.int t)) :
    less (.int s) (.int n) (.int t) (.int m) = true ↔ n < m := by
  obtain ⟨u, pu, hu, wu, cu⟩ := promoted hs hn
  obtain ⟨v, pv, hv, wv, cv⟩ := promoted ht hm
  have hmix : u.signed = v.signed ∨ (u.signed ∧ v.w < u.w) ∨ (v.signed ∧ u.w < v.w) ∨
      (u.signed ∧ 0 ≤ n) ∨ (v.signed ∧ 0 ≤ m) := by
    have hn0 : s.signed = false → 0 ≤ n := by intro h0; simp [IT.InRange, h0] at hn; exact hn.1
    have hm0 : t.signed = false → 0 ≤ m := by intro h0; simp [IT.InRange, h0] at hm; exact hm.1
    rcases s with ⟨ss, sw⟩
    rcases t with ⟨st, tw⟩
    simp only [Safe, MixOk] at h
    rcases cu with rfl | ⟨rfl, hu'⟩ <;> rcases cv with rfl | ⟨rfl, hv'⟩ <;>
      cases ss <;> cases st <;> simp_all [intT] <;> omega
  obtain ⟨h1, h2, h3⟩ := common_holds wu wv hu hv hmix
  simp only [less, common, pu, pv, ltIn, Val.toInt, wrap_id h3 h1, wrap_id h3 h2, decide_eq_true_eq]

/-- `bool` compares as an unsigned type of eight bits does. -/
theorem less_bool_left {a : Val} {t : Num} {b : Val} : less .bool a t b = less (.int ⟨false, 8⟩) a t b := by
  simp [less, common, promote]

theorem less_bool_right {a : Val} {t : Num} {b : Val} : less t a .bool b = less t a (.int ⟨false, 8⟩) b := by
  simp [less, common, promote]

/-- An integral type by its width and sign. -/
def asInt : Num → Num
  | .bool => .int ⟨false, 8⟩
  | x => x

theorem less_asInt {s t : Num} {a b : Val} : less s a t b = less (asInt s) a (asInt t) b := by
  cases s <;> cases t <;> simp [asInt, less_bool_left, less_bool_right]

theorem asInt_type {v : Val} {t : Num} (h : HasType v t) : HasType v (asInt t) := by
  cases h with
  | bool h => exact .int (by rcases h with rfl | rfl <;> decide)
  | int h => exact .int h
  | flt => exact .flt
  | dbl => exact .dbl

theorem asInt_known {t : Num} (h : Known t) : Known (asInt t) := by
  cases t <;> simp_all [asInt, Known]

theorem asInt_safe {s t : Num} (h : Safe s t) : Safe (asInt s) (asInt t) := by
  cases s <;> cases t <;> simp_all [asInt, Safe, MixOk]

theorem asInt_not_bool {t : Num} : asInt t ≠ .bool := by cases t <;> simp [asInt]

theorem common_flt_left {t : IT} : common .flt (.int t) = .flt := by
  simp only [common, promote]; by_cases h : t.w < 32 <;> simp [h]

theorem common_flt_right {t : IT} : common (.int t) .flt = .flt := by
  simp only [common, promote]; by_cases h : t.w < 32 <;> simp [h]

theorem common_dbl_left {t : Num} : common .dbl t = .dbl := by
  simp [common, promote]

theorem common_dbl_right {t : Num} : common t .dbl = .dbl := by
  cases t <;> simp [common, promote]; split <;> simp_all

/-- Narrow integers keep their value in a floating-point type. -/
theorem toFp_int {t : IT} {n : Int} {p : Nat} (h : t.InRange n) (hw : t.w < p) :
    toFp p (.int n) = exact (.int n) := by
  have h1 : n.natAbs < 2 ^ p := by
    have hp : (2 : Int) ^ t.w ≤ 2 ^ (p - 1) := by
      exact_mod_cast Nat.pow_le_pow_right (by omega : 0 < 2) (by omega : t.w ≤ p - 1)
    have hq : (2 : Int) ^ (t.w - 1) ≤ 2 ^ t.w := by
      exact_mod_cast Nat.pow_le_pow_right (by omega : 0 < 2) (by omega : t.w - 1 ≤ t.w)
    have hr : (2 : Int) ^ p = 2 * 2 ^ (p - 1) := by
      rw [show p = (p - 1) + 1 by omega, Int.pow_succ]; simp; omega
    have hz : (0 : Int) < 2 ^ (p - 1) := pow2_pos _
    have : (n.natAbs : Int) < ((2 ^ p : Nat) : Int) := by
      push_cast
      unfold IT.InRange at h
      split at h <;> omega
    exact_mod_cast this
  simp [toFp, exact, round_short h1]

/-- C119: a comparison of a field with a bound is one of the numbers, for all pairs of types that can be
compared without loss. -/
theorem C119_less {s t : Num} {a b : Val} (ha : HasType a s) (hb : HasType b t) (hs : Known s) (ht : Known t)
    (h : Safe s t) : less s a t b = true ↔ Lt (exact a) (exact b) := by
  rw [less_asInt]
  replace ha := asInt_type ha
  replace hb := asInt_type hb
  replace hs := asInt_known hs
  replace ht := asInt_known ht
  replace h := asInt_safe h
  generalize hs' : asInt s = s' at *
  generalize ht' : asInt t = t' at *
  have n1 : s' ≠ .bool := hs' ▸ asInt_not_bool
  have n2 : t' ≠ .bool := ht' ▸ asInt_not_bool
  cases ha with
  | bool => exact absurd rfl n1
  | int ha =>
    cases hb with
    | bool => exact absurd rfl n2
    | int hb => rw [less_ints hs ht ha hb h]; exact Lt_int.symm
    | flt =>
      simp only [Safe] at h
      rw [less, common_flt_right, ltIn, toFp_int ha (by omega), lt_iff]; rfl
    | dbl =>
      simp only [Safe] at h
      rw [less, common_dbl_right, ltIn, toFp_int ha (by omega), lt_iff]; rfl
  | flt =>
    cases hb with
    | bool => exact absurd rfl n2
    | int hb =>
      simp only [Safe] at h
      rw [less, common_flt_left, ltIn, toFp_int hb (by omega), lt_iff]; rfl
    | flt => rw [less]; exact lt_iff
    | dbl => rw [less, common_dbl_right, ltIn, lt_iff]; rfl
  | dbl =>
    cases hb with
    | bool => exact absurd rfl n2
    | int hb =>
      simp only [Safe] at h
      rw [less, common_dbl_left, ltIn, toFp_int hb (by omega), lt_iff]; rfl
    | flt => rw [less, common_dbl_left, ltIn, lt_iff]; rfl
    | dbl => rw [less, common_dbl_left, ltIn, lt_iff]; rfl

/-- `range(1, 65535)` for an `int`, `range(0.0, 1.0)` for a `double`, `range(0, 127)` for an unsigned type
of eight bits (serialization_test.cpp:278-280): all of these are safe. -/
example : Safe (.int intT) (.int intT) ∧ Safe .dbl .dbl ∧ Safe (.int ⟨false, 8⟩) (.int intT) := by
  simp [Safe, MixOk, intT]

/-- `1.5 < 3`, and not the other way round. -/
example : less .dbl (.dbl 0x3FF8000000000000#64) (.int intT) (.int 3) = true ∧
    less (.int intT) (.int 3) .dbl (.dbl 0x3FF8000000000000#64) = false := by decide +kernel

/-! ### All other pairs of types go wrong -/

theorem less_mixed {a b : IT} (ha : a.w = 8 ∨ a.w = 16 ∨ a.w = 32 ∨ a.w = 64) (hb : b.w = 32 ∨ b.w = 64)
    (hu : b.signed = false) (hs : a.signed = true) (hw : a.w ≤ b.w) :
    less (.int a) (.int (-1)) (.int b) (.int 0) = false ∧
      less (.int b) (.int 0) (.int a) (.int (-1)) = true := by
  rcases a with ⟨sa, wa⟩
  rcases b with ⟨sb, wb⟩
  simp only at ha hb hu hs hw
  subst hu hs
  rcases ha with rfl | rfl | rfl | rfl <;> rcases hb with rfl | rfl <;> first | (exfalso; omega) | decide +kernel

/-- C119: for every other pair of types there are a value and a bound that compare wrongly. -/
theorem C119_sharp {s t : Num} (hs : Known s) (ht : Known t) (h : ¬ Safe s t) :
    ∃ a b, HasType a s ∧ HasType b t ∧ ¬ (less s a t b = true ↔ Lt (exact a) (exact b)) := by
  cases s with
  | bool => cases t <;> simp [Safe] at h
  | int a =>
    cases t with
    | bool => simp [Safe] at h
    | int b =>
      simp only [Safe, MixOk] at h
      simp only [Known] at hs ht
      by_cases hsg : a.signed = b.signed
      · simp [hsg] at h
      · cases ha : a.signed
        · have hb : b.signed = true := by cases hb : b.signed <;> simp_all
          simp only [ha, hb] at h
          simp only [Bool.false_eq_true, if_false] at h
          refine ⟨.int 0, .int (-1), .int ?_, .int ?_, ?_⟩
          · simp [IT.InRange, ha]; exact pow2_pos _
          · have : (0 : Int) < 2 ^ (b.w - 1) := pow2_pos _
            simp [IT.InRange, hb]; omega
          · have := (less_mixed (a := b) (b := a) (by omega) (by omega) ha hb (by omega)).2
            rw [this, show exact (.int 0) = .fin (0 * one) from rfl,
              show exact (.int (-1)) = .fin (-1 * one) from rfl, Lt_int]
            simp
        · have hb : b.signed = false := by cases hb : b.signed <;> simp_all
          simp only [ha, hb] at h
          simp only [Bool.true_eq_false, if_false, if_true] at h
          refine ⟨.int (-1), .int 0, .int ?_, .int ?_, ?_⟩
          · have : (0 : Int) < 2 ^ (a.w - 1) := pow2_pos _
            simp [IT.InRange, ha]; omega
          · simp [IT.InRange, hb]; exact pow2_pos _
          · have := (less_mixed (a := a) (b := b) (by omega) (by omega) hb ha (by omega)).1
            rw [this, show exact (.int 0) = .fin (0 * one) from rfl,
              show exact (.int (-1)) = .fin (-1 * one) from rfl, Lt_int]
            simp
    | flt =>
      simp only [Safe] at h
      simp only [Known] at hs
      refine ⟨.int (2 ^ 24 + 3), .flt 0x4B800002#32, .int ?_, .flt, ?_⟩
      · rcases a with ⟨sg, w⟩
        simp only at hs h
        have : w = 32 ∨ w = 64 := by omega
        rcases this with rfl | rfl <;> cases sg <;> decide
      · rw [less, common_flt_right, ← lt_iff]
        decide +kernel
    | dbl =>
      simp only [Safe] at h
      simp only [Known] at hs
      refine ⟨.int (2 ^ 53 + 3), .dbl 0x4340000000000002#64, .int ?_, .dbl, ?_⟩
      · rcases a with ⟨sg, w⟩
        simp only at hs h
        have : w = 64 := by omega
        subst this
        cases sg <;> decide
      · rw [less, common_dbl_right, ← lt_iff]
        decide +kernel
  | flt =>
    cases t with
    | int a =>
      simp only [Safe] at h
      simp only [Known] at ht
      refine ⟨.flt 0x4B800000#32, .int (2 ^ 24 + 1), .flt, .int ?_, ?_⟩
      · rcases a with ⟨sg, w⟩
        simp only at ht h
        have : w = 32 ∨ w = 64 := by omega
        rcases this with rfl | rfl <;> cases sg <;> decide
      · rw [less, common_flt_left, ← lt_iff]
        decide +kernel
    | _ => simp [Safe] at h
  | dbl =>
    cases t with
    | int a =>
      simp only [Safe] at h
      simp only [Known] at ht
      refine ⟨.dbl 0x4340000000000000#64, .int (2 ^ 53 + 1), .dbl, .int ?_, ?_⟩
      · rcases a with ⟨sg, w⟩
        simp only at ht h
        have : w = 64 := by omega
        subst this
        cases sg <;> decide
      · rw [less, common_dbl_left, ← lt_iff]
        decide +kernel
    | _ => simp [Safe] at h

/-- Such types: an `unsigned` field with bounds that are `int`, a field of 64 bits with a bound that is a
`double`. -/
example : ¬ Safe (.int ⟨false, 32⟩) (.int intT) ∧ ¬ Safe (.int ⟨true, 64⟩) .dbl ∧
    ¬ Safe .flt (.int intT) := by
  simp [Safe, MixOk, intT]

/-! ### The attributes -/

theorem safe_symm {s t : Num} (h : Safe s t) : Safe t s := by
  cases s <;> cases t <;> simp_all [Safe]
  rename_i a b
  cases ha : a.signed <;> cases hb : b.signed <;> simp_all

theorem less_false {s t : Num} {a b : Val} (ha : HasType a s) (hb : HasType b t) (hs : Known s) (ht : Known t)
    (h : Safe s t) (na : exact a ≠ .nan) (nb : exact b ≠ .nan) :
    less s a t b = false ↔ Le (exact b) (exact a) := by
  rw [← not_lt_iff na nb, ← Bool.not_eq_true, ← Bool.not_eq_true, C119_less ha hb hs ht h, lt_iff]

theorem ite_none {p : Bool} {s : String} : (if p = true then some s else none) = none ↔ p = false := by
  cases p <;> simp

/-- C119: an attribute accepts exactly the values within its bounds, if the bounds are of types that can be
compared with the field's without loss and nothing is `nan`. -/
theorem C119_accepts {t : Num} {v : Val} {a : Attr} (hv : HasType v t) (ht : Known t) (ha : Fit t a)
    (hn : exact v ≠ .nan) : check t (.plain v) a = none ↔ Within (exact v) a := by
  cases a with
  | range lo hi =>
    obtain ⟨l1, l2, l3, l4⟩ := ha lo (by simp [bounds])
    obtain ⟨h1, h2, h3, h4⟩ := ha hi (by simp [bounds])
    simp only [check, Within]
    rw [← less_false hv l1 ht l2 l3 hn l4, ← less_false h1 hv h2 ht (safe_symm h3) h4 hn, ite_none,
      Bool.or_eq_false_iff]
    exact Iff.rfl
  | ge lo =>
    obtain ⟨l1, l2, l3, l4⟩ := ha lo (by simp [bounds])
    simp only [check, heldLess, Within]
    rw [← less_false hv l1 ht l2 l3 hn l4]
    exact ite_none
  | le hi =>
    obtain ⟨h1, h2, h3, h4⟩ := ha hi (by simp [bounds])
    simp only [check, heldGreater, Within]
    rw [← less_false h1 hv h2 ht (safe_symm h3) h4 hn]
    exact ite_none

/-- The bounds 0.0 and 1.0. -/
def unitInterval : Attr := .range ⟨.dbl, .dbl 0#64⟩ ⟨.dbl, .dbl 0x3FF0000000000000#64⟩

example : Fit .dbl unitInterval := by
  intro b hb
  simp [bounds, unitInterval] at hb
  rcases hb with rfl | rfl
  · exact ⟨.dbl, trivial, trivial, by decide +kernel⟩
  · exact ⟨.dbl, trivial, trivial, by decide +kernel⟩

/-- 0.5 and 1.5. -/
example : check .dbl (.plain (.dbl 0x3FE0000000000000#64)) unitInterval = none ∧
    check .dbl (.plain (.dbl 0x3FF8000000000000#64)) unitInterval =
      some "value is outside allowed range [0.000000, 1.000000]" := by decide +kernel

/-- C119: a value that is there is treated alike in an `optional`; an empty `optional` is below all bounds. -/
theorem C119_optional {t : Num} {v : Val} {a : Attr} :
    check t (.opt (some v)) a = check t (.plain v) a ∧
      (check t (.opt none) a = none ↔ ∃ hi, a = .le hi) := by
  constructor
  · cases a <;> rfl
  · cases a <;> simp [check, heldLess, heldGreater]

theorem nan_lt {x : Fp} : Fp.nan.lt x = false := by cases x <;> rfl

theorem lt_nan {x : Fp} : x.lt .nan = false := by cases x <;> rfl

/-- C119 (violated): `nan` is within no bounds, but passes all of them. -/
theorem C119_nan_violated {v : Val} {a : Attr} {t : Num} (hv : HasType v t) (hn : exact v = .nan)
    (hb : ∀ b ∈ bounds a, HasType b.val b.type) :
    check t (.plain v) a = none ∧ ¬ Within (exact v) a := by
  have nolt : ∀ {b : Bound}, HasType b.val b.type →
      less t v b.type b.val = false ∧ less b.type b.val t v = false := by
    intro b hb
    cases hv with
    | bool => simp [exact] at hn
    | int => simp [exact] at hn
    | flt =>
      simp only [exact] at hn
      generalize b.val = w at hb
      generalize b.type = u at hb
      rw [less_asInt, less_asInt (s := u)]
      have hb' := asInt_type hb
      generalize hu : asInt u = u' at *
      have n2 : u' ≠ .bool := hu ▸ asInt_not_bool
      cases hb' with
      | bool => exact absurd rfl n2
      | int => simp [asInt, less, common_flt_left, common_flt_right, ltIn, toFp, hn, nan_lt, lt_nan]
      | flt => simp [asInt, less, common, promote, ltIn, toFp, hn, nan_lt, lt_nan]
      | dbl => simp [asInt, less, common_dbl_left, common_dbl_right, ltIn, toFp, hn, nan_lt, lt_nan]
    | dbl =>
      simp only [exact] at hn
      simp [less, common_dbl_left, common_dbl_right, ltIn, toFp, hn, nan_lt, lt_nan]
  have nole : ∀ x, ¬ Le .nan x ∧ ¬ Le x .nan := by
    intro x
    constructor <;> intro h <;> cases h <;> simp_all
  cases a with
  | range lo hi =>
    have h1 := (nolt (hb lo (by simp [bounds]))).1
    have h2 := (nolt (hb hi (by simp [bounds]))).2
    simp [check, heldLess, heldGreater, h1, h2, Within, hn, nole]
  | ge lo =>
    have h1 := (nolt (hb lo (by simp [bounds]))).1
    simp [check, heldLess, h1, Within, hn, nole]
  | le hi =>
    have h2 := (nolt (hb hi (by simp [bounds]))).2
    simp [check, heldGreater, h2, Within, hn, nole]

/-- A quiet `nan`. -/
example : HasType (.dbl 0x7FF8000000000000#64) .dbl ∧ exact (.dbl 0x7FF8000000000000#64) = .nan ∧
    check .dbl (.plain (.dbl 0x7FF8000000000000#64)) unitInterval = none :=
  ⟨.dbl, by decide +kernel, by decide +kernel⟩

end Verif.Bounds
