import Verif.Enums.CastRange
/-
The values of an enumeration from its enumerators (C150, C151).
-/
namespace Verif.Enums.SetRange

/-! ### Model -/

/-- The number of bits of a natural number. (the language: the values of an enumeration; enum_set.hpp:8-13) -/
def size (m : Nat) : Nat := if m = 0 then 0 else m.log2 + 1

/-- The number of bits that hold an enumerator, with a sign or without. (the language: the values of an enumeration; enum_set.hpp:8-13) -/
def need (neg : Bool) (v : Int) : Nat := if neg then size (if v < 0 then (-v - 1).toNat else v.toNat) + 1 else size v.toNat

/-- The enumeration with these enumerators; `fixed` and `sgn` are as declared or as the compiler takes them.
(the language: the values of an enumeration; enum_set.hpp:8-13) -/
def kindOf (w : Nat) (fixed sgn : Bool) (es : List Int) : Kind w :=
  let neg := es.any fun e => decide (e < 0)
  ⟨fixed, sgn, neg, es.foldr (fun e b => max (need neg e) b) 1⟩

/-! ### Proofs -/

theorem size_le {m n : Nat} : size m ≤ n ↔ m < 2 ^ n := by
  simp only [size]
  split
  · rename_i h; subst h; simp [Nat.two_pow_pos]
  · rename_i h; rw [← Nat.log2_lt h]; omega

theorem holds_need {w : Nat} {k : Kind w} (hb : 0 < k.bits) {v : Int} (hv : k.neg = false → 0 ≤ v) : holds k v = true ↔ need k.neg v ≤ k.bits := by
  cases hn : k.neg with
  | true =>
    have e : ((2 ^ (k.bits - 1) : Nat) : Int) = 2 ^ (k.bits - 1) := by simp
    have h1 : ∀ m, size m + 1 ≤ k.bits ↔ m < 2 ^ (k.bits - 1) := fun m => by rw [← size_le]; omega
    simp only [holds, need, hn, if_true, decide_eq_true_eq]
    rw [h1, ← e]
    split <;> omega
  | false =>
    have e : ((2 ^ k.bits : Nat) : Int) = 2 ^ k.bits := by simp
    have := hv hn
    simp only [holds, need, hn, Bool.false_eq_true, if_false, decide_eq_true_eq]
    rw [size_le, ← e]
    omega

theorem le_fold (f : Int → Nat) (es : List Int) : 1 ≤ es.foldr (fun e b => max (f e) b) 1 ∧ ∀ e ∈ es, f e ≤ es.foldr (fun e b => max (f e) b) 1 := by
  induction es with
  | nil => exact ⟨Nat.le_refl _, fun e he => by cases he⟩
  | cons x l ih =>
    simp only [List.foldr_cons]
    refine ⟨by have := ih.1; omega, fun e he => ?_⟩
    rcases List.mem_cons.1 he with rfl | he
    · omega
    · have := ih.2 e he; omega

theorem fold_le (f : Int → Nat) {es : List Int} {n : Nat} (hn : 1 ≤ n) (h : ∀ e ∈ es, f e ≤ n) : es.foldr (fun e b => max (f e) b) 1 ≤ n := by
  induction es with
  | nil => exact hn
  | cons x l ih =>
    simp only [List.foldr_cons]
    have h1 := ih fun e he => h e (List.mem_cons_of_mem _ he)
    have h2 := h x List.mem_cons_self
    omega

theorem kind_nonneg {w : Nat} {fixed sgn : Bool} {es : List Int} (h : (kindOf w fixed sgn es).neg = false) : ∀ e ∈ es, 0 ≤ e := by
  intro e he
  simp only [kindOf, List.any_eq_false, decide_eq_true_eq] at h
  have := h e he
  omega

/-! ### C150, C151 -/

/-- C150: an enumeration has all its enumerators as values, and no smaller number of bits would do. -/
theorem C150_kind (w : Nat) (fixed sgn : Bool) (es : List Int) :
    (∀ e ∈ es, holds (kindOf w fixed sgn es) e = true) ∧
    ∀ b, 0 < b → (∀ e ∈ es, holds ({ kindOf w fixed sgn es with bits := b } : Kind w) e = true) → (kindOf w fixed sgn es).bits ≤ b := by
  have hl := le_fold (need (kindOf w fixed sgn es).neg) es
  refine ⟨fun e he => (holds_need (k := kindOf w fixed sgn es) hl.1 fun hn => kind_nonneg hn e he).2 (hl.2 e he), fun b hb h => ?_⟩
  refine fold_le (need (kindOf w fixed sgn es).neg) hb fun e he => ?_
  exact (holds_need (k := ({ kindOf w fixed sgn es with bits := b } : Kind w)) hb fun hn => kind_nonneg (w := w) (fixed := fixed) (sgn := sgn) hn e he).1 (h e he)

/-- C150: for an enumeration without negative enumerators, without a fixed underlying type, all of whose enumerators are less than half of
what the underlying type has (for example less than 2^31 of 2^32), every expression with a `~` is undefined. -/
theorem C150_flags {w : Nat} (hw : 1 < w) {sgn : Bool} {es : List Int} (h0 : ∀ e ∈ es, 0 ≤ e) (h1 : ∀ e ∈ es, e < 2 ^ (w - 1)) {e : Expr w}
    (hv : e.Valid (kindOf w false sgn es)) (hn : e.hasNot = true) : e.eval (kindOf w false sgn es) = none := by
  have hneg : (kindOf w false sgn es).neg = false := by
    simp only [kindOf, List.any_eq_false, decide_eq_true_eq]
    intro x hx
    have := h0 x hx
    omega
  have hbits : (kindOf w false sgn es).bits ≤ w - 1 := by
    refine (C150_kind w false sgn es).2 (w - 1) (by omega) fun x hx => ?_
    simp only [holds, hneg, Bool.false_eq_true, if_false, decide_eq_true_eq]
    exact ⟨h0 x hx, h1 x hx⟩
  have hok : (kindOf w false sgn es).Ok :=
    ⟨(le_fold (need (kindOf w false sgn es).neg) es).1, by omega, fun h => by rw [hneg] at h; cases h⟩
  cases hq : e.eval (kindOf w false sgn es) with
  | none => rfl
  | some x =>
    rcases (C150_defined hok e hv).1 ⟨x, hq⟩ with h | h | h | h
    · rw [hn] at h; cases h
    · cases h
    · rw [hneg] at h; cases h
    · omega

/-- C151: a number from twice the largest enumerator on, of an enumeration without negative enumerators and without a fixed underlying type,
makes reading undefined. -/
theorem C151_read_undefined {w : Nat} {sgn : Bool} {es : List Int} {m v : Int} (h0 : ∀ e ∈ es, 0 ≤ e) (hm : ∀ e ∈ es, e ≤ m) (hm0 : 0 < m)
    (hv : 2 * m ≤ v) : readEnum (kindOf w false sgn es) v = none := by
  have hneg : (kindOf w false sgn es).neg = false := by
    simp only [kindOf, List.any_eq_false, decide_eq_true_eq]
    intro x hx
    have := h0 x hx
    omega
  have hs : m.toNat < 2 ^ size m.toNat := size_le.1 (Nat.le_refl _)
  have hpos : 1 ≤ size m.toNat := by
    simp only [size]; rw [if_neg (by omega)]; omega
  have hbits : (kindOf w false sgn es).bits ≤ size m.toNat := by
    refine (C150_kind w false sgn es).2 _ hpos fun x hx => ?_
    have e : ((2 ^ size m.toNat : Nat) : Int) = 2 ^ size m.toNat := by simp
    have a := h0 x hx
    have b := hm x hx
    simp only [holds, hneg, Bool.false_eq_true, if_false, decide_eq_true_eq]
    rw [← e]
    omega
  have hlow : 2 ^ (size m.toNat - 1) ≤ m.toNat := by
    have := mt (size_le (m := m.toNat) (n := size m.toNat - 1)).2 (by omega)
    omega
  have hp : 2 ^ (kindOf w false sgn es).bits ≤ 2 * m.toNat := by
    have h1 : 2 ^ (kindOf w false sgn es).bits ≤ 2 ^ size m.toNat := Nat.pow_le_pow_right (by decide) hbits
    have h2 : 2 ^ size m.toNat = 2 ^ (size m.toNat - 1) * 2 := by rw [← Nat.pow_succ, Nat.succ_eq_add_one, Nat.sub_add_cancel hpos]
    omega
  have e : ((2 ^ (kindOf w false sgn es).bits : Nat) : Int) = 2 ^ (kindOf w false sgn es).bits := by simp
  have hno : ¬ holds (kindOf w false sgn es) v = true := by
    simp only [holds, hneg, Bool.false_eq_true, if_false, decide_eq_true_eq]
    rw [← e]
    omega
  have hfix : (kindOf w false sgn es).fixed = false := rfl
  simp only [readEnum, castInt, hfix, Bool.false_or]
  rw [if_neg hno]

example : kindOf 32 false false [1, 2, 4] = plainFlags ∧ kindOf 32 false false [0, 1, 2, 3] = dir := ⟨rfl, rfl⟩

example : (kindOf 32 false true [-1, 1, 2]).bits = 3 ∧ (kindOf 32 false true [-4, 3]).bits = 3 ∧ (kindOf 32 false true [-5, 3]).bits = 4 := by decide

example : (Expr.not (.lit 1)).eval (kindOf 32 false false [1, 2, 4]) = none :=
  C150_flags (by decide) (by decide) (by decide) (.inr (by decide)) rfl

example : readEnum (kindOf 32 false true [0, 1, 2, 3]) 6 = none :=
  C151_read_undefined (m := 3) (by decide) (by decide) (by decide) (by decide)

end Verif.Enums.SetRange
