/-
`enum_set` over enumerations without a fixed underlying type: which casts back to the enumeration are defined (C150).
-/
namespace Verif.Enums.SetRange

/-! ### Model -/

/-- How an enumeration is compiled: whether its underlying type is fixed (`enum class`, `enum E : T`); whether the type in which the
operators compute is signed (the underlying type after promotion; which one is up to the compiler unless fixed); whether an enumerator is
negative; and the least number of bits that holds all enumerators. `w` is the number of bits of the type in which the operators compute.
(enum_set.hpp:8-13 `underlying_type`) -/
structure Kind (w : Nat) where
  fixed : Bool
  sgn : Bool
  neg : Bool
  bits : Nat

/-- What a pattern of bits means in that type. (enum_set.hpp:20-23 `underlying_value`) -/
def value {w : Nat} (k : Kind w) (x : BitVec w) : Int := if k.sgn then x.toInt else x.toNat

/-- The values of an enumeration without a fixed underlying type: those of an integer of `bits` bits, signed if an enumerator is negative.
(the language; used in enum_set.hpp:54-75) -/
def holds {w : Nat} (k : Kind w) (v : Int) : Bool :=
  if k.neg then decide (-(2 ^ (k.bits - 1)) ≤ v ∧ v < 2 ^ (k.bits - 1)) else decide (0 ≤ v ∧ v < 2 ^ k.bits)

/-- `static_cast<Enum>(x)`: undefined (`none`) if the enumeration has no such value, unless the underlying type is fixed.
(enum_set.hpp:56, 61-62, 67-68, 73-74) Simplified: a fixed type narrower than `int` keeps the bits that C53 says. -/
def toEnum {w : Nat} (k : Kind w) (x : BitVec w) : Option (BitVec w) := if k.fixed || holds k (value k x) then some x else none

/-- Expressions with `enum_set`s. (enum_set.hpp:17-18, 54-75; the other operators, 92-153, call these) -/
inductive Expr (w : Nat)
  | lit (x : BitVec w)
  | not (a : Expr w)
  | and (a b : Expr w)
  | or (a b : Expr w)
  | xor (a b : Expr w)

/-- What an expression gives. (enum_set.hpp:54-75) -/
def Expr.eval {w : Nat} (k : Kind w) : Expr w → Option (BitVec w)
  | .lit x => some x
  | .not a => (a.eval k).bind fun x => toEnum k (~~~x)
  | .and a b => (a.eval k).bind fun x => (b.eval k).bind fun y => toEnum k (x &&& y)
  | .or a b => (a.eval k).bind fun x => (b.eval k).bind fun y => toEnum k (x ||| y)
  | .xor a b => (a.eval k).bind fun x => (b.eval k).bind fun y => toEnum k (x ^^^ y)

/-! ### Specification -/

/-- The bits that an expression is about. -/
def Expr.bit {w : Nat} (i : Nat) : Expr w → Bool
  | .lit x => x.getLsbD i
  | .not a => !a.bit i
  | .and a b => a.bit i && b.bit i
  | .or a b => a.bit i || b.bit i
  | .xor a b => a.bit i != b.bit i

/-- The expression has a `~`. -/
def Expr.hasNot {w : Nat} : Expr w → Bool
  | .lit _ => false
  | .not _ => true
  | .and a b => a.hasNot || b.hasNot
  | .or a b => a.hasNot || b.hasNot
  | .xor a b => a.hasNot || b.hasNot

/-- All values that the expression starts from are values of the enumeration. -/
def Expr.Valid {w : Nat} (k : Kind w) : Expr w → Prop
  | .lit x => k.fixed = true ∨ holds k (value k x) = true
  | .not a => a.Valid k
  | .and a b => a.Valid k ∧ b.Valid k
  | .or a b => a.Valid k ∧ b.Valid k
  | .xor a b => a.Valid k ∧ b.Valid k

/-- What the language requires of the type: it holds the values of the enumeration. -/
structure Kind.Ok {w : Nat} (k : Kind w) : Prop where
  pos : 0 < k.bits
  fits : k.bits ≤ w
  sgn : k.neg = true → k.sgn = true

/-- `~` is harmless: the underlying type is fixed, an enumerator is negative, or the enumerators need all bits of an unsigned type. -/
def Kind.Full {w : Nat} (k : Kind w) : Prop := k.fixed = true ∨ k.neg = true ∨ (k.sgn = false ∧ k.bits = w)

/-! ### Proofs -/

theorem signed_iff {w : Nat} (x : BitVec w) (n : Nat) :
    (-(2 ^ n) ≤ x.toInt ∧ x.toInt < 2 ^ n) ↔ x.sshiftRight n = 0#w ∨ x.sshiftRight n = BitVec.allOnes w := by
  have h := BitVec.toInt_sshiftRight (x := x) (n := n)
  rw [Int.shiftRight_eq_div_pow] at h
  have hp : (0 : Int) < 2 ^ n := Int.pow_pos (by decide)
  have e : ((2 ^ n : Nat) : Int) = 2 ^ n := by simp
  rw [e] at h
  have h0 : x.sshiftRight n = 0#w ↔ x.toInt / 2 ^ n = 0 := by
    rw [← h, ← BitVec.toInt_inj, BitVec.toInt_zero]
  by_cases hw : w = 0
  · subst hw
    have : x = 0#0 := BitVec.eq_nil x
    subst this
    simp only [BitVec.toInt_zero]
    exact ⟨fun _ => .inl (BitVec.eq_nil _), fun _ => ⟨by omega, hp⟩⟩
  · have h1 : x.sshiftRight n = BitVec.allOnes w ↔ x.toInt / 2 ^ n = -1 := by
      rw [← h, ← BitVec.toInt_inj, BitVec.toInt_allOnes, if_pos (by omega)]
    rw [h0, h1]
    generalize (2 : Int) ^ n = p at hp
    have hd := Int.mul_ediv_add_emod x.toInt p
    have hm0 := Int.emod_nonneg x.toInt (show p ≠ 0 by omega)
    have hm1 := Int.emod_lt_of_pos x.toInt hp
    constructor
    · rintro ⟨ha, hb⟩
      by_cases hx : 0 ≤ x.toInt
      · exact .inl (Int.ediv_eq_zero_of_lt hx hb)
      · refine .inr ?_
        have : (x.toInt + 1 * p) / p = 0 := Int.ediv_eq_zero_of_lt (by omega) (by omega)
        rw [Int.add_mul_ediv_right _ _ (by omega)] at this
        omega
    · rintro (hq | hq)
      · rw [hq] at hd; omega
      · rw [hq] at hd; omega

theorem holds_neg {w : Nat} {k : Kind w} (hn : k.neg = true) (hs : k.sgn = true) (x : BitVec w) :
    holds k (value k x) = true ↔ x.sshiftRight (k.bits - 1) = 0#w ∨ x.sshiftRight (k.bits - 1) = BitVec.allOnes w := by
  rw [← signed_iff]
  simp [holds, value, hn, hs]

theorem holds_pos {w : Nat} {k : Kind w} (hk : k.Ok) (hn : k.neg = false) (x : BitVec w) :
    holds k (value k x) = true ↔ x.toNat < 2 ^ k.bits ∧ (k.sgn = true → 2 * x.toNat < 2 ^ w) := by
  have hlt := x.isLt
  have e : ((2 ^ k.bits : Nat) : Int) = 2 ^ k.bits := by simp
  simp only [holds, hn, Bool.false_eq_true, if_false, decide_eq_true_eq]
  rw [← e]
  cases hs : k.sgn with
  | false => simp only [value, hs, Bool.false_eq_true, if_false, false_implies, and_true]; omega
  | true =>
    simp only [value, hs, if_true, true_implies, BitVec.toInt_eq_toNat_cond]
    split <;> omega

theorem half {w n : Nat} (hw : 0 < w) : 2 * n < 2 ^ w ↔ n < 2 ^ (w - 1) := by
  obtain ⟨m, rfl⟩ : ∃ m, w = m + 1 := ⟨w - 1, by omega⟩
  rw [Nat.pow_succ, Nat.add_sub_cancel]; omega

/-- Operations on bits keep the values of an enumeration, `~` aside. -/
theorem holds_ops {w : Nat} {k : Kind w} (hk : k.Ok) {x y : BitVec w} (hx : holds k (value k x) = true) (hy : holds k (value k y) = true) :
    holds k (value k (x &&& y)) = true ∧ holds k (value k (x ||| y)) = true ∧ holds k (value k (x ^^^ y)) = true := by
  cases hn : k.neg with
  | true =>
    have hs := hk.sgn hn
    rw [holds_neg hn hs] at hx hy
    rw [holds_neg hn hs, holds_neg hn hs, holds_neg hn hs, BitVec.sshiftRight_and_distrib, BitVec.sshiftRight_or_distrib,
      BitVec.sshiftRight_xor_distrib]
    rcases hx with hx | hx <;> rcases hy with hy | hy <;> rw [hx, hy] <;> simp
  | false =>
    have hw : 0 < w := Nat.lt_of_lt_of_le hk.pos hk.fits
    rw [holds_pos hk hn, half hw] at hx hy
    rw [holds_pos hk hn, holds_pos hk hn, holds_pos hk hn, half hw, half hw, half hw, BitVec.toNat_and, BitVec.toNat_or, BitVec.toNat_xor]
    exact ⟨⟨Nat.and_lt_two_pow _ hy.1, fun h => Nat.and_lt_two_pow _ (hy.2 h)⟩, ⟨Nat.or_lt_two_pow hx.1 hy.1, fun h => Nat.or_lt_two_pow (hx.2 h) (hy.2 h)⟩,
      ⟨Nat.xor_lt_two_pow hx.1 hy.1, fun h => Nat.xor_lt_two_pow (hx.2 h) (hy.2 h)⟩⟩

/-- When `~` does. -/
theorem holds_not {w : Nat} {k : Kind w} (hk : k.Ok) {x : BitVec w} (hx : holds k (value k x) = true) :
    holds k (value k (~~~x)) = true ↔ k.neg = true ∨ (k.sgn = false ∧ k.bits = w) := by
  cases hn : k.neg with
  | true =>
    have hs := hk.sgn hn
    rw [holds_neg hn hs] at hx
    rw [holds_neg hn hs, ← BitVec.not_sshiftRight]
    rcases hx with hx | hx <;> rw [hx] <;> simp
  | false =>
    have hlt := x.isLt
    rw [holds_pos hk hn] at hx
    rw [holds_pos hk hn, BitVec.toNat_not]
    simp only [Bool.false_eq_true, false_or]
    have hpw : 0 < 2 ^ w := Nat.two_pow_pos w
    constructor
    · rintro ⟨h1, h2⟩
      cases hs : k.sgn with
      | true =>
        have a := hx.2 hs
        have b := h2 hs
        have hw : 2 ^ w = 2 ^ (w - 1) * 2 := by
          rw [← Nat.pow_succ, Nat.succ_eq_add_one, Nat.sub_add_cancel (Nat.lt_of_lt_of_le hk.pos hk.fits)]
        omega
      | false =>
        refine ⟨rfl, ?_⟩
        rcases Nat.lt_or_eq_of_le hk.fits with hlt' | he
        · have : 2 ^ (k.bits + 1) ≤ 2 ^ w := Nat.pow_le_pow_right (by decide) hlt'
          rw [Nat.pow_succ] at this
          omega
        · exact he
    · rintro ⟨hs, hb⟩
      rw [hb, hs]
      exact ⟨by omega, by simp⟩

/-! ### C150 -/

theorem eval_holds {w : Nat} {k : Kind w} (hf : k.fixed = false) {e : Expr w} {x : BitVec w} (hv : e.Valid k) (h : e.eval k = some x) :
    holds k (value k x) = true := by
  have key : ∀ {y : BitVec w}, toEnum k y = some x → holds k (value k x) = true := by
    intro y hy
    simp only [toEnum, hf, Bool.false_or] at hy
    split at hy
    · rename_i hh; cases hy; exact hh
    · cases hy
  cases e with
  | lit y =>
    cases h
    exact hv.resolve_left (by simp [hf])
  | not a =>
    obtain ⟨_, -, h⟩ := Option.bind_eq_some_iff.1 h
    exact key h
  | and a b | or a b | xor a b =>
    obtain ⟨_, -, h⟩ := Option.bind_eq_some_iff.1 h
    obtain ⟨_, -, h⟩ := Option.bind_eq_some_iff.1 h
    exact key h

/-- C150: an expression over values of the enumeration is defined exactly if it has no `~`, or `~` is harmless for the enumeration. -/
theorem C150_defined {w : Nat} {k : Kind w} (hk : k.Ok) (e : Expr w) (hv : e.Valid k) :
    (∃ x, e.eval k = some x) ↔ e.hasNot = false ∨ k.Full := by
  cases hf : k.fixed with
  | true =>
    refine ⟨fun _ => .inr (.inl hf), fun h => ?_⟩
    clear hv h
    have cast : ∀ y : BitVec w, toEnum k y = some y := fun y => by simp [toEnum, hf]
    induction e with
    | lit x => exact ⟨x, rfl⟩
    | not a ih => obtain ⟨x, hx⟩ := ih; exact ⟨_, by simp [Expr.eval, hx, cast]; rfl⟩
    | and a b iha ihb | or a b iha ihb | xor a b iha ihb =>
      obtain ⟨x, hx⟩ := iha; obtain ⟨y, hy⟩ := ihb; exact ⟨_, by simp [Expr.eval, hx, hy, cast]; rfl⟩
  | false =>
    have cast : ∀ y : BitVec w, (∃ x, toEnum k y = some x) ↔ holds k (value k y) = true := by
      intro y
      simp only [toEnum, hf, Bool.false_or]
      split <;> simp [*]
    have hfull : k.Full ↔ k.neg = true ∨ (k.sgn = false ∧ k.bits = w) := by simp [Kind.Full, hf]
    have two : ∀ {a b : Expr w} {f : BitVec w → BitVec w → BitVec w}, a.Valid k → b.Valid k →
        (∀ x y, holds k (value k x) = true → holds k (value k y) = true → holds k (value k (f x y)) = true) →
        ((∃ x, a.eval k = some x) ↔ a.hasNot = false ∨ k.Full) → ((∃ x, b.eval k = some x) ↔ b.hasNot = false ∨ k.Full) →
        ((∃ z, ((a.eval k).bind fun x => (b.eval k).bind fun y => toEnum k (f x y)) = some z) ↔ (a.hasNot || b.hasNot) = false ∨ k.Full) := by
      intro a b f va vb hop iha ihb
      constructor
      · rintro ⟨z, hz⟩
        obtain ⟨x, hx, hz⟩ := Option.bind_eq_some_iff.1 hz
        obtain ⟨y, hy, hz⟩ := Option.bind_eq_some_iff.1 hz
        rcases iha.1 ⟨x, hx⟩ with h1 | h1
        · rcases ihb.1 ⟨y, hy⟩ with h2 | h2
          · exact .inl (by simp [h1, h2])
          · exact .inr h2
        · exact .inr h1
      · intro h
        obtain ⟨x, hx⟩ := iha.2 (h.imp (fun h => (Bool.or_eq_false_iff.1 h).1) id)
        obtain ⟨y, hy⟩ := ihb.2 (h.imp (fun h => (Bool.or_eq_false_iff.1 h).2) id)
        obtain ⟨z, hz⟩ := (cast (f x y)).2 (hop x y (eval_holds hf va hx) (eval_holds hf vb hy))
        exact ⟨z, by rw [hx, hy]; exact hz⟩
    induction e with
    | lit x => exact ⟨fun _ => .inl rfl, fun _ => ⟨x, rfl⟩⟩
    | not a ih =>
      simp only [Expr.hasNot, Bool.true_eq_false, false_or]
      constructor
      · rintro ⟨z, hz⟩
        obtain ⟨x, hx, hz⟩ := Option.bind_eq_some_iff.1 hz
        exact hfull.2 ((holds_not hk (eval_holds (e := a) hf hv hx)).1 ((cast _).1 ⟨z, hz⟩))
      · intro h
        obtain ⟨x, hx⟩ := (ih hv).2 (.inr h)
        obtain ⟨z, hz⟩ := (cast _).2 ((holds_not hk (eval_holds (e := a) hf hv hx)).2 (hfull.1 h))
        exact ⟨z, by simp only [Expr.eval, hx, Option.bind_some]; exact hz⟩
    | and a b iha ihb => exact two hv.1 hv.2 (fun x y hx hy => (holds_ops hk hx hy).1) (iha hv.1) (ihb hv.2)
    | or a b iha ihb => exact two hv.1 hv.2 (fun x y hx hy => (holds_ops hk hx hy).2.1) (iha hv.1) (ihb hv.2)
    | xor a b iha ihb => exact two hv.1 hv.2 (fun x y hx hy => (holds_ops hk hx hy).2.2) (iha hv.1) (ihb hv.2)

/-- C150: where it is defined an expression has the bits it should have. -/
theorem C150_bits {w : Nat} {k : Kind w} {e : Expr w} {x : BitVec w} (h : e.eval k = some x) {i : Nat} (hi : i < w) : x.getLsbD i = e.bit i := by
  have key : ∀ {y z : BitVec w}, toEnum k y = some z → z = y := by
    intro y z hy
    simp only [toEnum] at hy
    split at hy
    · cases hy; rfl
    · cases hy
  induction e generalizing x with
  | lit y => cases h; rfl
  | not a ih =>
    obtain ⟨y, hy, h⟩ := Option.bind_eq_some_iff.1 h
    rw [key h, Expr.bit, ← ih hy, BitVec.getLsbD_not]; simp [hi]
  | and a b iha ihb =>
    obtain ⟨y, hy, h⟩ := Option.bind_eq_some_iff.1 h
    obtain ⟨z, hz, h⟩ := Option.bind_eq_some_iff.1 h
    rw [key h, Expr.bit, ← iha hy, ← ihb hz, BitVec.getLsbD_and]
  | or a b iha ihb =>
    obtain ⟨y, hy, h⟩ := Option.bind_eq_some_iff.1 h
    obtain ⟨z, hz, h⟩ := Option.bind_eq_some_iff.1 h
    rw [key h, Expr.bit, ← iha hy, ← ihb hz, BitVec.getLsbD_or]
  | xor a b iha ihb =>
    obtain ⟨y, hy, h⟩ := Option.bind_eq_some_iff.1 h
    obtain ⟨z, hz, h⟩ := Option.bind_eq_some_iff.1 h
    rw [key h, Expr.bit, ← iha hy, ← ihb hz, BitVec.getLsbD_xor]

/-- `enum flags { a = 1, b = 2, c = 4 };` with `unsigned` as underlying type. -/
def plainFlags : Kind 32 := ⟨false, false, false, 3⟩

example : plainFlags.Ok := ⟨by decide, by decide, by decide⟩

/-- `(a | b) ^ c` is defined. -/
example : (Expr.xor (.or (.lit 1) (.lit 2)) (.lit 4)).eval plainFlags = some 7 := by decide

/-- With a negative enumerator, `enum { none = -1, a = 1, b = 2 }`, `~a` is defined. -/
example : (Expr.not (.lit 1)).eval (⟨false, true, true, 3⟩ : Kind 32) = some 0xfffffffe := by decide

/-- C150: removing a flag with `~`, `set & ~b`, is undefined for an enumeration with the flags 1, 2, 4 and no fixed underlying type, although the
result would be one of its values; with a fixed one it is defined. -/
theorem C150_complement_violated : (Expr.and (.lit 3) (.not (.lit 2))).Valid plainFlags ∧ (Expr.and (.lit 3) (.not (.lit 2))).eval plainFlags = none ∧
    (Expr.and (.lit 3) (.not (.lit 2))).eval ({ plainFlags with sgn := true } : Kind 32) = none ∧
    (Expr.and (.lit 3) (.not (.lit 2))).eval ({ plainFlags with fixed := true } : Kind 32) = some 1 := by
  refine ⟨⟨.inr ?_, .inr ?_⟩, ?_, ?_, ?_⟩ <;> decide

end Verif.Enums.SetRange
