import Verif.Floating.Model

/-!
What conversions to floating-point types are meant to give: the nearest number of the type.
-/

namespace Verif.Floating.Spec
open Verif.Bounds

/-- The bits are a finite number of the format (given by the meaning of all patterns), no number of the format is nearer to `u`
units, and if another one is as near then the last bit is 0. -/
def Nearest {n : Nat} (dec : BitVec n → Fp) (u : Int) (b : BitVec n) : Prop :=
  ∃ v, dec b = .fin v ∧ ∀ c w, dec c = .fin w → (u - v).natAbs ≤ (u - w).natAbs ∧
    ((u - v).natAbs = (u - w).natAbs → w = v ∨ b.toNat % 2 = 0)

/-- The greatest finite `float` is 2^128 - 2^104; halfway to the next power of two, numbers become infinite. -/
def floatLimit : Int := (2 ^ 128 - 2 ^ 103) * one

/-- Neither side of the number is passed: every number of the format at most (at least) `u` is at most (at least) the result. -/
def Faithful {n : Nat} (dec : BitVec n → Fp) (u : Int) (b : BitVec n) : Prop :=
  ∃ v, dec b = .fin v ∧ ∀ c w, dec c = .fin w → (u ≤ w → v ≤ w) ∧ (w ≤ u → w ≤ v)

end Verif.Floating.Spec
