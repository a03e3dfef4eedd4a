import Verif.Bounds.Model

/-!
What the bounds are meant to say: comparisons of the numbers themselves, without conversions.
-/

namespace Verif.Bounds.Spec
open Verif.Bounds Verif.Enums

/-- The number a value is. -/
def exact : Val → Fp
  | .int n => .fin (n * one)
  | .flt b => decode32 b
  | .dbl b => decode64 b

/-- The order of the real numbers with both infinities; `nan` is not in it. -/
inductive Le : Fp → Fp → Prop
  | bottom {x} (h : x ≠ .nan) : Le .negInf x
  | top {x} (h : x ≠ .nan) : Le x .posInf
  | fin {a b} (h : a ≤ b) : Le (.fin a) (.fin b)

/-- Below, in that order. -/
def Lt (x y : Fp) : Prop := Le x y ∧ x ≠ y

/-- Is it a value of the type? -/
inductive HasType : Val → Num → Prop
  | bool {n} (h : n = 0 ∨ n = 1) : HasType (.int n) .bool
  | int {n t} (h : t.InRange n) : HasType (.int n) (.int t)
  | flt {b} : HasType (.flt b) .flt
  | dbl {b} : HasType (.dbl b) .dbl

/-- The integral types there are. -/
def Known : Num → Prop
  | .int t => t.w = 8 ∨ t.w = 16 ∨ t.w = 32 ∨ t.w = 64
  | _ => True

/-- How many bits an integral type has for the magnitude; `none` for other types. -/
def magnitude : Num → Option Nat
  | .bool => some 1
  | .int t => some (if t.signed then t.w - 1 else t.w)
  | _ => none

/-- An unsigned and a signed integral type: the unsigned one is narrower, or narrower than `int`. -/
def MixOk (u s : Nat) : Prop := u < s ∨ u < 32

/-- Pairs of types that can be compared without loss. -/
def Safe : Num → Num → Prop
  | .int a, .int b =>
    if a.signed = b.signed then True else if a.signed then MixOk b.w a.w else MixOk a.w b.w
  | .bool, .int _ => True
  | .int _, .bool => True
  | .bool, .bool => True
  | .flt, .int a => a.w ≤ 16
  | .int a, .flt => a.w ≤ 16
  | .dbl, .int a => a.w ≤ 32
  | .int a, .dbl => a.w ≤ 32
  | _, _ => True

/-- Within the bounds of an attribute. -/
def Within (x : Fp) : Attr → Prop
  | .range lo hi => Le (exact lo.val) x ∧ Le x (exact hi.val)
  | .ge lo => Le (exact lo.val) x
  | .le hi => Le x (exact hi.val)

/-- The bounds of an attribute. -/
def bounds : Attr → List Bound
  | .range lo hi => [lo, hi]
  | .ge lo => [lo]
  | .le hi => [hi]

/-- Every bound is a number of its type, and of a type that can be compared with `t` without loss. -/
def Fit (t : Num) (a : Attr) : Prop :=
  ∀ b ∈ bounds a, HasType b.val b.type ∧ Known b.type ∧ Safe t b.type ∧ exact b.val ≠ .nan

/-- A number with at most `p` significant bits. -/
def Short (p m : Nat) : Prop := ∃ q k, q < 2 ^ p ∧ m = q * 2 ^ k

/-- A decimal number with six digits after the point, of `k` millionths. -/
def Decimal (s : List Char) (k : Nat) : Prop :=
  ∃ w f : List Char, s = w ++ '.' :: f ∧ w ≠ [] ∧ f.length = 6 ∧ (∀ c ∈ w ++ f, c.isDigit = true) ∧
    (w ++ f).foldl (fun a c => 10 * a + (c.toNat - '0'.toNat)) 0 = k

end Verif.Bounds.Spec
