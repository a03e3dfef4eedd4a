import Verif.Enums.Model
import Verif.Serial.Model

/-!
The attributes `range`, `greater_equal` and `less_equal` (serialization_attributes.hpp:133-169) for fields
and bounds of any arithmetic types. `Min`, `Max` and the type of the field are independent template
parameters there, so that `value < min` compares after the usual arithmetic conversions of C++.

`Verif/Serial` has these attributes for bounds of the same integral type as the field only; everything else
is a `validate` with the validator of a user there (`Bounds.env` below makes that connection).

Simplified: `long double` is left out; `int` has 32 bits, and of two integral types the one with more bits
has the higher rank.
-/

namespace Verif.Bounds
open Verif.Enums

/-- The arithmetic types of fields and bounds: `bool`, the other integral types, `float`, `double`.
(serialization_attributes.hpp:135, 148, 160: `Min`, `Max` and the type of `value`) -/
inductive Num where
  | bool
  | int (t : IT)
  | flt
  | dbl
  deriving DecidableEq

/-- Values of those types; `float` and `double` by their bits. (serialization_attributes.hpp:138, 151, 163) -/
inductive Val where
  | int (n : Int)
  | flt (b : BitVec 32)
  | dbl (b : BitVec 64)
  deriving DecidableEq

/-- What a `float` or a `double` stands for: not a number, an infinity, or a number, counted in units of
2^-1074, the least positive `double`. All finite `float`s and `double`s and all integers are multiples of
that. (the operands of serialization_attributes.hpp:138, 151, 163) -/
inductive Fp where
  | nan
  | negInf
  | fin (u : Int)
  | posInf
  deriving DecidableEq, Repr

/-- 1 in those units. (for serialization_attributes.hpp:138, 151, 163) -/
def one : Int := 2 ^ 1074

/-- IEEE 754: a number by its sign, the bits of its exponent and of its fraction, for a format with `f`
bits of fraction whose least exponent is `2^low` in units.
(what the comparisons of serialization_attributes.hpp:138, 151, 163 and `std::to_string` at 140-165 see) -/
def decode (f low emax : Nat) (neg : Bool) (e m : Nat) : Fp :=
  if e = emax then
    if m = 0 then if neg then .negInf else .posInf else .nan
  else
    let a : Int := if e = 0 then m * 2 ^ low else (2 ^ f + m) * 2 ^ (low + (e - 1))
    .fin (if neg then -a else a)

/-- IEEE 754 binary32: the least positive number is 2^-149. (serialization_attributes.hpp:138, 151, 163) -/
def decode32 (b : BitVec 32) : Fp :=
  decode 23 925 255 (b.toNat / 2 ^ 31 != 0) (b.toNat / 2 ^ 23 % 2 ^ 8) (b.toNat % 2 ^ 23)

/-- IEEE 754 binary64. (serialization_attributes.hpp:138, 151, 163) -/
def decode64 (b : BitVec 64) : Fp :=
  decode 52 0 2047 (b.toNat / 2 ^ 63 != 0) (b.toNat / 2 ^ 52 % 2 ^ 11) (b.toNat % 2 ^ 52)

/-- `x < y` of floating-point numbers: false if either is not a number.
(serialization_attributes.hpp:138, 151, 163) -/
def Fp.lt : Fp → Fp → Bool
  | .nan, _ => false
  | _, .nan => false
  | .negInf, .negInf => false
  | .negInf, _ => true
  | .fin _, .negInf => false
  | .fin a, .fin b => a < b
  | .fin _, .posInf => true
  | .posInf, _ => false

/-! ### Conversions -/

/-- A natural number rounded to `p` significant bits, to nearest, ties to even.
(the conversions in serialization_attributes.hpp:138, 151, 163) -/
def roundNat (p n : Nat) : Nat :=
  if n < 2 ^ p then n
  else
    let k := Nat.log2 n + 1 - p
    let q := n / 2 ^ k
    let r := n % 2 ^ k
    let up := 2 * r > 2 ^ k || (2 * r == 2 ^ k && q % 2 == 1)
    (if up then q + 1 else q) * 2 ^ k

/-- The conversion of an integer to a floating-point type with `p` bits of precision.
(the conversions in serialization_attributes.hpp:138, 151, 163) -/
def roundInt (p : Nat) (n : Int) : Int :=
  if n < 0 then -(roundNat p n.natAbs : Int) else roundNat p n.natAbs

/-- A value converted to `float` or `double`. (`float` to `double` is exact; the usual arithmetic
conversions never go from `double` to `float`.) (serialization_attributes.hpp:138, 151, 163) -/
def toFp (p : Nat) : Val → Fp
  | .int n => .fin (roundInt p n * one)
  | .flt b => decode32 b
  | .dbl b => decode64 b

/-- An integer converted to an integral type: modulo 2^w.
(the conversions in serialization_attributes.hpp:138, 151, 163) -/
def wrap (t : IT) (n : Int) : Int :=
  if t.signed ∧ n % 2 ^ t.w ≥ 2 ^ (t.w - 1) then n % 2 ^ t.w - 2 ^ t.w else n % 2 ^ t.w

/-- `int`. (the type to which narrow operands of serialization_attributes.hpp:138 are promoted) -/
def intT : IT := ⟨true, 32⟩

/-- [conv.prom] integral promotion. (serialization_attributes.hpp:138, 151, 163) -/
def promote : Num → Num
  | .bool => .int intT
  | .int t => if t.w < 32 then .int intT else .int t
  | x => x

/-- [expr.arith.conv] for two integral types after promotion: the same signedness gives the wider one; an
unsigned type of at least the rank of the other one wins; otherwise the signed one, which is wider, has
all values of the unsigned one. (serialization_attributes.hpp:138, 151, 163) -/
def commonIT (a b : IT) : IT :=
  if a.signed = b.signed then (if a.w < b.w then b else a)
  else if a.signed then (if a.w ≤ b.w then b else a)
  else (if b.w ≤ a.w then a else b)

/-- [expr.arith.conv] the usual arithmetic conversions: the type in which two operands are compared.
(serialization_attributes.hpp:138, 151, 163) -/
def common (a b : Num) : Num :=
  match promote a, promote b with
  | .dbl, _ => .dbl
  | _, .dbl => .dbl
  | .flt, _ => .flt
  | _, .flt => .flt
  | .int s, .int t => .int (commonIT s t)
  | x, _ => x

/-- The integer of a value. (an operand of serialization_attributes.hpp:138, 151, 163) -/
def Val.toInt : Val → Int
  | .int n => n
  | _ => 0

/-- `a < b` in a type to which both are converted. (serialization_attributes.hpp:138, 151, 163) -/
def ltIn (c : Num) (a b : Val) : Bool :=
  match c with
  | .dbl => (toFp 53 a).lt (toFp 53 b)
  | .flt => (toFp 24 a).lt (toFp 24 b)
  | .int t => wrap t a.toInt < wrap t b.toInt
  | .bool => a.toInt < b.toInt

/-- `a < b` for operands of types `s` and `t`. (serialization_attributes.hpp:138, 151, 163) -/
def less (s : Num) (a : Val) (t : Num) (b : Val) : Bool := ltIn (common s t) a b

/-! ### `std::to_string` of the bounds -/

/-- The quotient, rounded to nearest, ties to even.
(for `std::to_string` at serialization_attributes.hpp:140-141, 153, 165) -/
def divNear (a b : Nat) : Nat :=
  if 2 * (a % b) > b || (2 * (a % b) == b && a / b % 2 == 1) then a / b + 1 else a / b

/-- Six digits. (for `std::to_string` at serialization_attributes.hpp:140-141, 153, 165) -/
def digits6 (n : Nat) : String :=
  let s := toString n
  String.ofList (List.replicate (6 - s.length) '0') ++ s

/-- A number of millionths with six digits after the point.
(for `std::to_string` at serialization_attributes.hpp:140-141, 153, 165) -/
def fixed6 (neg : Bool) (k : Nat) : String :=
  (if neg then "-" else "") ++ toString (k / 10 ^ 6) ++ "." ++ digits6 (k % 10 ^ 6)

/-- `std::to_string(double)`: `%f`. (serialization_attributes.hpp:140-141, 153, 165) -/
def fpText (neg : Bool) : Fp → String
  | .nan => if neg then "-nan" else "nan"
  | .negInf => "-inf"
  | .posInf => "inf"
  | .fin u => fixed6 neg (divNear (u.natAbs * 10 ^ 6) (one.toNat))

/-- `std::to_string` (serialization_attributes.hpp:140-141, 153, 165). -/
def text : Val → String
  | .int n => toString n
  | .flt b => fpText (b.toNat / 2 ^ 31 != 0) (decode32 b)
  | .dbl b => fpText (b.toNat / 2 ^ 63 != 0) (decode64 b)

/-! ### The attributes -/

/-- A bound with its type. (serialization_attributes.hpp:135, 148, 160) -/
structure Bound where
  type : Num
  val : Val

/-- `range(min, max)`, `greater_equal(min)`, `less_equal(max)`.
(serialization_attributes.hpp:134-144, 147-156, 159-168) -/
inductive Attr where
  | range (lo hi : Bound)
  | ge (lo : Bound)
  | le (hi : Bound)

/-- The value of a field: of an arithmetic type, or `std::optional` of one.
(`value` at serialization_attributes.hpp:137, 150, 162) -/
inductive Held where
  | plain (v : Val)
  | opt (v : Option Val)

/-- `value < min` for a field of type `t` or `std::optional<t>`; an empty `optional` is less than every
value ([optional.comp.with.t]). (serialization_attributes.hpp:138, 151) -/
def heldLess (t : Num) (b : Bound) : Held → Bool
  | .plain v => less t v b.type b.val
  | .opt none => true
  | .opt (some v) => less t v b.type b.val

/-- `value > max`: `max < value`; an empty `optional` is not greater. (serialization_attributes.hpp:138, 163) -/
def heldGreater (t : Num) (b : Bound) : Held → Bool
  | .plain v => less b.type b.val t v
  | .opt none => false
  | .opt (some v) => less b.type b.val t v

/-- The validators (serialization_attributes.hpp:133-169): what they throw, if they do. -/
def check (t : Num) (v : Held) : Attr → Option String
  | .range lo hi =>
    if heldLess t lo v || heldGreater t hi v then
      some ("value is outside allowed range [" ++ text lo.val ++ ", " ++ text hi.val ++ "]")
    else none
  | .ge lo => if heldLess t lo v then some ("value is less than allowed limit of " ++ text lo.val) else none
  | .le hi =>
    if heldGreater t hi v then some ("value is greater than allowed limit of " ++ text hi.val) else none

end Verif.Bounds
