import Verif.Bounds.Decode
import Verif.JsonText.Model

/-!
Floating-point members of JSON documents: json.hpp:586-589 (`dump_adl` of `double`, which a `float` reaches by promotion),
619-625 (`rapidjson::Value{value}`) and 725-730 (`deserialize_adl` of a floating-point type).

A number of a document is an integer or a `double`; `GetDouble` converts the integer, `static_cast<float>` the `double`. The
conversions are those of IEEE 754, to nearest, ties to even. Numbers are counted in units of 2^-1074 as in `Verif/Bounds`.

Simplified: `long double` is left out. A finite `double` outside the range of `float` becomes an infinity as in IEEE 754;
[conv.double] leaves that undefined.
-/

namespace Verif.Floating
open Verif.Bounds Verif.Serial Verif.JsonText

/-- The pattern of bits, without sign, of a number of units in a format with `f` bits of fraction, least exponent `2^low` and
the exponent `emax` for infinity: the number is divided by its unit in the last place, to nearest, ties to even. Carries run
into the exponent, from the greatest number into infinity. (the conversions in json.hpp:729) -/
def magnitude (f low emax : Nat) (u : Nat) : Nat :=
  let k := max low (u.log2 - f)
  min ((k - low) * 2 ^ f + divNear u (2 ^ k)) (emax * 2 ^ f)

/-- A sign and a magnitude as a `double`. (json.hpp:586, 729) -/
def make64 (neg : Bool) (m : Nat) : BitVec 64 := BitVec.ofNat 64 ((if neg then 2 ^ 63 else 0) + m)

/-- A sign and a magnitude as a `float`. (json.hpp:729) -/
def make32 (neg : Bool) (m : Nat) : BitVec 32 := BitVec.ofNat 32 ((if neg then 2 ^ 31 else 0) + m)

/-- `float` to `double`: the argument of json.hpp:586, the constructor at json.hpp:624. A nan becomes quiet and keeps the
rest of its fraction. -/
def widen (b : BitVec 32) : BitVec 64 :=
  let neg := b.toNat / 2 ^ 31 != 0
  match decode32 b with
  | .nan => make64 neg (2047 * 2 ^ 52 + 2 ^ 51 + b.toNat % 2 ^ 22 * 2 ^ 29)
  | .fin u => make64 neg (magnitude 52 0 2047 u.natAbs)
  | _ => make64 neg (2047 * 2 ^ 52)

/-- `double` to `float`: the `static_cast` of json.hpp:729. -/
def narrow (b : BitVec 64) : BitVec 32 :=
  let neg := b.toNat / 2 ^ 63 != 0
  match decode64 b with
  | .nan => make32 neg (255 * 2 ^ 23 + 2 ^ 22 + b.toNat / 2 ^ 29 % 2 ^ 22)
  | .fin u => make32 neg (magnitude 23 925 255 u.natAbs)
  | _ => make32 neg (255 * 2 ^ 23)

/-- An integer to `double`: `GetDouble` at json.hpp:729. -/
def ofInt (n : Int) : BitVec 64 := make64 (n < 0) (magnitude 52 0 2047 (n.natAbs * one.toNat))

/-- json.hpp:619-625: a `float` as a value. -/
def serFloat (b : BitVec 32) : JDoc := .scalar (.dbl (widen b))

/-- json.hpp:586-589: a `float` to the writer. -/
def dumpFloat (b : BitVec 32) : List (Ev JScalar) := [.scalar (.dbl (widen b))]

/-- json.hpp:725-730 with `Floating = float`. -/
def deserFloat (d : JDoc) : Res (BitVec 32) := (Json.deserDbl ofInt d).map narrow

end Verif.Floating
