import Verif.Serial.Model
/-
The YAML backend: yaml.hpp and yaml.cpp.  `YAML::Node` is the tree `Doc YScalar`: a scalar is
its text and, if it was parsed, its place.  Keys are scalars.  The conversions
between scalars and text are yaml-cpp's (`YAML::convert`); those of `double` are a parameter.
-/
namespace Verif.Serial
open Verif.Path Verif.Enums

/-- A scalar node: `Node::Scalar()`, and line and column of `Node::Mark()` if it is not null. -/
structure YScalar where
  text : Str
  mark : Option (Nat × Nat) := none
  deriving DecidableEq, Repr

abbrev YDoc := Doc YScalar

namespace Yaml

/-- yaml.cpp:20-23 `type_name`; the names are those of `YAML::NodeType::value` (yaml.cpp:11-14). -/
def typeName : YDoc → Str
  | .null => txt "Null"
  | .scalar _ => txt "Scalar"
  | .arr _ => txt "Sequence"
  | .obj _ => txt "Map"

/-- yaml.cpp:25-32 `expect_scalar`. -/
def expectScalar (d : YDoc) : Res YScalar :=
  match d with
  | .scalar s => .ok s
  | d => .error (.deser (txt "type must be a scalar but is a " ++ typeName d))

/-! ### yaml-cpp's conversions -/

/-- `std::ostream << n` for a number that is not negative. -/
def digits (n : Nat) : Str :=
  if n < 10 then [BitVec.ofNat 8 (48 + n)] else digits (n / 10) ++ [BitVec.ofNat 8 (48 + n % 10)]

/-- `YAML::convert<T>::encode` of an integer: `std::ostream << n`. -/
def intText (n : Int) : Str :=
  if n < 0 then 0x2D#8 :: digits n.natAbs else digits n.natAbs

/-- The value of a digit of any base. -/
def digitVal (c : BitVec 8) : Nat :=
  if 48 ≤ c.toNat ∧ c.toNat ≤ 57 then c.toNat - 48
  else if 97 ≤ c.toNat ∧ c.toNat ≤ 122 then c.toNat - 87
  else if 65 ≤ c.toNat ∧ c.toNat ≤ 90 then c.toNat - 55
  else 36

def isSpace (c : BitVec 8) : Bool := c.toNat = 32 || (9 ≤ c.toNat && c.toNat ≤ 13)

/-- The base and its digits: `std::istream >> n` without a base set (`unsetf(std::ios::dec)`). -/
def baseOf (s : Str) : Nat × Str :=
  match s with
  | c :: x :: r =>
    if c = 0x30#8 then if x = 0x78#8 ∨ x = 0x58#8 then (16, r) else (8, s) else (10, s)
  | s => (10, s)

/-- The number at the front, and then nothing but white space (`(stream >> std::ws).eof()`). -/
def natOf (s : Str) : Option Nat :=
  let (base, s) := baseOf s
  let ds := s.takeWhile fun c => decide (digitVal c < base)
  if ds = [] then none
  else if (s.drop ds.length).all isSpace then some (ds.foldl (fun n c => n * base + digitVal c) 0)
  else none

def intOf (s : Str) : Option Int :=
  match s with
  | [] => none
  | c :: r =>
    if c = 0x2D#8 then (natOf r).map fun (n : Nat) => -(n : Int)
    else if c = 0x2B#8 then (natOf r).map fun (n : Nat) => (n : Int)
    else (natOf s).map fun (n : Nat) => (n : Int)

/-- `YAML::convert<T>::decode` of an integer: what does not fit is rejected, and a minus sign
for an unsigned type. -/
def asInt (t : IT) (s : Str) : Option Int :=
  if t.signed = false ∧ s.head? = some 0x2D#8 then none
  else
    match intOf s with
    | none => none
    | some n => if t.InRange n then some n else none

def isLower (c : BitVec 8) : Bool := 97 ≤ c.toNat && c.toNat ≤ 122
def isUpper (c : BitVec 8) : Bool := 65 ≤ c.toNat && c.toNat ≤ 90
def lower (c : BitVec 8) : BitVec 8 := if isUpper c then c + 32#8 else c

/-- yaml-cpp's `IsFlexibleCase`. -/
def flexibleCase (s : Str) : Bool :=
  s.all isLower ||
    (match s with
    | [] => true
    | c :: r => isUpper c && (r.all isLower || r.all isUpper))

/-- `YAML::convert<bool>::decode`. -/
def asBool (s : Str) : Option Bool :=
  if flexibleCase s then
    if [txt "y", txt "yes", txt "true", txt "on"].contains (s.map lower) then some true
    else if [txt "n", txt "no", txt "false", txt "off"].contains (s.map lower) then some false
    else none
  else none

/-- The conversions of `double`. -/
structure Conv where
  dblText : BitVec 64 → Str
  asDbl : Str → Option (BitVec 64)

/-- The text of `YAML::BadConversion`. -/
def badConversion (s : YScalar) : Str :=
  match s.mark with
  | none => txt "bad conversion"
  | some (line, column) =>
    txt "yaml-cpp: error at line " ++ numText (line + 1) ++ txt ", column " ++ numText (column + 1) ++
      txt ": bad conversion"

/-- yaml.hpp:528-542 `value.as<Arithmetic>()`. -/
def convert {α : Type} (f : Str → Option α) (d : YDoc) : Res α :=
  match expectScalar d with
  | .error e => .error e
  | .ok s =>
    match f s.text with
    | none => .error (.deser (badConversion s))
    | some a => .ok a

/-- yaml.hpp:528-549: the leaves. -/
def deserLeaf (c : Conv) (l : Leaf) (d : YDoc) : Res Atom :=
  match l with
  | .bool => (convert asBool d).map .bool
  | .int t => (convert (asInt t) d).map .int
  | .dbl => (convert c.asDbl d).map .dbl
  | .str => (expectScalar d).map fun s => .str s.text

/-- yaml.hpp:475-517: `YAML::Node{value}`; `+value` for the two `char` types. -/
def serLeaf (c : Conv) (_ : Leaf) : Atom → YScalar
  | .bool b => ⟨if b then txt "true" else txt "false", none⟩
  | .int n => ⟨intText n, none⟩
  | .dbl b => ⟨c.dblText b, none⟩
  | .str s => ⟨s, none⟩

/-- yaml.hpp:428-464, 579-588: `emitter << value` is given the same text. -/
def dumpLeaf (c : Conv) (l : Leaf) (a : Atom) : YScalar := serLeaf c l a

/-- yaml.hpp:355-360 `out[key] = value`. -/
def setField (ms : List (Str × YDoc)) (k : Str) (d : YDoc) : List (Str × YDoc) :=
  match ms with
  | [] => [(k, d)]
  | m :: ms => if m.1 = k then (k, d) :: ms else m :: setField ms k d

end Yaml

/-- yaml.hpp:325-414 `yaml_tree_backend`, 280-323 `yaml_stream_backend`. -/
def yaml (c : Yaml.Conv) : Backend YScalar where
  serLeaf := Yaml.serLeaf c
  dumpLeaf := Yaml.dumpLeaf c
  deserLeaf := Yaml.deserLeaf c
  addField := Yaml.setField
  /- yaml.cpp:43-50. -/
  notMap d := txt "type must be a map but is a " ++ Yaml.typeName d
  /- yaml.cpp:34-41. -/
  notSeq d := txt "type must be a sequence but is a " ++ Yaml.typeName d
  typeName := Yaml.typeName

end Verif.Serial
