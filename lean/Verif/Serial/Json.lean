import Verif.Serial.Model
/-
The JSON backend: json.hpp and json.cpp.  `rapidjson::Value` is the tree `Doc JScalar`.  A
number is an integer of the ranges of `int64_t` and `uint64_t`, for which rapidjson sets
every one of the flags `IsInt`, `IsUint`, `IsInt64`, `IsUint64` that fits, or a `double`.
The conversion of an integer to `double` (`GetDouble`) is a parameter.
-/
namespace Verif.Serial
open Verif.Path Verif.Enums

inductive JScalar where
  | bool (b : Bool)
  | int (n : Int)
  | dbl (bits : BitVec 64)
  | str (s : Str)
  deriving DecidableEq, Repr

abbrev JDoc := Doc JScalar

namespace Json

/-- json.cpp:20-23 `type_name`; the names are those of `rapidjson::Type` (json.cpp:10-13). -/
def typeName : JDoc → Str
  | .null => txt "kNullType"
  | .scalar (.bool false) => txt "kFalseType"
  | .scalar (.bool true) => txt "kTrueType"
  | .scalar (.int _) => txt "kNumberType"
  | .scalar (.dbl _) => txt "kNumberType"
  | .scalar (.str _) => txt "kStringType"
  | .arr _ => txt "kArrayType"
  | .obj _ => txt "kObjectType"

def int32 : IT := ⟨true, 32⟩
def uint32 : IT := ⟨false, 32⟩
def int64 : IT := ⟨true, 64⟩
def uint64 : IT := ⟨false, 64⟩

/-- json.hpp:515-518 `throw_lossy_conversion`. -/
def lossy {α : Type} : Res α := .error (.deser (txt "value cannot be losslessly stored in the variable"))

/-- json.hpp:520-526 `narrow<Target>(src)`. -/
def narrow (target source : IT) (src : Int) : Res Int :=
  if source.conv (target.conv src) ≠ src then lossy else .ok (target.conv src)

/-- json.hpp:679-723 `deserialize_adl` of an integral type; json.cpp:25-31
`expect_integral`. -/
def deserInt (t : IT) (d : JDoc) : Res Int :=
  match d with
  | .scalar (.int n) =>
    if int32.InRange n ∨ int64.InRange n ∨ uint32.InRange n ∨ uint64.InRange n then
      if t.signed ∧ t.w / 8 < 8 then (if int32.InRange n then narrow t int32 n else lossy)
      else if t.signed ∧ t.w / 8 = 8 then (if int64.InRange n then .ok n else lossy)
      else if ¬ t.signed ∧ t.w / 8 < 8 then (if uint32.InRange n then narrow t uint32 n else lossy)
      else if ¬ t.signed ∧ t.w / 8 = 8 then (if uint64.InRange n then .ok n else lossy)
      else lossy
    else .error (.deser (txt "type must be an integral but is a " ++ typeName d))
  | d => .error (.deser (txt "type must be an integral but is a " ++ typeName d))

/-- json.hpp:725-730 (with json.cpp:33-39 `expect_number`). -/
def deserDbl (ofInt : Int → BitVec 64) (d : JDoc) : Res (BitVec 64) :=
  match d with
  | .scalar (.int n) => .ok (ofInt n)
  | .scalar (.dbl b) => .ok b
  | d => .error (.deser (txt "type must be a number but is a " ++ typeName d))

/-- json.hpp:732-737 (with json.cpp:41-47 `expect_boolean`). -/
def deserBool (d : JDoc) : Res Bool :=
  match d with
  | .scalar (.bool b) => .ok b
  | d => .error (.deser (txt "type must be a boolean but is a " ++ typeName d))

/-- json.hpp:739-744 (with json.cpp:49-55 `expect_string`). -/
def deserStr (d : JDoc) : Res Str :=
  match d with
  | .scalar (.str s) => .ok s
  | d => .error (.deser (txt "type must be a string but is a " ++ typeName d))

/-- json.hpp:677-744: the leaves. -/
def deserLeaf (ofInt : Int → BitVec 64) (l : Leaf) (d : JDoc) : Res Atom :=
  match l with
  | .bool => (deserBool d).map .bool
  | .int t => (deserInt t d).map .int
  | .dbl => (deserDbl ofInt d).map .dbl
  | .str => (deserStr d).map .str

/-- json.hpp:619-666: `rapidjson::Value{value}` and the string overloads. -/
def serLeaf (_ : Leaf) : Atom → JScalar
  | .bool b => .bool b
  | .int n => .int n
  | .dbl b => .dbl b
  | .str s => .str s

/-- json.hpp:552-610: `Bool`, `Int`, `Uint`, `Int64`, `Uint64`, `Double` and `String` of the
writer.  The four integer calls write the same digits for the same number. -/
def dumpLeaf (l : Leaf) (a : Atom) : JScalar :=
  match l, a with
  | .bool, .bool b => .bool b
  | .int _, .int n => .int n
  | .dbl, .dbl b => .dbl b
  | .str, .str s => .str s
  | _, a => serLeaf l a

end Json

/-- json.hpp:413-506 `json_tree_backend`, 356-411 `json_stream_backend`. -/
def json (ofInt : Int → BitVec 64) : Backend JScalar where
  serLeaf := Json.serLeaf
  dumpLeaf := Json.dumpLeaf
  deserLeaf := Json.deserLeaf ofInt
  /- `AddMember` appends; json.hpp:443-457. -/
  addField ms k d := ms ++ [(k, d)]
  /- json.cpp:57-63. -/
  notMap d := txt "type must be an object but is a " ++ Json.typeName d
  /- json.cpp:65-71. -/
  notSeq d := txt "type must be an array but is a " ++ Json.typeName d
  typeName := Json.typeName

end Verif.Serial
