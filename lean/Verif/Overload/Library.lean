import Verif.Overload.Core

/-!
Which overload of the library serializes a value of a given type, without customisations of the user.

`json.hpp` and `yaml.hpp` have sets of function templates `dump_adl`, `serialize_adl` and `deserialize_adl`:
one for composite types, which is viable if one of the overloads of `detail/serialization.hpp` is, and
others for single types. C++ picks by [over.match.best]; this model lists the candidates with the rank of the
conversion each needs.

External: which arguments the constructors of `rapidjson::Value` and the `operator<<` of `YAML::Emitter` take
(rapidjson 1.1 and yaml-cpp 0.6 and later). Simplified: classes have no conversions to other types; `bool`,
`char` and so on are not reflected; arrays are left out; the recursion into the elements of a composite type
is not followed.
-/

namespace Verif.Overload

/-- The arithmetic types, except `wchar_t`, `char16_t` and `char32_t`, for which yaml-cpp has no
conversion. -/
inductive Arith where
  | bool | char | schar | uchar
  | short | ushort | int | uint | long | ulong | llong | ullong
  | float | double | ldouble
  deriving DecidableEq

/-- `std::int64_t` is `long` where `long` has 64 bits (Linux, macOS) and `long long` elsewhere (Windows and
32-bit systems). -/
inductive Platform where
  | longIs64
  | longIs32
  deriving DecidableEq

/-- `std::int64_t`. -/
def Platform.int64 : Platform → Arith
  | .longIs64 => .long
  | .longIs32 => .llong

/-- `std::uint64_t`. -/
def Platform.uint64 : Platform → Arith
  | .longIs64 => .ulong
  | .longIs32 => .ullong

/-- What the traits of detail/concepts.hpp:9-25 ask about a class, whether it is reflected
(`ctti::is_reflectable`), and whether iterating over a non-constant object gives elements that can be
assigned to. -/
structure Shape where
  begins : Bool := false
  ends : Bool := false
  valueType : Bool := false
  mappedType : Bool := false
  keyType : Bool := false
  pushBack : Bool := false
  size : Bool := false
  reflected : Bool := false
  assignable : Bool := true
  deriving DecidableEq

/-- Types, as far as the overloads tell them apart. `cstr` is `const char*` or `char*`, `ptr` any other
pointer to an object, `view` the backend's view of a document. -/
inductive Ty where
  | arith (a : Arith)
  | cstr
  | ptr
  | null
  | str
  | strView
  | view
  | enm (isScoped : Bool)
  | opt
  | tup
  | enumSet
  | cls (f : Shape)
  deriving DecidableEq

/-- What a value becomes in a document. A `letter` is a YAML scalar of one character; `content` is whatever
the content of an optional becomes. -/
inductive Form where
  | null | boolean | number | letter | text | seq | map | doc | enumerator | content
  deriving DecidableEq

/-! ### detail/concepts.hpp -/

/-- detail/concepts.hpp:27-31 -/
def Shape.isRange (f : Shape) : Bool := f.begins && f.ends

/-- detail/concepts.hpp:33-38; `has_push_back` needs a `value_type` (detail/concepts.hpp:13-14). -/
def Shape.isGrowable (f : Shape) : Bool := f.isRange && f.valueType && (f.pushBack && f.valueType)

/-- detail/concepts.hpp:40-46 -/
def Shape.isFixedSize (f : Shape) : Bool :=
  f.isRange && f.valueType && f.size && !(f.pushBack && f.valueType)

/-- detail/concepts.hpp:48-53 -/
def Shape.isMap (f : Shape) : Bool := f.isRange && f.mappedType && f.keyType

/-- Strings are classes too: `std::string` can be grown, `std::string_view` has a fixed size. -/
def Ty.shape : Ty → Shape
  | .str => { begins := true, ends := true, valueType := true, pushBack := true, size := true }
  | .strView => { begins := true, ends := true, valueType := true, size := true, assignable := false }
  | .cls f => f
  | _ => {}

/-! ### detail/serialization.hpp -/

/-- The overloads for composite types. -/
inductive Comp where
  | map | range | growable | fixedSize | reflected | enm | opt | tup | enumSet
  deriving DecidableEq

/-- The overloads whose parameter is a template of the standard or of kl, which are more specialised than
those that take any type. -/
def Comp.special : Comp → Bool
  | .opt => true
  | .tup => true
  | .enumSet => true
  | _ => false

/-- The overloads that match a template: `std::optional`, `std::pair` and `std::tuple`, `enum_set`
(detail/serialization.hpp:665-707, 757-805, 1065-1120). -/
def Ty.templates : Ty → List Comp
  | .opt => [.opt]
  | .tup => [.tup]
  | .enumSet => [.enumSet]
  | _ => []

/-- `std::is_enum`. -/
def Ty.isEnum : Ty → Bool
  | .enm _ => true
  | _ => false

/-- The overloads of `dump_adl` (detail/serialization.hpp:616-707) and `serialize_adl`
(detail/serialization.hpp:711-805) that are viable. -/
def writers (T : Ty) : List Comp :=
  (if T.shape.isMap then [.map] else []) ++
    (if !T.shape.isMap && T.shape.isRange then [.range] else []) ++
    (if T.shape.reflected then [.reflected] else []) ++
    (if T.isEnum then [.enm] else []) ++ T.templates

/-- The overloads of `deserialize_adl` (detail/serialization.hpp:809-1120) that are viable. -/
def readers (T : Ty) : List Comp :=
  (if T.shape.isMap then [.map] else []) ++
    (if !T.shape.isMap && T.shape.isGrowable then [.growable] else []) ++
    (if !T.shape.isMap && T.shape.isFixedSize then [.fixedSize] else []) ++
    (if T.shape.reflected then [.reflected] else []) ++
    (if T.isEnum then [.enm] else []) ++ T.templates

/-- The one that is called. -/
def bestComp (l : List Comp) : Option Comp := best (fun a b => a.special && !b.special) l

/-- What each of them writes or reads (detail/serialization.hpp:616-1120). -/
def Comp.form : Comp → Form
  | .map => .map
  | .range => .seq
  | .growable => .seq
  | .fixedSize => .seq
  | .reflected => .map
  | .enm => .enumerator
  | .opt => .content
  | .tup => .seq
  | .enumSet => .seq

/-! ### Candidates of json.hpp and yaml.hpp -/

/-- A candidate: the conversion it needs (0 exact, 1 promotion, 2 conversion, 3 by a constructor), whether
its parameter names a type, and what becomes of the value. -/
structure Cand where
  rank : Nat
  named : Bool
  form : Form
  deriving DecidableEq

/-- [over.match.best]: the conversion decides, then the more specialised template. -/
def Cand.better (a b : Cand) : Bool :=
  decide (a.rank < b.rank) || (decide (a.rank = b.rank) && a.named && !b.named)

/-- [conv.prom] and [conv.fpprom]. -/
def Arith.promotes : Arith → Option Arith
  | .bool | .char | .schar | .uchar | .short | .ushort => some .int
  | .float => some .double
  | _ => none

/-- The rank of the conversion to a parameter of arithmetic type `b`. Pointers convert to `bool`, unscoped
enumerations promote to `int` and convert to the rest. -/
def rankArith (b : Arith) : Ty → Option Nat
  | .arith a => some (if a = b then 0 else if a.promotes = some b then 1 else 2)
  | .cstr => if b = .bool then some 2 else none
  | .ptr => if b = .bool then some 2 else none
  | .enm false => some (if b = .int then 1 else 2)
  | _ => none

/-- To `const char*`. -/
def rankCstr : Ty → Option Nat
  | .cstr => some 0
  | .null => some 2
  | _ => none

/-- To `const std::string&`: from a pointer by a constructor that is not explicit. -/
def rankStr : Ty → Option Nat
  | .str => some 0
  | .cstr => some 3
  | .null => some 3
  | _ => none

/-- To `std::string_view`: from a string by its conversion function. -/
def rankStrView : Ty → Option Nat
  | .strView => some 0
  | .str => some 3
  | .cstr => some 3
  | .null => some 3
  | _ => none

/-- To `std::nullptr_t`. -/
def rankNull : Ty → Option Nat
  | .null => some 0
  | _ => none

/-- To the backend's view. -/
def rankView : Ty → Option Nat
  | .view => some 0
  | _ => none

/-- A parameter that is deduced, so that nothing converts to it. -/
def exactly (p : Bool) : Option Nat := if p then some 0 else none

/-- A candidate if there is a conversion. -/
def cand (rank : Option Nat) (named : Bool) (form : Form) : List Cand :=
  match rank with
  | some r => [⟨r, named, form⟩]
  | none => []

/-- The candidate for composite types: `const T&` or `T&`. -/
def composite (c : Option Comp) : List Cand :=
  match c with
  | some c => [⟨0, false, c.form⟩]
  | none => []

/-- What the selected candidate makes of the value. -/
def formOf (l : List Cand) : Option Form := (best Cand.better l).map Cand.form

/-- `kl::json`, `dump_adl(json::stream_tag, ...)` (json.hpp:533-606). -/
def jsonDump (M : Platform) (T : Ty) : Option Form :=
  formOf (composite (bestComp (writers T)) ++
    cand (rankView T) true .doc ++ cand (rankNull T) true .null ++
    cand (rankArith .bool T) true .boolean ++ cand (rankArith .int T) true .number ++
    cand (rankArith .uint T) true .number ++ cand (rankArith M.int64 T) true .number ++
    cand (rankArith M.uint64 T) true .number ++ cand (rankArith .double T) true .number ++
    cand (rankCstr T) true .text ++ cand (rankStr T) true .text ++ cand (rankStrView T) true .text)

/-- External: the constructors of `rapidjson::Value` from one arithmetic value. The one for `bool` takes
nothing else, the others are ordinary overloads. -/
def jsonValue (M : Platform) (T : Ty) : Option Form :=
  formOf (cand (exactly (T = .arith .bool)) true .boolean ++
    cand (rankArith .int T) true .number ++ cand (rankArith .uint T) true .number ++
    cand (rankArith M.int64 T) true .number ++ cand (rankArith M.uint64 T) true .number ++
    cand (rankArith .double T) true .number)

/-- `is_json_constructible` (json.hpp:508-512). -/
def jsonConstructible (M : Platform) (T : Ty) : Bool := (jsonValue M T).isSome && !T.isEnum

/-- `kl::json`, `serialize_adl(json::tree_tag, ...)` (json.hpp:611-668). -/
def jsonSerialize (M : Platform) (T : Ty) : Option Form :=
  formOf (composite (bestComp (writers T)) ++
    cand (exactly (jsonConstructible M T)) false ((jsonValue M T).getD .null) ++
    cand (rankView T) true .doc ++ cand (rankNull T) true .null ++
    cand (exactly (T = .str)) true .text ++ cand (exactly (T = .strView)) true .text ++
    cand (rankCstr T) true .text)

/-- `std::is_floating_point`. -/
def Arith.isFloating : Arith → Bool
  | .float | .double | .ldouble => true
  | _ => false

/-- `std::is_integral` of a type. -/
def Ty.isIntegral : Ty → Bool
  | .arith a => !a.isFloating
  | _ => false

/-- `std::is_floating_point` of a type. -/
def Ty.isFloating : Ty → Bool
  | .arith a => a.isFloating
  | _ => false

/-- The result of a `deserialize`: there is no overload, the selected one does not compile, or the form it
reads. -/
inductive Read where
  | none
  | broken
  | form (f : Form)
  deriving DecidableEq

/-- The overload for ranges of a fixed size assigns to the elements (detail/serialization.hpp:869-895). -/
def Ty.brokenBody (T : Ty) (c : Option Comp) : Bool :=
  decide (c = some .fixedSize) && !T.shape.assignable

/-- A candidate of `deserialize_adl` for a single type is better than the one for composite types, so that a
body of the latter is compiled only if there is none of the former. -/
def readOf (T : Ty) (single : List Cand) : Read :=
  match formOf (composite (bestComp (readers T)) ++ single) with
  | none => .none
  | some f => if single.isEmpty && T.brokenBody (bestComp (readers T)) then .broken else .form f

/-- `kl::json`, `deserialize_adl(json::tree_tag, ...)` (json.hpp:670-759). -/
def jsonDeserialize (T : Ty) : Read :=
  readOf T (cand (exactly T.isIntegral) false .number ++ cand (exactly T.isFloating) false .number ++
    cand (exactly (T = .arith .bool)) true .boolean ++ cand (exactly (T = .str)) true .text ++
    cand (exactly (T = .strView)) true .text ++ cand (exactly (T = .view)) true .doc)

/-- External: `operator<<(YAML::Emitter&, ...)`. -/
def yamlEmit (T : Ty) : Option Form :=
  formOf (cand (rankArith .bool T) true .boolean ++ cand (rankArith .char T) true .letter ++
    cand (rankArith .uchar T) true .number ++
    cand (rankArith .short T) true .number ++ cand (rankArith .ushort T) true .number ++
    cand (rankArith .int T) true .number ++ cand (rankArith .uint T) true .number ++
    cand (rankArith .long T) true .number ++ cand (rankArith .ulong T) true .number ++
    cand (rankArith .llong T) true .number ++ cand (rankArith .ullong T) true .number ++
    cand (rankArith .float T) true .number ++ cand (rankArith .double T) true .number ++
    cand (rankCstr T) true .text ++ cand (rankStr T) true .text)

/-- `kl::yaml`, `dump_adl(yaml::stream_tag, ...)` (yaml.hpp:419-463). -/
def yamlDumpAdl (T : Ty) : Option Form :=
  formOf (composite (bestComp (writers T)) ++
    cand (rankArith .uchar T) true .number ++ cand (rankArith .schar T) true .number ++
    cand (rankView T) true .doc ++ cand (rankNull T) true .null ++ cand (rankStr T) true .text)

/-- `backend_traits<yaml_stream_backend>::dump` (yaml.hpp:580-604): the overloads of the library, and
yaml-cpp's for what they do not take. -/
def yamlDump (T : Ty) : Option Form := (yamlDumpAdl T).or (yamlEmit T)

/-- `YAML::Node{value}` of an arithmetic value. -/
def yamlArith : Ty → Form
  | .arith .bool => .boolean
  | .arith .char => .letter
  | _ => .number

/-- `kl::yaml`, `serialize_adl(yaml::tree_tag, ...)` (yaml.hpp:465-515). -/
def yamlSerialize (T : Ty) : Option Form :=
  formOf (composite (bestComp (writers T)) ++
    cand (exactly (T.isIntegral || T.isFloating)) false (yamlArith T) ++
    cand (rankArith .uchar T) true .number ++ cand (rankArith .schar T) true .number ++
    cand (rankView T) true .doc ++ cand (rankNull T) true .null ++ cand (rankStr T) true .text ++
    cand (rankCstr T) true .text)

/-- `kl::yaml`, `deserialize_adl(yaml::tree_tag, ...)` (yaml.hpp:517-568). -/
def yamlDeserialize (T : Ty) : Read :=
  readOf T (cand (exactly (T.isIntegral || T.isFloating)) false (yamlArith T) ++
    cand (exactly (T = .str)) true .text ++ cand (exactly (T = .strView)) true .text ++
    cand (exactly (T = .view)) true .doc)

end Verif.Overload
