import Verif.Path.Model
import Verif.Enums.Model
/-
Model of `include/kl/detail/serialization.hpp` (dump, serialize, deserialize and patch of
reflected types), of the attributes in `serialization_attributes.hpp` and of the JSON
backend in `json.hpp`.

* A C++ type is a code `Ty`; a value is a tree `Value`.  Types outside the codes (user
  serializers, `string_view`, `json::view`, pointers) are left out.  `std::map` with string
  keys stands for all map-like types.  The fields of a record are in the order in which
  `ctti::reflect_object` visits them (bases first, C67).
* A document is a tree `Doc` over the scalars `σ` of the backend.  `Backend` holds what the
  generic code calls; `json` (Json.lean) is the instance of json.hpp.
* `deser t old d` is the value left in `out`, which held `old`, when the call returns.  What
  an exception leaves behind in `out` is not modelled.
* `Exc.stuck` is the outcome of what the C++ type checker excludes.
-/
namespace Verif.Serial
open Verif.Path Verif.Enums

/-- A string literal. (the messages at detail/serialization.hpp:834-842, 864-869) -/
def txt (s : String) : Str := s.toList.map fun c => BitVec.ofNat 8 c.toNat

/-- `std::to_string` of an integer. (detail/serialization.hpp:866) -/
def numText (n : Int) : Str := txt (toString n)

/-! ### Values, types and documents -/

/-- Types the backend converts itself. (json.hpp:541-762) -/
inductive Leaf where
  | bool
  | int (t : IT)
  | dbl
  | str
  deriving DecidableEq

/-- Values of those types; `dbl` holds the bits of a `double`. (json.hpp:541-762) -/
inductive Atom where
  | bool (b : Bool)
  | int (n : Int)
  | dbl (bits : BitVec 64)
  | str (s : Str)
  deriving DecidableEq, Repr

/-- The objects of detail/serialization.hpp:613-1240. -/
inductive Value where
  | atom (a : Atom)
  | bits (n : Nat)
  | opt (v : Option Value)
  | seq (vs : List Value)
  | map (es : List (Str × Value))
  | record (vs : List Value)

/-- A reflected enum: underlying type, enumerators, and `reflect_enum_unknown_name`.
(detail/serialization.hpp:658-666, 1040-1061) -/
structure EnumTy where
  under : IT
  entries : List Entry
  unknown : String
  deriving DecidableEq

/-- serialization_attributes.hpp:124-169: `range`, `greater_equal`, `less_equal`, and any
other `validate`.  The bounds are of the type of the value. -/
inductive Validator where
  | range (lo hi : Int)
  | ge (lo : Int)
  | le (hi : Int)
  | user (id : Nat)
  deriving DecidableEq

/-- A reflected field with its attributes (serialization_attributes.hpp).  `init` is what
the member holds in `T{}`. -/
structure Field where
  name : Str
  init : Value
  rename : Option Str := none
  aliases : List Str := []
  skipSer : Bool := false
  skipDeser : Bool := false
  skipIfNull : Bool := false
  emitNull : Bool := false
  allowMissing : Bool := false
  skipIfEmpty : Bool := false
  flatten : Bool := false
  extra : Bool := false
  defaults : List Value := []
  validators : List Validator := []

mutual
/-- The types detail/serialization.hpp:613-1240 has overloads for. -/
inductive Ty where
  | leaf (l : Leaf)
  | enum (e : EnumTy)
  | rawEnum (t : IT)
  | enumSet (e : EnumTy)
  | opt (t : Ty)
  | vec (t : Ty)
  | arr (n : Nat) (t : Ty)
  | map (t : Ty)
  | tuple (pair : Bool) (ts : Tys)
  | record (name : Str) (fs : Fields)
/-- The types of a tuple, detail/serialization.hpp:1089-1097. -/
inductive Tys where
  | nil
  | cons (t : Ty) (rest : Tys)
/-- The fields of a struct, detail/serialization.hpp:900-985. -/
inductive Fields where
  | nil
  | cons (f : Field) (t : Ty) (rest : Fields)
end

/-- A `rapidjson::Value` or `YAML::Node`: json.hpp:443-498. -/
inductive Doc (σ : Type) where
  | null
  | scalar (s : σ)
  | arr (l : List (Doc σ))
  | obj (ms : List (Str × Doc σ))

/-- What the stream backend is told: json.hpp:354-405. -/
inductive Ev (σ : Type) where
  | null
  | scalar (s : σ)
  | key (k : Str)
  | beginMap
  | endMap
  | beginSeq
  | endSeq
  deriving DecidableEq

/-- Exceptions: `deserialize_error` and `std::logic_error` with their text, and others.
(thrown at detail/serialization.hpp:520-526, 834-842, 1094-1095) -/
inductive Exc where
  | deser (what : Str)
  | logic (what : Str)
  | other (n : Nat)
  | stuck
  deriving DecidableEq, Repr

/-- How a function of detail/serialization.hpp:613-1240 ends. -/
abbrev Res (α : Type) := Except Exc α

/-- serialization_error.cpp:7-11 `deserialize_error::add`. -/
def Exc.add (msg : Str) : Exc → Exc
  | .deser w => .deser (w ++ [0x0A#8] ++ msg)
  | e => e

/-- `try { ... } catch (deserialize_error& ex) { ex.add(msg); throw; }`.
(detail/serialization.hpp:834-841, 864-869, 979-984) -/
def note {α : Type} (msg : Str) : Res α → Res α
  | .ok a => .ok a
  | .error e => .error (e.add msg)

/-- What the generic code asks of a backend. (detail/serialization.hpp:613-1240 `Backend::`) -/
structure Backend (σ : Type) where
  /-- `Backend::serialize` of a leaf. -/
  serLeaf : Leaf → Atom → σ
  /-- `Backend::dump` of a leaf. -/
  dumpLeaf : Leaf → Atom → σ
  /-- `Backend::deserialize` of a leaf. -/
  deserLeaf : Leaf → Doc σ → Res Atom
  addField : List (Str × Doc σ) → Str → Doc σ → List (Str × Doc σ)
  /-- The text thrown by `expect_map`. -/
  notMap : Doc σ → Str
  /-- The text thrown by `expect_sequence`. -/
  notSeq : Doc σ → Str
  typeName : Doc σ → Str

/-- User code: the validators of `validate(...)`. (serialization_attributes.hpp:125-131) -/
structure Env where
  validator : Nat → Value → Res Unit

/-! ### Values -/

mutual
/-- `T{}`. (detail/serialization.hpp:828-831, 860, 1115) -/
def fresh : Ty → Value
  | .leaf .bool => .atom (.bool false)
  | .leaf (.int _) => .atom (.int 0)
  | .leaf .dbl => .atom (.dbl 0#64)
  | .leaf .str => .atom (.str [])
  | .enum _ => .atom (.int 0)
  | .rawEnum _ => .atom (.int 0)
  | .enumSet _ => .bits 0
  | .opt _ => .opt none
  | .vec _ => .seq []
  | .arr n t => .seq (List.replicate n (fresh t))
  | .map _ => .map []
  | .tuple _ ts => .seq (freshs ts)
  | .record _ fs => .record (inits fs)
/-- detail/serialization.hpp:860: the components of a tuple. -/
def freshs : Tys → List Value
  | .nil => []
  | .cons t ts => fresh t :: freshs ts
/-- detail/serialization.hpp:860: the fields of a struct with their initialisers. -/
def inits : Fields → List Value
  | .nil => []
  | .cons f _ fs => f.init :: inits fs
end

/-- Byte strings in the order of `std::string::operator<`.
(the order of `std::map<std::string, T>`, detail/serialization.hpp:819-843) -/
def strLt : Str → Str → Bool
  | _, [] => false
  | [], _ :: _ => true
  | a :: as, b :: bs => a.toNat < b.toNat || (a == b && strLt as bs)

/-- `std::map::emplace`: nothing happens if the key is present. (detail/serialization.hpp:832) -/
def emplace {α : Type} (es : List (Str × α)) (k : Str) (v : α) : List (Str × α) :=
  match es with
  | [] => [(k, v)]
  | e :: rest =>
    if strLt k e.1 then (k, v) :: e :: rest
    else if k = e.1 then e :: rest
    else e :: emplace rest k v

/-- serialization_fwd.hpp:16-33 `is_null_value`. -/
def isNullValue : Value → Bool
  | .opt none => true
  | _ => false

/-- serialization_fwd.hpp:42-67 `is_empty_value`; does not compile for types without
`empty()`. -/
def isEmptyValue : Value → Bool
  | .atom (.str s) => s.isEmpty
  | .seq vs => vs.isEmpty
  | .map es => es.isEmpty
  | _ => false

/-! ### Fields -/

/-- detail/serialization.hpp:71-78 `serialized_name`. -/
def Field.key (f : Field) : Str := f.rename.getD f.name

/-- 80-89 `skip_null_field`; the contexts' `skip_null_value`, json.hpp:68-72. -/
def skipNullField (f : Field) (skipNull : Bool) (v : Value) : Bool :=
  if f.emitNull then false
  else if f.skipIfNull then isNullValue v
  else skipNull && isNullValue v

/-- detail/serialization.hpp:91-98 `skip_empty_field`. -/
def skipEmptyField (f : Field) (v : Value) : Bool := if f.skipIfEmpty then isEmptyValue v else false

/-- detail/serialization.hpp:100-104 `skip_serialized_field`. -/
def skipField (f : Field) (skipNull : Bool) (v : Value) : Bool :=
  skipNullField f skipNull v || skipEmptyField f v

/-- `value < bound`; an empty optional is less than everything. (serialization_attributes.hpp:138, 151) -/
def valueLt : Value → Int → Bool
  | .atom (.int n), b => n < b
  | .opt none, _ => true
  | .opt (some (.atom (.int n))), b => n < b
  | _, _ => false

/-- `value > bound`. (serialization_attributes.hpp:138, 163) -/
def valueGt : Value → Int → Bool
  | .atom (.int n), b => n > b
  | .opt (some (.atom (.int n))), b => n > b
  | _, _ => false

/-- serialization_attributes.hpp:133-169: the validators. -/
def runValidator (E : Env) (v : Value) : Validator → Res Unit
  | .range lo hi =>
    if valueLt v lo || valueGt v hi then
      .error (.deser (txt "value is outside allowed range [" ++ numText lo ++ txt ", " ++
        numText hi ++ txt "]"))
    else .ok ()
  | .ge lo =>
    if valueLt v lo then
      .error (.deser (txt "value is less than allowed limit of " ++ numText lo))
    else .ok ()
  | .le hi =>
    if valueGt v hi then
      .error (.deser (txt "value is greater than allowed limit of " ++ numText hi))
    else .ok ()
  | .user id => E.validator id v

/-- detail/serialization.hpp:170-187 `validate_field`: all validators in order. -/
def validateField (E : Env) (v : Value) : List Validator → Res Unit
  | [] => .ok ()
  | x :: xs =>
    match runValidator E v x with
    | .error e => .error e
    | .ok () => validateField E v xs

/-- detail/serialization.hpp:144-168 `apply_default_value`: the first one counts. -/
def applyDefault (f : Field) : Option Value := f.defaults.head?

/-- detail/serialization.hpp:189-198 `apply_missing_field_policy`; `old` is the value of the field. -/
def missingPolicy (f : Field) (old : Value) : Option Value :=
  match applyDefault f with
  | some v => some v
  | none => if f.allowMissing then some old else none

/-- `FindMember`. (json.hpp:157-164) -/
def findMember {σ : Type} (ms : List (Str × Doc σ)) (name : Str) : Option (Doc σ) :=
  match ms with
  | [] => none
  | m :: rest => if m.1 = name then some m.2 else findMember rest name

/-- json.hpp:490-493 `has_field`. -/
def hasField {σ : Type} (ms : List (Str × Doc σ)) (name : Str) : Bool :=
  (findMember ms name).isSome

/-- json.hpp:495-498, 160-164 `at_field`. -/
def atField {σ : Type} (ms : List (Str × Doc σ)) (name : Str) : Doc σ :=
  (findMember ms name).getD .null

/-- json.hpp:500-503, 153-156 `at_index`. -/
def atIndex {σ : Type} (l : List (Doc σ)) (i : Nat) : Doc σ := (l[i]?).getD .null

/-- detail/serialization.hpp:216-221: the loop over the aliases. -/
def firstAlias {σ : Type} (ms : List (Str × Doc σ)) : List Str → Option Str
  | [] => none
  | a :: as => if hasField ms a then some a else firstAlias ms as

/-- detail/serialization.hpp:206-225 `resolve_field_name`. -/
def resolveName {σ : Type} (ms : List (Str × Doc σ)) (f : Field) : Option Str :=
  if hasField ms f.key then some f.key else firstAlias ms f.aliases

/-! ### Field names -/

/-- detail/serialization.hpp:242-253 `push_unique`. -/
def pushUnique (buf : List Str) (name : Str) : List Str × Bool :=
  if buf.contains name then (buf, false) else (buf ++ [name], true)

/-- `push_unique` for each name. (detail/serialization.hpp:324-326, 397-407) -/
def pushAll (buf : List Str) : List Str → List Str × Bool
  | [] => (buf, true)
  | n :: ns =>
    let r := pushUnique buf n
    let r' := pushAll r.1 ns
    (r'.1, r.2 && r'.2)

mutual
/-- detail/serialization.hpp:308-331 `serialize_field_names_validator::collect_field_names`. -/
def collectSer : Fields → List Str → List Str × Bool
  | .nil, buf => (buf, true)
  | .cons f t fs, buf =>
    let r := if f.skipSer || f.extra then (buf, true)
      else if f.flatten then collectSerTy t buf
      else pushUnique buf f.key
    let r' := collectSer fs r.1
    (r'.1, r.2 && r'.2)
/-- The names of a flattened field, detail/serialization.hpp:318-322. -/
def collectSerTy : Ty → List Str → List Str × Bool
  | .record _ fs, buf => collectSer fs buf
  | _, buf => (buf, false)
end

/-- detail/serialization.hpp:272-277: the static assertion of dump and serialize. -/
def serNamesOk (fs : Fields) : Bool := (collectSer fs []).2

mutual
/-- detail/serialization.hpp:380-413 `deserialize_field_names_validator::collect_field_names`. -/
def collectDeser : Fields → List Str → List Str × Bool
  | .nil, buf => (buf, true)
  | .cons f t fs, buf =>
    let r := if f.skipDeser || f.extra then (buf, true)
      else if f.flatten then collectDeserTy t buf
      else pushAll buf (f.key :: f.aliases)
    let r' := collectDeser fs r.1
    (r'.1, r.2 && r'.2)
/-- The names of a flattened field, detail/serialization.hpp:390-394. -/
def collectDeserTy : Ty → List Str → List Str × Bool
  | .record _ fs, buf => collectDeser fs buf
  | _, buf => (buf, false)
end

/-- detail/serialization.hpp:339-344: the static assertion of deserialize and patch. -/
def deserNamesOk (fs : Fields) : Bool := (collectDeser fs []).2

/-- detail/serialization.hpp:439-446 `add_name`. -/
def addName (names : List Str) (n : Str) : Res (List Str) :=
  if names.contains n then
    .error (.logic (txt "serialization reflected field name collision: " ++ n))
  else .ok (n :: names)

/-- detail/serialization.hpp:448-456: the name and the aliases. -/
def addNames (names : List Str) : List Str → Res (List Str)
  | [] => .ok names
  | n :: ns =>
    match addName names n with
    | .error e => .error e
    | .ok names => addNames names ns

mutual
/-- detail/serialization.hpp:417-458 `collect_field_reserved_names`, for all fields: the names and the number of
`extra_fields`. -/
def collectReserved : Fields → List Str × Nat → Res (List Str × Nat)
  | .nil, acc => .ok acc
  | .cons f t fs, acc =>
    match (if f.extra then
        if acc.2 + 1 > 1 then
          .error (.logic (txt "serialization only one extra_fields field is supported"))
        else .ok (acc.1, acc.2 + 1)
      else if f.flatten then collectReservedTy t acc
      else (addNames acc.1 (f.key :: f.aliases)).map fun names => (names, acc.2) :
        Res (List Str × Nat)) with
    | .error e => .error e
    | .ok acc => collectReserved fs acc
/-- detail/serialization.hpp:431-437 the names of a flattened field. -/
def collectReservedTy : Ty → List Str × Nat → Res (List Str × Nat)
  | .record _ fs, acc => collectReserved fs acc
  | _, _ => .error .stuck
end

/-- `ctti::has_any_attribute<Reflectable, extra_fields_t, flatten_t>`. (detail/serialization.hpp:462-488) -/
def hasExtraOrFlatten : Fields → Bool
  | .nil => false
  | .cons f _ fs => f.extra || f.flatten || hasExtraOrFlatten fs

/-- detail/serialization.hpp:462-488 `reserved_field_names`; `none` is the null pointer. -/
def reservedNames (fs : Fields) : Res (Option (List Str)) :=
  if hasExtraOrFlatten fs then (collectReserved fs ([], 0)).map fun acc => some acc.1
  else .ok none

/-- detail/serialization.hpp:502-527 `check_extra_field_key`; the null pointer is never dereferenced. -/
def checkExtraKey (reserved : Option (List Str)) (key : Str) : Res Unit :=
  match reserved with
  | none => .error .stuck
  | some names =>
    if names.contains key then
      .error (.logic (txt "serialization extra_fields key collides with reflected field: " ++ key))
    else .ok ()

/-! ### serialize -/

variable {σ : Type}

/-- A loop over elements, ended by the first exception. (detail/serialization.hpp:641-642, 741-742) -/
def mapAll {α β : Type} (f : α → Res β) : List α → Res (List β)
  | [] => .ok []
  | x :: xs =>
    match f x with
    | .error e => .error e
    | .ok y =>
      match mapAll f xs with
      | .error e => .error e
      | .ok ys => .ok (y :: ys)

/-- `kl::to_string(e)` as a scalar; detail/serialization.hpp:757-764, 659-666. -/
def enumName (e : EnumTy) (n : Int) : Res Str :=
  match toStr e.under e.entries n e.unknown with
  | none => .error .stuck
  | some s => .ok (txt s)

/-- The enumerators `v` with `set.test(v)`; detail/serialization.hpp:668-682, 766-780. -/
def setMembers (e : EnumTy) (n : Nat) : List Int :=
  (values e.entries).filter fun v =>
    (⟨BitVec.ofNat e.under.w n⟩ : EnumSet e.under.signed e.under.w).test (BitVec.ofInt e.under.w v)

/-- detail/serialization.hpp:720-735 (map), 585-599 (extra fields, with `reserved` checked): the loop over entries. -/
def serEntries (B : Backend σ) (skipNull : Bool) (check : Str → Res Unit) (ser : Value → Res (Doc σ)) :
    List (Str × Value) → List (Str × Doc σ) → Res (List (Str × Doc σ))
  | [], out => .ok out
  | (k, v) :: es, out =>
    match check k with
    | .error e => .error e
    | .ok () =>
      if skipNull && isNullValue v then serEntries B skipNull check ser es out
      else
        match ser v with
        | .error e => .error e
        | .ok d => serEntries B skipNull check ser es (B.addField out k d)

mutual
/-- detail/serialization.hpp:718-813 `serialize_adl`. -/
def ser (B : Backend σ) (skipNull : Bool) : Ty → Value → Res (Doc σ)
  | .leaf l, v =>
    match v with
    | .atom a => .ok (.scalar (B.serLeaf l a))
    | _ => .error .stuck
  | .enum e, v =>
    match v with
    | .atom (.int n) => (enumName e n).map fun s => .scalar (B.serLeaf .str (.str s))
    | _ => .error .stuck
  | .rawEnum t, v =>
    match v with
    | .atom a => .ok (.scalar (B.serLeaf (.int t) a))
    | _ => .error .stuck
  | .enumSet e, v =>
    match v with
    | .bits n =>
      (mapAll (fun m => (enumName e m).map fun s => .scalar (B.serLeaf .str (.str s)))
        (setMembers e n)).map .arr
    | _ => .error .stuck
  | .opt t, v =>
    match v with
    | .opt none => .ok .null
    | .opt (some w) => ser B skipNull t w
    | _ => .error .stuck
  | .vec t, v =>
    match v with
    | .seq vs => (mapAll (ser B skipNull t) vs).map .arr
    | _ => .error .stuck
  | .arr _ t, v =>
    match v with
    | .seq vs => (mapAll (ser B skipNull t) vs).map .arr
    | _ => .error .stuck
  | .map t, v =>
    match v with
    | .map es => (serEntries B skipNull (fun _ => .ok ()) (ser B skipNull t) es []).map .obj
    | _ => .error .stuck
  | .tuple _ ts, v =>
    match v with
    | .seq vs => (serTuple B skipNull ts vs).map .arr
    | _ => .error .stuck
  | .record _ fs, v =>
    match v with
    | .record vs =>
      match reservedNames fs with
      | .error e => .error e
      | .ok reserved => (addFields B skipNull reserved fs vs []).map .obj
    | _ => .error .stuck
/-- detail/serialization.hpp:784-792 `serialize_tuple`. -/
def serTuple (B : Backend σ) (skipNull : Bool) : Tys → List Value → Res (List (Doc σ))
  | .nil, vs =>
    match vs with
    | [] => .ok []
    | _ => .error .stuck
  | .cons t ts, vs =>
    match vs with
    | v :: vs =>
      match ser B skipNull t v with
      | .error e => .error e
      | .ok d =>
        match serTuple B skipNull ts vs with
        | .error e => .error e
        | .ok ds => .ok (d :: ds)
    | [] => .error .stuck
/-- detail/serialization.hpp:569-612 `add_reflected_fields`. -/
def addFields (B : Backend σ) (skipNull : Bool) (reserved : Option (List Str)) :
    Fields → List Value → List (Str × Doc σ) → Res (List (Str × Doc σ))
  | .nil, vs, out =>
    match vs with
    | [] => .ok out
    | _ => .error .stuck
  | .cons f t fs, vs, out =>
    match vs with
    | v :: vs =>
      match (if f.skipSer then .ok out
        else if skipField f skipNull v then .ok out
        else if f.extra then addExtras B skipNull reserved t v out
        else if f.flatten then addFlat B skipNull reserved t v out
        else (ser B skipNull t v).map fun d => B.addField out f.key d : Res (List (Str × Doc σ))) with
      | .error e => .error e
      | .ok out => addFields B skipNull reserved fs vs out
    | [] => .error .stuck
/-- detail/serialization.hpp:585-599: the entries of an `extra_fields` map. -/
def addExtras (B : Backend σ) (skipNull : Bool) (reserved : Option (List Str)) :
    Ty → Value → List (Str × Doc σ) → Res (List (Str × Doc σ))
  | .map t, v, out =>
    match v with
    | .map es => serEntries B skipNull (checkExtraKey reserved) (ser B skipNull t) es out
    | _ => .error .stuck
  | _, _, _ => .error .stuck
/-- detail/serialization.hpp:601-604: a flattened field. -/
def addFlat (B : Backend σ) (skipNull : Bool) (reserved : Option (List Str)) :
    Ty → Value → List (Str × Doc σ) → Res (List (Str × Doc σ))
  | .record _ fs, v, out =>
    match v with
    | .record vs => addFields B skipNull reserved fs vs out
    | _ => .error .stuck
  | _, _, _ => .error .stuck
end

/-! ### dump -/

/-- detail/serialization.hpp:617-633 (map), 543-555 (extra fields): the loop over entries. -/
def dumpEntries (skipNull : Bool) (check : Str → Res Unit) (dump : Value → Res (List (Ev σ))) :
    List (Str × Value) → Res (List (Ev σ))
  | [] => .ok []
  | (k, v) :: es =>
    match check k with
    | .error e => .error e
    | .ok () =>
      if skipNull && isNullValue v then dumpEntries skipNull check dump es
      else
        match dump v with
        | .error e => .error e
        | .ok evs => (dumpEntries skipNull check dump es).map fun rest => .key k :: evs ++ rest

/-- detail/serialization.hpp:640-643, 688-690: the events of a sequence. -/
def inSeq (r : Res (List (List (Ev σ)))) : Res (List (Ev σ)) :=
  r.map fun evs => .beginSeq :: evs.flatten ++ [.endSeq]

/-- detail/serialization.hpp:623-632, 653-655: the events of a map. -/
def inMap (r : Res (List (Ev σ))) : Res (List (Ev σ)) :=
  r.map fun evs => .beginMap :: evs ++ [.endMap]

mutual
/-- detail/serialization.hpp:614-715 `dump_adl`. -/
def dump (B : Backend σ) (skipNull : Bool) : Ty → Value → Res (List (Ev σ))
  | .leaf l, v =>
    match v with
    | .atom a => .ok [.scalar (B.dumpLeaf l a)]
    | _ => .error .stuck
  | .enum e, v =>
    match v with
    | .atom (.int n) => (enumName e n).map fun s => [.scalar (B.dumpLeaf .str (.str s))]
    | _ => .error .stuck
  | .rawEnum t, v =>
    match v with
    | .atom a => .ok [.scalar (B.dumpLeaf (.int t) a)]
    | _ => .error .stuck
  | .enumSet e, v =>
    match v with
    | .bits n =>
      inSeq (mapAll (fun m => (enumName e m).map fun s => [.scalar (B.dumpLeaf .str (.str s))])
        (setMembers e n))
    | _ => .error .stuck
  | .opt t, v =>
    match v with
    | .opt none => .ok [.null]
    | .opt (some w) => dump B skipNull t w
    | _ => .error .stuck
  | .vec t, v =>
    match v with
    | .seq vs => inSeq (mapAll (dump B skipNull t) vs)
    | _ => .error .stuck
  | .arr _ t, v =>
    match v with
    | .seq vs => inSeq (mapAll (dump B skipNull t) vs)
    | _ => .error .stuck
  | .map t, v =>
    match v with
    | .map es => inMap (dumpEntries skipNull (fun _ => .ok ()) (dump B skipNull t) es)
    | _ => .error .stuck
  | .tuple _ ts, v =>
    match v with
    | .seq vs => inSeq (dumpTuple B skipNull ts vs)
    | _ => .error .stuck
  | .record _ fs, v =>
    match v with
    | .record vs =>
      match reservedNames fs with
      | .error e => .error e
      | .ok reserved => inMap (dumpFields B skipNull reserved fs vs)
    | _ => .error .stuck
/-- detail/serialization.hpp:685-691 `dump_tuple`. -/
def dumpTuple (B : Backend σ) (skipNull : Bool) : Tys → List Value → Res (List (List (Ev σ)))
  | .nil, vs =>
    match vs with
    | [] => .ok []
    | _ => .error .stuck
  | .cons t ts, vs =>
    match vs with
    | v :: vs =>
      match dump B skipNull t v with
      | .error e => .error e
      | .ok d =>
        match dumpTuple B skipNull ts vs with
        | .error e => .error e
        | .ok ds => .ok (d :: ds)
    | [] => .error .stuck
/-- detail/serialization.hpp:529-567 `dump_reflected_fields`. -/
def dumpFields (B : Backend σ) (skipNull : Bool) (reserved : Option (List Str)) :
    Fields → List Value → Res (List (Ev σ))
  | .nil, vs =>
    match vs with
    | [] => .ok []
    | _ => .error .stuck
  | .cons f t fs, vs =>
    match vs with
    | v :: vs =>
      match (if f.skipSer then .ok []
        else if skipField f skipNull v then .ok []
        else if f.extra then dumpExtras B skipNull reserved t v
        else if f.flatten then dumpFlat B skipNull reserved t v
        else (dump B skipNull t v).map fun evs => .key f.key :: evs : Res (List (Ev σ))) with
      | .error e => .error e
      | .ok evs => (dumpFields B skipNull reserved fs vs).map fun rest => evs ++ rest
    | [] => .error .stuck
/-- detail/serialization.hpp:543-555: the entries of an `extra_fields` map. -/
def dumpExtras (B : Backend σ) (skipNull : Bool) (reserved : Option (List Str)) :
    Ty → Value → Res (List (Ev σ))
  | .map t, v =>
    match v with
    | .map es => dumpEntries skipNull (checkExtraKey reserved) (dump B skipNull t) es
    | _ => .error .stuck
  | _, _ => .error .stuck
/-- detail/serialization.hpp:557-560: a flattened field. -/
def dumpFlat (B : Backend σ) (skipNull : Bool) (reserved : Option (List Str)) :
    Ty → Value → Res (List (Ev σ))
  | .record _ fs, v =>
    match v with
    | .record vs => dumpFields B skipNull reserved fs vs
    | _ => .error .stuck
  | _, _ => .error .stuck
end

/-! ### deserialize -/

/-- json.hpp:486-498 `is_null`. -/
def Doc.isNull : Doc σ → Bool
  | .null => true
  | _ => false

/-- `expect_sequence`, then the elements. (detail/serialization.hpp:851-857) -/
def elements (B : Backend σ) (d : Doc σ) : Res (List (Doc σ)) :=
  match d with
  | .arr l => .ok l
  | d => .error (.deser (B.notSeq d))

/-- `expect_map`, then the members. (detail/serialization.hpp:821-825) -/
def members (B : Backend σ) (d : Doc σ) : Res (List (Str × Doc σ)) :=
  match d with
  | .obj ms => .ok ms
  | d => .error (.deser (B.notMap d))

/-- `kl::from_string` (enum_reflector.hpp:119-132) on bytes. -/
def fromText (entries : List Entry) (s : Str) : Option Int :=
  entries.foldl (fun ret p => if ret.isNone && s == txt p.name then some p.value else ret) none

/-- detail/serialization.hpp:1040-1061 `deserialize_adl` of a reflected enum. -/
def deserEnum (B : Backend σ) (e : EnumTy) (d : Doc σ) : Res Int :=
  match B.deserLeaf .str d with
  | .error x => .error x
  | .ok (.str s) =>
    match fromText e.entries s with
    | some n => .ok n
    | none => .error (.deser (txt "invalid enum value: " ++ s))
  | .ok _ => .error .stuck

/-- detail/serialization.hpp:1064-1076: the loop of an `enum_set`. -/
def deserSet (B : Backend σ) (e : EnumTy) : List (Doc σ) → EnumSet e.under.signed e.under.w →
    Res (EnumSet e.under.signed e.under.w)
  | [], out => .ok out
  | d :: ds, out =>
    match deserEnum B e d with
    | .error x => .error x
    | .ok n => deserSet B e ds (out.orAssignE (BitVec.ofInt e.under.w n))

/-- detail/serialization.hpp:857-871: the loop over the elements of a growable range; `i` is `out.size()`. -/
def deserItems (deser : Doc σ → Res Value) : Nat → List (Doc σ) → Res (List Value)
  | _, [] => .ok []
  | i, d :: ds =>
    match note (txt "error when deserializing element " ++ numText i) (deser d) with
    | .error e => .error e
    | .ok v => (deserItems deser (i + 1) ds).map fun vs => v :: vs

/-- detail/serialization.hpp:883-897: the loop over the elements of a fixed size range. -/
def deserFixed (deser : Value → Doc σ → Res Value) (l : List (Doc σ)) : Nat → List Value → Res (List Value)
  | _, [] => .ok []
  | i, old :: olds =>
    match note (txt "error when deserializing element " ++ numText i) (deser old (atIndex l i)) with
    | .error e => .error e
    | .ok v => (deserFixed deser l (i + 1) olds).map fun vs => v :: vs

/-- detail/serialization.hpp:825-842: the loop over the members of a map. -/
def deserEntries (deser : Doc σ → Res Value) :
    List (Str × Doc σ) → List (Str × Value) → Res (List (Str × Value))
  | [], out => .ok out
  | (k, d) :: ms, out =>
    match note (txt "error when deserializing field " ++ k) (deser d) with
    | .error e => .error e
    | .ok v => deserEntries deser ms (emplace out k v)

/-- detail/serialization.hpp:925-947: the loop that collects the extra fields. -/
def deserExtraEntries (deser : Doc σ → Res Value) (reserved : List Str) :
    List (Str × Doc σ) → List (Str × Value) → Res (List (Str × Value))
  | [], out => .ok out
  | (k, d) :: ms, out =>
    if reserved.contains k then deserExtraEntries deser reserved ms out
    else
      match note (txt "error when deserializing extra field " ++ k) (deser d) with
      | .error e => .error e
      | .ok v => deserExtraEntries deser reserved ms (emplace out k v)

/-- detail/serialization.hpp:490-500 `sequence_deserializable_field_count`. -/
def seqFieldCount : Fields → Nat
  | .nil => 0
  | .cons f _ fs => (if f.skipDeser then 0 else 1) + seqFieldCount fs

/-- detail/serialization.hpp:969-977, 1203-1204 (in patch): `deserialize`, then `validate_field`. -/
def thenValidate (E : Env) (f : Field) (r : Res Value) : Res Value :=
  match r with
  | .error e => .error e
  | .ok v =>
    match validateField E v f.validators with
    | .error e => .error e
    | .ok () => .ok v

/-- detail/serialization.hpp:958-976: a field that is neither extra nor flattened; `deser` reads it. -/
def readPlain (E : Env) (f : Field) (ms : List (Str × Doc σ)) (old : Value) (deser : Doc σ → Res Value) :
    Res Value :=
  match resolveName ms f with
  | none =>
    match missingPolicy f old with
    | some v => .ok v
    | none => thenValidate E f (deser (atField ms f.key))
  | some name =>
    match (if (atField ms name).isNull then applyDefault f else none) with
    | some v => .ok v
    | none => thenValidate E f (deser (atField ms name))

/-- detail/serialization.hpp:981 the message. -/
def fieldMsg (f : Field) : Str := txt "error when deserializing field " ++ f.name

/-- `sizeof...(Ts)`, detail/serialization.hpp:1094. -/
def Tys.length : Tys → Nat
  | .nil => 0
  | .cons _ ts => ts.length + 1

/-- detail/serialization.hpp:1095 the message. -/
def tooLong (pair : Bool) : Str :=
  if pair then txt "sequence size is greater than pair field count"
  else txt "sequence size is greater than declared tuple field count"

mutual
/-- detail/serialization.hpp:816-1118 `deserialize_adl`. -/
def deser (B : Backend σ) (E : Env) : Ty → Value → Doc σ → Res Value
  | .leaf l, _, d => (B.deserLeaf l d).map .atom
  | .enum e, _, d => (deserEnum B e d).map fun n => .atom (.int n)
  | .rawEnum t, _, d => (B.deserLeaf (.int t) d).map .atom
  | .enumSet e, _, d =>
    match elements B d with
    | .error x => .error x
    | .ok l => (deserSet B e l .empty).map fun s => .bits s.value.toNat
  | .opt t, _, d =>
    if d.isNull then .ok (.opt none)
    else (deser B E t (fresh t) d).map fun v => .opt (some v)
  | .vec t, _, d =>
    match elements B d with
    | .error x => .error x
    | .ok l => (deserItems (deser B E t (fresh t)) 0 l).map .seq
  | .arr _ t, old, d =>
    match elements B d with
    | .error x => .error x
    | .ok l =>
      match old with
      | .seq olds =>
        if olds.length < l.length then
          .error (.deser (txt "sequence size is greater than declared range field count"))
        else (deserFixed (deser B E t) l 0 olds).map .seq
      | _ => .error .stuck
  | .map t, _, d =>
    match members B d with
    | .error x => .error x
    | .ok ms => (deserEntries (deser B E t (fresh t)) ms []).map .map
  | .tuple pair ts, old, d =>
    match elements B d with
    | .error x => .error x
    | .ok l =>
      if ts.length < l.length then .error (.deser (tooLong pair))
      else
        match old with
        | .seq olds => (deserTuple B E l ts 0 olds).map .seq
        | _ => .error .stuck
  | .record name fs, old, d =>
    note (txt "error when deserializing type " ++ name)
      (match old with
      | .record olds =>
        match d with
        | .obj ms =>
          match reservedNames fs with
          | .error e => .error e
          | .ok reserved => (deserFields B E reserved ms fs olds).map .record
        | .arr l =>
          if seqFieldCount fs < l.length then
            .error (.deser (txt "sequence size is greater than declared struct's field count"))
          else (deserSeqFields B E l fs 0 olds).map .record
        | d => .error (.deser (txt "type must be a sequence or map but is a " ++ B.typeName d))
      | _ => .error .stuck)
/-- detail/serialization.hpp:1080-1085 `deserialize_tuple`. -/
def deserTuple (B : Backend σ) (E : Env) (l : List (Doc σ)) : Tys → Nat → List Value → Res (List Value)
  | .nil, _, olds =>
    match olds with
    | [] => .ok []
    | _ => .error .stuck
  | .cons t ts, i, olds =>
    match olds with
    | old :: olds =>
      match deser B E t old (atIndex l i) with
      | .error e => .error e
      | .ok v => (deserTuple B E l ts (i + 1) olds).map fun vs => v :: vs
    | [] => .error .stuck
/-- detail/serialization.hpp:913-988: the fields of a record from the members of a map. -/
def deserFields (B : Backend σ) (E : Env) (reserved : Option (List Str)) (ms : List (Str × Doc σ)) :
    Fields → List Value → Res (List Value)
  | .nil, olds =>
    match olds with
    | [] => .ok []
    | _ => .error .stuck
  | .cons f t fs, olds =>
    match olds with
    | old :: olds =>
      match (if f.skipDeser then .ok old
        else if f.extra then deserExtras B E reserved ms t
        else
          note (fieldMsg f)
            (if f.flatten then deser B E t old (.obj ms)
            else readPlain E f ms old (deser B E t old)) : Res Value) with
      | .error e => .error e
      | .ok v => (deserFields B E reserved ms fs olds).map fun vs => v :: vs
    | [] => .error .stuck
/-- detail/serialization.hpp:919-949: an `extra_fields` map. -/
def deserExtras (B : Backend σ) (E : Env) (reserved : Option (List Str)) (ms : List (Str × Doc σ)) :
    Ty → Res Value
  | .map t =>
    match reserved with
    | none => .error .stuck
    | some names => (deserExtraEntries (deser B E t (fresh t)) names ms []).map .map
  | _ => .error .stuck
/-- detail/serialization.hpp:995-1026: the fields of a record from the elements of a sequence. -/
def deserSeqFields (B : Backend σ) (E : Env) (l : List (Doc σ)) :
    Fields → Nat → List Value → Res (List Value)
  | .nil, _, olds =>
    match olds with
    | [] => .ok []
    | _ => .error .stuck
  | .cons f t fs, i, olds =>
    match olds with
    | old :: olds =>
      if f.skipDeser then (deserSeqFields B E l fs i olds).map fun vs => old :: vs
      else
        match note (txt "error when deserializing element " ++ numText i)
          (if f.extra then
            .error (.deser (txt "extra_fields fields are not supported in sequence deserialization"))
          else if f.flatten then
            .error (.deser (txt "flatten fields are not supported in sequence deserialization"))
          else thenValidate E f (deser B E t old (atIndex l i))) with
        | .error e => .error e
        | .ok v => (deserSeqFields B E l fs (i + 1) olds).map fun vs => v :: vs
    | [] => .error .stuck
end

/-! ### patch -/

/-- `extras.find(key)`. (detail/serialization.hpp:1124-1220) -/
def lookup {α : Type} (es : List (Str × α)) (k : Str) : Option α :=
  match es with
  | [] => none
  | e :: rest => if e.1 = k then some e.2 else lookup rest k

/-- Assigns to the entry `extras.find(key)` points to. (detail/serialization.hpp:1124-1220) -/
def assignEntry {α : Type} (es : List (Str × α)) (k : Str) (v : α) : List (Str × α) :=
  match es with
  | [] => []
  | e :: rest => if e.1 = k then (e.1, v) :: rest else e :: assignEntry rest k v

/-- detail/serialization.hpp:1151-1183: the loop over the members for an `extra_fields` map. -/
def patchExtraEntries (patch : Value → Doc σ → Res Value) (new : Value) (reserved : List Str) :
    List (Str × Doc σ) → List (Str × Value) → Res (List (Str × Value))
  | [], out => .ok out
  | (k, d) :: ms, out =>
    if reserved.contains k then patchExtraEntries patch new reserved ms out
    else
      match lookup out k with
      | some v =>
        match note (txt "error when patching extra field " ++ k) (patch v d) with
        | .error e => .error e
        | .ok v => patchExtraEntries patch new reserved ms (assignEntry out k v)
      | none =>
        match note (txt "error when patching extra field " ++ k) (patch new d) with
        | .error e => .error e
        | .ok v => patchExtraEntries patch new reserved ms (emplace out k v)

/-- detail/serialization.hpp:1195-1204: a field that is neither extra nor flattened; `patch` reads it. -/
def patchPlain (E : Env) (f : Field) (ms : List (Str × Doc σ)) (old : Value) (patch : Doc σ → Res Value) :
    Res Value :=
  match resolveName ms f with
  | none => .ok old
  | some name =>
    match (if (atField ms name).isNull then applyDefault f else none) with
    | some v => .ok v
    | none => thenValidate E f (patch (atField ms name))

mutual
/-- 1120-1242 `patch_adl`; serialization.hpp:132-143: other types fall back to
`deserialize`. -/
def patch (B : Backend σ) (E : Env) : Ty → Value → Doc σ → Res Value
  | .record name fs, old, d =>
    note (txt "error when patching type " ++ name)
      (match d with
      | .obj ms =>
        match reservedNames fs with
        | .error e => .error e
        | .ok reserved =>
          match old with
          | .record olds => (patchFields B E reserved ms fs olds).map .record
          | _ => .error .stuck
      | d => deser B E (.record name fs) old d)
  | .opt t, old, d =>
    if d.isNull then .ok (.opt none)
    else
      match old with
      | .opt (some v) => (patch B E t v d).map fun v => .opt (some v)
      | .opt none => (patch B E t (fresh t) d).map fun v => .opt (some v)
      | _ => .error .stuck
  | t, old, d => deser B E t old d
/-- detail/serialization.hpp:1139-1213: the fields. -/
def patchFields (B : Backend σ) (E : Env) (reserved : Option (List Str)) (ms : List (Str × Doc σ)) :
    Fields → List Value → Res (List Value)
  | .nil, olds =>
    match olds with
    | [] => .ok []
    | _ => .error .stuck
  | .cons f t fs, olds =>
    match olds with
    | old :: olds =>
      match (if f.skipDeser then .ok old
        else if f.extra then patchExtras B E reserved ms t old
        else
          note (txt "error when patching field " ++ f.name)
            (if f.flatten then patch B E t old (.obj ms)
            else patchPlain E f ms old (patch B E t old)) : Res Value) with
      | .error e => .error e
      | .ok v => (patchFields B E reserved ms fs olds).map fun vs => v :: vs
    | [] => .error .stuck
/-- detail/serialization.hpp:1146-1184: an `extra_fields` map. -/
def patchExtras (B : Backend σ) (E : Env) (reserved : Option (List Str)) (ms : List (Str × Doc σ)) :
    Ty → Value → Res Value
  | .map t, old =>
    match reserved, old with
    | some names, .map es =>
      (patchExtraEntries (patch B E t) (fresh t) names ms es).map .map
    | _, _ => .error .stuck
  | _, _ => .error .stuck
end

end Verif.Serial
