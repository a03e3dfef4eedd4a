import Verif.Path.Model
/-
What memory the documents made by `json.hpp`, and the objects read from them, refer to.

A string in a `rapidjson::Value` is a pointer to characters somewhere else, a copy in the
memory of an allocator, or, if it is short, part of the value.  The elements of arrays and
objects are in the memory of an allocator; the root is in the `Document`.

* An object is a tree `Val`: its shape stands for its type.  `sv` is a `string_view` or a
  `const char*`, `sref` a `rapidjson::Value::StringRefType`.
* Attributes of fields are left out except `flatten`, `extra_fields`, `skip_serialization` and
  `allow_missing`; what they decide is in `Verif.Serial`.  So are collisions of names.
* Documents are not changed after they are made; they can be moved and destroyed.  A document
  that was moved from does not hold its value any more.
* Using memory that is gone is undefined behaviour (`none`, `Out.ub`).
* rapidjson itself is not part of the repository: `copyStr`, `copyDoc` and `own` are what its
  constructors do.
-/
namespace Verif.Lifetime
open Verif.Path

/-- Where characters and values can be. (json.hpp:41-57, 137-141, 844-867) -/
inductive Mem
  | static
  /-- memory of an allocator -/
  | pool (a : Nat)
  /-- a string of the user -/
  | buf (b : Nat)
  /-- a `rapidjson::Document` -/
  | object (d : Nat)
  deriving DecidableEq, Repr

/-- A string in a `rapidjson::Value`. (json.hpp:450-458, 642-667) -/
inductive JStr
  /-- a pointer, not copied -/
  | const (m : Mem) (s : Str)
  /-- a copy made by allocator `a` -/
  | copied (a : Nat) (s : Str)
  /-- inside the value -/
  | short (s : Str)
  deriving DecidableEq, Repr

mutual
/-- A `rapidjson::Value`; arrays and objects keep their elements in memory of allocator `a`.
(json.hpp:443-458, 844-867) -/
inductive Doc
  | null
  | num (n : Int)
  | str (s : JStr)
  | arr (a : Nat) (l : Docs)
  | obj (a : Nat) (ms : Mems)
/-- The elements of an array, json.hpp:443-458. -/
inductive Docs
  | nil
  | cons (d : Doc) (l : Docs)
/-- The members of an object, json.hpp:443-458. -/
inductive Mems
  | nil
  | cons (k : JStr) (d : Doc) (ms : Mems)
end

mutual
/-- What a document says. (the text at json.hpp:860-867) -/
inductive Plain
  | null
  | num (n : Int)
  | str (s : Str)
  | arr (l : Plains)
  | obj (ms : PMems)
/-- The elements of an array, json.hpp:860-867. -/
inductive Plains
  | nil
  | cons (d : Plain) (l : Plains)
/-- The members of an object, json.hpp:860-867. -/
inductive PMems
  | nil
  | cons (k : Str) (d : Plain) (ms : PMems)
end

/-- json.hpp:41-57 what a `json::view` points to: `get_null_value()` (137-141), a document, or
a value below it. -/
inductive Loc
  | null
  | root (d : Nat)
  | node (a : Nat) (path : List Nat)
  deriving DecidableEq, Repr

/-- The key of a map: `std::string`, `const char*` or `string_view`. (json.hpp:443-458) -/
inductive Key
  | own (s : Str)
  | cstr (m : Mem) (s : Str)
  | sv (m : Mem) (s : Str)
  deriving DecidableEq, Repr

/-- serialization_attributes.hpp: `flatten`, `extra_fields`, `skip_serialization`. -/
inductive Kind
  | plain
  | flatten
  | extra
  | skip
  deriving DecidableEq, Repr

mutual
/-- An object.  `view none` is a default constructed `json::view`. (json.hpp:543-667) -/
inductive Val
  /-- an empty `std::optional` -/
  | none
  | num (n : Int)
  /-- `std::string` -/
  | str (s : Str)
  | sv (m : Mem) (s : Str)
  | sref (m : Mem) (s : Str)
  | view (l : Option Loc)
  | seq (l : Vals)
  | map (es : Ents)
  | record (fs : Flds)
/-- The elements of a range, detail/serialization.hpp:735-744. -/
inductive Vals
  | nil
  | cons (v : Val) (l : Vals)
/-- The entries of a map, detail/serialization.hpp:719-733. -/
inductive Ents
  | nil
  | cons (k : Key) (v : Val) (es : Ents)
/-- The fields of a struct, detail/serialization.hpp:569-612. -/
inductive Flds
  | nil
  | cons (name : Str) (kind : Kind) (v : Val) (fs : Flds)
end

/-- What a `Document` holds. (json.hpp:844-867) -/
inductive Status
  | intact
  | moved
  | destroyed
  deriving DecidableEq, Repr

/-- A `rapidjson::Document`: its allocator and its root. (json.hpp:844-867) -/
structure Document where
  alloc : Nat
  root : Doc
  status : Status

/-- `short` is the size up to which rapidjson keeps a string inside the value.
(json.hpp:642-659 for `short`, 844-867) -/
structure World where
  short : Nat
  docs : List Document
  pools : Nat
  bufs : List (Option Str)
  objs : List Val

/-! ### Memory -/

/-- The memory of an allocator lives as long as the document that has it (json.hpp:847, 862: each
`rapidjson::Document` is made with its own allocator). -/
def poolLive (w : World) (a : Nat) : Bool :=
  w.docs.any fun d => d.alloc == a && d.status == .intact

/-- A document that was not moved from or destroyed (json.hpp:844-867). -/
def intact (w : World) (d : Nat) : Bool :=
  match w.docs[d]? with
  | some x => x.status == .intact
  | none => false

/-- Memory that can be used; json.hpp:137-141 the null value is static. -/
def live (w : World) : Mem → Bool
  | .static => true
  | .pool a => poolLive w a
  | .buf b => match w.bufs[b]? with | some (some _) => true | _ => false
  | .object d => intact w d

/-- A string that is in the value at `at_`. (json.hpp:739-756) -/
def JStr.mem (at_ : Mem) : JStr → Mem
  | .const m _ => m
  | .copied a _ => .pool a
  | .short _ => at_

/-- The characters, as json.hpp:743, 755 read them. -/
def JStr.text : JStr → Str
  | .const _ s => s
  | .copied _ s => s
  | .short s => s

mutual
/-- The memory a traversal of the value at `at_` uses. (json.hpp:630-634) -/
def Doc.mems (at_ : Mem) : Doc → List Mem
  | .null => [at_]
  | .num _ => [at_]
  | .str s => [at_, s.mem at_]
  | .arr a l => at_ :: l.mems a
  | .obj a ms => at_ :: ms.mems a
/-- json.hpp:630-634, the elements. -/
def Docs.mems (a : Nat) : Docs → List Mem
  | .nil => []
  | .cons d l => d.mems (.pool a) ++ l.mems a
/-- json.hpp:630-634, the members. -/
def Mems.mems (a : Nat) : Mems → List Mem
  | .nil => []
  | .cons k d ms => .pool a :: k.mem (.pool a) :: (d.mems (.pool a) ++ ms.mems a)
end

/-! ### rapidjson -/

/-- rapidjson `Value{s, length, allocator}`, used at json.hpp:450-458, 642-659. -/
def copyStr (short a : Nat) (s : Str) : JStr := if s.length ≤ short then .short s else .copied a s

/-- The copy of a string in `Value{rhs, allocator}`: constant strings are not copied. (json.hpp:630-634) -/
def copyJStr (short a : Nat) : JStr → JStr
  | .const m s => .const m s
  | .copied _ s => copyStr short a s
  | .short s => copyStr short a s

mutual
/-- rapidjson `Value{rhs, allocator}`, used at json.hpp:630-634. -/
def copyDoc (short a : Nat) : Doc → Doc
  | .null => .null
  | .num n => .num n
  | .str s => .str (copyJStr short a s)
  | .arr _ l => .arr a (copyDocs short a l)
  | .obj _ ms => .obj a (copyMems short a ms)
/-- json.hpp:630-634, the elements. -/
def copyDocs (short a : Nat) : Docs → Docs
  | .nil => .nil
  | .cons d l => .cons (copyDoc short a d) (copyDocs short a l)
/-- json.hpp:630-634, the members. -/
def copyMems (short a : Nat) : Mems → Mems
  | .nil => .nil
  | .cons k d ms => .cons (copyJStr short a k) (copyDoc short a d) (copyMems short a ms)
end

mutual
/-- `Document::Parse`: all strings are copied. (json.hpp:860-867) -/
def own (short a : Nat) : Plain → Doc
  | .null => .null
  | .num n => .num n
  | .str s => .str (copyStr short a s)
  | .arr l => .arr a (owns short a l)
  | .obj ms => .obj a (ownMems short a ms)
/-- json.hpp:860-867, the elements. -/
def owns (short a : Nat) : Plains → Docs
  | .nil => .nil
  | .cons d l => .cons (own short a d) (owns short a l)
/-- json.hpp:860-867, the members. -/
def ownMems (short a : Nat) : PMems → Mems
  | .nil => .nil
  | .cons k d ms => .cons (copyStr short a k) (own short a d) (ownMems short a ms)
end

/-- json.hpp:443-458 `AddMember`, one after the other. -/
def Mems.append : Mems → Mems → Mems
  | .nil, r => r
  | .cons k d ms, r => .cons k d (ms.append r)

/-! ### Views -/

/-- json.hpp:150-155 `at`, 500 `at_index`. -/
def Docs.get? : Docs → Nat → Option Doc
  | .nil, _ => none
  | .cons d _, 0 => some d
  | .cons _ l, n + 1 => l.get? n

/-- json.hpp:157-164 `at`, 495 `at_field`. -/
def Mems.get? : Mems → Nat → Option Doc
  | .nil, _ => none
  | .cons _ d _, 0 => some d
  | .cons _ _ ms, n + 1 => ms.get? n

/-- The value at a path below a value, by json.hpp:150-164. -/
def Doc.follow : Doc → List Nat → Option Doc
  | d, [] => some d
  | .arr _ l, i :: p => match l.get? i with | some d => d.follow p | none => none
  | .obj _ ms, i :: p => match ms.get? i with | some d => d.follow p | none => none
  | _, _ :: _ => none

/-- json.hpp:56 where `view::value_` points. -/
def Loc.mem : Loc → Mem
  | .null => .static
  | .root d => .object d
  | .node a _ => .pool a

/-- The document whose allocator is `a` (json.hpp:847). -/
def owner (w : World) (a : Nat) : Option Document :=
  w.docs.find? fun d => d.alloc == a && d.status == .intact

/-- json.hpp:47 `view::value`. -/
def deref (w : World) : Loc → Option Doc
  | .null => some .null
  | .root d =>
    match w.docs[d]? with
    | some x => if x.status == .intact then some x.root else none
    | none => none
  | .node a p =>
    match owner w a with
    | some x => x.root.follow p
    | none => none

/-! ### serialize -/

/-- serialization_fwd.hpp:16-33 `is_null_value`. -/
def isNull : Val → Bool
  | .none => true
  | _ => false

/-- Characters of a `string_view`, `const char*` or `StringRefType` are read: json.hpp:648-659, 621-628. -/
def readStr (w : World) (m : Mem) (s : Str) : Option Str := if live w m then some s else none

/-- json.hpp:443-458 `add_field`: `const char*` keys are not copied.  There is none for
`string_view`s, see `Val.compiles`. -/
def keyStr (w : World) (a : Nat) : Key → Option JStr
  | .own s => some (copyStr w.short a s)
  | .cstr m s => (readStr w m s).map fun s => .const m s
  | .sv _ _ => none

/-- The members of one field, then those of the others: detail/serialization.hpp:569-612. -/
def joinMems : Option Mems → Option Mems → Option Mems
  | some l, some r => some (l.append r)
  | _, _ => none

mutual
/-- json.hpp:611-667 and detail/serialization.hpp:719-815 `serialize_adl` with a context over
allocator `a`. -/
def ser (w : World) (a : Nat) (skipNull : Bool) : Val → Option Doc
  | .none => some .null
  | .num n => some (.num n)
  | .str s => some (.str (copyStr w.short a s))
  | .sv m s => (readStr w m s).map fun s => .str (copyStr w.short a s)
  -- 621-628: constructed from the reference
  | .sref m s => (readStr w m s).map fun s => .str (.const m s)
  -- 630-634
  | .view none => none
  | .view (some l) =>
    match deref w l with
    | some d => if (d.mems l.mem).all (live w) then some (copyDoc w.short a d) else none
    | none => none
  | .seq l => (sers w a skipNull l).map fun l => .arr a l
  | .map es => (serEnts w a skipNull es).map fun ms => .obj a ms
  | .record fs => (serFlds w a skipNull fs).map fun ms => .obj a ms
/-- detail/serialization.hpp:735-744 the elements of a range. -/
def sers (w : World) (a : Nat) (skipNull : Bool) : Vals → Option Docs
  | .nil => some .nil
  | .cons v l =>
    match ser w a skipNull v with
    | none => none
    | some d => (sers w a skipNull l).map fun l => .cons d l
/-- detail/serialization.hpp:719-733, 584-597: maps and extra fields. -/
def serEnts (w : World) (a : Nat) (skipNull : Bool) : Ents → Option Mems
  | .nil => some .nil
  | .cons k v es =>
    if skipNull && isNull v then serEnts w a skipNull es
    else
      match keyStr w a k, ser w a skipNull v with
      | some k, some d => (serEnts w a skipNull es).map fun ms => .cons k d ms
      | _, _ => none
/-- detail/serialization.hpp:569-612 `add_reflected_fields`.  Names of fields are literals. -/
def serFlds (w : World) (a : Nat) (skipNull : Bool) : Flds → Option Mems
  | .nil => some .nil
  | .cons name kind v fs =>
    joinMems
      (if skipNull && isNull v then some .nil
        else match kind with
          | .skip => some .nil
          | .extra => serExtra w a skipNull v
          | .flatten => serFlat w a skipNull v
          | .plain => (ser w a skipNull v).map fun d => .cons (.const .static name) d .nil)
      (serFlds w a skipNull fs)
/-- detail/serialization.hpp:584-597 `extra_fields`. -/
def serExtra (w : World) (a : Nat) (skipNull : Bool) : Val → Option Mems
  | .map es => serEnts w a skipNull es
  | _ => none
/-- detail/serialization.hpp:598-612 `flatten`. -/
def serFlat (w : World) (a : Nat) (skipNull : Bool) : Val → Option Mems
  | .record fs => serFlds w a skipNull fs
  | _ => none
end

/-! ### deserialize -/

mutual
/-- Types of objects, those detail/serialization.hpp:817-1040 and json.hpp:669-762 have overloads for. -/
inductive Ty
  | num
  | str
  | sv
  | view
  | opt (t : Ty)
  | vec (t : Ty)
  /-- keys are `string_view`s or `std::string`s -/
  | map (borrow : Bool) (t : Ty)
  | record (fs : TFlds)
/-- The fields of a struct, detail/serialization.hpp:900-985. -/
inductive TFlds
  | nil
  | cons (name : Str) (kind : Kind) (allowMissing : Bool) (t : Ty) (fs : TFlds)
end

mutual
/-- `T{}`, detail/serialization.hpp:850, 831. -/
def fresh : Ty → Val
  | .num => .num 0
  | .str => .str []
  | .sv => .sv .static []
  | .view => .view none
  | .opt _ => .none
  | .vec _ => .seq .nil
  | .map _ _ => .map .nil
  | .record fs => .record (freshFlds fs)
/-- detail/serialization.hpp:831, 860: the fields of `T{}`. -/
def freshFlds : TFlds → Flds
  | .nil => .nil
  | .cons n k _ t fs => .cons n k (fresh t) (freshFlds fs)
end

/-- A member and its location, json.hpp:157-164 `at`, 495 `at_field`. -/
def findMem (a : Nat) (p : List Nat) (name : Str) : Mems → Nat → Option (Loc × Doc)
  | .nil, _ => none
  | .cons k d ms, i =>
    if k.text = name then some (.node a (p ++ [i]), d) else findMem a p name ms (i + 1)

/-- The path of a value below the root, for `json::view` (json.hpp:56). -/
def Loc.path : Loc → List Nat
  | .node _ p => p
  | _ => []

/-- detail/serialization.hpp:845-870 `deserialize_adl` of a growable range in allocator `a`;
`f` reads an element. -/
def deserVec (f : Loc → Doc → Option Val) (a : Nat) (p : List Nat) : Docs → Nat → Option Vals
  | .nil, _ => some .nil
  | .cons d ds, i =>
    match f (.node a (p ++ [i])) d with
    | none => none
    | some v => (deserVec f a p ds (i + 1)).map fun r => .cons v r

/-- detail/serialization.hpp:817-843 `deserialize_adl` of a map, and 918-953 extra fields, which
leave out the names `except`.  Members with equal names are all kept here. -/
def deserMap (f : Loc → Doc → Option Val) (a : Nat) (p : List Nat) (borrow : Bool) (except : List Str) :
    Mems → Nat → Option Ents
  | .nil, _ => some .nil
  | .cons k d ms, i =>
    if except.contains k.text then deserMap f a p borrow except ms (i + 1)
    else
      match f (.node a (p ++ [i])) d with
      | none => none
      | some v =>
        (deserMap f a p borrow except ms (i + 1)).map fun r =>
          .cons (if borrow then .sv (k.mem (.pool a)) k.text else .own k.text) v r

mutual
/-- detail/serialization.hpp:462-488 `reserved_field_names`. -/
def reserved : TFlds → List Str
  | .nil => []
  | .cons n .plain _ _ fs => n :: reserved fs
  | .cons n .skip _ _ fs => n :: reserved fs
  | .cons _ .extra _ _ fs => reserved fs
  | .cons _ .flatten _ t fs => reservedTy t ++ reserved fs
/-- detail/serialization.hpp:431-437 the names of a flattened field. -/
def reservedTy : Ty → List Str
  | .record fs => reserved fs
  | _ => []
end

mutual
/-- json.hpp:669-762 and detail/serialization.hpp:817-1040 `deserialize_adl` of the value at
`l`; `none` is an exception.  A record is read from an object only. -/
def deser : Ty → Loc → Doc → Option Val
  | .num, _, d => match d with | .num n => some (.num n) | _ => none
  -- 739-744
  | .str, _, d => match d with | .str s => some (.str s.text) | _ => none
  -- 746-756
  | .sv, l, d => match d with | .str s => some (.sv (s.mem l.mem) s.text) | _ => none
  -- 758-762
  | .view, l, _ => some (.view (some l))
  | .opt t, l, d => match d with | .null => some .none | d => deser t l d
  | .vec t, l, d =>
    match d with
    | .arr a ds => (deserVec (deser t) a l.path ds 0).map .seq
    | _ => none
  | .map borrow t, l, d =>
    match d with
    | .obj a ms => (deserMap (deser t) a l.path borrow [] ms 0).map .map
    | _ => none
  | .record fs, l, d =>
    match d with
    | .obj a ms => (deserFlds (reserved fs) fs a l ms).map .record
    | _ => none
/-- detail/serialization.hpp:900-985 for the object at `l` with the members `ms`. -/
def deserFlds (except : List Str) : TFlds → Nat → Loc → Mems → Option Flds
  | .nil, _, _, _ => some .nil
  | .cons name kind miss t fs, a, l, ms =>
    match (match kind with
      | .extra => deserExtra except t a l ms
      | .flatten => deserFlat t a l ms
      | _ =>
        match findMem a l.path name ms 0 with
        | some (l', d') => deser t l' d'
        -- json.hpp:495-498, 160-164: the null value
        | none => if miss then some (fresh t) else deser t .null .null) with
    | none => none
    | some v => (deserFlds except fs a l ms).map fun r => .cons name kind v r
/-- detail/serialization.hpp:918-953, 117-136. -/
def deserExtra (except : List Str) : Ty → Nat → Loc → Mems → Option Val
  | .map _ t, a, l, ms => (deserMap (deser t) a l.path false except ms 0).map .map
  | _, _, _, _ => none
/-- detail/serialization.hpp:957-961, 106-116. -/
def deserFlat : Ty → Nat → Loc → Mems → Option Val
  | .record fs, a, l, ms => (deserFlds (reserved fs) fs a l ms).map .record
  | _, _, _, _ => none
end

/-! ### Programs -/

/-- json.hpp:197-254 a call of `object_builder`: `add` with a `string_view`, or
`add_dynamic_name`; with an object. -/
structure Member where
  dynamic : Bool
  mem : Mem
  name : Str
  obj : Nat

/-- json.hpp:207-240. -/
def memberName (w : World) (a : Nat) (m : Member) : Option JStr :=
  (readStr w m.mem m.name).map fun s => if m.dynamic then copyStr w.short a s else .const m.mem s

/-- Calls of an `object_builder`, json.hpp:205-240. -/
def build (w : World) (a : Nat) (skipNull : Bool) : List Member → Option Mems
  | [] => some .nil
  | m :: rest =>
    match w.objs[m.obj]? with
    | none => none
    | some v =>
      match memberName w a m, ser w a skipNull v with
      | some k, some d => (build w a skipNull rest).map fun ms => .cons k d ms
      | _, _ => none

/-- json.hpp:443-458: what a key refers to. -/
def Key.mems : Key → List Mem
  | .own _ => []
  | .cstr m _ => [m]
  | .sv m _ => [m]

mutual
/-- The memory an object refers to: `json::view` (json.hpp:41-57), `string_view`s and `StringRefType`s. -/
def Val.mems : Val → List Mem
  | .none => []
  | .num _ => []
  | .str _ => []
  | .sv m _ => [m]
  | .sref m _ => [m]
  | .view none => []
  | .view (some l) => [l.mem]
  | .seq l => l.mems
  | .map es => es.mems
  | .record fs => fs.mems
/-- json.hpp:41-57: what the elements refer to. -/
def Vals.mems : Vals → List Mem
  | .nil => []
  | .cons v l => v.mems ++ l.mems
/-- json.hpp:41-57: what the entries refer to. -/
def Ents.mems : Ents → List Mem
  | .nil => []
  | .cons k v es => k.mems ++ (v.mems ++ es.mems)
/-- json.hpp:41-57: what the fields refer to. -/
def Flds.mems : Flds → List Mem
  | .nil => []
  | .cons _ _ v fs => v.mems ++ fs.mems
end

mutual
/-- The type of the object can be serialized: json.hpp:443-458 has no `add_field` for a
`string_view`; detail/serialization.hpp:106-136 `flatten` and `extra_fields` want a record and a map. -/
def Val.compiles : Val → Bool
  | .seq l => l.compiles
  | .map es => es.compiles
  | .record fs => fs.compiles
  | _ => true
/-- detail/serialization.hpp:735-744. -/
def Vals.compiles : Vals → Bool
  | .nil => true
  | .cons v l => v.compiles && l.compiles
/-- json.hpp:443-458 there is no `add_field` for a `string_view`. -/
def Ents.compiles : Ents → Bool
  | .nil => true
  | .cons k v es => (match k with | .sv _ _ => false | _ => true) && v.compiles && es.compiles
/-- detail/serialization.hpp:106-136. -/
def Flds.compiles : Flds → Bool
  | .nil => true
  | .cons _ kind v fs =>
    (match kind, v with
      | .extra, .map _ => true
      | .extra, _ => false
      | .flatten, .record _ => true
      | .flatten, _ => false
      | _, _ => true) && v.compiles && fs.compiles
end

/-- json.hpp:334-338, 844-899 what a program does. -/
inductive Op
  /-- json.hpp:860-867 `parse` -/
  | parse (t : Plain)
  /-- json.hpp:844-852 `serialize(obj)` -/
  | ser (o : Nat) (skipNull : Bool)
  /-- json.hpp:334-338 `to_object(ctx)` with a context over a new document -/
  | build (ms : List Member) (skipNull : Bool)
  /-- json.hpp:882-899 `deserialize<T>(doc)` -/
  | deser (d : Nat) (t : Ty)
  /-- an object made by the user -/
  | object (v : Val)
  /-- a string made by the user -/
  | buf (s : Str)
  | free (b : Nat)
  /-- a document is move constructed -/
  | move (d : Nat)
  | drop (d : Nat)
  /-- a document is traversed -/
  | read (d : Nat)

/-- How an operation (json.hpp:334-338, 844-899) ends. -/
inductive Out
  | ok (w : World)
  /-- an exception -/
  | threw
  | ub
  /-- not possible -/
  | off

/-- A new document with its own allocator, json.hpp:847, 862. -/
def World.addDoc (w : World) (d : Doc) : World :=
  { w with docs := w.docs ++ [⟨w.pools, d, .intact⟩], pools := w.pools + 1 }

/-- A document is moved from or destroyed (after json.hpp:844-867). -/
def World.setDoc (w : World) (d : Nat) (x : Document) : World := { w with docs := w.docs.set d x }

/-- One step of a program over json.hpp:334-338, 844-899. -/
def step (w : World) : Op → Out
  | .parse t => .ok (w.addDoc (own w.short w.pools t))
  | .ser o skipNull =>
    match w.objs[o]? with
    | none => .off
    | some v =>
      if v.compiles then
        match ser w w.pools skipNull v with
        | none => .ub
        | some d => .ok (w.addDoc d)
      else .off
  | .build ms skipNull =>
    if ms.all fun m => match w.objs[m.obj]? with | some v => v.compiles | none => false then
      match build w w.pools skipNull ms with
      | none => .ub
      | some ms => .ok (w.addDoc (.obj w.pools ms))
    else .off
  | .deser d t =>
    match w.docs[d]? with
    | none => .off
    | some x =>
      if x.status = .intact then
        if (x.root.mems (.object d)).all (live w) then
          match deser t (.root d) x.root with
          | none => .threw
          | some v => .ok { w with objs := w.objs ++ [v] }
        else .ub
      else .off
  | .object v => if v.mems.all (live w) then .ok { w with objs := w.objs ++ [v] } else .off
  | .buf s => .ok { w with bufs := w.bufs ++ [some s] }
  | .free b => .ok { w with bufs := w.bufs.set b none }
  | .move d =>
    match w.docs[d]? with
    | none => .off
    | some x =>
      if x.status = .intact then
        .ok { w.setDoc d { x with status := .moved } with
              docs := (w.docs.set d { x with status := .moved }) ++ [x] }
      else .off
  | .drop d =>
    match w.docs[d]? with
    | none => .off
    | some x => if x.status = .destroyed then .off else .ok (w.setDoc d { x with status := .destroyed })
  | .read d =>
    match w.docs[d]? with
    | none => .off
    | some x =>
      if x.status = .intact then
        if (x.root.mems (.object d)).all (live w) then .ok w else .ub
      else .off

end Verif.Lifetime
