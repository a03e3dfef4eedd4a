/-!
Customised serialization: which implementation handles a value, and what comes of it.

`serialization.hpp` picks, for each type, between a member of `serializer<T>`, an overload found by
argument-dependent lookup (ADL) that the user wrote for a backend, and the library's own overload.
The composite overloads of `detail/serialization.hpp` then call the dispatcher again for their parts.
This model attaches the user's customisations to every node of a type and follows those calls.

Left out, here only: attributes other than `flatten`, `extra_fields`, error texts, the previous value of an
object handed to a custom `deserialize`, number widths. `Verif.Serial` covers those for types without
customisations. A result `none` stands for an exception or for a value that does not have the type.
-/

namespace Verif.Custom

/-- A document (`rapidjson::Value` or `YAML::Node`): json.hpp:412 and yaml.hpp:324 (`value_type`). -/
inductive Doc where
  | null
  | num (n : Int)
  | str (s : String)
  | arr (l : List Doc)
  | obj (l : List (String × Doc))

/-- What a writer is told: json.hpp:352-394 (`json_stream_backend`). -/
inductive Ev where
  | null
  | num (n : Int)
  | str (s : String)
  | beginArr
  | endArr
  | beginObj
  | key (s : String)
  | endObj
  deriving DecidableEq

/-- Values of the serialized types. `opq` is a value of a type that the library knows nothing about,
`set` an `enum_set` given by one flag per enumerator. (the objects of detail/serialization.hpp:613-1118) -/
inductive Val where
  | opq (n : Int)
  | num (n : Int)
  | str (s : String)
  | absent
  | present (v : Val)
  | list (vs : List Val)
  | pairs (es : List (String × Val))
  | set (bs : List Bool)

/-- The four functions a user may supply for a type: the members of `serializer<T>`
(serialization.hpp:20-23) or the ADL overloads (serialization.hpp:25-43). -/
structure Impl where
  dump : Option (Val → Option (List Ev)) := none
  write : Option (Val → Option Doc) := none
  read : Option (Doc → Option Val) := none
  patch : Option (Val → Doc → Option Val) := none

/-- Everything a user supplied for a type. `generic` says that the ADL overloads are templates over the
backend's tag (serialization.hpp:36-43) instead of naming it (serialization.hpp:32-34). -/
structure Hooks where
  ser : Impl := {}
  adl : Impl := {}
  generic : Bool := false

/-- How specific a candidate overload is in its tag parameter and in its object parameter.
(serialization.hpp:29-40 against json.hpp:535, 613, 671) -/
structure Cand where
  tag : Bool
  obj : Bool
  deriving DecidableEq

/-- The partial ordering of function templates: at least as specialised in both parameters, and more
specialised in one. (C++ rule [temp.func.order], applied to serialization.hpp:36-43 and json.hpp:535,
613, 671, 767.) -/
def Cand.better (a b : Cand) : Bool :=
  (a.tag || !b.tag) && (a.obj || !b.obj) && a != b

/-- What the dispatcher selected: the user's function, the library's overload, or nothing.
(serialization.hpp:58-124) -/
inductive Sel (α : Type) where
  | custom (f : α)
  | builtin
  | fails

/-- The user's overload: its object parameter names the type (serialization.hpp:32-43). -/
def userCand (generic : Bool) : Cand := { tag := !generic, obj := true }

/-- The library's overload for composite types: its tag parameter names the backend's tag, its object
parameter is a template parameter (json.hpp:535, 613, 671, 767; yaml.hpp:422, 468, 520, 572). -/
def libCand : Cand := { tag := true, obj := false }

/-- Overload resolution of `serialize_adl(tag, obj, ctx)` and its siblings: the candidate better than all
others. Without one the expression is ill-formed, which drops the `priority_tag<1>` overload
(serialization.hpp:69, 93, 118, 143 through json.hpp:778, 789, 796, 803). -/
def resolve {α : Type} (user : Option α) (generic builtin : Bool) : Option (Sel α) :=
  match user, builtin with
  | none, false => none
  | none, true => some .builtin
  | some f, false => some (.custom f)
  | some f, true =>
    if (userCand generic).better libCand then some (.custom f)
    else if libCand.better (userCand generic) then some .builtin
    else none

/-- The three overloads of `detail::dump`, `detail::serialize` and `detail::deserialize` by priority:
`serializer<T>`, then ADL, then a `static_assert` that fails (serialization.hpp:58-124). -/
def select {α : Type} (member user : Option α) (generic builtin : Bool) : Sel α :=
  match member with
  | some f => .custom f
  | none => (resolve user generic builtin).getD .fails

/-- serialization.hpp:58-81 -/
def Hooks.onDump (h : Hooks) (builtin : Bool) : Sel (Val → Option (List Ev)) :=
  select h.ser.dump h.adl.dump h.generic builtin

/-- serialization.hpp:83-104 -/
def Hooks.onWrite (h : Hooks) (builtin : Bool) : Sel (Val → Option Doc) :=
  select h.ser.write h.adl.write h.generic builtin

/-- serialization.hpp:106-127 -/
def Hooks.onRead (h : Hooks) (builtin : Bool) : Sel (Doc → Option Val) :=
  select h.ser.read h.adl.read h.generic builtin

/-- What the dispatcher of `patch` selected; `replace` is the fall-back to `deserialize`.
(serialization.hpp:126-156) -/
inductive PatchSel where
  | custom (f : Val → Doc → Option Val)
  | builtin
  | replace
  | fails

/-- `serializer_patch_compatibility` (detail/serialization.hpp:25-62). -/
def Hooks.patchCompatible (h : Hooks) : Bool := !h.ser.read.isSome || h.ser.patch.isSome

/-- The three overloads of `detail::patch` (serialization.hpp:126-156). -/
def Hooks.onPatch (h : Hooks) (builtin : Bool) : PatchSel :=
  match h.ser.patch with
  | some f => .custom f
  | none =>
    match resolve h.adl.patch h.generic builtin with
    | some (.custom f) => if h.patchCompatible then .custom f else .fails
    | some .builtin => if h.patchCompatible then .builtin else .fails
    | some .fails => .fails
    | none => if h.patchCompatible then .replace else .fails

/-- A reflected field: its serialized name and whether it is flattened (serialization_attributes.hpp). -/
structure Fld where
  name : String
  flat : Bool := false

mutual
/-- Types together with what the user supplied for them. The shapes are those of the overloads in
detail/serialization.hpp:613-815. `opq` is a type that has no overload. A map's key type may have a
`deserialize` of its own. -/
inductive Ty where
  | opq (h : Hooks)
  | num (h : Hooks)
  | str (h : Hooks)
  | enm (h : Hooks) (names : List String)
  | opt (h : Hooks) (t : Ty)
  | seq (h : Hooks) (t : Ty)
  | map (h : Hooks) (key : Option (String → Option String)) (t : Ty)
  | tup (h : Hooks) (ts : Tys)
  | set (h : Hooks) (eh : Hooks) (names : List String)
  | obj (h : Hooks) (fs : Flds)

/-- The types of a tuple: detail/serialization.hpp:685-691, 784-792. -/
inductive Tys where
  | nil
  | cons (t : Ty) (rest : Tys)

/-- The reflected fields of an object: detail/serialization.hpp:529-612. -/
inductive Flds where
  | nil
  | cons (f : Fld) (t : Ty) (rest : Flds)
end

/-- The function selected by the dispatcher; `b` is the library's.
(serialization.hpp:58-124 the call in the selected overload) -/
def Sel.run {α β : Type} (s : Sel (α → Option β)) (b : α → Option β) (x : α) : Option β :=
  match s with
  | .custom f => f x
  | .builtin => b x
  | .fails => none

/-- `is_null_value` (serialization_fwd.hpp:14-32): only an optional can be null. -/
def isNull : Ty → Val → Bool
  | .opt _ _, .absent => true
  | _, _ => false

/-- `kl::to_string` of an enumerator (enum_reflector.hpp); enumerators are numbered in order. -/
def enumText (names : List String) : Val → Option String
  | .num n => if n < 0 then none else names[n.toNat]?
  | _ => none

/-- The numbers of the enumerators in a set, in order: `reflect_enum<Enum>().values()` filtered by
`set.test` (detail/serialization.hpp:766, 675). -/
def members : Nat → List Bool → List Nat
  | _, [] => []
  | i, b :: bs => if b then i :: members (i + 1) bs else members (i + 1) bs

/-- All results or nothing: an exception in one element ends the loop.
(the loops of detail/serialization.hpp:636-645, 737-746, 857-871) -/
def collect {α β : Type} (f : α → Option β) : List α → Option (List β)
  | [] => some []
  | a :: l =>
    match f a with
    | none => none
    | some b =>
      match collect f l with
      | none => none
      | some bs => some (b :: bs)

/-- The entries of a map, without the null ones if those are skipped (detail/serialization.hpp:722-729). -/
def writeEntries (sk : Bool) (t : Ty) (f : Val → Option Doc) :
    List (String × Val) → Option (List (String × Doc))
  | [] => some []
  | (k, v) :: es =>
    if sk && isNull t v then writeEntries sk t f es
    else
      match f v with
      | none => none
      | some d =>
        match writeEntries sk t f es with
        | none => none
        | some ms => some ((k, d) :: ms)

mutual
/-- `serialize` through the dispatcher, for every shape (detail/serialization.hpp:714-815; the simple types
json.hpp:621-666). `sk` is the context's `skip_null_fields`. -/
def write (sk : Bool) : Ty → Val → Option Doc
  | .opq h, v => (h.onWrite false).run (fun _ => none) v
  | .num h, v => (h.onWrite true).run (fun v => match v with | .num n => some (.num n) | _ => none) v
  | .str h, v => (h.onWrite true).run (fun v => match v with | .str s => some (.str s) | _ => none) v
  | .enm h names, v => (h.onWrite true).run (fun v => (enumText names v).map .str) v
  | .opt h t, v =>
    (h.onWrite true).run
      (fun v => match v with | .absent => some .null | .present x => write sk t x | _ => none) v
  | .seq h t, v =>
    (h.onWrite true).run
      (fun v => match v with | .list vs => (collect (write sk t) vs).map .arr | _ => none) v
  | .map h _ t, v =>
    (h.onWrite true).run
      (fun v => match v with | .pairs es => (writeEntries sk t (write sk t) es).map .obj | _ => none) v
  | .tup h ts, v =>
    (h.onWrite true).run (fun v => match v with | .list vs => (writeTys sk ts vs).map .arr | _ => none) v
  | .set h eh names, v =>
    (h.onWrite true).run
      (fun v => match v with
        | .set bs =>
          -- detail/serialization.hpp:770: the enumerator goes through the dispatcher
          (collect (fun i : Nat => (eh.onWrite true).run (fun v => (enumText names v).map .str) (.num i))
            (members 0 bs)).map .arr
        | _ => none) v
  | .obj h fs, v =>
    (h.onWrite true).run (fun v => match v with | .list vs => (writeFlds sk fs vs).map .obj | _ => none) v

/-- `serialize_tuple` (detail/serialization.hpp:778-785). -/
def writeTys (sk : Bool) : Tys → List Val → Option (List Doc)
  | .nil, [] => some []
  | .cons t rest, v :: vs =>
    match write sk t v with
    | none => none
    | some d =>
      match writeTys sk rest vs with
      | none => none
      | some ds => some (d :: ds)
  | _, _ => none

/-- `add_reflected_fields` (detail/serialization.hpp:571-612). -/
def writeFlds (sk : Bool) : Flds → List Val → Option (List (String × Doc))
  | .nil, [] => some []
  | .cons f t rest, v :: vs =>
    if sk && isNull t v then writeFlds sk rest vs
    else
      match f.flat with
      | true =>
        match writeFlat sk t v with
        | none => none
        | some ms =>
          match writeFlds sk rest vs with
          | none => none
          | some rs => some (ms ++ rs)
      | false =>
        match write sk t v with
        | none => none
        | some d =>
          match writeFlds sk rest vs with
          | none => none
          | some rs => some ((f.name, d) :: rs)
  | _, _ => none

/-- The recursion of `add_reflected_fields` into a flattened field: straight to the fields of the nested
object, past the dispatcher (detail/serialization.hpp:597-600). -/
def writeFlat (sk : Bool) : Ty → Val → Option (List (String × Doc))
  | .obj _ fs, .list vs => writeFlds sk fs vs
  | _, _ => none
end

/-- `dump_adl` for maps (detail/serialization.hpp:622-633). -/
def dumpEntries (sk : Bool) (t : Ty) (f : Val → Option (List Ev)) :
    List (String × Val) → Option (List Ev)
  | [] => some []
  | (k, v) :: es =>
    if sk && isNull t v then dumpEntries sk t f es
    else
      match f v with
      | none => none
      | some d =>
        match dumpEntries sk t f es with
        | none => none
        | some ms => some (.key k :: d ++ ms)

/-- `begin_sequence`, the elements, `end_sequence` (detail/serialization.hpp:640-643). -/
def bracketArr (ds : List (List Ev)) : List Ev := .beginArr :: ds.flatten ++ [.endArr]

/-- `begin_map`, the fields, `end_map` (detail/serialization.hpp:653-655). -/
def bracketObj (es : List Ev) : List Ev := .beginObj :: es ++ [.endObj]

mutual
/-- `dump` through the dispatcher, for every shape (detail/serialization.hpp:614-710; the simple types
json.hpp:541-609). -/
def dump (sk : Bool) : Ty → Val → Option (List Ev)
  | .opq h, v => (h.onDump false).run (fun _ => none) v
  | .num h, v => (h.onDump true).run (fun v => match v with | .num n => some [.num n] | _ => none) v
  | .str h, v => (h.onDump true).run (fun v => match v with | .str s => some [.str s] | _ => none) v
  | .enm h names, v => (h.onDump true).run (fun v => (enumText names v).map fun s => [.str s]) v
  | .opt h t, v =>
    (h.onDump true).run
      (fun v => match v with | .absent => some [.null] | .present x => dump sk t x | _ => none) v
  | .seq h t, v =>
    (h.onDump true).run
      (fun v => match v with | .list vs => (collect (dump sk t) vs).map bracketArr | _ => none) v
  | .map h _ t, v =>
    (h.onDump true).run
      (fun v => match v with
        | .pairs es => (dumpEntries sk t (dump sk t) es).map bracketObj
        | _ => none) v
  | .tup h ts, v =>
    (h.onDump true).run (fun v => match v with | .list vs => (dumpTys sk ts vs).map bracketArr | _ => none) v
  | .set h _ names, v =>
    (h.onDump true).run
      (fun v => match v with
        | .set bs =>
          -- detail/serialization.hpp:678: the name is dumped, not the enumerator
          (collect (fun i : Nat => (enumText names (.num i)).map fun s => [Ev.str s]) (members 0 bs)).map
            bracketArr
        | _ => none) v
  | .obj h fs, v =>
    (h.onDump true).run (fun v => match v with | .list vs => (dumpFlds sk fs vs).map bracketObj | _ => none) v

/-- `dump_tuple` (detail/serialization.hpp:685-691). -/
def dumpTys (sk : Bool) : Tys → List Val → Option (List (List Ev))
  | .nil, [] => some []
  | .cons t rest, v :: vs =>
    match dump sk t v with
    | none => none
    | some d =>
      match dumpTys sk rest vs with
      | none => none
      | some ds => some (d :: ds)
  | _, _ => none

/-- `dump_reflected_fields` (detail/serialization.hpp:532-569). -/
def dumpFlds (sk : Bool) : Flds → List Val → Option (List Ev)
  | .nil, [] => some []
  | .cons f t rest, v :: vs =>
    if sk && isNull t v then dumpFlds sk rest vs
    else
      match f.flat with
      | true =>
        match dumpFlat sk t v with
        | none => none
        | some ms =>
          match dumpFlds sk rest vs with
          | none => none
          | some rs => some (ms ++ rs)
      | false =>
        match dump sk t v with
        | none => none
        | some d =>
          match dumpFlds sk rest vs with
          | none => none
          | some rs => some (.key f.name :: d ++ rs)
  | _, _ => none

/-- The recursion of `dump_reflected_fields` into a flattened field (detail/serialization.hpp:558-561). -/
def dumpFlat (sk : Bool) : Ty → Val → Option (List Ev)
  | .obj _ fs, .list vs => dumpFlds sk fs vs
  | _, _ => none
end

/-- `at_field`: the first member of that name, or a null value (json.hpp:505-508, `json::at`). -/
def atField (ms : List (String × Doc)) (name : String) : Doc :=
  match ms with
  | [] => .null
  | (k, d) :: rest => if k = name then d else atField rest name

/-- `at_index`: the element, or a null value (json.hpp:510-513, `json::at`). -/
def atIndex (l : List Doc) (i : Nat) : Doc := (l[i]?).getD .null

/-- `kl::from_string<Enum>` on a text (detail/serialization.hpp:1045-1052). -/
def readEnum (names : List String) : Doc → Option Val
  | .str s => if s ∈ names then some (.num (names.idxOf s)) else none
  | _ => none

/-- One name of a map, through the dispatcher for the key type (detail/serialization.hpp:835-836). -/
def readKey (key : Option (String → Option String)) (k : String) : Option String :=
  match key with
  | none => some k
  | some f => f k

/-- `std::map::emplace` keeps the first value of a key; entries are kept in order of arrival here.
(detail/serialization.hpp:825-842) -/
def emplace (es : List (String × Val)) (k : String) (v : Val) : List (String × Val) :=
  if es.any fun e => e.1 = k then es else es ++ [(k, v)]

/-- The loop over a map's members (detail/serialization.hpp:831-851). -/
def readEntries (key : Option (String → Option String)) (f : Doc → Option Val) :
    List (String × Doc) → List (String × Val) → Option (List (String × Val))
  | [], acc => some acc
  | (k, d) :: ms, acc =>
    match readKey key k with
    | none => none
    | some k' =>
      match f d with
      | none => none
      | some v => readEntries key f ms (emplace acc k' v)

/-- `out |= e` over the elements (detail/serialization.hpp:1070-1074). An enumerator outside of the
reflected ones is beyond this model. -/
def readSet (f : Doc → Option Val) : List Doc → List Bool → Option (List Bool)
  | [], bs => some bs
  | d :: ds, bs =>
    match f d with
    | some (.num n) => if 0 ≤ n ∧ n.toNat < bs.length then readSet f ds (bs.set n.toNat true) else none
    | _ => none

/-- How many types a tuple has. (detail/serialization.hpp:784-792, 1080-1085) -/
def Tys.length : Tys → Nat
  | .nil => 0
  | .cons _ rest => rest.length + 1

/-- `sequence_deserializable_field_count` (detail/serialization.hpp:492-502). -/
def Flds.length : Flds → Nat
  | .nil => 0
  | .cons _ _ rest => rest.length + 1

mutual
/-- `deserialize` through the dispatcher, for every shape (detail/serialization.hpp:819-1117; the simple
types json.hpp:679-761). -/
def read : Ty → Doc → Option Val
  | .opq h, d => (h.onRead false).run (fun _ => none) d
  | .num h, d => (h.onRead true).run (fun d => match d with | .num n => some (.num n) | _ => none) d
  | .str h, d => (h.onRead true).run (fun d => match d with | .str s => some (.str s) | _ => none) d
  | .enm h names, d => (h.onRead true).run (readEnum names) d
  | .opt h t, d =>
    (h.onRead true).run
      (fun d => match d with | .null => some .absent | d => (read t d).map .present) d
  | .seq h t, d =>
    (h.onRead true).run
      (fun d => match d with | .arr l => (collect (read t) l).map .list | _ => none) d
  | .map h key t, d =>
    (h.onRead true).run
      (fun d => match d with | .obj ms => (readEntries key (read t) ms []).map .pairs | _ => none) d
  | .tup h ts, d =>
    (h.onRead true).run
      (fun d => match d with
        | .arr l => if ts.length < l.length then none else (readTys l ts 0).map .list
        | _ => none) d
  | .set h eh names, d =>
    (h.onRead true).run
      (fun d => match d with
        | .arr l =>
          (readSet ((eh.onRead true).run (readEnum names)) l (List.replicate names.length false)).map .set
        | _ => none) d
  | .obj h fs, d =>
    (h.onRead true).run
      (fun d => match d with
        | .obj ms => (readFlds ms fs).map .list
        | .arr l => if fs.length < l.length then none else (readSeqFlds l fs 0).map .list
        | _ => none) d

/-- `deserialize_tuple` (detail/serialization.hpp:1079-1084). -/
def readTys (l : List Doc) : Tys → Nat → Option (List Val)
  | .nil, _ => some []
  | .cons t rest, i =>
    match read t (atIndex l i) with
    | none => none
    | some v =>
      match readTys l rest (i + 1) with
      | none => none
      | some vs => some (v :: vs)

/-- The loop over the fields of an object read from a map (detail/serialization.hpp:908-990). A flattened
field goes through the dispatcher (line 959). -/
def readFlds (ms : List (String × Doc)) : Flds → Option (List Val)
  | .nil => some []
  | .cons f t rest =>
    match read t (if f.flat then .obj ms else atField ms f.name) with
    | none => none
    | some v =>
      match readFlds ms rest with
      | none => none
      | some vs => some (v :: vs)

/-- The loop over the fields of an object read from a sequence (detail/serialization.hpp:1001-1029). -/
def readSeqFlds (l : List Doc) : Flds → Nat → Option (List Val)
  | .nil, _ => some []
  | .cons f t rest, i =>
    if f.flat then none
    else
      match read t (atIndex l i) with
      | none => none
      | some v =>
        match readSeqFlds l rest (i + 1) with
        | none => none
        | some vs => some (v :: vs)
end

mutual
/-- `T{}` (detail/serialization.hpp:825-871, 1100-1118) -/
def fresh : Ty → Val
  | .opq _ => .opq 0
  | .num _ => .num 0
  | .str _ => .str ""
  | .enm _ _ => .num 0
  | .opt _ _ => .absent
  | .seq _ _ => .list []
  | .map _ _ _ => .pairs []
  | .tup _ ts => .list (freshTys ts)
  | .set _ _ names => .set (List.replicate names.length false)
  | .obj _ fs => .list (freshFlds fs)

/-- The components of a tuple's `T{}`. (detail/serialization.hpp:1080-1085) -/
def freshTys : Tys → List Val
  | .nil => []
  | .cons t rest => fresh t :: freshTys rest

/-- The fields of an object's `T{}`, without initialisers of their own. (detail/serialization.hpp:913-988) -/
def freshFlds : Flds → List Val
  | .nil => []
  | .cons _ t rest => fresh t :: freshFlds rest
end

/-- The function selected by the dispatcher of `patch`: `b` is the library's, `r` is `deserialize`.
(serialization.hpp:126-156 the call in the selected overload) -/
def PatchSel.run (s : PatchSel) (b : Val → Doc → Option Val) (r : Doc → Option Val) (v : Val) (d : Doc) :
    Option Val :=
  match s with
  | .custom f => f v d
  | .builtin => b v d
  | .replace => r d
  | .fails => none

/-- `HasMember` (json.hpp:500-503), as used by `resolve_field_name` (detail/serialization.hpp:210-230). -/
def hasField (ms : List (String × Doc)) (name : String) : Bool := ms.any fun m => m.1 = name

mutual
/-- `patch` through the dispatcher; only reflected types and optionals have an overload of `patch_adl`
(detail/serialization.hpp:1121-1243). -/
def patch : Ty → Val → Doc → Option Val
  | .opt h t, v, d =>
    (h.onPatch true).run
      (fun v d => match d with
        | .null => some .absent
        | d =>
          match v with
          | .present x => (patch t x d).map .present
          | .absent => (patch t (fresh t) d).map .present
          | _ => none)
      (read (.opt h t)) v d
  | .obj h fs, v, d =>
    (h.onPatch true).run
      (fun v d => match d with
        | .obj ms =>
          match v with
          | .list vs => (patchFlds ms fs vs).map .list
          | _ => none
        | d => read (.obj h fs) d)
      (read (.obj h fs)) v d
  | .opq h, v, d => (h.onPatch false).run (fun _ _ => none) (read (.opq h)) v d
  | .num h, v, d => (h.onPatch false).run (fun _ _ => none) (read (.num h)) v d
  | .str h, v, d => (h.onPatch false).run (fun _ _ => none) (read (.str h)) v d
  | .enm h names, v, d => (h.onPatch false).run (fun _ _ => none) (read (.enm h names)) v d
  | .seq h t, v, d => (h.onPatch false).run (fun _ _ => none) (read (.seq h t)) v d
  | .map h key t, v, d => (h.onPatch false).run (fun _ _ => none) (read (.map h key t)) v d
  | .tup h ts, v, d => (h.onPatch false).run (fun _ _ => none) (read (.tup h ts)) v d
  | .set h eh names, v, d => (h.onPatch false).run (fun _ _ => none) (read (.set h eh names)) v d

/-- The loop over the fields of an object (detail/serialization.hpp:1139-1210). -/
def patchFlds (ms : List (String × Doc)) : Flds → List Val → Option (List Val)
  | .nil, [] => some []
  | .cons f t rest, v :: vs =>
    match
      (if f.flat then patch t v (.obj ms)
       else if hasField ms f.name then patch t v (atField ms f.name) else some v) with
    | none => none
    | some v' =>
      match patchFlds ms rest vs with
      | none => none
      | some vs' => some (v' :: vs')
  | _, _ => none
end

/-- Whether something was selected at all. (serialization.hpp:58-124) -/
def Sel.ok {α : Type} : Sel α → Bool
  | .fails => false
  | _ => true

/-- What was selected compiles: the user's function is taken to, the library's does if the calls in it do.
(serialization.hpp:58-124 with detail/serialization.hpp:613-1118) -/
def Sel.compiles {α : Type} (s : Sel α) (inner : Bool) : Bool :=
  match s with
  | .custom _ => true
  | .builtin => inner
  | .fails => false

mutual
/-- Whether `deserialize` compiles: no `static_assert` is reached in any function that is instantiated
(serialization.hpp:106-112). -/
def readCompiles : Ty → Bool
  | .opq h => (h.onRead false).ok
  | .num h => (h.onRead true).ok
  | .str h => (h.onRead true).ok
  | .enm h _ => (h.onRead true).ok
  | .opt h t => (h.onRead true).compiles (readCompiles t)
  | .seq h t => (h.onRead true).compiles (readCompiles t)
  | .map h _ t => (h.onRead true).compiles (readCompiles t)
  | .tup h ts => (h.onRead true).compiles (readTysCompile ts)
  | .set h eh _ => (h.onRead true).compiles ((eh.onRead true).ok)
  | .obj h fs => (h.onRead true).compiles (readFldsCompile fs)

/-- The same for the components of a tuple (detail/serialization.hpp:1083). -/
def readTysCompile : Tys → Bool
  | .nil => true
  | .cons t rest => readCompiles t && readTysCompile rest

/-- The same for the fields of an object (detail/serialization.hpp:959, 981). -/
def readFldsCompile : Flds → Bool
  | .nil => true
  | .cons _ t rest => readCompiles t && readFldsCompile rest
end

/-- `patch` where `patch_adl` has no overload in the library: it compiles if the user's function was
selected or the fall-back compiles. (serialization.hpp:126-156) -/
def PatchSel.compiles (s : PatchSel) (builtin replace : Bool) : Bool :=
  match s with
  | .custom _ => true
  | .builtin => builtin
  | .replace => replace
  | .fails => false

mutual
/-- Whether `patch` compiles (serialization.hpp:129-158). The overload for reflected types also
instantiates `deserialize`, for documents that are not maps (detail/serialization.hpp:1131-1135). -/
def patchCompiles : Ty → Bool
  | .opt h t => (h.onPatch true).compiles (patchCompiles t) (readCompiles (.opt h t))
  | .obj h fs =>
    (h.onPatch true).compiles (readCompiles (.obj h fs) && patchFldsCompile fs) (readCompiles (.obj h fs))
  | .opq h => (h.onPatch false).compiles false (readCompiles (.opq h))
  | .num h => (h.onPatch false).compiles false (readCompiles (.num h))
  | .str h => (h.onPatch false).compiles false (readCompiles (.str h))
  | .enm h names => (h.onPatch false).compiles false (readCompiles (.enm h names))
  | .seq h t => (h.onPatch false).compiles false (readCompiles (.seq h t))
  | .map h key t => (h.onPatch false).compiles false (readCompiles (.map h key t))
  | .tup h ts => (h.onPatch false).compiles false (readCompiles (.tup h ts))
  | .set h eh names => (h.onPatch false).compiles false (readCompiles (.set h eh names))

/-- The same for the fields of an object (detail/serialization.hpp:1187, 1198). -/
def patchFldsCompile : Flds → Bool
  | .nil => true
  | .cons _ t rest => patchCompiles t && patchFldsCompile rest
end

end Verif.Custom
