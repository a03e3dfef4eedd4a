import Verif.Tracker.Model
/-
Model of `include/kl/resource_op.hpp`: path navigation, access control, validation with
rollback, and the verbs get/put/post/patch/del.

* A C++ type is a code `Ty`: scalars and strings (`leaf`), `std::optional`, reflected structs,
  map-like types with string keys, and the other ranges (`seq`), whose capabilities (`at`,
  `push_back`/`pop_back`, `erase`) are flags.  Codes are finite; recursive types
  are in Rec.lean.  A value is a tree `Value`; it is of a type if `HasTy` (Spec.lean) holds.
* A reference into the resource is an address: the list of child positions from the root.
* Everything the user supplies is in `Env` and arbitrary: validators (assumed not to modify
  the value they check), serialisation, key comparison and key matching.  All of them may
  throw any exception.
* `path_view` is read by `visit_node` only through `size`, `front` and `drop_front`; `segs`
  reads a whole view this way, and the navigation then works on the list of segments.
* `Err.stuck` is the outcome of what C++ leaves undefined or the type checker excludes.
-/
namespace Verif.Resource
open Verif.Path Verif.Tracker

/-! ### Types and values -/

/-- Attributes of a reflected field, resource_attributes.hpp:5-21, and its
`serialized_name` (serialization.hpp).  `childKeys` are the positions, in the element type,
of the members named by `child_key<Ptr>` attributes. -/
structure Attrs where
  name : Str
  readOnly : Bool := false
  subtreeReadOnly : Bool := false
  childKeys : List Nat := []
  deriving DecidableEq, Repr

/-- What a range type offers; resource_op.hpp:289-329 `is_index_traversable_v` (`at_`),
`is_postable_range_v` (`push`), `is_deletable_range_v` (`erase`). -/
structure SeqKind where
  at_ : Bool
  push : Bool
  erase : Bool
  deriving DecidableEq, Repr

mutual
/-- Type codes.  The number in `leaf` and `record` tells C++ types apart.  Map-like types
carry the flag `is_deletable_range_v`. (resource_op.hpp:289-329: the traits of types) -/
inductive Ty where
  | leaf (id : Nat)
  | opt (t : Ty)
  | record (id : Nat) (fs : Fields)
  | map (erase : Bool) (t : Ty)
  | seq (k : SeqKind) (t : Ty)
/-- The reflected fields of a struct, in order. (resource_op.hpp:514-540) -/
inductive Fields where
  | nil
  | cons (a : Attrs) (t : Ty) (rest : Fields)
end

/-- Scalars and strings. (the leaves at resource_op.hpp:633-637) -/
inductive Atom where
  | str (s : Str)
  | num (n : Int)
  deriving DecidableEq, Repr

/-- Values.  `map` holds its entries in iteration order. (the objects of resource_op.hpp:505-638) -/
inductive Value where
  | leaf (a : Atom)
  | opt (v : Option Value)
  | record (vs : List Value)
  | map (es : List (Str × Value))
  | seq (vs : List Value)

/-- The direct sub-objects of a value. (resource_op.hpp:505-638: what a node leads to) -/
def Value.kids : Value → List Value
  | .leaf _ => []
  | .opt v => v.toList
  | .record vs => vs
  | .map es => es.map (·.2)
  | .seq vs => vs

/-- The value with its `i`-th sub-object replaced. (resource_op.hpp:394-429) -/
def Value.setKid (v : Value) (i : Nat) (x : Value) : Value :=
  match v with
  | .leaf a => .leaf a
  | .opt none => .opt none
  | .opt (some y) => .opt (some (if i = 0 then x else y))
  | .record vs => .record (vs.set i x)
  | .map es => .map (es.modify i fun e => (e.1, x))
  | .seq vs => .seq (vs.set i x)

/-- Reading through a reference. (resource_op.hpp:505-638) -/
def Value.get (v : Value) : List Nat → Option Value
  | [] => some v
  | i :: is =>
    match v.kids[i]? with
    | none => none
    | some w => w.get is

/-- Assigning through a reference. (resource_op.hpp:394-429) -/
def Value.set (v : Value) (x : Value) : List Nat → Option Value
  | [] => some x
  | i :: is =>
    match v.kids[i]? with
    | none => none
    | some w => (w.set x is).map fun w' => v.setKid i w'

/-! ### Exceptions and user code -/

/-- C++ exceptions: resource.hpp:147-194, `deserialize_error`, and anything else. -/
inductive Exc where
  | segmentNotFound
  | notTraversable
  | validation (msg : Str)
  | duplicateKey
  | deserialize
  | other (n : Nat)
  deriving DecidableEq, Repr

/-- An exception (resource.hpp:147-194), or what is undefined or does not compile in resource_op.hpp:505-1089. -/
inductive Err where
  | throws (e : Exc)
  | stuck
  deriving DecidableEq, Repr

/-- What is supplied from outside.  `β` is the type of request bodies. (resource_op.hpp:84-119, 850-1028) -/
structure Env (β : Type) where
  /-- resource_op.hpp:84-104: member or ADL `validate_resource`, or nothing. -/
  validate : Ty → Value → Except Exc Unit
  /-- resource_op.hpp:106-119 `key_matches(element, key, segment)` of an element type. -/
  keyMatches : Ty → Value → Value → Str → Bool
  /-- `operator==` of child keys. -/
  keyEq : Value → Value → Bool
  /-- `kl::serialization::deserialize(out, body)`: the value left in `out`. -/
  deser : Ty → Value → β → Except Exc Value
  /-- `kl::serialization::patch(out, body)`. -/
  patch : Ty → Value → β → Except Exc Value
  /-- `T{}`. -/
  fresh : Ty → Value

/-- resource_op.hpp:114-119: the default `key_matches`. -/
def defaultKeyMatches (_ : Ty) (_ key : Value) (segment : Str) : Bool :=
  match key with
  | .leaf (.str s) => s == segment
  | _ => false

/-- Calls of user code in resource_op.hpp:84-134. -/
def liftUser {α : Type} : Except Exc α → Except Err α
  | .ok a => .ok a
  | .error e => .error (.throws e)

/-! ### Nodes and access control -/

/-- resource_op.hpp:148-277 `field_node`, `root_node`, `element_node` (with the position of
its `ChildKeyPtr`). -/
inductive Node where
  | root
  | field (a : Attrs)
  | elem (key : Option Nat)

/-- `has_attribute<read_only_t>`; resource_op.hpp:159-163, 198-203, 238-243. -/
def Node.readOnly : Node → Bool
  | .field a => a.readOnly
  | _ => false

/-- `has_attribute<subtree_read_only_t>`. (resource_op.hpp:32-60) -/
def Node.subtreeReadOnly : Node → Bool
  | .field a => a.subtreeReadOnly
  | _ => false

/-- `visit_attributes<child_key_base_t>`; resource_op.hpp:165-169, 205-209, 245-249. -/
def Node.childKeys : Node → List Nat
  | .field a => a.childKeys
  | _ => []

/-- resource_op.hpp:171-175, 211-215, 253-263 `is_immutable_child`, for the `i`-th field. -/
def Node.isImmutableChild : Node → Nat → Bool
  | .elem (some k), i => i = k
  | _, _ => false

/-- `element.*ptr`: a member of a struct. (resource_op.hpp:266-273, 459-469) -/
def member (v : Value) (k : Nat) : Option Value :=
  match v with
  | .record vs => vs[k]?
  | _ => none

/-- resource_op.hpp:177-181, 217-221, 266-273 `preserves_identity`. -/
def Node.preservesIdentity {β : Type} (E : Env β) (n : Node) (value candidate : Value) :
    Except Err Bool :=
  match n with
  | .elem (some k) =>
    match member value k, member candidate k with
    | some a, some b => .ok (E.keyEq a b)
    | _, _ => .error .stuck
  | _ => .ok true

/-- resource_op.hpp:27-30 `access_context`. -/
structure Access where
  subtreeReadOnly : Bool := false
  nodeReadOnly : Bool := false
  deriving DecidableEq, Repr

/-- resource_op.hpp:32-38 `is_node_read_only`. -/
def Access.isNodeReadOnly (c : Access) (n : Node) : Bool :=
  n.readOnly || c.subtreeReadOnly || c.nodeReadOnly

/-- resource_op.hpp:40-45 `is_child_node_read_only`. -/
def Access.isChildNodeReadOnly (c : Access) (n : Node) : Bool :=
  c.isNodeReadOnly n || n.subtreeReadOnly

/-- resource_op.hpp:47-52 `update(node)`. -/
def Access.update (c : Access) (n : Node) : Access :=
  { c with subtreeReadOnly := c.subtreeReadOnly || n.subtreeReadOnly }

/-- resource_op.hpp:54-60 `update(node, field)`. -/
def Access.updateField (c : Access) (n : Node) (i : Nat) : Access :=
  { c.update n with nodeReadOnly := c.nodeReadOnly || n.isImmutableChild i }

/-! ### Navigation -/

/-- resource_op.hpp:471-485: what `std::from_chars` takes. -/
def isDigit (c : Byte) : Bool := 48 ≤ c.toNat && c.toNat ≤ 57

/-- resource_op.hpp:471-485 `parse_index`: `std::from_chars` into `std::size_t` (64 bits) must consume the
whole segment. -/
def parseIndex (text : Str) : Option Nat :=
  if text.isEmpty then none
  else if text.all isDigit then
    let value := text.foldl (fun n c => n * 10 + (c.toNat - 48)) 0
    if value < 2 ^ 64 then some value else none
  else none

/-- resource_op.hpp:491-503 `find_key`: position of the entry with this key. -/
def findKey (es : List (Str × Value)) (segment : Str) : Option Nat :=
  es.findIdx? fun e => e.1 == segment

/-- resource_op.hpp:578-599, 759-791: the loops over the `child_key` attributes and the elements; the first
attribute under which some element matches, and the first such element. -/
def findKeyed {β : Type} (E : Env β) (t : Ty) (vs : List Value) (segment : Str) :
    List Nat → Except Err (Option (Nat × Nat))
  | [] => .ok none
  | k :: ks =>
    if vs.all fun v => (member v k).isSome then
      match vs.findIdx? fun v => (member v k).any fun key => E.keyMatches t v key segment with
      | some i => .ok (some (k, i))
      | none => findKeyed E t vs segment ks
    else .error .stuck

/-- What a visitor is given: the node reached, by address. (resource_op.hpp:505-638: the arguments of `visitor`) -/
structure Target where
  addr : List Nat
  node : Node
  ty : Ty
  val : Value
  ctx : Access
  rest : List Str

/-- resource_op.hpp:505-638: one level up. -/
def Target.under (i : Nat) (t : Target) : Target := { t with addr := i :: t.addr }

mutual
/-- resource_op.hpp:505-638 `visit_node`, up to the call of the visitor. -/
def visit {β : Type} (E : Env β) (stop : Nat) :
    Ty → Node → Value → List Str → Access → Except Err Target
  | .record id fs, node, v, path, c =>
    if path.length = stop then .ok ⟨[], node, .record id fs, v, c, path⟩
    else
      match v, path with
      | .record vs, s :: rest => visitFields E stop fs 0 vs node s rest c
      | _, _ => .error .stuck
  | .opt t, node, v, path, c =>
    if path.length = stop then .ok ⟨[], node, .opt t, v, c, path⟩
    else
      match v with
      | .opt none => .error (.throws .segmentNotFound)
      | .opt (some w) => (visit E stop t (.elem none) w path (c.update node)).map (·.under 0)
      | _ => .error .stuck
  | .map er t, node, v, path, c =>
    if path.length = stop then .ok ⟨[], node, .map er t, v, c, path⟩
    else
      match v, path with
      | .map es, s :: rest =>
        match findKey es s with
        | none => .error (.throws .segmentNotFound)
        | some i =>
          match es[i]? with
          | none => .error .stuck
          | some e => (visit E stop t (.elem none) e.2 rest (c.update node)).map (·.under i)
      | _, _ => .error .stuck
  | .seq k t, node, v, path, c =>
    if path.length = stop then .ok ⟨[], node, .seq k t, v, c, path⟩
    else
      match v, path with
      | .seq vs, s :: rest =>
        if node.childKeys ≠ [] then
          match findKeyed E t vs s node.childKeys with
          | .error e => .error e
          | .ok none => .error (.throws .segmentNotFound)
          | .ok (some (key, i)) =>
            match vs[i]? with
            | none => .error .stuck
            | some w => (visit E stop t (.elem (some key)) w rest (c.update node)).map (·.under i)
        else if k.at_ then
          match parseIndex s with
          | none => .error (.throws .segmentNotFound)
          | some i =>
            match vs[i]? with
            | none => .error (.throws .segmentNotFound)
            | some w => (visit E stop t (.elem none) w rest (c.update node)).map (·.under i)
        else .error (.throws .notTraversable)
      | _, _ => .error .stuck
  | .leaf id, node, v, path, c =>
    if path.length = stop then .ok ⟨[], node, .leaf id, v, c, path⟩
    else .error (.throws .notTraversable)
/-- resource_op.hpp:514-540: the loop over the reflected fields; `i` counts them. -/
def visitFields {β : Type} (E : Env β) (stop : Nat) :
    Fields → Nat → List Value → Node → Str → List Str → Access → Except Err Target
  | .nil, _, _, _, _, _, _ => .error (.throws .segmentNotFound)
  | .cons _ _ _, _, [], _, _, _, _ => .error .stuck
  | .cons a t fs, i, v :: vs, node, s, rest, c =>
    if s ≠ a.name then visitFields E stop fs (i + 1) vs node s rest c
    else (visit E stop t (.field a) v rest (c.updateField node i)).map (·.under i)
end

/-- resource_op.hpp:642-650 `visit_at_path`. -/
def visitAtPath {β : Type} (E : Env β) (T : Ty) (v : Value) (path : List Str) (stop : Nat) :
    Except Err Target :=
  visit E stop T .root v path {}

/-! ### Validation -/

/-- resource_op.hpp:123-134 `validate_candidate`. -/
def validateCandidate {β : Type} (E : Env β) : Ty → Value → Except Err Unit
  | .opt t, v =>
    match liftUser (E.validate (.opt t) v) with
    | .error e => .error e
    | .ok () =>
      match v with
      | .opt (some w) => validateCandidate E t w
      | .opt none => .ok ()
      | _ => .error .stuck
  | t, v => liftUser (E.validate t v)

/-- resource_op.hpp:338-346: `second` runs over the elements behind `first`. -/
def pairsDiffer {β : Type} (E : Env β) : List Value → Bool
  | [] => true
  | k :: ks => ks.all (fun k' => !E.keyEq k k') && pairsDiffer E ks

/-- resource_op.hpp:331-349 `validate_unique_child_keys`. -/
def validateUniqueChildKeys {β : Type} (E : Env β) (vs : List Value) :
    List Nat → Except Err Unit
  | [] => .ok ()
  | k :: ks =>
    match vs.mapM (member · k) with
    | none => .error .stuck
    | some keys =>
      if pairsDiffer E keys then validateUniqueChildKeys E vs ks
      else .error (.throws .duplicateKey)

/-- `for (auto& element : value)`, ended by the first exception. (resource_op.hpp:372-385) -/
def forEach (f : Value → Except Err Unit) : List Value → Except Err Unit
  | [] => .ok ()
  | v :: vs =>
    match f v with
    | .error e => .error e
    | .ok () => forEach f vs

mutual
/-- resource_op.hpp:351-386 `validate_node_tree`. -/
def validateNodeTree {β : Type} (E : Env β) : Ty → Node → Value → Except Err Unit
  | .record id fs, node, v =>
    match liftUser (E.validate (.record id fs) v) with
    | .error e => .error e
    | .ok () =>
      if node.childKeys ≠ [] then .error .stuck
      else
        match v with
        | .record vs => validateFields E fs vs
        | _ => .error .stuck
  | .opt t, node, v =>
    match liftUser (E.validate (.opt t) v) with
    | .error e => .error e
    | .ok () =>
      if node.childKeys ≠ [] then .error .stuck
      else
        match v with
        | .opt none => .ok ()
        | .opt (some w) => validateNodeTree E t (.elem none) w
        | _ => .error .stuck
  | .map er t, node, v =>
    match liftUser (E.validate (.map er t) v) with
    | .error e => .error e
    | .ok () =>
      if node.childKeys ≠ [] then .error .stuck
      else
        match v with
        | .map es => forEach (validateNodeTree E t (.elem none)) (es.map (·.2))
        | _ => .error .stuck
  | .seq k t, node, v =>
    match liftUser (E.validate (.seq k t) v) with
    | .error e => .error e
    | .ok () =>
      match v with
      | .seq vs =>
        match validateUniqueChildKeys E vs node.childKeys with
        | .error e => .error e
        | .ok () => forEach (validateNodeTree E t (.elem none)) vs
      | _ => .error .stuck
  | .leaf id, node, v =>
    match liftUser (E.validate (.leaf id) v) with
    | .error e => .error e
    | .ok () =>
      if node.childKeys ≠ [] then .error .stuck
      else
        match v with
        | .leaf _ => .ok ()
        | _ => .error .stuck
/-- resource_op.hpp:368-370: the loop over the reflected fields. -/
def validateFields {β : Type} (E : Env β) : Fields → List Value → Except Err Unit
  | .nil, _ => .ok ()
  | .cons _ _ _, [] => .error .stuck
  | .cons a t fs, v :: vs =>
    match validateNodeTree E t (.field a) v with
    | .error e => .error e
    | .ok () => validateFields E fs vs
end

/-- resource_op.hpp:388-392 `validate_tree`. -/
def validateTree {β : Type} (E : Env β) (T : Ty) (v : Value) : Except Err Unit :=
  validateNodeTree E T .root v

/-- resource_op.hpp:459-469 `check_duplicate_child_key`. -/
def checkDuplicateChildKey {β : Type} (E : Env β) (vs : List Value) (candidate : Value) :
    List Nat → Except Err Unit
  | [] => .ok ()
  | k :: ks =>
    match vs.mapM (member · k), member candidate k with
    | some keys, some key =>
      if keys.any (E.keyEq · key) then .error (.throws .duplicateKey)
      else checkDuplicateChildKey E vs candidate ks
    | _, _ => .error .stuck

/-! ### The verbs -/

/-- resource_op.hpp:697-706 `status_code`. -/
inductive Status where
  | ok | created | noContent | badRequest | notFound | methodNotAllowed | conflict
  deriving DecidableEq, Repr

/-- An `operation_result` (resource_op.hpp:708-712), an exception leaving the verb, or `Err.stuck`. -/
inductive Outcome where
  | resp (s : Status) (body : Str)
  | thrown (e : Exc)
  | stuck
  deriving DecidableEq, Repr

/-- resource.hpp:125-135 `resource`. -/
structure Resource where
  value : Value
  tracker : Tracker

/-- The text of `duplicate_child_key_error::what()`, resource.hpp:189-192. -/
def duplicateText : Str :=
  [0x64#8, 0x75#8, 0x70#8, 0x6C#8, 0x69#8, 0x63#8, 0x61#8, 0x74#8, 0x65#8, 0x20#8, 0x63#8,
   0x68#8, 0x69#8, 0x6C#8, 0x64#8, 0x20#8, 0x6B#8, 0x65#8, 0x79#8]

/-- resource_op.hpp:859-866: the handlers of `get`. -/
def catchGet : Err → Outcome
  | .throws .segmentNotFound => .resp .notFound []
  | .throws .notTraversable => .resp .notFound []
  | .throws e => .thrown e
  | .stuck => .stuck

/-- resource_op.hpp:898-917, 953-972, 1002-1021: the handlers of `put`, `post` and `patch`. -/
def catchPut : Err → Outcome
  | .throws .segmentNotFound => .resp .notFound []
  | .throws .notTraversable => .resp .notFound []
  | .throws (.validation msg) => .resp .conflict msg
  | .throws .duplicateKey => .resp .conflict duplicateText
  | .throws .deserialize => .resp .badRequest []
  | .throws e => .thrown e
  | .stuck => .stuck

/-- resource_op.hpp:1074-1089: the handlers of `del`. -/
def catchDel : Err → Outcome
  | .throws .segmentNotFound => .resp .notFound []
  | .throws .notTraversable => .resp .notFound []
  | .throws (.validation msg) => .resp .conflict msg
  | .throws .duplicateKey => .resp .conflict duplicateText
  | .throws e => .thrown e
  | .stuck => .stuck

/-- Reads a view with `front` and `drop_front`. (resource_op.hpp:509-510) -/
def readSegs : Nat → View → Option (List Str)
  | 0, _ => some []
  | n + 1, w =>
    match w.front, w.dropFront with
    | some s, some w' => (readSegs n w').map (s :: ·)
    | _, _ => none

/-- resource_op.hpp:642-650: all segments of a view. -/
def segs (w : View) : Option (List Str) := readSegs w.size w

/-- resource_op.hpp:394-429 `rollback_value`: assigns `new` at `addr`, validates the whole tree, and assigns
the saved value again if validation throws. -/
def assignChecked {β : Type} (E : Env β) (T : Ty) (root : Value) (addr : List Nat)
    (old new : Value) : Value × Except Err Unit :=
  match root.set new addr with
  | none => (root, .error .stuck)
  | some root1 =>
    match validateTree E T root1 with
    | .ok () => (root1, .ok ())
    | .error e =>
      match root1.set old addr with
      | none => (root1, .error .stuck)
      | some root2 => (root2, .error e)

/-- resource_op.hpp:431-457 `pop_back_rollback`: appends, validates, and removes the last element again if
validation throws. -/
def pushChecked {β : Type} (E : Env β) (T : Ty) (root : Value) (addr : List Nat)
    (vs : List Value) (x : Value) : Value × Except Err Unit :=
  match root.set (.seq (vs ++ [x])) addr with
  | none => (root, .error .stuck)
  | some root1 =>
    match validateTree E T root1 with
    | .ok () => (root1, .ok ())
    | .error e =>
      match root1.get addr with
      | some (.seq vs1) =>
        match root1.set (.seq vs1.dropLast) addr with
        | none => (root1, .error .stuck)
        | some root2 => (root2, .error e)
      | _ => (root1, .error .stuck)

/-- `r.state.modifications.notify_changed(path, subtree)` and the answer.
(resource_op.hpp:868-1089; resource.hpp:16-123) -/
def notified (root : Value) (t : Tracker) (w : Option View) (subtree : Bool) (s : Status) :
    Resource × Outcome :=
  match w with
  | none => (⟨root, t⟩, .stuck)
  | some w =>
    match t.notify w subtree with
    | none => (⟨root, t⟩, .stuck)
    | some (t', _) => (⟨root, t'⟩, .resp s [])

/-- resource_op.hpp:301-307 `has_addressable_descendants_v`. -/
def addressableDescendants : Ty → Bool
  | .leaf _ => false
  | _ => true

/-- resource_op.hpp:850-866 `get`. -/
def get {β : Type} (E : Env β) (T : Ty) (dump : Ty → Value → Except Exc Str) (r : Resource)
    (w : View) : Outcome :=
  match segs w with
  | none => .stuck
  | some path =>
    match visitAtPath E T r.value path 0 with
    | .error e => catchGet e
    | .ok n =>
      match liftUser (dump n.ty n.val) with
      | .error e => catchGet e
      | .ok body => .resp .ok body

/-- resource_op.hpp:868-917 `put` (`f` is `deserialize`) and 974-1021 `patch` (`f` is `patch`): the two
functions differ only in that call. -/
def replaceNode {β : Type} (E : Env β) (f : Ty → Value → β → Except Exc Value) (T : Ty)
    (r : Resource) (w : View) (body : β) : Resource × Outcome :=
  match segs w with
  | none => (r, .stuck)
  | some path =>
    match visitAtPath E T r.value path 0 with
    | .error e => (r, catchPut e)
    | .ok n =>
      if n.ctx.isNodeReadOnly n.node then (r, .resp .methodNotAllowed [])
      else
        match liftUser (f n.ty n.val body) with
        | .error e => (r, catchPut e)
        | .ok candidate =>
          match n.node.preservesIdentity E n.val candidate with
          | .error e => (r, catchPut e)
          | .ok false => (r, .resp .methodNotAllowed [])
          | .ok true =>
            match assignChecked E T r.value n.addr n.val candidate with
            | (root, .error e) => ({ r with value := root }, catchPut e)
            | (root, .ok ()) =>
              notified root r.tracker (some w) (addressableDescendants n.ty) .ok

/-- resource_op.hpp:868-917 `put`. -/
def put {β : Type} (E : Env β) (T : Ty) (r : Resource) (w : View) (body : β) :
    Resource × Outcome :=
  replaceNode E E.deser T r w body

/-- resource_op.hpp:974-1021 `patch`. -/
def patch {β : Type} (E : Env β) (T : Ty) (r : Resource) (w : View) (body : β) :
    Resource × Outcome :=
  replaceNode E E.patch T r w body

/-- resource_op.hpp:919-972 `post`. -/
def post {β : Type} (E : Env β) (T : Ty) (r : Resource) (w : View) (body : β) :
    Resource × Outcome :=
  match segs w with
  | none => (r, .stuck)
  | some path =>
    match visitAtPath E T r.value path 0 with
    | .error e => (r, catchPut e)
    | .ok n =>
      if n.ctx.isChildNodeReadOnly n.node then (r, .resp .methodNotAllowed [])
      else
        match n.ty, n.val with
        | .seq k t, .seq vs =>
          if k.push then
            match liftUser (E.deser t (E.fresh t) body) with
            | .error e => (r, catchPut e)
            | .ok candidate =>
              match checkDuplicateChildKey E vs candidate n.node.childKeys with
              | .error e => (r, catchPut e)
              | .ok () =>
                match validateCandidate E t candidate with
                | .error e => (r, catchPut e)
                | .ok () =>
                  match pushChecked E T r.value n.addr vs candidate with
                  | (root, .error e) => ({ r with value := root }, catchPut e)
                  | (root, .ok ()) => notified root r.tracker (some w) true .created
          else (r, .resp .methodNotAllowed [])
        | .seq _ _, _ => (r, .stuck)
        | _, _ => (r, .resp .methodNotAllowed [])

/-- resource_op.hpp:740-746, 778-784, 824-830: erase one element, validate, notify the collection. -/
def eraseChecked {β : Type} (E : Env β) (T : Ty) (r : Resource) (w : View) (n : Target)
    (smaller : Value) : Resource × Outcome :=
  match assignChecked E T r.value n.addr n.val smaller with
  | (root, .error e) => ({ r with value := root }, catchDel e)
  | (root, .ok ()) => notified root r.tracker w.dropBack true .noContent

/-- resource_op.hpp:716-844 `delete_direct_child`; `none` means that it returned false.  `n` is the node one
segment above the end of the path. -/
def deleteDirectChild {β : Type} (E : Env β) (T : Ty) (r : Resource) (w : View) (n : Target) :
    Option (Resource × Outcome) :=
  match n.ty, n.val, n.rest with
  | .map er _, .map es, [s] =>
    some <|
      match findKey es s with
      | none => (r, catchDel (.throws .segmentNotFound))
      | some i =>
        if n.ctx.isChildNodeReadOnly n.node then (r, .resp .methodNotAllowed [])
        else if er then eraseChecked E T r w n (.map (es.eraseIdx i))
        else (r, .resp .methodNotAllowed [])
  | .seq k t, .seq vs, [s] =>
    if n.node.childKeys ≠ [] then
      some <|
        match findKeyed E t vs s n.node.childKeys with
        | .error e => (r, catchDel e)
        | .ok none => (r, catchDel (.throws .segmentNotFound))
        | .ok (some (_, i)) =>
          if n.ctx.isChildNodeReadOnly n.node then (r, .resp .methodNotAllowed [])
          else if k.erase then eraseChecked E T r w n (.seq (vs.eraseIdx i))
          else (r, .resp .methodNotAllowed [])
    else if k.at_ then
      some <|
        match parseIndex s with
        | none => (r, catchDel (.throws .segmentNotFound))
        | some i =>
          if n.ctx.isChildNodeReadOnly n.node then (r, .resp .methodNotAllowed [])
          else if k.erase then
            match vs[i]? with
            | none => (r, catchDel (.throws .segmentNotFound))
            | some _ => eraseChecked E T r w n (.seq (vs.eraseIdx i))
          else (r, .resp .methodNotAllowed [])
    else none
  | .map _ _, _, _ => some (r, .stuck)
  | .seq _ _, _, _ => some (r, .stuck)
  | _, _, _ => none

/-- resource_op.hpp:1052-1054: the held value may veto its deletion. -/
def validateHeld {β : Type} (E : Env β) (t : Ty) : Option Value → Except Err Unit
  | some x => validateCandidate E t x
  | none => .ok ()

/-- resource_op.hpp:1064 `is_reflectable_v` of the optional's value type. -/
def isReflectable : Ty → Bool
  | .record _ _ => true
  | _ => false

/-- resource_op.hpp:1040-1072: the second half of `del`. -/
def deleteOptional {β : Type} (E : Env β) (T : Ty) (r : Resource) (w : View) (path : List Str) :
    Resource × Outcome :=
  match visitAtPath E T r.value path 0 with
  | .error e => (r, catchDel e)
  | .ok n =>
    if n.ctx.isNodeReadOnly n.node then (r, .resp .methodNotAllowed [])
    else
      match n.ty, n.val with
      | .opt t, .opt v =>
        match validateHeld E t v with
        | .error e => (r, catchDel e)
        | .ok () =>
          match validateCandidate E (.opt t) (.opt none) with
          | .error e => (r, catchDel e)
          | .ok () =>
            match assignChecked E T r.value n.addr n.val (.opt none) with
            | (root, .error e) => ({ r with value := root }, catchDel e)
            | (root, .ok ()) =>
              notified root r.tracker (some w) (isReflectable t) .noContent
      | .opt _, _ => (r, .stuck)
      | _, _ => (r, .resp .methodNotAllowed [])

/-- resource_op.hpp:1023-1089 `del`. -/
def del {β : Type} (E : Env β) (T : Ty) (r : Resource) (w : View) : Resource × Outcome :=
  match segs w with
  | none => (r, .stuck)
  | some path =>
    if path ≠ [] then
      match visitAtPath E T r.value path 1 with
      | .error e => (r, catchDel e)
      | .ok n =>
        match deleteDirectChild E T r w n with
        | some result => result
        | none => deleteOptional E T r w path
    else deleteOptional E T r w path

end Verif.Resource
