/-
yaml.hpp with yaml-cpp's nodes as they are in memory.

A `YAML::Node` is a handle.  It refers to a node, the node to a cell (yaml-cpp's `node_ref` with its
`node_data`), and cells of sequences and maps list nodes.  Copying a handle copies the pointer; assigning
to a handle that refers to a node makes this node - wherever it occurs - refer to the other's cell.
`kl::yaml::view` is such a handle inside of an object.

Simplified: keys of maps are strings; the memory is never reclaimed (yaml-cpp's memory holders keep
nodes alive as long as any document uses them); field attributes, aliases and defaults are left out; of
the scalars only whether the destination takes the text is modelled.  yaml-cpp's documented behaviour
is taken from its headers (node/impl.h, node/detail/node.h, node/detail/node_ref.h).
-/
namespace Verif.YamlNode

/-! ### Memory -/

/-- yaml-cpp `node_data`: what a cell holds. (below yaml.hpp:29-44) -/
inductive Content where
  | null
  | scalar (s : String)
  | seq (ns : List Nat)
  | map (es : List (String × Nat))
  deriving DecidableEq

/-- The nodes and cells in use, the cell every node refers to and the contents of the cells. (below yaml.hpp:29-44) -/
structure Heap where
  nodes : Nat
  cells : Nat
  ref : Nat → Nat
  data : Nat → Content

/-- `YAML::Node`; `none`: default constructed, refers to no node (its type is Null). (yaml.hpp:29-44) -/
abbrev Handle := Option Nat

/-- What a node holds. (yaml.hpp:102-116) -/
def Heap.content (H : Heap) (n : Nat) : Content := H.data (H.ref n)

/-- What a handle shows (node/impl.h `Node::Type`: Null without a node). (yaml.hpp:102-116) -/
def Heap.get (H : Heap) : Handle → Content
  | none => .null
  | some n => H.content n

/-- A new node with a new cell. (yaml.hpp:351-380) -/
def Heap.alloc (H : Heap) (c : Content) : Heap × Nat :=
  (⟨H.nodes + 1, H.cells + 1, fun m => if m = H.nodes then H.cells else H.ref m,
    fun k => if k = H.cells then c else H.data k⟩, H.nodes)

/-- node/detail/node.h `node::set_ref`. (reached from yaml.hpp:562-566) -/
def Heap.setRef (H : Heap) (n c : Nat) : Heap :=
  { H with ref := fun m => if m = n then c else H.ref m }

/-- The contents of a cell are replaced. (yaml.hpp:351-380: `push_back` and entries) -/
def Heap.setData (H : Heap) (k : Nat) (c : Content) : Heap :=
  { H with data := fun j => if j = k then c else H.data j }

/-- node/impl.h `Node::EnsureNodeExists`. (reached from yaml.hpp:562-566) -/
def Heap.ensure (H : Heap) : Handle → Heap × Nat
  | some n => (H, n)
  | none => H.alloc .null

/-- node/impl.h `Node::operator=(const Node&)` and `AssignNode`: nothing if both refer to the same
cell; a handle without node takes the other's; otherwise the node it refers to is redirected.
(called at yaml.hpp:562-566) -/
def assign (H : Heap) (h r : Handle) : Heap × Handle :=
  match h with
  | none => ((H.ensure r).1, some (H.ensure r).2)
  | some n =>
    match r with
    | some m => if H.ref n = H.ref m then (H, some n) else (H.setRef n (H.ref m), some m)
    | none => let a := H.ensure none
              (a.1.setRef n (a.1.ref a.2), some a.2)

/-! ### Types and objects -/

mutual
/-- The types read and written; `scalar p` is a type that takes the texts with `p`.
(detail/serialization.hpp:817-1118) -/
inductive Ty where
  | scalar (p : String → Bool)
  | view
  | opt (t : Ty)
  | vec (t : Ty)
  | map (t : Ty)
  /-- `std::tuple`, `std::pair`, `std::array` -/
  | tup (fs : Flds)
  /-- a reflected struct -/
  | obj (fs : Flds)
/-- The fields of a struct, detail/serialization.hpp:900-985. -/
inductive Flds where
  | nil
  | cons (name : String) (t : Ty) (rest : Flds)
end

/-- An object in memory. (the objects of detail/serialization.hpp:817-1118) -/
inductive Val where
  | scalar (s : String)
  | view (h : Handle)
  | opt (v : Option Val)
  | vec (vs : List Val)
  | map (es : List (String × Val))
  | record (vs : List Val)

mutual
/-- `T{}`. (detail/serialization.hpp:828-831, 860, 1115) -/
def Ty.fresh : Ty → Val
  | .scalar _ => .scalar ""
  | .view => .view none
  | .opt _ => .opt none
  | .vec _ => .vec []
  | .map _ => .map []
  | .tup fs => .record fs.fresh
  | .obj fs => .record fs.fresh
/-- detail/serialization.hpp:860: the fields of `T{}`. -/
def Flds.fresh : Flds → List Val
  | .nil => []
  | .cons _ t rest => t.fresh :: rest.fresh
end

/-- `sizeof...(Ts)`, detail/serialization.hpp:1094. -/
def Flds.length : Flds → Nat
  | .nil => 0
  | .cons _ _ rest => rest.length + 1

/-! ### Assigning objects -/

mutual
/-- `out = std::move(element)` for objects of the type: structs, tuples and optionals assign their parts,
vectors and maps take the other's memory, `yaml::view` assigns its `YAML::Node` (yaml.hpp:29-44, the
implicit assignment operator; `YAML::Node` has no move assignment). -/
def moveAssign : Ty → Val → Val → Heap → Val × Heap
  | .view, .view a, .view b, H => (.view (assign H a b).2, (assign H a b).1)
  | .opt t, .opt (some a), .opt (some b), H =>
    (.opt (some (moveAssign t a b H).1), (moveAssign t a b H).2)
  | .tup fs, .record as, .record bs, H => (.record (moveAssigns fs as bs H).1, (moveAssigns fs as bs H).2)
  | .obj fs, .record as, .record bs, H => (.record (moveAssigns fs as bs H).1, (moveAssigns fs as bs H).2)
  | _, _, b, H => (b, H)
/-- The fields one after the other, detail/serialization.hpp:862, 1117. -/
def moveAssigns : Flds → List Val → List Val → Heap → List Val × Heap
  | .cons _ t fs, a :: as, b :: bs, H =>
    ((moveAssign t a b H).1 :: (moveAssigns fs as bs (moveAssign t a b H).2).1,
      (moveAssigns fs as bs (moveAssign t a b H).2).2)
  | _, _, bs, H => (bs, H)
end

/-! ### Reading -/

/-- How a call ends: `fail` is a `deserialize_error`, `escape` any other exception.
(detail/serialization.hpp:834-842, 864-870) -/
inductive End where
  | ok
  | fail
  | escape
  deriving DecidableEq

/-- How a call ends, the object and the memory afterwards. (detail/serialization.hpp:817-1118) -/
structure Res (α : Type) where
  stop : End
  out : α
  heap : Heap

/-- yaml-cpp `operator[]` of a constant node with a string: an entry of a map; nothing in a sequence or
null; on a scalar `YAML::BadSubscript` is thrown (no `deserialize_error`). (yaml.hpp:102-116) -/
inductive Found where
  | node (n : Nat)
  | missing
  | bad
  deriving DecidableEq

/-- yaml.hpp:102-116 `at`. -/
def lookup (H : Heap) (h : Handle) (key : String) : Found :=
  match H.get h with
  | .map es => match es.lookup key with
    | some n => .node n
    | none => .missing
  | .scalar _ => .bad
  | _ => .missing

/-- yaml.hpp:102-105 `at` of a sequence and an index: the null value outside of it.  Anything but a sequence
gets here only if the document was redirected while it was read; taken as empty. -/
def atIndex (H : Heap) (h : Handle) (i : Nat) : Handle :=
  match H.get h with
  | .seq ns => ns[i]?
  | _ => none

/-- detail/serialization.hpp:848-871: the loop over the elements of a sequence; `f` reads one. -/
def readEach (f : Handle → Heap → Res Val) : List Nat → List Val → Heap → Res (List Val)
  | [], acc, H => ⟨.ok, acc, H⟩
  | n :: ns, acc, H =>
    match (f (some n) H).stop with
    | .ok => readEach f ns (acc ++ [(f (some n) H).out]) (f (some n) H).heap
    | e => ⟨e, acc, (f (some n) H).heap⟩

/-- `out.emplace(key, value)`: an entry with the key stays. (detail/serialization.hpp:832) -/
def emplace (es : List (String × Val)) (k : String) (v : Val) : List (String × Val) :=
  if es.any (fun e => e.1 == k) then es else es ++ [(k, v)]

/-- detail/serialization.hpp:819-844: the loop over the entries of a map. -/
def readEntries (f : Handle → Heap → Res Val) :
    List (String × Nat) → List (String × Val) → Heap → Res (List (String × Val))
  | [], acc, H => ⟨.ok, acc, H⟩
  | (k, n) :: ns, acc, H =>
    match (f (some n) H).stop with
    | .ok => readEntries f ns (emplace acc k (f (some n) H).out) (f (some n) H).heap
    | e => ⟨e, acc, (f (some n) H).heap⟩

/-- Model only: the object in a larger one (detail/serialization.hpp:817-1118). -/
def Res.map (r : Res α) (g : α → β) : Res β := ⟨r.stop, g r.out, r.heap⟩

/-- The parts of a struct or tuple; nothing for other objects. (detail/serialization.hpp:913, 1084) -/
def Val.parts : Val → List Val
  | .record vs => vs
  | _ => []

/-- yaml.hpp:562-566 `deserialize_adl` for `yaml::view`: `out = yaml::view{value}`. -/
def readView (v : Val) (h : Handle) (H : Heap) : Res Val :=
  match v with
  | .view old => ⟨.ok, .view (assign H old h).2, (assign H old h).1⟩
  | v => ⟨.ok, v, H⟩

/-- yaml.hpp:509-550 scalars. -/
def readScalar (p : String → Bool) (v : Val) (h : Handle) (H : Heap) : Res Val :=
  match H.get h with
  | .scalar s => if p s then ⟨.ok, .scalar s, H⟩ else ⟨.fail, v, H⟩
  | _ => ⟨.fail, v, H⟩

/-- detail/serialization.hpp:1109-1118 the last line of reading an optional: `out = std::move(element)`. -/
def storeOpt (t : Ty) (v e : Val) (H : Heap) : Val × Heap :=
  match v with
  | .opt (some o) => (.opt (some (moveAssign t o e H).1), (moveAssign t o e H).2)
  | _ => (.opt (some e), H)

/-- Is it null (yaml.hpp:394 `is_null`)? -/
def Content.isNull : Content → Bool
  | .null => true
  | _ => false

mutual
/-- yaml.hpp:500-566 and detail/serialization.hpp:815-1118 `deserialize`. -/
def read : Ty → Val → Handle → Heap → Res Val
  | .scalar p, v, h, H => readScalar p v h H
  | .view, v, h, H => readView v h H
  -- detail/serialization.hpp:1109-1118
  | .opt t, v, h, H =>
    if (H.get h).isNull then ⟨.ok, .opt none, H⟩
    else
      match (read t t.fresh h H).stop with
      | .ok => ⟨.ok, (storeOpt t v (read t t.fresh h H).out (read t t.fresh h H).heap).1,
          (storeOpt t v (read t t.fresh h H).out (read t t.fresh h H).heap).2⟩
      | e => ⟨e, v, (read t t.fresh h H).heap⟩
  -- detail/serialization.hpp:845-871
  | .vec t, v, h, H =>
    match H.get h with
    | .seq ns => (readEach (fun h H => read t t.fresh h H) ns [] H).map .vec
    | _ => ⟨.fail, v, H⟩
  -- detail/serialization.hpp:817-844
  | .map t, v, h, H =>
    match H.get h with
    | .map es => (readEntries (fun h H => read t t.fresh h H) es [] H).map .map
    | _ => ⟨.fail, v, H⟩
  -- detail/serialization.hpp:873-897, 1078-1106
  | .tup fs, v, h, H =>
    match H.get h with
    | .seq ns => if fs.length < ns.length then ⟨.fail, v, H⟩ else (readIndexed fs v.parts h 0 H).map .record
    | _ => ⟨.fail, v, H⟩
  -- detail/serialization.hpp:899-1038
  | .obj fs, v, h, H =>
    match H.get h with
    | .map _ => (readFields fs v.parts h H).map .record
    | .seq ns => if fs.length < ns.length then ⟨.fail, v, H⟩ else (readIndexed fs v.parts h 0 H).map .record
    | _ => ⟨.fail, v, H⟩
/-- The parts in order, each from the element with its index (detail/serialization.hpp:885-889, 1080-1085,
1019-1021). -/
def readIndexed : Flds → List Val → Handle → Nat → Heap → Res (List Val)
  | .cons _ t fs, v :: vs, h, i, H =>
    match (read t v (atIndex H h i) H).stop with
    | .ok => (readIndexed fs vs h (i + 1) (read t v (atIndex H h i) H).heap).map
        ((read t v (atIndex H h i) H).out :: ·)
    | e => ⟨e, (read t v (atIndex H h i) H).out :: vs, (read t v (atIndex H h i) H).heap⟩
  | _, vs, _, _, H => ⟨.ok, vs, H⟩
/-- The fields in order, each from the entry with its name, or from the null value
(detail/serialization.hpp:912-990). -/
def readFields : Flds → List Val → Handle → Heap → Res (List Val)
  | .cons name t fs, v :: vs, h, H =>
    match lookup H h name with
    | .bad => ⟨.escape, v :: vs, H⟩
    | .missing =>
      match (read t v none H).stop with
      | .ok => (readFields fs vs h (read t v none H).heap).map ((read t v none H).out :: ·)
      | e => ⟨e, (read t v none H).out :: vs, (read t v none H).heap⟩
    | .node n =>
      match (read t v (some n) H).stop with
      | .ok => (readFields fs vs h (read t v (some n) H).heap).map ((read t v (some n) H).out :: ·)
      | e => ⟨e, (read t v (some n) H).out :: vs, (read t v (some n) H).heap⟩
  | _, vs, _, H => ⟨.ok, vs, H⟩
end

mutual
/-- detail/serialization.hpp:1121-1242 `patch`; what has no `patch_adl` is replaced by
`deserialize`. -/
def patch : Ty → Val → Handle → Heap → Res Val
  | .opt t, v, h, H =>
    if (H.get h).isNull then ⟨.ok, .opt none, H⟩
    else match v with
      | .opt (some o) => (patch t o h H).map (.opt ∘ some)
      | v =>
        match (patch t t.fresh h H).stop with
        | .ok => ⟨.ok, .opt (some (patch t t.fresh h H).out), (patch t t.fresh h H).heap⟩
        | e => ⟨e, v, (patch t t.fresh h H).heap⟩
  | .obj fs, v, h, H =>
    match H.get h with
    | .map _ => (patchFields fs v.parts h H).map .record
    | _ => read (.obj fs) v h H
  | t, v, h, H => read t v h H
/-- Fields that are not named keep their values (detail/serialization.hpp:1188-1201). -/
def patchFields : Flds → List Val → Handle → Heap → Res (List Val)
  | .cons name t fs, v :: vs, h, H =>
    match lookup H h name with
    | .bad => ⟨.escape, v :: vs, H⟩
    | .missing => (patchFields fs vs h H).map (v :: ·)
    | .node n =>
      match (patch t v (some n) H).stop with
      | .ok => (patchFields fs vs h (patch t v (some n) H).heap).map ((patch t v (some n) H).out :: ·)
      | e => ⟨e, (patch t v (some n) H).out :: vs, (patch t v (some n) H).heap⟩
  | _, vs, _, H => ⟨.ok, vs, H⟩
end

/-! ### Writing -/

/-- yaml.hpp:383-387 `add_element`: `out.push_back(value)` appends the node itself. -/
def addElement (out : Nat) (h : Handle) (H : Heap) : Heap :=
  let a := H.ensure h
  match a.1.content out with
  | .seq ns => a.1.setData (a.1.ref out) (.seq (ns ++ [a.2]))
  | _ => a.1.setData (a.1.ref out) (.seq [a.2])

/-- The entries of a map. (detail/serialization.hpp:825) -/
def Content.entries : Content → List (String × Nat)
  | .map es => es
  | _ => []

/-- yaml.hpp:361-366 `add_field`: `out[key] = value`: the node of the entry, a new one if there is none
yet, is assigned. -/
def addField (out : Nat) (key : String) (h : Handle) (H : Heap) : Heap :=
  match (H.content out).entries.lookup key with
  | some n => (assign H (some n) h).1
  | none =>
    let a := H.alloc .null
    (assign (a.1.setData (a.1.ref out) (.map ((H.content out).entries ++ [(key, a.2)]))) (some a.2) h).1

/-- serialization.hpp `is_null_value`: an optional without a value. -/
def Val.isNull : Val → Bool
  | .opt none => true
  | _ => false

/-- detail/serialization.hpp:736-745 the loop over a range. -/
def addAll (out : Nat) (f : Val → Heap → Handle × Heap) : List Val → Heap → Heap
  | [], H => H
  | v :: vs, H => addAll out f vs (addElement out (f v H).1 (f v H).2)
/-- detail/serialization.hpp:720-733 the loop over a map. -/
def addEntries (skip : Bool) (out : Nat) (f : Val → Heap → Handle × Heap) : List (String × Val) → Heap → Heap
  | [], H => H
  | (k, v) :: es, H =>
    if skip && v.isNull then addEntries skip out f es H
    else addEntries skip out f es (addField out k (f v H).1 (f v H).2)

mutual
/-- yaml.hpp:443-497 and detail/serialization.hpp:718-813 `serialize`; `skip`: null fields are left
out (yaml.hpp:67-82). -/
def write (skip : Bool) : Ty → Val → Heap → Handle × Heap
  | .scalar _, .scalar s, H => (some (H.alloc (.scalar s)).2, (H.alloc (.scalar s)).1)
  -- yaml.hpp:474-478
  | .view, .view h, H => (h, H)
  | .opt t, .opt (some v), H => write skip t v H
  | .vec t, .vec vs, H =>
    (some (H.alloc (.seq [])).2, addAll (H.alloc (.seq [])).2 (fun v H => write skip t v H) vs (H.alloc (.seq [])).1)
  | .map t, .map es, H =>
    (some (H.alloc (.map [])).2,
      addEntries skip (H.alloc (.map [])).2 (fun v H => write skip t v H) es (H.alloc (.map [])).1)
  | .tup fs, .record vs, H =>
    (some (H.alloc (.seq [])).2, writeIndexed skip fs vs (H.alloc (.seq [])).2 (H.alloc (.seq [])).1)
  | .obj fs, .record vs, H =>
    (some (H.alloc (.map [])).2, writeFields skip fs vs (H.alloc (.map [])).2 (H.alloc (.map [])).1)
  -- an empty optional: `YAML::Node{}`
  | _, _, H => (none, H)
/-- detail/serialization.hpp:787-794 `serialize_tuple`. -/
def writeIndexed (skip : Bool) : Flds → List Val → Nat → Heap → Heap
  | .cons _ t fs, v :: vs, out, H =>
    writeIndexed skip fs vs out (addElement out (write skip t v H).1 (write skip t v H).2)
  | _, _, _, H => H
/-- detail/serialization.hpp `add_reflected_fields`. -/
def writeFields (skip : Bool) : Flds → List Val → Nat → Heap → Heap
  | .cons name t fs, v :: vs, out, H =>
    if skip && v.isNull then writeFields skip fs vs out H
    else writeFields skip fs vs out (addField out name (write skip t v H).1 (write skip t v H).2)
  | _, _, _, H => H
end

end Verif.YamlNode
