/-
Model of `exception_info.hpp`.  Nodes live in a heap; a `shared_ptr` is an optional address.
Nodes are never removed from the heap (releasing an unreachable node has no observable
effect).  A walk along `next_` that does not end, or meets a dangling address, is `none`.
-/
namespace Verif.ExcInfo

/-- exception_info.hpp:76-106 the tag of a node, told apart by its type. -/
abbrev Tag := Nat
/-- exception_info.hpp:76-106 the value of a node. -/
abbrev Val := Nat

/-- exception_info.hpp:21-31, 76-106 a node. -/
structure Node where
  tag : Tag
  val : Val
  next : Option Nat
  deriving DecidableEq

/-- exception_info.hpp:21-31 all nodes made so far. -/
abbrev Heap := List Node

/-- A program state: the heap and the `head_` of every `exception_info` object (exception_info.hpp:225). -/
structure World where
  heap : Heap
  objs : List (Option Nat)

/-- exception_info.hpp:187-199 `get<Tag>()`: the address of the first node with the tag. -/
def find (h : Heap) (tag : Tag) : Nat → Option Nat → Option (Option Nat)
  | _, none => some none
  | 0, some _ => none
  | fuel + 1, some i =>
    match h[i]? with
    | none => none
    | some n => if n.tag = tag then some (some i) else find h tag fuel n.next

/-- exception_info.hpp:158-175 the loop of `unset<Tag>()`: the previous node and the node
found. -/
def findPrev (h : Heap) (tag : Tag) :
    Nat → Option Nat → Option Nat → Option (Option (Option Nat × Nat))
  | _, _, none => some none
  | 0, _, some _ => none
  | fuel + 1, prev, some i =>
    match h[i]? with
    | none => none
    | some n => if n.tag = tag then some (some (prev, i)) else findPrev h tag fuel (some i) n.next

/-- exception_info.hpp:211-215 the walk of `diagnostic_info()`: tag and value of each node. -/
def entries (h : Heap) : Nat → Option Nat → Option (List (Tag × Val))
  | _, none => some []
  | 0, some _ => none
  | fuel + 1, some i =>
    match h[i]? with
    | none => none
    | some n => (entries h fuel n.next).map ((n.tag, n.val) :: ·)

/-- Operations of a client. (exception_info.hpp:116-217) -/
inductive Op
  /-- 116-120 a new object -/
  | new
  /-- 134-151 `obj[o].set<tag>(v)` -/
  | set (o : Nat) (tag : Tag) (v : Val)
  /-- 153-179 `obj[o].unset<tag>()` -/
  | unset (o : Nat) (tag : Tag)
  /-- 124 a new object copied from `obj[o]` -/
  | copy (o : Nat)
  /-- 127 `obj[o] = obj[p]` -/
  | assign (o p : Nat)
  /-- 125 a new object moved from `obj[o]` -/
  | move (o : Nat)
  /-- 187-199 writing through the pointer: `*obj[o].get<tag>() = v` (nothing for a null
  pointer) -/
  | modify (o : Nat) (tag : Tag) (v : Val)

/-- One operation; `none`: divergence or undefined behaviour, also for an object that does not
exist. (exception_info.hpp:116-199) -/
def step (w : World) : Op → Option World
  | .new => some { w with objs := w.objs ++ [none] }
  | .set o tag v =>
    match w.objs[o]? with
    | none => none
    | some head =>
      some { heap := w.heap ++ [⟨tag, v, head⟩], objs := w.objs.set o (some w.heap.length) }
  | .unset o tag =>
    match w.objs[o]? with
    | none => none
    | some head =>
      match findPrev w.heap tag w.heap.length none head with
      | none => none
      | some none => some w
      | some (some (prev, i)) =>
        match w.heap[i]? with
        | none => none
        | some n =>
          match prev with
          | some p =>
            match w.heap[p]? with
            | none => none
            | some np => some { w with heap := w.heap.set p { np with next := n.next } }
          | none => some { w with objs := w.objs.set o n.next }
  | .copy o =>
    match w.objs[o]? with
    | none => none
    | some head => some { w with objs := w.objs ++ [head] }
  | .assign o p =>
    match w.objs[o]?, w.objs[p]? with
    | some _, some head => some { w with objs := w.objs.set o head }
    | _, _ => none
  | .move o =>
    match w.objs[o]? with
    | none => none
    | some head => some { w with objs := w.objs.set o none ++ [head] }
  | .modify o tag v =>
    match w.objs[o]? with
    | none => none
    | some head =>
      match find w.heap tag w.heap.length head with
      | none => none
      | some none => some w
      | some (some i) =>
        match w.heap[i]? with
        | none => none
        | some n => some { w with heap := w.heap.set i { n with val := v } }

/-- A history from the empty state. (calls of exception_info.hpp:116-199) -/
def run : World → List Op → Option World
  | w, [] => some w
  | w, op :: ops => (step w op).bind (run · ops)

/-- `obj[o].get<tag>()`, the value pointed at (exception_info.hpp:181-199). -/
def get (w : World) (o : Nat) (tag : Tag) : Option (Option Val) :=
  match w.objs[o]? with
  | none => none
  | some head =>
    match find w.heap tag w.heap.length head with
    | none => none
    | some none => some none
    | some (some i) => (w.heap[i]?).map fun n => some n.val

/-- `obj[o].diagnostic_info()`: the entries printed, in order (exception_info.hpp:201-217). -/
def diagnostic (w : World) (o : Nat) : Option (List (Tag × Val)) :=
  match w.objs[o]? with
  | none => none
  | some head => entries w.heap w.heap.length head

/-- Model only: no object of exception_info.hpp:108-226 yet. -/
def World.empty : World := ⟨[], []⟩

end Verif.ExcInfo
