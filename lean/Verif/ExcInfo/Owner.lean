import Verif.ExcInfo.Model
/-
The nodes of `exception_info` with their reference counts: when they are destroyed. `Model.lean` never destroys a node; here the
`shared_ptr`s do. Addresses are not used again.
-/
namespace Verif.ExcInfo

/-- exception_info.hpp:21-31, 76-106 a node and the number of `shared_ptr`s to it (the control block of `make_shared`, 137, 147). -/
structure Counted where
  tag : Tag
  val : Val
  next : Option Nat
  count : Nat
  deriving DecidableEq

/-- exception_info.hpp:30 all nodes made so far; `none`: destroyed. -/
abbrev Cells := List (Option Counted)

/-- A program state: the nodes, and the `head_` of every object (exception_info.hpp:225), `none` if the object was destroyed. -/
structure Own where
  cells : Cells
  objs : List (Option (Option Nat))
  deriving DecidableEq

/-- Why there is no next state: the program uses an object that it does not have (108-226), or the library a node that does not exist. -/
inductive Fault where
  | noObject
  | ub
  deriving DecidableEq

/-- Access through a pointer. (exception_info.hpp:165, 194 `(*node)->`) -/
def deref (cs : Cells) (i : Nat) : Except Fault Counted :=
  match cs[i]? with
  | some (some c) => .ok c
  | _ => .error .ub

/-- A copy of a `shared_ptr`: one more reference (exception_info.hpp:138, 168). -/
def retain (cs : Cells) : Option Nat → Except Fault Cells
  | none => .ok cs
  | some i => (deref cs i).map fun c => cs.set i (some { c with count := c.count + 1 })

/-- A `shared_ptr` is destroyed or overwritten: one less reference. With the last one the node is destroyed, and with it its member `next_`
(exception_info.hpp:30). Also the nodes destroyed, outermost call first. -/
def release (cs : Cells) : Nat → Option Nat → Except Fault (Cells × List Nat)
  | _, none => .ok (cs, [])
  | 0, some _ => .error .ub
  | fuel + 1, some i =>
    match deref cs i with
    | .error e => .error e
    | .ok c =>
      match c.count with
      | 0 => .error .ub
      | 1 =>
        match release (cs.set i none) fuel c.next with
        | .error e => .error e
        | .ok (cs, l) => .ok (cs, i :: l)
      | k + 2 => .ok (cs.set i (some { c with count := k + 1 }), [])

/-- exception_info.hpp:190-196 the loop of `get`. -/
def seek (cs : Cells) (tag : Tag) : Nat → Option Nat → Except Fault (Option Nat)
  | _, none => .ok none
  | 0, some _ => .error .ub
  | fuel + 1, some i =>
    match deref cs i with
    | .error e => .error e
    | .ok c => if c.tag = tag then .ok (some i) else seek cs tag fuel c.next

/-- exception_info.hpp:163-176 the loop of `unset`. -/
def seekPrev (cs : Cells) (tag : Tag) : Nat → Option Nat → Option Nat → Except Fault (Option (Option Nat × Nat))
  | _, _, none => .ok none
  | 0, _, some _ => .error .ub
  | fuel + 1, prev, some i =>
    match deref cs i with
    | .error e => .error e
    | .ok c => if c.tag = tag then .ok (some (prev, i)) else seekPrev cs tag fuel (some i) c.next

/-- exception_info.hpp:211-215 the loop of `diagnostic_info`. -/
def listing (cs : Cells) : Nat → Option Nat → Except Fault (List (Tag × Val))
  | _, none => .ok []
  | 0, some _ => .error .ub
  | fuel + 1, some i =>
    match deref cs i with
    | .error e => .error e
    | .ok c => (listing cs fuel c.next).map ((c.tag, c.val) :: ·)

/-- The object, if the program has it. (exception_info.hpp:108-226) -/
def obj (s : Own) (o : Nat) : Except Fault (Option Nat) :=
  match s.objs[o]? with
  | some (some h) => .ok h
  | _ => .error .noObject

/-- What a client does. (exception_info.hpp:111-199) -/
inductive OwnOp
  /-- 116-120, 124-125, 127, 134-199 as before -/
  | plain (op : Op)
  /-- 134-151 `set` when memory runs out -/
  | setFails (o : Nat)
  /-- 128 `obj[o] = std::move(obj[p])` -/
  | moveAssign (o p : Nat)
  /-- 122 the object is destroyed -/
  | destroy (o : Nat)

/-- exception_info.hpp:137-140 `set`: the local `node`, `next_ = head_`, `head_ = node` and the end of `node`. -/
def setStep (s : Own) (o : Nat) (tag : Tag) (v : Val) : Except Fault (Own × List Nat) := do
  let h ← obj s o
  let i := s.cells.length
  let cs ← retain (s.cells ++ [some ⟨tag, v, none, 1⟩]) h
  let c ← deref cs i
  let cs := cs.set i (some { c with next := h })
  let cs ← retain cs (some i)
  let (cs, l) ← release cs cs.length h
  let (cs, l') ← release cs cs.length (some i)
  pure (⟨cs, s.objs.set o (some (some i))⟩, l ++ l')

/-- exception_info.hpp:156-178 `unset`: the copy of `next_` is made before the reference to the node is given up. -/
def unsetStep (s : Own) (o : Nat) (tag : Tag) : Except Fault (Own × List Nat) := do
  let h ← obj s o
  match ← seekPrev s.cells tag s.cells.length none h with
  | none => pure (s, [])
  | some (prev, i) =>
    let c ← deref s.cells i
    let cs ← retain s.cells c.next
    match prev with
    | some p =>
      let cp ← deref cs p
      let (cs, l) ← release (cs.set p (some { cp with next := c.next })) cs.length (some i)
      pure (⟨cs, s.objs⟩, l)
    | none =>
      let (cs, l) ← release cs cs.length (some i)
      pure (⟨cs, s.objs.set o (some c.next)⟩, l)

/-- One operation: the new state and the nodes destroyed. (exception_info.hpp:111-199) -/
def ownStep (s : Own) : OwnOp → Except Fault (Own × List Nat)
  | .plain .new => pure ({ s with objs := s.objs ++ [some none] }, [])
  | .plain (.set o tag v) => setStep s o tag v
  | .plain (.unset o tag) => unsetStep s o tag
  | .plain (.copy o) => do
    let h ← obj s o
    let cs ← retain s.cells h
    pure (⟨cs, s.objs ++ [some h]⟩, [])
  | .plain (.assign o p) => do
    let old ← obj s o
    let h ← obj s p
    let cs ← retain s.cells h
    let (cs, l) ← release cs cs.length old
    pure (⟨cs, s.objs.set o (some h)⟩, l)
  | .plain (.move o) => do
    let h ← obj s o
    pure ({ s with objs := s.objs.set o (some none) ++ [some h] }, [])
  | .plain (.modify o tag v) => do
    let h ← obj s o
    match ← seek s.cells tag s.cells.length h with
    | none => pure (s, [])
    | some i =>
      let c ← deref s.cells i
      pure ({ s with cells := s.cells.set i (some { c with val := v }) }, [])
  | .setFails o => do
    let _ ← obj s o
    pure (s, [])
  | .moveAssign o p => do
    let h ← obj s p
    let s := { s with objs := s.objs.set p (some none) }
    let old ← obj s o
    let (cs, l) ← release s.cells s.cells.length old
    pure (⟨cs, s.objs.set o (some h)⟩, l)
  | .destroy o => do
    let h ← obj s o
    let (cs, l) ← release s.cells s.cells.length h
    pure (⟨cs, s.objs.set o none⟩, l)

/-- A history from a state, and the nodes destroyed in it. (calls of exception_info.hpp:111-199) -/
def ownRun : Own → List OwnOp → Except Fault (Own × List Nat)
  | s, [] => .ok (s, [])
  | s, op :: ops =>
    match ownStep s op with
    | .error e => .error e
    | .ok (s, l) =>
      match ownRun s ops with
      | .error e => .error e
      | .ok (s, l') => .ok (s, l ++ l')

/-- `obj[o].get<tag>()`: the node (exception_info.hpp:181-199). -/
def getNode (s : Own) (o : Nat) (tag : Tag) : Except Fault (Option Nat) := do
  let h ← obj s o
  seek s.cells tag s.cells.length h

/-- `obj[o].diagnostic_info()` (exception_info.hpp:201-217). -/
def shownBy (s : Own) (o : Nat) : Except Fault (List (Tag × Val)) := do
  let h ← obj s o
  listing s.cells s.cells.length h

/-- Model only: no object of exception_info.hpp:108-226 yet. -/
def Own.empty : Own := ⟨[], []⟩

end Verif.ExcInfo
