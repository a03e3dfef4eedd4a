import Verif.Path.Alloc
/-
Objects of type `path` and the views of them (`include/kl/path.hpp`), with the memory the segments are in. `value_` is part of the object;
`segments_` (`small_vector<path_segment, 15>`) has a buffer inside the object and goes to a block of its own when it outgrows it. The
compiler writes the copy and move operations of `path` (path.hpp:94-137 declares none): member by member. A moved from `std::string` is taken
to be empty. `small_vector` hands its block over if it has one, otherwise it moves the elements; whether it then empties the source depends
on the version of the library. Memory suffices here (for the lack of it see `Alloc.lean`).
-/
namespace Verif.Path

/-- Memory for segments: how many fit, and those that are there. (path.hpp:136) -/
structure Block where
  cap : Nat
  elems : List Segment
  deriving DecidableEq, Repr

/-- A `path` (path.hpp:135-136): its text, the memory its segments are in, the buffer inside the object. -/
structure Obj where
  text : Str
  arr : Nat
  home : Nat
  deriving DecidableEq, Repr

/-- What the library decides: how much `small_vector` likes to have when it grows, and whether it empties the vector it has moved the
elements from. (path.hpp:136) -/
structure Lib where
  more : Nat → Nat → Nat
  empties : Bool

/-- All objects (path.hpp:94-137) and all memory; `none`: destroyed, freed. -/
structure World where
  objs : List (Option Obj)
  blocks : List (Option Block)
  deriving DecidableEq, Repr

/-- The object, if it lives (path.hpp:94). -/
def World.obj (w : World) (o : Nat) : Option Obj := (w.objs[o]?).join

/-- The memory, if it has not been freed (path.hpp:136). -/
def World.block (w : World) (b : Nat) : Option Block := (w.blocks[b]?).join

/-- The members of an object change (path.hpp:135-136). -/
def World.setObj (w : World) (o : Nat) (x : Option Obj) : World := { w with objs := w.objs.set o x }

/-- Elements are written to memory, or it is freed (path.hpp:136). -/
def World.setBlock (w : World) (b : Nat) (x : Option Block) : World := { w with blocks := w.blocks.set b x }

/-- What an object holds. (path.hpp:135-136) -/
def World.value (w : World) (o : Nat) : Option Path :=
  match w.obj o with
  | none => none
  | some x =>
    match w.block x.arr with
    | none => none
    | some b => some ⟨x.text, b.elems⟩

/-- path.hpp:100 `path()`: the new object is the last one. -/
def World.create (w : World) : World :=
  ⟨w.objs ++ [some ⟨[], w.blocks.length, w.blocks.length⟩], w.blocks ++ [some ⟨15, []⟩]⟩

/-- The memory of an array goes, unless it is the buffer inside the object. (path.hpp:136) -/
def World.release (w : World) (x : Obj) : World := if x.arr = x.home then w else w.setBlock x.arr none

/-- The end of an object: path.hpp:94-137, implicit destructor. -/
def World.destroy (w : World) (o : Nat) : Option World :=
  match w.obj o with
  | none => none
  | some x => some (((w.release x).setBlock x.home none).setObj o none)

/-- The object gets this text and these segments, in memory for `cap` segments: where they are if that is what it has, otherwise in a new
block. (path.cpp:106; path.hpp:94-137, copy assignment) -/
def World.put (w : World) (o : Nat) (x : Obj) (b : Block) (text : Str) (segs : List Segment) (cap : Nat) : World :=
  if cap = b.cap then (w.setBlock x.arr (some ⟨cap, segs⟩)).setObj o (some { x with text := text })
  else
    let w1 := w.release x
    let w2 := if x.arr = x.home then w1.setBlock x.home (some ⟨b.cap, []⟩) else w1
    World.setObj ⟨w2.objs, w2.blocks ++ [some ⟨cap, segs⟩]⟩ o (some { x with text := text, arr := w2.blocks.length })

/-- An allocator that always grants, for `Store.set` (path.cpp:8-46). -/
def Lib.heap (L : Lib) : Heap Unit := ⟨fun _ => (true, ()), L.more⟩

/-- path.cpp:8-46 `set`, with text that is not the path's own; also if it throws. -/
def World.set (L : Lib) (w : World) (o : Nat) (v : Str) : Option World :=
  match w.obj o with
  | none => none
  | some x =>
    match w.block x.arr with
    | none => none
    | some b =>
      let r := (Store.set L.heap ⟨⟨x.text, b.elems⟩, v.length, b.cap, (), []⟩ v).1
      some (w.put o x b r.path.value r.path.segments r.segRoom)

/-- path.cpp:48-52 `clear`. -/
def World.clear (w : World) (o : Nat) : Option World :=
  match w.obj o with
  | none => none
  | some x =>
    match w.block x.arr with
    | none => none
    | some b => some (w.put o x b [] [] b.cap)

/-- path.hpp:94-137, copy assignment. -/
def World.copy (L : Lib) (w : World) (d s : Nat) : Option World :=
  if d = s then (w.value s).map fun _ => w
  else match w.value s, w.obj d with
    | some p, some x =>
      match w.block x.arr with
      | none => none
      | some b =>
        let n := p.segments.length
        some (w.put d x b p.value p.segments (if n ≤ b.cap then b.cap else max n (L.more b.cap n)))
    | _, _ => none

/-- path.hpp:94-137, move assignment; that of an object to itself is not modelled (the library says nothing about the text). -/
def World.move (L : Lib) (w : World) (d s : Nat) : Option World :=
  if d = s then none
  else match w.obj s, w.obj d with
    | some y, some x =>
      match w.block y.arr, w.block x.arr with
      | some c, some b =>
        if y.arr = y.home then
          let n := c.elems.length
          let w1 := w.put d x b y.text c.elems (if n ≤ b.cap then b.cap else max n (L.more b.cap n))
          some (w1.put s y c [] (if L.empties then [] else c.elems) c.cap)
        else
          let w1 := w.release x
          let w2 := if x.arr = x.home then w1.setBlock x.home (some ⟨b.cap, []⟩) else w1
          some ((w2.setObj d (some { x with text := y.text, arr := y.arr })).setObj s (some { y with text := [], arr := y.home }))
      | _, _ => none
    | _, _ => none

/-- path.hpp:117-120 `operator[]`: `none` outside of the segments, or if `substr` throws. -/
def World.segment (w : World) (o i : Nat) : Option Str := (w.value o).bind (·.at i)

/-- Operations on objects. (path.hpp:94-137) -/
inductive Op where
  | create
  | destroy (o : Nat)
  | clear (o : Nat)
  | set (o : Nat) (v : Str)
  | copyNew (s : Nat)
  | moveNew (s : Nat)
  | copy (d s : Nat)
  | move (d s : Nat)
  | setSegment (d s i : Nat)
  deriving DecidableEq, Repr

/-- One operation; `none`: undefined. A path that is `set` to one of its own segments clears the text first and then reads it
(path.cpp:10-16). (path.hpp:94-137) -/
def World.step (L : Lib) (w : World) : Op → Option World
  | .create => some w.create
  | .destroy o => w.destroy o
  | .clear o => w.clear o
  | .set o v => w.set L o v
  | .copyNew s => if s = w.objs.length then none else w.create.copy L w.objs.length s
  | .moveNew s => w.create.move L w.objs.length s
  | .copy d s => w.copy L d s
  | .move d s => w.move L d s
  | .setSegment d s i =>
    match w.segment s i with
    | none => none
    | some v => if d = s ∧ v ≠ [] then none else w.set L d v

/-- Operations, one after the other. (path.hpp:94-137) -/
def World.run (L : Lib) (w : World) : List Op → Option World
  | [] => some w
  | op :: ops => (w.step L op).bind (·.run L ops)

/-- path.hpp:70-72 `path_view`: the object whose text it is, and a place in an array of segments. -/
structure PView where
  value : Nat
  arr : Nat
  first : Nat
  size : Nat
  deriving DecidableEq, Repr

/-- path.hpp:112-115 `view`. -/
def World.view (w : World) (o : Nat) : Option PView :=
  match w.obj o with
  | none => none
  | some x => (w.block x.arr).map fun b => ⟨o, x.arr, 0, b.elems.length⟩

/-- path.hpp:44-47 `drop_front`. -/
def PView.dropFront (v : PView) : PView := { v with first := v.first + 1, size := v.size - 1 }

/-- path.hpp:49-52 `drop_back`. -/
def PView.dropBack (v : PView) : PView := { v with size := v.size - 1 }

/-- What reading gives: nothing is known, `substr` throws out of a `noexcept` function, or text. (path.hpp:21-26, 54-62) -/
inductive Seen where
  | undefined
  | terminated
  | text (s : Str)
  deriving DecidableEq, Repr

/-- path.hpp:38-41 `operator[]` of a view. -/
def World.read (w : World) (v : PView) (i : Nat) : Seen :=
  match w.obj v.value, w.block v.arr with
  | some x, some b =>
    match b.elems[v.first + i]? with
    | none => .undefined
    | some s => if s.offset ≤ x.text.length then .text (substr x.text s.offset s.length) else .terminated
  | _, _ => .undefined

/-- path.hpp:54-62 `prefix`. -/
def World.readPrefix (w : World) (v : PView) (count : Nat) : Seen :=
  if count > v.size then .undefined
  else if count = 0 then .text []
  else match w.obj v.value, w.block v.arr with
    | some x, some b =>
      match b.elems[v.first + (count - 1)]? with
      | none => .undefined
      | some s => .text (x.text.take (s.offset + s.length))
    | _, _ => .undefined

/-- No objects. (path.hpp:94) -/
def World.empty : World := ⟨[], []⟩

end Verif.Path
