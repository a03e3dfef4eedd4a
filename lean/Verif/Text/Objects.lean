import Verif.Text.Model
/-
`stream_joiner` and `outstream_joiner` of `include/kl/stream_join.hpp` as objects: both refer to things that belong to others. Containers,
character buffers and streams live and die and change at any time. What is printed is a list of items (the elements, delimiters and the text
for an empty range). `none`: undefined behaviour, i.e. something is read or written that no longer exists. Streams do not fail.
-/
namespace Verif.Text

/-- A `const char*` (stream_join.hpp:13, 19, 48, 49): to a literal, which lives forever, or into a buffer of somebody else. -/
inductive Ptr
  | lit (t : String)
  | buf (i : Nat)
  deriving DecidableEq, Repr

/-- stream_join.hpp:103 `DelimT delimiter_`: `std::decay_t` (108) makes a `const char*` of a literal or an array; a `std::string` is kept. -/
inductive Held
  | text (t : String)
  | ptr (p : Ptr)
  deriving DecidableEq, Repr

/-- stream_join.hpp:46-49 the members of `stream_joiner`; `xs` says which container is referred to. -/
structure View where
  xs : Nat
  delim : Ptr
  empty : Ptr
  deriving DecidableEq, Repr

/-- stream_join.hpp:102-104 the members of `outstream_joiner`; `stream` says which stream is pointed to. -/
structure Iter where
  stream : Nat
  delimiter : Held
  first : Bool
  deriving DecidableEq, Repr

/-- Everything that stream_join.hpp:9-116 works with: containers, buffers and streams, and the joiners, each by its number. -/
structure World where
  conts : Nat → Option (List String)
  bufs : Nat → Option String
  streams : Nat → Option (List String)
  views : Nat → Option View
  iters : Nat → Option Iter

/-- What a program can do (stream_join.hpp:9-116). The first three are done by others. -/
inductive Act
  /-- a container is made, gets other elements, or is destroyed -/
  | cont (c : Nat) (o : Option (List String))
  /-- likewise a buffer with a text -/
  | buf (b : Nat) (o : Option String)
  /-- a stream is made (and empty), or destroyed -/
  | stream (s : Nat) (on : Bool)
  /-- 53-57 `stream_join` -/
  | join (j c : Nat)
  /-- 13-17 -/
  | delim (j : Nat) (p : Ptr)
  /-- 19-23 -/
  | empty (j : Nat) (p : Ptr)
  /-- the copy constructor, implicit -/
  | copyView (d j : Nat)
  | endView (j : Nat)
  /-- 25-44 -/
  | print (s j : Nat)
  /-- 107-115 `make_outstream_joiner` -/
  | iter (i s : Nat) (h : Held)
  /-- 82, 85: copies -/
  | copyIter (d i : Nat)
  /-- 83, 86: moves -/
  | moveIter (d i : Nat)
  | endIter (i : Nat)
  /-- 92-100 -/
  | write (i : Nat) (v : String)
  deriving DecidableEq, Repr

/-- One entry is replaced. (stream_join.hpp:46-49, 102-104: assignments to members) -/
def upd {α} (f : Nat → Option α) (k : Nat) (o : Option α) : Nat → Option α := fun i => if i = k then o else f i

/-- Reading the text behind a `const char*`. (stream_join.hpp:36, 40, 96) -/
def World.read (w : World) : Ptr → Option String
  | .lit t => some t
  | .buf b => w.bufs b

/-- stream_join.hpp:96 the delimiter as it is written. -/
def World.held (w : World) : Held → Option String
  | .text t => some t
  | .ptr p => w.read p

/-- stream_join.hpp:34-36: `os << sj.delim_ << *i` for the elements after the first. -/
def World.tail (w : World) (delim : Ptr) : List String → Option (List String)
  | [] => some []
  | x :: xs =>
    match w.read delim, w.tail delim xs with
    | some d, some out => some (d :: x :: out)
    | _, _ => none

/-- stream_join.hpp:25-44 what `operator<<` writes. The delimiter is only read between elements, the text for an empty range only for one. -/
def World.items (w : World) (v : View) : Option (List String) :=
  match w.conts v.xs with
  | none => none
  | some [] => (w.read v.empty).map fun e => [e]
  | some (x :: xs) => (w.tail v.delim xs).map fun out => x :: out

/-- stream_join.hpp:92-100 what is written for one value, and `first_` afterwards is false. -/
def World.value (w : World) (it : Iter) (v : String) : Option (List String) :=
  if !it.first then (w.held it.delimiter).map fun d => [d, v] else some [v]

/-- A moved-from delimiter: stream_join.hpp:83, 86 move the `std::string`, of which nothing remains; pointers stay. -/
def Held.moved : Held → Held
  | .text _ => .text ""
  | .ptr p => .ptr p

/-- One action (stream_join.hpp:9-116). A joiner moved to itself is not described (`std::string` says nothing about its value then). -/
def World.act (w : World) : Act → Option World
  | .cont c o => some { w with conts := upd w.conts c o }
  | .buf b o => some { w with bufs := upd w.bufs b o }
  | .stream s on => some { w with streams := upd w.streams s (if on then some [] else none) }
  | .join j c =>
    match w.conts c with
    | none => none
    | some _ => some { w with views := upd w.views j (some ⟨c, .lit ", ", .lit "."⟩) }
  | .delim j p =>
    match w.views j with
    | none => none
    | some v => some { w with views := upd w.views j (some { v with delim := p }) }
  | .empty j p =>
    match w.views j with
    | none => none
    | some v => some { w with views := upd w.views j (some { v with empty := p }) }
  | .copyView d j =>
    match w.views j with
    | none => none
    | some v => some { w with views := upd w.views d (some v) }
  | .endView j =>
    match w.views j with
    | none => none
    | some _ => some { w with views := upd w.views j none }
  | .print s j =>
    match w.streams s, w.views j with
    | some t, some v => (w.items v).map fun out => { w with streams := upd w.streams s (some (t ++ out)) }
    | _, _ => none
  | .iter i s h =>
    match w.streams s with
    | none => none
    | some _ => some { w with iters := upd w.iters i (some ⟨s, h, true⟩) }
  | .copyIter d i =>
    match w.iters i with
    | none => none
    | some it => some { w with iters := upd w.iters d (some it) }
  | .moveIter d i =>
    match w.iters i with
    | none => none
    | some it =>
      if d = i then none
      else some { w with iters := upd (upd w.iters i (some { it with delimiter := it.delimiter.moved })) d (some it) }
  | .endIter i =>
    match w.iters i with
    | none => none
    | some _ => some { w with iters := upd w.iters i none }
  | .write i v =>
    match w.iters i with
    | none => none
    | some it =>
      match w.streams it.stream with
      | none => none
      | some t =>
        (w.value it v).map fun out =>
          { w with streams := upd w.streams it.stream (some (t ++ out)), iters := upd w.iters i (some { it with first := false }) }

/-- Actions, one after the other. (stream_join.hpp:9-116) -/
def World.run (w : World) : List Act → Option World
  | [] => some w
  | a :: as =>
    match w.act a with
    | none => none
    | some w' => w'.run as

/-- Before anything happened. (stream_join.hpp:9-116) -/
def World.init : World := ⟨fun _ => none, fun _ => none, fun _ => none, fun _ => none, fun _ => none⟩

/-- `std::copy(xs.begin(), xs.end(), i)`: the iterator is passed by value (as `tmp`), written to (stream_join.hpp:88-100), and returned.
`kept`: what is returned is assigned to the iterator again. -/
def copyAlgorithm (kept : Bool) (xs : List String) (i tmp : Nat) : List Act :=
  .copyIter tmp i :: (xs.map fun x => .write tmp x) ++ (if kept then [.moveIter i tmp] else []) ++ [.endIter tmp]

end Verif.Text
