/-
How threads take the mutexes of signals. `std::scoped_lock` of two mutexes is made of `lock`, `try_lock` and `unlock` (the standard leaves
open which mutex is tried first); the model of C120 and C121 takes both at once.
-/
namespace Verif.Locks

/-- What a thread does with mutexes. (signal.hpp:424, 704) -/
inductive Cmd where
  /-- signal.hpp:424, 431, 460, 605, 618, 638, 660, 681, 728 -/
  | lock (m : Nat)
  /-- signal.hpp:704 `std::scoped_lock lock{left.mutex_, right.mutex_}` -/
  | both (a b : Nat)
  /-- the destructors of the locks -/
  | unlock (m : Nat)
  deriving DecidableEq

/-- Assignment to one element. (The state of a `std::mutex`, signal.hpp:817) -/
def upd {α : Type} (f : Nat → α) (i : Nat) (v : α) : Nat → α := fun j => if j = i then v else f j

/-! ### Both at once -/

/-- What each thread still has to do, and the owners of mutexes (signal.hpp:817). -/
structure Coarse where
  todo : Nat → List Cmd
  own : Nat → Option Nat

/-- A thread does its next command. (signal.hpp:424, 704, as in `Races/Model.lean`) -/
inductive CoarseStep : Coarse → Nat × Cmd → Coarse → Prop
  | lock {c : Coarse} {t m : Nat} {r : List Cmd} (h : c.todo t = .lock m :: r) (hm : c.own m = none) :
    CoarseStep c (t, .lock m) ⟨upd c.todo t r, upd c.own m (some t)⟩
  | both {c : Coarse} {t a b : Nat} {r : List Cmd} (h : c.todo t = .both a b :: r) (hne : a ≠ b) (ha : c.own a = none) (hb : c.own b = none) :
    CoarseStep c (t, .both a b) ⟨upd c.todo t r, upd (upd c.own a (some t)) b (some t)⟩
  | unlock {c : Coarse} {t m : Nat} {r : List Cmd} (h : c.todo t = .unlock m :: r) (hm : c.own m = some t) :
    CoarseStep c (t, .unlock m) ⟨upd c.todo t r, upd c.own m none⟩

/-- Commands done one after the other. (signal.hpp:424, 704) -/
inductive CoarseRun : Coarse → List (Nat × Cmd) → Coarse → Prop
  | nil {c : Coarse} : CoarseRun c [] c
  | cons {c c' c'' : Coarse} {e : Nat × Cmd} {l : List (Nat × Cmd)} (h : CoarseStep c e c') (hr : CoarseRun c' l c'') : CoarseRun c (e :: l) c''

/-! ### One after the other -/

/-- Also the threads inside `std::scoped_lock` that have one mutex, and whether `try_lock` of the other has failed. (signal.hpp:704) -/
structure Fine where
  todo : Nat → List Cmd
  own : Nat → Option Nat
  half : Nat → Option (Nat × Bool)

/-- The other mutex of two. (signal.hpp:704) -/
def other (a b x : Nat) : Nat := if x = a then b else a

/-- A step of a thread; labelled with the command when it is done. `std::scoped_lock` (signal.hpp:704) locks one of the mutexes, tries the
other, and if that fails unlocks the first and begins again. -/
inductive FineStep : Fine → Option (Nat × Cmd) → Fine → Prop
  | lock {s : Fine} {t m : Nat} {r : List Cmd} (h : s.todo t = .lock m :: r) (hm : s.own m = none) :
    FineStep s (some (t, .lock m)) ⟨upd s.todo t r, upd s.own m (some t), s.half⟩
  | unlock {s : Fine} {t m : Nat} {r : List Cmd} (h : s.todo t = .unlock m :: r) (hm : s.own m = some t) :
    FineStep s (some (t, .unlock m)) ⟨upd s.todo t r, upd s.own m none, s.half⟩
  | take {s : Fine} {t a b x : Nat} {r : List Cmd} (h : s.todo t = .both a b :: r) (hh : s.half t = none) (hx : x = a ∨ x = b)
    (hm : s.own x = none) : FineStep s none ⟨s.todo, upd s.own x (some t), upd s.half t (some (x, false))⟩
  | got {s : Fine} {t a b x : Nat} {r : List Cmd} (h : s.todo t = .both a b :: r) (hh : s.half t = some (x, false))
    (hm : s.own (other a b x) = none) :
    FineStep s (some (t, .both a b)) ⟨upd s.todo t r, upd s.own (other a b x) (some t), upd s.half t none⟩
  | miss {s : Fine} {t a b x : Nat} {r : List Cmd} (h : s.todo t = .both a b :: r) (hh : s.half t = some (x, false))
    (hm : s.own (other a b x) ≠ none) : FineStep s none ⟨s.todo, s.own, upd s.half t (some (x, true))⟩
  | back {s : Fine} {t x : Nat} (hh : s.half t = some (x, true)) : FineStep s none ⟨s.todo, upd s.own x none, upd s.half t none⟩

/-- Steps one after the other, and the commands done. (signal.hpp:424, 704) -/
inductive FineRun : Fine → List (Nat × Cmd) → Fine → Prop
  | nil {s : Fine} : FineRun s [] s
  | cons {s s' s'' : Fine} {e : Option (Nat × Cmd)} {l : List (Nat × Cmd)} (h : FineStep s e s') (hr : FineRun s' l s'') :
    FineRun s (e.toList ++ l) s''

/-- All mutexes are free. (signal.hpp:817) -/
def Coarse.start (p : Nat → List Cmd) : Coarse := ⟨p, fun _ => none⟩
/-- All mutexes are free. (signal.hpp:817) -/
def Fine.start (p : Nat → List Cmd) : Fine := ⟨p, fun _ => none, fun _ => none⟩

/-! ### Signals -/

/-- What a thread calls; an emission is its parts between calls of targets, which run without a mutex. (signal.hpp:415-760) -/
inductive Call where
  /-- 456-464 -/
  | connect (s : Nat)
  /-- 604-613 -/
  | emitBegin (s : Nat)
  /-- 636-642 -/
  | emitNext (s : Nat)
  /-- 614-622 -/
  | emitEnd (s : Nat)
  /-- 658-676 -/
  | disconnectAll (s : Nat)
  /-- 679-689, 692 -/
  | numSlots (s : Nat)
  /-- 726-748 -/
  | disconnect (s : Nat)
  /-- 421-433 -/
  | moveNew (s from_ : Nat)
  /-- 442-447 -/
  | moveAssign (s from_ : Nat)
  /-- 700-716 -/
  | swap (left right : Nat)

/-- A locked section. (signal.hpp:424, 704) -/
inductive Section where
  | one (m : Nat)
  | two (a b : Nat) (h : a ≠ b)

/-- The locked sections of `swap`. (signal.hpp:700-716) -/
def swapSections (left right : Nat) : List Section := if h : left = right then [] else [.two left right h]

/-- The locked sections of a call. (signal.hpp:421-760) -/
def sections : Call → List Section
  | .connect s => [.one s]
  | .emitBegin s => [.one s]
  | .emitNext s => [.one s]
  | .emitEnd s => [.one s]
  | .disconnectAll s => [.one s]
  | .numSlots s => [.one s]
  | .disconnect s => [.one s]
  | .moveNew s f => [.one f, .one s]
  | .moveAssign s f => if s ≠ f then swapSections s f else []
  | .swap l r => swapSections l r

/-- The commands of a section. (signal.hpp:424, 704) -/
def Section.cmds : Section → List Cmd
  | .one m => [.lock m, .unlock m]
  | .two a b _ => [.both a b, .unlock a, .unlock b]

/-- The commands of a thread. (signal.hpp:421-760) -/
def program (calls : List Call) : List Cmd := (calls.flatMap sections).flatMap Section.cmds

end Verif.Locks
