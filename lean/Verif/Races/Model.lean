import Verif.Races.Spec

/-!
Model of `signal.hpp` for data races: any number of threads, with a step for every single access to an atomic
variable or a mutex (`Verif/Signal` takes a critical section as one step). The ordinary memory that is
accessed between two such accesses is accessed in the same step, under the mutex. Every step appends what it
does to the trace.

Simplifications:
* The links of the slots of a signal are kept as a list (that the pointers make up such a list is part of
  `Verif/Signal`); the trace tells which links are read and written.
* Loads of `sender_` and `blocking_` may give anything (`b` in `Op.cont`) and never synchronise, so that
  outdated values are covered; only the clean-up sees what was stored under the same mutex (`Mem.seen`). Modifications of atomic variables are interleaved.
* Destroying a target runs no user code. Signals are not destroyed here (`Destroy.lean` puts that into an
  execution). Counters do not overflow.
* `std::scoped_lock` locks its mutexes in one step, when both are free.
* Users pass references to slots and to signals between threads by some means of synchronisation: `give` and
  `take`, `publish` and `learn` (a box is whatever they use). Any object of type `connection` or `blocker` is
  a reference (`handles`); it is used by one thread at a time.
-/

namespace Verif.Races

/-- Who holds a reference. (signal.hpp:130, 142, 153, 207, 225, 242: `connection` and `blocker` add a reference) -/
inductive Holder where
  | thread (t : Nat)
  | box (k : Nat)
  deriving DecidableEq, Repr

/-- Memory. (signal.hpp:26-101, 787-818 the members of slots and signals) -/
structure Mem where
  /-- what happened so far -/
  tr : List Ev
  /-- signal.hpp:817 `mutex_` (and, before its construction has ended, the thread that makes the signal) -/
  held : Nat → Option Nat
  /-- signal.hpp:814-815 `slots_`, `tail_` and 810 `next` -/
  list : Nat → List Nat
  /-- signal.hpp:816 -/
  active : Nat → Nat
  /-- signal.hpp:818 -/
  deferred : Nat → Bool
  /-- signal.hpp:41 -/
  count : Nat → Nat
  /-- signal.hpp:97 -/
  sender : Nat → Option Nat
  /-- the last `store` (not counting exchanges) to that, under the mutex, was null -/
  marked : Nat → Bool
  /-- the object exists -/
  live : Nat → Bool
  nslots : Nat
  nsigs : Nat
  /-- This and the rest is for the proofs; nothing in the model depends on it. -/
  refs : Nat → List Holder
  own : Nat → Option Nat
  dying : Nat → Option Nat
  newEv : Nat → Nat
  sndEv : Nat → Nat
  birth : Nat → Nat
  born : Nat → Bool
  ems : Nat → List Nat

/-- No code: assignment to a member of one object. -/
def upd {α : Type} (f : Nat → α) (i : Nat) (x : α) : Nat → α := fun j => if j = i then x else f j

/-- An action of thread `t`. (no code: how the trace grows; signal.hpp:398-860 is what is traced) -/
def Mem.ev (m : Mem) (t : Nat) (y : Sync) (acc : List (Loc × Bool)) : Mem :=
  { m with tr := m.tr ++ [⟨t, y, acc⟩] }

/-! ### Accesses -/

/-- To call `mutex_.lock()`: the mutex has to exist. (signal.hpp:424, 431, 460, 605, 618, 638, 660, 681, 704, 728) -/
def Mem.calls (m : Mem) (t g : Nat) : Mem := m.ev t .none [(.mtx g, false)]

/-- `mutex_.lock()`. (signal.hpp:424, 431, 460, 605, 618, 638, 660, 681, 704, 728) -/
def Mem.lock (m : Mem) (t g : Nat) : Mem :=
  { (m.calls t g).ev t (.lock g) [] with held := upd m.held g (some t) }

/-- `mutex_.unlock()`. (signal.hpp:430, 433, 464, 613, 622, 642, 676, 689, 714, 748: the ends of those blocks) -/
def Mem.unlock (m : Mem) (t g : Nat) : Mem := { m.ev t (.unlock g) [] with held := upd m.held g none }

/-- Any access to an atomic member or the target of a slot that does not synchronise.
(signal.hpp:57-77, 86-89, 626, 630) -/
def Mem.touch (m : Mem) (t s : Nat) : Option Mem :=
  if m.live s then some (m.ev t .none [(.obj s, false)]) else none

/-- signal.hpp:33 `add_ref`: one more reference. -/
def Mem.added (m : Mem) (t s : Nat) : Mem :=
  { m with count := upd m.count s (m.count s + 1), refs := upd m.refs s (.thread t :: m.refs s) }

/-- signal.hpp:33 `add_ref`. -/
def Mem.addRef (m : Mem) (t s : Nat) : Option Mem := (m.touch t s).map fun m => m.added t s

/-- signal.hpp:36 `release`: one reference less. -/
def Mem.subbed (m : Mem) (t s : Nat) : Mem :=
  { m.ev t (.sub s) [(.obj s, false)] with
    count := upd m.count s (m.count s - 1)
    refs := upd m.refs s ((m.refs s).erase (.thread t))
    dying := if m.count s = 1 then upd m.dying s (some t) else m.dying }

/-- signal.hpp:36 the decrement in `release`; the result tells whether `delete` comes next. -/
def Mem.sub (m : Mem) (t s : Nat) : Option (Mem × Bool) :=
  if m.live s && m.count s != 0 then some (m.subbed t s, m.count s == 1) else none

/-- signal.hpp:37 `delete`. -/
def Mem.deleted (m : Mem) (t s : Nat) : Mem :=
  { m.ev t .none [(.obj s, true), (.nxt s, true)] with
    live := upd m.live s false
    dying := upd m.dying s none }

/-- signal.hpp:37 `delete` of an object that exists. -/
def Mem.del (m : Mem) (t s : Nat) : Option Mem := if m.live s then some (m.deleted t s) else none

/-- signal.hpp:805-808 `rebind`, 800-803 `invalidate`. -/
def Mem.stored (m : Mem) (t s : Nat) (v : Option Nat) : Mem :=
  { m.ev t (.store s) [(.obj s, false)] with
    sender := upd m.sender s v
    marked := upd m.marked s v.isNone
    sndEv := upd m.sndEv s m.tr.length }

/-- signal.hpp:805-808 the store to `sender_` of a slot that exists. -/
def Mem.store (m : Mem) (t s : Nat) (v : Option Nat) : Option Mem :=
  if m.live s then some (m.stored t s v) else none

/-- signal.hpp:86-89 `valid` in the clean-up (775), under the mutex: stores were made under the same mutex and
happened before, so that the load gives what was stored last (`C126_seen`), unless it has been exchanged since, which
the load may see or not. -/
def Mem.seen (m : Mem) (s : Nat) (b : Bool) : Bool := !m.marked s && ((m.sender s).isSome || b)

/-- signal.hpp:81 the exchange in `disconnect`. -/
def Mem.xchgd (m : Mem) (t s : Nat) : Mem :=
  { m.ev t (.xchg s) [(.obj s, false)] with sender := upd m.sender s none }

/-- signal.hpp:81 the exchange, and the value before. -/
def Mem.xchg (m : Mem) (t s : Nat) : Option (Mem × Option Nat) :=
  if m.live s then some (m.xchgd t s, m.sender s) else none

/-! ### Lists -/

/-- The link of a slot in a list. (signal.hpp:810 `next`) -/
def succ : List Nat → Nat → Option Nat
  | a :: b :: l, s => if a = s then some b else succ (b :: l) s
  | _, _ => none

/-- The slot that links to a slot. (signal.hpp:810 `next`; 731, 773-778, 852 `prev`) -/
def pred : List Nat → Nat → Option Nat
  | a :: b :: l, s => if b = s then some a else pred (b :: l) s
  | _, _ => none

/-- Reading (`w = false`) or writing the link of a slot. (signal.hpp:810) -/
def link (s : Nat) (w : Bool) : List (Loc × Bool) := [(.obj s, false), (.nxt s, w)]

/-- `s->next`, under the mutex of `g`. The link of a slot that is not in the list leads nowhere.
(signal.hpp:639, 673, 683, 731, 755, 778, 850) -/
def Mem.next (m : Mem) (t g s : Nat) : Option (Mem × Option Nat) :=
  if m.live s && (m.list g).contains s then some (m.ev t .none (link s false), succ (m.list g) s) else none

/-- signal.hpp:370-377 `connect_position`. -/
inductive Pos where
  | back
  | front
  deriving DecidableEq, Repr

/-- signal.hpp:826-845 `insert_new_slot_locked`: the links that are written. -/
def insertLinks (l : List Nat) (n : Nat) : Pos → List (Loc × Bool)
  | .back => match l.getLast? with
    | none => []
    | some z => link z true
  | .front => if l.isEmpty then [] else link n true

/-- signal.hpp:826-845 the list afterwards. -/
def insertAt (l : List Nat) (n : Nat) : Pos → List Nat
  | .back => l ++ [n]
  | .front => n :: l

/-- signal.hpp:461 the new slot, with the reference of the list (50). -/
def Mem.made (m : Mem) (t g : Nat) (pos : Pos) : Mem :=
  let s := m.nslots
  { m.ev t .none [(.obj s, true), (.nxt s, true)] with
    list := upd m.list g (insertAt (m.list g) s pos)
    own := upd m.own s (some g)
    count := upd m.count s 1
    sender := upd m.sender s (some g)
    marked := upd m.marked s false
    live := upd m.live s true
    nslots := s + 1
    newEv := upd m.newEv s m.tr.length
    sndEv := upd m.sndEv s m.tr.length }

/-- signal.hpp:461-462 a new slot in the list of `g`. -/
def Mem.insert (m : Mem) (t g : Nat) (pos : Pos) : Mem :=
  (m.made t g pos).ev t .none ((.fld g, true) :: insertLinks (m.list g) m.nslots pos)

/-- signal.hpp:852 `prev->next = next`. -/
def removeLinks (l : List Nat) (s : Nat) : List (Loc × Bool) :=
  match pred l s with
  | none => []
  | some p => link p true

/-- signal.hpp:850-856 the part of `remove_slot_locked` before 857: the thread takes over the reference. -/
def Mem.removed (m : Mem) (t g s : Nat) : Mem :=
  { m.ev t .none ((.fld g, true) :: (link s false ++ removeLinks (m.list g) s)) with
    list := upd m.list g ((m.list g).erase s)
    own := upd m.own s none
    refs := upd m.refs s (.thread t :: m.refs s) }

/-- signal.hpp:849-856; without emissions only (849). -/
def Mem.remove (m : Mem) (t g s : Nat) : Option Mem :=
  if m.live s && (m.list g).contains s && m.active g == 0 then some (m.removed t g s) else none

/-- Accesses to the members of a signal. (signal.hpp:814-818) -/
def Mem.fields (m : Mem) (t g : Nat) : Mem := m.ev t .none [(.fld g, true)]

/-- signal.hpp:708-710 `swap` of the members. -/
def Mem.swapped (m : Mem) (g g' : Nat) : Mem :=
  { m with
    list := upd (upd m.list g (m.list g')) g' (m.list g)
    own := fun s => if m.own s = some g then some g' else if m.own s = some g' then some g else m.own s
    deferred := upd (upd m.deferred g (m.deferred g')) g' (m.deferred g) }

/-- signal.hpp:426-429 the members go to the new signal. -/
def Mem.moved (m : Mem) (g g' : Nat) : Mem :=
  { m with
    list := upd (upd m.list g []) g' (m.list g)
    own := fun s => if m.own s = some g then some g' else m.own s
    deferred := upd (upd m.deferred g false) g' (m.deferred g) }

/-- signal.hpp:430 the end of that critical section; from here on the mutex protects the new signal. -/
def Mem.finished (m : Mem) (t g g' : Nat) : Mem :=
  let n := m.tr.length
  let m := m.unlock t g
  { m with held := upd m.held g' none, birth := upd m.birth g' n, born := upd m.born g' true }

/-- The data members of a new signal are initialised. (signal.hpp:409, 421, 814-818) -/
def Mem.sigMade (m : Mem) (t : Nat) : Mem := m.ev t .none [(.fld m.nsigs, true), (.mtx m.nsigs, true)]

/-- signal.hpp:409 a new signal. -/
def Mem.newSig (m : Mem) (t : Nat) : Mem :=
  { m.sigMade t with
    nsigs := m.nsigs + 1, birth := upd m.birth m.nsigs m.tr.length, born := upd m.born m.nsigs true }

/-- signal.hpp:421 the members of a signal that is being constructed. -/
def Mem.beginMove (m : Mem) (t : Nat) : Mem :=
  { m.sigMade t with nsigs := m.nsigs + 1, held := upd m.held m.nsigs (some t) }

/-- signal.hpp:606 `++active_emissions_`. -/
def Mem.began (m : Mem) (t g : Nat) : Mem :=
  { m with active := upd m.active g (m.active g + 1), ems := upd m.ems g (t :: m.ems g) }

/-- signal.hpp:619 `active_emissions_--`. -/
def Mem.ended (m : Mem) (t g : Nat) : Mem :=
  { m with active := upd m.active g (m.active g - 1), ems := upd m.ems g ((m.ems g).erase t) }

/-- Writing `deferred_cleanup_`. (signal.hpp:671, 744, 785) -/
def Mem.defer (m : Mem) (t g : Nat) (b : Bool) : Mem := { m.fields t g with deferred := upd m.deferred g b }

/-- A reference of the users goes to a box. (no code: what users do with `connection`, signal.hpp:124-297) -/
def Mem.given (m : Mem) (t s k : Nat) : Mem :=
  { m.ev t (.rel k) [] with refs := upd m.refs s (.box k :: (m.refs s).erase (.thread t)) }

/-- A reference comes from a box. (no code: what users do with `connection`, signal.hpp:124-297) -/
def Mem.taken (m : Mem) (t s k : Nat) : Mem :=
  { m.ev t (.acq k) [] with refs := upd m.refs s (.thread t :: (m.refs s).erase (.box k)) }

/-! ### The code of the library

Where a thread is, with its local variables. -/

/-- What comes after `cleanup_invalidated_slots_locked` and `rebind_locked`. (signal.hpp:432, 621, 712-713) -/
inductive K where
  /-- 620-622 -/
  | em (g : Nat)
  /-- 712 -/
  | sw1 (g g' : Nat)
  /-- 713 -/
  | sw2 (g g' : Nat)
  /-- 432 -/
  | mv (g : Nat)
  deriving DecidableEq, Repr

/-- signal.hpp:398-860: the places between two accesses to atomic variables or mutexes. -/
inductive Code where
  /-- in code of the users -/
  | idle
  /-- 605 -/
  | emLock (g : Nat)
  /-- 608-609 -/
  | emRef1 (g : Nat) (last cur : Option Nat)
  /-- 611-612 -/
  | emRef2 (g : Nat) (last cur : Option Nat)
  /-- 613 -/
  | emUnl (g : Nat) (last cur : Option Nat)
  /-- 624-626 -/
  | emHead (g : Nat) (last cur : Option Nat)
  /-- 626, `valid()` -/
  | emChk (g : Nat) (last : Option Nat) (c : Nat)
  /-- 630: the target is read and called -/
  | emCall (g : Nat) (last : Option Nat) (c : Nat)
  /-- 633-639 -/
  | emAdv (g : Nat) (last : Option Nat) (c : Nat)
  /-- 640-641 -/
  | emNRef (g : Nat) (last : Option Nat) (c : Nat) (next : Option Nat)
  /-- 642 -/
  | emNUnl (g : Nat) (last : Option Nat) (c : Nat) (next : Option Nat)
  /-- 644 -/
  | emRel (g : Nat) (last : Option Nat) (c : Nat) (next : Option Nat)
  | emDel (g : Nat) (last : Option Nat) (c : Nat) (next : Option Nat)
  /-- 615-616 -/
  | emFin (g : Nat) (last : Option Nat)
  | emFinDel (g s : Nat)
  /-- 618-619 -/
  | emEnd (g : Nat)
  /-- 773-785 -/
  | cl (g : Nat) (iter : Option Nat) (k : K)
  /-- 857 -/
  | clRel (g s : Nat) (next : Option Nat) (k : K)
  | clDel (g s : Nat) (next : Option Nat) (k : K)
  /-- 755-758 -/
  | rb (g : Nat) (iter : Option Nat) (k : K)
  /-- the end of a critical section -/
  | unl (g : Nat)
  | unl2 (g g' : Nat)
  /-- 728 -/
  | disLock (s g : Nat)
  /-- 730-734 -/
  | disLoop (s g : Nat) (iter : Option Nat)
  /-- 736-745 -/
  | disStore (s g : Nat)
  /-- 857 -/
  | disRel (s g : Nat)
  | disDel (s g : Nat)
  /-- 748 -/
  | disUnl (s g : Nat)
  /-- 136, 150, 179, 217, 237: a handle releases its slot -/
  | rel (s : Nat)
  | del (s : Nat)
  /-- 660 -/
  | allLock (g : Nat)
  /-- 662-674 -/
  | allLoop (g : Nat) (iter : Option Nat)
  /-- 857 -/
  | allRel (g s : Nat) (next : Option Nat)
  | allDel (g s : Nat) (next : Option Nat)
  /-- 681 -/
  | numLock (g : Nat)
  /-- 683-687 -/
  | numLoop (g : Nat) (iter : Option Nat)
  /-- 460 -/
  | conLock (g : Nat) (pos : Pos)
  /-- 463, 128-131 -/
  | conRef (g s : Nat)
  /-- 704 -/
  | swLock (g g' : Nat)
  /-- 424 -/
  | mvLock (g g' : Nat)
  /-- 430 -/
  | mvUnl (g g' : Nat)
  /-- 431 -/
  | mvLock2 (g : Nat)
  deriving DecidableEq, Repr

/-- A target that runs: the emission that called it, with its variables.
(signal.hpp:602-603 `last`, `current` and `this` during 630) -/
structure Call where
  sig : Nat
  last : Option Nat
  cur : Nat
  deriving DecidableEq, Repr

/-- signal.hpp:587-650 the frames of emissions, 124-297 the objects of users. -/
structure Thread where
  code : Code
  calls : List Call
  /-- the `connection` and `blocker` objects (that are not empty) of this thread -/
  handles : List Nat
  /-- the signals that this thread knows -/
  knows : List Nat
  /-- references that are never released: 630 with a target that throws skips 644 (nothing depends on this) -/
  lost : List Nat
  deriving DecidableEq, Repr

/-- signal.hpp:26-860: memory and the threads that use it. -/
structure State where
  mem : Mem
  threads : Nat → Thread
  /-- what users have passed on and nobody has taken yet -/
  boxH : Nat → List Nat
  boxS : Nat → List Nat

/-- signal.hpp:717-724 `terminate`; the rest is no code. -/
inductive Out where
  | ok (st : State)
  /-- not possible now -/
  | off
  /-- undefined behaviour other than a data race -/
  | ub
  /-- `std::terminate` -/
  | term

/-- What a thread does next. (signal.hpp:124-368, 398-715, 865-886: the functions that users call) -/
inductive Op where
  /-- the library goes on; `b` is what a load may give -/
  | cont (b : Bool)
  | newSig
  | connect (g : Nat) (pos : Pos)
  | emit (g : Nat)
  | discAll (g : Nat)
  | numSlots (g : Nat)
  | swap (g g' : Nat)
  | moveSig (g : Nat)
  /-- 139-143, 152-153, 203-210, 221-228, 240-244: another reference from handle `i` -/
  | copy (i : Nat)
  /-- 133-137, 149-150, 212-219, 234-238 -/
  | drop (i : Nat)
  /-- 174-181, 317 -/
  | disconnect (i : Nat)
  /-- 57-72, 74-77: `connected`, `block`, `unblock` -/
  | touch (i : Nat)
  /-- 882-886 -/
  | current
  /-- a handle goes to another thread -/
  | give (i k : Nat)
  | take (k i : Nat)
  /-- a reference to a signal goes to another thread -/
  | publish (g k : Nat)
  | learn (k i : Nat)
  /-- the target returns -/
  | ret
  /-- the target throws -/
  | throw
  deriving DecidableEq, Repr

/-- No code: the thread has done a step. -/
def State.go (st : State) (t : Nat) (m : Mem) (th : Thread) : Out :=
  .ok { st with mem := m, threads := upd st.threads t th }

/-- Wait for a mutex. (signal.hpp:605 `std::lock_guard`) -/
def whenFree (m : Mem) (g : Nat) (k : Out) : Out := if m.held g = none then k else .off

/-- No code: an access to an object that has to exist. -/
def orUb {α : Type} (x : Option α) (k : α → Out) : Out :=
  match x with
  | none => .ub
  | some a => k a

/-- After the release of a slot: `delete` it, or go on. (signal.hpp:36-37) -/
def thenDel (r : Mem × Bool) (yes no : Code) : Code := if r.2 then yes else no

/-- The signal whose list is cleaned up or rebound. (signal.hpp:761 `this`) -/
def K.sig : K → Nat
  | .em g => g
  | .sw1 g _ => g
  | .sw2 _ g' => g'
  | .mv g => g

/-- What comes after the clean-up, at `iter` of its list. (signal.hpp:750-759, 621-622) -/
def K.cleaned (k : K) (first : Option Nat) : Code :=
  match k with
  | .em g => .unl g
  | k => .rb k.sig first k

/-- One step of the library code of thread `t`. (signal.hpp:421-860 as cited at `Code`) -/
def stepCode (st : State) (t : Nat) (th : Thread) (b : Bool) : Out :=
  let m := st.mem
  let go := fun m c => st.go t m { th with code := c }
  match th.code with
  | .idle => .off
  -- 605-607, 610
  | .emLock g => whenFree m g <|
    let m := (m.lock t g).fields t g
    go (m.began t g) (.emRef1 g (m.list g).getLast? (m.list g).head?)
  | .emRef1 g last cur =>
    match last with
    | none => go m (.emRef2 g last cur)
    | some s => orUb (m.addRef t s) fun m => go m (.emRef2 g last cur)
  | .emRef2 g last cur =>
    match cur with
    | none => go m (.emUnl g last cur)
    | some s => orUb (m.addRef t s) fun m => go m (.emUnl g last cur)
  | .emUnl g last cur => go (m.unlock t g) (.emHead g last cur)
  | .emHead g last cur =>
    match cur with
    | none => go m (.emFin g last)
    | some c => orUb (m.touch t c) fun m => go m (if b then .emAdv g last c else .emChk g last c)
  | .emChk g last c => orUb (m.touch t c) fun m => go m (if b then .emCall g last c else .emAdv g last c)
  | .emCall g last c => orUb (m.touch t c) fun m =>
    st.go t m { th with code := .idle, calls := ⟨g, last, c⟩ :: th.calls }
  -- `b`: the emission was stopped
  | .emAdv g last c =>
    if some c = last || b then go m (.emRel g last c none)
    else whenFree m g <| orUb ((m.lock t g).next t g c) fun r => go r.1 (.emNRef g last c r.2)
  | .emNRef g last c next =>
    match next with
    | none => go m (.emNUnl g last c next)
    | some s => orUb (m.addRef t s) fun m => go m (.emNUnl g last c next)
  | .emNUnl g last c next => go (m.unlock t g) (.emRel g last c next)
  -- 644-648: without a next slot the loop ends in any case
  | .emRel g last c next => orUb (m.sub t c) fun r =>
    go r.1 (thenDel r (.emDel g last c next) (.emHead g last next))
  | .emDel g last c next => orUb (m.del t c) fun m => go m (.emHead g last next)
  | .emFin g last =>
    match last with
    | none => go m (.emEnd g)
    | some s => orUb (m.sub t s) fun r => go r.1 (thenDel r (.emFinDel g s) (.emEnd g))
  | .emFinDel g s => orUb (m.del t s) fun m => go m (.emEnd g)
  -- 618-621, 763-773
  | .emEnd g => whenFree m g <|
    if m.active g = 0 then .ub
    else
      let m := (m.lock t g).fields t g
      let m := m.ended t g
      go m (if m.active g = 0 && m.deferred g then .cl g (m.list g).head? (.em g) else .unl g)
  | .cl g iter k =>
    match iter with
    | none =>
      go (m.defer t g false) (k.cleaned (m.list g).head?)
    | some i => orUb (m.touch t i) fun m =>
      if m.seen i b then orUb (m.next t g i) fun r => go r.1 (.cl g r.2 k)
      else orUb (m.next t g i) fun r => orUb (r.1.remove t g i) fun m => go m (.clRel g i r.2 k)
  | .clRel g s next k => orUb (m.sub t s) fun r => go r.1 (thenDel r (.clDel g s next k) (.cl g next k))
  | .clDel g s next k => orUb (m.del t s) fun m => go m (.cl g next k)
  | .rb g iter k =>
    match iter with
    | none =>
      match k with
      | .em g => go m (.unl g)
      | .mv g => go m (.unl g)
      | .sw1 g g' =>
        let m := m.fields t g'
        go m (if m.deferred g' then .cl g' (m.list g').head? (.sw2 g g')
          else (K.sw2 g g').cleaned (m.list g').head?)
      | .sw2 g g' => go m (.unl2 g g')
    | some i => orUb (m.store t i (some g)) fun m => orUb (m.next t g i) fun r => go r.1 (.rb g r.2 k)
  | .unl g => go (m.unlock t g) .idle
  | .unl2 g g' => go (m.unlock t g) (.unl g')
  | .disLock s g => whenFree m g <|
    let m := (m.lock t g).fields t g
    go m (.disLoop s g (m.list g).head?)
  | .disLoop s g iter =>
    match iter with
    | none => go m (.disUnl s g)
    | some i =>
      if i = s then go m (.disStore s g)
      else orUb (m.next t g i) fun r => go r.1 (.disLoop s g r.2)
  | .disStore s g => orUb (m.store t s none) fun m =>
    if m.active g = 0 then orUb (m.remove t g s) fun m => go m (.disRel s g)
    else go (m.defer t g true) (.disUnl s g)
  | .disRel s g => orUb (m.sub t s) fun r => go r.1 (thenDel r (.disDel s g) (.disUnl s g))
  | .disDel s g => orUb (m.del t s) fun m => go m (.disUnl s g)
  | .disUnl s g => go (m.unlock t g) (.rel s)
  | .rel s => orUb (m.sub t s) fun r => go r.1 (thenDel r (.del s) .idle)
  | .del s => orUb (m.del t s) fun m => go m .idle
  | .allLock g => whenFree m g <|
    let m := (m.lock t g).fields t g
    go m (.allLoop g (m.list g).head?)
  | .allLoop g iter =>
    match iter with
    | none => go m (.unl g)
    | some i => orUb (m.store t i none) fun m => orUb (m.next t g i) fun r =>
      if m.active g = 0 then orUb (r.1.remove t g i) fun m => go m (.allRel g i r.2)
      else go (r.1.defer t g true) (.allLoop g r.2)
  | .allRel g s next => orUb (m.sub t s) fun r => go r.1 (thenDel r (.allDel g s next) (.allLoop g next))
  | .allDel g s next => orUb (m.del t s) fun m => go m (.allLoop g next)
  | .numLock g => whenFree m g <|
    let m := (m.lock t g).fields t g
    go m (.numLoop g (m.list g).head?)
  | .numLoop g iter =>
    match iter with
    | none => go m (.unl g)
    | some i => orUb (m.touch t i) fun m => orUb (m.next t g i) fun r => go r.1 (.numLoop g r.2)
  | .conLock g pos => whenFree m g <| go ((m.lock t g).insert t g pos) (.conRef g m.nslots)
  | .conRef g s => orUb (m.addRef t s) fun m =>
    st.go t m { th with code := .unl g, handles := th.handles ++ [s] }
  -- 704-712, 763-773
  | .swLock g g' =>
    if g = g' then go m .idle
    else whenFree m g <| whenFree m g' <|
      let m := (m.lock t g).lock t g'
      let m := m.ev t .none [(.fld g, true), (.fld g', true)]
      if m.active g ≠ 0 || m.active g' ≠ 0 then .term
      else
        let m := m.swapped g g'
        go m (if m.deferred g then .cl g (m.list g).head? (.sw1 g g')
          else (K.sw1 g g').cleaned (m.list g).head?)
  -- 424-429
  | .mvLock g g' => whenFree m g <|
    let m := m.lock t g
    let m := m.ev t .none [(.fld g, true), (.fld g', true)]
    if m.active g ≠ 0 then .term
    else
      go (m.moved g g') (.mvUnl g g')
  -- 430; nothing but the mutex protects the new signal from here on
  | .mvUnl g g' =>
    st.go t (m.finished t g g') { th with code := .mvLock2 g', knows := g' :: th.knows }
  -- 431-432, 763-773
  | .mvLock2 g => whenFree m g <|
    let m := (m.lock t g).fields t g
    if m.deferred g && m.active g = 0 then go m (.cl g (m.list g).head? (.mv g))
    else go m ((K.mv g).cleaned (m.list g).head?)

/-- One step of thread `t` in user code. (signal.hpp:124-368, 398-715, 882-886, as cited at `Op`) -/
def stepUser (st : State) (t : Nat) (th : Thread) (op : Op) : Out :=
  let m := st.mem
  let start := fun c => st.go t m { th with code := c }
  match op with
  | .cont _ => .off
  -- 409
  | .newSig =>
    st.go t (m.newSig t) { th with knows := m.nsigs :: th.knows }
  | .connect g pos => if g ∈ th.knows then start (.conLock g pos) else .off
  | .emit g => if g ∈ th.knows then start (.emLock g) else .off
  | .discAll g => if g ∈ th.knows then start (.allLock g) else .off
  | .numSlots g => if g ∈ th.knows then start (.numLock g) else .off
  | .swap g g' => if g ∈ th.knows ∧ g' ∈ th.knows then start (.swLock g g') else .off
  -- 421: the members of the new signal are initialised
  | .moveSig g =>
    if g ∈ th.knows then
      st.go t (m.beginMove t) { th with code := .mvLock g m.nsigs }
    else .off
  | .copy i => match th.handles[i]? with
    | none => .off
    | some s => orUb (m.addRef t s) fun m => st.go t m { th with handles := th.handles ++ [s] }
  | .drop i => match th.handles[i]? with
    | none => .off
    | some s => st.go t m { th with code := .rel s, handles := th.handles.eraseIdx i }
  | .disconnect i => match th.handles[i]? with
    | none => .off
    | some s => orUb (m.xchg t s) fun r =>
      st.go t r.1 { th with
        code := match r.2 with
          | none => .rel s
          | some g => .disLock s g
        handles := th.handles.eraseIdx i }
  | .touch i => match th.handles[i]? with
    | none => .off
    | some s => orUb (m.touch t s) fun m => st.go t m th
  | .current => match th.calls with
    | [] => .off
    | c :: _ => orUb (m.addRef t c.cur) fun m => st.go t m { th with handles := th.handles ++ [c.cur] }
  | .give i k => match th.handles[i]? with
    | none => .off
    | some s =>
      .ok { st with
        mem := m.given t s k
        threads := upd st.threads t { th with handles := th.handles.eraseIdx i }
        boxH := upd st.boxH k (s :: st.boxH k) }
  | .take k i => match (st.boxH k)[i]? with
    | none => .off
    | some s =>
      .ok { st with
        mem := m.taken t s k
        threads := upd st.threads t { th with handles := th.handles ++ [s] }
        boxH := upd st.boxH k ((st.boxH k).eraseIdx i) }
  | .publish g k =>
    if g ∈ th.knows then
      .ok { st with mem := m.ev t (.rel k) [], boxS := upd st.boxS k (g :: st.boxS k) }
    else .off
  | .learn k i => match (st.boxS k)[i]? with
    | none => .off
    | some g => st.go t (m.ev t (.acq k) []) { th with knows := g :: th.knows }
  | .ret => match th.calls with
    | [] => .off
    | c :: cs => st.go t m { th with code := .emAdv c.sig c.last c.cur, calls := cs }
  | .throw => match th.calls with
    | [] => .off
    | c :: cs => st.go t m { th with code := .emFin c.sig c.last, calls := cs, lost := c.cur :: th.lost }

/-- One step of thread `t`. (no code: interleaving of threads that run signal.hpp:124-886) -/
def step (st : State) (t : Nat) (op : Op) : Out :=
  let th := st.threads t
  match op with
  | .cont b => stepCode st t th b
  | op => if th.code = .idle then stepUser st t th op else .off

/-- The beginning: every thread in its main program, nothing else. (no code: before any use of signal.hpp:398) -/
def State.init : State where
  mem := {
    tr := [], held := fun _ => none, list := fun _ => [], active := fun _ => 0, deferred := fun _ => false
    count := fun _ => 0, sender := fun _ => none, marked := fun _ => false, live := fun _ => false, nslots := 0, nsigs := 0
    refs := fun _ => [], own := fun _ => none, dying := fun _ => none, newEv := fun _ => 0
    sndEv := fun _ => 0, birth := fun _ => 0, born := fun _ => false, ems := fun _ => [] }
  threads := fun _ => ⟨.idle, [], [], [], []⟩
  boxH := fun _ => []
  boxS := fun _ => []

/-- The states of all executions. (no code: executions) -/
inductive Reach : State → Prop where
  | init : Reach .init
  | step {st st' : State} {t : Nat} {op : Op} : Reach st → step st t op = .ok st' → Reach st'

/-- Run a list of steps. (no code: executions) -/
def run (st : State) : List (Nat × Op) → Out
  | [] => .ok st
  | (t, op) :: l =>
    match step st t op with
    | .ok st => run st l
    | o => o

end Verif.Races
