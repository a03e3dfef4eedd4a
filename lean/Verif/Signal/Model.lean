/-
Model of `signal.hpp`: any number of threads, signals, slots and handles, as a transition
system.  A thread performs one atomic action at a time:

* an access to an atomic variable (reference count, block count, `sender_`), or
* a whole critical section of a signal's mutex (list operations).

Between two atomic actions of one thread any other thread may act.  User code (the main
program of each thread, and the bodies of slots) is arbitrary: in user mode a thread may do
any operation of the interface, including nested emissions.

Slots are addressed by numbers that are never reused.  Accessing a destroyed slot or signal
is undefined behaviour (`Out.ub`).  Destroying a slot does not run user code (targets do not
own handles).  Counters do not overflow.

Each action also appends to `log`, which nothing in the model reads.
-/
namespace Verif.Signal

/-- signal.hpp:44-101 `slot_state`, 789-812 `slot`; 26-42 `refs` is `count_`. -/
structure SlotObj where
  sender : Option Nat
  blocking : Nat
  refs : Nat
  next : Option Nat
  alive : Bool
  deriving DecidableEq, Repr

/-- signal.hpp:44-101 all slots made so far. -/
abbrev Heap := Nat → SlotObj

/-- signal.hpp:814-818 the data members of `signal`. -/
structure Sig where
  slots : Option Nat
  tail : Option Nat
  active : Nat
  deferred : Bool
  alive : Bool
  deriving DecidableEq, Repr

/-- signal.hpp:103-107 `tls_signal_info`. -/
structure Tls where
  stopped : Bool
  current : Option Nat
  deriving DecidableEq, Repr

/-- Where an emission (`operator()`, signal.hpp:587-650) is. -/
inductive Pc
  /-- 624, 626: at the loop head -/
  | loop
  /-- 626: not blocked, `valid()` not yet loaded -/
  | checkValid
  /-- 630: the slot's target runs: user mode -/
  | calling
  /-- 633-642 -/
  | advance
  /-- 644-648, with `next` -/
  | rel (next : Option Nat)
  /-- 615-616 the deferred action, first part -/
  | finish (threw : Bool)
  /-- 618-621 second part, then 592 -/
  | finish2 (threw : Bool)
  deriving DecidableEq, Repr

/-- The local variables of one emission; `id` numbers emissions (only used in the log). (signal.hpp:587-650) -/
structure Frame where
  id : Nat
  sig : Nat
  last : Option Nat
  cur : Option Nat
  pc : Pc
  saved : Tls
  deriving DecidableEq, Repr

/-- What a thread has still to do in a call on a handle. (signal.hpp:79-84, 133-183, 210-220) -/
inductive Pend
  | none
  /-- 82-83: `sender_` was exchanged, `sender->disconnect(id())` comes next -/
  | disc (slot : Nat) (sender : Nat)
  /-- 179, 136, 217: the reference of the handle is released next -/
  | rel (slot : Nat)
  deriving DecidableEq, Repr

/-- A thread with signal.hpp:103-107 `tls_signal_info` and its emissions (587-650). -/
structure Thread where
  tls : Tls
  frames : List Frame
  pend : Pend
  deriving DecidableEq, Repr

/-- signal.hpp:124-297 `connection`, and 305-368 `scoped_connection`. -/
structure Handle where
  slot : Option Nat
  isScoped : Bool
  deriving DecidableEq, Repr

/-- signal.hpp:370-377 `connect_position`. -/
inductive Pos
  | back | front
  deriving DecidableEq, Repr

/-- Observable events. (of signal.hpp:456-860) -/
inductive Ev
  | connect (s g : Nat) (pos : Pos)
  /-- `sender_` of the slot became null -/
  | disc (s : Nat)
  | move (g g' : Nat)
  | swap (g g' : Nat)
  | begin (e g : Nat)
  | call (e s : Nat)
  /-- `blocked()` of the slot returned false in emission `e` -/
  | pass (e s : Nat)
  | skipBlocked (e s : Nat)
  | skipInvalid (e s : Nat)
  | stop (e : Nat)
  | throw (e : Nat)
  | end_ (e : Nat) (threw : Bool)
  /-- a blocker object starts, ends blocking the slot -/
  | blk (s : Nat)
  | unblk (s : Nat)
  deriving DecidableEq, Repr

/-- signal.hpp:17-860 all objects and threads. -/
structure State where
  heap : Heap
  nslots : Nat
  sigs : Nat → Sig
  nsigs : Nat
  conns : List Handle
  /-- signal.hpp:199-271 `blocker` objects -/
  blks : List (Option Nat)
  threads : List Thread
  nem : Nat
  /-- newest first -/
  log : List Ev
  /-- slots whose reference an exception leaked; nothing in the model reads it -/
  leaks : List Nat

/-- How a step of signal.hpp:17-860 ends. -/
inductive Out
  | ok (st : State)
  /-- not enabled -/
  | off
  /-- undefined behaviour -/
  | ub
  /-- `std::terminate` -/
  | terminate

/-! ### Memory -/

/-- Model only: writing to a slot of signal.hpp:44-101. -/
def upd (h : Heap) (p : Nat) (o : SlotObj) : Heap := fun q => if q = p then o else h q

/-- Access to a slot through a pointer. (signal.hpp:44-101; using a deleted one is undefined) -/
def deref (h : Heap) (p : Nat) : Option SlotObj := if (h p).alive then some (h p) else none

/-- signal.hpp:33 `add_ref`. -/
def addRef (h : Heap) (p : Nat) : Option Heap :=
  (deref h p).map fun o => upd h p { o with refs := o.refs + 1 }

/-- `if (p) p->add_ref()`. (signal.hpp:608-612, 640-641) -/
def addRef? (h : Heap) : Option Nat → Option Heap
  | none => some h
  | some p => addRef h p

/-- signal.hpp:34-38 `release`. -/
def release (h : Heap) (p : Nat) : Option Heap :=
  match deref h p with
  | none => none
  | some o =>
    if o.refs = 0 then none
    else if o.refs = 1 then some (upd h p { o with refs := 0, alive := false })
    else some (upd h p { o with refs := o.refs - 1 })

/-- `if (p) p->release()`. (signal.hpp:612-621, 644-648) -/
def release? (h : Heap) : Option Nat → Option Heap
  | none => some h
  | some p => release h p

/-- signal.hpp:57-60 `block`. -/
def block (h : Heap) (p : Nat) : Option Heap :=
  (deref h p).map fun o => upd h p { o with blocking := o.blocking + 1 }

/-- signal.hpp:62-67 `unblock`; the assertion is a precondition. -/
def unblock (h : Heap) (p : Nat) : Option Heap :=
  (deref h p).bind fun o =>
    if o.blocking = 0 then none else some (upd h p { o with blocking := o.blocking - 1 })

/-- signal.hpp:234-238 a blocker lets go of its slot. -/
def unblockRelease? (h : Heap) : Option Nat → Option Heap
  | none => some h
  | some p => (unblock h p).bind (release · p)

/-- signal.hpp:240-244 a blocker takes over a slot. -/
def addRefBlock? (h : Heap) : Option Nat → Option Heap
  | none => some h
  | some p => (addRef h p).bind (block · p)

/-- signal.hpp:805-808 `rebind`, 800-803 `invalidate`. -/
def rebind (h : Heap) (p : Nat) (g : Option Nat) : Option Heap :=
  (deref h p).map fun o => upd h p { o with sender := g }

/-! ### Critical sections: list operations

Loops take a bound on the number of rounds; running out of it means that the loop would not
end and counts as undefined behaviour. -/

/-- signal.hpp:826-845 `insert_new_slot_locked`. -/
def insertSlot (h : Heap) (g : Sig) (n : Nat) (pos : Pos) : Option (Heap × Sig) :=
  match g.slots with
  | none => some (h, { g with slots := some n, tail := some n })
  | some first =>
    match pos with
    | .back =>
      match g.tail with
      | none => none
      | some t =>
        (deref h t).map fun o => (upd h t { o with next := some n }, { g with tail := some n })
    | .front =>
      (deref h n).map fun o => (upd h n { o with next := some first }, { g with slots := some n })

/-- signal.hpp:850-856 the unlinking part of `remove_slot_locked`: heap, signal, `next`. -/
def unlink (h : Heap) (g : Sig) (s : Nat) (prev : Option Nat) : Option (Heap × Sig × Option Nat) :=
  (deref h s).bind fun o =>
    match prev with
    | some p =>
      (deref h p).map fun po =>
        (upd h p { po with next := o.next },
         { g with tail := if g.tail = some s then some p else g.tail }, o.next)
    | none =>
      let slots := if g.slots = some s then o.next else g.slots
      some (h, { g with slots := slots, tail := if g.tail = some s then slots else g.tail }, o.next)

/-- signal.hpp:847-859 `remove_slot_locked`. -/
def removeSlot (h : Heap) (g : Sig) (s : Nat) (prev : Option Nat) : Option (Heap × Sig × Option Nat) :=
  if g.active ≠ 0 then none
  else
    match unlink h g s prev with
    | none => none
    | some (h, g, next) =>
      match release h s with
      | none => none
      | some h => some (h, g, next)

/-- signal.hpp:773-784 the loop of `cleanup_invalidated_slots_locked`. -/
def cleanupLoop : Nat → Heap → Sig → Option Nat → Option Nat → Option (Heap × Sig)
  | _, h, g, none, _ => some (h, g)
  | 0, _, _, some _, _ => none
  | fuel + 1, h, g, some i, prev =>
    match deref h i with
    | none => none
    | some o =>
      if o.sender.isSome then cleanupLoop fuel h g o.next (some i)
      else
        match removeSlot h g i prev with
        | none => none
        | some (h, g, next) => cleanupLoop fuel h g next prev

/-- signal.hpp:761-786 `cleanup_invalidated_slots_locked`. -/
def cleanup (fuel : Nat) (h : Heap) (g : Sig) : Option (Heap × Sig) :=
  if !g.deferred then some (h, g)
  else if g.active ≠ 0 then some (h, { g with deferred := true })
  else (cleanupLoop fuel h g g.slots none).map fun r => (r.1, { r.2 with deferred := false })

/-- signal.hpp:730-747 the loop of `disconnect(id)`; also tells whether the slot was found. -/
def disconnectLoop : Nat → Heap → Sig → Nat → Option Nat → Option Nat → Option (Heap × Sig × Bool)
  | _, h, g, _, none, _ => some (h, g, false)
  | 0, _, _, _, some _, _ => none
  | fuel + 1, h, g, id, some i, prev =>
    match deref h i with
    | none => none
    | some o =>
      if i ≠ id then disconnectLoop fuel h g id o.next (some i)
      else
        match rebind h i none with
        | none => none
        | some h =>
          if g.active = 0 then
            match removeSlot h g i prev with
            | none => none
            | some (h, g, _) => some (h, g, true)
          else some (h, { g with deferred := true }, true)

/-- signal.hpp:662-675 the loop of `disconnect_all_slots`; the slots invalidated, in order. -/
def discAllLoop : Nat → Heap → Sig → Option Nat → Option Nat → Option (Heap × Sig × List Nat)
  | _, h, g, none, _ => some (h, g, [])
  | 0, _, _, some _, _ => none
  | fuel + 1, h, g, some i, prev =>
    match rebind h i none with
    | none => none
    | some h =>
      if g.active = 0 then
        match removeSlot h g i prev with
        | none => none
        | some (h, g, next) => (discAllLoop fuel h g next prev).map fun r => (r.1, r.2.1, i :: r.2.2)
      else
        match deref h i with
        | none => none
        | some o =>
          (discAllLoop fuel h { g with deferred := true } o.next (some i)).map
            fun r => (r.1, r.2.1, i :: r.2.2)

/-- signal.hpp:755-758 the loop of `rebind_locked`. -/
def rebindLoop : Nat → Heap → Nat → Option Nat → Option Heap
  | _, h, _, none => some h
  | 0, _, _, some _ => none
  | fuel + 1, h, g, some i =>
    match rebind h i (some g) with
    | none => none
    | some h =>
      match deref h i with
      | none => none
      | some o => rebindLoop fuel h g o.next

/-- signal.hpp:750-759 `rebind_locked` of signal number `n`. -/
def rebindAll (fuel : Nat) (h : Heap) (g : Sig) (n : Nat) : Option (Heap × Sig) :=
  match cleanup fuel h g with
  | none => none
  | some (h, g) => (rebindLoop fuel h n g.slots).map fun h => (h, g)

/-- signal.hpp:683-687 the loop of `num_slots`. -/
def countLoop : Nat → Heap → Option Nat → Option Nat
  | _, _, none => some 0
  | 0, _, some _ => none
  | fuel + 1, h, some i =>
    match deref h i with
    | none => none
    | some o => (countLoop fuel h o.next).map fun n => if o.sender.isSome then n + 1 else n

/-! ### Actions -/

/-- What a thread does next. (signal.hpp:124-860: the public functions) -/
inductive Op
  /-- 409 -/
  | newSig
  /-- 410 -/
  | delSig (g : Nat)
  /-- 456-464; the other overloads (467-578) wrap their arguments and call this one -/
  | connect (g : Nat) (pos : Pos)
  /-- 458-459 an empty function, and 127 a default constructed connection -/
  | emptyConn
  /-- 139-143 -/
  | copy (c : Nat)
  /-- 145-156 `a = b` -/
  | assign (a b : Nat)
  /-- 158-161 -/
  | move (c : Nat)
  /-- 163-167, 277-281; 327-331, 348-352: move assignment swaps -/
  | swapH (a b : Nat)
  /-- 312-315 a `scoped_connection` takes over a connection -/
  | toScoped (c : Nat)
  /-- 339-343 `release` -/
  | toPlain (c : Nat)
  /-- 133-137, 317 the destructors -/
  | drop (c : Nat)
  /-- 174-181 -/
  | disconnect (c : Nat)
  /-- 203-210 -/
  | blk (c : Nat)
  /-- 221-228 -/
  | blkCopy (b : Nat)
  /-- 230-247 `a = b` -/
  | blkAssign (a b : Nat)
  /-- 249-252 -/
  | blkMove (b : Nat)
  /-- 254-258, 263-267 -/
  | blkSwap (a b : Nat)
  /-- 212-219 -/
  | blkDrop (b : Nat)
  /-- 658-676 -/
  | discAll (g : Nat)
  /-- 700-714 and 442-447 -/
  | swap (g g' : Nat)
  /-- 421-433 a new signal is move-constructed -/
  | moveSig (g : Nat)
  /-- 587-613 an emission starts -/
  | emit (g : Nat)
  /-- the slot's target returns -/
  | ret
  /-- the slot's target throws -/
  | throw
  /-- 872-875 -/
  | stop
  /-- 882-886 -/
  | current
  /-- the library code of this thread goes on -/
  | cont
  deriving DecidableEq, Repr

/-- The thread runs user code. (the main program or a target called at signal.hpp:630) -/
def Thread.user (th : Thread) : Bool :=
  match th.pend with
  | .none =>
    match th.frames with
    | [] => true
    | f :: _ => match f.pc with | .calling => true | _ => false
  | _ => false

/-- Model only: writing to a signal of signal.hpp:814-818. -/
def setSig (st : State) (g : Nat) (x : Sig) : State :=
  { st with sigs := fun q => if q = g then x else st.sigs q }

/-- Model only: the thread after its step (signal.hpp:587-650). -/
def setThread (st : State) (t : Nat) (th : Thread) : State :=
  { st with threads := st.threads.set t th }

/-- A result of a critical section that may be undefined. (the sections under `mutex_` of signal.hpp:456-785) -/
def orUb {α : Type} (x : Option α) (k : α → Out) : Out :=
  match x with
  | none => .ub
  | some a => k a

/-- Model only: the variables of the innermost emission (signal.hpp:587-650). -/
def setFrame (th : Thread) (f : Frame) (rest : List Frame) : Thread := { th with frames := f :: rest }

/-- signal.hpp:79-84 `slot_state::disconnect` up to the exchange, for the reference `s` that
the thread now holds. -/
def startDisconnect (st : State) (t : Nat) (th : Thread) (s : Nat) : Out :=
  orUb (deref st.heap s) fun o =>
    match o.sender with
    | none => .ok (setThread st t { th with pend := .rel s })
    | some g =>
      .ok { setThread st t { th with pend := .disc s g } with
            heap := upd st.heap s { o with sender := none }
            log := .disc s :: st.log }

/-- Operations on handles and signals in user mode. (signal.hpp:124-368, 409-464, 587-610, 658-716, 868-890) -/
def stepUser (st : State) (t : Nat) (th : Thread) : Op → Out
  | .newSig =>
    .ok { setSig st st.nsigs ⟨none, none, 0, false, true⟩ with nsigs := st.nsigs + 1 }
  | .delSig g =>
    let x := st.sigs g
    if !x.alive then .ub
    else
      orUb (discAllLoop st.nslots st.heap x x.slots none) fun r =>
        .ok { setSig st g { r.2.1 with alive := false } with
              heap := r.1
              log := (r.2.2.reverse.map Ev.disc) ++ st.log }
  | .connect g pos =>
    let x := st.sigs g
    if !x.alive then .ub
    else
      let n := st.nslots
      -- 461: constructed with one reference (50) and the sender; 463: the connection's one
      let h := upd st.heap n ⟨some g, 0, 1, none, true⟩
      orUb (insertSlot h x n pos) fun r =>
        orUb (addRef r.1 n) fun h =>
          .ok { setSig st g r.2 with
                heap := h
                nslots := n + 1
                conns := st.conns ++ [⟨some n, false⟩]
                log := .connect n g pos :: st.log }
  | .emptyConn => .ok { st with conns := st.conns ++ [⟨none, false⟩] }
  | .copy c =>
    match st.conns[c]? with
    | none => .off
    | some x =>
      orUb (addRef? st.heap x.slot) fun h =>
        .ok { st with heap := h, conns := st.conns ++ [⟨x.slot, false⟩] }
  | .assign a b =>
    match st.conns[a]?, st.conns[b]? with
    | some x, some y =>
      if a = b then .ok st
      else if x.isScoped then .off
      else
        orUb (release? st.heap x.slot) fun h =>
          orUb (addRef? h y.slot) fun h =>
            .ok { st with heap := h, conns := st.conns.set a ⟨y.slot, false⟩ }
    | _, _ => .off
  | .move c =>
    match st.conns[c]? with
    | none => .off
    | some x => .ok { st with conns := st.conns.set c ⟨none, x.isScoped⟩ ++ [x] }
  | .swapH a b =>
    match st.conns[a]?, st.conns[b]? with
    | some x, some y =>
      if x.isScoped = y.isScoped then .ok { st with conns := (st.conns.set a y).set b x } else .off
    | _, _ => .off
  | .toScoped c =>
    match st.conns[c]? with
    | none => .off
    | some x =>
      if x.isScoped then .off
      else .ok { st with conns := st.conns.set c ⟨none, false⟩ ++ [⟨x.slot, true⟩] }
  | .toPlain c =>
    match st.conns[c]? with
    | none => .off
    | some x =>
      if x.isScoped then .ok { st with conns := st.conns.set c ⟨none, true⟩ ++ [⟨x.slot, false⟩] }
      else .off
  | .drop c =>
    match st.conns[c]? with
    | none => .off
    | some x =>
      match x.slot with
      | none => .ok st
      | some s =>
        let st := { st with conns := st.conns.set c ⟨none, x.isScoped⟩ }
        if x.isScoped then startDisconnect st t th s
        else .ok (setThread st t { th with pend := .rel s })
  | .disconnect c =>
    match st.conns[c]? with
    | none => .off
    | some x =>
      match x.slot with
      | none => .ok st
      | some s => startDisconnect { st with conns := st.conns.set c ⟨none, x.isScoped⟩ } t th s
  | .blk c =>
    match st.conns[c]? with
    | none => .off
    | some x =>
      match x.slot with
      | none => .ok { st with blks := st.blks ++ [none] }
      | some s =>
        orUb (addRef st.heap s) fun h => orUb (block h s) fun h =>
          .ok { st with heap := h, blks := st.blks ++ [some s], log := .blk s :: st.log }
  | .blkCopy b =>
    match st.blks[b]? with
    | none => .off
    | some none => .ok { st with blks := st.blks ++ [none] }
    | some (some s) =>
      orUb (addRef st.heap s) fun h => orUb (block h s) fun h =>
        .ok { st with heap := h, blks := st.blks ++ [some s], log := .blk s :: st.log }
  | .blkAssign a b =>
    match st.blks[a]?, st.blks[b]? with
    | some x, some y =>
      if a = b then .ok st
      else
        orUb (unblockRelease? st.heap x) fun h =>
          orUb (addRefBlock? h y) fun h =>
            .ok { st with
                  heap := h
                  blks := st.blks.set a y
                  log := y.toList.map Ev.blk ++ (x.toList.map Ev.unblk ++ st.log) }
    | _, _ => .off
  | .blkMove b =>
    match st.blks[b]? with
    | none => .off
    | some x => .ok { st with blks := st.blks.set b none ++ [x] }
  | .blkSwap a b =>
    match st.blks[a]?, st.blks[b]? with
    | some x, some y => .ok { st with blks := (st.blks.set a y).set b x }
    | _, _ => .off
  | .blkDrop b =>
    match st.blks[b]? with
    | none => .off
    | some none => .ok st
    | some (some s) =>
      orUb (unblock st.heap s) fun h =>
        .ok { setThread st t { th with pend := .rel s } with
              heap := h, blks := st.blks.set b none, log := .unblk s :: st.log }
  | .discAll g =>
    let x := st.sigs g
    if !x.alive then .ub
    else
      orUb (discAllLoop st.nslots st.heap x x.slots none) fun r =>
        .ok { setSig st g r.2.1 with
              heap := r.1
              log := (r.2.2.reverse.map Ev.disc) ++ st.log }
  | .swap g g' =>
    let x := st.sigs g
    let y := st.sigs g'
    if !x.alive || !y.alive then .ub
    else if g = g' then .ok st
    else if x.active ≠ 0 || y.active ≠ 0 then .terminate
    else
      let x' := { x with slots := y.slots, tail := y.tail, deferred := y.deferred }
      let y' := { y with slots := x.slots, tail := x.tail, deferred := x.deferred }
      orUb (rebindAll st.nslots st.heap x' g) fun r =>
        orUb (rebindAll st.nslots r.1 y' g') fun r' =>
          .ok { setSig (setSig st g r.2) g' r'.2 with heap := r'.1, log := .swap g g' :: st.log }
  | .moveSig g =>
    let x := st.sigs g
    if !x.alive then .ub
    else if x.active ≠ 0 then .terminate
    else
      let n := st.nsigs
      let y : Sig := ⟨x.slots, x.tail, 0, x.deferred, true⟩
      let x' := { x with slots := none, tail := none, deferred := false }
      orUb (rebindAll st.nslots st.heap y n) fun r =>
        .ok { setSig (setSig st g x') n r.2 with
              heap := r.1, nsigs := n + 1, log := .move g n :: st.log }
  | .emit g =>
    let x := st.sigs g
    if !x.alive then .ub
    else
      orUb (addRef? st.heap x.tail) fun h =>
        orUb (addRef? h x.slots) fun h =>
          let f : Frame := ⟨st.nem, g, x.tail, x.slots, .loop, th.tls⟩
          .ok { setThread (setSig st g { x with active := x.active + 1 }) t
                  { th with tls := { th.tls with stopped := false }, frames := f :: th.frames } with
                heap := h, nem := st.nem + 1, log := .begin st.nem g :: st.log }
  | .ret =>
    match th.frames with
    | [] => .off
    | f :: rest => .ok (setThread st t (setFrame th { f with pc := .advance } rest))
  | .throw =>
    match th.frames with
    | [] => .off
    | f :: rest =>
      .ok { setThread st t (setFrame th { f with cur := none, pc := .finish true } rest) with
            log := .throw f.id :: st.log, leaks := f.cur.toList ++ st.leaks }
  | .stop =>
    .ok { setThread st t { th with tls := { th.tls with stopped := true } } with
          log := match th.frames with | [] => st.log | f :: _ => .stop f.id :: st.log }
  | .current =>
    orUb (addRef? st.heap th.tls.current) fun h =>
      .ok { st with heap := h, conns := st.conns ++ [⟨th.tls.current, false⟩] }
  | .cont => .off

/-- The library part of an emission. (signal.hpp:610-650) -/
def stepFrame (st : State) (t : Nat) (th : Thread) (f : Frame) (rest : List Frame) : Out :=
  match f.pc with
  | .calling => .off
  | .loop =>
    match f.cur with
    | none => .ok (setThread st t (setFrame th { f with pc := .finish false } rest))
    | some c =>
      orUb (deref st.heap c) fun o =>
        if o.blocking > 0 then
          .ok { setThread st t (setFrame th { f with pc := .advance } rest) with
                log := .skipBlocked f.id c :: st.log }
        else
          .ok { setThread st t (setFrame th { f with pc := .checkValid } rest) with
                log := .pass f.id c :: st.log }
  | .checkValid =>
    match f.cur with
    | none => .ub
    | some c =>
      orUb (deref st.heap c) fun o =>
        if o.sender.isSome then
          .ok { setThread st t (setFrame { th with tls := { th.tls with current := some c } }
                  { f with pc := .calling } rest) with
                log := .call f.id c :: st.log }
        else
          .ok { setThread st t (setFrame th { f with pc := .advance } rest) with
                log := .skipInvalid f.id c :: st.log }
  | .advance =>
    match f.cur with
    | none => .ub
    | some c =>
      if some c ≠ f.last && !th.tls.stopped then
        if !(st.sigs f.sig).alive then .ub
        else
          orUb (deref st.heap c) fun o =>
            orUb (addRef? st.heap o.next) fun h =>
              .ok { setThread st t (setFrame th { f with pc := .rel o.next } rest) with heap := h }
      else .ok (setThread st t (setFrame th { f with pc := .rel none } rest))
  | .rel next =>
    match f.cur with
    | none => .ub
    | some c =>
      orUb (release st.heap c) fun h =>
        let pc := if some c = f.last || th.tls.stopped then Pc.finish false else Pc.loop
        .ok { setThread st t (setFrame th { f with cur := next, pc := pc } rest) with heap := h }
  | .finish threw =>
    orUb (release? st.heap f.last) fun h =>
      .ok { setThread st t (setFrame th { f with last := none, pc := .finish2 threw } rest) with
            heap := h }
  | .finish2 threw =>
    let x := st.sigs f.sig
    if !x.alive || x.active = 0 then .ub
    else
      let x' := { x with active := x.active - 1 }
      orUb (if x.active = 1 then cleanup st.nslots st.heap x' else some (st.heap, x')) fun r =>
        .ok { setThread (setSig st f.sig r.2) t { th with tls := f.saved, frames := rest } with
              heap := r.1, log := .end_ f.id threw :: st.log }

/-- The rest of a call on a handle. (signal.hpp:79-84, 726-748, 34-38) -/
def stepPend (st : State) (t : Nat) (th : Thread) : Out :=
  match th.pend with
  | .none => .off
  | .rel s => orUb (release st.heap s) fun h => .ok { setThread st t { th with pend := .none } with heap := h }
  | .disc s g =>
    let x := st.sigs g
    if !x.alive then .ub
    else
      orUb (disconnectLoop st.nslots st.heap x s x.slots none) fun r =>
        .ok { setThread (setSig st g r.2.1) t { th with pend := .rel s } with heap := r.1 }

/-- One atomic action of thread `t`. (signal.hpp:17-860 with the critical sections of `mutex_` as one action) -/
def step (st : State) (t : Nat) (op : Op) : Out :=
  match st.threads[t]? with
  | none => .off
  | some th =>
    match op with
    | .cont =>
      match th.pend with
      | .none =>
        match th.frames with
        | [] => .off
        | f :: rest => stepFrame st t th f rest
      | _ => stepPend st t th
    | op => if th.user then stepUser st t th op else .off

/-- The beginning: `n` threads in their main programs, nothing else. (before any call of signal.hpp:409-860) -/
def State.init (n : Nat) : State where
  heap := fun _ => ⟨none, 0, 0, none, false⟩
  nslots := 0
  sigs := fun _ => ⟨none, none, 0, false, false⟩
  nsigs := 0
  conns := []
  blks := []
  threads := List.replicate n ⟨⟨false, none⟩, [], .none⟩
  nem := 0
  log := []
  leaks := []

/-- signal.hpp:184 `connected()` of handle `c`. -/
def connected (st : State) (c : Nat) : Option Bool :=
  match st.conns[c]? with
  | none => none
  | some x =>
    match x.slot with
    | none => some false
    | some s => (deref st.heap s).map fun o => o.sender.isSome

/-- signal.hpp:679-689 `num_slots()`. -/
def numSlots (st : State) (g : Nat) : Option Nat :=
  if !(st.sigs g).alive then none else countLoop st.nslots st.heap (st.sigs g).slots

/-- signal.hpp:692 `empty()`. -/
def empty (st : State) (g : Nat) : Option Bool := (numSlots st g).map (· == 0)

end Verif.Signal
