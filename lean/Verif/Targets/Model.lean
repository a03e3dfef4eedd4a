/-
Model of what `signal.hpp` does when the target of a slot is destroyed.  A target may own
connections, scoped connections and signals (captured by a lambda, or reached through a
`shared_ptr` in it); destroying it destroys these, which again works on slots and signals.
`Signal/Model.lean` leaves this out.

* One thread.  Emissions may be in progress: an emission is a number in `emitting`, and the
  references it has to slots are among those in `held`.
* Destructors do nothing but destroy what is owned.
* A signal has one owner.  Handles of blockers count as connections.
* The list of slots of a signal is a list (that the pointers make one is proved in
  `Signal/Inv.lean`).
* Destruction is a stack of actions; `step` does the first and puts what it entails in front.
* `std::mutex::lock` by the thread that has it locked is the outcome `relock` (in practice the
  thread waits forever).
-/
namespace Verif.Targets

/-- A slot, signal.hpp:44-101. -/
abbrev SlotId := Nat
/-- A signal, signal.hpp:398-860. -/
abbrev SigId := Nat

/-- Something that a target or a client owns. (signal.hpp:124-297, 305-368, 398-860) -/
inductive Owned where
  /-- signal.hpp:124-297 `connection` -/
  | conn (s : SlotId)
  /-- 305-366 `scoped_connection` -/
  | guard (s : SlotId)
  /-- 398-860 `signal` -/
  | sig (g : SigId)
  deriving DecidableEq

/-- signal.hpp:25-101, 789-812: a slot.  Its memory is free when `refs` is 0. -/
structure Slot where
  /-- 41 `count_` -/
  refs : Nat
  /-- 97 `sender_` -/
  sender : Option SigId
  /-- what `target` (811) owns -/
  owns : List Owned
  deriving DecidableEq

/-- signal.hpp:814-818: a signal. -/
structure Sig where
  slots : List SlotId
  /-- `active_emissions_` -/
  emitting : Nat
  /-- `mutex_` -/
  locked : Bool
  /-- `deferred_cleanup_` -/
  deferred : Bool
  /-- whether the destructor has not begun -/
  alive : Bool
  deriving DecidableEq

/-- All objects of signal.hpp:17-860. -/
structure World where
  slots : List Slot
  sigs : List Sig
  /-- what clients own, and the references of emissions -/
  held : List Owned
  /-- the slots destroyed so far, the last first, with the signals whose mutex was locked -/
  log : List (SlotId × List SigId)
  deriving DecidableEq

/-- What is still to be done. (signal.hpp:34-38, 79-84, 658-675, 761-787) -/
inductive Act where
  /-- signal.hpp:34-38 `release()` -/
  | release (s : SlotId)
  /-- the destructor of something owned -/
  | drop (o : Owned)
  /-- 79-84 `slot_state::disconnect()` -/
  | disconnect (s : SlotId)
  /-- the end of a critical section -/
  | unlock (g : SigId)
  /-- 662-675 the loop of `disconnect_all_slots` when no emission is in progress, and the end of
  its critical section -/
  | purge (g : SigId)
  /-- 773-785 the loop of `cleanup_invalidated_slots_locked` from position `k` on, and the end
  of the critical section -/
  | clean (g : SigId) (k : Nat)
  deriving DecidableEq

/-- How a step of signal.hpp:17-860 ends. -/
inductive Outcome (α : Type) where
  | ok (a : α)
  /-- a mutex is locked by the thread that has it -/
  | relock (g : SigId)
  /-- a signal is destroyed while it is emitted -/
  | misuse (g : SigId)
  /-- use of a slot or signal that has been destroyed -/
  | ub
  deriving DecidableEq

/-- Model only: writing to a slot of signal.hpp:44-101. -/
def World.setSlot (w : World) (s : SlotId) (x : Slot) : World := { w with slots := w.slots.set s x }
/-- Model only: writing to a signal of signal.hpp:814-818. -/
def World.setSig (w : World) (g : SigId) (x : Sig) : World := { w with sigs := w.sigs.set g x }

/-- The signals whose mutex is locked. (signal.hpp:817 `mutex_`) -/
def World.lockedSigs (w : World) : List SigId :=
  (List.range w.sigs.length).filter fun g => ((w.sigs[g]?).map (·.locked)).getD false

/-- A slot that exists. (signal.hpp:34-38: not yet deleted) -/
def World.slot? (w : World) (s : SlotId) : Option Slot :=
  match w.slots[s]? with
  | some x => if x.refs = 0 then none else some x
  | none => none

/-- signal.hpp:34-38 `release`: the last reference destroys the slot and with it the target. -/
def release (w : World) (s : SlotId) : Outcome (World × List Act) :=
  match w.slot? s with
  | none => .ub
  | some x =>
    if x.refs = 1 then
      .ok ({ w.setSlot s ⟨0, none, []⟩ with log := (s, w.lockedSigs) :: w.log }, x.owns.map .drop)
    else .ok (w.setSlot s { x with refs := x.refs - 1 }, [])

/-- signal.hpp:79-84 `slot_state::disconnect` and 726-748 `signal::disconnect(id)`. -/
def disconnect (w : World) (s : SlotId) : Outcome (World × List Act) :=
  match w.slot? s with
  | none => .ub
  | some x =>
    match x.sender with
    | none => .ok (w, [])
    | some g =>
      match w.sigs[g]? with
      | none => .ub
      | some y =>
        if y.locked then .relock g
        else if !y.alive then .ub
        else if s ∈ y.slots then
          if y.emitting = 0 then
            .ok ((w.setSlot s { x with sender := none }).setSig g
              { y with slots := y.slots.erase s, locked := true }, [.release s, .unlock g])
          else
            .ok ((w.setSlot s { x with sender := none }).setSig g { y with deferred := true, locked := true },
              [.unlock g])
        else .ok ((w.setSlot s { x with sender := none }).setSig g { y with locked := true }, [.unlock g])

/-- signal.hpp, the destructors: 133-137 `~connection`, 317 with 174-181 `~scoped_connection`,
410 with 658-661 `~signal`. -/
def drop (w : World) : Owned → Outcome (World × List Act)
  | .conn s => .ok (w, [.release s])
  | .guard s => .ok (w, [.disconnect s, .release s])
  | .sig g =>
    match w.sigs[g]? with
    | none => .ub
    | some y =>
      if !y.alive then .ub
      else if y.locked then .relock g
      else if y.emitting ≠ 0 then .misuse g
      else .ok (w.setSig g { y with locked := true, alive := false }, [.purge g])

/-- signal.hpp:662-675 with 847-859 `remove_slot_locked`. -/
def purge (w : World) (g : SigId) : Outcome (World × List Act) :=
  match w.sigs[g]? with
  | none => .ub
  | some y =>
    match y.slots with
    | [] => .ok (w.setSig g { y with locked := false }, [])
    | s :: rest =>
      match w.slot? s with
      | none => .ub
      | some x =>
        .ok ((w.setSlot s { x with sender := none }).setSig g { y with slots := rest },
          [.release s, .purge g])

/-- signal.hpp:773-785 with 847-859. -/
def clean (w : World) (g : SigId) (k : Nat) : Outcome (World × List Act) :=
  match w.sigs[g]? with
  | none => .ub
  | some y =>
    match y.slots[k]? with
    | none => .ok (w.setSig g { y with locked := false, deferred := false }, [])
    | some s =>
      match w.slot? s with
      | none => .ub
      | some x =>
        if x.sender.isSome then .ok (w, [.clean g (k + 1)])
        else .ok (w.setSig g { y with slots := y.slots.eraseIdx k }, [.release s, .clean g k])

/-- signal.hpp:728: the end of the critical section of `disconnect`. -/
def unlock (w : World) (g : SigId) : Outcome (World × List Act) :=
  match w.sigs[g]? with
  | none => .ub
  | some y => .ok (w.setSig g { y with locked := false }, [])

/-- One action: signal.hpp:34-38, 79-84, 658-675, 726-748, 761-787. -/
def step (w : World) : Act → Outcome (World × List Act)
  | .release s => release w s
  | .drop o => drop w o
  | .disconnect s => disconnect w s
  | .unlock g => unlock w g
  | .purge g => purge w g
  | .clean g k => clean w g k

/-- The execution of a stack of actions.
(signal.hpp:34-38, 79-84, 658-675, 726-748, 761-787 as they call each other) -/
inductive Exec : World → List Act → Outcome World → Prop where
  | done (w : World) : Exec w [] (.ok w)
  | more {w w' : World} {a : Act} {new rest : List Act} {r : Outcome World} :
    step w a = .ok (w', new) → Exec w' (new ++ rest) r → Exec w (a :: rest) r
  | relock {w : World} {a : Act} {rest : List Act} {g : SigId} :
    step w a = .relock g → Exec w (a :: rest) (.relock g)
  | misuse {w : World} {a : Act} {rest : List Act} {g : SigId} :
    step w a = .misuse g → Exec w (a :: rest) (.misuse g)
  | ub {w : World} {a : Act} {rest : List Act} :
    step w a = .ub → Exec w (a :: rest) .ub

/-- What a client, a slot that is called, or an emission does. (signal.hpp:124-716: the public functions) -/
inductive Op where
  /-- signal.hpp:409 a new signal -/
  | newSig
  /-- 456-464, 826-845 `connect`; the connection is held -/
  | connect (g : SigId) (front : Bool)
  /-- 139-143 a copy of a connection; also `current_connection` (882-886) and the references an
  emission takes (608-612, 640-641) -/
  | copy (s : SlotId)
  /-- 312-315 a connection becomes a scoped one -/
  | guard (s : SlotId)
  /-- 339-343 `scoped_connection::release` -/
  | unguard (s : SlotId)
  /-- something held moves to the target of a slot -/
  | give (s : SlotId) (o : Owned)
  /-- something held is destroyed -/
  | drop (o : Owned)
  /-- 174-181 `connection::disconnect` -/
  | disconnect (s : SlotId)
  /-- 658-676 `disconnect_all_slots` -/
  | disconnectAll (g : SigId)
  /-- 605-606 an emission begins -/
  | emit (g : SigId)
  /-- 618-621, 761-771 an emission ends -/
  | finish (g : SigId)
  deriving DecidableEq

/-- A signal that a client can use. (signal.hpp:398-860: not yet destroyed) -/
def World.sig? (w : World) (g : SigId) : Option Sig :=
  match w.sigs[g]? with
  | some y => if y.alive then some y else none
  | none => none

/-- What an operation does at once, and the actions it entails; `none`: the client does not have
what it needs for the operation. (signal.hpp:124-716) -/
def begin (w : World) : Op → Option (World × List Act)
  | .newSig => some ({ w with
      sigs := w.sigs ++ [⟨[], 0, false, false, true⟩], held := .sig w.sigs.length :: w.held }, [])
  | .connect g front =>
    match w.sig? g with
    | none => none
    | some y =>
      some ({ w.setSig g { y with
          slots := if front then w.slots.length :: y.slots else y.slots ++ [w.slots.length] } with
        slots := w.slots ++ [⟨2, some g, []⟩], held := .conn w.slots.length :: w.held }, [])
  | .copy s =>
    match w.slot? s with
    | none => none
    | some x => some ({ w.setSlot s { x with refs := x.refs + 1 } with held := .conn s :: w.held }, [])
  | .guard s =>
    if .conn s ∈ w.held then some ({ w with held := .guard s :: w.held.erase (.conn s) }, []) else none
  | .unguard s =>
    if .guard s ∈ w.held then some ({ w with held := .conn s :: w.held.erase (.guard s) }, []) else none
  | .give s o =>
    match w.slot? s with
    | none => none
    | some x =>
      if o ∈ w.held then
        some ({ w.setSlot s { x with owns := o :: x.owns } with held := w.held.erase o }, [])
      else none
  | .drop o => if o ∈ w.held then some ({ w with held := w.held.erase o }, [.drop o]) else none
  | .disconnect s =>
    if .conn s ∈ w.held then
      some ({ w with held := w.held.erase (.conn s) }, [.disconnect s, .release s])
    else none
  | .disconnectAll g =>
    match w.sig? g with
    | none => none
    | some y =>
      if y.emitting = 0 then some (w.setSig g { y with locked := true }, [.purge g])
      else
        some ({ w.setSig g { y with deferred := y.deferred || !y.slots.isEmpty } with
          slots := w.slots.mapIdx fun s x => if s ∈ y.slots then { x with sender := none } else x }, [])
  | .emit g =>
    match w.sig? g with
    | none => none
    | some y => some (w.setSig g { y with emitting := y.emitting + 1 }, [])
  | .finish g =>
    match w.sig? g with
    | none => none
    | some y =>
      match y.emitting with
      | 0 => none
      | n + 1 =>
        if n = 0 ∧ y.deferred then
          some (w.setSig g { y with emitting := n, locked := true }, [.clean g 0])
        else some (w.setSig g { y with emitting := n }, [])

/-- An operation with all it entails. (signal.hpp:124-716) -/
def Does (w : World) (op : Op) (r : Outcome World) : Prop :=
  ∃ w' acts, begin w op = some (w', acts) ∧ Exec w' acts r

/-- Model only: before any call of signal.hpp:409-860. -/
def World.empty : World := ⟨[], [], [], []⟩

/-- The states that clients can reach. (signal.hpp:124-716 called in any order) -/
inductive Reach : World → Prop where
  | empty : Reach World.empty
  | op {w w' : World} {op : Op} : Reach w → Does w op (.ok w') → Reach w'

end Verif.Targets
