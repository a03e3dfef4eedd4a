/-
`kl::connection` and `kl::scoped_connection` objects (signal.hpp:124-368) as variables with an address of their own: who owns them,
what is in their `slot_`, and in which order their functions release, read and write. `Targets/Model.lean` knows connections only as
references that somebody has.

* One thread. A slot has one reference if it is in the list of its signal, and one for every connection. The references of an emission
  are connections of the client here.
* Addresses of slots are used again once a slot has been deleted.
* The target of a slot may own connection objects (captured, or reached through a `shared_ptr`); they are destroyed with it, and
  targets do nothing else when they are destroyed. Mutexes and the list itself are left out (C103-C105).
* `made` and `loose` are ghosts: they are written and never looked at.
-/
namespace Verif.Handles

/-- The address of a slot: signal.hpp:91-94 `id`. -/
abbrev Addr := Nat
/-- A `connection` or `scoped_connection` object. (signal.hpp:124-368) -/
abbrev Obj := Nat

/-- Who destroys a connection object: the client, the target of a slot (signal.hpp:811), or it is about to be destroyed. -/
inductive Owner where
  | client
  | target (a : Addr)
  | dying
  deriving DecidableEq

/-- signal.hpp:25-101: a slot. -/
structure Slot where
  /-- 41 `count_` -/
  refs : Nat
  /-- 97 `sender_`, and whether the list has its reference -/
  listed : Bool
  /-- ghost: the number of the call of `connect` that made it -/
  gen : Nat
  deriving DecidableEq

/-- signal.hpp:296 the member of a `connection`; 367 of a `scoped_connection`. -/
structure Conn where
  /-- 296 `slot_` -/
  slot : Option Addr
  owner : Owner
  guard : Bool
  /-- ghost: the call of `connect` that it comes from -/
  made : Option Nat
  /-- ghost: the reference has been given up, `slot_` has not been written yet -/
  loose : Bool
  deriving DecidableEq

/-- All slots and connection objects; `none` is a destroyed object. (signal.hpp:25-368) -/
structure World where
  slots : Addr → Option Slot
  objs : List (Option Conn)
  next : Nat

/-- Model only: writing to a slot of signal.hpp:25-101. -/
def World.setSlot (w : World) (a : Addr) (x : Option Slot) : World :=
  { w with slots := fun b => if b = a then x else w.slots b }
/-- Model only: writing to an object of signal.hpp:124-368. -/
def World.setObj (w : World) (o : Obj) (c : Option Conn) : World := { w with objs := w.objs.set o c }
/-- Model only: a new object of signal.hpp:124-368. -/
def World.addObj (w : World) (c : Conn) : World := { w with objs := w.objs ++ [some c] }
/-- An object that has not been destroyed. (signal.hpp:133-137) -/
def World.obj? (w : World) (o : Obj) : Option Conn := (w.objs[o]?).join

/-- What is still to be destroyed. (signal.hpp:34-38, 133-137, 317) -/
inductive Act where
  /-- signal.hpp:34-38 `release()` -/
  | release (a : Addr)
  /-- 133-137 `~connection`, 317 `~scoped_connection` -/
  | drop (o : Obj)
  deriving DecidableEq

/-- The objects that the target of a slot owns. (signal.hpp:811 `target`) -/
def World.owned (w : World) (a : Addr) : List Obj :=
  (List.range w.objs.length).filter fun o => match w.obj? o with
    | some c => c.owner == .target a
    | none => false

/-- The target of a slot is destroyed: what it owns is to be destroyed. (signal.hpp:34-38, 811) -/
def doom (a : Addr) : Option Conn → Option Conn
  | some c => if c.owner = .target a then some { c with owner := .dying } else some c
  | none => none

/-- signal.hpp:34-38 `release`; `none`: the slot does not exist any more. -/
def release (w : World) (a : Addr) : Option (World × List Act) :=
  match w.slots a with
  | none => none
  | some s =>
    if s.refs = 1 then some ({ w.setSlot a none with objs := w.objs.map (doom a) }, (w.owned a).map .drop)
    else some (w.setSlot a (some { s with refs := s.refs - 1 }), [])

/-- signal.hpp:79-84 `slot_state::disconnect`: the list gives up its reference. -/
def unlist (w : World) (a : Addr) : Option (World × List Act) :=
  match w.slots a with
  | none => none
  | some s => some (w.setSlot a (some { s with listed := false }), if s.listed then [.release a] else [])

/-- signal.hpp:133-137 `~connection`; 317 `~scoped_connection` with 174-181. -/
def drop (w : World) (o : Obj) : Option (World × List Act) :=
  match w.obj? o with
  | none => none
  | some c =>
    match c.slot with
    | none => some (w.setObj o none, [])
    | some a =>
      if c.guard then
        match unlist (w.setObj o none) a with
        | none => none
        | some (w', acts) => some (w', acts ++ [.release a])
      else some (w.setObj o none, [.release a])

/-- One action: signal.hpp:34-38, 133-137, 317. -/
def step (w : World) : Act → Option (World × List Act)
  | .release a => release w a
  | .drop o => drop w o

/-- Destruction, until nothing is left to do; `none`: something was used that does not exist any more.
(signal.hpp:34-38, 133-137, 317 as they call each other) -/
inductive Run : World → List Act → Option World → Prop where
  | done (w : World) : Run w [] (some w)
  | more {w w' : World} {a : Act} {new rest : List Act} {r : Option World} :
    step w a = some (w', new) → Run w' (new ++ rest) r → Run w (a :: rest) r
  | ub {w : World} {a : Act} {rest : List Act} : step w a = none → Run w (a :: rest) none

/-- signal.hpp:151-153: the second half of the copy assignment. -/
def load (w : World) (o p : Obj) : Option World :=
  match w.obj? o, w.obj? p with
  | some c, some d =>
    match d.slot with
    | none => some (w.setObj o (some { c with slot := none, made := d.made, loose := false }))
    | some b =>
      match w.slots b with
      | none => none
      | some s => some ((w.setSlot b (some { s with refs := s.refs + 1 })).setObj o
          (some { c with slot := some b, made := d.made, loose := false }))
  | _, _ => none

/-- signal.hpp:180: the end of `disconnect`. -/
def clear (w : World) (o : Obj) : Option World :=
  match w.obj? o with
  | some c => some (w.setObj o (some { c with slot := none, made := none, loose := false }))
  | none => none

/-- What clients and slots do. (signal.hpp:124-368, 456-464, 658-676) -/
inductive Op where
  /-- 127, 309 -/
  | new (guard : Bool)
  /-- 456-464, 826-845: `connect`, the new slot being at `a` -/
  | connect (a : Addr)
  /-- 139-143 -/
  | copy (o : Obj)
  /-- 158-161, 322-325 moves; 312-315 a scoped connection from a connection, 339-343 `release` -/
  | move (o : Obj) (guard : Bool)
  /-- 145-156 `o = p` -/
  | assign (o p : Obj)
  /-- 163-167, 277-281, 327-331, 348-352 -/
  | swap (o p : Obj)
  /-- 174-181 -/
  | disconnect (o : Obj)
  /-- 133-137, 317: the client destroys an object -/
  | destroy (o : Obj)
  /-- 658-676, 410: the signal gives up a slot -/
  | unlist (a : Addr)
  /-- an object of the client comes to belong to a target -/
  | give (o : Obj) (a : Addr)
  deriving DecidableEq

/-- A function of signal.hpp:124-368 and its outcome, `none` being undefined behaviour. -/
inductive Does : World → Op → Option World → Prop where
  | new (w : World) (sc : Bool) : Does w (.new sc) (some (w.addObj ⟨none, .client, sc, none, false⟩))
  /-- signal.hpp:456-464, 826-845: one reference for the list, one for the connection -/
  | connect {w : World} {a : Addr} : w.slots a = none → Does w (.connect a)
      (some { (w.setSlot a (some ⟨2, true, w.next⟩)).addObj ⟨some a, .client, false, some w.next, false⟩ with next := w.next + 1 })
  /-- 139-143 -/
  | copyEmpty {w : World} {o : Obj} {c : Conn} : w.obj? o = some c → c.guard = false → c.slot = none →
      Does w (.copy o) (some (w.addObj ⟨none, .client, false, c.made, false⟩))
  | copy {w : World} {o : Obj} {c : Conn} {a : Addr} {s : Slot} : w.obj? o = some c → c.guard = false → c.slot = some a →
      w.slots a = some s →
      Does w (.copy o) (some ((w.setSlot a (some { s with refs := s.refs + 1 })).addObj ⟨some a, .client, false, c.made, false⟩))
  | copyUb {w : World} {o : Obj} {c : Conn} {a : Addr} : w.obj? o = some c → c.guard = false → c.slot = some a → w.slots a = none →
      Does w (.copy o) none
  /-- 158-161 and others: `std::exchange(other.slot_, nullptr)` -/
  | move {w : World} {o : Obj} {c : Conn} {sc : Bool} : w.obj? o = some c →
      Does w (.move o sc) (some ((w.setObj o (some { c with slot := none, made := none })).addObj ⟨c.slot, .client, sc, c.made, false⟩))
  /-- 147 `this != &other` -/
  | assignSelf {w : World} {o : Obj} {c : Conn} : w.obj? o = some c → Does w (.assign o o) (some w)
  | assignEmpty {w : World} {o p : Obj} {c : Conn} : o ≠ p → w.obj? o = some c → c.guard = false → c.slot = none →
      Does w (.assign o p) (load w o p)
  /-- 149-153: release, then read and count -/
  | assign {w w' : World} {o p : Obj} {c : Conn} {a : Addr} : o ≠ p → w.obj? o = some c → c.guard = false → c.slot = some a →
      Run (w.setObj o (some { c with loose := true })) [.release a] (some w') → Does w (.assign o p) (load w' o p)
  | assignUb {w : World} {o p : Obj} {c : Conn} {a : Addr} : o ≠ p → w.obj? o = some c → c.guard = false → c.slot = some a →
      Run (w.setObj o (some { c with loose := true })) [.release a] none → Does w (.assign o p) none
  /-- 277-281 -/
  | swap {w : World} {o p : Obj} {c d : Conn} : w.obj? o = some c → w.obj? p = some d → c.guard = d.guard →
      Does w (.swap o p) (some ((w.setObj o (some { c with slot := d.slot, made := d.made })).setObj p
        (some { d with slot := c.slot, made := c.made })))
  /-- 176-177 -/
  | disconnectEmpty {w : World} {o : Obj} {c : Conn} : w.obj? o = some c → c.slot = none → Does w (.disconnect o) (some w)
  /-- 178-180 -/
  | disconnect {w w1 w' : World} {o : Obj} {c : Conn} {a : Addr} {acts : List Act} : w.obj? o = some c → c.slot = some a →
      unlist (w.setObj o (some { c with loose := true })) a = some (w1, acts) → Run w1 (acts ++ [.release a]) (some w') →
      Does w (.disconnect o) (clear w' o)
  | disconnectUb {w w1 : World} {o : Obj} {c : Conn} {a : Addr} {acts : List Act} : w.obj? o = some c → c.slot = some a →
      unlist (w.setObj o (some { c with loose := true })) a = some (w1, acts) → Run w1 (acts ++ [.release a]) none →
      Does w (.disconnect o) none
  | disconnectGone {w : World} {o : Obj} {c : Conn} {a : Addr} : w.obj? o = some c → c.slot = some a →
      unlist (w.setObj o (some { c with loose := true })) a = none → Does w (.disconnect o) none
  /-- 133-137, 317 -/
  | destroy {w : World} {o : Obj} {c : Conn} {r : Option World} : w.obj? o = some c → c.owner = .client →
      Run (w.setObj o (some { c with owner := .dying })) [.drop o] r → Does w (.destroy o) r
  /-- 658-676 -/
  | unlist {w w' : World} {a : Addr} {acts : List Act} {r : Option World} : unlist w a = some (w', acts) → Run w' acts r →
      Does w (.unlist a) r
  | give {w : World} {o : Obj} {c : Conn} {a : Addr} {s : Slot} : w.obj? o = some c → c.owner = .client → w.slots a = some s →
      Does w (.give o a) (some (w.setObj o (some { c with owner := .target a })))

/-- signal.hpp:283-287, 354-358 `==`. -/
def Conn.eq (c d : Conn) : Bool := c.slot == d.slot
/-- The number that a pointer is, 0 for null. (signal.hpp:292, 189) -/
def Conn.bits (at_ : Addr → Nat) (c : Conn) : Nat := match c.slot with | none => 0 | some a => at_ a
/-- signal.hpp:289-293, 360-364 `<`. -/
def Conn.lt (at_ : Addr → Nat) (c d : Conn) : Bool := c.bits at_ < d.bits at_
/-- signal.hpp:187-190, 893-907 `std::hash`. -/
def Conn.hash (at_ : Addr → Nat) (h : Nat → Nat) (c : Conn) : Nat := h (c.bits at_)

/-- Nothing exists yet. (signal.hpp:124-368) -/
def World.empty : World := ⟨fun _ => none, [], 0⟩

end Verif.Handles
