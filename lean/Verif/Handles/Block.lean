import Verif.Handles.Model
/-
`kl::connection::blocker` objects (signal.hpp:192-274) next to the connection objects of `Handles/Model.lean`. A blocker is an object
with a `slot_` of its own which has a reference like a connection has; `isB` says which objects are blockers, `blocks` is the counter
`blocking_` of every slot. One thread, as there.

* `assert(prev > 0)` (signal.hpp:65) that does not hold is the outcome `none`, like undefined behaviour.
* Blockers may belong to the target of a slot, like connections.
-/
namespace Verif.Handles

/-- All slots, connections and blockers. (signal.hpp:25-368) -/
structure BWorld where
  base : World
  /-- the object is a `blocker`, signal.hpp:199-271 -/
  isB : Obj → Bool
  /-- 100 `std::atomic<unsigned> blocking_` of the slot at an address -/
  blocks : Addr → BitVec 32

/-- Model only: writing to what `Handles/Model.lean` has. (signal.hpp:25-368) -/
def BWorld.withBase (W : BWorld) (w : World) : BWorld := { W with base := w }

/-- signal.hpp:57-60 `block`. -/
def block (W : BWorld) (a : Addr) : Option BWorld :=
  match W.base.slots a with
  | none => none
  | some _ => some { W with blocks := fun b => if b = a then W.blocks a + 1 else W.blocks b }

/-- signal.hpp:62-67 `unblock`. -/
def unblock (W : BWorld) (a : Addr) : Option BWorld :=
  match W.base.slots a with
  | none => none
  | some _ =>
    if W.blocks a = 0 then none
    else some { W with blocks := fun b => if b = a then W.blocks a - 1 else W.blocks b }

/-- signal.hpp:69-72 `blocked`. -/
def blocked (W : BWorld) (a : Addr) : Bool := W.blocks a != 0

/-- signal.hpp:212-219 `~blocker`. -/
def dropB (W : BWorld) (o : Obj) : Option (BWorld × List Act) :=
  match W.base.obj? o with
  | none => none
  | some c =>
    match c.slot with
    | none => some (W.withBase (W.base.setObj o none), [])
    | some a =>
      match unblock W a with
      | none => none
      | some W1 => some (W1.withBase (W1.base.setObj o none), [.release a])

/-- One action, with blockers among the objects: signal.hpp:34-38, 133-137, 212-219, 317. -/
def bstep (W : BWorld) : Act → Option (BWorld × List Act)
  | .release a => (release W.base a).map fun x => (W.withBase x.1, x.2)
  | .drop o => if W.isB o then dropB W o else (drop W.base o).map fun x => (W.withBase x.1, x.2)

/-- Destruction, until nothing is left to do. (signal.hpp:34-38, 133-137, 212-219, 317 as they call each other) -/
inductive BRun : BWorld → List Act → Option BWorld → Prop where
  | done (W : BWorld) : BRun W [] (some W)
  | more {W W' : BWorld} {a : Act} {new rest : List Act} {r : Option BWorld} :
    bstep W a = some (W', new) → BRun W' (new ++ rest) r → BRun W (a :: rest) r
  | ub {W : BWorld} {a : Act} {rest : List Act} : bstep W a = none → BRun W (a :: rest) none

/-- Model only: a new object of signal.hpp:199-271 beside the old ones. -/
def BWorld.addB (W : BWorld) (c : Conn) : BWorld :=
  { W with base := W.base.addObj c, isB := fun q => if q = W.base.objs.length then true else W.isB q }

/-- signal.hpp:203-210, 221-228: a blocker with the `slot_` of a connection or blocker. -/
def dup (W : BWorld) (c : Conn) : Option BWorld :=
  match c.slot with
  | none => some (W.addB ⟨none, .client, false, c.made, false⟩)
  | some a =>
    match W.base.slots a with
    | none => none
    | some s =>
      block ((W.withBase (W.base.setSlot a (some { s with refs := s.refs + 1 }))).addB ⟨some a, .client, false, c.made, false⟩) a

/-- signal.hpp:239-244: the second half of the copy assignment. -/
def bload (W : BWorld) (o p : Obj) : Option BWorld :=
  match load W.base o p, W.base.obj? p with
  | some w', some d =>
    match d.slot with
    | none => some (W.withBase w')
    | some b => block (W.withBase w') b
  | _, _ => none

/-- What clients and slots do. (signal.hpp:124-368) -/
inductive BOp where
  /-- a function of a connection, or of the signal -/
  | conn (op : Op)
  /-- 202 -/
  | blank
  /-- 203-210, 274 `get_blocker` -/
  | ofConn (o : Obj)
  /-- 221-228 -/
  | copy (o : Obj)
  /-- 249-252 -/
  | move (o : Obj)
  /-- 230-247 `o = p` -/
  | assign (o p : Obj)
  /-- 254-258, 263-267 -/
  | swap (o p : Obj)
  /-- 212-219: the client destroys a blocker -/
  | destroy (o : Obj)
  deriving DecidableEq

/-- Functions of connections take connections. (signal.hpp:124-368) -/
def plain (W : BWorld) : Op → Bool
  | .new _ | .connect _ | .unlist _ | .give _ _ => true
  | .copy o | .move o _ | .disconnect o | .destroy o => !W.isB o
  | .assign o p | .swap o p => !W.isB o && !W.isB p

/-- Functions that release nothing. (signal.hpp:127-143, 158-167, 277-281, 309-331, 348-352, 456-464) -/
def quiet : Op → Bool
  | .new _ | .connect _ | .copy _ | .move _ _ | .swap _ _ | .give _ _ => true
  | .assign _ _ | .disconnect _ | .destroy _ | .unlist _ => false

/-- After such a function: new objects are connections, a new slot is not blocked (signal.hpp:100). -/
def BWorld.after (W : BWorld) (op : Op) (w : World) : BWorld :=
  { base := w
    isB := fun q => if q = W.base.objs.length then false else W.isB q
    blocks := match op with
      | .connect a => fun b => if b = a then 0 else W.blocks b
      | _ => W.blocks }

/-- A function of signal.hpp:124-368 and its outcome, `none` being undefined behaviour or a failed `assert`. -/
inductive BDoes : BWorld → BOp → Option BWorld → Prop where
  | quiet {W : BWorld} {op : Op} {r : Option World} : quiet op = true → plain W op = true → Does W.base op r →
      BDoes W (.conn op) (r.map (W.after op))
  /-- signal.hpp:145-156 -/
  | cassignSelf {W : BWorld} {o : Obj} {c : Conn} : W.isB o = false → W.base.obj? o = some c →
      BDoes W (.conn (.assign o o)) (some W)
  | cassignEmpty {W : BWorld} {o p : Obj} {c : Conn} : W.isB o = false → W.isB p = false → o ≠ p → W.base.obj? o = some c →
      c.guard = false → c.slot = none → BDoes W (.conn (.assign o p)) ((load W.base o p).map W.withBase)
  | cassign {W W' : BWorld} {o p : Obj} {c : Conn} {a : Addr} : W.isB o = false → W.isB p = false → o ≠ p →
      W.base.obj? o = some c → c.guard = false → c.slot = some a →
      BRun (W.withBase (W.base.setObj o (some { c with loose := true }))) [.release a] (some W') →
      BDoes W (.conn (.assign o p)) ((load W'.base o p).map W'.withBase)
  | cassignUb {W : BWorld} {o p : Obj} {c : Conn} {a : Addr} : W.isB o = false → W.isB p = false → o ≠ p →
      W.base.obj? o = some c → c.guard = false → c.slot = some a →
      BRun (W.withBase (W.base.setObj o (some { c with loose := true }))) [.release a] none →
      BDoes W (.conn (.assign o p)) none
  /-- 174-181 -/
  | disconnectEmpty {W : BWorld} {o : Obj} {c : Conn} : W.isB o = false → W.base.obj? o = some c → c.slot = none →
      BDoes W (.conn (.disconnect o)) (some W)
  | disconnect {W W' : BWorld} {w1 : World} {o : Obj} {c : Conn} {a : Addr} {acts : List Act} : W.isB o = false →
      W.base.obj? o = some c → c.slot = some a → unlist (W.base.setObj o (some { c with loose := true })) a = some (w1, acts) →
      BRun (W.withBase w1) (acts ++ [.release a]) (some W') →
      BDoes W (.conn (.disconnect o)) ((clear W'.base o).map W'.withBase)
  | disconnectUb {W : BWorld} {w1 : World} {o : Obj} {c : Conn} {a : Addr} {acts : List Act} : W.isB o = false →
      W.base.obj? o = some c → c.slot = some a → unlist (W.base.setObj o (some { c with loose := true })) a = some (w1, acts) →
      BRun (W.withBase w1) (acts ++ [.release a]) none → BDoes W (.conn (.disconnect o)) none
  | disconnectGone {W : BWorld} {o : Obj} {c : Conn} {a : Addr} : W.isB o = false → W.base.obj? o = some c → c.slot = some a →
      unlist (W.base.setObj o (some { c with loose := true })) a = none → BDoes W (.conn (.disconnect o)) none
  /-- 133-137, 317 -/
  | cdestroy {W : BWorld} {o : Obj} {c : Conn} {r : Option BWorld} : W.isB o = false → W.base.obj? o = some c → c.owner = .client →
      BRun (W.withBase (W.base.setObj o (some { c with owner := .dying }))) [.drop o] r → BDoes W (.conn (.destroy o)) r
  /-- 658-676 -/
  | unlist {W : BWorld} {w' : World} {a : Addr} {acts : List Act} {r : Option BWorld} : unlist W.base a = some (w', acts) →
      BRun (W.withBase w') acts r → BDoes W (.conn (.unlist a)) r
  /-- 202 -/
  | blank (W : BWorld) : BDoes W .blank (some (W.addB ⟨none, .client, false, none, false⟩))
  /-- 203-210, 274 -/
  | ofConn {W : BWorld} {o : Obj} {c : Conn} : W.isB o = false → W.base.obj? o = some c → c.guard = false →
      BDoes W (.ofConn o) (dup W c)
  /-- 221-228 -/
  | copy {W : BWorld} {o : Obj} {c : Conn} : W.isB o = true → W.base.obj? o = some c → BDoes W (.copy o) (dup W c)
  /-- 249-252 -/
  | move {W : BWorld} {o : Obj} {c : Conn} : W.isB o = true → W.base.obj? o = some c →
      BDoes W (.move o) (some ((W.withBase (W.base.setObj o (some { c with slot := none, made := none }))).addB
        ⟨c.slot, .client, false, c.made, false⟩))
  /-- 232 `this != &other` -/
  | assignSelf {W : BWorld} {o : Obj} {c : Conn} : W.isB o = true → W.base.obj? o = some c → BDoes W (.assign o o) (some W)
  | assignEmpty {W : BWorld} {o p : Obj} {c : Conn} : W.isB o = true → W.isB p = true → o ≠ p → W.base.obj? o = some c →
      c.slot = none → BDoes W (.assign o p) (bload W o p)
  /-- 234-244: unblock, release, then read, count and block -/
  | assign {W W1 W' : BWorld} {o p : Obj} {c : Conn} {a : Addr} : W.isB o = true → W.isB p = true → o ≠ p →
      W.base.obj? o = some c → c.slot = some a → unblock W a = some W1 →
      BRun (W1.withBase (W1.base.setObj o (some { c with loose := true }))) [.release a] (some W') →
      BDoes W (.assign o p) (bload W' o p)
  | assignUb {W W1 : BWorld} {o p : Obj} {c : Conn} {a : Addr} : W.isB o = true → W.isB p = true → o ≠ p →
      W.base.obj? o = some c → c.slot = some a → unblock W a = some W1 →
      BRun (W1.withBase (W1.base.setObj o (some { c with loose := true }))) [.release a] none →
      BDoes W (.assign o p) none
  | assignGone {W : BWorld} {o p : Obj} {c : Conn} {a : Addr} : W.isB o = true → W.isB p = true → o ≠ p →
      W.base.obj? o = some c → c.slot = some a → unblock W a = none → BDoes W (.assign o p) none
  /-- 254-258, 263-267 -/
  | swap {W : BWorld} {o p : Obj} {c d : Conn} : W.isB o = true → W.isB p = true → W.base.obj? o = some c → W.base.obj? p = some d →
      BDoes W (.swap o p) (some (W.withBase ((W.base.setObj o (some { c with slot := d.slot, made := d.made })).setObj p
        (some { d with slot := c.slot, made := c.made }))))
  /-- 212-219 -/
  | destroy {W : BWorld} {o : Obj} {c : Conn} {r : Option BWorld} : W.isB o = true → W.base.obj? o = some c → c.owner = .client →
      BRun (W.withBase (W.base.setObj o (some { c with owner := .dying }))) [.drop o] r → BDoes W (.destroy o) r

/-- signal.hpp:261 `blocking()`. -/
def Conn.blocking (c : Conn) : Bool := c.slot.isSome

/-- Nothing exists yet. (signal.hpp:25-368) -/
def BWorld.empty : BWorld := ⟨.empty, fun _ => false, fun _ => 0⟩

end Verif.Handles
