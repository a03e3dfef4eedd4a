import Verif.Targets.Model
/-
What is claimed about the destruction of targets, in terms of who refers to whom.
-/
namespace Verif.Targets

/-- Someone has a reference to slot `s`: a signal has it in its list, or a client or a target
owns a connection to it. -/
def Referred (w : World) (s : SlotId) : Prop :=
  (∃ (g : SigId) (y : Sig), w.sigs[g]? = some y ∧ s ∈ y.slots) ∨
  (∃ o : Owned, (o = .conn s ∨ o = .guard s) ∧
    (o ∈ w.held ∨ ∃ (t : SlotId) (x : Slot), w.slots[t]? = some x ∧ o ∈ x.owns))

/-- The target of `s` has been destroyed. -/
def Destroyed (w : World) (s : SlotId) : Prop := ∃ gs, (s, gs) ∈ w.log

/-- What destruction can come across. -/
inductive Node where
  /-- the destruction of the target of a slot -/
  | target (s : SlotId)
  /-- the destruction of something owned -/
  | owned (o : Owned)
  /-- the mutex of a signal is locked -/
  | lock (g : SigId)

/-- One thing leads to another at once. -/
inductive Edge (w : World) : Node → Node → Prop where
  | owns {s : SlotId} {x : Slot} {o : Owned} : w.slots[s]? = some x → o ∈ x.owns → Edge w (.target s) (.owned o)
  | conn {s : SlotId} : Edge w (.owned (.conn s)) (.target s)
  | guard {s : SlotId} : Edge w (.owned (.guard s)) (.target s)
  | leave {s : SlotId} {x : Slot} {g : SigId} :
    w.slots[s]? = some x → x.sender = some g → Edge w (.owned (.guard s)) (.lock g)
  | sig {g : SigId} : Edge w (.owned (.sig g)) (.lock g)
  | listed {g : SigId} {y : Sig} {s : SlotId} :
    w.sigs[g]? = some y → s ∈ y.slots → Edge w (.owned (.sig g)) (.target s)

inductive Leads (w : World) : Node → Node → Prop where
  | refl (a : Node) : Leads w a a
  | step {a b c : Node} : Edge w a b → Leads w b c → Leads w a c

/-- No target of a slot of a signal owns, even indirectly, what locks the signal when it is
destroyed. -/
def Layered (w : World) : Prop :=
  ∀ (g : SigId) (y : Sig) (s : SlotId), w.sigs[g]? = some y → s ∈ y.slots → ¬ Leads w (.target s) (.lock g)

/-- No emission is in progress. -/
def Idle (w : World) : Prop := ∀ (g : SigId) (y : Sig), w.sigs[g]? = some y → y.emitting = 0

/-- No target owns a signal. -/
def NoSigs (w : World) : Prop :=
  ∀ (s : SlotId) (x : Slot), w.slots[s]? = some x → ∀ g, .sig g ∉ x.owns

/-- The target of `t` has, or owns a signal that has, a reference to `s`. -/
def Keeps (w : World) (t s : SlotId) : Prop :=
  ∃ x, w.slots[t]? = some x ∧
    (.conn s ∈ x.owns ∨ .guard s ∈ x.owns ∨
      ∃ (g : SigId) (y : Sig), .sig g ∈ x.owns ∧ w.sigs[g]? = some y ∧ s ∈ y.slots)

end Verif.Targets
