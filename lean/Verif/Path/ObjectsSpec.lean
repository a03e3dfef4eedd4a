import Verif.Path.Objects
/-
What to expect of objects of type `path` (C141): values that belong to one object each, without memory.
-/
namespace Verif.Path.Spec

/-- The number of objects ever made and the value of each that lives. -/
structure Values where
  count : Nat
  at' : Nat → Option Path

/-- One object gets a value, or goes. -/
def Values.put (V : Values) (o : Nat) (p : Option Path) : Values := { V with at' := fun k => if k = o then p else V.at' k }

/-- One more object. -/
def Values.add (V : Values) (p : Path) : Values := ⟨V.count + 1, fun k => if k = V.count then some p else V.at' k⟩

/-- What is left of a value that was moved away: nothing, or, with some libraries, a few segments without their text. -/
def Left (empties : Bool) (p q : Path) : Prop :=
  q = ⟨[], []⟩ ∨ (empties = false ∧ p.segments.length ≤ 15 ∧ q = ⟨[], p.segments⟩)

/-- Value semantics of the operations. -/
inductive Turns (empties : Bool) (V : Values) : Op → Values → Prop
  | create : Turns empties V .create (V.add ⟨[], []⟩)
  | destroy {o p} : V.at' o = some p → Turns empties V (.destroy o) (V.put o none)
  | clear {o p} : V.at' o = some p → Turns empties V (.clear o) (V.put o (some ⟨[], []⟩))
  | set {o p v} : V.at' o = some p → Turns empties V (.set o v) (V.put o (some (Path.default.set v).1))
  | copyNew {s p} : V.at' s = some p → Turns empties V (.copyNew s) (V.add p)
  | moveNew {s p q} : V.at' s = some p → Left empties p q → Turns empties V (.moveNew s) ((V.add p).put s (some q))
  | copy {d s p p'} : V.at' s = some p → V.at' d = some p' → Turns empties V (.copy d s) (V.put d (some p))
  | move {d s p p' q} : d ≠ s → V.at' s = some p → V.at' d = some p' → Left empties p q →
      Turns empties V (.move d s) ((V.put d (some p)).put s (some q))
  | setSegment {d s i p p' t} : V.at' s = some p → V.at' d = some p' → p.at i = some t → (d = s → t = []) →
      Turns empties V (.setSegment d s i) (V.put d (some (Path.default.set t).1))

/-- Operations, one after the other. -/
inductive Happens (empties : Bool) : Values → List Op → Values → Prop
  | nil {V} : Happens empties V [] V
  | cons {V V' V'' op ops} : Turns empties V op V' → Happens empties V' ops V'' → Happens empties V (op :: ops) V''

/-- The objects an operation changes. -/
def touches : Op → List Nat
  | .create => []
  | .destroy o => [o]
  | .clear o => [o]
  | .set o _ => [o]
  | .copyNew _ => []
  | .moveNew s => [s]
  | .copy d _ => [d]
  | .move d s => [d, s]
  | .setSegment d _ _ => [d]

/-- The operation is defined: it names objects that live; nothing is moved to itself or set to its own text. -/
def Allowed (V : Values) : Op → Prop
  | .create => True
  | .destroy o => V.at' o ≠ none
  | .clear o => V.at' o ≠ none
  | .set o _ => V.at' o ≠ none
  | .copyNew s => V.at' s ≠ none
  | .moveNew s => V.at' s ≠ none
  | .copy d s => V.at' d ≠ none ∧ V.at' s ≠ none
  | .move d s => V.at' d ≠ none ∧ V.at' s ≠ none ∧ d ≠ s
  | .setSegment d s i => V.at' d ≠ none ∧ ∃ p t, V.at' s = some p ∧ p.at i = some t ∧ (d = s → t = [])

end Verif.Path.Spec
