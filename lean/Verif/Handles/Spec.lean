import Verif.Handles.Model
/-
C134: what clients may do with connection objects, and what each function leaves in them, as values: no counts, no order of events.
-/
namespace Verif.Handles

/-- The slot stays although `n` references to it are given up. -/
def Stays (w : World) (c : Conn) (n : Slot → Nat) : Prop := ∀ a s, c.slot = some a → w.slots a = some s → n s < s.refs

/-- The rule. An assignment that may delete a slot is between objects of the client, a `disconnect` that may delete a slot is on an
object of the client. -/
def Allowed (w : World) : Op → Prop
  | .new _ => True
  | .connect a => w.slots a = none
  | .copy o => ∃ c, w.obj? o = some c ∧ c.guard = false
  | .move o _ => ∃ c, w.obj? o = some c
  | .assign o p => ∃ c d, w.obj? o = some c ∧ w.obj? p = some d ∧ c.guard = false ∧ d.guard = false ∧
      (c.owner = .client ∧ d.owner = .client ∨ Stays w c fun _ => 1)
  | .swap o p => ∃ c d, w.obj? o = some c ∧ w.obj? p = some d ∧ c.guard = d.guard
  | .disconnect o => ∃ c, w.obj? o = some c ∧ (c.owner = .client ∨ Stays w c fun s => s.listed.toNat + 1)
  | .destroy o => ∃ c, w.obj? o = some c ∧ c.owner = .client
  | .unlist a => w.slots a ≠ none
  | .give o a => ∃ c, w.obj? o = some c ∧ c.owner = .client ∧ w.slots a ≠ none

/-- What an operation leaves in the objects that it is about; `none` for all others. -/
def written (w : World) (q : Obj) : Op → Option (Option Conn)
  | .new g => if q = w.objs.length then some (some ⟨none, .client, g, none, false⟩) else none
  | .connect a => if q = w.objs.length then some (some ⟨some a, .client, false, some w.next, false⟩) else none
  | .copy o => if q = w.objs.length then some ((w.obj? o).map fun c => ⟨c.slot, .client, false, c.made, false⟩) else none
  | .move o g =>
    if q = w.objs.length then some ((w.obj? o).map fun c => ⟨c.slot, .client, g, c.made, false⟩)
    else if q = o then some ((w.obj? o).map fun c => { c with slot := none, made := none })
    else none
  | .assign o p =>
    if q = o then some ((w.obj? o).bind fun c => (w.obj? p).map fun d => { c with slot := d.slot, made := d.made }) else none
  | .swap o p =>
    if q = o then some ((w.obj? o).bind fun c => (w.obj? p).map fun d => { c with slot := d.slot, made := d.made })
    else if q = p then some ((w.obj? p).bind fun d => (w.obj? o).map fun c => { d with slot := c.slot, made := c.made })
    else none
  | .disconnect o => if q = o then some ((w.obj? o).map fun c => { c with slot := none, made := none }) else none
  | .destroy o => if q = o then some none else none
  | .unlist _ => none
  | .give o a => if q = o then some ((w.obj? o).map fun c => { c with owner := .target a }) else none

/-- An object that an operation is not about: those of the client stay as they are, others are destroyed or keep what they refer to,
and nothing comes from nowhere. -/
def Untouched (w w' : World) (q : Obj) : Prop :=
  (∀ c, w.obj? q = some c → c.owner = .client → w'.obj? q = some c) ∧
  ∀ c', w'.obj? q = some c' → ∃ c, w.obj? q = some c ∧ c'.slot = c.slot ∧ c'.made = c.made ∧ c'.guard = c.guard

/-- The values after an operation. -/
def Post (w : World) (op : Op) (w' : World) : Prop :=
  ∀ q, match written w q op with
    | some x => w'.obj? q = x
    | none => Untouched w w' q

/-- States that are reached when all keep to the rule. -/
inductive Reach : World → Prop where
  | init : Reach .empty
  | step {w w' : World} {op : Op} : Reach w → Allowed w op → Does w op (some w') → Reach w'

end Verif.Handles
