import Verif.Path.Spec
/-
What a change tracker should report, in terms of locations (segment lists) only.
-/
namespace Verif.Tracker.Spec
open Verif.Path.Spec

/-- One notification: the location and whether its whole subtree was replaced. -/
abbrev Note := List Seg × Bool

/-- The notification concerns location `p`: it happened at or below `p`, or it replaced a
subtree containing `p`. -/
def Concerns (n : Note) (p : List Seg) : Prop := p <+: n.1 ∨ (n.2 = true ∧ n.1 <+: p)

/-- `g` is the generation of the last entry of `hist` satisfying `P`; the `n`-th
notification (from 0) has generation `n + 2`, and 0 means there is none. -/
def LatestBy (P : Note → Prop) (hist : List Note) (g : Nat) : Prop :=
  (g = 0 ∧ ∀ e ∈ hist, ¬ P e) ∨
  ∃ n e, hist[n]? = some e ∧ g = n + 2 ∧ P e ∧ ∀ m e', n < m → hist[m]? = some e' → ¬ P e'

end Verif.Tracker.Spec
