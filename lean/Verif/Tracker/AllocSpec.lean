import Verif.Tracker.Spec
/-
C138: what a call that threw counts for.
-/
namespace Verif.Tracker.Spec
open Verif.Path.Spec

/-- What a call of `notify_changed` with a note counts for: if it returned, for what it says; if it threw, for nothing, or for a
change of the location or of one above it. -/
inductive Counts : Note → Bool → Option Note → Prop where
  | done (n : Note) : Counts n true (some n)
  | nothing (n : Note) : Counts n false none
  | above (n : Note) (p : List Seg) : p <+: n.1 → Counts n false (some (p, false))

/-- The same for a history. -/
inductive AllCount : List Note → List Bool → List (Option Note) → Prop where
  | nil : AllCount [] [] []
  | cons {n ok e ns oks es} : Counts n ok e → AllCount ns oks es → AllCount (n :: ns) (ok :: oks) (e :: es)

/-- `g` is the generation of the last entry of `hist` that concerns `p`; the `n`-th call has generation `n + 2`, and 0 means there is
none. -/
def LatestOf (p : List Seg) (hist : List (Option Note)) (g : Nat) : Prop :=
  (g = 0 ∧ ∀ n, some n ∈ hist → ¬ Concerns n p) ∨
  ∃ i n, hist[i]? = some (some n) ∧ g = i + 2 ∧ Concerns n p ∧ ∀ j n', i < j → hist[j]? = some (some n') → ¬ Concerns n' p

end Verif.Tracker.Spec
