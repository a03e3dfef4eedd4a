import Verif.Resource.Alloc
import Verif.Resource.Spec
import Verif.Tracker.AllocSpec
import Verif.Tracker.Props
/-
C139: what a request may do when memory runs out.
-/
namespace Verif.Resource.Spec
open Verif.Path Verif.Path.Spec Verif.Tracker Verif.Tracker.Spec

/-- The tracker has been told a part of what there is to tell: a generation is used up, and every location has changed as it should have, or
has not changed. -/
def PartlyTold (before full after : Tracker) : Prop :=
  after.current = full.current ∧ ∀ w loc, Shows w loc →
    (after.changedAt w).isSome = true ∧ (after.changedAt w = full.changedAt w ∨ after.changedAt w = before.changedAt w)

/-- How a request may end that would end as `full` if there were memory. -/
inductive Ends (r : Resource) (full : Resource × Outcome) : Resource → End → Prop where
  /-- There was memory. -/
  | same : Ends r full full.1 (.of full.2)
  /-- `std::bad_alloc`, and nothing has happened. -/
  | before : Ends r full r .badAlloc
  /-- `std::bad_alloc`, and the request has taken effect. -/
  | after {r' : Resource} : Success full.2 → r'.value = full.1.value → PartlyTold r.tracker full.1.tracker r'.tracker →
      Ends r full r' .badAlloc

/-- The tracker after any calls of `notify_changed`, each with any allocator. -/
inductive Reached : Tracker → Prop where
  | new : Reached {}
  | call {σ : Type} {M : σ → Bool × σ} {t t' : Tracker} {w : View} {loc : List Seg} {b ok : Bool} {s s' : σ} : Reached t →
      Shows w loc → t.notifyA M w b s = some (t', ok, s') → Reached t'

/-- Among these calls there is one that returned and noted a change of the whole subtree at `loc`. -/
inductive Noted (loc : List Seg) : Tracker → Prop where
  | told {σ : Type} {M : σ → Bool × σ} {t t' : Tracker} {w : View} {s s' : σ} : Reached t → Shows w loc →
      t.notifyA M w true s = some (t', true, s') → Noted loc t'
  | call {σ : Type} {M : σ → Bool × σ} {t t' : Tracker} {w : View} {loc' : List Seg} {b ok : Bool} {s s' : σ} : Noted loc t →
      Shows w loc' → t.notifyA M w b s = some (t', ok, s') → Noted loc t'

/-- `v'` is what some of the requests, in their order and each of them successful, make of `v`; `ends` are the ends of all of them, and
the ones left out ended without success. -/
inductive Effects {β : Type} (E : Env β) (T : Ty) : Value → List (Asked β) → List End → Value → Prop where
  | nil {v} : Effects E T v [] [] v
  | done {v q qs e es v'} : Success (perform E T ⟨v, {}⟩ q).2 → (e = .of (perform E T ⟨v, {}⟩ q).2 ∨ e = .badAlloc) →
      Effects E T (perform E T ⟨v, {}⟩ q).1.value qs es v' → Effects E T v (q :: qs) (e :: es) v'
  | skipped {v q qs e es v'} : (e = .of (perform E T ⟨v, {}⟩ q).2 ∧ ¬ Success (perform E T ⟨v, {}⟩ q).2 ∨ e = .badAlloc) →
      Effects E T v qs es v' → Effects E T v (q :: qs) (e :: es) v'

end Verif.Resource.Spec
