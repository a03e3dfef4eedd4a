import Verif.Rest.Model
import Verif.Resource.Ops
import Verif.Tracker.Spec
/-
What a resource with documents should do: parts of documents, what is shown in a document
and what a body names.
-/
namespace Verif.Rest.Spec
open Verif.Path Verif.Path.Spec Verif.Serial.Spec Verif.Resource Verif.Resource.Spec

variable {σ : Type}

/-- A resource whose object is of its type, with the notifications so far. -/
structure Service (Γ : Table) (T : Resource.Ty) (r : Resource.Resource) (hist : List Tracker.Spec.Note) : Prop where
  ok : Resource.Spec.tyOk T = true
  val : holds Γ T r.value = true
  told : Tracked r.tracker hist

/-- `Part path steps d d'`: going down the document `d` along the path gives `d'`: the member
named by the segment for fields and entries, the element at the position for elements. -/
inductive Part : List Seg → List Step → Serial.Doc σ → Serial.Doc σ → Prop
  | here {d} : Part [] [] d d
  | field {s i a path steps ms d d'} : First ms s d → Part path steps d d' →
      Part (s :: path) (.field i a :: steps) (.obj ms) d'
  | unwrap {path steps d d'} : Part path steps d d' → Part path (.unwrap :: steps) d d'
  | entry {s i path steps ms d d'} : First ms s d → Part path steps d d' →
      Part (s :: path) (.entry i :: steps) (.obj ms) d'
  | item {s} {i : Nat} {path steps l d d'} : l[i]? = some d → Part path steps d d' →
      Part (s :: path) (.item i :: steps) (.arr l) d'
  | child {s key} {i : Nat} {path steps l d d'} : l[i]? = some d → Part path steps d d' →
      Part (s :: path) (.child key i :: steps) (.arr l) d'

/-- What the steps go through has a place of its own in the document: no field on the way is
flattened, holds extra fields or is left out, and no entry on the way is a null left out. -/
inductive Shown (Γ : Table) (s : Bool) : Resource.Ty → Resource.Value → List Step → Prop
  | here {t v} : Shown Γ s t v []
  | field {id fs vs} {i : Nat} {a t v steps} : (Resource.Spec.fieldList fs)[i]? = some (a, t) → vs[i]? = some v →
      (Γ.field id i).extra = false → (Γ.field id i).flatten = false →
      omitted s (Γ.field id i) (view Γ t v) = false → Shown Γ s t v steps →
      Shown Γ s (.record id fs) (.record vs) (.field i a :: steps)
  | unwrap {t v steps} : Shown Γ s t v steps → Shown Γ s (.opt t) (.opt (some v)) (.unwrap :: steps)
  | entry {er t es} {i : Nat} {e steps} : es[i]? = some e → (s && Serial.isNullValue (view Γ t e.2)) = false →
      Shown Γ s t e.2 steps → Shown Γ s (.map er t) (.map es) (.entry i :: steps)
  | item {k t vs} {i : Nat} {v steps} : vs[i]? = some v → Shown Γ s t v steps →
      Shown Γ s (.seq k t) (.seq vs) (.item i :: steps)
  | child {k t vs key} {i : Nat} {v steps} : vs[i]? = some v → Shown Γ s t v steps →
      Shown Γ s (.seq k t) (.seq vs) (.child key i :: steps)

/-- The body says nothing about what the path leads to: somewhere on the way is a field that is
not read or that the body does not have, or an extra field that it does not have. -/
inductive Unnamed (Γ : Table) : Resource.Ty → Serial.Doc σ → List Seg → List Step → Prop
  | ignored {id fs ms} {i : Nat} {a path steps} : (Γ.field id i).skipDeser = true →
      Unnamed Γ (.record id fs) (.obj ms) path (.field i a :: steps)
  | missing {id fs ms} {i : Nat} {a path steps} : plain (Γ.field id i) = true → Missing ms (Γ.field id i) →
      Unnamed Γ (.record id fs) (.obj ms) path (.field i a :: steps)
  | inside {id fs ms} {i : Nat} {a t d s path steps} : plain (Γ.field id i) = true →
      (Resource.Spec.fieldList fs)[i]? = some (a, t) → ReadFrom ms (Γ.field id i) d → Unnamed Γ t d path steps →
      Unnamed Γ (.record id fs) (.obj ms) (s :: path) (.field i a :: steps)
  | flat {id fs ms} {i : Nat} {a t s path steps} : (Γ.field id i).skipDeser = false →
      (Γ.field id i).extra = false → (Γ.field id i).flatten = true →
      (Resource.Spec.fieldList fs)[i]? = some (a, t) → Unnamed Γ t (.obj ms) path steps →
      Unnamed Γ (.record id fs) (.obj ms) (s :: path) (.field i a :: steps)
  | extra {id fs ms} {i : Nat} {a s' s path steps} : (Γ.field id i).skipDeser = false →
      (Γ.field id i).extra = true → NoMember ms s →
      Unnamed Γ (.record id fs) (.obj ms) (s' :: s :: path) (.field i a :: steps)
  | unwrap {t ms path steps} : Unnamed Γ t (.obj ms) path steps →
      Unnamed Γ (.opt t) (.obj ms) path (.unwrap :: steps)

end Verif.Rest.Spec
