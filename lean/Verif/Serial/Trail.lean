import Verif.Serial.State
/-
All states a target goes through while it is read or patched (/repo/include/kl/detail/serialization.hpp), first to last. `State.lean` gives
the last one. An exception that is not about the document (`std::bad_alloc` from anything that allocates: strings, elements, the texts of
errors, `ex.add`) may come between any two of them; nothing in the library catches it (857-871, 883-897, 911-1026 catch `deserialize_error`
only), so it leaves one of these states. Assigning one value (a string, an optional, a default) is one step.
-/
namespace Verif.Serial
open Verif.Path Verif.Enums

variable {σ : Type}

/-- 1068-1075: after each element of an `enum_set`. -/
def setTrail (B : Backend σ) (e : EnumTy) : List (Doc σ) → EnumSet e.under.signed e.under.w →
    List (EnumSet e.under.signed e.under.w)
  | [], out => [out]
  | d :: ds, out =>
    out :: match deserEnum B e d with
      | .error _ => []
      | .ok n => setTrail B e ds (out.orAssignE (BitVec.ofInt e.under.w n))

/-- 857-871: after each element of a growable range. -/
def itemsTrail (deser : Doc σ → Res Value) : List (Doc σ) → List Value → List (List Value)
  | [], out => [out]
  | d :: ds, out =>
    out :: match deser d with
      | .error _ => []
      | .ok v => itemsTrail deser ds (out ++ [v])

/-- 825-842: after each member of a map. -/
def entriesTrail (deser : Doc σ → Res Value) : List (Str × Doc σ) → List (Str × Value) → List (List (Str × Value))
  | [], out => [out]
  | (k, d) :: ms, out =>
    out :: match deser d with
      | .error _ => []
      | .ok v => entriesTrail deser ms (emplace out k v)

/-- 925-947: after each extra field. -/
def extraEntriesTrail (deser : Doc σ → Res Value) (reserved : List Str) :
    List (Str × Doc σ) → List (Str × Value) → List (List (Str × Value))
  | [], out => [out]
  | (k, d) :: ms, out =>
    if reserved.contains k then extraEntriesTrail deser reserved ms out
    else
      out :: match deser d with
        | .error _ => []
        | .ok v => extraEntriesTrail deser reserved ms (emplace out k v)

/-- One part is read in place, and after it, if it did not throw, the `others`. (883-897, 911-1026, 1080-1085, 1139-1213) -/
def inPlace (r : Run Value) (trail : List Value) (olds : List Value) (others : List (List Value)) : List (List Value) :=
  trail.map (fun v => v :: olds) ++
    match r.2 with
    | some _ => []
    | none => others.map fun vs => r.1 :: vs

/-- 883-897: the elements of a fixed size range. -/
def fixedTrail (read : Value → Doc σ → Run Value) (trail : Value → Doc σ → List Value) (l : List (Doc σ)) :
    Nat → List Value → List (List Value)
  | _, [] => [[]]
  | i, old :: olds => inPlace (read old (atIndex l i)) (trail old (atIndex l i)) olds (fixedTrail read trail l (i + 1) olds)

/-- json.hpp:679-757, yaml.hpp:528-563: `out = ...;`. -/
def assignTrail {α : Type} (old : α) : Res α → List α
  | .ok v => [old, v]
  | .error _ => [old]

/-- 958-976: a field that is neither extra nor flattened. -/
def readPlainTrail (f : Field) (ms : List (Str × Doc σ)) (old : Value) (trail : Doc σ → List Value) : List Value :=
  match resolveName ms f with
  | none =>
    match missingPolicy f old with
    | some v => [old, v]
    | none => trail (atField ms f.key)
  | some name =>
    match (if (atField ms name).isNull then applyDefault f else none) with
    | some v => [old, v]
    | none => trail (atField ms name)

/-- 919-949: an `extra_fields` map. -/
def extrasTrail (B : Backend σ) (E : Env) (reserved : Option (List Str)) (ms : List (Str × Doc σ)) : Ty → Value → List Value
  | .map t, old =>
    match reserved with
    | none => [old]
    | some names => old :: (extraEntriesTrail (deser B E t (fresh t)) names ms []).map .map
  | _, old => [old]

mutual
/-- 816-1118 `deserialize_adl`. -/
def deserTrail (B : Backend σ) (E : Env) : Ty → Value → Doc σ → List Value
  | .leaf l, old, d => assignTrail old ((B.deserLeaf l d).map .atom)
  | .enum e, old, d => assignTrail old ((deserEnum B e d).map fun n => .atom (.int n))
  | .rawEnum t, old, d => assignTrail old ((B.deserLeaf (.int t) d).map .atom)
  | .enumSet e, old, d =>
    match elements B d with
    | .error _ => [old]
    | .ok l => old :: (setTrail B e l .empty).map fun s => .bits s.value.toNat
  | .opt t, old, d =>
    if d.isNull then [old, .opt none]
    else assignTrail old ((deser B E t (fresh t) d).map fun v => .opt (some v))
  | .vec t, old, d =>
    match elements B d with
    | .error _ => [old]
    | .ok l => old :: (itemsTrail (deser B E t (fresh t)) l []).map .seq
  | .arr _ t, old, d =>
    match elements B d with
    | .error _ => [old]
    | .ok l =>
      match old with
      | .seq olds =>
        if olds.length < l.length then [.seq olds]
        else (fixedTrail (deserRun B E t) (deserTrail B E t) l 0 olds).map .seq
      | old => [old]
  | .map t, old, d =>
    match members B d with
    | .error _ => [old]
    | .ok ms => old :: (entriesTrail (deser B E t (fresh t)) ms []).map .map
  | .tuple _ ts, old, d =>
    match elements B d with
    | .error _ => [old]
    | .ok l =>
      if ts.length < l.length then [old]
      else
        match old with
        | .seq olds => (tupleTrail B E l ts 0 olds).map .seq
        | old => [old]
  | .record _ fs, old, d =>
    match old with
    | .record olds =>
      match d with
      | .obj ms =>
        match reservedNames fs with
        | .error _ => [.record olds]
        | .ok reserved => (fieldsTrail B E reserved ms fs olds).map .record
      | .arr l =>
        if seqFieldCount fs < l.length then [.record olds]
        else (seqFieldsTrail B E l fs 0 olds).map .record
      | _ => [.record olds]
    | old => [old]
/-- 1080-1085 `deserialize_tuple`. -/
def tupleTrail (B : Backend σ) (E : Env) (l : List (Doc σ)) : Tys → Nat → List Value → List (List Value)
  | .nil, _, olds => [olds]
  | .cons t ts, i, olds =>
    match olds with
    | old :: olds =>
      inPlace (deserRun B E t old (atIndex l i)) (deserTrail B E t old (atIndex l i)) olds (tupleTrail B E l ts (i + 1) olds)
    | [] => [[]]
/-- 913-988: the fields of a record from the members of a map. -/
def fieldsTrail (B : Backend σ) (E : Env) (reserved : Option (List Str)) (ms : List (Str × Doc σ)) :
    Fields → List Value → List (List Value)
  | .nil, olds => [olds]
  | .cons f t fs, olds =>
    match olds with
    | old :: olds =>
      inPlace
        (if f.skipDeser then (old, none)
        else if f.extra then extrasRun B E reserved ms t old
        else if f.flatten then deserRun B E t old (.obj ms)
        else readPlainRun E f ms old (deserRun B E t old))
        (if f.skipDeser then [old]
        else if f.extra then extrasTrail B E reserved ms t old
        else if f.flatten then deserTrail B E t old (.obj ms)
        else readPlainTrail f ms old (deserTrail B E t old))
        olds (fieldsTrail B E reserved ms fs olds)
    | [] => [[]]
/-- 995-1026: the fields of a record from the elements of a sequence. -/
def seqFieldsTrail (B : Backend σ) (E : Env) (l : List (Doc σ)) : Fields → Nat → List Value → List (List Value)
  | .nil, _, olds => [olds]
  | .cons f t fs, i, olds =>
    match olds with
    | old :: olds =>
      if f.skipDeser then (seqFieldsTrail B E l fs i olds).map fun vs => old :: vs
      else if f.extra || f.flatten then [old :: olds]
      else
        inPlace (validateRun E f (deserRun B E t old (atIndex l i))) (deserTrail B E t old (atIndex l i)) olds
          (seqFieldsTrail B E l fs (i + 1) olds)
    | [] => [[]]
end

/-! ### patch -/

/-- 1151-1183: after each member for an `extra_fields` map; an entry that exists is patched in place. -/
def patchExtraEntriesTrail (patchIn : Value → Doc σ → Run Value) (trail : Value → Doc σ → List Value) (patchNew : Doc σ → Res Value)
    (reserved : List Str) : List (Str × Doc σ) → List (Str × Value) → List (List (Str × Value))
  | [], out => [out]
  | (k, d) :: ms, out =>
    if reserved.contains k then patchExtraEntriesTrail patchIn trail patchNew reserved ms out
    else
      match lookup out k with
      | some v =>
        (trail v d).map (fun w => assignEntry out k w) ++
          match (patchIn v d).2 with
          | some _ => []
          | none => patchExtraEntriesTrail patchIn trail patchNew reserved ms (assignEntry out k (patchIn v d).1)
      | none =>
        out :: match patchNew d with
          | .error _ => []
          | .ok v => patchExtraEntriesTrail patchIn trail patchNew reserved ms (emplace out k v)

/-- 1195-1204: a field that is neither extra nor flattened. -/
def patchPlainTrail (f : Field) (ms : List (Str × Doc σ)) (old : Value) (trail : Doc σ → List Value) : List Value :=
  match resolveName ms f with
  | none => [old]
  | some name =>
    match (if (atField ms name).isNull then applyDefault f else none) with
    | some v => [old, v]
    | none => trail (atField ms name)

mutual
/-- 1120-1242 `patch_adl`. -/
def patchTrail (B : Backend σ) (E : Env) : Ty → Value → Doc σ → List Value
  | .record name fs, old, d =>
    match d with
    | .obj ms =>
      match reservedNames fs with
      | .error _ => [old]
      | .ok reserved =>
        match old with
        | .record olds => (patchFieldsTrail B E reserved ms fs olds).map .record
        | old => [old]
    | d => deserTrail B E (.record name fs) old d
  | .opt t, old, d =>
    if d.isNull then [old, .opt none]
    else
      match old with
      | .opt (some v) => (patchTrail B E t v d).map fun w => .opt (some w)
      | .opt none => assignTrail (.opt none) ((patch B E t (fresh t) d).map fun v => .opt (some v))
      | old => [old]
  | t, old, d => deserTrail B E t old d
/-- 1139-1213: the fields. -/
def patchFieldsTrail (B : Backend σ) (E : Env) (reserved : Option (List Str)) (ms : List (Str × Doc σ)) :
    Fields → List Value → List (List Value)
  | .nil, olds => [olds]
  | .cons f t fs, olds =>
    match olds with
    | old :: olds =>
      inPlace
        (if f.skipDeser then (old, none)
        else if f.extra then patchExtrasRun B E reserved ms t old
        else if f.flatten then patchRun B E t old (.obj ms)
        else patchPlainRun E f ms old (patchRun B E t old))
        (if f.skipDeser then [old]
        else if f.extra then patchExtrasTrail B E reserved ms t old
        else if f.flatten then patchTrail B E t old (.obj ms)
        else patchPlainTrail f ms old (patchTrail B E t old))
        olds (patchFieldsTrail B E reserved ms fs olds)
    | [] => [[]]
/-- 1146-1184: an `extra_fields` map. -/
def patchExtrasTrail (B : Backend σ) (E : Env) (reserved : Option (List Str)) (ms : List (Str × Doc σ)) : Ty → Value → List Value
  | .map t, old =>
    match reserved, old with
    | some names, .map es =>
      (patchExtraEntriesTrail (patchRun B E t) (patchTrail B E t) (patch B E t (fresh t)) names ms es).map .map
    | _, old => [old]
  | _, old => [old]
end

end Verif.Serial
