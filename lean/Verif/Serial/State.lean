import Verif.Serial.Model
/-
What a call of `deserialize` or `patch` leaves in its target, whether or not it throws
(/repo/include/kl/detail/serialization.hpp unless said otherwise).  `Model.lean` gives the
result of a call that succeeds and the exception of one that does not; here the target is
a state that is changed step by step.  Targets that are local variables (`element{}`,
`mapped_value{}`) are destroyed when the exception passes, so `deser` and `patch` serve
for them.
-/
namespace Verif.Serial
open Verif.Path Verif.Enums

variable {σ : Type}

/-- The target after a call, and what the call threw. -/
abbrev Run (α : Type) := α × Option Exc

/-- What the caller sees. -/
def Run.res {α : Type} (r : Run α) : Res α :=
  match r.2 with
  | none => .ok r.1
  | some e => .error e

/-- `try { ... } catch (deserialize_error& ex) { ex.add(msg); throw; }`. -/
def Run.note {α : Type} (msg : Str) (r : Run α) : Run α := (r.1, r.2.map fun e => e.add msg)

/-- `out = ...;`: nothing is assigned if the right hand side throws (json.hpp:679-757,
yaml.hpp:528-563). -/
def assign {α : Type} (old : α) : Res α → Run α
  | .ok v => (v, none)
  | .error e => (old, some e)

/-- 1068-1075: the loop of an `enum_set`; `out` is the target. -/
def setRun (B : Backend σ) (e : EnumTy) : List (Doc σ) → EnumSet e.under.signed e.under.w →
    Run (EnumSet e.under.signed e.under.w)
  | [], out => (out, none)
  | d :: ds, out =>
    match deserEnum B e d with
    | .error x => (out, some x)
    | .ok n => setRun B e ds (out.orAssignE (BitVec.ofInt e.under.w n))

/-- 857-871: the loop over the elements of a growable range; `out` is the target. -/
def itemsRun (deser : Doc σ → Res Value) : List (Doc σ) → List Value → Run (List Value)
  | [], out => (out, none)
  | d :: ds, out =>
    match note (txt "error when deserializing element " ++ numText out.length) (deser d) with
    | .error e => (out, some e)
    | .ok v => itemsRun deser ds (out ++ [v])

/-- 883-897: the loop over the elements of a fixed size range, which are read in place. -/
def fixedRun (read : Value → Doc σ → Run Value) (l : List (Doc σ)) : Nat → List Value → Run (List Value)
  | _, [] => ([], none)
  | i, old :: olds =>
    match (read old (atIndex l i)).note (txt "error when deserializing element " ++ numText i) with
    | (v, some e) => (v :: olds, some e)
    | (v, none) => (v :: (fixedRun read l (i + 1) olds).1, (fixedRun read l (i + 1) olds).2)

/-- 825-842: the loop over the members of a map; `out` is the target. -/
def entriesRun (deser : Doc σ → Res Value) :
    List (Str × Doc σ) → List (Str × Value) → Run (List (Str × Value))
  | [], out => (out, none)
  | (k, d) :: ms, out =>
    match note (txt "error when deserializing field " ++ k) (deser d) with
    | .error e => (out, some e)
    | .ok v => entriesRun deser ms (emplace out k v)

/-- 925-947: the loop that collects the extra fields; `out` is the target. -/
def extraEntriesRun (deser : Doc σ → Res Value) (reserved : List Str) :
    List (Str × Doc σ) → List (Str × Value) → Run (List (Str × Value))
  | [], out => (out, none)
  | (k, d) :: ms, out =>
    if reserved.contains k then extraEntriesRun deser reserved ms out
    else
      match note (txt "error when deserializing extra field " ++ k) (deser d) with
      | .error e => (out, some e)
      | .ok v => extraEntriesRun deser reserved ms (emplace out k v)

/-- 969-977, 1203-1204 (in patch): `deserialize`, then `validate_field`, which throws with
the new value in place. -/
def validateRun (E : Env) (f : Field) (r : Run Value) : Run Value :=
  match r.2 with
  | some e => (r.1, some e)
  | none =>
    match validateField E r.1 f.validators with
    | .error e => (r.1, some e)
    | .ok () => (r.1, none)

/-- 958-976: a field that is neither extra nor flattened; `read` reads it in place. -/
def readPlainRun (E : Env) (f : Field) (ms : List (Str × Doc σ)) (old : Value) (read : Doc σ → Run Value) :
    Run Value :=
  match resolveName ms f with
  | none =>
    match missingPolicy f old with
    | some v => (v, none)
    | none => validateRun E f (read (atField ms f.key))
  | some name =>
    match (if (atField ms name).isNull then applyDefault f else none) with
    | some v => (v, none)
    | none => validateRun E f (read (atField ms name))

/-- 919-949: an `extra_fields` map; 924: it is cleared first. -/
def extrasRun (B : Backend σ) (E : Env) (reserved : Option (List Str)) (ms : List (Str × Doc σ)) :
    Ty → Value → Run Value
  | .map t, old =>
    match reserved with
    | none => (old, some .stuck)
    | some names =>
      (.map (extraEntriesRun (deser B E t (fresh t)) names ms []).1,
        (extraEntriesRun (deser B E t (fresh t)) names ms []).2)
  | _, old => (old, some .stuck)

mutual
/-- 816-1118 `deserialize_adl`. -/
def deserRun (B : Backend σ) (E : Env) : Ty → Value → Doc σ → Run Value
  | .leaf l, old, d => assign old ((B.deserLeaf l d).map .atom)
  | .enum e, old, d => assign old ((deserEnum B e d).map fun n => .atom (.int n))
  | .rawEnum t, old, d => assign old ((B.deserLeaf (.int t) d).map .atom)
  | .enumSet e, old, d =>
    match elements B d with
    | .error x => (old, some x)
    | .ok l => (.bits (setRun B e l .empty).1.value.toNat, (setRun B e l .empty).2)
  | .opt t, old, d =>
    if d.isNull then (.opt none, none)
    else assign old ((deser B E t (fresh t) d).map fun v => .opt (some v))
  | .vec t, old, d =>
    match elements B d with
    | .error x => (old, some x)
    | .ok l => (.seq (itemsRun (deser B E t (fresh t)) l []).1, (itemsRun (deser B E t (fresh t)) l []).2)
  | .arr _ t, old, d =>
    match elements B d with
    | .error x => (old, some x)
    | .ok l =>
      match old with
      | .seq olds =>
        if olds.length < l.length then
          (.seq olds, some (.deser (txt "sequence size is greater than declared range field count")))
        else (.seq (fixedRun (deserRun B E t) l 0 olds).1, (fixedRun (deserRun B E t) l 0 olds).2)
      | old => (old, some .stuck)
  | .map t, old, d =>
    match members B d with
    | .error x => (old, some x)
    | .ok ms => (.map (entriesRun (deser B E t (fresh t)) ms []).1, (entriesRun (deser B E t (fresh t)) ms []).2)
  | .tuple pair ts, old, d =>
    match elements B d with
    | .error x => (old, some x)
    | .ok l =>
      if ts.length < l.length then (old, some (.deser (tooLong pair)))
      else
        match old with
        | .seq olds => (.seq (tupleRun B E l ts 0 olds).1, (tupleRun B E l ts 0 olds).2)
        | old => (old, some .stuck)
  | .record name fs, old, d =>
    Run.note (txt "error when deserializing type " ++ name)
      (match old with
      | .record olds =>
        match d with
        | .obj ms =>
          match reservedNames fs with
          | .error e => (.record olds, some e)
          | .ok reserved =>
            (.record (fieldsRun B E reserved ms fs olds).1, (fieldsRun B E reserved ms fs olds).2)
        | .arr l =>
          if seqFieldCount fs < l.length then
            (.record olds,
              some (.deser (txt "sequence size is greater than declared struct's field count")))
          else (.record (seqFieldsRun B E l fs 0 olds).1, (seqFieldsRun B E l fs 0 olds).2)
        | d => (.record olds, some (.deser (txt "type must be a sequence or map but is a " ++ B.typeName d)))
      | old => (old, some .stuck))
/-- 1080-1085 `deserialize_tuple`. -/
def tupleRun (B : Backend σ) (E : Env) (l : List (Doc σ)) : Tys → Nat → List Value → Run (List Value)
  | .nil, _, olds =>
    match olds with
    | [] => ([], none)
    | olds => (olds, some .stuck)
  | .cons t ts, i, olds =>
    match olds with
    | old :: olds =>
      match deserRun B E t old (atIndex l i) with
      | (v, some e) => (v :: olds, some e)
      | (v, none) => (v :: (tupleRun B E l ts (i + 1) olds).1, (tupleRun B E l ts (i + 1) olds).2)
    | [] => ([], some .stuck)
/-- 913-988: the fields of a record from the members of a map. -/
def fieldsRun (B : Backend σ) (E : Env) (reserved : Option (List Str)) (ms : List (Str × Doc σ)) :
    Fields → List Value → Run (List Value)
  | .nil, olds =>
    match olds with
    | [] => ([], none)
    | olds => (olds, some .stuck)
  | .cons f t fs, olds =>
    match olds with
    | old :: olds =>
      match (if f.skipDeser then (old, none)
        else if f.extra then extrasRun B E reserved ms t old
        else
          Run.note (fieldMsg f)
            (if f.flatten then deserRun B E t old (.obj ms)
            else readPlainRun E f ms old (deserRun B E t old)) : Run Value) with
      | (v, some e) => (v :: olds, some e)
      | (v, none) =>
        (v :: (fieldsRun B E reserved ms fs olds).1, (fieldsRun B E reserved ms fs olds).2)
    | [] => ([], some .stuck)
/-- 995-1026: the fields of a record from the elements of a sequence. -/
def seqFieldsRun (B : Backend σ) (E : Env) (l : List (Doc σ)) :
    Fields → Nat → List Value → Run (List Value)
  | .nil, _, olds =>
    match olds with
    | [] => ([], none)
    | olds => (olds, some .stuck)
  | .cons f t fs, i, olds =>
    match olds with
    | old :: olds =>
      if f.skipDeser then
        (old :: (seqFieldsRun B E l fs i olds).1, (seqFieldsRun B E l fs i olds).2)
      else
        match Run.note (txt "error when deserializing element " ++ numText i)
          (if f.extra then
            (old, some (.deser (txt "extra_fields fields are not supported in sequence deserialization")))
          else if f.flatten then
            (old, some (.deser (txt "flatten fields are not supported in sequence deserialization")))
          else validateRun E f (deserRun B E t old (atIndex l i)) : Run Value) with
        | (v, some e) => (v :: olds, some e)
        | (v, none) =>
          (v :: (seqFieldsRun B E l fs (i + 1) olds).1, (seqFieldsRun B E l fs (i + 1) olds).2)
    | [] => ([], some .stuck)
end

/-! ### patch -/

/-- 1151-1183: the loop over the members for an `extra_fields` map; an entry that exists is
patched in place. -/
def patchExtraEntriesRun (patchIn : Value → Doc σ → Run Value) (patchNew : Doc σ → Res Value)
    (reserved : List Str) : List (Str × Doc σ) → List (Str × Value) → Run (List (Str × Value))
  | [], out => (out, none)
  | (k, d) :: ms, out =>
    if reserved.contains k then patchExtraEntriesRun patchIn patchNew reserved ms out
    else
      match lookup out k with
      | some v =>
        match (patchIn v d).note (txt "error when patching extra field " ++ k) with
        | (v, some e) => (assignEntry out k v, some e)
        | (v, none) => patchExtraEntriesRun patchIn patchNew reserved ms (assignEntry out k v)
      | none =>
        match note (txt "error when patching extra field " ++ k) (patchNew d) with
        | .error e => (out, some e)
        | .ok v => patchExtraEntriesRun patchIn patchNew reserved ms (emplace out k v)

/-- 1195-1204: a field that is neither extra nor flattened; `patch` patches it in place. -/
def patchPlainRun (E : Env) (f : Field) (ms : List (Str × Doc σ)) (old : Value)
    (patch : Doc σ → Run Value) : Run Value :=
  match resolveName ms f with
  | none => (old, none)
  | some name =>
    match (if (atField ms name).isNull then applyDefault f else none) with
    | some v => (v, none)
    | none => validateRun E f (patch (atField ms name))

mutual
/-- 1120-1242 `patch_adl`; serialization.hpp:132-143: other types fall back to
`deserialize`. -/
def patchRun (B : Backend σ) (E : Env) : Ty → Value → Doc σ → Run Value
  | .record name fs, old, d =>
    Run.note (txt "error when patching type " ++ name)
      (match d with
      | .obj ms =>
        match reservedNames fs with
        | .error e => (old, some e)
        | .ok reserved =>
          match old with
          | .record olds =>
            (.record (patchFieldsRun B E reserved ms fs olds).1, (patchFieldsRun B E reserved ms fs olds).2)
          | old => (old, some .stuck)
      | d => deserRun B E (.record name fs) old d)
  | .opt t, old, d =>
    if d.isNull then (.opt none, none)
    else
      match old with
      | .opt (some v) => (.opt (some (patchRun B E t v d).1), (patchRun B E t v d).2)
      | .opt none => assign (.opt none) ((patch B E t (fresh t) d).map fun v => .opt (some v))
      | old => (old, some .stuck)
  | t, old, d => deserRun B E t old d
/-- 1139-1213: the fields. -/
def patchFieldsRun (B : Backend σ) (E : Env) (reserved : Option (List Str)) (ms : List (Str × Doc σ)) :
    Fields → List Value → Run (List Value)
  | .nil, olds =>
    match olds with
    | [] => ([], none)
    | olds => (olds, some .stuck)
  | .cons f t fs, olds =>
    match olds with
    | old :: olds =>
      match (if f.skipDeser then (old, none)
        else if f.extra then patchExtrasRun B E reserved ms t old
        else
          Run.note (txt "error when patching field " ++ f.name)
            (if f.flatten then patchRun B E t old (.obj ms)
            else patchPlainRun E f ms old (patchRun B E t old)) : Run Value) with
      | (v, some e) => (v :: olds, some e)
      | (v, none) =>
        (v :: (patchFieldsRun B E reserved ms fs olds).1, (patchFieldsRun B E reserved ms fs olds).2)
    | [] => ([], some .stuck)
/-- 1146-1184: an `extra_fields` map. -/
def patchExtrasRun (B : Backend σ) (E : Env) (reserved : Option (List Str)) (ms : List (Str × Doc σ)) :
    Ty → Value → Run Value
  | .map t, old =>
    match reserved, old with
    | some names, .map es =>
      (.map (patchExtraEntriesRun (patchRun B E t) (patch B E t (fresh t)) names ms es).1,
        (patchExtraEntriesRun (patchRun B E t) (patch B E t (fresh t)) names ms es).2)
    | _, old => (old, some .stuck)
  | _, old => (old, some .stuck)
end

end Verif.Serial
