import Verif.Serial.Append
import Verif.Serial.Trail
/-
Lemmas: reading does not depend on how a backend adds members, so what holds of JSON holds of YAML.
-/
namespace Verif.Serial
open Verif.Path Verif.Enums Spec

variable {σ : Type}

theorem setRun_appending (B : Backend σ) (e : EnumTy) : ∀ l s, setRun (appending B) e l s = setRun B e l s
  | [], s => rfl
  | d :: l, s => by simp only [setRun, setRun_appending B e l]; rfl

theorem setTrail_appending (B : Backend σ) (e : EnumTy) : ∀ l s, setTrail (appending B) e l s = setTrail B e l s
  | [], s => rfl
  | d :: l, s => by simp only [setTrail, setTrail_appending B e l]; rfl

theorem extrasRun_appending (B : Backend σ) (E : Env) (r : Option (List Str)) (ms : List (Str × Doc σ)) (t : Ty) (o : Value) :
    extrasRun (appending B) E r ms t o = extrasRun B E r ms t o := by
  cases t <;> simp only [extrasRun, deser_appending]

theorem extrasTrail_appending (B : Backend σ) (E : Env) (r : Option (List Str)) (ms : List (Str × Doc σ)) (t : Ty) (o : Value) :
    extrasTrail (appending B) E r ms t o = extrasTrail B E r ms t o := by
  cases t <;> simp only [extrasTrail, deser_appending]

mutual
theorem deserRun_appending (B : Backend σ) (E : Env) : ∀ (t : Ty), deserRun (appending B) E t = deserRun B E t
  | .leaf _ => by funext o d; simp only [deserRun]; rfl
  | .enum _ => by funext o d; simp only [deserRun, deserEnum]; rfl
  | .rawEnum _ => by funext o d; simp only [deserRun]; rfl
  | .enumSet e => by funext o d; simp only [deserRun, setRun_appending]; rfl
  | .opt t => by funext o d; simp only [deserRun, deser_appending B E t]
  | .vec t => by funext o d; simp only [deserRun, deser_appending B E t]; rfl
  | .arr _ t => by funext o d; simp only [deserRun, deserRun_appending B E t]; rfl
  | .map t => by funext o d; simp only [deserRun, deser_appending B E t]; rfl
  | .tuple _ ts => by funext o d; simp only [deserRun, tupleRun_appending B E ts]; rfl
  | .record _ fs => by
    funext o d
    simp only [deserRun, fieldsRun_appending B E fs, seqFieldsRun_appending B E fs]
    rfl
theorem tupleRun_appending (B : Backend σ) (E : Env) : ∀ (ts : Tys) (l : List (Doc σ)) (i : Nat) (os : List Value),
    tupleRun (appending B) E l ts i os = tupleRun B E l ts i os
  | .nil, l, i, os => by simp only [tupleRun]
  | .cons t ts, l, i, os => by
    cases os with
    | nil => simp only [tupleRun]
    | cons o os => simp only [tupleRun, deserRun_appending B E t, tupleRun_appending B E ts]
theorem fieldsRun_appending (B : Backend σ) (E : Env) : ∀ (fs : Fields) (r : Option (List Str))
    (ms : List (Str × Doc σ)) (os : List Value), fieldsRun (appending B) E r ms fs os = fieldsRun B E r ms fs os
  | .nil, r, ms, os => by simp only [fieldsRun]
  | .cons f t fs, r, ms, os => by
    cases os with
    | nil => simp only [fieldsRun]
    | cons o os => simp only [fieldsRun, deserRun_appending B E t, fieldsRun_appending B E fs, extrasRun_appending]
theorem seqFieldsRun_appending (B : Backend σ) (E : Env) : ∀ (fs : Fields) (l : List (Doc σ)) (i : Nat)
    (os : List Value), seqFieldsRun (appending B) E l fs i os = seqFieldsRun B E l fs i os
  | .nil, l, i, os => by simp only [seqFieldsRun]
  | .cons f t fs, l, i, os => by
    cases os with
    | nil => simp only [seqFieldsRun]
    | cons o os => simp only [seqFieldsRun, deserRun_appending B E t, seqFieldsRun_appending B E fs]
end

mutual
theorem deserTrail_appending (B : Backend σ) (E : Env) : ∀ (t : Ty), deserTrail (appending B) E t = deserTrail B E t
  | .leaf _ => by funext o d; simp only [deserTrail]; rfl
  | .enum _ => by funext o d; simp only [deserTrail, deserEnum]; rfl
  | .rawEnum _ => by funext o d; simp only [deserTrail]; rfl
  | .enumSet e => by funext o d; simp only [deserTrail, setTrail_appending]; rfl
  | .opt t => by funext o d; simp only [deserTrail, deser_appending B E t]
  | .vec t => by funext o d; simp only [deserTrail, deser_appending B E t]; rfl
  | .arr _ t => by funext o d; simp only [deserTrail, deserTrail_appending B E t, deserRun_appending]; rfl
  | .map t => by funext o d; simp only [deserTrail, deser_appending B E t]; rfl
  | .tuple _ ts => by funext o d; simp only [deserTrail, tupleTrail_appending B E ts]; rfl
  | .record _ fs => by funext o d; simp only [deserTrail, fieldsTrail_appending B E fs, seqFieldsTrail_appending B E fs]
theorem tupleTrail_appending (B : Backend σ) (E : Env) : ∀ (ts : Tys) (l : List (Doc σ)) (i : Nat) (os : List Value),
    tupleTrail (appending B) E l ts i os = tupleTrail B E l ts i os
  | .nil, l, i, os => by simp only [tupleTrail]
  | .cons t ts, l, i, os => by
    cases os with
    | nil => simp only [tupleTrail]
    | cons o os => simp only [tupleTrail, deserRun_appending, deserTrail_appending B E t, tupleTrail_appending B E ts]
theorem fieldsTrail_appending (B : Backend σ) (E : Env) : ∀ (fs : Fields) (r : Option (List Str))
    (ms : List (Str × Doc σ)) (os : List Value), fieldsTrail (appending B) E r ms fs os = fieldsTrail B E r ms fs os
  | .nil, r, ms, os => by simp only [fieldsTrail]
  | .cons f t fs, r, ms, os => by
    cases os with
    | nil => simp only [fieldsTrail]
    | cons o os =>
      simp only [fieldsTrail, deserRun_appending, deserTrail_appending B E t, fieldsTrail_appending B E fs, extrasRun_appending,
        extrasTrail_appending]
theorem seqFieldsTrail_appending (B : Backend σ) (E : Env) : ∀ (fs : Fields) (l : List (Doc σ)) (i : Nat)
    (os : List Value), seqFieldsTrail (appending B) E l fs i os = seqFieldsTrail B E l fs i os
  | .nil, l, i, os => by simp only [seqFieldsTrail]
  | .cons f t fs, l, i, os => by
    cases os with
    | nil => simp only [seqFieldsTrail]
    | cons o os => simp only [seqFieldsTrail, deserRun_appending, deserTrail_appending B E t, seqFieldsTrail_appending B E fs]
end

mutual
theorem patchRun_appending (B : Backend σ) (E : Env) : ∀ (t : Ty), patchRun (appending B) E t = patchRun B E t
  | .opt t => by funext o d; simp only [patchRun, patchRun_appending B E t, patch_appending]
  | .record _ fs => by funext o d; simp only [patchRun, deserRun_appending, patchFieldsRun_appending B E fs]
  | .leaf _ | .enum _ | .rawEnum _ | .enumSet _ | .vec _ | .arr _ _ | .map _ | .tuple _ _ => by
    funext o d; simp only [patchRun, deserRun_appending]
theorem patchFieldsRun_appending (B : Backend σ) (E : Env) : ∀ (fs : Fields) (r : Option (List Str))
    (ms : List (Str × Doc σ)) (os : List Value), patchFieldsRun (appending B) E r ms fs os = patchFieldsRun B E r ms fs os
  | .nil, r, ms, os => by simp only [patchFieldsRun]
  | .cons f t fs, r, ms, os => by
    cases os with
    | nil => simp only [patchFieldsRun]
    | cons o os =>
      simp only [patchFieldsRun, patchRun_appending B E t, patchFieldsRun_appending B E fs, patchExtrasRun_appending B E t]
theorem patchExtrasRun_appending (B : Backend σ) (E : Env) : ∀ (t : Ty) (r : Option (List Str))
    (ms : List (Str × Doc σ)) (o : Value), patchExtrasRun (appending B) E r ms t o = patchExtrasRun B E r ms t o
  | .map t, r, ms, o => by simp only [patchExtrasRun, patchRun_appending B E t, patch_appending]
  | .leaf _, _, _, _ | .enum _, _, _, _ | .rawEnum _, _, _, _ | .enumSet _, _, _, _ | .opt _, _, _, _
  | .vec _, _, _, _ | .arr _ _, _, _, _ | .tuple _ _, _, _, _ | .record _ _, _, _, _ => by
    simp only [patchExtrasRun]
end

mutual
theorem patchTrail_appending (B : Backend σ) (E : Env) : ∀ (t : Ty), patchTrail (appending B) E t = patchTrail B E t
  | .opt t => by funext o d; simp only [patchTrail, patchTrail_appending B E t, patch_appending]
  | .record _ fs => by funext o d; simp only [patchTrail, deserTrail_appending, patchFieldsTrail_appending B E fs]
  | .leaf _ | .enum _ | .rawEnum _ | .enumSet _ | .vec _ | .arr _ _ | .map _ | .tuple _ _ => by
    funext o d; simp only [patchTrail, deserTrail_appending]
theorem patchFieldsTrail_appending (B : Backend σ) (E : Env) : ∀ (fs : Fields) (r : Option (List Str))
    (ms : List (Str × Doc σ)) (os : List Value), patchFieldsTrail (appending B) E r ms fs os = patchFieldsTrail B E r ms fs os
  | .nil, r, ms, os => by simp only [patchFieldsTrail]
  | .cons f t fs, r, ms, os => by
    cases os with
    | nil => simp only [patchFieldsTrail]
    | cons o os =>
      simp only [patchFieldsTrail, patchRun_appending, patchExtrasRun_appending, patchTrail_appending B E t,
        patchFieldsTrail_appending B E fs, patchExtrasTrail_appending B E t]
theorem patchExtrasTrail_appending (B : Backend σ) (E : Env) : ∀ (t : Ty) (r : Option (List Str))
    (ms : List (Str × Doc σ)) (o : Value), patchExtrasTrail (appending B) E r ms t o = patchExtrasTrail B E r ms t o
  | .map t, r, ms, o => by simp only [patchExtrasTrail, patchRun_appending, patchTrail_appending B E t, patch_appending]
  | .leaf _, _, _, _ | .enum _, _, _, _ | .rawEnum _, _, _, _ | .enumSet _, _, _, _ | .opt _, _, _, _
  | .vec _, _, _, _ | .arr _ _, _, _, _ | .tuple _ _, _, _, _ | .record _ _, _, _, _ => by
    simp only [patchExtrasTrail]
end

end Verif.Serial
