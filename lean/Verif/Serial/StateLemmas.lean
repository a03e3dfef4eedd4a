import Verif.Serial.State
import Verif.Serial.Typing
/-
Lemmas: the state after a call, its agreement with the result, and its type.
-/
namespace Verif.Serial
open Verif.Path Verif.Enums Spec

variable {σ : Type}

theorem res_note {α : Type} (m : Str) (r : Run α) : (r.note m).res = note m r.res := by
  rcases r with ⟨a, _ | e⟩ <;> rfl

theorem res_mk {α β : Type} (f : α → β) (r : Run α) : Run.res (f r.1, r.2) = r.res.map f := by
  rcases r with ⟨a, _ | e⟩ <;> rfl

theorem res_assign {α : Type} (old : α) (r : Res α) : (assign old r).res = r := by
  cases r <;> rfl

theorem setRun_res (B : Backend σ) (e : EnumTy) : ∀ (l : List (Doc σ)) out,
    (setRun B e l out).res = deserSet B e l out
  | [], out => rfl
  | d :: ds, out => by
    simp only [setRun, deserSet]
    cases deserEnum B e d with
    | error x => rfl
    | ok n => exact setRun_res B e ds _

theorem itemsRun_res (f : Doc σ → Res Value) : ∀ (l : List (Doc σ)) (out : List Value),
    (itemsRun f l out).res = (deserItems f out.length l).map fun vs => out ++ vs
  | [], out => by simp [itemsRun, deserItems, Run.res, Except.map]
  | d :: ds, out => by
    simp only [itemsRun, deserItems]
    cases note (txt "error when deserializing element " ++ numText out.length) (f d) with
    | error e => rfl
    | ok v =>
      simp only
      rw [itemsRun_res f ds]
      simp only [List.length_append, List.length_cons, List.length_nil, Nat.zero_add]
      cases deserItems f (out.length + 1) ds <;> simp [Except.map]

theorem fixedRun_res (f : Value → Doc σ → Run Value) (l : List (Doc σ)) : ∀ (i : Nat) (os : List Value),
    (fixedRun f l i os).res = deserFixed (fun o d => (f o d).res) l i os
  | i, [] => rfl
  | i, o :: os => by
    simp only [fixedRun, deserFixed, ← res_note]
    rcases (f o (atIndex l i)).note (txt "error when deserializing element " ++ numText i) with ⟨v, _ | e⟩
    · simp only
      rw [res_mk (fun vs => v :: vs) (fixedRun f l (i + 1) os), fixedRun_res f l (i + 1) os]
      rfl
    · rfl

theorem entriesRun_res (f : Doc σ → Res Value) : ∀ (ms : List (Str × Doc σ)) out,
    (entriesRun f ms out).res = deserEntries f ms out
  | [], out => rfl
  | (k, d) :: ms, out => by
    simp only [entriesRun, deserEntries]
    cases note (txt "error when deserializing field " ++ k) (f d) with
    | error x => rfl
    | ok n => exact entriesRun_res f ms _

theorem extraEntriesRun_res (f : Doc σ → Res Value) (r : List Str) : ∀ (ms : List (Str × Doc σ)) out,
    (extraEntriesRun f r ms out).res = deserExtraEntries f r ms out
  | [], out => rfl
  | (k, d) :: ms, out => by
    simp only [extraEntriesRun, deserExtraEntries]
    split
    · exact extraEntriesRun_res f r ms out
    cases note (txt "error when deserializing extra field " ++ k) (f d) with
    | error x => rfl
    | ok n => exact extraEntriesRun_res f r ms _

theorem validateRun_res (E : Env) (f : Field) (r : Run Value) :
    (validateRun E f r).res = thenValidate E f r.res := by
  rcases r with ⟨v, _ | e⟩
  · simp only [validateRun, thenValidate, Run.res]
    cases validateField E v f.validators <;> rfl
  · rfl

theorem readPlainRun_res (E : Env) (f : Field) (ms : List (Str × Doc σ)) (old : Value)
    (read : Doc σ → Run Value) :
    (readPlainRun E f ms old read).res = readPlain E f ms old fun d => (read d).res := by
  unfold readPlainRun readPlain
  cases resolveName ms f with
  | none =>
    cases missingPolicy f old with
    | some v => rfl
    | none => exact validateRun_res _ _ _
  | some name =>
    simp only
    cases (if (atField ms name).isNull then applyDefault f else none) with
    | some v => rfl
    | none => exact validateRun_res _ _ _

theorem extrasRun_res (B : Backend σ) (E : Env) (r : Option (List Str)) (ms : List (Str × Doc σ))
    (t : Ty) (old : Value) : (extrasRun B E r ms t old).res = deserExtras B E r ms t := by
  cases t <;> try rfl
  cases r with
  | none => rfl
  | some names =>
    simp only [extrasRun, deserExtras]
    rw [res_mk Value.map (extraEntriesRun _ _ _ _), extraEntriesRun_res]

mutual
theorem deserRun_res (B : Backend σ) (E : Env) : ∀ (t : Ty) (old : Value) (d : Doc σ),
    (deserRun B E t old d).res = deser B E t old d
  | .leaf l, old, d => by simp only [deserRun, deser, res_assign]
  | .enum e, old, d => by simp only [deserRun, deser, res_assign]
  | .rawEnum t, old, d => by simp only [deserRun, deser, res_assign]
  | .enumSet e, old, d => by
    simp only [deserRun, deser]
    cases elements B d with
    | error x => rfl
    | ok l =>
      simp only
      rw [← setRun_res]
      exact res_mk (fun s : EnumSet e.under.signed e.under.w => Value.bits s.value.toNat) (setRun B e l .empty)
  | .opt t, old, d => by
    simp only [deserRun, deser]
    split
    · rfl
    · simp only [res_assign]
  | .vec t, old, d => by
    simp only [deserRun, deser]
    cases elements B d with
    | error x => rfl
    | ok l =>
      simp only
      rw [res_mk Value.seq (itemsRun _ _ _), itemsRun_res]
      simp only [List.nil_append, List.length_nil]
      cases deserItems (deser B E t (fresh t)) 0 l <;> rfl
  | .arr n t, old, d => by
    simp only [deserRun, deser]
    cases elements B d with
    | error x => rfl
    | ok l =>
      cases old <;> try rfl
      simp only
      split
      · rfl
      · rw [res_mk Value.seq (fixedRun _ _ _ _), fixedRun_res]
        congr 2
        funext o d
        exact deserRun_res B E t o d
  | .map t, old, d => by
    simp only [deserRun, deser]
    cases members B d with
    | error x => rfl
    | ok l =>
      simp only
      rw [res_mk Value.map (entriesRun _ _ _), entriesRun_res]
  | .tuple p ts, old, d => by
    simp only [deserRun, deser]
    cases elements B d with
    | error x => rfl
    | ok l =>
      simp only
      split
      · rfl
      · cases old <;> try rfl
        simp only
        rw [res_mk Value.seq (tupleRun _ _ _ _ _ _), tupleRun_res]
  | .record n fs, old, d => by
    simp only [deserRun, deser, res_note]
    congr 1
    cases old <;> try rfl
    cases d with
    | obj ms =>
      simp only
      cases reservedNames fs with
      | error e => rfl
      | ok r =>
        simp only
        rw [res_mk Value.record (fieldsRun _ _ _ _ _ _), fieldsRun_res]
    | arr l =>
      simp only
      split
      · rfl
      · rw [res_mk Value.record (seqFieldsRun _ _ _ _ _ _), seqFieldsRun_res]
    | null => rfl
    | scalar s => rfl
theorem tupleRun_res (B : Backend σ) (E : Env) (l : List (Doc σ)) : ∀ (ts : Tys) (i : Nat) (olds : List Value),
    (tupleRun B E l ts i olds).res = deserTuple B E l ts i olds
  | .nil, i, olds => by cases olds <;> rfl
  | .cons t ts, i, [] => rfl
  | .cons t ts, i, o :: os => by
    simp only [tupleRun, deserTuple, ← deserRun_res]
    rcases deserRun B E t o (atIndex l i) with ⟨v, _ | e⟩
    · simp only
      rw [res_mk (fun vs => v :: vs) (tupleRun _ _ _ _ _ _), tupleRun_res]
      rfl
    · rfl
theorem fieldsRun_res (B : Backend σ) (E : Env) (r : Option (List Str)) (ms : List (Str × Doc σ)) :
    ∀ (fs : Fields) (olds : List Value), (fieldsRun B E r ms fs olds).res = deserFields B E r ms fs olds
  | .nil, olds => by cases olds <;> rfl
  | .cons f t fs, [] => rfl
  | .cons f t fs, o :: os => by
    have hd := deserRun_res B E t
    have hs := fieldsRun_res B E r ms fs os
    have key : (if f.skipDeser then (o, none)
        else if f.extra then extrasRun B E r ms t o
        else Run.note (fieldMsg f)
            (if f.flatten then deserRun B E t o (.obj ms)
            else readPlainRun E f ms o (deserRun B E t o)) : Run Value).res =
        (if f.skipDeser then .ok o
        else if f.extra then deserExtras B E r ms t
        else note (fieldMsg f)
            (if f.flatten then deser B E t o (.obj ms)
            else readPlain E f ms o (deser B E t o)) : Res Value) := by
      by_cases c1 : f.skipDeser = true
      · rw [if_pos c1, if_pos c1]; rfl
      rw [if_neg c1, if_neg c1]
      by_cases c2 : f.extra = true
      · rw [if_pos c2, if_pos c2]; exact extrasRun_res _ _ _ _ _ _
      rw [if_neg c2, if_neg c2, res_note]
      by_cases c3 : f.flatten = true
      · rw [if_pos c3, if_pos c3, hd]
      rw [if_neg c3, if_neg c3, readPlainRun_res]
      simp only [hd]
    simp only [fieldsRun, deserFields, ← key, ← hs]
    generalize (if f.skipDeser then (o, none)
        else if f.extra then extrasRun B E r ms t o
        else Run.note (fieldMsg f)
            (if f.flatten then deserRun B E t o (.obj ms)
            else readPlainRun E f ms o (deserRun B E t o)) : Run Value) = x
    rcases x with ⟨v, _ | e⟩
    · exact res_mk (fun vs => v :: vs) (fieldsRun _ _ _ _ _ _)
    · rfl
theorem seqFieldsRun_res (B : Backend σ) (E : Env) (l : List (Doc σ)) :
    ∀ (fs : Fields) (i : Nat) (olds : List Value),
    (seqFieldsRun B E l fs i olds).res = deserSeqFields B E l fs i olds
  | .nil, i, olds => by cases olds <;> rfl
  | .cons f t fs, i, [] => rfl
  | .cons f t fs, i, o :: os => by
    have hd := deserRun_res B E t
    have hs := fun i => seqFieldsRun_res B E l fs i os
    simp only [seqFieldsRun, deserSeqFields, ← hs]
    by_cases c1 : f.skipDeser = true
    · rw [if_pos c1, if_pos c1]; exact res_mk (fun vs => o :: vs) (seqFieldsRun _ _ _ _ _ _)
    rw [if_neg c1, if_neg c1]
    have key : (if f.extra then
            (o, some (.deser (txt "extra_fields fields are not supported in sequence deserialization")))
          else if f.flatten then
            (o, some (.deser (txt "flatten fields are not supported in sequence deserialization")))
          else validateRun E f (deserRun B E t o (atIndex l i)) : Run Value).res =
        (if f.extra then
            .error (.deser (txt "extra_fields fields are not supported in sequence deserialization"))
          else if f.flatten then
            .error (.deser (txt "flatten fields are not supported in sequence deserialization"))
          else thenValidate E f (deser B E t o (atIndex l i)) : Res Value) := by
      by_cases c2 : f.extra = true
      · rw [if_pos c2, if_pos c2]; rfl
      rw [if_neg c2, if_neg c2]
      by_cases c3 : f.flatten = true
      · rw [if_pos c3, if_pos c3]; rfl
      rw [if_neg c3, if_neg c3, validateRun_res, hd]
    rw [← key, ← res_note]
    generalize Run.note (txt "error when deserializing element " ++ numText i) _ = x
    rcases x with ⟨v, _ | e⟩
    · exact res_mk (fun vs => v :: vs) (seqFieldsRun _ _ _ _ _ _)
    · rfl
end

theorem patchPlainRun_res (E : Env) (f : Field) (ms : List (Str × Doc σ)) (old : Value)
    (read : Doc σ → Run Value) :
    (patchPlainRun E f ms old read).res = patchPlain E f ms old fun d => (read d).res := by
  unfold patchPlainRun patchPlain
  cases resolveName ms f with
  | none => rfl
  | some name =>
    simp only
    cases (if (atField ms name).isNull then applyDefault f else none) with
    | some v => rfl
    | none => exact validateRun_res _ _ _

theorem patchExtraEntriesRun_res (p : Value → Doc σ → Run Value) (new : Value) (r : List Str) :
    ∀ (ms : List (Str × Doc σ)) out,
    (patchExtraEntriesRun p (fun d => (p new d).res) r ms out).res =
      patchExtraEntries (fun v d => (p v d).res) new r ms out
  | [], out => rfl
  | (k, d) :: ms, out => by
    simp only [patchExtraEntriesRun, patchExtraEntries]
    split
    · exact patchExtraEntriesRun_res p new r ms out
    cases lookup out k with
    | some v =>
      simp only [← res_note]
      rcases (p v d).note (txt "error when patching extra field " ++ k) with ⟨w, _ | e⟩
      · exact patchExtraEntriesRun_res p new r ms _
      · rfl
    | none =>
      simp only
      cases note (txt "error when patching extra field " ++ k) (p new d).res with
      | error x => rfl
      | ok n => exact patchExtraEntriesRun_res p new r ms _

theorem patchRun_other {B : Backend σ} {E : Env} {t : Ty} (h1 : ∀ n fs, t ≠ .record n fs)
    (h2 : ∀ u, t ≠ .opt u) (old : Value) (d : Doc σ) : patchRun B E t old d = deserRun B E t old d := by
  cases t <;> first | exact absurd rfl (h1 _ _) | exact absurd rfl (h2 _) | simp only [patchRun]

mutual
theorem patchRun_res (B : Backend σ) (E : Env) : ∀ (t : Ty) (old : Value) (d : Doc σ),
    (patchRun B E t old d).res = patch B E t old d
  | .opt t, old, d => by
    simp only [patchRun, patch]
    split
    · rfl
    · rcases old with _ | _ | (_ | v) | _ | _ | _ <;> try rfl
      · simp only [res_assign]
      · simp only
        rw [res_mk (fun v => Value.opt (some v)) (patchRun _ _ _ _ _), patchRun_res]
  | .record n fs, old, d => by
    simp only [patchRun, patch, res_note]
    congr 1
    cases d with
    | obj ms =>
      simp only
      cases reservedNames fs with
      | error e => rfl
      | ok r =>
        cases old <;> try rfl
        simp only
        rw [res_mk Value.record (patchFieldsRun _ _ _ _ _ _), patchFieldsRun_res]
    | arr l => exact deserRun_res B E _ _ _
    | null => exact deserRun_res B E _ _ _
    | scalar s => exact deserRun_res B E _ _ _
  | .leaf _, _, _ | .enum _, _, _ | .rawEnum _, _, _ | .enumSet _, _, _ | .vec _, _, _
  | .arr _ _, _, _ | .map _, _, _ | .tuple _ _, _, _ => by
    rw [patchRun_other (by simp) (by simp), patch_other (by simp) (by simp)]
    exact deserRun_res B E _ _ _
theorem patchFieldsRun_res (B : Backend σ) (E : Env) (r : Option (List Str)) (ms : List (Str × Doc σ)) :
    ∀ (fs : Fields) (olds : List Value),
    (patchFieldsRun B E r ms fs olds).res = patchFields B E r ms fs olds
  | .nil, olds => by cases olds <;> rfl
  | .cons f t fs, [] => rfl
  | .cons f t fs, o :: os => by
    have hd := patchRun_res B E t
    have he := patchExtrasRun_res B E r ms t
    have hs := patchFieldsRun_res B E r ms fs os
    have key : (if f.skipDeser then (o, none)
        else if f.extra then patchExtrasRun B E r ms t o
        else Run.note (txt "error when patching field " ++ f.name)
            (if f.flatten then patchRun B E t o (.obj ms)
            else patchPlainRun E f ms o (patchRun B E t o)) : Run Value).res =
        (if f.skipDeser then .ok o
        else if f.extra then patchExtras B E r ms t o
        else note (txt "error when patching field " ++ f.name)
            (if f.flatten then patch B E t o (.obj ms)
            else patchPlain E f ms o (patch B E t o)) : Res Value) := by
      by_cases c1 : f.skipDeser = true
      · rw [if_pos c1, if_pos c1]; rfl
      rw [if_neg c1, if_neg c1]
      by_cases c2 : f.extra = true
      · rw [if_pos c2, if_pos c2]; exact he _
      rw [if_neg c2, if_neg c2, res_note]
      by_cases c3 : f.flatten = true
      · rw [if_pos c3, if_pos c3, hd]
      rw [if_neg c3, if_neg c3, patchPlainRun_res]
      simp only [hd]
    simp only [patchFieldsRun, patchFields, ← key, ← hs]
    generalize (if f.skipDeser then (o, none)
        else if f.extra then patchExtrasRun B E r ms t o
        else Run.note (txt "error when patching field " ++ f.name)
            (if f.flatten then patchRun B E t o (.obj ms)
            else patchPlainRun E f ms o (patchRun B E t o)) : Run Value) = x
    rcases x with ⟨v, _ | e⟩
    · exact res_mk (fun vs => v :: vs) (patchFieldsRun _ _ _ _ _ _)
    · rfl
theorem patchExtrasRun_res (B : Backend σ) (E : Env) (r : Option (List Str)) (ms : List (Str × Doc σ)) :
    ∀ (t : Ty) (old : Value), (patchExtrasRun B E r ms t old).res = patchExtras B E r ms t old
  | .map t, old => by
    have hd := patchRun_res B E t
    simp only [patchExtrasRun, patchExtras]
    cases r with
    | none => rfl
    | some names =>
      cases old <;> try rfl
      simp only
      rw [res_mk Value.map (patchExtraEntriesRun _ _ _ _ _)]
      have h1 : patch B E t = fun v d => (patchRun B E t v d).res := by
        funext v d; exact (hd v d).symm
      rw [h1, ← patchExtraEntriesRun_res]
  | .leaf _, _ | .enum _, _ | .rawEnum _, _ | .enumSet _, _ | .opt _, _ | .vec _, _
  | .arr _ _, _ | .record _ _, _ | .tuple _ _, _ => by simp only [patchExtrasRun, patchExtras]; rfl
end

end Verif.Serial
