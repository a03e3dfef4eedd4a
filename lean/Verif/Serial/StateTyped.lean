import Verif.Serial.StateLemmas
/-
Lemmas: what is left behind is of the type.
-/
namespace Verif.Serial
open Verif.Path Verif.Enums Spec

variable {σ : Type}

theorem assign_left {α : Type} {P : α → Prop} {old : α} {r : Res α} (ho : P old)
    (hr : ∀ v, r = .ok v → P v) : P (assign old r).1 := by
  cases r with
  | error e => exact ho
  | ok v => exact hr v rfl

theorem note_left {α : Type} (m : Str) (r : Run α) : (r.note m).1 = r.1 := rfl

theorem itemsRun_inv {P : Value → Prop} {f : Doc σ → Res Value} (hf : ∀ d v, f d = .ok v → P v) :
    ∀ (l : List (Doc σ)) (out : List Value), (∀ x ∈ out, P x) → ∀ x ∈ (itemsRun f l out).1, P x
  | [], out, ho => ho
  | d :: ds, out, ho => by
    simp only [itemsRun]
    cases h : note (txt "error when deserializing element " ++ numText out.length) (f d) with
    | error e => exact ho
    | ok v =>
      refine itemsRun_inv hf ds _ fun x hx => ?_
      rcases List.mem_append.1 hx with hx | hx
      · exact ho x hx
      · simp only [List.mem_cons, List.not_mem_nil, or_false] at hx
        subst hx
        exact hf d x (note_ok.1 h)

theorem fixedRun_inv {P : Value → Prop} {f : Value → Doc σ → Run Value}
    (hf : ∀ o d, P o → P (f o d).1) (l : List (Doc σ)) :
    ∀ (i : Nat) (os : List Value), (∀ x ∈ os, P x) →
      (fixedRun f l i os).1.length = os.length ∧ ∀ x ∈ (fixedRun f l i os).1, P x
  | _, [], _ => by simp [fixedRun]
  | i, o :: os, ho => by
    simp only [fixedRun]
    have h1 : P ((f o (atIndex l i)).note (txt "error when deserializing element " ++ numText i)).1 :=
      hf _ _ (ho o (by simp))
    generalize (f o (atIndex l i)).note (txt "error when deserializing element " ++ numText i) = x at h1
    have ih := fixedRun_inv hf l (i + 1) os fun x hx => ho x (by simp [hx])
    rcases x with ⟨v, _ | e⟩
    · simp only [List.length_cons, List.mem_cons, forall_eq_or_imp]
      exact ⟨by rw [ih.1], h1, ih.2⟩
    · simp only [List.length_cons, List.mem_cons, forall_eq_or_imp]
      exact ⟨trivial, h1, fun x hx => ho x (by simp [hx])⟩

theorem emplace_inv {P : Value → Prop} {out : List (Str × Value)} {k : Str} {v : Value}
    (hs : sorted out = true) (ho : ∀ e ∈ out, P e.2) (hv : P v) :
    sorted (emplace out k v) = true ∧ ∀ e ∈ emplace out k v, P e.2 := by
  refine ⟨emplace_sorted k v hs, fun e he => ?_⟩
  rcases (emplace_mem k v e hs).1 he with h | h
  · exact ho e h
  · rw [h.1]; exact hv

theorem entriesRun_inv {P : Value → Prop} {f : Doc σ → Res Value} (hf : ∀ d v, f d = .ok v → P v) :
    ∀ (ms : List (Str × Doc σ)) (out : List (Str × Value)), sorted out = true → (∀ e ∈ out, P e.2) →
      sorted (entriesRun f ms out).1 = true ∧ ∀ e ∈ (entriesRun f ms out).1, P e.2
  | [], out, hs, ho => ⟨hs, ho⟩
  | (k, d) :: ms, out, hs, ho => by
    simp only [entriesRun]
    cases h : note (txt "error when deserializing field " ++ k) (f d) with
    | error e => exact ⟨hs, ho⟩
    | ok v =>
      have := emplace_inv (k := k) hs ho (hf d v (note_ok.1 h))
      exact entriesRun_inv hf ms _ this.1 this.2

theorem extraEntriesRun_inv {P : Value → Prop} {f : Doc σ → Res Value} (hf : ∀ d v, f d = .ok v → P v)
    (r : List Str) :
    ∀ (ms : List (Str × Doc σ)) (out : List (Str × Value)), sorted out = true → (∀ e ∈ out, P e.2) →
      sorted (extraEntriesRun f r ms out).1 = true ∧ ∀ e ∈ (extraEntriesRun f r ms out).1, P e.2
  | [], out, hs, ho => ⟨hs, ho⟩
  | (k, d) :: ms, out, hs, ho => by
    simp only [extraEntriesRun]
    split
    · exact extraEntriesRun_inv hf r ms out hs ho
    cases h : note (txt "error when deserializing extra field " ++ k) (f d) with
    | error e => exact ⟨hs, ho⟩
    | ok v =>
      have := emplace_inv (k := k) hs ho (hf d v (note_ok.1 h))
      exact extraEntriesRun_inv hf r ms _ this.1 this.2

theorem validateRun_left (E : Env) (f : Field) (r : Run Value) : (validateRun E f r).1 = r.1 := by
  rcases r with ⟨v, _ | e⟩
  · simp only [validateRun]
    cases validateField E v f.validators <;> rfl
  · rfl

theorem readPlainRun_typed {E : Env} {f : Field} {t : Ty} (hf : fieldOk f t = true)
    {ms : List (Str × Doc σ)} {old : Value} {read : Doc σ → Run Value} (ho : HasTy t old)
    (hr : ∀ d, HasTy t (read d).1) : HasTy t (readPlainRun E f ms old read).1 := by
  unfold readPlainRun
  split
  · split
    · rename_i h; exact missingPolicy_typed hf ho h
    · rw [validateRun_left]; exact hr _
  · split
    · rename_i hm
      split at hm
      · exact (fieldOk_iff.1 hf).2.1 _ (applyDefault_mem hm)
      · cases hm
    · rw [validateRun_left]; exact hr _

theorem patchPlainRun_typed {E : Env} {f : Field} {t : Ty} (hf : fieldOk f t = true)
    {ms : List (Str × Doc σ)} {old : Value} {read : Doc σ → Run Value} (ho : HasTy t old)
    (hr : ∀ d, HasTy t (read d).1) : HasTy t (patchPlainRun E f ms old read).1 := by
  unfold patchPlainRun
  split
  · exact ho
  · split
    · rename_i hm
      split at hm
      · exact (fieldOk_iff.1 hf).2.1 _ (applyDefault_mem hm)
      · cases hm
    · rw [validateRun_left]; exact hr _

theorem hasTy_mkMap {t : Ty} {es : List (Str × Value)} (h : sorted es = true ∧ ∀ e ∈ es, HasTy t e.2) :
    HasTy (.map t) (.map es) := by
  simp only [HasTy, hasTy, List.all_eq_true, Bool.and_eq_true]
  exact h

theorem extrasRun_typed {B : Backend σ} (hB : Lawful B) {E : Env} (r : Option (List Str))
    (ms : List (Str × Doc σ)) (t : Ty) (ht : tyOk t = true) (old : Value) (ho : HasTy t old) :
    HasTy t (extrasRun B E r ms t old).1 := by
  cases t <;> try exact ho
  rename_i t
  simp only [tyOk] at ht
  cases r with
  | none => exact ho
  | some names =>
    exact hasTy_mkMap (extraEntriesRun_inv
      (fun d v h => deser_typed hB t ht _ _ _ (fresh_typed t ht) h) names ms [] sorted_nil (by simp))

mutual
theorem deserRun_typed {B : Backend σ} (hB : Lawful B) {E : Env} : ∀ (t : Ty), tyOk t = true →
    ∀ (old : Value) (d : Doc σ), HasTy t old → HasTy t (deserRun B E t old d).1
  | .leaf l, ht, old, d, ho => by
    simp only [deserRun]
    refine assign_left ho fun v h => deser_typed hB (.leaf l) ht old v d ho (E := E) ?_
    simpa only [deser] using h
  | .enum e, ht, old, d, ho => by
    simp only [deserRun]
    refine assign_left ho fun v h => deser_typed hB (.enum e) ht old v d ho (E := E) ?_
    simpa only [deser] using h
  | .rawEnum i, ht, old, d, ho => by
    simp only [deserRun]
    refine assign_left ho fun v h => deser_typed hB (.rawEnum i) ht old v d ho (E := E) ?_
    simpa only [deser] using h
  | .enumSet e, ht, old, d, ho => by
    simp only [deserRun]
    cases elements B d with
    | error x => exact ho
    | ok l => simp [HasTy, hasTy, BitVec.isLt]
  | .opt t, ht, old, d, ho => by
    have ht' := ht
    simp only [tyOk] at ht'
    simp only [deserRun]
    split
    · simp [HasTy, hasTy]
    · refine assign_left ho fun v h => ?_
      rw [map_ok] at h
      obtain ⟨w, h, rfl⟩ := h
      simpa [HasTy, hasTy] using deser_typed hB t ht' _ _ _ (fresh_typed t ht') h
  | .vec t, ht, old, d, ho => by
    simp only [tyOk] at ht
    simp only [deserRun]
    cases elements B d with
    | error x => exact ho
    | ok l =>
      simp only [HasTy, hasTy, List.all_eq_true]
      exact itemsRun_inv (P := HasTy t)
        (fun d v h => deser_typed hB t ht _ _ _ (fresh_typed t ht) h) l [] (by simp)
  | .arr n t, ht, old, d, ho => by
    simp only [tyOk] at ht
    obtain ⟨vs, rfl, hl, hall⟩ := hasTy_arr ho
    simp only [deserRun]
    cases elements B d with
    | error x => exact ho
    | ok l =>
      simp only
      split
      · exact ho
      · have := fixedRun_inv (P := HasTy t) (fun o d h => deserRun_typed hB (E := E) t ht o d h) l 0 vs hall
        simp only [HasTy, hasTy, List.all_eq_true, Bool.and_eq_true, decide_eq_true_eq]
        exact ⟨by rw [this.1, hl], this.2⟩
  | .map t, ht, old, d, ho => by
    simp only [tyOk] at ht
    simp only [deserRun]
    cases members B d with
    | error x => exact ho
    | ok ms =>
      exact hasTy_mkMap (entriesRun_inv
        (fun d v h => deser_typed hB t ht _ _ _ (fresh_typed t ht) h) ms [] sorted_nil (by simp))
  | .tuple p ts, ht, old, d, ho => by
    simp only [tyOk] at ht
    obtain ⟨vs, rfl, hall⟩ := hasTy_tuple ho
    simp only [deserRun]
    cases elements B d with
    | error x => exact ho
    | ok l =>
      simp only
      split
      · exact ho
      · simp only [HasTy, hasTy]
        exact tupleRun_typed hB l ts ht 0 vs hall
  | .record n fs, ht, old, d, ho => by
    simp only [tyOk, Bool.and_eq_true] at ht
    obtain ⟨vs, rfl, hall⟩ := hasTy_record ho
    simp only [deserRun, note_left]
    cases d with
    | obj ms =>
      simp only
      cases reservedNames fs with
      | error e => exact ho
      | ok r =>
        simp only [HasTy, hasTy]
        exact fieldsRun_typed hB r ms fs ht.1.1 vs hall
    | arr l =>
      simp only
      split
      · exact ho
      · simp only [HasTy, hasTy]
        exact seqFieldsRun_typed hB l fs ht.1.1 0 vs hall
    | null => exact ho
    | scalar s => exact ho
theorem tupleRun_typed {B : Backend σ} (hB : Lawful B) {E : Env} (l : List (Doc σ)) : ∀ (ts : Tys),
    tysOk ts = true → ∀ (i : Nat) (os : List Value), hasTys ts os = true →
    hasTys ts (tupleRun B E l ts i os).1 = true
  | .nil, _, i, os, ho => by
    rw [hasTys_nil ho]; simp [tupleRun, hasTys]
  | .cons t ts, ht, i, os, ho => by
    simp only [tysOk, Bool.and_eq_true] at ht
    obtain ⟨o, os, rfl, h1, h2⟩ := hasTys_cons ho
    simp only [tupleRun]
    have hv := deserRun_typed hB (E := E) t ht.1 o (atIndex l i) h1
    have ih := tupleRun_typed hB (E := E) l ts ht.2 (i + 1) os h2
    generalize deserRun B E t o (atIndex l i) = x at hv
    rcases x with ⟨v, _ | e⟩
    · simp only [hasTys, Bool.and_eq_true]; exact ⟨hv, ih⟩
    · simp only [hasTys, Bool.and_eq_true]; exact ⟨hv, h2⟩
theorem fieldsRun_typed {B : Backend σ} (hB : Lawful B) {E : Env} (r : Option (List Str))
    (ms : List (Str × Doc σ)) : ∀ (fs : Fields), fieldsOk fs = true → ∀ (os : List Value),
    hasFields fs os = true → hasFields fs (fieldsRun B E r ms fs os).1 = true
  | .nil, _, os, ho => by
    rw [hasFields_nil ho]; simp [fieldsRun, hasFields]
  | .cons f t fs, ht, os, ho => by
    simp only [fieldsOk, Bool.and_eq_true] at ht
    obtain ⟨o, os, rfl, h1, h2⟩ := hasFields_cons ho
    have ih := fieldsRun_typed hB (E := E) r ms fs ht.2 os h2
    have hv : HasTy t (if f.skipDeser then (o, none)
        else if f.extra then extrasRun B E r ms t o
        else Run.note (fieldMsg f)
            (if f.flatten then deserRun B E t o (.obj ms)
            else readPlainRun E f ms o (deserRun B E t o)) : Run Value).1 := by
      by_cases c1 : f.skipDeser = true
      · rw [if_pos c1]; exact h1
      rw [if_neg c1]
      by_cases c2 : f.extra = true
      · rw [if_pos c2]; exact extrasRun_typed hB r ms t ht.1.2 o h1
      rw [if_neg c2, note_left]
      by_cases c3 : f.flatten = true
      · rw [if_pos c3]; exact deserRun_typed hB t ht.1.2 o _ h1
      rw [if_neg c3]
      exact readPlainRun_typed ht.1.1 h1 fun d => deserRun_typed hB t ht.1.2 o d h1
    simp only [fieldsRun]
    generalize (if f.skipDeser then (o, none)
        else if f.extra then extrasRun B E r ms t o
        else Run.note (fieldMsg f)
            (if f.flatten then deserRun B E t o (.obj ms)
            else readPlainRun E f ms o (deserRun B E t o)) : Run Value) = x at hv
    rcases x with ⟨v, _ | e⟩
    · simp only [hasFields, Bool.and_eq_true]; exact ⟨hv, ih⟩
    · simp only [hasFields, Bool.and_eq_true]; exact ⟨hv, h2⟩
theorem seqFieldsRun_typed {B : Backend σ} (hB : Lawful B) {E : Env} (l : List (Doc σ)) : ∀ (fs : Fields),
    fieldsOk fs = true → ∀ (i : Nat) (os : List Value),
    hasFields fs os = true → hasFields fs (seqFieldsRun B E l fs i os).1 = true
  | .nil, _, i, os, ho => by
    rw [hasFields_nil ho]; simp [seqFieldsRun, hasFields]
  | .cons f t fs, ht, i, os, ho => by
    simp only [fieldsOk, Bool.and_eq_true] at ht
    obtain ⟨o, os, rfl, h1, h2⟩ := hasFields_cons ho
    have ih := fun i => seqFieldsRun_typed hB (E := E) l fs ht.2 i os h2
    simp only [seqFieldsRun]
    by_cases c1 : f.skipDeser = true
    · rw [if_pos c1]
      simp only [hasFields, Bool.and_eq_true]; exact ⟨h1, ih _⟩
    rw [if_neg c1]
    have hv : HasTy t (Run.note (txt "error when deserializing element " ++ numText i)
        (if f.extra then
          (o, some (.deser (txt "extra_fields fields are not supported in sequence deserialization")))
        else if f.flatten then
          (o, some (.deser (txt "flatten fields are not supported in sequence deserialization")))
        else validateRun E f (deserRun B E t o (atIndex l i)) : Run Value)).1 := by
      rw [note_left]
      by_cases c2 : f.extra = true
      · rw [if_pos c2]; exact h1
      rw [if_neg c2]
      by_cases c3 : f.flatten = true
      · rw [if_pos c3]; exact h1
      rw [if_neg c3, validateRun_left]
      exact deserRun_typed hB t ht.1.2 o _ h1
    generalize Run.note (txt "error when deserializing element " ++ numText i) _ = x at hv
    rcases x with ⟨v, _ | e⟩
    · simp only [hasFields, Bool.and_eq_true]; exact ⟨hv, ih _⟩
    · simp only [hasFields, Bool.and_eq_true]; exact ⟨hv, h2⟩
end

theorem patchExtraEntriesRun_inv {P : Value → Prop} {p : Value → Doc σ → Run Value}
    {new : Doc σ → Res Value} (hp : ∀ v d, P v → P (p v d).1) (hn : ∀ d v, new d = .ok v → P v)
    (r : List Str) :
    ∀ (ms : List (Str × Doc σ)) (out : List (Str × Value)), sorted out = true → (∀ e ∈ out, P e.2) →
      sorted (patchExtraEntriesRun p new r ms out).1 = true ∧
        ∀ e ∈ (patchExtraEntriesRun p new r ms out).1, P e.2
  | [], out, hs, ho => ⟨hs, ho⟩
  | (k, d) :: ms, out, hs, ho => by
    simp only [patchExtraEntriesRun]
    split
    · exact patchExtraEntriesRun_inv hp hn r ms out hs ho
    cases hl : lookup out k with
    | some v =>
      simp only
      have hv : P ((p v d).note (txt "error when patching extra field " ++ k)).1 :=
        hp _ _ (ho (k, v) (lookup_some.1 hl).mem)
      generalize (p v d).note (txt "error when patching extra field " ++ k) = x at hv
      have h1 : ∀ e ∈ assignEntry out k x.1, P e.2 := by
        intro e he
        rcases (assignEntry_mem hs e).1 he with ⟨he, -⟩ | ⟨rfl, -⟩
        · exact ho e he
        · exact hv
      rcases x with ⟨w, _ | e⟩
      · exact patchExtraEntriesRun_inv hp hn r ms _ (assignEntry_sorted hs) h1
      · exact ⟨assignEntry_sorted hs, h1⟩
    | none =>
      simp only
      cases h : note (txt "error when patching extra field " ++ k) (new d) with
      | error e => exact ⟨hs, ho⟩
      | ok v =>
        have := emplace_inv (k := k) hs ho (hn d v (note_ok.1 h))
        exact patchExtraEntriesRun_inv hp hn r ms _ this.1 this.2

mutual
theorem patchRun_typed {B : Backend σ} (hB : Lawful B) {E : Env} : ∀ (t : Ty), tyOk t = true →
    ∀ (old : Value) (d : Doc σ), HasTy t old → HasTy t (patchRun B E t old d).1
  | .opt t, ht, old, d, ho => by
    simp only [tyOk] at ht
    simp only [patchRun]
    split
    · simp [HasTy, hasTy]
    · rcases hasTy_opt ho with rfl | ⟨w, rfl, hw⟩
      · refine assign_left ho fun v h => ?_
        rw [map_ok] at h
        obtain ⟨w, h, rfl⟩ := h
        simpa [HasTy, hasTy] using patch_typed hB t ht _ _ _ (fresh_typed t ht) h
      · simpa [HasTy, hasTy] using patchRun_typed hB (E := E) t ht w d hw
  | .record n fs, ht, old, d, ho => by
    have hd : ∀ d', HasTy (.record n fs) (deserRun B E (.record n fs) old d').1 :=
      fun d' => deserRun_typed hB (.record n fs) ht _ _ ho
    simp only [patchRun, note_left]
    simp only [tyOk, Bool.and_eq_true] at ht
    obtain ⟨olds, rfl, hall⟩ := hasTy_record ho
    cases d with
    | obj ms =>
      simp only
      cases hr : reservedNames fs with
      | error e => exact ho
      | ok r =>
        simp only [HasTy, hasTy]
        exact patchFieldsRun_typed hB r ms fs ht.1.1 _ hall
    | arr l => exact hd _
    | null => exact hd _
    | scalar s => exact hd _
  | .leaf _, ht, old, d, ho | .enum _, ht, old, d, ho | .rawEnum _, ht, old, d, ho
  | .enumSet _, ht, old, d, ho | .vec _, ht, old, d, ho | .arr _ _, ht, old, d, ho
  | .map _, ht, old, d, ho | .tuple _ _, ht, old, d, ho => by
    rw [patchRun_other (by simp) (by simp)]
    exact deserRun_typed hB _ ht _ _ ho
theorem patchFieldsRun_typed {B : Backend σ} (hB : Lawful B) {E : Env} (r : Option (List Str))
    (ms : List (Str × Doc σ)) : ∀ (fs : Fields), fieldsOk fs = true → ∀ (os : List Value),
    hasFields fs os = true → hasFields fs (patchFieldsRun B E r ms fs os).1 = true
  | .nil, _, os, ho => by
    rw [hasFields_nil ho]; simp [patchFieldsRun, hasFields]
  | .cons f t fs, ht, os, ho => by
    simp only [fieldsOk, Bool.and_eq_true] at ht
    obtain ⟨o, os, rfl, h1, h2⟩ := hasFields_cons ho
    have ih := patchFieldsRun_typed hB (E := E) r ms fs ht.2 os h2
    have hx := patchExtrasRun_typed hB (E := E) r ms t ht.1.2 o h1
    have hp := fun d => patchRun_typed hB (E := E) t ht.1.2 o d h1
    have hv : HasTy t (if f.skipDeser then (o, none)
        else if f.extra then patchExtrasRun B E r ms t o
        else Run.note (txt "error when patching field " ++ f.name)
            (if f.flatten then patchRun B E t o (.obj ms)
            else patchPlainRun E f ms o (patchRun B E t o)) : Run Value).1 := by
      by_cases c1 : f.skipDeser = true
      · rw [if_pos c1]; exact h1
      rw [if_neg c1]
      by_cases c2 : f.extra = true
      · rw [if_pos c2]; exact hx
      rw [if_neg c2, note_left]
      by_cases c3 : f.flatten = true
      · rw [if_pos c3]; exact hp _
      rw [if_neg c3]
      exact patchPlainRun_typed ht.1.1 h1 hp
    simp only [patchFieldsRun]
    generalize (if f.skipDeser then (o, none)
        else if f.extra then patchExtrasRun B E r ms t o
        else Run.note (txt "error when patching field " ++ f.name)
            (if f.flatten then patchRun B E t o (.obj ms)
            else patchPlainRun E f ms o (patchRun B E t o)) : Run Value) = x at hv
    rcases x with ⟨v, _ | e⟩
    · simp only [hasFields, Bool.and_eq_true]; exact ⟨hv, ih⟩
    · simp only [hasFields, Bool.and_eq_true]; exact ⟨hv, h2⟩
theorem patchExtrasRun_typed {B : Backend σ} (hB : Lawful B) {E : Env} (r : Option (List Str))
    (ms : List (Str × Doc σ)) : ∀ (t : Ty), tyOk t = true → ∀ (old : Value), HasTy t old →
    HasTy t (patchExtrasRun B E r ms t old).1
  | .map t, ht, old, ho => by
    simp only [tyOk] at ht
    obtain ⟨es, rfl, hs, hall⟩ := hasTy_map ho
    simp only [patchExtrasRun]
    cases r with
    | none => exact ho
    | some names =>
      exact hasTy_mkMap (patchExtraEntriesRun_inv (P := HasTy t)
        (fun v d hv => patchRun_typed hB (E := E) t ht v d hv)
        (fun d v h => patch_typed hB t ht _ _ _ (fresh_typed t ht) h) names ms es hs hall)
  | .leaf _, _, _, ho | .enum _, _, _, ho | .rawEnum _, _, _, ho
  | .enumSet _, _, _, ho | .opt _, _, _, ho | .vec _, _, _, ho
  | .arr _ _, _, _, ho | .record _ _, _, _, ho | .tuple _ _, _, _, ho => ho
end

end Verif.Serial
