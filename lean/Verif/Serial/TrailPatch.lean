import Verif.Serial.TrailLemmas
/-
Lemmas: trails of `patch`.
-/
namespace Verif.Serial
open Verif.Path Verif.Enums Spec

variable {σ : Type}

theorem assignEntry_same {α : Type} {k : Str} {v : α} : ∀ {es : List (Str × α)}, lookup es k = some v → assignEntry es k v = es
  | [], _ => rfl
  | e :: es, h => by
    simp only [lookup] at h
    simp only [assignEntry]
    by_cases he : e.1 = k
    · rw [if_pos he] at h ⊢
      cases h; rfl
    · rw [if_neg he] at h ⊢
      rw [assignEntry_same h]

theorem patchExtraEntriesTrail_good {P : Value → Prop} {p : Value → Doc σ → Run Value} {tr : Value → Doc σ → List Value}
    {new : Doc σ → Res Value} (hp : ∀ v d, P v → Good P v (p v d).1 (tr v d)) (hn : ∀ d v, new d = .ok v → P v) (r : List Str) :
    ∀ (ms : List (Str × Doc σ)) (out : List (Str × Value)), sorted out = true → (∀ e ∈ out, P e.2) →
      Good (fun es => (sorted es = true ∧ ∀ e ∈ es, P e.2) ∧ ∀ k w, NoMember ms k → ((k, w) ∈ es ↔ (k, w) ∈ out)) out
        (patchExtraEntriesRun p new r ms out).1 (patchExtraEntriesTrail p tr new r ms out)
  | [], out, hs, ho => good_one ⟨⟨hs, ho⟩, fun _ _ _ => Iff.rfl⟩
  | (k, d) :: ms, out, hs, ho => by
    simp only [patchExtraEntriesTrail, patchExtraEntriesRun]
    by_cases hr : r.contains k = true
    · rw [if_pos hr, if_pos hr]
      exact good_imp (fun es h => ⟨h.1, fun k' w hk => h.2 k' w ((Spec.NoMember.cons.1 hk).2)⟩)
        (patchExtraEntriesTrail_good hp hn r ms out hs ho)
    rw [if_neg hr, if_neg hr]
    cases hl : lookup out k with
    | some v =>
      simp only
      have hmem := (lookup_some.1 hl).mem
      have hv : P v := ho (k, v) hmem
      have g := hp v d hv
      have step : ∀ x, P x → (sorted (assignEntry out k x) = true ∧ ∀ e ∈ assignEntry out k x, P e.2) ∧
          ∀ k' w, NoMember ((k, d) :: ms) k' → ((k', w) ∈ assignEntry out k x ↔ (k', w) ∈ out) := by
        intro x hx
        refine ⟨⟨assignEntry_sorted hs, fun e he => ?_⟩, fun k' w hk => ?_⟩
        · rcases (assignEntry_mem hs e).1 he with ⟨he, -⟩ | ⟨rfl, -⟩
          · exact ho e he
          · exact hx
        · have hne : k' ≠ k := fun h => (Spec.NoMember.cons.1 hk).1 h.symm
          rw [assignEntry_mem hs]
          simp [hne]
      have same : assignEntry out k v = out := assignEntry_same hl
      have a := good_map (Q := fun es => (sorted es = true ∧ ∀ e ∈ es, P e.2) ∧
        ∀ k' w, NoMember ((k, d) :: ms) k' → ((k', w) ∈ es ↔ (k', w) ∈ out)) (fun w => assignEntry out k w) step g
      rw [same] at a
      have hfin := g.all _ (List.mem_of_getLast? g.last)
      obtain ⟨⟨hs', ho'⟩, hk'⟩ := step _ hfin
      generalize p v d = x at a hfin hs' ho' hk'
      rcases x with ⟨w, _ | e⟩
      · simp only [Run.note, Option.map_none]
        refine good_append a (good_imp (fun es h => ⟨h.1, fun k' w' hk => ?_⟩) (patchExtraEntriesTrail_good hp hn r ms _ hs' ho'))
        rw [h.2 k' w' (Spec.NoMember.cons.1 hk).2]
        exact hk' k' w' hk
      · simpa [Run.note] using a
    | none =>
      simp only
      cases h : new d with
      | error e => exact good_one ⟨⟨hs, ho⟩, fun _ _ _ => Iff.rfl⟩
      | ok v =>
        have := emplace_inv (k := k) hs ho (hn d v h)
        refine good_cons ⟨⟨hs, ho⟩, fun _ _ _ => Iff.rfl⟩
          (good_imp (fun es h => ⟨h.1, fun k' w' hk => ?_⟩) (patchExtraEntriesTrail_good hp hn r ms _ this.1 this.2))
        have hne : k' ≠ k := fun h => (Spec.NoMember.cons.1 hk).1 h.symm
        rw [h.2 k' w' (Spec.NoMember.cons.1 hk).2, emplace_mem k v _ hs]
        simp [hne]

theorem keptFields_cons {f : Field} {t : Ty} {fs : Fields} {ms : List (Str × Doc σ)} {o v : Value} {os vs : List Value} :
    KeptFields (.cons f t fs) ms (o :: os) (v :: vs) ↔ KeptFields (.cons f t .nil) ms [o] [v] ∧ KeptFields fs ms os vs := by
  simp only [KeptFields, and_true, and_assoc]

theorem patchPlainTrail_good {E : Env} {f : Field} {t : Ty} (hf : fieldOk f t = true) (c1 : f.skipDeser = false) (c2 : f.extra = false)
    (c3 : f.flatten = false) {ms : List (Str × Doc σ)} {old : Value} {read : Doc σ → Run Value} {tr : Doc σ → List Value} (ho : HasTy t old)
    (hr : ∀ d, Good (fun w => HasTy t w ∧ Kept t d old w) old (read d).1 (tr d)) :
    Good (fun w => HasTy t w ∧ KeptFields (.cons f t .nil) ms [old] [w]) old (patchPlainRun E f ms old read).1
      (patchPlainTrail f ms old tr) := by
  have self : KeptFields (.cons f t .nil) ms [old] [old] := keptFields_self _ _ _
  unfold patchPlainRun patchPlainTrail
  rcases missing_or ms f with ⟨n, hn, hrf⟩ | ⟨hn, hm⟩
  · rw [hn]
    have key : ∀ w, (∀ d, ReadFrom ms f d → Kept t d old w) → KeptFields (.cons f t .nil) ms [old] [w] := by
      intro w hw
      simp only [KeptFields, plain, c1, c2, c3, Bool.false_eq_true, false_implies, Bool.not_false, Bool.and_self, forall_const, true_and,
        and_true, implies_true]
      exact ⟨fun hm => (Spec.Picks.not_none hrf hm).elim, hw⟩
    simp only
    generalize hm : (if (atField ms n).isNull then applyDefault f else none) = x
    cases x with
    | some v =>
      have hnull : (atField ms n).isNull = true ∧ applyDefault f = some v := by
        split at hm
        · rename_i h; exact ⟨h, hm⟩
        · cases hm
      refine good_two ⟨ho, self⟩ ⟨(fieldOk_iff.1 hf).2.1 _ (applyDefault_mem hnull.2), key v fun d hd => ?_⟩
      obtain rfl := Spec.Picks.unique hrf hd
      rw [isNull_iff.1 hnull.1]
      exact kept_null t old _
    | none =>
      simp only
      rw [validateRun_left]
      refine good_imp (fun w hw => ⟨hw.1, key w fun d hd => ?_⟩) (hr _)
      obtain rfl := Spec.Picks.unique hrf hd
      exact hw.2
  · rw [hn]
    exact good_one ⟨ho, self⟩

mutual
theorem patchTrail_good {B : Backend σ} (hB : Lawful B) {E : Env} : ∀ (t : Ty), tyOk t = true →
    ∀ (old : Value) (d : Doc σ), HasTy t old →
      Good (fun w => HasTy t w ∧ Kept t d old w) old (patchRun B E t old d).1 (patchTrail B E t old d)
  | .opt t, ht, old, d, ho => by
    simp only [tyOk] at ht
    simp only [patchRun, patchTrail]
    by_cases hn : d.isNull = true
    · rw [if_pos hn, if_pos hn]
      exact good_two ⟨ho, kept_self _ _ _⟩ ⟨by simp [HasTy, hasTy],
        by cases d <;> first | (simp [Kept]; done) | (simp [Doc.isNull] at hn; done)⟩
    · rw [if_neg hn, if_neg hn]
      rcases hasTy_opt ho with rfl | ⟨w, rfl, hw⟩
      · refine assignTrail_good ⟨ho, kept_self _ _ _⟩ fun v h => ?_
        rw [map_ok] at h
        obtain ⟨w, h, rfl⟩ := h
        exact ⟨by simpa [HasTy, hasTy] using patch_typed hB t ht _ _ _ (fresh_typed t ht) h, by simp [Kept]⟩
      · refine good_map (fun w => Value.opt (some w)) (fun x hx => ⟨by simpa [HasTy, hasTy] using hx.1, ?_⟩)
          (patchTrail_good hB (E := E) t ht w d hw)
        cases d with
        | obj ms => simp only [Kept]; exact ⟨_, rfl, hx.2⟩
        | _ => simp [Kept]
  | .record n fs, ht, old, d, ho => by
    have hd : ∀ d', Good (HasTy (.record n fs)) old (deserRun B E (.record n fs) old d').1 (deserTrail B E (.record n fs) old d') :=
      fun d' => deserTrail_good hB (.record n fs) ht _ _ ho
    simp only [patchRun, patchTrail, note_left]
    simp only [tyOk, Bool.and_eq_true] at ht
    obtain ⟨olds, rfl, hall⟩ := hasTy_record ho
    cases d with
    | obj ms =>
      simp only
      cases hr : reservedNames fs with
      | error e => exact good_one ⟨ho, kept_self _ _ _⟩
      | ok r =>
        exact good_map Value.record (fun w hw => ⟨by simpa only [HasTy, hasTy] using hw.1, by simpa only [Kept] using hw.2⟩)
          (patchFieldsTrail_good hB r ms fs ht.1.1 _ hall)
    | arr l => exact good_imp (fun w hw => ⟨hw, by simp [Kept]⟩) (hd _)
    | null => exact good_imp (fun w hw => ⟨hw, by simp [Kept]⟩) (hd _)
    | scalar s => exact good_imp (fun w hw => ⟨hw, by simp [Kept]⟩) (hd _)
  | .leaf _, ht, old, d, ho | .enum _, ht, old, d, ho | .rawEnum _, ht, old, d, ho
  | .enumSet _, ht, old, d, ho | .vec _, ht, old, d, ho | .arr _ _, ht, old, d, ho
  | .map _, ht, old, d, ho | .tuple _ _, ht, old, d, ho => by
    rw [patchRun_other (by simp) (by simp)]
    simp only [patchTrail]
    exact good_imp (fun w hw => ⟨hw, kept_other (by simp) (by simp) _ _ _⟩) (deserTrail_good hB _ ht _ _ ho)
theorem patchFieldsTrail_good {B : Backend σ} (hB : Lawful B) {E : Env} (r : Option (List Str))
    (ms : List (Str × Doc σ)) : ∀ (fs : Fields), fieldsOk fs = true → ∀ (os : List Value), hasFields fs os = true →
      Good (fun vs => hasFields fs vs = true ∧ KeptFields fs ms os vs) os (patchFieldsRun B E r ms fs os).1
        (patchFieldsTrail B E r ms fs os)
  | .nil, _, os, ho => by
    rw [hasFields_nil ho]
    simp only [patchFieldsRun, patchFieldsTrail]
    exact good_one ⟨by simp [hasFields], by simp [KeptFields]⟩
  | .cons f t fs, ht, os, ho => by
    simp only [fieldsOk, Bool.and_eq_true] at ht
    obtain ⟨o, os, rfl, h1, h2⟩ := hasFields_cons ho
    have ih := patchFieldsTrail_good hB (E := E) r ms fs ht.2 os h2
    have self : KeptFields (.cons f t .nil) ms [o] [o] := keptFields_self _ _ _
    have hv : Good (fun w => HasTy t w ∧ KeptFields (.cons f t .nil) ms [o] [w]) o (if f.skipDeser then (o, none)
        else if f.extra then patchExtrasRun B E r ms t o
        else if f.flatten then patchRun B E t o (.obj ms)
        else patchPlainRun E f ms o (patchRun B E t o) : Run Value).1
        (if f.skipDeser then [o]
        else if f.extra then patchExtrasTrail B E r ms t o
        else if f.flatten then patchTrail B E t o (.obj ms)
        else patchPlainTrail f ms o (patchTrail B E t o)) := by
      by_cases c1 : f.skipDeser = true
      · rw [if_pos c1, if_pos c1]; exact good_one ⟨h1, self⟩
      rw [if_neg c1, if_neg c1]
      have c1' : f.skipDeser = false := by simpa using c1
      by_cases c2 : f.extra = true
      · rw [if_pos c2, if_pos c2]
        obtain ⟨u, hu⟩ := isMap_iff.1 ((fieldOk_iff.1 ht.1.1).2.2.2 c2)
        refine good_imp (fun w hw => ⟨hw.1, ?_⟩) (patchExtrasTrail_good hB (E := E) r ms t ht.1.2 o h1)
        simp only [KeptFields, plain, c1', c2, Bool.false_eq_true, false_implies, forall_const, Bool.true_eq_false,
          Bool.not_true, Bool.and_false, Bool.false_and, true_and, and_true]
        rintro es es' rfl hes
        exact hw.2 es es' rfl hes
      rw [if_neg c2, if_neg c2]
      have c2' : f.extra = false := by simpa using c2
      by_cases c3 : f.flatten = true
      · rw [if_pos c3, if_pos c3]
        refine good_imp (fun w hw => ⟨hw.1, ?_⟩) (patchTrail_good hB (E := E) t ht.1.2 o (.obj ms) h1)
        simp [KeptFields, plain, c1', c2', c3, hw.2]
      rw [if_neg c3, if_neg c3]
      have c3' : f.flatten = false := by simpa using c3
      exact patchPlainTrail_good ht.1.1 c1' c2' c3' h1 fun d => patchTrail_good hB (E := E) t ht.1.2 o d h1
    have hlast := hv.all _ (List.mem_of_getLast? hv.last)
    have hrun : ((if f.skipDeser then (o, none)
        else if f.extra then patchExtrasRun B E r ms t o
        else Run.note (txt "error when patching field " ++ f.name)
            (if f.flatten then patchRun B E t o (.obj ms)
            else patchPlainRun E f ms o (patchRun B E t o)) : Run Value).1,
        (if f.skipDeser then (o, none)
        else if f.extra then patchExtrasRun B E r ms t o
        else Run.note (txt "error when patching field " ++ f.name)
            (if f.flatten then patchRun B E t o (.obj ms)
            else patchPlainRun E f ms o (patchRun B E t o)) : Run Value).2.isSome) =
        ((if f.skipDeser then (o, none)
        else if f.extra then patchExtrasRun B E r ms t o
        else if f.flatten then patchRun B E t o (.obj ms)
        else patchPlainRun E f ms o (patchRun B E t o) : Run Value).1,
        (if f.skipDeser then (o, none)
        else if f.extra then patchExtrasRun B E r ms t o
        else if f.flatten then patchRun B E t o (.obj ms)
        else patchPlainRun E f ms o (patchRun B E t o) : Run Value).2.isSome) := by
      split
      · rfl
      · split
        · rfl
        · split <;> simp [Run.note]
    have g := inPlace_good (Q := fun vs => hasFields (.cons f t fs) vs = true ∧ KeptFields (.cons f t fs) ms (o :: os) vs) hv ih
      (fun v hv => ⟨by simp only [hasFields, Bool.and_eq_true]; exact ⟨hv.1, h2⟩, keptFields_cons.2 ⟨hv.2, keptFields_self _ _ _⟩⟩)
      (fun vs hvs => ⟨by simp only [hasFields, Bool.and_eq_true]; exact ⟨hlast.1, hvs.1⟩, keptFields_cons.2 ⟨hlast.2, hvs.2⟩⟩)
    simp only [patchFieldsRun, patchFieldsTrail]
    generalize (if f.skipDeser then (o, none)
        else if f.extra then patchExtrasRun B E r ms t o
        else Run.note (txt "error when patching field " ++ f.name)
            (if f.flatten then patchRun B E t o (.obj ms)
            else patchPlainRun E f ms o (patchRun B E t o)) : Run Value) = y at hrun ⊢
    generalize (if f.skipDeser then (o, none)
        else if f.extra then patchExtrasRun B E r ms t o
        else if f.flatten then patchRun B E t o (.obj ms)
        else patchPlainRun E f ms o (patchRun B E t o) : Run Value) = x at g hrun ⊢
    rcases x with ⟨v, _ | e⟩ <;> rcases y with ⟨w, _ | e'⟩ <;> simp at hrun <;> subst hrun <;> exact g
theorem patchExtrasTrail_good {B : Backend σ} (hB : Lawful B) {E : Env} (r : Option (List Str))
    (ms : List (Str × Doc σ)) : ∀ (t : Ty), tyOk t = true → ∀ (old : Value), HasTy t old →
    Good (fun w => HasTy t w ∧ ∀ es es', old = .map es → w = .map es' → ∀ k w, NoMember ms k → ((k, w) ∈ es' ↔ (k, w) ∈ es)) old
      (patchExtrasRun B E r ms t old).1 (patchExtrasTrail B E r ms t old)
  | .map t, ht, old, ho => by
    simp only [tyOk] at ht
    obtain ⟨es, rfl, hs, hall⟩ := hasTy_map ho
    simp only [patchExtrasRun, patchExtrasTrail]
    cases r with
    | none => exact good_one ⟨ho, by rintro _ _ h1 h2; cases h1; cases h2; intros; rfl⟩
    | some names =>
      exact good_map Value.map (fun w hw => ⟨hasTy_mkMap hw.1, by rintro _ _ h1 h2; cases h1; cases h2; exact hw.2⟩)
        (patchExtraEntriesTrail_good (P := HasTy t)
          (fun v d hv => good_imp (fun w hw => hw.1) (patchTrail_good hB (E := E) t ht v d hv))
          (fun d v h => patch_typed hB t ht _ _ _ (fresh_typed t ht) h) names ms es hs hall)
  | .leaf _, _, _, ho | .enum _, _, _, ho | .rawEnum _, _, _, ho
  | .enumSet _, _, _, ho | .opt _, _, _, ho | .vec _, _, _, ho
  | .arr _ _, _, _, ho | .record _ _, _, _, ho | .tuple _ _, _, _, ho =>
    good_one ⟨ho, by rintro _ _ rfl h2; cases h2; intros; rfl⟩
end

end Verif.Serial
