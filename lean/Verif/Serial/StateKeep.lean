import Verif.Serial.StateProof
import Verif.Serial.Easy
/-
Lemmas: records from sequences, what a failed patch keeps, and reading that forgets what
was there.
-/
namespace Verif.Serial
open Verif.Path Verif.Enums Spec

variable {σ : Type}

theorem seqFieldsRun_stopped {B : Backend σ} {E : Env} {l : List (Doc σ)} :
    ∀ {fs : Fields} {k : Nat} {os ws : List Value} {e : Exc},
    hasFields fs os = true → seqFieldsRun B E l fs k os = (ws, some e) →
      Stopped (fun i o w => ∀ f t, (fieldList fs)[i]? = some (f, t) →
          SlotReads E (fun t o d v => deser B E t o d = .ok v) (element l (k + slot fs i)) f t o w)
        (fun i o w => ∀ f t, (fieldList fs)[i]? = some (f, t) →
          SlotBreaks E (fun t o d v => deser B E t o d = .ok v)
            (fun t o d w => ∃ e, deserRun B E t o d = (w, some e)) (element l (k + slot fs i)) f t o w) os ws
  | .nil, k, os, ws, e, ho, h => by
    rw [hasFields_nil ho] at h
    simp [seqFieldsRun] at h
  | .cons f t fs, k, os, ws, e, ho, h => by
    obtain ⟨o, os, rfl, h1, h2⟩ := hasFields_cons ho
    simp only [seqFieldsRun] at h
    by_cases c1 : f.skipDeser = true
    · rw [if_pos c1] at h
      simp only [Prod.mk.injEq] at h
      obtain ⟨rfl, h⟩ := h
      have := seqFieldsRun_stopped h2 (Prod.ext rfl h : seqFieldsRun B E l fs k os = (_, some e))
      refine stopped_later ?_ (stopped_imp ?_ ?_ this)
      · intro f' t' ht'
        simp only [fieldList, List.getElem?_cons_zero, Option.some.injEq, Prod.mk.injEq] at ht'
        obtain ⟨rfl, rfl⟩ := ht'
        exact ⟨fun _ => rfl, fun h => by rw [c1] at h; cases h⟩
      all_goals
        intro i o w h f' t' ht'
        have := h f' t' (by simpa [fieldList] using ht')
        rw [slot_cons, if_pos c1, Nat.zero_add]
        exact this
    rw [if_neg c1] at h
    have c1' : f.skipDeser = false := by simpa using c1
    split at h
    · rename_i w e' hx
      cases h
      refine stopped_here ?_
      intro f' t' ht'
      simp only [fieldList, List.getElem?_cons_zero, Option.some.injEq, Prod.mk.injEq] at ht'
      obtain ⟨rfl, rfl⟩ := ht'
      obtain ⟨e1, hx⟩ := note_run hx
      unfold SlotBreaks
      by_cases c2 : f.extra = true
      · rw [if_pos c2] at hx; cases hx
        simp [c1', c2]
      rw [if_neg c2] at hx
      by_cases c3 : f.flatten = true
      · rw [if_pos c3] at hx; cases hx
        simp [c1', c3]
      rw [if_neg c3] at hx
      refine ⟨c1', fun h => absurd h (by simp [c2, c3]), fun _ _ => ?_⟩
      exact (validateRun_error hx).imp id fun h => ⟨deserRun_ok.1 h.1, h.2⟩
    · rename_i w hx
      simp only [Prod.mk.injEq] at h
      obtain ⟨rfl, h⟩ := h
      have := seqFieldsRun_stopped h2 (Prod.ext rfl h : seqFieldsRun B E l fs (k + 1) os = (_, some e))
      refine stopped_later ?_ (stopped_imp ?_ ?_ this)
      · intro f' t' ht'
        simp only [fieldList, List.getElem?_cons_zero, Option.some.injEq, Prod.mk.injEq] at ht'
        obtain ⟨rfl, rfl⟩ := ht'
        have one : seqFieldsRun B E l (.cons f t .nil) k [o] = ([w], none) := by
          simp only [seqFieldsRun, if_neg c1, hx]
        have := (deserSeqFields_ok (B := B) (E := E) (l := l) (fs := .cons f t .nil) (i := k) (olds := [o])
          (vs := [w])).1 (by rw [← seqFieldsRun_res, run_ok]; exact one)
        exact this.2.2 0 f t o w rfl rfl rfl
      all_goals
        intro i o w h f' t' ht'
        have := h f' t' (by simpa [fieldList] using ht')
        rw [slot_cons, if_neg c1, ← Nat.add_assoc]
        exact this

/-! ### What patch keeps -/

theorem patchExtraEntriesRun_keeps {p : Value → Doc σ → Run Value} {q : Doc σ → Res Value} {r : List Str} :
    ∀ {ms : List (Str × Doc σ)} {out : List (Str × Value)}, sorted out = true →
    ∀ k w, NoMember ms k → ((k, w) ∈ (patchExtraEntriesRun p q r ms out).1 ↔ (k, w) ∈ out)
  | [], out, _, k, w, _ => Iff.rfl
  | (k0, d0) :: ms, out, ho, k, w, hk => by
    rw [Spec.NoMember.cons] at hk
    have hne : k ≠ k0 := fun h => hk.1 h.symm
    simp only [patchExtraEntriesRun]
    split
    · exact patchExtraEntriesRun_keeps ho k w hk.2
    · cases hl : lookup out k0 with
      | some v =>
        simp only
        split
        · rename_i x _ _
          rw [assignEntry_mem ho]
          simp [hne]
        · rw [patchExtraEntriesRun_keeps (assignEntry_sorted ho) k w hk.2, assignEntry_mem ho]
          simp [hne]
      | none =>
        simp only
        split
        · rfl
        · rename_i x _
          rw [patchExtraEntriesRun_keeps (emplace_sorted k0 x ho) k w hk.2, emplace_mem k0 x _ ho]
          simp [hne]

theorem patchPlainRun_left {E : Env} {f : Field} {ms : List (Str × Doc σ)} {o : Value} {p : Doc σ → Run Value} :
    (Missing ms f → (patchPlainRun E f ms o p).1 = o) ∧
    ∀ d, ReadFrom ms f d → (d = .null ∧ (patchPlainRun E f ms o p).1 ∈ f.defaults) ∨
      (patchPlainRun E f ms o p).1 = (p d).1 := by
  unfold patchPlainRun
  rcases missing_or ms f with ⟨n, hn, hrf⟩ | ⟨hn, hm⟩
  · rw [hn]
    refine ⟨fun hm => ?_, fun d hd => ?_⟩
    · exact (Spec.Picks.not_none hrf hm).elim
    · obtain rfl := Spec.Picks.unique hrf hd
      simp only
      split
      · rename_i v hv
        left
        split at hv
        · rename_i hnull
          exact ⟨isNull_iff.1 hnull, applyDefault_mem hv⟩
        · cases hv
      · right; exact validateRun_left _ _ _
  · rw [hn]
    exact ⟨fun _ => rfl, fun d hd => (Spec.Picks.not_none hd hm).elim⟩

mutual
theorem patchRun_keeps {B : Backend σ} {E : Env} : ∀ (t : Ty), tyOk t = true →
    ∀ (old : Value) (d : Doc σ), HasTy t old → Kept t d old (patchRun B E t old d).1
  | .opt t, ht, old, d, ho => by
    simp only [tyOk] at ht
    simp only [patchRun]
    by_cases hn : d.isNull = true
    · cases d <;> first | (simp [Kept]; done) | (simp [Doc.isNull] at hn; done)
    · rw [if_neg hn]
      rcases hasTy_opt ho with rfl | ⟨w, rfl, hw⟩
      · simp [Kept]
      · cases d with
        | obj ms =>
          simp only [Kept]
          exact ⟨_, rfl, patchRun_keeps t ht _ _ hw⟩
        | _ => simp [Kept]
  | .record n fs, ht, old, d, ho => by
    simp only [tyOk, Bool.and_eq_true] at ht
    cases d with
    | obj ms =>
      obtain ⟨olds, rfl, hall⟩ := hasTy_record ho
      simp only [patchRun, note_left]
      cases hr : reservedNames fs with
      | error e =>
        simp only [Kept]
        exact keptFields_self fs ms olds
      | ok r =>
        simp only [Kept]
        exact patchFieldsRun_keeps r ms fs ht.1.1 _ hall
    | arr l => simp [Kept]
    | null => simp [Kept]
    | scalar s => simp [Kept]
  | .leaf _, ht, old, d, ho | .enum _, ht, old, d, ho
  | .rawEnum _, ht, old, d, ho | .enumSet _, ht, old, d, ho
  | .vec _, ht, old, d, ho | .arr _ _, ht, old, d, ho
  | .map _, ht, old, d, ho | .tuple _ _, ht, old, d, ho => by
    exact kept_other (by simp) (by simp) _ _ _
theorem patchFieldsRun_keeps {B : Backend σ} {E : Env} (r : Option (List Str))
    (ms : List (Str × Doc σ)) : ∀ (fs : Fields), fieldsOk fs = true → ∀ (olds : List Value),
    hasFields fs olds = true → KeptFields fs ms olds (patchFieldsRun B E r ms fs olds).1
  | .nil, _, olds, ho => by simp [KeptFields]
  | .cons f t fs, hf, olds, ho => by
    simp only [fieldsOk, Bool.and_eq_true] at hf
    obtain ⟨o, os, rfl, h1, h2⟩ := hasFields_cons ho
    have tail := patchFieldsRun_keeps (B := B) (E := E) r ms fs hf.2 _ h2
    have same := keptFields_self fs ms os
    have head : ∀ (x : Run Value), x = (if f.skipDeser then (o, none)
        else if f.extra then patchExtrasRun B E r ms t o
        else
          Run.note (txt "error when patching field " ++ f.name)
            (if f.flatten then patchRun B E t o (.obj ms)
            else patchPlainRun E f ms o (patchRun B E t o)) : Run Value) →
        ∀ ws, KeptFields fs ms os ws → KeptFields (.cons f t fs) ms (o :: os) (x.1 :: ws) := by
      rintro x rfl ws hws
      simp only [KeptFields, plain]
      by_cases c1 : f.skipDeser = true
      · rw [if_pos c1]
        simp [c1, hws]
      rw [if_neg c1]
      have c1' : f.skipDeser = false := by simpa using c1
      by_cases c2 : f.extra = true
      · rw [if_pos c2]
        simp only [c1', c2, Bool.false_eq_true, false_implies, forall_const, Bool.true_eq_false,
          Bool.not_true, Bool.and_false, Bool.false_and, true_and, hws, and_true]
        obtain ⟨u, rfl⟩ := isMap_iff.1 ((fieldOk_iff.1 hf.1.1).2.2.2 c2)
        rintro es es' rfl hes
        simp only [HasTy, hasTy, Bool.and_eq_true] at h1
        cases r with
        | none => simp only [patchExtrasRun, Value.map.injEq] at hes; subst hes; intros; rfl
        | some l =>
          simp only [patchExtrasRun, Value.map.injEq] at hes
          subst hes
          exact patchExtraEntriesRun_keeps h1.1
      have c2' : f.extra = false := by simpa using c2
      rw [if_neg c2, note_left]
      by_cases c3 : f.flatten = true
      · rw [if_pos c3]
        have := patchRun_keeps (B := B) (E := E) t hf.1.2 _ (.obj ms) h1
        simp [c1', c2', c3, this, hws]
      have c3' : f.flatten = false := by simpa using c3
      rw [if_neg c3]
      simp only [c1', c2', c3', Bool.false_eq_true, false_implies, Bool.not_false, Bool.and_self,
        forall_const, true_and, hws, and_true, implies_true]
      refine ⟨patchPlainRun_left.1, fun d hd => ?_⟩
      rcases (patchPlainRun_left (E := E) (o := o) (p := patchRun B E t o)).2 d hd with ⟨rfl, -⟩ | h
      · exact kept_null t o _
      · rw [h]; exact patchRun_keeps t hf.1.2 _ _ h1
    simp only [patchFieldsRun]
    split
    · rename_i v e hx
      exact head (v, some e) hx.symm _ same
    · rename_i v hx
      exact head (v, none) hx.symm _ tail
theorem kept_self : ∀ (t : Ty) (d : Doc σ) (o : Value), Kept t d o o
  | .opt t, d, o => by
    cases d <;> try simp [Kept]
    cases o <;> try simp [Kept]
    rename_i o
    cases o <;> simp [Kept]
    exact kept_self t _ _
  | .record _ fs, d, o => by
    cases d <;> try simp [Kept]
    cases o <;> simp [Kept]
    exact keptFields_self fs _ _
  | .leaf _, d, o | .enum _, d, o | .rawEnum _, d, o | .enumSet _, d, o | .vec _, d, o
  | .arr _ _, d, o | .map _, d, o | .tuple _ _, d, o => kept_other (by simp) (by simp) _ _ _
theorem keptFields_self : ∀ (fs : Fields) (ms : List (Str × Doc σ)) (os : List Value), KeptFields fs ms os os
  | .nil, ms, os => by simp [KeptFields]
  | .cons f t fs, ms, [] => by simp [KeptFields]
  | .cons f t fs, ms, o :: os => by
    simp only [KeptFields]
    refine ⟨by simp, ?_, fun _ _ _ => kept_self t _ _, fun _ => ⟨by simp, fun d _ => kept_self t _ _⟩,
      keptFields_self fs ms os⟩
    rintro _ _ es es' rfl h
    cases h
    intros; rfl
end

/-! ### Forgetting -/

theorem deserFixed_congr {f g : Value → Doc σ → Res Value} {l : List (Doc σ)} {t : Ty}
    (h : ∀ a b d, HasTy t a → HasTy t b → f a d = g b d) :
    ∀ {os ps : List Value} (i : Nat), os.length = ps.length → (∀ o ∈ os, HasTy t o) → (∀ o ∈ ps, HasTy t o) →
      deserFixed f l i os = deserFixed g l i ps
  | [], [], i, _, _, _ => rfl
  | o :: os, p :: ps, i, hl, ho, hp => by
    simp only [deserFixed]
    rw [h o p _ (ho _ (by simp)) (hp _ (by simp)),
      deserFixed_congr h (i + 1) (by simpa using hl) (fun x hx => ho x (by simp [hx]))
        (fun x hx => hp x (by simp [hx]))]
  | [], p :: ps, i, hl, _, _ => by simp at hl
  | o :: os, [], i, hl, _, _ => by simp at hl

mutual
theorem deser_forgets {B : Backend σ} {E : Env} : ∀ (t : Ty), tyOk t = true → forgetful t = true →
    ∀ (o p : Value) (d : Doc σ), HasTy t o → HasTy t p → deser B E t o d = deser B E t p d
  | .leaf _, _, _, o, p, d, _, _ | .enum _, _, _, o, p, d, _, _ | .rawEnum _, _, _, o, p, d, _, _
  | .enumSet _, _, _, o, p, d, _, _ | .opt _, _, _, o, p, d, _, _ | .vec _, _, _, o, p, d, _, _
  | .map _, _, _, o, p, d, _, _ => by simp only [deser]
  | .arr n t, ht, hf, o, p, d, ho, hp => by
    simp only [tyOk] at ht
    simp only [forgetful] at hf
    obtain ⟨os, rfl, ho1, ho2⟩ := hasTy_arr ho
    obtain ⟨ps, rfl, hp1, hp2⟩ := hasTy_arr hp
    simp only [deser]
    rw [ho1, hp1]
    cases elements B d with
    | error e => rfl
    | ok l =>
      simp only
      rw [deserFixed_congr (t := t) (g := deser B E t)
        (fun a b d ha hb => deser_forgets (B := B) (E := E) t ht hf a b d ha hb) 0 (ho1.trans hp1.symm) ho2 hp2]
  | .tuple b ts, ht, hf, o, p, d, ho, hp => by
    simp only [tyOk] at ht
    simp only [forgetful] at hf
    obtain ⟨os, rfl, ho⟩ := hasTy_tuple ho
    obtain ⟨ps, rfl, hp⟩ := hasTy_tuple hp
    simp only [deser]
    cases elements B d with
    | error e => rfl
    | ok l => simp only [deserTuple_forgets (B := B) (E := E) l ts ht hf 0 os ps ho hp]
  | .record n fs, ht, hf, o, p, d, ho, hp => by
    simp only [tyOk, Bool.and_eq_true] at ht
    simp only [forgetful] at hf
    obtain ⟨os, rfl, ho⟩ := hasTy_record ho
    obtain ⟨ps, rfl, hp⟩ := hasTy_record hp
    simp only [deser, deserSeqFields_forgets (B := B) (E := E) _ fs ht.1.1 hf 0 os ps ho hp,
      deserFields_forgets (B := B) (E := E) _ _ fs ht.1.1 hf os ps ho hp]
theorem deserTuple_forgets {B : Backend σ} {E : Env} (l : List (Doc σ)) : ∀ (ts : Tys), tysOk ts = true →
    forgetfulAll ts = true → ∀ (i : Nat) (os ps : List Value), hasTys ts os = true → hasTys ts ps = true →
    deserTuple B E l ts i os = deserTuple B E l ts i ps
  | .nil, _, _, i, os, ps, ho, hp => by rw [hasTys_nil ho, hasTys_nil hp]
  | .cons t ts, ht, hf, i, os, ps, ho, hp => by
    simp only [tysOk, Bool.and_eq_true] at ht
    simp only [forgetfulAll, Bool.and_eq_true] at hf
    obtain ⟨o, os, rfl, h1, h2⟩ := hasTys_cons ho
    obtain ⟨p, ps, rfl, h3, h4⟩ := hasTys_cons hp
    simp only [deserTuple]
    rw [deser_forgets t ht.1 hf.1 o p _ h1 h3, deserTuple_forgets l ts ht.2 hf.2 (i + 1) os ps h2 h4]
theorem deserFields_forgets {B : Backend σ} {E : Env} (r : Option (List Str)) (ms : List (Str × Doc σ)) :
    ∀ (fs : Fields), fieldsOk fs = true → forgetfulFields fs = true → ∀ (os ps : List Value),
    hasFields fs os = true → hasFields fs ps = true → deserFields B E r ms fs os = deserFields B E r ms fs ps
  | .nil, _, _, os, ps, ho, hp => by rw [hasFields_nil ho, hasFields_nil hp]
  | .cons f t fs, hk, hf, os, ps, ho, hp => by
    simp only [fieldsOk, Bool.and_eq_true] at hk
    simp only [forgetfulFields, Bool.and_eq_true, Bool.not_eq_true'] at hf
    obtain ⟨⟨⟨c1, c2⟩, c3⟩, c4⟩ := hf
    obtain ⟨o, os, rfl, h1, h2⟩ := hasFields_cons ho
    obtain ⟨p, ps, rfl, h3, h4⟩ := hasFields_cons hp
    simp only [deserFields, c1, Bool.false_eq_true, if_false]
    rw [deserFields_forgets r ms fs hk.2 c4 os ps h2 h4]
    by_cases ce : f.extra = true
    · simp only [ce, if_true]
    · simp only [ce, Bool.false_eq_true, if_false]
      simp only [ce, Bool.false_or] at c2 c3
      have hd : deser B E t o = deser B E t p := funext fun d => deser_forgets t hk.1.2 c3 o p d h1 h3
      rw [hd]
      by_cases cf : f.flatten = true
      · simp only [cf, if_true]
      · simp only [cf, Bool.false_eq_true, if_false]
        simp only [cf, Bool.false_or] at c2
        have hm : missingPolicy f o = missingPolicy f p := by
          simp only [missingPolicy, applyDefault]
          cases hh : f.defaults with
          | cons => rfl
          | nil =>
            simp only [hh, List.isEmpty_nil, Bool.not_true, Bool.false_or, Bool.not_eq_true'] at c2
            simp [c2]
        simp only [readPlain, hm]
theorem deserSeqFields_forgets {B : Backend σ} {E : Env} (l : List (Doc σ)) :
    ∀ (fs : Fields), fieldsOk fs = true → forgetfulFields fs = true → ∀ (i : Nat) (os ps : List Value),
    hasFields fs os = true → hasFields fs ps = true → deserSeqFields B E l fs i os = deserSeqFields B E l fs i ps
  | .nil, _, _, i, os, ps, ho, hp => by rw [hasFields_nil ho, hasFields_nil hp]
  | .cons f t fs, hk, hf, i, os, ps, ho, hp => by
    simp only [fieldsOk, Bool.and_eq_true] at hk
    simp only [forgetfulFields, Bool.and_eq_true, Bool.not_eq_true'] at hf
    obtain ⟨⟨⟨c1, c2⟩, c3⟩, c4⟩ := hf
    obtain ⟨o, os, rfl, h1, h2⟩ := hasFields_cons ho
    obtain ⟨p, ps, rfl, h3, h4⟩ := hasFields_cons hp
    simp only [deserSeqFields, c1, Bool.false_eq_true, if_false]
    rw [deserSeqFields_forgets l fs hk.2 c4 (i + 1) os ps h2 h4]
    by_cases ce : f.extra = true
    · simp only [ce, if_true]
    · simp only [ce, Bool.false_or] at c3
      rw [deser_forgets t hk.1.2 c3 o p _ h1 h3]
end

/-! ### Where patch stops -/

theorem patchExtraEntriesRun_prefix {p : Value → Doc σ → Run Value} {q : Value → Doc σ → Res Value}
    {new : Value} {r : List Str} (hq : ∀ v d, (p v d).res = q v d) :
    ∀ {ms : List (Str × Doc σ)} {out w : List (Str × Value)} {e : Exc},
    patchExtraEntriesRun p (q new) r ms out = (w, some e) → ∃ pre m post mid, ms = pre ++ m :: post ∧ m.1 ∉ r ∧
      patchExtraEntries q new r pre out = .ok mid ∧
      ((lookup mid m.1 = none ∧ w = mid ∧ ∀ v, q new m.2 ≠ .ok v) ∨
        ∃ o x e, lookup mid m.1 = some o ∧ p o m.2 = (x, some e) ∧ w = assignEntry mid m.1 x)
  | [], out, w, e, h => by cases h
  | (k, d) :: ms, out, w, e, h => by
    simp only [patchExtraEntriesRun] at h
    by_cases hk : r.contains k = true
    · rw [if_pos hk] at h
      obtain ⟨pre, m, post, mid, rfl, h1, h2, h3⟩ := patchExtraEntriesRun_prefix hq h
      refine ⟨(k, d) :: pre, m, post, mid, rfl, h1, ?_, h3⟩
      simp only [patchExtraEntries]
      rw [if_pos hk]; exact h2
    · rw [if_neg hk] at h
      have hk' : k ∉ r := by simpa using hk
      cases hl : lookup out k with
      | some v =>
        rw [hl] at h
        simp only at h
        split at h
        · rename_i x e' hx
          cases h
          obtain ⟨e2, hx⟩ := note_run hx
          exact ⟨[], (k, d), ms, out, rfl, hk', rfl, .inr ⟨v, x, e2, hl, hx, rfl⟩⟩
        · rename_i x hx
          have hx := note_run_ok hx
          obtain ⟨pre, m, post, mid, rfl, h1, h2, h3⟩ := patchExtraEntriesRun_prefix hq h
          refine ⟨(k, d) :: pre, m, post, mid, rfl, h1, ?_, h3⟩
          have hx' : q v d = .ok x := by rw [← hq, run_ok]; exact hx
          simp only [patchExtraEntries, hl, hx', note]
          rw [if_neg hk]; exact h2
      | none =>
        rw [hl] at h
        simp only at h
        cases hd : q new d with
        | error y =>
          rw [hd] at h
          cases h
          exact ⟨[], (k, d), ms, out, rfl, hk', rfl, .inl ⟨hl, rfl, by simp [hd]⟩⟩
        | ok x =>
          rw [hd] at h
          obtain ⟨pre, m, post, mid, rfl, h1, h2, h3⟩ := patchExtraEntriesRun_prefix hq h
          refine ⟨(k, d) :: pre, m, post, mid, rfl, h1, ?_, h3⟩
          simp only [patchExtraEntries, hl, hd, note]
          rw [if_neg hk]; exact h2

theorem patchPlainRun_error {E : Env} {f : Field} {ms : List (Str × Doc σ)} {o w : Value}
    {p : Doc σ → Run Value} {e : Exc} (h : patchPlainRun E f ms o p = (w, some e)) :
    ∃ d, ReadFrom ms f d ∧ (d ≠ .null ∨ f.defaults = []) ∧
      ((∃ e, p d = (w, some e)) ∨ (p d = (w, none) ∧ ¬ MeetsAll E f w)) := by
  unfold patchPlainRun at h
  rcases missing_or ms f with ⟨n, hn, hrf⟩ | ⟨hn, hm⟩
  · rw [hn] at h
    simp only at h
    refine ⟨_, hrf, ?_, ?_⟩
    · by_cases hnl : (atField ms n).isNull = true
      · rw [if_pos hnl] at h
        refine .inr ?_
        unfold applyDefault at h
        cases hh : f.defaults.head? with
        | some v => rw [hh] at h; cases h
        | none => exact head?_none.1 hh
      · exact .inl fun h' => hnl (isNull_iff.2 h')
    · split at h
      · cases h
      · exact validateRun_error h
  · rw [hn] at h; cases h

theorem patchFieldsRun_stopped {B : Backend σ} {E : Env} {r : Option (List Str)} {names : List Str}
    {ms : List (Str × Doc σ)} (hn : (ms.map (·.1)).Nodup) :
    ∀ {fs : Fields} {os ws : List Value} {e : Exc}, fieldsOk fs = true → ReservedFor r names fs →
    hasFields fs os = true → patchFieldsRun B E r ms fs os = (ws, some e) →
      Stopped (fun i o w => ∀ f t, (fieldList fs)[i]? = some (f, t) →
          FieldPatches E (fun t o d v => patch B E t o d = .ok v) ms names f t o w)
        (fun i o w => ∀ f t, (fieldList fs)[i]? = some (f, t) →
          PatchBreaks E (fun t o d v => patch B E t o d = .ok v)
            (fun t o d w => ∃ e, patchRun B E t o d = (w, some e)) ms names f t o w) os ws
  | .nil, os, ws, e, _, _, ho, h => by
    rw [hasFields_nil ho] at h
    simp [patchFieldsRun] at h
  | .cons f t fs, os, ws, e, hf, hr, ho, h => by
    have hf1 := hf
    simp only [fieldsOk, Bool.and_eq_true] at hf
    obtain ⟨o, os, rfl, h1, h2⟩ := hasFields_cons ho
    simp only [patchFieldsRun] at h
    split at h
    · rename_i w e' hx
      cases h
      refine stopped_here ?_
      intro f' t' ht'
      simp only [fieldList, List.getElem?_cons_zero, Option.some.injEq, Prod.mk.injEq] at ht'
      obtain ⟨rfl, rfl⟩ := ht'
      unfold PatchBreaks plain
      by_cases c1 : f.skipDeser = true
      · rw [if_pos c1] at hx; cases hx
      rw [if_neg c1] at hx
      have c1' : f.skipDeser = false := by simpa using c1
      by_cases c2 : f.extra = true
      · rw [if_pos c2] at hx
        simp only [c1', c2, forall_const, Bool.true_eq_false, false_implies, Bool.not_true,
          Bool.and_false, Bool.false_and, Bool.false_eq_true, and_true, true_and]
        obtain ⟨l, rfl, hl⟩ := hr.extra c2
        obtain ⟨u, rfl⟩ := isMap_iff.1 ((fieldOk_iff.1 hf.1.1).2.2.2 c2)
        obtain ⟨es, rfl, hs, hall⟩ := hasTy_map h1
        simp only [patchExtrasRun] at hx
        generalize hg : patchExtraEntriesRun (patchRun B E u) (patch B E u (fresh u)) l ms es = g at hx
        obtain ⟨ws, x⟩ := g
        cases hx
        obtain ⟨pre, m, post, mid, rfl, h3, h4, h5⟩ := patchExtraEntriesRun_prefix (q := patch B E u)
          (fun v d => patchRun_res B E u v d) hg
        have hnp : (pre.map (·.1)).Nodup := by
          rw [List.map_append, List.nodup_append] at hn; exact hn.1
        have hmid := (patchExtraEntries_char hnp hs).1 h4
        refine ⟨u, es, mid, _, pre, m, post, rfl, rfl, rfl, rfl, by rwa [← hl], ?_, ?_⟩
        · refine ⟨by simp [c1'], fun _ _ => ?_, by simp [c2], by simp [plain, c2]⟩
          simp only [hl] at hmid
          exact ⟨u, es, mid, rfl, rfl, rfl, hmid.1, hmid.2.1, hmid.2.2⟩
        · rcases h5 with ⟨h5, h6, h7⟩ | ⟨a, x, e2, h5, h6, h7⟩
          · rw [lookup_none] at h5
            refine ⟨fun _ => h7, fun k y => ?_⟩
            rw [h6]
            constructor
            · intro hk
              exact .inl ⟨fun h => h5 _ hk h, hk⟩
            · rintro (⟨-, hk⟩ | ⟨hkm, a, ha, -⟩)
              · exact hk
              · exact absurd hkm (h5 _ ha)
          · rw [lookup_some] at h5
            have hin : (m.1, a) ∈ mid := h5.mem
            refine ⟨fun h => absurd rfl (h _ hin), fun k y => ?_⟩
            rw [h7, assignEntry_mem hmid.1]
            constructor
            · rintro (⟨hk, hne⟩ | ⟨hk, -⟩)
              · exact .inl ⟨hne, hk⟩
              · cases hk; exact .inr ⟨rfl, a, hin, e2, h6⟩
            · rintro (⟨hne, hk⟩ | ⟨rfl, b, hb, e3, hbr⟩)
              · exact .inl ⟨hk, hne⟩
              · obtain rfl := sorted_key_inj hmid.1 hin hb
                rw [h6] at hbr; cases hbr
                exact .inr ⟨rfl, fun h => h _ hin rfl⟩
      rw [if_neg c2] at hx
      have c2' : f.extra = false := by simpa using c2
      obtain ⟨e1, hx⟩ := note_run hx
      by_cases c3 : f.flatten = true
      · rw [if_pos c3] at hx
        simp only [c1', c2', c3, Bool.false_eq_true, false_implies, forall_const, Bool.not_true,
          Bool.and_false, and_true, true_and]
        exact ⟨e1, hx⟩
      rw [if_neg c3] at hx
      have c3' : f.flatten = false := by simpa using c3
      simp only [c1', c2', c3', Bool.false_eq_true, false_implies, Bool.not_false, Bool.and_self,
        forall_const, true_and]
      obtain ⟨d, hd, hd', h⟩ := patchPlainRun_error hx
      exact ⟨d, hd, hd', h.imp id fun h => ⟨patchRun_ok.1 h.1, h.2⟩⟩
    · rename_i w hx
      simp only [Prod.mk.injEq] at h
      obtain ⟨rfl, h⟩ := h
      have := patchFieldsRun_stopped hn hf.2 hr.tail h2
        (Prod.ext rfl h : patchFieldsRun B E r ms fs os = (_, some e))
      refine stopped_later ?_ (stopped_imp ?_ ?_ this)
      · intro f' t' ht'
        simp only [fieldList, List.getElem?_cons_zero, Option.some.injEq, Prod.mk.injEq] at ht'
        obtain ⟨rfl, rfl⟩ := ht'
        have one : patchFieldsRun B E r ms (.cons f t .nil) [o] = ([w], none) := by
          simp only [patchFieldsRun, hx]
        have := (patchFields_ok (B := B) (E := E) (r := r) (names := names) ms hn (.cons f t .nil) [o] [w]
          (by simp only [fieldsOk, Bool.and_eq_true]; exact ⟨hf.1, trivial⟩)
          (by simp only [hasFields, Bool.and_eq_true]; exact ⟨h1, trivial⟩) hr.head).1
          (by rw [← patchFieldsRun_res, run_ok]; exact one)
        cases this with
        | cons h _ => exact h
      · intro i o w h f' t' ht'
        exact h f' t' (by simpa [fieldList] using ht')
      · intro i o w h f' t' ht'
        exact h f' t' (by simpa [fieldList] using ht')

end Verif.Serial
