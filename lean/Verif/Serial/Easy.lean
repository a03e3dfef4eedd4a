import Verif.Serial.Throws
/-
Lemmas: the types whose values always round trip, and records from sequences.
-/
namespace Verif.Serial
open Verif.Path Verif.Enums Spec

variable {σ : Type}

theorem null_opt {t : Ty} {v : Value} (h : HasTy t v) (ho : isOpt t = false) : isNullValue v = false := by
  cases v with
  | opt w =>
    cases t <;> simp [HasTy, hasTy] at h
    simp [isOpt] at ho
  | _ => rfl

theorem null_none {v : Value} (h : isNullValue v = true) : v = .opt none := by
  cases v with
  | opt w => cases w <;> simp [isNullValue] at h ⊢
  | _ => simp [isNullValue] at h

mutual
theorem easy_extra {s : Bool} : ∀ (fs : Fields), easyFields s fs = true → extraCount fs = 0
  | .nil, _ => by simp [extraCount]
  | .cons f t fs, h => by
    simp only [easyFields, Bool.and_eq_true, Bool.not_eq_true'] at h
    have h1 := easy_extraTy t h.1.2
    have h2 := easy_extra fs h.2
    simp [extraCount, h.1.1.1.1.2, h1, h2]
theorem easy_extraTy {s : Bool} : ∀ (t : Ty), easy s t = true → extraCountTy t = 0
  | .record _ fs, h => by
    simp only [easy, Bool.and_eq_true] at h
    simpa [extraCountTy] using easy_extra fs h.2
  | .leaf _, _ | .enum _, _ | .rawEnum _, _ | .enumSet _, _ | .opt _, _ | .vec _, _ | .arr _ _, _ | .map _, _
  | .tuple _ _, _ => by simp [extraCountTy]
end

mutual
theorem easy_keeps {E : Env} {s : Bool} : ∀ (t : Ty), tyOk t = true → easy s t = true →
    ∀ (old v : Value), HasTy t old → HasTy t v → Listed t v → Keeps E s t old v
  | .leaf l, _, _, old, v, _, hv, hl => by simp [Keeps]
  | .enum e, _, _, old, v, _, hv, hl => by
    cases v <;> try simp [HasTy, hasTy] at hv
    rename_i a
    cases a <;> simp [HasTy, hasTy] at hv
    simpa [Keeps, Listed] using hl
  | .rawEnum t, _, _, old, v, _, hv, hl => by simp [Keeps]
  | .enumSet e, _, _, old, v, _, hv, hl => by
    cases v <;> simp [HasTy, hasTy] at hv
    simpa [Keeps, Listed] using hl
  | .opt t, ht, he, old, v, _, hv, hl => by
    simp only [tyOk] at ht
    simp only [easy, Bool.and_eq_true, Bool.not_eq_true'] at he
    rcases hasTy_opt hv with rfl | ⟨w, rfl, hw⟩
    · simp [Keeps]
    · simp only [Keeps]
      simp only [Listed] at hl
      exact ⟨null_opt hw he.1, easy_keeps t ht he.2 (fresh t) w (fresh_typed t ht) hw hl⟩
  | .vec t, ht, he, old, v, _, hv, hl => by
    simp only [tyOk] at ht
    simp only [easy] at he
    obtain ⟨vs, rfl, hvs⟩ := hasTy_seq hv
    simp only [Keeps]
    simp only [Listed] at hl
    exact fun w hw => easy_keeps t ht he (fresh t) w (fresh_typed t ht) (hvs w hw) (hl w hw)
  | .arr n t, ht, he, old, v, ho, hv, hl => by
    simp only [tyOk] at ht
    simp only [easy] at he
    obtain ⟨vs, rfl, -, hvs⟩ := hasTy_arr hv
    obtain ⟨os, rfl, -, hos⟩ := hasTy_arr ho
    simp only [Keeps]
    simp only [Listed] at hl
    intro i o w hi hw
    exact easy_keeps t ht he o w (hos o (List.mem_of_getElem? hi)) (hvs w (List.mem_of_getElem? hw))
      (hl w (List.mem_of_getElem? hw))
  | .map t, ht, he, old, v, _, hv, hl => by
    simp only [tyOk] at ht
    simp only [easy, Bool.and_eq_true, Bool.or_eq_true, Bool.not_eq_true'] at he
    obtain ⟨es, rfl, hs, hes⟩ := hasTy_map hv
    simp only [Keeps]
    simp only [Listed] at hl
    intro e hm
    refine ⟨fun h => ?_, easy_keeps t ht he.2 (fresh t) e.2 (fresh_typed t ht) (hes e hm) (hl e hm)⟩
    rcases he.1 with h' | h'
    · rw [h] at h'; cases h'
    · exact null_opt (hes e hm) h'
  | .tuple b ts, ht, he, old, v, ho, hv, hl => by
    simp only [tyOk] at ht
    simp only [easy] at he
    obtain ⟨vs, rfl, hvs⟩ := hasTy_tuple hv
    obtain ⟨os, rfl, hos⟩ := hasTy_tuple ho
    simp only [Keeps]
    simp only [Listed] at hl
    exact easyAll_keeps ts ht he os vs hos hvs hl
  | .record n fs, ht, he, old, v, ho, hv, hl => by
    simp only [tyOk, Bool.and_eq_true] at ht
    simp only [easy, Bool.and_eq_true, decide_eq_true_eq] at he
    obtain ⟨vs, rfl, hvs⟩ := hasTy_record hv
    obtain ⟨os, rfl, hos⟩ := hasTy_record ho
    simp only [Keeps]
    simp only [Listed] at hl
    exact ⟨he.1, easyFields_keeps fs ht.1.1 he.2 os vs hos hvs hl⟩
theorem easyAll_keeps {E : Env} {s : Bool} : ∀ (ts : Tys), tysOk ts = true → easyAll s ts = true →
    ∀ (os vs : List Value), hasTys ts os = true → hasTys ts vs = true → ListedAll ts vs →
    KeepsAll E s ts os vs
  | .nil, _, _, os, vs, _, _, _ => by simp [KeepsAll]
  | .cons t ts, ht, he, os, vs, ho, hv, hl => by
    simp only [tysOk, Bool.and_eq_true] at ht
    simp only [easyAll, Bool.and_eq_true] at he
    obtain ⟨v, vs, rfl, h1, h2⟩ := hasTys_cons hv
    obtain ⟨o, os, rfl, h1', h2'⟩ := hasTys_cons ho
    simp only [ListedAll] at hl
    simp only [KeepsAll]
    exact ⟨easy_keeps t ht.1 he.1 o v h1' h1 hl.1, easyAll_keeps ts ht.2 he.2 os vs h2' h2 hl.2⟩
theorem easyFields_keeps {E : Env} {s : Bool} : ∀ (fs : Fields), fieldsOk fs = true →
    easyFields s fs = true → ∀ (os vs : List Value), hasFields fs os = true → hasFields fs vs = true →
    ListedFields fs vs → KeepsFields E s fs os vs
  | .nil, _, _, os, vs, _, _, _ => by simp [KeepsFields]
  | .cons f t fs, hf, he, os, vs, ho, hv, hl => by
    simp only [fieldsOk, Bool.and_eq_true] at hf
    simp only [easyFields, Bool.and_eq_true, Bool.not_eq_true', Bool.or_eq_true] at he
    obtain ⟨⟨⟨⟨⟨⟨⟨e1, e2⟩, e3⟩, e4⟩, e5⟩, e6⟩, e7⟩, e8⟩ := he
    obtain ⟨v, vs, rfl, h1, h2⟩ := hasFields_cons hv
    obtain ⟨o, os, rfl, h1', h2'⟩ := hasFields_cons ho
    simp only [ListedFields] at hl
    have hmeets : MeetsAll E f v := by
      have : f.validators = [] := by simpa using e5
      intro x hx; rw [this] at hx; cases hx
    simp only [KeepsFields]
    refine ⟨by simp [e2], by simp [e4], ?_, ?_, ?_, easyFields_keeps fs hf.2 e8 os vs h2' h2 hl.2⟩
    · intro _ _ _
      exact ⟨e1, easy_extraTy t e7, easyFlat_keeps t hf.1.2 e7 o v h1' h1 hl.1⟩
    · intro _ hom
      simp only [omitted, e1, e3, Bool.false_and, Bool.or_false, Bool.false_or, Bool.and_eq_true,
        Bool.not_eq_true', Bool.or_eq_true] at hom
      have hopt : isOpt t = true := by
        cases h : isOpt t with
        | true => rfl
        | false => rw [null_opt h1 h] at hom; cases hom.2
      rcases e6 with h | ⟨h, h'⟩
      · rw [hopt] at h; cases h
      · refine .inr (.inr ⟨by simpa using h, ?_, ⟨hopt, null_none hom.2⟩, hmeets⟩)
        rcases h' with (h' | h') | ⟨h', h''⟩
        · exact h'
        · rw [hom.1.1] at h'; cases h'
        · rcases hom.1.2 with h | h
          · rw [h'] at h; cases h
          · rw [h''] at h; cases h
    · intro _ _
      refine .inr ⟨?_, easy_keeps t hf.1.2 e7 o v h1' h1 hl.1, hmeets⟩
      rcases e6 with h | ⟨h, h'⟩
      · exact .inl (null_opt h1 h)
      · exact .inr (by simpa using h)
theorem easyFlat_keeps {E : Env} {s : Bool} : ∀ (t : Ty), tyOk t = true → easy s t = true →
    ∀ (old v : Value), HasTy t old → HasTy t v → Listed t v → KeepsFlat E s t old v
  | .record n fs, ht, he, old, v, ho, hv, hl => by
    simp only [tyOk, Bool.and_eq_true] at ht
    simp only [easy, Bool.and_eq_true, decide_eq_true_eq] at he
    obtain ⟨vs, rfl, hvs⟩ := hasTy_record hv
    obtain ⟨os, rfl, hos⟩ := hasTy_record ho
    simp only [KeepsFlat]
    simp only [Listed] at hl
    exact easyFields_keeps fs ht.1.1 he.2 os vs hos hvs hl
  | .leaf _, _, _, _, _, _, _, _ | .enum _, _, _, _, _, _, _, _ | .rawEnum _, _, _, _, _, _, _, _
  | .enumSet _, _, _, _, _, _, _, _ | .opt _, _, _, _, _, _, _, _ | .vec _, _, _, _, _, _, _, _
  | .arr _ _, _, _, _, _, _, _, _ | .map _, _, _, _, _, _, _, _ | .tuple _ _, _, _, _, _, _, _, _ => by
    simp [KeepsFlat]
end

mutual
theorem easy_writable {s : Bool} : ∀ (t : Ty), easy s t = true → ∀ (v : Value), HasTy t v → Writable s t v
  | .leaf l, _, v, hv => by simp [Writable]
  | .enum l, _, v, hv => by simp [Writable]
  | .rawEnum l, _, v, hv => by simp [Writable]
  | .enumSet l, _, v, hv => by simp [Writable]
  | .opt t, he, v, hv => by
    simp only [easy, Bool.and_eq_true] at he
    rcases hasTy_opt hv with rfl | ⟨w, rfl, hw⟩
    · simp [Writable]
    · simp only [Writable]; exact easy_writable t he.2 w hw
  | .vec t, he, v, hv => by
    simp only [easy] at he
    obtain ⟨vs, rfl, hvs⟩ := hasTy_seq hv
    simp only [Writable]
    exact fun w hw => easy_writable t he w (hvs w hw)
  | .arr n t, he, v, hv => by
    simp only [easy] at he
    obtain ⟨vs, rfl, -, hvs⟩ := hasTy_arr hv
    simp only [Writable]
    exact fun w hw => easy_writable t he w (hvs w hw)
  | .map t, he, v, hv => by
    simp only [easy, Bool.and_eq_true] at he
    obtain ⟨es, rfl, -, hes⟩ := hasTy_map hv
    simp only [Writable]
    exact fun e hm _ => easy_writable t he.2 e.2 (hes e hm)
  | .tuple b ts, he, v, hv => by
    simp only [easy] at he
    obtain ⟨vs, rfl, hvs⟩ := hasTy_tuple hv
    simp only [Writable]
    exact easyAll_writable ts he vs hvs
  | .record n fs, he, v, hv => by
    simp only [easy, Bool.and_eq_true, decide_eq_true_eq] at he
    obtain ⟨vs, rfl, hvs⟩ := hasTy_record hv
    simp only [Writable]
    exact ⟨fun _ => ⟨he.1, by rw [easy_extra fs he.2]; omega⟩, easyFields_writable fs he.2 _ vs hvs⟩
theorem easyAll_writable {s : Bool} : ∀ (ts : Tys), easyAll s ts = true → ∀ (vs : List Value),
    hasTys ts vs = true → WritableAll s ts vs
  | .nil, _, vs, _ => by simp [WritableAll]
  | .cons t ts, he, vs, hv => by
    simp only [easyAll, Bool.and_eq_true] at he
    obtain ⟨v, vs, rfl, h1, h2⟩ := hasTys_cons hv
    simp only [WritableAll]
    exact ⟨easy_writable t he.1 v h1, easyAll_writable ts he.2 vs h2⟩
theorem easyFields_writable {s : Bool} : ∀ (fs : Fields), easyFields s fs = true → ∀ (names : List Str)
    (vs : List Value), hasFields fs vs = true → WritableFields s names fs vs
  | .nil, _, _, vs, _ => by simp [WritableFields]
  | .cons f t fs, he, names, vs, hv => by
    simp only [easyFields, Bool.and_eq_true, Bool.not_eq_true'] at he
    obtain ⟨⟨⟨⟨⟨⟨⟨e1, e2⟩, e3⟩, e4⟩, e5⟩, e6⟩, e7⟩, e8⟩ := he
    obtain ⟨v, vs, rfl, h1, h2⟩ := hasFields_cons hv
    simp only [WritableFields]
    exact ⟨by simp [e4], fun _ _ _ => easyFlat_writable t e7 names v h1, fun _ _ _ => easy_writable t e7 v h1,
      easyFields_writable fs e8 names vs h2⟩
theorem easyFlat_writable {s : Bool} : ∀ (t : Ty), easy s t = true → ∀ (names : List Str) (v : Value),
    HasTy t v → WritableFlat s names t v
  | .record n fs, he, names, v, hv => by
    simp only [easy, Bool.and_eq_true] at he
    obtain ⟨vs, rfl, hvs⟩ := hasTy_record hv
    simp only [WritableFlat]
    exact easyFields_writable fs he.2 names vs hvs
  | .leaf _, _, _, _, _ | .enum _, _, _, _, _ | .rawEnum _, _, _, _, _ | .enumSet _, _, _, _, _
  | .opt _, _, _, _, _ | .vec _, _, _, _, _ | .arr _ _, _, _, _, _ | .map _, _, _, _, _
  | .tuple _ _, _, _, _, _ => by simp [WritableFlat]
end

/-! ### Records from sequences -/

theorem seqFieldCount_eq : ∀ fs : Fields,
    seqFieldCount fs = (fieldList fs).countP fun p => !p.1.skipDeser
  | .nil => rfl
  | .cons f t fs => by
    rw [seqFieldCount, fieldList, List.countP_cons, seqFieldCount_eq fs]
    cases f.skipDeser <;> simp <;> omega

theorem slot_cons {f : Field} {t : Ty} {fs : Fields} {j : Nat} :
    slot (.cons f t fs) (j + 1) = (if f.skipDeser then 0 else 1) + slot fs j := by
  simp only [slot, fieldList, List.take_succ_cons, List.countP_cons]
  cases f.skipDeser <;> simp <;> omega

theorem deserSeqFields_ok {B : Backend σ} {E : Env} {l : List (Doc σ)} : ∀ {fs : Fields} {i : Nat}
    {olds vs : List Value}, deserSeqFields B E l fs i olds = .ok vs ↔
    (fieldList fs).length = olds.length ∧ olds.length = vs.length ∧
    ∀ j f t o v, (fieldList fs)[j]? = some (f, t) → olds[j]? = some o → vs[j]? = some v →
      SlotReads E (fun t o d v => deser B E t o d = .ok v) (element l (i + slot fs j)) f t o v
  | .nil, i, olds, vs => by
    cases olds with
    | nil =>
      simp only [deserSeqFields, Except.ok.injEq, fieldList]
      constructor
      · rintro rfl; simp
      · rintro ⟨-, h, -⟩; cases vs <;> simp at h ⊢
    | cons o os => simp [deserSeqFields, fieldList]
  | .cons f t fs, i, olds, vs => by
    cases olds with
    | nil => simp [deserSeqFields, fieldList]
    | cons o os =>
      have step : ∀ (P : Value → Prop) (k : Nat), (k = if f.skipDeser then 0 else 1) →
          (∀ v, P v ↔ SlotReads E (fun t o d v => deser B E t o d = .ok v) (element l i) f t o v) →
          ((∃ v ws, vs = v :: ws ∧ P v ∧ deserSeqFields B E l fs (i + k) os = .ok ws) ↔
          (fieldList (.cons f t fs)).length = (o :: os).length ∧ (o :: os).length = vs.length ∧
          ∀ j f' t' o' v, (fieldList (.cons f t fs))[j]? = some (f', t') → (o :: os)[j]? = some o' →
            vs[j]? = some v →
            SlotReads E (fun t o d v => deser B E t o d = .ok v) (element l (i + slot (.cons f t fs) j))
              f' t' o' v) := by
        intro P k hk hP
        constructor
        · rintro ⟨v, ws, rfl, h1, h2⟩
          obtain ⟨h3, h4, h5⟩ := deserSeqFields_ok.1 h2
          refine ⟨by simp [fieldList, h3], by simp [h4], ?_⟩
          intro j f' t' o' v' hf ho hv
          cases j with
          | zero =>
            simp only [fieldList, List.getElem?_cons_zero, Option.some.injEq, Prod.mk.injEq] at hf ho hv
            obtain ⟨rfl, rfl⟩ := hf
            subst ho hv
            exact (hP v).1 h1
          | succ j =>
            simp only [fieldList, List.getElem?_cons_succ] at hf ho hv
            have := h5 j f' t' o' v' hf ho hv
            rw [slot_cons, ← hk, ← Nat.add_assoc]
            exact this
        · rintro ⟨h3, h4, h5⟩
          cases vs with
          | nil => simp at h4
          | cons v ws =>
            refine ⟨v, ws, rfl, (hP v).2 (h5 0 f t o v rfl rfl rfl), deserSeqFields_ok.2 ⟨?_, ?_, ?_⟩⟩
            · simpa [fieldList] using h3
            · simpa using h4
            · intro j f' t' o' v' hf ho hv
              have := h5 (j + 1) f' t' o' v' (by simpa [fieldList] using hf) (by simpa using ho)
                (by simpa using hv)
              rwa [slot_cons, ← hk, ← Nat.add_assoc] at this
      by_cases hs : f.skipDeser = true
      · refine Iff.trans ?_ (step (fun v => v = o) 0 (by simp [hs]) (fun v => by simp [SlotReads, hs]))
        simp only [deserSeqFields, if_pos hs, map_ok, Nat.add_zero]
        constructor
        · rintro ⟨ws, h, rfl⟩; exact ⟨o, ws, rfl, rfl, h⟩
        · rintro ⟨v, ws, rfl, rfl, h⟩; exact ⟨ws, h, rfl⟩
      · refine Iff.trans ?_ (step (fun v => (if f.extra then
            .error (.deser (txt "extra_fields fields are not supported in sequence deserialization"))
          else if f.flatten then
            .error (.deser (txt "flatten fields are not supported in sequence deserialization"))
          else thenValidate E f (deser B E t o (atIndex l i)) : Res Value) = .ok v) 1 (by simp [hs])
          (fun v => ?_))
        · simp only [deserSeqFields, if_neg hs]
          generalize (if f.extra then
            .error (.deser (txt "extra_fields fields are not supported in sequence deserialization"))
          else if f.flatten then
            .error (.deser (txt "flatten fields are not supported in sequence deserialization"))
          else thenValidate E f (deser B E t o (atIndex l i)) : Res Value) = r
          cases r with
          | error e => simp [note]
          | ok v =>
            simp only [note, map_ok, Except.ok.injEq]
            constructor
            · rintro ⟨ws, h, rfl⟩; exact ⟨v, ws, rfl, rfl, h⟩
            · rintro ⟨v, ws, rfl, rfl, h⟩; exact ⟨ws, h, rfl⟩
        · have hs' : f.skipDeser = false := by simpa using hs
          cases he : f.extra with
          | true => simp [SlotReads, hs', he]
          | false =>
            cases hfl : f.flatten with
            | true => simp [SlotReads, hs', hfl]
            | false =>
              simp only [Bool.false_eq_true, if_false, SlotReads, hs', false_implies, true_and, he, hfl,
                forall_const]
              rw [thenValidate_ok]
              rfl

theorem deser_record_arr {B : Backend σ} {E : Env} {n : Str} {fs : Fields} {old v : Value}
    {l : List (Doc σ)} : deser B E (.record n fs) old (.arr l) = .ok v ↔
    l.length ≤ (fieldList fs).countP (fun p => !p.1.skipDeser) ∧ ∃ olds vs, old = .record olds ∧
      v = .record vs ∧ (fieldList fs).length = olds.length ∧ olds.length = vs.length ∧
      ∀ j f t o v, (fieldList fs)[j]? = some (f, t) → olds[j]? = some o → vs[j]? = some v →
        SlotReads E (fun t o d v => deser B E t o d = .ok v) (element l (slot fs j)) f t o v := by
  simp only [deser, note_ok]
  cases old with
  | record olds =>
    simp only [← seqFieldCount_eq]
    by_cases h : seqFieldCount fs < l.length
    · rw [if_pos h]
      simp only [reduceCtorEq, false_iff]
      rintro ⟨h', -⟩; omega
    · rw [if_neg h]
      simp only [map_ok, deserSeqFields_ok, Nat.zero_add]
      constructor
      · rintro ⟨vs, h1, rfl⟩; exact ⟨by omega, olds, vs, rfl, rfl, h1⟩
      · rintro ⟨-, olds', vs, ho, rfl, h1⟩
        cases ho
        exact ⟨vs, h1, rfl⟩
  | _ => simp

end Verif.Serial
