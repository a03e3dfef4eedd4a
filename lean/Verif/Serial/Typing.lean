import Verif.Serial.Loops
/-
Lemmas: the operations keep values within their types.
-/
namespace Verif.Serial
open Verif.Path Verif.Enums Spec

variable {σ : Type}

/-! ### Validators -/

theorem runValidator_ok {E : Env} {v : Value} {x : Validator} :
    runValidator E v x = .ok () ↔ Meets E v x := by
  have lt : ∀ lo, AtLeast lo v ↔ valueLt v lo = false := by
    intro lo
    unfold valueLt AtLeast
    split <;> simp
  have gt : ∀ hi, AtMost hi v ↔ valueGt v hi = false := by
    intro hi
    unfold valueGt AtMost
    split <;> simp
  cases x with
  | range lo hi =>
    simp only [runValidator, Meets, lt, gt]
    cases valueLt v lo <;> cases valueGt v hi <;> simp
  | ge lo =>
    simp only [runValidator, Meets, lt]
    cases valueLt v lo <;> simp
  | le hi =>
    simp only [runValidator, Meets, gt]
    cases valueGt v hi <;> simp
  | user id => simp [runValidator, Meets]

theorem validateField_ok {E : Env} {v : Value} : ∀ {xs : List Validator},
    validateField E v xs = .ok () ↔ ∀ x ∈ xs, Meets E v x
  | [] => by simp [validateField]
  | x :: xs => by
    simp only [validateField, List.forall_mem_cons]
    cases h : runValidator E v x with
    | error e =>
      have : ¬ Meets E v x := by rw [← runValidator_ok, h]; simp
      simp [this]
    | ok u =>
      have : Meets E v x := by rw [← runValidator_ok, h]
      simp only [this, true_and]
      exact validateField_ok

theorem thenValidate_ok {E : Env} {f : Field} {r : Res Value} {v : Value} :
    thenValidate E f r = .ok v ↔ r = .ok v ∧ MeetsAll E f v := by
  unfold thenValidate MeetsAll
  cases r with
  | error e => simp
  | ok w =>
    simp only [Except.ok.injEq]
    cases h : validateField E w f.validators with
    | error e =>
      simp only [reduceCtorEq, false_iff]
      rintro ⟨rfl, hm⟩
      rw [validateField_ok.2 hm] at h
      cases h
    | ok u =>
      simp only [Except.ok.injEq]
      constructor
      · rintro rfl; exact ⟨rfl, validateField_ok.1 h⟩
      · exact fun h => h.1

/-! ### Fresh values -/

theorem inRange_zero {t : IT} (hw : t.WF) : t.InRange 0 := by
  have := Json.conv_inRange hw 0
  rwa [conv_zero] at this

theorem fieldOk_iff {f : Field} {t : Ty} : fieldOk f t = true ↔
    HasTy t f.init ∧ (∀ v ∈ f.defaults, HasTy t v) ∧ (f.flatten = true → isRecord t = true) ∧
      (f.extra = true → isMap t = true) := by
  simp only [fieldOk, Bool.and_eq_true, List.all_eq_true, and_assoc]
  cases f.flatten <;> cases f.extra <;> simp

mutual
theorem fresh_typed : ∀ t : Ty, tyOk t = true → HasTy t (fresh t)
  | .leaf .bool, _ => by simp [fresh, HasTy, hasTy, hasLeaf]
  | .leaf (.int t), h => by
    simp only [tyOk, decide_eq_true_eq] at h
    simp [fresh, HasTy, hasTy, hasLeaf, inRange_zero h]
  | .leaf .dbl, _ => by simp [fresh, HasTy, hasTy, hasLeaf]
  | .leaf .str, _ => by simp [fresh, HasTy, hasTy, hasLeaf]
  | .enum e, h => by
    simp only [tyOk] at h
    simp [fresh, HasTy, hasTy, inRange_zero (enumOk_iff.1 h).1]
  | .rawEnum t, h => by
    simp only [tyOk, decide_eq_true_eq] at h
    simp [fresh, HasTy, hasTy, inRange_zero h]
  | .enumSet e, _ => by simp [fresh, HasTy, hasTy, Nat.two_pow_pos]
  | .opt t, _ => by simp [fresh, HasTy, hasTy]
  | .vec t, _ => by simp [fresh, HasTy, hasTy]
  | .arr n t, h => by
    simp only [tyOk] at h
    have := fresh_typed t h
    simp [fresh, HasTy, hasTy]
    exact .inr this
  | .map t, _ => by simp [fresh, HasTy, hasTy, sorted_nil]
  | .tuple _ ts, h => by
    simp only [tyOk] at h
    simp only [fresh, HasTy, hasTy]
    exact freshs_typed ts h
  | .record _ fs, h => by
    simp only [tyOk, Bool.and_eq_true] at h
    simp only [fresh, HasTy, hasTy]
    exact inits_typed fs h.1.1
theorem freshs_typed : ∀ ts : Tys, tysOk ts = true → hasTys ts (freshs ts) = true
  | .nil, _ => by simp [freshs, hasTys]
  | .cons t ts, h => by
    simp only [tysOk, Bool.and_eq_true] at h
    simp [freshs, hasTys, fresh_typed t h.1, freshs_typed ts h.2]
theorem inits_typed : ∀ fs : Fields, fieldsOk fs = true → hasFields fs (inits fs) = true
  | .nil, _ => by simp [inits, hasFields]
  | .cons f t fs, h => by
    simp only [fieldsOk, Bool.and_eq_true] at h
    simp [inits, hasFields, (fieldOk_iff.1 h.1.1).1, inits_typed fs h.2]
end

/-! ### The shape of typed values -/

theorem hasTy_seq {t : Ty} {v : Value} (h : HasTy (.vec t) v) :
    ∃ vs, v = .seq vs ∧ ∀ x ∈ vs, HasTy t x := by
  cases v <;> simp [HasTy, hasTy] at h
  exact ⟨_, rfl, h⟩

theorem hasTy_arr {n : Nat} {t : Ty} {v : Value} (h : HasTy (.arr n t) v) :
    ∃ vs, v = .seq vs ∧ vs.length = n ∧ ∀ x ∈ vs, HasTy t x := by
  cases v <;> simp [HasTy, hasTy] at h
  exact ⟨_, rfl, h⟩

theorem hasTy_tuple {b : Bool} {ts : Tys} {v : Value} (h : HasTy (.tuple b ts) v) :
    ∃ vs, v = .seq vs ∧ hasTys ts vs = true := by
  cases v <;> simp [HasTy, hasTy] at h
  exact ⟨_, rfl, h⟩

theorem hasTy_record {n : Str} {fs : Fields} {v : Value} (h : HasTy (.record n fs) v) :
    ∃ vs, v = .record vs ∧ hasFields fs vs = true := by
  cases v <;> simp [HasTy, hasTy] at h
  exact ⟨_, rfl, h⟩

theorem hasTy_map {t : Ty} {v : Value} (h : HasTy (.map t) v) :
    ∃ es, v = .map es ∧ sorted es = true ∧ ∀ e ∈ es, HasTy t e.2 := by
  cases v <;> simp [HasTy, hasTy] at h
  exact ⟨_, rfl, h.1, fun e he => h.2 e.1 e.2 he⟩

theorem hasTy_opt {t : Ty} {v : Value} (h : HasTy (.opt t) v) :
    v = .opt none ∨ ∃ w, v = .opt (some w) ∧ HasTy t w := by
  cases v <;> simp [HasTy, hasTy] at h
  rename_i o
  cases o with
  | none => exact .inl rfl
  | some w => simp [HasTy, hasTy] at h; exact .inr ⟨w, rfl, h⟩

theorem hasFields_cons {f : Field} {t : Ty} {fs : Fields} {vs : List Value}
    (h : hasFields (.cons f t fs) vs = true) :
    ∃ v ws, vs = v :: ws ∧ HasTy t v ∧ hasFields fs ws = true := by
  cases vs with
  | nil => simp [hasFields] at h
  | cons v ws => simp [hasFields] at h; exact ⟨v, ws, rfl, h.1, h.2⟩

theorem hasFields_nil {vs : List Value} (h : hasFields .nil vs = true) : vs = [] := by
  cases vs with
  | nil => rfl
  | cons v ws => simp [hasFields] at h

theorem hasTys_cons {t : Ty} {ts : Tys} {vs : List Value} (h : hasTys (.cons t ts) vs = true) :
    ∃ v ws, vs = v :: ws ∧ HasTy t v ∧ hasTys ts ws = true := by
  cases vs with
  | nil => simp [hasTys] at h
  | cons v ws => simp [hasTys] at h; exact ⟨v, ws, rfl, h.1, h.2⟩

theorem hasTys_nil {vs : List Value} (h : hasTys .nil vs = true) : vs = [] := by
  cases vs with
  | nil => rfl
  | cons v ws => simp [hasTys] at h

theorem elements_ok {B : Backend σ} {d : Doc σ} {l : List (Doc σ)} :
    elements B d = .ok l ↔ d = .arr l := by
  cases d <;> simp [elements]

theorem members_ok {B : Backend σ} {d : Doc σ} {l : List (Str × Doc σ)} :
    members B d = .ok l ↔ d = .obj l := by
  cases d <;> simp [members]

theorem applyDefault_mem {f : Field} {v : Value} (h : applyDefault f = some v) : v ∈ f.defaults := by
  unfold applyDefault at h
  exact List.mem_of_mem_head? h

theorem missingPolicy_typed {f : Field} {t : Ty} (hf : fieldOk f t = true) {old v : Value}
    (ho : HasTy t old) (h : missingPolicy f old = some v) : HasTy t v := by
  unfold missingPolicy at h
  cases hd : applyDefault f with
  | some w => rw [hd] at h; cases h; exact (fieldOk_iff.1 hf).2.1 _ (applyDefault_mem hd)
  | none =>
    rw [hd] at h
    simp only at h
    split at h <;> cases h
    exact ho

mutual
theorem deser_typed {B : Backend σ} (hB : Lawful B) {E : Env} : ∀ (t : Ty), tyOk t = true →
    ∀ (old v : Value) (d : Doc σ), HasTy t old → deser B E t old d = .ok v → HasTy t v
  | .leaf l, ht, old, v, d, _, h => by
    simp only [deser, map_ok] at h
    obtain ⟨a, h, rfl⟩ := h
    simpa [HasTy, hasTy] using hB.typed l d a ht h
  | .enum e, ht, old, v, d, _, h => by
    simp only [deser, map_ok] at h
    obtain ⟨a, h, rfl⟩ := h
    simp only [tyOk] at ht
    simpa [HasTy, hasTy] using deserEnum_inRange ht h
  | .rawEnum t, ht, old, v, d, _, h => by
    simp only [deser, map_ok] at h
    obtain ⟨a, h, rfl⟩ := h
    have := hB.typed (.int t) d a (by simpa [tyOk] using ht) h
    cases a <;> simp [hasLeaf] at this
    simpa [HasTy, hasTy] using this
  | .enumSet e, ht, old, v, d, _, h => by
    simp only [deser] at h
    cases hl : elements B d with
    | error x => rw [hl] at h; cases h
    | ok l =>
      rw [hl] at h
      simp only [map_ok] at h
      obtain ⟨s, -, rfl⟩ := h
      simp [HasTy, hasTy, s.value.isLt]
  | .opt t, ht, old, v, d, _, h => by
    simp only [tyOk] at ht
    simp only [deser] at h
    split at h
    · cases h; simp [HasTy, hasTy]
    · simp only [map_ok] at h
      obtain ⟨w, h, rfl⟩ := h
      simpa [HasTy, hasTy] using deser_typed hB t ht _ _ _ (fresh_typed t ht) h
  | .vec t, ht, old, v, d, _, h => by
    simp only [tyOk] at ht
    simp only [deser] at h
    cases hl : elements B d with
    | error x => rw [hl] at h; cases h
    | ok l =>
      rw [hl] at h
      simp only [map_ok] at h
      obtain ⟨vs, h, rfl⟩ := h
      rw [deserItems_ok] at h
      simp only [HasTy, hasTy, List.all_eq_true]
      intro x hx
      obtain ⟨d', -, hd⟩ := h.right x hx
      exact deser_typed hB t ht _ _ _ (fresh_typed t ht) hd
  | .arr n t, ht, old, v, d, ho, h => by
    simp only [tyOk] at ht
    obtain ⟨olds, rfl, hlen, hall⟩ := hasTy_arr ho
    simp only [deser] at h
    cases hl : elements B d with
    | error x => rw [hl] at h; cases h
    | ok l =>
      rw [hl] at h
      simp only at h
      split at h
      · cases h
      simp only [map_ok] at h
      obtain ⟨vs, h, rfl⟩ := h
      rw [deserFixed_ok] at h
      simp only [HasTy, hasTy, List.all_eq_true, Bool.and_eq_true, decide_eq_true_eq]
      refine ⟨by rw [← h.1]; exact hlen, ?_⟩
      intro x hx
      obtain ⟨j, hj, hx⟩ := List.getElem_of_mem hx
      have hj' : j < olds.length := by rw [h.1]; exact hj
      exact deser_typed hB t ht olds[j] x _ (hall _ (List.getElem_mem hj'))
        (h.2 j _ _ (by simp [hj']) (by rw [← hx]; simp [hj]))
  | .map t, ht, old, v, d, _, h => by
    simp only [tyOk] at ht
    simp only [deser] at h
    cases hl : members B d with
    | error x => rw [hl] at h; cases h
    | ok ms =>
      rw [hl] at h
      simp only [map_ok] at h
      obtain ⟨es, h, rfl⟩ := h
      rw [deserEntries_ok] at h
      simp only [HasTy, hasTy, List.all_eq_true, Bool.and_eq_true]
      refine ⟨h.2.1, ?_⟩
      rintro ⟨k, w⟩ hx
      obtain ⟨d', -, hd⟩ := (h.2.2 k w).1 hx
      exact deser_typed hB t ht _ _ _ (fresh_typed t ht) hd
  | .tuple b ts, ht, old, v, d, ho, h => by
    simp only [tyOk] at ht
    obtain ⟨olds, rfl, hall⟩ := hasTy_tuple ho
    simp only [deser] at h
    cases hl : elements B d with
    | error x => rw [hl] at h; cases h
    | ok l =>
      rw [hl] at h
      simp only at h
      split at h
      · cases h
      simp only [map_ok] at h
      obtain ⟨vs, h, rfl⟩ := h
      simp only [HasTy, hasTy]
      exact deserTuple_typed hB l ts ht _ _ _ hall h
  | .record n fs, ht, old, v, d, ho, h => by
    simp only [tyOk, Bool.and_eq_true] at ht
    obtain ⟨olds, rfl, hall⟩ := hasTy_record ho
    simp only [deser, note_ok] at h
    cases d with
    | obj ms =>
      simp only at h
      cases hr : reservedNames fs with
      | error e => rw [hr] at h; cases h
      | ok r =>
        rw [hr] at h
        simp only [map_ok] at h
        obtain ⟨vs, h, rfl⟩ := h
        simp only [HasTy, hasTy]
        exact deserFields_typed hB r ms fs ht.1.1 _ _ hall h
    | arr l =>
      simp only at h
      split at h
      · cases h
      simp only [map_ok] at h
      obtain ⟨vs, h, rfl⟩ := h
      simp only [HasTy, hasTy]
      exact deserSeqFields_typed hB l fs ht.1.1 _ _ _ hall h
    | null => cases h
    | scalar s => cases h
theorem deserTuple_typed {B : Backend σ} (hB : Lawful B) {E : Env} (l : List (Doc σ)) :
    ∀ (ts : Tys), tysOk ts = true → ∀ (i : Nat) (olds vs : List Value), hasTys ts olds = true →
    deserTuple B E l ts i olds = .ok vs → hasTys ts vs = true
  | .nil, _, i, olds, vs, ho, h => by
    rw [hasTys_nil ho] at h
    simp only [deserTuple, Except.ok.injEq] at h
    subst h; simp [hasTys]
  | .cons t ts, ht, i, olds, vs, ho, h => by
    simp only [tysOk, Bool.and_eq_true] at ht
    obtain ⟨o, os, rfl, h1, h2⟩ := hasTys_cons ho
    simp only [deserTuple] at h
    cases hd : deser B E t o (atIndex l i) with
    | error e => rw [hd] at h; cases h
    | ok v =>
      rw [hd] at h
      simp only [map_ok] at h
      obtain ⟨ws, h, rfl⟩ := h
      simp only [hasTys, Bool.and_eq_true]
      exact ⟨deser_typed hB t ht.1 _ _ _ h1 hd, deserTuple_typed hB l ts ht.2 _ _ _ h2 h⟩
theorem deserFields_typed {B : Backend σ} (hB : Lawful B) {E : Env} (r : Option (List Str))
    (ms : List (Str × Doc σ)) : ∀ (fs : Fields), fieldsOk fs = true → ∀ (olds vs : List Value),
    hasFields fs olds = true → deserFields B E r ms fs olds = .ok vs → hasFields fs vs = true
  | .nil, _, olds, vs, ho, h => by
    rw [hasFields_nil ho] at h
    simp only [deserFields, Except.ok.injEq] at h
    subst h; simp [hasFields]
  | .cons f t fs, ht, olds, vs, ho, h => by
    simp only [fieldsOk, Bool.and_eq_true] at ht
    obtain ⟨o, os, rfl, h1, h2⟩ := hasFields_cons ho
    simp only [deserFields] at h
    split at h
    · cases h
    rename_i v hv
    simp only [map_ok] at h
    obtain ⟨ws, h, rfl⟩ := h
    simp only [hasFields, Bool.and_eq_true]
    refine ⟨?_, deserFields_typed hB r ms fs ht.2 _ _ h2 h⟩
    by_cases c1 : f.skipDeser = true
    · rw [if_pos c1] at hv; cases hv; exact h1
    rw [if_neg c1] at hv
    by_cases c2 : f.extra = true
    · rw [if_pos c2] at hv
      exact deserExtras_typed hB r ms t ht.1.2 _ hv
    rw [if_neg c2, note_ok] at hv
    by_cases c3 : f.flatten = true
    · rw [if_pos c3] at hv
      exact deser_typed hB t ht.1.2 _ _ _ h1 hv
    rw [if_neg c3, readPlain] at hv
    split at hv
    · split at hv
      · cases hv
        rename_i hm
        exact missingPolicy_typed ht.1.1 h1 hm
      · exact deser_typed hB t ht.1.2 _ _ _ h1 (thenValidate_ok.1 hv).1
    · split at hv
      · cases hv
        rename_i hm
        split at hm
        · exact (fieldOk_iff.1 ht.1.1).2.1 _ (applyDefault_mem hm)
        · cases hm
      · exact deser_typed hB t ht.1.2 _ _ _ h1 (thenValidate_ok.1 hv).1
theorem deserExtras_typed {B : Backend σ} (hB : Lawful B) {E : Env} (r : Option (List Str))
    (ms : List (Str × Doc σ)) : ∀ (t : Ty), tyOk t = true → ∀ (v : Value),
    deserExtras B E r ms t = .ok v → HasTy t v
  | .map t, ht, v, h => by
    simp only [tyOk] at ht
    simp only [deserExtras] at h
    cases r with
    | none => cases h
    | some names =>
      simp only [map_ok] at h
      obtain ⟨es, h, rfl⟩ := h
      rw [deserExtraEntries_ok] at h
      simp only [HasTy, hasTy, List.all_eq_true, Bool.and_eq_true]
      refine ⟨h.2.1, ?_⟩
      rintro ⟨k, w⟩ hx
      obtain ⟨-, d', -, hd⟩ := (h.2.2 k w).1 hx
      exact deser_typed hB t ht _ _ _ (fresh_typed t ht) hd
  | .leaf _, _, v, h | .enum _, _, v, h | .rawEnum _, _, v, h | .enumSet _, _, v, h
  | .opt _, _, v, h | .vec _, _, v, h | .arr _ _, _, v, h | .record _ _, _, v, h
  | .tuple _ _, _, v, h => by cases h
theorem deserSeqFields_typed {B : Backend σ} (hB : Lawful B) {E : Env} (l : List (Doc σ)) :
    ∀ (fs : Fields), fieldsOk fs = true → ∀ (i : Nat) (olds vs : List Value),
    hasFields fs olds = true → deserSeqFields B E l fs i olds = .ok vs → hasFields fs vs = true
  | .nil, _, i, olds, vs, ho, h => by
    rw [hasFields_nil ho] at h
    simp only [deserSeqFields, Except.ok.injEq] at h
    subst h; simp [hasFields]
  | .cons f t fs, ht, i, olds, vs, ho, h => by
    simp only [fieldsOk, Bool.and_eq_true] at ht
    obtain ⟨o, os, rfl, h1, h2⟩ := hasFields_cons ho
    simp only [deserSeqFields] at h
    by_cases c1 : f.skipDeser = true
    · rw [if_pos c1] at h
      simp only [map_ok] at h
      obtain ⟨ws, h, rfl⟩ := h
      simp only [hasFields, Bool.and_eq_true]
      exact ⟨h1, deserSeqFields_typed hB l fs ht.2 _ _ _ h2 h⟩
    rw [if_neg c1] at h
    split at h
    · cases h
    rename_i v hv
    simp only [map_ok] at h
    obtain ⟨ws, h, rfl⟩ := h
    simp only [hasFields, Bool.and_eq_true]
    refine ⟨?_, deserSeqFields_typed hB l fs ht.2 _ _ _ h2 h⟩
    rw [note_ok] at hv
    split at hv
    · cases hv
    split at hv
    · cases hv
    exact deser_typed hB t ht.1.2 _ _ _ h1 (thenValidate_ok.1 hv).1
end

/-! ### patch -/

theorem patch_other {B : Backend σ} {E : Env} {t : Ty} (h1 : ∀ n fs, t ≠ .record n fs)
    (h2 : ∀ u, t ≠ .opt u) (old : Value) (d : Doc σ) : patch B E t old d = deser B E t old d := by
  cases t <;> try rfl
  · exact absurd rfl (h2 _)
  · exact absurd rfl (h1 _ _)

theorem patchExtraEntries_inv {p : Value → Doc σ → Res Value} {new : Value} {r : List Str}
    (P : Value → Prop) (hnew : P new) (hp : ∀ v d w, P v → p v d = .ok w → P w) :
    ∀ {ms : List (Str × Doc σ)} {out es : List (Str × Value)},
    sorted out = true → (∀ e ∈ out, P e.2) → patchExtraEntries p new r ms out = .ok es →
    sorted es = true ∧ ∀ e ∈ es, P e.2
  | [], out, es, ho, hP, h => by
    simp only [patchExtraEntries, Except.ok.injEq] at h; subst h; exact ⟨ho, hP⟩
  | (k, d) :: ms, out, es, ho, hP, h => by
    simp only [patchExtraEntries] at h
    split at h
    · exact patchExtraEntries_inv P hnew hp ho hP h
    · cases hl : lookup out k with
      | some v =>
        rw [hl] at h
        simp only at h
        have hv : P v := hP (k, v) (lookup_some.1 hl).mem
        cases hd : p v d with
        | error e => rw [hd] at h; cases h
        | ok w =>
          rw [hd] at h
          simp only [note] at h
          refine patchExtraEntries_inv P hnew hp (assignEntry_sorted ho) ?_ h
          intro e he
          rcases (assignEntry_mem ho e).1 he with ⟨he, -⟩ | ⟨rfl, -⟩
          · exact hP e he
          · exact hp _ _ _ hv hd
      | none =>
        rw [hl] at h
        simp only at h
        cases hd : p new d with
        | error e => rw [hd] at h; cases h
        | ok w =>
          rw [hd] at h
          simp only [note] at h
          refine patchExtraEntries_inv P hnew hp (emplace_sorted k w ho) ?_ h
          intro e he
          rcases (emplace_mem k w e ho).1 he with he | ⟨rfl, -⟩
          · exact hP e he
          · exact hp _ _ _ hnew hd

mutual
theorem patch_typed {B : Backend σ} (hB : Lawful B) {E : Env} : ∀ (t : Ty), tyOk t = true →
    ∀ (old v : Value) (d : Doc σ), HasTy t old → patch B E t old d = .ok v → HasTy t v
  | .opt t, ht, old, v, d, ho, h => by
    simp only [tyOk] at ht
    simp only [patch] at h
    split at h
    · cases h; simp [HasTy, hasTy]
    · rcases hasTy_opt ho with rfl | ⟨w, rfl, hw⟩
      · simp only [map_ok] at h
        obtain ⟨w, h, rfl⟩ := h
        simpa [HasTy, hasTy] using patch_typed hB t ht _ _ _ (fresh_typed t ht) h
      · simp only [map_ok] at h
        obtain ⟨w', h, rfl⟩ := h
        simpa [HasTy, hasTy] using patch_typed hB t ht _ _ _ hw h
  | .record n fs, ht, old, v, d, ho, h => by
    simp only [patch, note_ok] at h
    have hd : ∀ d', deser B E (.record n fs) old d' = .ok v → HasTy (.record n fs) v :=
      fun d' h' => deser_typed hB (.record n fs) ht _ _ _ ho h'
    simp only [tyOk, Bool.and_eq_true] at ht
    obtain ⟨olds, rfl, hall⟩ := hasTy_record ho
    cases d with
    | obj ms =>
      simp only at h
      cases hr : reservedNames fs with
      | error e => rw [hr] at h; cases h
      | ok r =>
        rw [hr] at h
        simp only [map_ok] at h
        obtain ⟨vs, h, rfl⟩ := h
        simp only [HasTy, hasTy]
        exact patchFields_typed hB r ms fs ht.1.1 _ _ hall h
    | arr l => exact hd _ h
    | null => exact hd _ h
    | scalar s => exact hd _ h
  | .leaf _, ht, old, v, d, ho, h | .enum _, ht, old, v, d, ho, h | .rawEnum _, ht, old, v, d, ho, h
  | .enumSet _, ht, old, v, d, ho, h | .vec _, ht, old, v, d, ho, h | .arr _ _, ht, old, v, d, ho, h
  | .map _, ht, old, v, d, ho, h | .tuple _ _, ht, old, v, d, ho, h => by
    rw [patch_other (by simp) (by simp)] at h
    exact deser_typed hB _ ht _ _ _ ho h
theorem patchFields_typed {B : Backend σ} (hB : Lawful B) {E : Env} (r : Option (List Str))
    (ms : List (Str × Doc σ)) : ∀ (fs : Fields), fieldsOk fs = true → ∀ (olds vs : List Value),
    hasFields fs olds = true → patchFields B E r ms fs olds = .ok vs → hasFields fs vs = true
  | .nil, _, olds, vs, ho, h => by
    rw [hasFields_nil ho] at h
    simp only [patchFields, Except.ok.injEq] at h
    subst h; simp [hasFields]
  | .cons f t fs, ht, olds, vs, ho, h => by
    simp only [fieldsOk, Bool.and_eq_true] at ht
    obtain ⟨o, os, rfl, h1, h2⟩ := hasFields_cons ho
    simp only [patchFields] at h
    split at h
    · cases h
    rename_i v hv
    simp only [map_ok] at h
    obtain ⟨ws, h, rfl⟩ := h
    simp only [hasFields, Bool.and_eq_true]
    refine ⟨?_, patchFields_typed hB r ms fs ht.2 _ _ h2 h⟩
    by_cases c1 : f.skipDeser = true
    · rw [if_pos c1] at hv; cases hv; exact h1
    rw [if_neg c1] at hv
    by_cases c2 : f.extra = true
    · rw [if_pos c2] at hv
      exact patchExtras_typed hB r ms t ht.1.2 _ _ h1 hv
    rw [if_neg c2, note_ok] at hv
    by_cases c3 : f.flatten = true
    · rw [if_pos c3] at hv
      exact patch_typed hB t ht.1.2 _ _ _ h1 hv
    rw [if_neg c3, patchPlain] at hv
    split at hv
    · cases hv; exact h1
    · split at hv
      · cases hv
        rename_i hm
        split at hm
        · exact (fieldOk_iff.1 ht.1.1).2.1 _ (applyDefault_mem hm)
        · cases hm
      · exact patch_typed hB t ht.1.2 _ _ _ h1 (thenValidate_ok.1 hv).1
theorem patchExtras_typed {B : Backend σ} (hB : Lawful B) {E : Env} (r : Option (List Str))
    (ms : List (Str × Doc σ)) : ∀ (t : Ty), tyOk t = true → ∀ (old v : Value), HasTy t old →
    patchExtras B E r ms t old = .ok v → HasTy t v
  | .map t, ht, old, v, ho, h => by
    simp only [tyOk] at ht
    obtain ⟨es, rfl, hs, hall⟩ := hasTy_map ho
    simp only [patchExtras] at h
    cases r with
    | none => cases h
    | some names =>
      simp only [map_ok] at h
      obtain ⟨es', h, rfl⟩ := h
      have := patchExtraEntries_inv (HasTy t) (fresh_typed t ht)
        (fun v d w hv hw => patch_typed hB t ht v w d hv hw) hs hall h
      simp only [HasTy, hasTy, List.all_eq_true, Bool.and_eq_true]
      exact this
  | .leaf _, _, _, v, _, h | .enum _, _, _, v, _, h | .rawEnum _, _, _, v, _, h
  | .enumSet _, _, _, v, _, h | .opt _, _, _, v, _, h | .vec _, _, _, v, _, h
  | .arr _ _, _, _, v, _, h | .record _ _, _, _, v, _, h | .tuple _ _, _, _, v, _, h => by cases h
end

end Verif.Serial
