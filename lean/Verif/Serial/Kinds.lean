import Verif.Serial.Valid
/-
Which exceptions `deserialize` and `patch` throw.
-/
namespace Verif.Serial
open Verif.Path Verif.Enums Spec

variable {σ : Type}

theorem Spec.Throwable.imp {E : Env} {p q : Prop} {e : Exc} (h : Throwable E p e) (hqp : q → p) :
    Throwable E q e := by
  rcases h with h | ⟨h1, h2⟩ | h
  · exact .inl h
  · exact .inr (.inl ⟨h1, fun h => h2 (hqp h)⟩)
  · exact .inr (.inr h)

theorem Spec.Throwable.add {E : Env} {p : Prop} {e : Exc} {m : Str} (h : Throwable E p e) :
    Throwable E p (e.add m) := by
  cases e with
  | deser w => exact .inl ⟨_, rfl⟩
  | logic w => exact h
  | other n => exact h
  | stuck => exact h

theorem note_kind {α : Type} {E : Env} {p : Prop} {e : Exc} {m : Str} {r : Res α} (h : note m r = .error e)
    (hr : ∀ e, r = .error e → Throwable E p e) : Throwable E p e := by
  cases r with
  | ok a => simp [note] at h
  | error e' =>
    simp only [note, Except.error.injEq] at h
    subst h
    exact (hr e' rfl).add

theorem validate_kind {E : Env} {p : Prop} {v : Value} {e : Exc} : ∀ {xs : List Validator},
    validateField E v xs = .error e → Throwable E p e
  | [], h => by cases h
  | x :: xs, h => by
    simp only [validateField] at h
    cases hx : runValidator E v x with
    | ok u => rw [hx] at h; exact validate_kind h
    | error e' =>
      rw [hx] at h
      cases h
      cases x with
      | user id => exact .inr (.inr ⟨id, v, hx⟩)
      | range lo hi => simp only [runValidator] at hx; split at hx <;> cases hx; exact .inl ⟨_, rfl⟩
      | ge lo => simp only [runValidator] at hx; split at hx <;> cases hx; exact .inl ⟨_, rfl⟩
      | le hi => simp only [runValidator] at hx; split at hx <;> cases hx; exact .inl ⟨_, rfl⟩

theorem thenValidate_kind {E : Env} {p : Prop} {f : Field} {r : Res Value} {e : Exc}
    (h : thenValidate E f r = .error e) (hr : ∀ e, r = .error e → Throwable E p e) : Throwable E p e := by
  cases r with
  | error e' => simp only [thenValidate, Except.error.injEq] at h; exact hr e (by rw [h])
  | ok v =>
    simp only [thenValidate] at h
    cases hv : validateField E v f.validators with
    | error e' => rw [hv] at h; cases h; exact validate_kind hv
    | ok u => rw [hv] at h; cases h

theorem readPlain_kind {E : Env} {p : Prop} {f : Field} {ms : List (Str × Doc σ)} {o : Value}
    {r : Doc σ → Res Value} {e : Exc} (h : readPlain E f ms o r = .error e)
    (hr : ∀ d e, r d = .error e → Throwable E p e) : Throwable E p e := by
  unfold readPlain at h
  split at h
  · split at h
    · cases h
    · exact thenValidate_kind h (hr _)
  · split at h
    · cases h
    · exact thenValidate_kind h (hr _)

theorem patchPlain_kind {E : Env} {p : Prop} {f : Field} {ms : List (Str × Doc σ)} {o : Value}
    {r : Doc σ → Res Value} {e : Exc} (h : patchPlain E f ms o r = .error e)
    (hr : ∀ d e, r d = .error e → Throwable E p e) : Throwable E p e := by
  unfold patchPlain at h
  split at h
  · cases h
  · split at h
    · cases h
    · exact thenValidate_kind h (hr _)

theorem enum_kind {B : Backend σ} (hB : Lawful B) {e : EnumTy} {d : Doc σ} {x : Exc}
    (h : deserEnum B e d = .error x) : ∃ w, x = .deser w := by
  unfold deserEnum at h
  split at h
  · rename_i y hy
    cases h
    exact hB.polite _ _ _ hy
  · split at h
    · cases h
    · cases h; exact ⟨_, rfl⟩
  · rename_i a ha hn
    have := hB.typed .str d a (by simp [tyOk]) hn
    cases a <;> simp [hasLeaf] at this
    exact absurd rfl (ha _)

theorem reserved_kind {E : Env} {fs : Fields} (hf : fieldsOk fs = true) {e : Exc}
    (h : reservedNames fs = .error e) : Throwable E (NamesChecked fs) e := by
  refine .inr (.inl ⟨reservedNames_err hf h, fun hn => ?_⟩)
  obtain ⟨r, hr⟩ := namesChecked_ok hf hn
  rw [hr] at h; cases h

mutual
theorem deser_kind {B : Backend σ} (hB : Lawful B) {E : Env} : ∀ (t : Ty), tyOk t = true →
    ∀ (o : Value) (d : Doc σ) (e : Exc), HasTy t o → deser B E t o d = .error e →
    Throwable E (AllChecked t) e
  | .leaf l, _, o, d, e, _, h => by
    simp only [deser, map_error] at h
    exact .inl (hB.polite _ _ _ h)
  | .enum _, _, o, d, e, _, h => by
    simp only [deser, map_error] at h
    exact .inl (enum_kind hB h)
  | .rawEnum l, _, o, d, e, _, h => by
    simp only [deser, map_error] at h
    exact .inl (hB.polite _ _ _ h)
  | .enumSet _, _, o, d, e, _, h => by
    simp only [deser] at h
    split at h
    · rename_i x hx
      cases h
      exact .inl ⟨_, (elements_err.1 hx).2⟩
    · simp only [map_error, deserSet_err] at h
      obtain ⟨i, d, -, h⟩ := h
      exact .inl (enum_kind hB h)
  | .opt t, ht, o, d, e, _, h => by
    simp only [tyOk] at ht
    simp only [deser] at h
    split at h
    · cases h
    · simp only [map_error] at h
      simp only [AllChecked]
      exact deser_kind hB t ht _ d e (fresh_typed t ht) h
  | .vec t, ht, o, d, e, _, h => by
    simp only [tyOk] at ht
    simp only [deser] at h
    split at h
    · rename_i x hx
      cases h
      exact .inl ⟨_, (elements_err.1 hx).2⟩
    · simp only [map_error, deserItems_err] at h
      obtain ⟨i, d, e', -, h, rfl⟩ := h
      simp only [AllChecked]
      exact (deser_kind hB t ht _ d e' (fresh_typed t ht) h).add
  | .arr n t, ht, o, d, e, ho, h => by
    simp only [tyOk] at ht
    obtain ⟨os, rfl, -, hos⟩ := hasTy_arr ho
    simp only [deser] at h
    split at h
    · rename_i x hx
      cases h
      exact .inl ⟨_, (elements_err.1 hx).2⟩
    · split at h
      · cases h; exact .inl ⟨_, rfl⟩
      simp only [map_error, deserFixed_err] at h
      obtain ⟨i, o, e', h1, h, rfl⟩ := h
      simp only [AllChecked]
      exact (deser_kind hB t ht o _ e' (hos o h1.mem) h).add
  | .map t, ht, o, d, e, ho, h => by
    simp only [tyOk] at ht
    simp only [deser] at h
    split at h
    · rename_i x hx
      cases h
      exact .inl ⟨_, (members_err.1 hx).2⟩
    · simp only [map_error, deserEntries_err] at h
      obtain ⟨i, k, d, e', -, h, rfl⟩ := h
      simp only [AllChecked]
      exact (deser_kind hB t ht _ d e' (fresh_typed t ht) h).add
  | .tuple b ts, ht, o, d, e, ho, h => by
    simp only [tyOk] at ht
    obtain ⟨os, rfl, hos⟩ := hasTy_tuple ho
    simp only [deser] at h
    split at h
    · rename_i x hx
      cases h
      exact .inl ⟨_, (elements_err.1 hx).2⟩
    · split at h
      · cases h; exact .inl ⟨_, rfl⟩
      simp only [map_error] at h
      simp only [AllChecked]
      exact deserTuple_kind hB _ ts ht _ os e hos h
  | .record n fs, ht, o, d, e, ho, h => by
    simp only [tyOk, Bool.and_eq_true] at ht
    obtain ⟨os, rfl, hos⟩ := hasTy_record ho
    simp only [deser] at h
    refine note_kind h ?_
    intro e h
    simp only [AllChecked]
    split at h
    · split at h
      · rename_i e' hr
        cases h
        exact (reserved_kind ht.1.1 hr).imp fun h => h.1
      · rename_i r hr
        simp only [map_error] at h
        exact (deserFields_kind hB fs ht.1.1 r _ os e (reservedFor ht.1.1 hr).2 hos h).imp fun h => h.2
    · split at h
      · cases h; exact .inl ⟨_, rfl⟩
      · simp only [map_error] at h
        exact (deserSeq_kind hB fs ht.1.1 _ 0 os e hos h).imp fun h => h.2
    · cases h; exact .inl ⟨_, rfl⟩
theorem deserTuple_kind {B : Backend σ} (hB : Lawful B) {E : Env} (l : List (Doc σ)) : ∀ (ts : Tys),
    tysOk ts = true → ∀ (i : Nat) (os : List Value) (e : Exc), hasTys ts os = true →
    deserTuple B E l ts i os = .error e → Throwable E (AllCheckedTys ts) e
  | .nil, _, i, os, e, ho, h => by
    rw [hasTys_nil ho] at h; simp [deserTuple] at h
  | .cons t ts, ht, i, os, e, ho, h => by
    simp only [tysOk, Bool.and_eq_true] at ht
    obtain ⟨o, os, rfl, h1, h2⟩ := hasTys_cons ho
    simp only [deserTuple] at h
    simp only [AllCheckedTys]
    split at h
    · rename_i e' he
      cases h
      exact (deser_kind hB t ht.1 o _ _ h1 he).imp fun h => h.1
    · simp only [map_error] at h
      exact (deserTuple_kind hB l ts ht.2 _ os e h2 h).imp fun h => h.2
theorem deserFields_kind {B : Backend σ} (hB : Lawful B) {E : Env} : ∀ (fs : Fields),
    fieldsOk fs = true → ∀ {names : List Str} (r : Option (List Str)) (ms : List (Str × Doc σ))
    (os : List Value) (e : Exc), ReservedFor r names fs → hasFields fs os = true →
    deserFields B E r ms fs os = .error e → Throwable E (AllCheckedFields fs) e
  | .nil, _, names, r, ms, os, e, _, ho, h => by
    rw [hasFields_nil ho] at h; simp [deserFields] at h
  | .cons f t fs, hf, names, r, ms, os, e, hr, ho, h => by
    simp only [fieldsOk, Bool.and_eq_true] at hf
    have ih := deser_kind hB (E := E) t hf.1.2
    have ihx := deserExtras_kind hB (E := E) t hf.1.2
    obtain ⟨o, os, rfl, h1, h2⟩ := hasFields_cons ho
    simp only [deserFields] at h
    simp only [AllCheckedFields]
    split at h
    · rename_i e' he
      cases h
      refine Throwable.imp (p := AllChecked t) ?_ fun h => h.1
      by_cases c1 : f.skipDeser = true
      · rw [if_pos c1] at he; cases he
      rw [if_neg c1] at he
      by_cases c2 : f.extra = true
      · rw [if_pos c2] at he
        obtain ⟨l, rfl, -⟩ := hr.extra c2
        exact ihx l ms e ((fieldOk_iff.1 hf.1.1).2.2.2 c2) he
      rw [if_neg c2] at he
      refine note_kind he ?_
      intro e he
      by_cases c3 : f.flatten = true
      · rw [if_pos c3] at he
        exact ih o _ e h1 he
      · rw [if_neg c3] at he
        exact readPlain_kind he fun d e h => ih o d e h1 h
    · simp only [map_error] at h
      exact (deserFields_kind hB fs hf.2 r ms os e hr.tail h2 h).imp fun h => h.2
theorem deserExtras_kind {B : Backend σ} (hB : Lawful B) {E : Env} : ∀ (t : Ty), tyOk t = true →
    ∀ (l : List Str) (ms : List (Str × Doc σ)) (e : Exc), isMap t = true →
    deserExtras B E (some l) ms t = .error e → Throwable E (AllChecked t) e
  | .map t, ht, l, ms, e, _, h => by
    simp only [tyOk] at ht
    simp only [deserExtras, map_error, deserExtraEntries_err] at h
    obtain ⟨i, k, d, e', -, -, h, rfl⟩ := h
    simp only [AllChecked]
    exact (deser_kind hB t ht _ d e' (fresh_typed t ht) h).add
  | .leaf _, _, _, _, _, h, _ | .enum _, _, _, _, _, h, _ | .rawEnum _, _, _, _, _, h, _
  | .enumSet _, _, _, _, _, h, _ | .opt _, _, _, _, _, h, _ | .vec _, _, _, _, _, h, _
  | .arr _ _, _, _, _, _, h, _ | .record _ _, _, _, _, _, h, _ | .tuple _ _, _, _, _, _, h, _ => by
    simp [isMap] at h
theorem deserSeq_kind {B : Backend σ} (hB : Lawful B) {E : Env} : ∀ (fs : Fields),
    fieldsOk fs = true → ∀ (l : List (Doc σ)) (i : Nat) (os : List Value) (e : Exc),
    hasFields fs os = true → deserSeqFields B E l fs i os = .error e → Throwable E (AllCheckedFields fs) e
  | .nil, _, l, i, os, e, ho, h => by
    rw [hasFields_nil ho] at h; simp [deserSeqFields] at h
  | .cons f t fs, hf, l, i, os, e, ho, h => by
    simp only [fieldsOk, Bool.and_eq_true] at hf
    have ih := deser_kind hB (E := E) t hf.1.2
    obtain ⟨o, os, rfl, h1, h2⟩ := hasFields_cons ho
    simp only [deserSeqFields] at h
    simp only [AllCheckedFields]
    by_cases hs : f.skipDeser = true
    · rw [if_pos hs, map_error] at h
      exact (deserSeq_kind hB fs hf.2 l i os e h2 h).imp fun h => h.2
    · rw [if_neg hs] at h
      split at h
      · rename_i e' he
        cases h
        refine Throwable.imp (p := AllChecked t) ?_ fun h => h.1
        refine note_kind he ?_
        intro e he
        split at he
        · cases he; exact .inl ⟨_, rfl⟩
        split at he
        · cases he; exact .inl ⟨_, rfl⟩
        exact thenValidate_kind he fun e h => ih o _ e h1 h
      · simp only [map_error] at h
        exact (deserSeq_kind hB fs hf.2 l _ os e h2 h).imp fun h => h.2
end

/-! ### patch -/

theorem lookup_mem {α : Type} {es : List (Str × α)} {k : Str} {v : α} (h : lookup es k = some v) :
    ∃ k', (k', v) ∈ es := by
  induction es with
  | nil => cases h
  | cons e es ih =>
    simp only [lookup] at h
    split at h
    · cases h; exact ⟨e.1, by simp⟩
    · obtain ⟨k', h⟩ := ih h; exact ⟨k', by simp [h]⟩

theorem emplace_all {α : Type} {P : α → Prop} {es : List (Str × α)} {k : Str} {v : α} (h : ∀ e ∈ es, P e.2)
    (hv : P v) : ∀ e ∈ emplace es k v, P e.2 := by
  induction es with
  | nil => simpa [emplace] using hv
  | cons e es ih =>
    simp only [emplace]
    split
    · intro x hx
      rcases List.mem_cons.1 hx with rfl | hx
      · exact hv
      · exact h x hx
    split
    · exact h
    · intro x hx
      rcases List.mem_cons.1 hx with rfl | hx
      · exact h x (by simp)
      · exact ih (fun e he => h e (by simp [he])) x hx

theorem assign_all {α : Type} {P : α → Prop} {es : List (Str × α)} {k : Str} {v : α} (h : ∀ e ∈ es, P e.2)
    (hv : P v) : ∀ e ∈ assignEntry es k v, P e.2 := by
  induction es with
  | nil => simp [assignEntry]
  | cons e es ih =>
    simp only [assignEntry]
    split
    · intro x hx
      rcases List.mem_cons.1 hx with rfl | hx
      · exact hv
      · exact h x (by simp [hx])
    · intro x hx
      rcases List.mem_cons.1 hx with rfl | hx
      · exact h x (by simp)
      · exact ih (fun e he => h e (by simp [he])) x hx

theorem patchExtraEntries_kind {p : Value → Doc σ → Res Value} {new : Value} {r : List Str} {P : Value → Prop}
    {K : Exc → Prop} (hadd : ∀ e m, K e → K (e.add m)) (hok : ∀ v d w, P v → p v d = .ok w → P w)
    (herr : ∀ v d e, P v → p v d = .error e → K e) (hn : P new) {e : Exc} : ∀ {ms : List (Str × Doc σ)}
    {out : List (Str × Value)}, (∀ x ∈ out, P x.2) → patchExtraEntries p new r ms out = .error e → K e
  | [], out, _, h => by cases h
  | (k, d) :: ms, out, ho, h => by
    have step : ∀ v m, P v → ∀ e, note m (p v d) = .error e → K e := by
      intro v m hv e h
      cases hp : p v d with
      | ok w => rw [hp] at h; simp [note] at h
      | error e' =>
        rw [hp] at h
        simp only [note, Except.error.injEq] at h
        subst h
        exact hadd _ _ (herr v d e' hv hp)
    simp only [patchExtraEntries] at h
    split at h
    · exact patchExtraEntries_kind hadd hok herr hn ho h
    · split at h
      · rename_i v hv
        obtain ⟨k', hk⟩ := lookup_mem hv
        split at h
        · rename_i e' he
          cases h
          exact step _ _ (ho _ hk) _ he
        · rename_i w hw
          exact patchExtraEntries_kind hadd hok herr hn
            (assign_all ho (hok _ _ _ (ho _ hk) (note_ok.1 hw))) h
      · split at h
        · rename_i e' he
          cases h
          exact step _ _ hn _ he
        · rename_i w hw
          exact patchExtraEntries_kind hadd hok herr hn
            (emplace_all ho (hok _ _ _ hn (note_ok.1 hw))) h

mutual
theorem patch_kind {B : Backend σ} (hB : Lawful B) {E : Env} : ∀ (t : Ty), tyOk t = true →
    ∀ (o : Value) (d : Doc σ) (e : Exc), HasTy t o → patch B E t o d = .error e →
    Throwable E (AllChecked t) e
  | .opt t, ht, o, d, e, ho, h => by
    simp only [tyOk] at ht
    simp only [patch] at h
    split at h
    · cases h
    · simp only [AllChecked]
      rcases hasTy_opt ho with rfl | ⟨w, rfl, hw⟩
      · simp only [map_error] at h
        exact patch_kind hB t ht _ d e (fresh_typed t ht) h
      · simp only [map_error] at h
        exact patch_kind hB t ht w d e hw h
  | .record n fs, ht, o, d, e, ho, h => by
    have ht' := ht
    simp only [tyOk, Bool.and_eq_true] at ht
    obtain ⟨os, rfl, hos⟩ := hasTy_record ho
    simp only [patch] at h
    refine note_kind h ?_
    intro e h
    split at h
    · simp only [AllChecked]
      split at h
      · rename_i e' hr
        cases h
        exact (reserved_kind ht.1.1 hr).imp fun h => h.1
      · rename_i r hr
        simp only [map_error] at h
        exact (patchFields_kind hB fs ht.1.1 r _ os e (reservedFor ht.1.1 hr).2 hos h).imp fun h => h.2
    · exact deser_kind hB (.record n fs) ht' _ _ _ ho h
  | .leaf l, ht, o, d, e, ho, h => deser_kind hB _ ht o d e ho (by simpa only [patch] using h)
  | .enum l, ht, o, d, e, ho, h => deser_kind hB _ ht o d e ho (by simpa only [patch] using h)
  | .rawEnum l, ht, o, d, e, ho, h => deser_kind hB _ ht o d e ho (by simpa only [patch] using h)
  | .enumSet l, ht, o, d, e, ho, h => deser_kind hB _ ht o d e ho (by simpa only [patch] using h)
  | .vec l, ht, o, d, e, ho, h => deser_kind hB _ ht o d e ho (by simpa only [patch] using h)
  | .arr _ l, ht, o, d, e, ho, h => deser_kind hB _ ht o d e ho (by simpa only [patch] using h)
  | .map l, ht, o, d, e, ho, h => deser_kind hB _ ht o d e ho (by simpa only [patch] using h)
  | .tuple _ l, ht, o, d, e, ho, h => deser_kind hB _ ht o d e ho (by simpa only [patch] using h)
theorem patchFields_kind {B : Backend σ} (hB : Lawful B) {E : Env} : ∀ (fs : Fields),
    fieldsOk fs = true → ∀ {names : List Str} (r : Option (List Str)) (ms : List (Str × Doc σ))
    (os : List Value) (e : Exc), ReservedFor r names fs → hasFields fs os = true →
    patchFields B E r ms fs os = .error e → Throwable E (AllCheckedFields fs) e
  | .nil, _, names, r, ms, os, e, _, ho, h => by
    rw [hasFields_nil ho] at h; simp [patchFields] at h
  | .cons f t fs, hf, names, r, ms, os, e, hr, ho, h => by
    simp only [fieldsOk, Bool.and_eq_true] at hf
    have ih := patch_kind hB (E := E) t hf.1.2
    have ihx := patchExtras_kind hB (E := E) t hf.1.2
    obtain ⟨o, os, rfl, h1, h2⟩ := hasFields_cons ho
    simp only [patchFields] at h
    simp only [AllCheckedFields]
    split at h
    · rename_i e' he
      cases h
      refine Throwable.imp (p := AllChecked t) ?_ fun h => h.1
      by_cases c1 : f.skipDeser = true
      · rw [if_pos c1] at he; cases he
      rw [if_neg c1] at he
      by_cases c2 : f.extra = true
      · rw [if_pos c2] at he
        obtain ⟨l, rfl, -⟩ := hr.extra c2
        exact ihx l ms o e ((fieldOk_iff.1 hf.1.1).2.2.2 c2) h1 he
      rw [if_neg c2] at he
      refine note_kind he ?_
      intro e he
      by_cases c3 : f.flatten = true
      · rw [if_pos c3] at he
        exact ih o _ e h1 he
      · rw [if_neg c3] at he
        exact patchPlain_kind he fun d e h => ih o d e h1 h
    · simp only [map_error] at h
      exact (patchFields_kind hB fs hf.2 r ms os e hr.tail h2 h).imp fun h => h.2
theorem patchExtras_kind {B : Backend σ} (hB : Lawful B) {E : Env} : ∀ (t : Ty), tyOk t = true →
    ∀ (l : List Str) (ms : List (Str × Doc σ)) (o : Value) (e : Exc), isMap t = true → HasTy t o →
    patchExtras B E (some l) ms t o = .error e → Throwable E (AllChecked t) e
  | .map t, ht, l, ms, o, e, _, ho, h => by
    simp only [tyOk] at ht
    have ih := patch_kind hB (E := E) t ht
    obtain ⟨es, rfl, -, hes⟩ := hasTy_map ho
    simp only [patchExtras, map_error] at h
    simp only [AllChecked]
    exact patchExtraEntries_kind (P := HasTy t) (K := Throwable E (AllChecked t)) (fun e m h => h.add)
      (fun v d w hv h => patch_typed hB t ht v w d hv h) (fun v d e hv h => ih v d e hv h)
      (fresh_typed t ht) hes h
  | .leaf _, _, _, _, _, _, h, _, _ | .enum _, _, _, _, _, _, h, _, _ | .rawEnum _, _, _, _, _, _, h, _, _
  | .enumSet _, _, _, _, _, _, h, _, _ | .opt _, _, _, _, _, _, h, _, _ | .vec _, _, _, _, _, _, h, _, _
  | .arr _ _, _, _, _, _, _, h, _, _ | .record _ _, _, _, _, _, _, h, _, _
  | .tuple _ _, _, _, _, _, _, h, _, _ => by simp [isMap] at h
end

end Verif.Serial
