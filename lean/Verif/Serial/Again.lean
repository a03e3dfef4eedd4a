import Verif.Serial.Record
/-
Lemmas: reading or patching a second time changes nothing; what patch keeps.
-/
namespace Verif.Serial
open Verif.Path Verif.Enums Spec

variable {σ : Type}

theorem Spec.PresentReads.imp {E : Env} {f : Field} {d : Doc σ} {v : Value} {R S : Doc σ → Value → Prop}
    (i : R d v → S d v) : PresentReads E R f d v → PresentReads E S f d v := by
  rintro (h | ⟨h1, h2, h3⟩)
  · exact .inl h
  · exact .inr ⟨h1, i h2, h3⟩

mutual
theorem deser_again {B : Backend σ} {E : Env} : ∀ (t : Ty), tyOk t = true →
    ∀ (old v : Value) (d : Doc σ), deser B E t old d = .ok v → deser B E t v d = .ok v
  | .leaf l, _, old, v, d, h => by simpa only [deser] using h
  | .enum l, _, old, v, d, h => by simpa only [deser] using h
  | .rawEnum l, _, old, v, d, h => by simpa only [deser] using h
  | .enumSet l, _, old, v, d, h => by simpa only [deser] using h
  | .opt l, _, old, v, d, h => by simpa only [deser] using h
  | .vec l, _, old, v, d, h => by simpa only [deser] using h
  | .map l, _, old, v, d, h => by simpa only [deser] using h
  | .arr n t, ht, old, v, d, h => by
    simp only [tyOk] at ht
    simp only [deser] at h ⊢
    cases hl : elements B d with
    | error x => rw [hl] at h; cases h
    | ok l =>
      rw [hl] at h
      simp only at h ⊢
      cases old with
      | seq olds =>
        simp only at h
        split at h
        · cases h
        rename_i hlen
        simp only [map_ok, deserFixed_ok] at h
        obtain ⟨vs, ⟨h1, h2⟩, rfl⟩ := h
        simp only
        rw [if_neg (by rw [← h1]; exact hlen)]
        simp only [map_ok, deserFixed_ok]
        refine ⟨vs, ⟨rfl, ?_⟩, rfl⟩
        intro j a b ha hb
        rw [ha] at hb; cases hb
        have hj : j < olds.length := by
          rw [h1]; exact (List.getElem?_eq_some_iff.1 ha).1
        exact deser_again t ht olds[j] a _ (h2 j _ _ (by simp [hj]) ha)
      | _ => simp at h
  | .tuple b ts, ht, old, v, d, h => by
    simp only [tyOk] at ht
    simp only [deser] at h ⊢
    cases hl : elements B d with
    | error x => rw [hl] at h; cases h
    | ok l =>
      rw [hl] at h
      simp only at h ⊢
      split at h
      · cases h
      rename_i hlen
      rw [if_neg hlen]
      cases old with
      | seq olds =>
        simp only [map_ok] at h
        obtain ⟨vs, h, rfl⟩ := h
        simp only [map_ok]
        exact ⟨vs, deserTuple_again l ts ht _ _ _ h, rfl⟩
      | _ => simp at h
  | .record n fs, ht, old, v, d, h => by
    simp only [tyOk, Bool.and_eq_true] at ht
    cases d with
    | obj ms =>
      rw [deser_record_obj ht.1.1] at h ⊢
      obtain ⟨h1, olds, vs, rfl, rfl, h⟩ := h
      refine ⟨h1, vs, vs, rfl, rfl, ?_⟩
      exact deserFields_again _ _ fs ht.1.1 _ _ h
    | arr l =>
      simp only [deser, note_ok] at h ⊢
      cases old with
      | record olds =>
        simp only at h
        split at h
        · cases h
        rename_i hlen
        simp only [map_ok] at h
        obtain ⟨vs, h, rfl⟩ := h
        simp only [if_neg hlen, map_ok]
        exact ⟨vs, deserSeqFields_again l fs ht.1.1 _ _ _ h, rfl⟩
      | _ => simp at h
    | null => simp only [deser, note_ok] at h; cases old <;> simp at h
    | scalar s => simp only [deser, note_ok] at h; cases old <;> simp at h
theorem deserTuple_again {B : Backend σ} {E : Env} (l : List (Doc σ)) : ∀ (ts : Tys), tysOk ts = true →
    ∀ (i : Nat) (olds vs : List Value), deserTuple B E l ts i olds = .ok vs →
    deserTuple B E l ts i vs = .ok vs
  | .nil, _, i, olds, vs, h => by
    cases olds <;> simp [deserTuple] at h
    subst h; rfl
  | .cons t ts, ht, i, olds, vs, h => by
    simp only [tysOk, Bool.and_eq_true] at ht
    cases olds with
    | nil => simp [deserTuple] at h
    | cons o os =>
      simp only [deserTuple] at h
      cases hd : deser B E t o (atIndex l i) with
      | error e => rw [hd] at h; cases h
      | ok v =>
        rw [hd] at h
        simp only [map_ok] at h
        obtain ⟨ws, h, rfl⟩ := h
        simp only [deserTuple, deser_again t ht.1 _ _ _ hd, map_ok]
        exact ⟨ws, deserTuple_again l ts ht.2 _ _ _ h, rfl⟩
theorem deserFields_again {B : Backend σ} {E : Env} (ms : List (Str × Doc σ)) (names : List Str) :
    ∀ (fs : Fields), fieldsOk fs = true → ∀ (olds vs : List Value),
    EachField (FieldReads E (fun t o d v => deser B E t o d = .ok v) ms names) fs olds vs →
    EachField (FieldReads E (fun t o d v => deser B E t o d = .ok v) ms names) fs vs vs
  | .nil, _, olds, vs, h => by cases h; exact .nil
  | .cons f t fs, hf, olds, vs, h => by
    simp only [fieldsOk, Bool.and_eq_true] at hf
    cases h with
    | @cons _ _ _ o v os vs h1 h2 =>
      refine .cons ?_ (deserFields_again ms names fs hf.2 _ _ h2)
      obtain ⟨a1, a2, a3, a4⟩ := h1
      have i : ∀ d, deser B E t o d = .ok v → deser B E t v d = .ok v :=
        fun d h => deser_again t hf.1.2 _ _ _ h
      refine ⟨fun _ => rfl, a2, fun c1 c2 c3 => i _ (a3 c1 c2 c3), fun hp => ⟨?_, ?_⟩⟩
      · intro d hd
        exact Spec.PresentReads.imp (i d) ((a4 hp).1 d hd)
      · intro hm
        rcases (a4 hp).2 hm with h | ⟨h1, h2, h3⟩ | ⟨h1, h2, h3, h4⟩
        · exact .inl h
        · exact .inr (.inl ⟨h1, h2, rfl⟩)
        · exact .inr (.inr ⟨h1, h2, i _ h3, h4⟩)
theorem deserSeqFields_again {B : Backend σ} {E : Env} (l : List (Doc σ)) : ∀ (fs : Fields),
    fieldsOk fs = true → ∀ (i : Nat) (olds vs : List Value),
    deserSeqFields B E l fs i olds = .ok vs → deserSeqFields B E l fs i vs = .ok vs
  | .nil, _, i, olds, vs, h => by
    cases olds <;> simp [deserSeqFields] at h
    subst h; rfl
  | .cons f t fs, hf, i, olds, vs, h => by
    simp only [fieldsOk, Bool.and_eq_true] at hf
    cases olds with
    | nil => simp [deserSeqFields] at h
    | cons o os =>
      simp only [deserSeqFields] at h
      by_cases c1 : f.skipDeser = true
      · rw [if_pos c1] at h
        simp only [map_ok] at h
        obtain ⟨ws, h, rfl⟩ := h
        simp only [deserSeqFields, if_pos c1, map_ok]
        exact ⟨ws, deserSeqFields_again l fs hf.2 _ _ _ h, rfl⟩
      rw [if_neg c1] at h
      split at h
      · cases h
      rename_i v hv
      simp only [map_ok] at h
      obtain ⟨ws, h, rfl⟩ := h
      simp only [deserSeqFields, if_neg c1]
      rw [note_ok] at hv
      split at hv
      · cases hv
      split at hv
      · cases hv
      rename_i c2 c3
      rw [if_neg c2, if_neg c3]
      obtain ⟨hv, hm⟩ := thenValidate_ok.1 hv
      rw [note_ok.2 (thenValidate_ok.2 ⟨deser_again t hf.1.2 _ _ _ hv, hm⟩)]
      simp only [map_ok]
      exact ⟨ws, deserSeqFields_again l fs hf.2 _ _ _ h, rfl⟩
end

/-! ### patch -/

theorem uniqueObj_mem : ∀ {ms : List (Str × Doc σ)}, uniqueObj ms = true → ∀ m ∈ ms, uniqueNames m.2 = true
  | [], _, m, hm => by cases hm
  | (k, d) :: ms, h, m, hm => by
    simp only [uniqueObj, Bool.and_eq_true] at h
    rcases List.mem_cons.1 hm with rfl | hm
    · exact h.1
    · exact uniqueObj_mem h.2 m hm

theorem Spec.Picks.mem {ms : List (Str × Doc σ)} {names : List Str} {d : Doc σ} (h : Picks ms names d) :
    ∃ k, (k, d) ∈ ms := by
  obtain ⟨b, n, c, -, -, hd⟩ := h
  exact ⟨n, hd.mem⟩

mutual
theorem patch_again {B : Backend σ} (hB : Lawful B) {E : Env} : ∀ (t : Ty), tyOk t = true →
    ∀ (old v : Value) (d : Doc σ), HasTy t old → uniqueNames d = true →
    patch B E t old d = .ok v → patch B E t v d = .ok v
  | .opt t, ht, old, v, d, ho, hu, h => by
    simp only [tyOk] at ht
    simp only [patch] at h ⊢
    by_cases hn : d.isNull = true
    · rw [if_pos hn] at h ⊢; exact h
    · rw [if_neg hn] at h ⊢
      rcases hasTy_opt ho with rfl | ⟨w, rfl, hw⟩
      · simp only [map_ok] at h
        obtain ⟨w, h, rfl⟩ := h
        simp only [map_ok]
        exact ⟨w, patch_again hB t ht _ _ _ (fresh_typed t ht) hu h, rfl⟩
      · simp only [map_ok] at h
        obtain ⟨w', h, rfl⟩ := h
        simp only [map_ok]
        exact ⟨w', patch_again hB t ht _ _ _ hw hu h, rfl⟩
  | .record n fs, ht, old, v, d, ho, hu, h => by
    have hv : HasTy (.record n fs) v := patch_typed hB _ ht _ _ _ ho h
    have hda : ∀ d', deser B E (.record n fs) old d' = .ok v → deser B E (.record n fs) v d' = .ok v :=
      fun d' h' => deser_again (.record n fs) ht _ _ _ h'
    simp only [tyOk, Bool.and_eq_true] at ht
    cases d with
    | obj ms =>
      simp only [uniqueNames, Bool.and_eq_true, decide_eq_true_eq] at hu
      rw [patch_record_obj ht.1.1 ho hu.1] at h
      rw [patch_record_obj ht.1.1 hv hu.1]
      obtain ⟨h1, olds, vs, rfl, rfl, h⟩ := h
      simp only [HasTy, hasTy] at ho hv
      exact ⟨h1, vs, vs, rfl, rfl, patchFields_again hB ms hu.1 (uniqueObj_mem hu.2)
        (by simp only [uniqueNames, Bool.and_eq_true, decide_eq_true_eq]; exact hu)
        _ fs ht.1.1 _ _ ho hv h⟩
    | arr l => simp only [patch, note_ok] at h ⊢; exact hda _ h
    | null => simp only [patch, note_ok] at h ⊢; exact hda _ h
    | scalar s => simp only [patch, note_ok] at h ⊢; exact hda _ h
  | .leaf _, ht, old, v, d, ho, hu, h | .enum _, ht, old, v, d, ho, hu, h
  | .rawEnum _, ht, old, v, d, ho, hu, h | .enumSet _, ht, old, v, d, ho, hu, h
  | .vec _, ht, old, v, d, ho, hu, h | .arr _ _, ht, old, v, d, ho, hu, h
  | .map _, ht, old, v, d, ho, hu, h | .tuple _ _, ht, old, v, d, ho, hu, h => by
    rw [patch_other (by simp) (by simp)] at h ⊢
    exact deser_again _ ht _ _ _ h
theorem patchFields_again {B : Backend σ} (hB : Lawful B) {E : Env} (ms : List (Str × Doc σ))
    (hn : (ms.map (·.1)).Nodup) (hm : ∀ m ∈ ms, uniqueNames m.2 = true)
    (ho : uniqueNames (.obj ms) = true) (names : List Str) :
    ∀ (fs : Fields), fieldsOk fs = true → ∀ (olds vs : List Value),
    hasFields fs olds = true → hasFields fs vs = true →
    EachField (FieldPatches E (fun t o d v => patch B E t o d = .ok v) ms names) fs olds vs →
    EachField (FieldPatches E (fun t o d v => patch B E t o d = .ok v) ms names) fs vs vs
  | .nil, _, olds, vs, _, _, h => by cases h; exact .nil
  | .cons f t fs, hf, olds, vs, hto, htv, h => by
    simp only [fieldsOk, Bool.and_eq_true] at hf
    cases h with
    | @cons _ _ _ o v os vs h1 h2 =>
      simp only [hasFields, Bool.and_eq_true] at hto htv
      refine .cons ?_ (patchFields_again hB ms hn hm ho names fs hf.2 _ _ hto.2 htv.2 h2)
      obtain ⟨a1, a2, a3, a4⟩ := h1
      have i : ∀ d, uniqueNames d = true → patch B E t o d = .ok v → patch B E t v d = .ok v :=
        fun d hu h => patch_again hB t hf.1.2 _ _ _ hto.1 hu h
      refine ⟨fun _ => rfl, ?_, fun c1 c2 c3 => i _ ho (a3 c1 c2 c3), fun hp => ⟨?_, fun _ => rfl⟩⟩
      · intro c1 c2
        have := patchExtras_again hB (E := E) ms hm names t hf.1.2 o v hto.1
        exact this (a2 c1 c2)
      · intro d hd
        obtain ⟨k, hk⟩ := Spec.Picks.mem hd
        exact Spec.PresentReads.imp (i d (hm _ hk)) ((a4 hp).1 d hd)
theorem patchExtras_again {B : Backend σ} (hB : Lawful B) {E : Env} (ms : List (Str × Doc σ))
    (hm : ∀ m ∈ ms, uniqueNames m.2 = true) (names : List Str) :
    ∀ (t : Ty), tyOk t = true → ∀ (o v : Value), HasTy t o →
    (∃ u es es', t = .map u ∧ o = .map es ∧ v = .map es' ∧ sorted es' = true ∧
      (∀ k d, First ms k d → k ∉ names → ∃ w, (k, w) ∈ es') ∧
      ∀ k w, (k, w) ∈ es' ↔
        ((k ∈ names ∨ NoMember ms k) ∧ (k, w) ∈ es) ∨
        (k ∉ names ∧ ∃ d, First ms k d ∧
          ((∃ o, (k, o) ∈ es ∧ patch B E u o d = .ok w) ∨ (NoMember es k ∧ patch B E u (fresh u) d = .ok w)))) →
    (∃ u es es', t = .map u ∧ v = .map es ∧ v = .map es' ∧ sorted es' = true ∧
      (∀ k d, First ms k d → k ∉ names → ∃ w, (k, w) ∈ es') ∧
      ∀ k w, (k, w) ∈ es' ↔
        ((k ∈ names ∨ NoMember ms k) ∧ (k, w) ∈ es) ∨
        (k ∉ names ∧ ∃ d, First ms k d ∧
          ((∃ o, (k, o) ∈ es ∧ patch B E u o d = .ok w) ∨ (NoMember es k ∧ patch B E u (fresh u) d = .ok w))))
  | .map u, ht, o, v, hto, h => by
    simp only [tyOk] at ht
    obtain ⟨u', es, es', h1, rfl, rfl, h2, h3, h4⟩ := h
    cases h1
    have hte : ∀ e ∈ es, HasTy u e.2 := by
      obtain ⟨es1, h, -, hh⟩ := hasTy_map hto
      cases h; exact hh
    refine ⟨u, es', es', rfl, rfl, rfl, h2, h3, ?_⟩
    -- the value of a member is a fixed point of its patch
    have fix : ∀ k w d, (k, w) ∈ es' → k ∉ names → First ms k d → patch B E u w d = .ok w := by
      intro k w d hw hk hd
      have hu := hm _ hd.mem
      rcases (h4 k w).1 hw with ⟨h5 | h5, -⟩ | ⟨-, d', hd', h5⟩
      · exact absurd h5 hk
      · exact absurd rfl (h5 _ hd.mem)
      · rw [hd'.unique hd] at h5
        rcases h5 with ⟨o, ho, hp⟩ | ⟨-, hp⟩
        · exact patch_again hB u ht _ _ _ (hte _ ho) hu hp
        · exact patch_again hB u ht _ _ _ (fresh_typed u ht) hu hp
    intro k w
    constructor
    · intro hw
      by_cases hk : k ∈ names
      · exact .inl ⟨.inl hk, hw⟩
      rcases first_or_none ms k with ⟨d, hd⟩ | hno
      · exact .inr ⟨hk, d, hd, .inl ⟨w, hw, fix k w d hw hk hd⟩⟩
      · exact .inl ⟨.inr hno, hw⟩
    · rintro (⟨-, hw⟩ | ⟨hk, d, hd, ⟨o, ho, hp⟩ | ⟨hno, -⟩⟩)
      · exact hw
      · rw [fix k o d ho hk hd] at hp; cases hp; exact ho
      · obtain ⟨w', hw'⟩ := h3 k d hd hk
        exact absurd rfl (hno _ hw')
  | .leaf _, _, o, v, _, h | .enum _, _, o, v, _, h | .rawEnum _, _, o, v, _, h
  | .enumSet _, _, o, v, _, h | .opt _, _, o, v, _, h | .vec _, _, o, v, _, h
  | .arr _ _, _, o, v, _, h | .record _ _, _, o, v, _, h | .tuple _ _, _, o, v, _, h => by
    obtain ⟨u, es, es', h1, -⟩ := h; cases h1
end

/-! ### What patch keeps -/

theorem patchExtraEntries_keeps {p : Value → Doc σ → Res Value} {new : Value} {r : List Str} :
    ∀ {ms : List (Str × Doc σ)} {out es : List (Str × Value)}, sorted out = true →
    patchExtraEntries p new r ms out = .ok es →
    ∀ k w, NoMember ms k → ((k, w) ∈ es ↔ (k, w) ∈ out)
  | [], out, es, _, h, k, w, _ => by
    simp only [patchExtraEntries, Except.ok.injEq] at h; subst h; rfl
  | (k0, d0) :: ms, out, es, ho, h, k, w, hk => by
    rw [Spec.NoMember.cons] at hk
    have hne : k ≠ k0 := fun h => hk.1 h.symm
    simp only [patchExtraEntries] at h
    split at h
    · exact patchExtraEntries_keeps ho h k w hk.2
    · cases hl : lookup out k0 with
      | some v =>
        rw [hl] at h
        simp only at h
        cases hd : p v d0 with
        | error e => rw [hd] at h; cases h
        | ok x =>
          rw [hd] at h
          simp only [note] at h
          rw [patchExtraEntries_keeps (assignEntry_sorted ho) h k w hk.2, assignEntry_mem ho]
          simp [hne]
      | none =>
        rw [hl] at h
        simp only at h
        cases hd : p new d0 with
        | error e => rw [hd] at h; cases h
        | ok x =>
          rw [hd] at h
          simp only [note] at h
          rw [patchExtraEntries_keeps (emplace_sorted k0 x ho) h k w hk.2, emplace_mem k0 x _ ho]
          simp [hne]

theorem kept_other {t : Ty} (h1 : ∀ n fs, t ≠ .record n fs) (h2 : ∀ u, t ≠ .opt u) (d : Doc σ)
    (o v : Value) : Kept t d o v := by
  cases t <;> first | exact absurd rfl (h2 _) | exact absurd rfl (h1 _ _) | simp [Kept]

theorem kept_null : ∀ (t : Ty) (o v : Value), Kept (σ := σ) t .null o v
  | .opt _, o, v => by simp [Kept]
  | .record _ _, o, v => by simp [Kept]
  | .leaf _, o, v | .enum _, o, v | .rawEnum _, o, v | .enumSet _, o, v | .vec _, o, v
  | .arr _ _, o, v | .map _, o, v | .tuple _ _, o, v => kept_other (by simp) (by simp) _ _ _

mutual
theorem patch_keeps {B : Backend σ} (hB : Lawful B) {E : Env} : ∀ (t : Ty), tyOk t = true →
    ∀ (old v : Value) (d : Doc σ), HasTy t old → patch B E t old d = .ok v → Kept t d old v
  | .opt t, ht, old, v, d, ho, h => by
    simp only [tyOk] at ht
    simp only [patch] at h
    by_cases hn : d.isNull = true
    · cases d <;> first | (simp [Kept]; done) | (simp [Doc.isNull] at hn; done)
    · rw [if_neg hn] at h
      rcases hasTy_opt ho with rfl | ⟨w, rfl, hw⟩
      · simp [Kept]
      · simp only [map_ok] at h
        obtain ⟨w', h, rfl⟩ := h
        cases d with
        | obj ms =>
          simp only [Kept]
          exact ⟨w', rfl, patch_keeps hB t ht _ _ _ hw h⟩
        | _ => simp [Kept]
  | .record n fs, ht, old, v, d, ho, h => by
    simp only [tyOk, Bool.and_eq_true] at ht
    cases d with
    | obj ms =>
      obtain ⟨olds, rfl, hall⟩ := hasTy_record ho
      simp only [patch, note_ok] at h
      cases hr : reservedNames fs with
      | error e => rw [hr] at h; cases h
      | ok r =>
        rw [hr] at h
        simp only [map_ok] at h
        obtain ⟨vs, h, rfl⟩ := h
        simp only [Kept]
        exact patchFields_keeps hB r ms fs ht.1.1 _ _ hall h
    | arr l => simp [Kept]
    | null => simp [Kept]
    | scalar s => simp [Kept]
  | .leaf _, ht, old, v, d, ho, h | .enum _, ht, old, v, d, ho, h
  | .rawEnum _, ht, old, v, d, ho, h | .enumSet _, ht, old, v, d, ho, h
  | .vec _, ht, old, v, d, ho, h | .arr _ _, ht, old, v, d, ho, h
  | .map _, ht, old, v, d, ho, h | .tuple _ _, ht, old, v, d, ho, h => by
    exact kept_other (by simp) (by simp) _ _ _
theorem patchFields_keeps {B : Backend σ} (hB : Lawful B) {E : Env} (r : Option (List Str))
    (ms : List (Str × Doc σ)) : ∀ (fs : Fields), fieldsOk fs = true → ∀ (olds vs : List Value),
    hasFields fs olds = true → patchFields B E r ms fs olds = .ok vs → KeptFields fs ms olds vs
  | .nil, _, olds, vs, ho, h => by simp [KeptFields]
  | .cons f t fs, hf, olds, vs, ho, h => by
    simp only [fieldsOk, Bool.and_eq_true] at hf
    obtain ⟨o, os, rfl, h1, h2⟩ := hasFields_cons ho
    simp only [patchFields] at h
    split at h
    · cases h
    rename_i v hv
    simp only [map_ok] at h
    obtain ⟨ws, h, rfl⟩ := h
    have tail := patchFields_keeps hB r ms fs hf.2 _ _ h2 h
    simp only [KeptFields, plain]
    by_cases c1 : f.skipDeser = true
    · rw [if_pos c1] at hv; cases hv
      simp [c1, tail]
    rw [if_neg c1] at hv
    have c1' : f.skipDeser = false := by simpa using c1
    by_cases c2 : f.extra = true
    · rw [if_pos c2] at hv
      simp only [c1', c2, Bool.false_eq_true, false_implies, forall_const, Bool.true_eq_false,
        Bool.not_true, Bool.and_false, Bool.false_and, true_and, tail, and_true]
      rintro es es' rfl rfl
      obtain ⟨u, rfl⟩ := isMap_iff.1 ((fieldOk_iff.1 hf.1.1).2.2.2 c2)
      simp only [HasTy, hasTy, Bool.and_eq_true] at h1
      cases r with
      | none => simp [patchExtras] at hv
      | some l =>
        simp only [patchExtras, map_ok, Value.map.injEq] at hv
        obtain ⟨es1, hv, rfl⟩ := hv
        exact patchExtraEntries_keeps h1.1 hv
    have c2' : f.extra = false := by simpa using c2
    rw [if_neg c2, note_ok] at hv
    by_cases c3 : f.flatten = true
    · rw [if_pos c3] at hv
      have := patch_keeps hB t hf.1.2 _ _ _ h1 hv
      simp [c1', c2', c3, this, tail]
    have c3' : f.flatten = false := by simpa using c3
    rw [if_neg c3, patchPlain_ok] at hv
    simp only [c1', c2', c3', Bool.false_eq_true, false_implies, Bool.not_false, Bool.and_self,
      forall_const, true_and, tail, and_true, implies_true]
    refine ⟨hv.2, fun d hd => ?_⟩
    rcases hv.1 d hd with ⟨rfl, hdef⟩ | ⟨-, hp, -⟩
    · exact kept_null t o v
    · exact patch_keeps hB t hf.1.2 _ _ _ h1 hp
end

end Verif.Serial
