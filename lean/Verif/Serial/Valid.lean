import Verif.Serial.Extra
/-
Lemmas: validity of what was read, ranges.
-/
namespace Verif.Serial
open Verif.Path Verif.Enums Spec

variable {σ : Type}

theorem each_mem {α β : Type} {R : α → β → Prop} {l : List α} {m : List β} (h : Each R l m) :
    ∀ y ∈ m, ∃ x ∈ l, R x y := fun y hy => h.right y hy

mutual
theorem deser_legit {B : Backend σ} (hB : Lawful B) {E : Env} : ∀ (t : Ty), tyOk t = true →
    ∀ (o v : Value) (d : Doc σ), HasTy t o → deser B E t o d = .ok v → Legit E t o v
  | .leaf l, _, o, v, d, _, _ => by simp [Legit]
  | .enum e, _, o, v, d, _, _ => by simp [Legit]
  | .rawEnum e, _, o, v, d, _, _ => by simp [Legit]
  | .enumSet e, _, o, v, d, _, _ => by simp [Legit]
  | .opt t, ht, o, v, d, ho, h => by
    simp only [tyOk] at ht
    simp only [deser] at h
    split at h
    · cases h; simp [Legit]
    · simp only [map_ok] at h
      obtain ⟨w, h, rfl⟩ := h
      simp only [Legit]
      exact deser_legit hB t ht _ w d (fresh_typed t ht) h
  | .vec t, ht, o, v, d, ho, h => by
    simp only [tyOk] at ht
    simp only [deser] at h
    split at h
    · cases h
    simp only [map_ok] at h
    obtain ⟨vs, h, rfl⟩ := h
    rw [deserItems_ok] at h
    simp only [Legit]
    intro v hv
    obtain ⟨d, -, hd⟩ := h.right v hv
    exact deser_legit hB t ht _ v d (fresh_typed t ht) hd
  | .arr n t, ht, o, v, d, ho, h => by
    simp only [tyOk] at ht
    obtain ⟨os, rfl, -, hos⟩ := hasTy_arr ho
    simp only [deser] at h
    split at h
    · cases h
    split at h
    · cases h
    simp only [map_ok] at h
    obtain ⟨vs, h, rfl⟩ := h
    rw [deserFixed_ok] at h
    simp only [Legit]
    intro i o v h1 h2
    exact deser_legit hB t ht o v _ (hos o (List.mem_of_getElem? h1)) (h.2 i o v h1 h2)
  | .map t, ht, o, v, d, ho, h => by
    simp only [tyOk] at ht
    simp only [deser] at h
    split at h
    · cases h
    simp only [map_ok] at h
    obtain ⟨es, h, rfl⟩ := h
    rw [deserEntries_ok] at h
    simp only [Legit]
    intro e he
    obtain ⟨d, -, hd⟩ := (h.2.2 e.1 e.2).1 he
    exact deser_legit hB t ht _ e.2 d (fresh_typed t ht) hd
  | .tuple b ts, ht, o, v, d, ho, h => by
    simp only [tyOk] at ht
    obtain ⟨os, rfl, hos⟩ := hasTy_tuple ho
    simp only [deser] at h
    split at h
    · cases h
    split at h
    · cases h
    simp only [map_ok] at h
    obtain ⟨vs, h, rfl⟩ := h
    simp only [Legit]
    exact deserTuple_legit hB _ ts ht _ os vs hos h
  | .record n fs, ht, o, v, d, ho, h => by
    simp only [tyOk, Bool.and_eq_true] at ht
    have ih := deserFields_legit hB (E := E) fs ht.1.1
    have ihs := deserSeq_legit hB (E := E) fs ht.1.1
    obtain ⟨os, rfl, hos⟩ := hasTy_record ho
    cases d with
    | obj ms =>
      rw [deser_record_obj ht.1.1] at h
      obtain ⟨-, olds, vs, h1, rfl, h2⟩ := h
      cases h1
      simp only [Legit]
      exact ih ms (allNames fs) os vs hos h2
    | arr l =>
      simp only [deser, note_ok] at h
      split at h
      · cases h
      simp only [map_ok] at h
      obtain ⟨vs, h, rfl⟩ := h
      simp only [Legit]
      exact ihs l 0 os vs hos h
    | null => simp [deser] at h
    | scalar s => simp [deser] at h
theorem deserTuple_legit {B : Backend σ} (hB : Lawful B) {E : Env} (l : List (Doc σ)) : ∀ (ts : Tys),
    tysOk ts = true → ∀ (i : Nat) (os vs : List Value), hasTys ts os = true →
    deserTuple B E l ts i os = .ok vs → LegitAll E ts os vs
  | .nil, _, i, os, vs, _, _ => by simp [LegitAll]
  | .cons t ts, ht, i, os, vs, ho, h => by
    simp only [tysOk, Bool.and_eq_true] at ht
    obtain ⟨o, os, rfl, h1, h2⟩ := hasTys_cons ho
    simp only [deserTuple] at h
    split at h
    · cases h
    rename_i v hv
    simp only [map_ok] at h
    obtain ⟨vs, h, rfl⟩ := h
    simp only [LegitAll]
    exact ⟨deser_legit hB t ht.1 o v _ h1 hv, deserTuple_legit hB l ts ht.2 _ os vs h2 h⟩
theorem deserFields_legit {B : Backend σ} (hB : Lawful B) {E : Env} : ∀ (fs : Fields),
    fieldsOk fs = true → ∀ (ms : List (Str × Doc σ)) (names : List Str) (os vs : List Value),
    hasFields fs os = true →
    EachField (FieldReads E (fun t o d v => deser B E t o d = .ok v) ms names) fs os vs →
    LegitFields E fs os vs
  | .nil, _, ms, names, os, vs, _, _ => by simp [LegitFields]
  | .cons f t fs, hf, ms, names, os, vs, ho, h => by
    simp only [fieldsOk, Bool.and_eq_true] at hf
    have ih := deser_legit hB (E := E) t hf.1.2
    have ihx := deserExtras_legit hB (E := E) t hf.1.2
    obtain ⟨o, os, rfl, h1, h2⟩ := hasFields_cons ho
    cases h with
    | @cons _ _ _ _ v _ vs h3 h4 =>
    simp only [LegitFields]
    refine ⟨h3.1, fun c1 c2 => ?_, fun c1 c2 c3 => ?_, fun c1 => ?_,
      deserFields_legit hB fs hf.2 ms names os vs h2 h4⟩
    · exact ihx ms names o v (h3.2.1 c1 c2)
    · exact ih o v _ h1 (h3.2.2.1 c1 c2 c3)
    · obtain ⟨h5, h6⟩ := h3.2.2.2 c1
      rcases missing_or ms f with ⟨n, -, hp⟩ | ⟨-, hm⟩
      · rcases h5 _ hp with ⟨-, h7⟩ | ⟨-, h7, h8⟩
        · exact .inl h7
        · exact .inr (.inr ⟨h8, ih o v _ h1 h7⟩)
      · rcases h6 hm with h7 | ⟨-, h7, h8⟩ | ⟨-, -, h7, h8⟩
        · exact .inl h7
        · exact .inr (.inl ⟨h7, h8⟩)
        · exact .inr (.inr ⟨h8, ih o v _ h1 h7⟩)
theorem deserExtras_legit {B : Backend σ} (hB : Lawful B) {E : Env} : ∀ (t : Ty), tyOk t = true →
    ∀ (ms : List (Str × Doc σ)) (names : List Str) (o v : Value),
    Captures (fun u d w => deser B E u (fresh u) d = .ok w) ms names t v → Legit E t o v
  | .map t, ht, ms, names, o, v, h => by
    simp only [tyOk] at ht
    have ih := deser_legit hB (E := E) t ht
    obtain ⟨u, es, h1, rfl, -, -, h2⟩ := h
    cases h1
    simp only [Legit]
    intro e he
    obtain ⟨-, d, -, hd⟩ := (h2 e.1 e.2).1 he
    exact ih _ e.2 d (fresh_typed _ ht) hd
  | .leaf _, _, _, _, _, _, h | .enum _, _, _, _, _, _, h | .rawEnum _, _, _, _, _, _, h
  | .enumSet _, _, _, _, _, _, h | .opt _, _, _, _, _, _, h | .vec _, _, _, _, _, _, h
  | .arr _ _, _, _, _, _, _, h | .record _ _, _, _, _, _, _, h | .tuple _ _, _, _, _, _, _, h => by
    obtain ⟨u, es, h1, -⟩ := h; cases h1
theorem deserSeq_legit {B : Backend σ} (hB : Lawful B) {E : Env} : ∀ (fs : Fields),
    fieldsOk fs = true → ∀ (l : List (Doc σ)) (i : Nat) (os vs : List Value), hasFields fs os = true →
    deserSeqFields B E l fs i os = .ok vs → LegitFields E fs os vs
  | .nil, _, l, i, os, vs, _, _ => by simp [LegitFields]
  | .cons f t fs, hf, l, i, os, vs, ho, h => by
    simp only [fieldsOk, Bool.and_eq_true] at hf
    have ih := deser_legit hB (E := E) t hf.1.2
    obtain ⟨o, os, rfl, h1, h2⟩ := hasFields_cons ho
    simp only [deserSeqFields] at h
    by_cases hs : f.skipDeser = true
    · rw [if_pos hs, map_ok] at h
      obtain ⟨vs, h, rfl⟩ := h
      simp only [LegitFields]
      exact ⟨fun _ => trivial, fun c => absurd hs (by simp [c]), fun c => absurd hs (by simp [c]),
        fun c => absurd c (by simp [plain, hs]), deserSeq_legit hB fs hf.2 l i os vs h2 h⟩
    · rw [if_neg hs] at h
      split at h
      · cases h
      rename_i v hv
      simp only [map_ok] at h
      obtain ⟨vs, h, rfl⟩ := h
      simp only [note_ok] at hv
      simp only [LegitFields]
      refine ⟨fun c => absurd c hs, fun _ c => ?_, fun _ c1 c2 => ?_, fun c => ?_,
        deserSeq_legit hB fs hf.2 l _ os vs h2 h⟩
      · rw [if_pos c] at hv; cases hv
      · rw [if_neg (by simp [c1]), if_pos c2] at hv; cases hv
      · simp only [plain, Bool.and_eq_true, Bool.not_eq_true'] at c
        rw [if_neg (by simp [c.1.2]), if_neg (by simp [c.2]), thenValidate_ok] at hv
        exact .inr (.inr ⟨hv.2, ih o v _ h1 hv.1⟩)
end

/-! ### Ranges -/

theorem deser_vec {B : Backend σ} {E : Env} {t : Ty} {old v : Value} {d : Doc σ} :
    deser B E (.vec t) old d = .ok v ↔ ∃ l vs, d = .arr l ∧ v = .seq vs ∧
      Each (fun d v => deser B E t (fresh t) d = .ok v) l vs := by
  simp only [deser]
  cases d with
  | arr l =>
    simp only [elements, map_ok, deserItems_ok]
    constructor
    · rintro ⟨vs, h, rfl⟩; exact ⟨l, vs, rfl, rfl, h⟩
    · rintro ⟨l', vs, h1, rfl, h⟩; cases h1; exact ⟨vs, h, rfl⟩
  | _ => simp [elements]

theorem deser_arr {B : Backend σ} {E : Env} {n : Nat} {t : Ty} {os : List Value} {v : Value} {d : Doc σ} :
    deser B E (.arr n t) (.seq os) d = .ok v ↔ ∃ l vs, d = .arr l ∧ v = .seq vs ∧ l.length ≤ os.length ∧
      os.length = vs.length ∧ ∀ (i : Nat) (o v : Value), os[i]? = some o → vs[i]? = some v →
        deser B E t o (element l i) = .ok v := by
  simp only [deser]
  cases d with
  | arr l =>
    simp only [elements]
    by_cases hl : os.length < l.length
    · rw [if_pos hl]
      simp only [reduceCtorEq, false_iff]
      rintro ⟨l', vs, h1, -, h2, -⟩
      cases h1; omega
    · rw [if_neg hl, map_ok]
      simp only [deserFixed_ok, Nat.zero_add]
      constructor
      · rintro ⟨vs, h, rfl⟩; exact ⟨l, vs, rfl, rfl, by omega, h.1, h.2⟩
      · rintro ⟨l', vs, h1, rfl, -, h⟩; cases h1; exact ⟨vs, h, rfl⟩
  | _ => simp [elements]

/-- When reading into a range of fixed size succeeds. -/
theorem deser_arr_some {B : Backend σ} (hB : Lawful B) {E : Env} {n : Nat} {t : Ty} {os : List Value}
    {l : List (Doc σ)} :
    (∃ v, deser B E (.arr n t) (.seq os) (.arr l) = .ok v) ↔ l.length ≤ os.length ∧
      (l.length < os.length → isOpt t = true) ∧
      ∀ (i : Nat) (o : Value) (d : Doc σ), os[i]? = some o → l[i]? = some d →
        ∃ v, deser B E t o d = .ok v := by
  constructor
  · rintro ⟨v, h⟩
    rw [deser_arr] at h
    obtain ⟨l', vs, h1, rfl, h2, h3, h4⟩ := h
    cases h1
    refine ⟨h2, fun hlt => ?_, fun i o d ho hd => ?_⟩
    · have h5 := h4 l.length (os[l.length]) (vs[l.length]'(by omega)) (by simp [hlt])
        (by rw [List.getElem?_eq_getElem])
      have : element l l.length = .null := by simp [element]
      rw [this, deser_null hB] at h5
      exact h5.1
    · have hi : i < os.length := by
        rcases Nat.lt_or_ge i os.length with h | h
        · exact h
        · rw [List.getElem?_eq_none h] at ho; cases ho
      have h5 := h4 i o (vs[i]'(by omega)) ho (by rw [List.getElem?_eq_getElem])
      have : element l i = d := by simp [element, hd]
      rw [this] at h5
      exact ⟨_, h5⟩
  · rintro ⟨h1, h2, h3⟩
    have all : ∀ i o, os[i]? = some o → ∃ v, deser B E t o (element l i) = .ok v := by
      intro i o ho
      cases hd : l[i]? with
      | some d =>
        have : element l i = d := by simp [element, hd]
        rw [this]; exact h3 i o d ho hd
      | none =>
        have : element l i = .null := by simp [element, hd]
        rw [this]
        have hi : i < os.length := by
          rcases Nat.lt_or_ge i os.length with h | h
          · exact h
          · rw [List.getElem?_eq_none h] at ho; cases ho
        have hl : l.length ≤ i := List.getElem?_eq_none_iff.1 hd
        exact ⟨.opt none, (deser_null hB).2 ⟨h2 (by omega), rfl⟩⟩
    have pick : ∀ (os : List Value) (k : Nat), (∀ i o, os[i]? = some o →
        ∃ v, deser B E t o (element l (k + i)) = .ok v) → ∃ vs : List Value, os.length = vs.length ∧
        ∀ (i : Nat) (o v : Value), os[i]? = some o → vs[i]? = some v →
          deser B E t o (element l (k + i)) = .ok v := by
      intro os
      induction os with
      | nil => intro k _; exact ⟨[], rfl, by simp⟩
      | cons o os ih =>
        intro k h
        obtain ⟨v, hv⟩ := h 0 o rfl
        obtain ⟨vs, h5, h6⟩ := ih (k + 1) (fun i o ho => by
          have := h (i + 1) o (by simpa using ho)
          rwa [show k + (i + 1) = k + 1 + i by omega] at this)
        refine ⟨v :: vs, by simp [h5], ?_⟩
        intro i o' v' ho hv'
        cases i with
        | zero => simp at ho hv'; subst ho hv'; exact hv
        | succ i =>
          simp only [List.getElem?_cons_succ] at ho hv'
          have := h6 i o' v' ho hv'
          rwa [show k + 1 + i = k + (i + 1) by omega] at this
    obtain ⟨vs, h5, h6⟩ := pick os 0 (by simpa using all)
    exact ⟨.seq vs, deser_arr.2 ⟨l, vs, rfl, rfl, h1, h5, by simpa using h6⟩⟩

end Verif.Serial
