import Verif.Serial.BlameProof
/-
The members written for a record, extra fields, validity of what was read.
-/
namespace Verif.Serial
open Verif.Path Verif.Enums Spec

variable {σ : Type}

/-! ### Writing -/

mutual
theorem addFields_writes {B : Backend σ} (hB : Lawful B) {s : Bool} {r : Option (List Str)} :
    ∀ (fs : Fields) (vs : List Value) (out : List (Str × Doc σ)), addFields B s r fs vs [] = .ok out →
    WritesFields (fun t v d => ser B s t v = .ok d) s fs vs out
  | .nil, vs, out, h => by
    cases vs with
    | nil => simp only [addFields, Except.ok.injEq] at h; subst h; simp [WritesFields]
    | cons v vs => cases h
  | .cons f t fs, vs, out, h => by
    cases vs with
    | nil => cases h
    | cons v ws =>
      rw [addFields_cons hB] at h
      obtain ⟨o1, o2, rfl, h1, h2⟩ := h
      simp only [WritesFields]
      refine ⟨v, ws, o1, o2, rfl, rfl, ?_, ?_, ?_, ?_, addFields_writes hB fs ws o2 h1⟩
      · intro ho
        rcases h2 with h2 | ⟨h2, -⟩ | ⟨h2, -⟩ | ⟨h2, -⟩
        · exact h2.2
        all_goals rw [ho] at h2; cases h2
      · intro ho he
        rcases h2 with ⟨h2, -⟩ | ⟨-, -, h2⟩ | ⟨-, h2, -⟩ | ⟨-, h2, -⟩
        · rw [ho] at h2; cases h2
        · exact addExtras_writes hB t v o1 h2
        all_goals rw [he] at h2; cases h2
      · intro ho he hfl
        rcases h2 with ⟨h2, -⟩ | ⟨-, h2, -⟩ | ⟨-, -, -, h2⟩ | ⟨-, -, h2, -⟩
        · rw [ho] at h2; cases h2
        · rw [he] at h2; cases h2
        · exact addFlat_writes hB t v o1 h2
        · rw [hfl] at h2; cases h2
      · intro ho he hfl
        rcases h2 with ⟨h2, -⟩ | ⟨-, h2, -⟩ | ⟨-, -, h2, -⟩ | ⟨-, -, -, h2⟩
        · rw [ho] at h2; cases h2
        · rw [he] at h2; cases h2
        · rw [hfl] at h2; cases h2
        · exact h2
theorem addExtras_writes {B : Backend σ} (hB : Lawful B) {s : Bool} {r : Option (List Str)} :
    ∀ (t : Ty) (v : Value) (out : List (Str × Doc σ)), addExtras B s r t v [] = .ok out →
    WritesExtras (fun t v d => ser B s t v = .ok d) s t v out
  | .map t, v, out, h => by
    cases v with
    | map es =>
      simp only [addExtras] at h
      simpa only [WritesExtras] using (serEntries_ok hB h).2
    | _ => cases h
  | .leaf _, _, _, h | .enum _, _, _, h | .rawEnum _, _, _, h
  | .enumSet _, _, _, h | .opt _, _, _, h | .vec _, _, _, h
  | .arr _ _, _, _, h | .record _ _, _, _, h | .tuple _ _, _, _, h => by cases h
theorem addFlat_writes {B : Backend σ} (hB : Lawful B) {s : Bool} {r : Option (List Str)} :
    ∀ (t : Ty) (v : Value) (out : List (Str × Doc σ)), addFlat B s r t v [] = .ok out →
    WritesFlat (fun t v d => ser B s t v = .ok d) s t v out
  | .record _ fs, v, out, h => by
    cases v with
    | record vs =>
      simp only [addFlat] at h
      simpa only [WritesFlat] using addFields_writes hB fs vs out h
    | _ => cases h
  | .leaf _, _, _, h | .enum _, _, _, h | .rawEnum _, _, _, h
  | .enumSet _, _, _, h | .opt _, _, _, h | .vec _, _, _, h
  | .arr _ _, _, _, h | .map _, _, _, h | .tuple _ _, _, _, h => by cases h
end

theorem ser_record {B : Backend σ} (hB : Lawful B) {s : Bool} {n : Str} {fs : Fields} {v : Value} {d : Doc σ}
    (h : ser B s (.record n fs) v = .ok d) : ∃ vs out, v = .record vs ∧ d = .obj out ∧
      WritesFields (fun t v d => ser B s t v = .ok d) s fs vs out := by
  cases v with
  | record vs =>
    simp only [ser] at h
    cases hr : reservedNames fs with
    | error e => rw [hr] at h; cases h
    | ok r =>
      rw [hr] at h
      simp only [map_ok] at h
      obtain ⟨out, h, rfl⟩ := h
      exact ⟨vs, out, rfl, rfl, addFields_writes hB fs vs out h⟩
  | _ => cases h

/-- An entry of a map of extra fields is written. -/
theorem writes_extra {write : Ty → Value → Doc σ → Prop} {s : Bool} : ∀ {fs : Fields} {vs : List Value}
    {out : List (Str × Doc σ)}, WritesFields write s fs vs out →
    ∀ (j : Nat) (f : Field) (u : Ty) (es : List (Str × Value)), (fieldList fs)[j]? = some (f, .map u) →
    vs[j]? = some (.map es) → f.extra = true → omitted s f (.map es) = false →
    ∀ k w, (k, w) ∈ es → (s && isNullValue w) = false → ∃ d, write u w d ∧ (k, d) ∈ out
  | .nil, vs, out, h => by intro j f u es hj; simp [fieldList] at hj
  | .cons f t fs, vs, out, h => by
    intro j f' u es hj hv he ho k w hm hn
    simp only [WritesFields] at h
    obtain ⟨v, ws, o1, o2, rfl, rfl, -, h2, -, -, h5⟩ := h
    cases j with
    | zero =>
      simp only [fieldList, List.getElem?_cons_zero, Option.some.injEq, Prod.mk.injEq] at hj hv
      obtain ⟨rfl, rfl⟩ := hj
      subst hv
      have := h2 ho he
      simp only [WritesExtras] at this
      obtain ⟨m, hm', h6, h7⟩ := this.left (k, w) (by
        simp only [List.mem_filter]
        exact ⟨hm, by simp [hn]⟩)
      refine ⟨m.2, h7, List.mem_append.2 (.inl ?_)⟩
      simp only at h6
      rw [← h6]; exact hm'
    | succ j =>
      simp only [fieldList, List.getElem?_cons_succ] at hj hv
      obtain ⟨d, h6, h7⟩ := writes_extra h5 _ _ _ _ hj hv he ho k w hm hn
      exact ⟨d, h6, List.mem_append.2 (.inr h7)⟩

mutual
/-- Without a map of extra fields all members are of fields. -/
theorem writes_names {write : Ty → Value → Doc σ → Prop} {s : Bool} : ∀ {fs : Fields} {vs : List Value}
    {out : List (Str × Doc σ)}, WritesFields write s fs vs out → extraCount fs = 0 →
    ∀ m ∈ out, m.1 ∈ outNames fs
  | .nil, vs, out, h, _ => by
    simp only [WritesFields] at h
    rw [h.2]; simp
  | .cons f t fs, vs, out, h, hx => by
    simp only [WritesFields] at h
    obtain ⟨v, ws, o1, o2, rfl, rfl, h1, h2, h3, h4, h5⟩ := h
    simp only [extraCount, Nat.add_eq_zero_iff] at hx
    have he : f.extra = false := by
      cases he : f.extra with
      | true => simp [he] at hx
      | false => rfl
    simp only [he, Bool.false_eq_true, if_false] at hx
    have ih := writes_names h5 hx.2
    have ihf := fun o => writes_names_flat (write := write) (s := s) (t := t) (v := v) (out := o)
    intro m hm
    simp only [outNames, List.mem_append]
    rcases List.mem_append.1 hm with hm | hm
    · left
      cases ho : omitted s f v with
      | true => rw [h1 ho] at hm; cases hm
      | false =>
        have hs : f.skipSer = false := by
          cases hs : f.skipSer with
          | true => simp [omitted, hs] at ho
          | false => rfl
        simp only [hs, he, Bool.or_self, Bool.false_eq_true, if_false]
        cases hfl : f.flatten with
        | true =>
          simp only [hfl, if_true] at hx ⊢
          exact ihf o1 (h3 ho he hfl) hx.1 m hm
        | false =>
          obtain ⟨d, -, rfl⟩ := h4 ho he hfl
          simp only [List.mem_singleton] at hm
          subst hm
          simp
    · exact .inr (ih m hm)
theorem writes_names_flat {write : Ty → Value → Doc σ → Prop} {s : Bool} : ∀ {t : Ty} {v : Value}
    {out : List (Str × Doc σ)}, WritesFlat write s t v out → extraCountTy t = 0 →
    ∀ m ∈ out, m.1 ∈ outNamesTy t
  | .record _ fs, v, out, h, hx => by
    cases v with
    | record vs =>
      simp only [WritesFlat, extraCountTy, outNamesTy] at h hx ⊢
      exact writes_names h hx
    | _ => simp [WritesFlat] at h
  | .leaf _, _, _, h, _ | .enum _, _, _, h, _ | .rawEnum _, _, _, h, _
  | .enumSet _, _, _, h, _ | .opt _, _, _, h, _ | .vec _, _, _, h, _
  | .arr _ _, _, _, h, _ | .map _, _, _, h, _ | .tuple _ _, _, _, h, _ => by simp [WritesFlat] at h
end

theorem extraCount_pos : ∀ {fs : Fields} {j : Nat} {f : Field} {t : Ty}, (fieldList fs)[j]? = some (f, t) →
    f.extra = true → 0 < extraCount fs
  | .nil, j, f, t, hj, _ => by simp [fieldList] at hj
  | .cons g t' fs, j, f, t, hj, he => by
    cases j with
    | zero =>
      simp only [fieldList, List.getElem?_cons_zero, Option.some.injEq, Prod.mk.injEq] at hj
      obtain ⟨rfl, rfl⟩ := hj
      simp only [extraCount, he, if_true]; omega
    | succ j =>
      simp only [fieldList, List.getElem?_cons_succ] at hj
      have := extraCount_pos hj he
      simp only [extraCount]; omega

/-- With one map of extra fields, every other member is one of its entries. -/
theorem writes_rest {write : Ty → Value → Doc σ → Prop} {s : Bool} : ∀ {fs : Fields} {vs : List Value}
    {out : List (Str × Doc σ)}, WritesFields write s fs vs out → extraCount fs ≤ 1 →
    ∀ (j : Nat) (f : Field) (u : Ty) (es : List (Str × Value)), (fieldList fs)[j]? = some (f, .map u) →
    vs[j]? = some (.map es) → f.extra = true →
    ∀ m ∈ out, m.1 ∈ outNames fs ∨ ∃ w, (m.1, w) ∈ es ∧ write u w m.2
  | .nil, vs, out, h, _ => by intro j f u es hj; simp [fieldList] at hj
  | .cons f t fs, vs, out, h, hx => by
    intro j f' u es hj hv he m hm
    simp only [WritesFields] at h
    obtain ⟨v, ws, o1, o2, rfl, rfl, h1, h2, h3, h4, h5⟩ := h
    simp only [outNames, List.mem_append]
    cases j with
    | zero =>
      simp only [fieldList, List.getElem?_cons_zero, Option.some.injEq, Prod.mk.injEq] at hj hv
      obtain ⟨rfl, rfl⟩ := hj
      subst hv
      simp only [extraCount, he, if_true] at hx
      rcases List.mem_append.1 hm with hm | hm
      · right
        cases ho : omitted s f (.map es) with
        | true => rw [h1 ho] at hm; cases hm
        | false =>
          have := h2 ho he
          simp only [WritesExtras] at this
          obtain ⟨e, he', h6, h7⟩ := this.right m hm
          refine ⟨e.2, ?_, h7⟩
          rw [h6]; exact (List.mem_filter.1 he').1
      · exact .inl (.inr (writes_names h5 (by omega) m hm))
    | succ j =>
      simp only [fieldList, List.getElem?_cons_succ] at hj hv
      have hpos : 0 < extraCount fs := extraCount_pos hj he
      simp only [extraCount] at hx
      have he' : f.extra = false := by
        cases hf : f.extra with
        | true => simp only [hf, if_true] at hx; omega
        | false => rfl
      simp only [he', Bool.false_eq_true, if_false] at hx
      rcases List.mem_append.1 hm with hm | hm
      · left; left
        cases ho : omitted s f v with
        | true => rw [h1 ho] at hm; cases hm
        | false =>
          have hs : f.skipSer = false := by
            cases hs : f.skipSer with
            | true => simp [omitted, hs] at ho
            | false => rfl
          simp only [hs, he', Bool.or_self, Bool.false_eq_true, if_false]
          cases hfl : f.flatten with
          | true =>
            simp only [hfl, if_true] at hx ⊢
            exact writes_names_flat (h3 ho he' hfl) (by omega) m hm
          | false =>
            obtain ⟨d, -, rfl⟩ := h4 ho he' hfl
            simp only [List.mem_singleton] at hm
            subst hm
            simp
      · rcases writes_rest h5 (by omega) _ _ _ _ hj hv he m hm with h | h
        · exact .inl (.inr h)
        · exact .inr h

/-! ### Fields by position -/

theorem eachField_at {R : Field → Ty → Value → Value → Prop} : ∀ {fs : Fields} {os vs : List Value},
    EachField R fs os vs → ∀ {j : Nat} {f : Field} {t : Ty}, (fieldList fs)[j]? = some (f, t) →
    ∃ o v, os[j]? = some o ∧ vs[j]? = some v ∧ R f t o v
  | _, _, _, .nil, j, f, t, h => by simp [fieldList] at h
  | _, _, _, .cons h1 h2, j, f, t, h => by
    cases j with
    | zero =>
      simp only [fieldList, List.getElem?_cons_zero, Option.some.injEq, Prod.mk.injEq] at h
      obtain ⟨rfl, rfl⟩ := h
      exact ⟨_, _, rfl, rfl, h1⟩
    | succ j =>
      simp only [fieldList, List.getElem?_cons_succ] at h ⊢
      exact eachField_at h2 h

/-- If all but the map of extra fields can be written and its entries can, all can. -/
theorem writable_fields {s : Bool} {names : List Str} : ∀ {fs : Fields} {vs : List Value},
    ∀ {j : Nat} {f : Field} {u : Ty} {es : List (Str × Value)}, (fieldList fs)[j]? = some (f, .map u) →
    vs[j]? = some (.map es) → f.extra = true →
    (∀ e ∈ es, e.1 ∉ names ∧ ((s && isNullValue e.2) = false → Writable s u e.2)) →
    WritableFields s names fs (vs.set j (.map [])) → WritableFields s names fs vs
  | .nil, vs, j, f, u, es, hj, _, _, _, _ => by simp [fieldList] at hj
  | .cons f t fs, vs, j, f', u, es, hj, hv, he, hes, h => by
    cases vs with
    | nil => simp at hv
    | cons v ws =>
      cases j with
      | zero =>
        simp only [fieldList, List.getElem?_cons_zero, Option.some.injEq, Prod.mk.injEq] at hj hv
        obtain ⟨rfl, rfl⟩ := hj
        subst hv
        simp only [List.set_cons_zero, WritableFields] at h ⊢
        refine ⟨fun _ _ => ?_, fun _ h => absurd he (by simp [h]), fun _ h => absurd he (by simp [h]),
          h.2.2.2⟩
        simpa only [WritableExtras] using hes
      | succ j =>
        simp only [fieldList, List.getElem?_cons_succ] at hj hv
        simp only [List.set_cons_succ, WritableFields] at h ⊢
        exact ⟨h.1, h.2.1, h.2.2.1, writable_fields hj hv he hes h.2.2.2⟩

end Verif.Serial
