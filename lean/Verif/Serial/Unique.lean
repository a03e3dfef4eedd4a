import Verif.Serial.Again
/-
Lemmas: the names of the members that are written.
-/
namespace Verif.Serial
open Verif.Path Verif.Enums Spec

variable {σ : Type}

theorem uniqueArr_iff : ∀ {l : List (Doc σ)}, uniqueArr l = true ↔ ∀ d ∈ l, uniqueNames d = true
  | [] => by simp [uniqueArr]
  | d :: ds => by simp [uniqueArr, uniqueArr_iff (l := ds)]

theorem uniqueObj_iff : ∀ {l : List (Str × Doc σ)}, uniqueObj l = true ↔ ∀ m ∈ l, uniqueNames m.2 = true
  | [] => by simp [uniqueObj]
  | (k, d) :: ds => by simp [uniqueObj, uniqueObj_iff (l := ds)]

/-- What the loop over entries writes. -/
theorem serEntries_ok {B : Backend σ} (hB : Lawful B) {s : Bool} {c : Str → Res Unit}
    {f : Value → Res (Doc σ)} : ∀ {es : List (Str × Value)} {out : List (Str × Doc σ)},
    serEntries B s c f es [] = .ok out →
    (∀ e ∈ es, c e.1 = .ok ()) ∧
    Each (fun e m => m.1 = e.1 ∧ f e.2 = .ok m.2) (es.filter fun e => !(s && isNullValue e.2)) out
  | [], out, h => by
    simp only [serEntries, Except.ok.injEq] at h; subst h
    exact ⟨by simp, .nil⟩
  | (k, v) :: es, out, h => by
    simp only [serEntries] at h
    cases hc : c k with
    | error e => rw [hc] at h; cases h
    | ok u =>
      rw [hc] at h
      simp only at h
      by_cases hn : (s && isNullValue v) = true
      · rw [if_pos hn] at h
        obtain ⟨h1, h2⟩ := serEntries_ok hB h
        refine ⟨?_, ?_⟩
        · intro e he
          rcases List.mem_cons.1 he with rfl | he
          · exact hc
          · exact h1 e he
        · simp only [List.filter_cons, hn, Bool.not_true, Bool.false_eq_true, if_false]
          exact h2
      · rw [if_neg hn] at h
        cases hd : f v with
        | error e => rw [hd] at h; cases h
        | ok d =>
          rw [hd] at h
          simp only [hB.add] at h
          rw [serEntries_acc hB, map_ok] at h
          obtain ⟨out', h, rfl⟩ := h
          obtain ⟨h1, h2⟩ := serEntries_ok hB h
          refine ⟨?_, ?_⟩
          · intro e he
            rcases List.mem_cons.1 he with rfl | he
            · exact hc
            · exact h1 e he
          · have hn' : (s && isNullValue v) = false := by simpa using hn
            simp only [List.filter_cons, hn', Bool.not_false, if_true]
            exact .cons ⟨rfl, hd⟩ h2

theorem each_names {es : List (Str × Value)} {out : List (Str × Doc σ)} {P : Value → Doc σ → Prop}
    (h : Each (fun e m => m.1 = e.1 ∧ P e.2 m.2) es out) : out.map (·.1) = es.map (·.1) := by
  induction h with
  | nil => rfl
  | cons h1 h2 ih => simp [h1.1, ih]

theorem serEntries_names {B : Backend σ} (hB : Lawful B) {s : Bool} {c : Str → Res Unit}
    {f : Value → Res (Doc σ)} {es : List (Str × Value)} {out : List (Str × Doc σ)}
    (hs : sorted es = true) (h : serEntries B s c f es [] = .ok out) :
    (out.map (·.1)).Nodup ∧ ∀ m ∈ out, c m.1 = .ok () ∧ ∃ v, (m.1, v) ∈ es ∧ f v = .ok m.2 := by
  obtain ⟨h1, h2⟩ := serEntries_ok hB h
  have hn : ((es.filter fun e => !(s && isNullValue e.2)).map (·.1)).Nodup := by
    have hsub : List.Sublist ((es.filter fun e => !(s && isNullValue e.2)).map (·.1)) (es.map (·.1)) :=
      List.Sublist.map _ List.filter_sublist
    exact hsub.nodup (sorted_nodup hs)
  refine ⟨by rw [each_names (P := fun v d => f v = .ok d) h2]; exact hn, ?_⟩
  intro m hm
  obtain ⟨e, he, h3, h4⟩ := h2.right m hm
  have he' := (List.mem_filter.1 he).1
  exact ⟨by rw [h3]; exact h1 e he', e.2, by rw [h3]; exact he', h4⟩

theorem checkExtraKey_ok {r : Option (List Str)} {k : Str} (h : checkExtraKey r k = .ok ()) :
    ∃ l, r = some l ∧ k ∉ l := by
  cases r with
  | none => cases h
  | some l =>
    simp only [checkExtraKey] at h
    split at h
    · cases h
    · rename_i hc
      exact ⟨l, rfl, by simpa using hc⟩

mutual
/-- The names written are those of fields, or extra ones. -/
theorem addFields_names {B : Backend σ} (hB : Lawful B) {s : Bool} {r : Option (List Str)} :
    ∀ (fs : Fields), fieldsOk fs = true → ∀ (vs : List Value) (out : List (Str × Doc σ)),
    hasFields fs vs = true → addFields B s r fs vs [] = .ok out →
    ∀ m ∈ out, m.1 ∈ outNames fs ∨ (0 < extraCount fs ∧ ∃ l, r = some l ∧ m.1 ∉ l)
  | .nil, _, vs, out, ht, h => by
    rw [hasFields_nil ht] at h
    simp only [addFields, Except.ok.injEq] at h; subst h; simp
  | .cons f t fs, hf, vs, out, ht, h => by
    simp only [fieldsOk, Bool.and_eq_true] at hf
    have hfo := fieldOk_iff.1 hf.1.1
    obtain ⟨v, ws, rfl, h1, h2⟩ := hasFields_cons ht
    simp only [addFields] at h
    split at h
    · cases h
    rename_i o1 ho1
    rw [addFields_acc hB, map_ok] at h
    obtain ⟨o2, h, rfl⟩ := h
    have tail := addFields_names hB fs hf.2 ws o2 h2 h
    intro m hm
    simp only [outNames, extraCount, List.mem_append]
    rcases List.mem_append.1 hm with hm | hm
    · by_cases c1 : f.skipSer = true
      · rw [if_pos c1] at ho1; cases ho1; cases hm
      rw [if_neg c1] at ho1
      by_cases c2 : skipField f s v = true
      · rw [if_pos c2] at ho1; cases ho1; cases hm
      rw [if_neg c2] at ho1
      by_cases c3 : f.extra = true
      · rw [if_pos c3] at ho1
        obtain ⟨u, rfl⟩ := isMap_iff.1 (hfo.2.2.2 c3)
        obtain ⟨es, rfl, hs, -⟩ := hasTy_map h1
        simp only [addExtras] at ho1
        have := (serEntries_names hB hs ho1).2 m hm
        refine .inr ⟨by rw [if_pos c3]; omega, checkExtraKey_ok this.1⟩
      rw [if_neg c3] at ho1
      have c13 : (f.skipSer || f.extra) = false := by simp [c1, c3]
      by_cases c4 : f.flatten = true
      · rw [if_pos c4] at ho1
        have := addFlat_names hB t hf.1.2 (hfo.2.2.1 c4) v o1 h1 ho1 m hm
        rw [if_neg (by simp [c13]), if_pos c4, if_neg c3, if_pos c4]
        rcases this with h | ⟨h, h'⟩
        · exact .inl (.inl h)
        · exact .inr ⟨by omega, h'⟩
      · rw [if_neg c4, map_ok] at ho1
        obtain ⟨d, -, rfl⟩ := ho1
        rw [hB.add] at hm
        simp only [List.nil_append, List.mem_singleton] at hm
        subst hm
        rw [if_neg (by simp [c13]), if_neg c4]
        exact .inl (.inl (by simp))
    · rcases tail m hm with h | ⟨h, h'⟩
      · exact .inl (.inr h)
      · exact .inr ⟨by omega, h'⟩
theorem addFlat_names {B : Backend σ} (hB : Lawful B) {s : Bool} {r : Option (List Str)} :
    ∀ (t : Ty), tyOk t = true → isRecord t = true → ∀ (v : Value) (out : List (Str × Doc σ)),
    HasTy t v → addFlat B s r t v [] = .ok out →
    ∀ m ∈ out, m.1 ∈ outNamesTy t ∨ (0 < extraCountTy t ∧ ∃ l, r = some l ∧ m.1 ∉ l)
  | .record _ fs, ht, _, v, out, hv, h => by
    simp only [tyOk, Bool.and_eq_true] at ht
    obtain ⟨vs, rfl, hvs⟩ := hasTy_record hv
    simp only [addFlat] at h
    simp only [outNamesTy, extraCountTy]
    exact addFields_names hB fs ht.1.1 vs out hvs h
  | .leaf _, _, hr, _, _, _, _ | .enum _, _, hr, _, _, _, _ | .rawEnum _, _, hr, _, _, _, _
  | .enumSet _, _, hr, _, _, _, _ | .opt _, _, hr, _, _, _, _ | .vec _, _, hr, _, _, _, _
  | .arr _ _, _, hr, _, _, _, _ | .map _, _, hr, _, _, _, _ | .tuple _ _, _, hr, _, _, _, _ => by cases hr
end

theorem nodup_append' {a b : List Str} : (a ++ b).Nodup ↔ a.Nodup ∧ b.Nodup ∧ ∀ x ∈ a, x ∉ b := by
  rw [List.nodup_append]
  constructor
  · rintro ⟨h1, h2, h3⟩; exact ⟨h1, h2, fun x hx hb => h3 x hx x hb rfl⟩
  · rintro ⟨h1, h2, h3⟩; exact ⟨h1, h2, fun x hx y hy h => h3 x hx (h ▸ hy)⟩

mutual
theorem addFields_nodup {B : Backend σ} (hB : Lawful B) {s : Bool} {r : Option (List Str)} :
    ∀ (fs : Fields), fieldsOk fs = true → ∀ (vs : List Value) (out : List (Str × Doc σ)),
    hasFields fs vs = true → (outNames fs).Nodup → extraCount fs ≤ 1 →
    (∀ l, r = some l → ∀ n ∈ outNames fs, n ∈ l) →
    addFields B s r fs vs [] = .ok out → (out.map (·.1)).Nodup
  | .nil, _, vs, out, ht, _, _, _, h => by
    rw [hasFields_nil ht] at h
    simp only [addFields, Except.ok.injEq] at h; subst h; simp
  | .cons f t fs, hf, vs, out, ht, hn, hx, hl, h => by
    simp only [fieldsOk, Bool.and_eq_true] at hf
    have hfo := fieldOk_iff.1 hf.1.1
    obtain ⟨v, ws, rfl, h1, h2⟩ := hasFields_cons ht
    simp only [addFields] at h
    split at h
    · cases h
    rename_i o1 ho1
    rw [addFields_acc hB, map_ok] at h
    obtain ⟨o2, h, rfl⟩ := h
    simp only [outNames, nodup_append'] at hn
    simp only [extraCount] at hx
    simp only [outNames, List.mem_append] at hl
    have tail := addFields_nodup hB fs hf.2 ws o2 h2 hn.2.1 (by omega)
      (fun l hr n hn => hl l hr n (.inr hn)) h
    have names2 := addFields_names hB fs hf.2 ws o2 h2 h
    rw [List.map_append, nodup_append']
    -- enough: the first part is without repetition and apart from the second
    suffices hs : (o1.map (·.1)).Nodup ∧ ∀ m ∈ o1, ∀ m' ∈ o2, m.1 ≠ m'.1 by
      refine ⟨hs.1, tail, ?_⟩
      intro x hx1 hx2
      obtain ⟨m, hm, rfl⟩ := List.mem_map.1 hx1
      obtain ⟨m', hm', he⟩ := List.mem_map.1 hx2
      exact hs.2 m hm m' hm' he.symm
    by_cases c1 : f.skipSer = true
    · rw [if_pos c1] at ho1; cases ho1; simp
    rw [if_neg c1] at ho1
    by_cases c2 : skipField f s v = true
    · rw [if_pos c2] at ho1; cases ho1; simp
    rw [if_neg c2] at ho1
    by_cases c3 : f.extra = true
    · rw [if_pos c3] at ho1
      obtain ⟨u, rfl⟩ := isMap_iff.1 (hfo.2.2.2 c3)
      obtain ⟨es, rfl, hs, -⟩ := hasTy_map h1
      simp only [addExtras] at ho1
      have := serEntries_names hB hs ho1
      refine ⟨this.1, ?_⟩
      intro m hm m' hm' he
      obtain ⟨l, rfl, hml⟩ := checkExtraKey_ok (this.2 m hm).1
      rcases names2 m' hm' with h' | ⟨h', -⟩
      · exact hml (he ▸ hl l rfl m'.1 (.inr h'))
      · rw [if_pos c3] at hx; omega
    rw [if_neg c3] at ho1
    have c13 : (f.skipSer || f.extra) = false := by simp [c1, c3]
    simp only [c13, Bool.false_eq_true, if_false] at hn hl
    rw [if_neg c3] at hx
    by_cases c4 : f.flatten = true
    · rw [if_pos c4] at ho1
      simp only [if_pos c4] at hn hx hl
      refine ⟨addFlat_nodup hB t hf.1.2 (hfo.2.2.1 c4) v o1 h1 hn.1 (by omega)
        (fun l hr n hn => hl l hr n (.inl hn)) ho1, ?_⟩
      intro m hm m' hm' he
      rcases addFlat_names hB t hf.1.2 (hfo.2.2.1 c4) v o1 h1 ho1 m hm with a | ⟨a, l, hr, a'⟩ <;>
        rcases names2 m' hm' with b | ⟨b, l', hr', b'⟩
      · exact hn.2.2 _ a (he ▸ b)
      · exact b' (he ▸ hl l' hr' m.1 (.inl a))
      · exact a' (he ▸ hl l hr m'.1 (.inr b))
      · omega
    · rw [if_neg c4, map_ok] at ho1
      obtain ⟨d, -, rfl⟩ := ho1
      simp only [if_neg c4] at hn hx hl
      rw [hB.add]
      simp only [List.nil_append, List.map_cons, List.map_nil, List.nodup_cons, List.not_mem_nil,
        not_false_eq_true, List.nodup_nil, and_self, List.mem_singleton, forall_eq, true_and]
      intro m' hm' he
      rcases names2 m' hm' with b | ⟨b, l', hr', b'⟩
      · exact hn.2.2 _ (by simp) (he ▸ b)
      · exact b' (he ▸ hl l' hr' f.key (.inl (by simp)))
theorem addFlat_nodup {B : Backend σ} (hB : Lawful B) {s : Bool} {r : Option (List Str)} :
    ∀ (t : Ty), tyOk t = true → isRecord t = true → ∀ (v : Value) (out : List (Str × Doc σ)),
    HasTy t v → (outNamesTy t).Nodup → extraCountTy t ≤ 1 →
    (∀ l, r = some l → ∀ n ∈ outNamesTy t, n ∈ l) →
    addFlat B s r t v [] = .ok out → (out.map (·.1)).Nodup
  | .record _ fs, ht, _, v, out, hv, hn, hx, hl, h => by
    simp only [tyOk, Bool.and_eq_true] at ht
    obtain ⟨vs, rfl, hvs⟩ := hasTy_record hv
    simp only [addFlat] at h
    simp only [outNamesTy] at hn hl
    simp only [extraCountTy] at hx
    exact addFields_nodup hB fs ht.1.1 vs out hvs hn hx hl h
  | .leaf _, _, hr, _, _, _, _, _, _, _ | .enum _, _, hr, _, _, _, _, _, _, _
  | .rawEnum _, _, hr, _, _, _, _, _, _, _ | .enumSet _, _, hr, _, _, _, _, _, _, _
  | .opt _, _, hr, _, _, _, _, _, _, _ | .vec _, _, hr, _, _, _, _, _, _, _
  | .arr _ _, _, hr, _, _, _, _, _, _, _ | .map _, _, hr, _, _, _, _, _, _, _
  | .tuple _ _, _, hr, _, _, _, _, _, _, _ => by cases hr
end

mutual
theorem outNames_sub : ∀ (fs : Fields), ∀ n ∈ outNames fs, n ∈ allNames fs
  | .nil, n, h => by simp [outNames] at h
  | .cons f t fs, n, h => by
    simp only [outNames, List.mem_append] at h
    simp only [allNames, List.mem_append]
    rcases h with h | h
    · left
      by_cases c1 : (f.skipSer || f.extra) = true
      · rw [if_pos c1] at h; cases h
      rw [if_neg c1] at h
      have c3 : ¬ f.extra = true := by intro h; simp [h] at c1
      rw [if_neg c3]
      by_cases c2 : f.flatten = true
      · rw [if_pos c2] at h ⊢
        exact outNamesTy_sub t n h
      · rw [if_neg c2] at h ⊢
        rw [List.mem_singleton.1 h]; simp
    · exact .inr (outNames_sub fs n h)
theorem outNamesTy_sub : ∀ (t : Ty), ∀ n ∈ outNamesTy t, n ∈ allNamesTy t
  | .record _ fs, n, h => by
    simp only [outNamesTy] at h
    simp only [allNamesTy]
    exact outNames_sub fs n h
  | .leaf _, n, h | .enum _, n, h | .rawEnum _, n, h | .enumSet _, n, h | .opt _, n, h
  | .vec _, n, h | .arr _ _, n, h | .map _, n, h | .tuple _ _, n, h => by simp [outNamesTy] at h
end

theorem extraCount_zero : ∀ {fs : Fields}, hasExtraOrFlatten fs = false → extraCount fs = 0
  | .nil, _ => by simp [extraCount]
  | .cons f t fs, h => by
    simp only [hasExtraOrFlatten, Bool.or_eq_false_iff] at h
    simp [extraCount, h.1.1, h.1.2, extraCount_zero h.2]

/-- The members of a written record have different names. -/
theorem record_nodup {B : Backend σ} (hB : Lawful B) {s : Bool} {fs : Fields} (hf : fieldsOk fs = true)
    (hs : serNamesOk fs = true) {r : Option (List Str)} (hr : reservedNames fs = .ok r)
    {vs : List Value} {out : List (Str × Doc σ)} (hv : hasFields fs vs = true)
    (h : addFields B s r fs vs [] = .ok out) : (out.map (·.1)).Nodup := by
  refine addFields_nodup hB fs hf vs out hv ((serNamesOk_iff hf).1 hs) ?_ ?_ h
  · rcases reservedNames_ok hf hr with ⟨-, h'⟩ | ⟨-, -, -, h'⟩
    · rw [extraCount_zero h']; omega
    · exact h'
  · rintro l rfl n hn
    rcases reservedNames_ok hf hr with ⟨h', -⟩ | ⟨h', -⟩
    · cases h'
    · cases h'; simpa using outNames_sub fs n hn

mutual
theorem ser_unique {B : Backend σ} (hB : Lawful B) {s : Bool} : ∀ (t : Ty), tyOk t = true →
    ∀ (v : Value) (d : Doc σ), HasTy t v → ser B s t v = .ok d → uniqueNames d = true
  | .leaf l, _, v, d, hv, h => by
    cases v <;> simp [ser] at h
    subst h; simp [uniqueNames]
  | .enum e, _, v, d, hv, h => by
    cases v <;> try simp [ser] at h
    rename_i a
    cases a <;> simp [ser] at h
    obtain ⟨x, -, rfl⟩ := h
    simp [uniqueNames]
  | .rawEnum l, _, v, d, hv, h => by
    cases v <;> simp [ser] at h
    subst h; simp [uniqueNames]
  | .enumSet e, _, v, d, hv, h => by
    cases v <;> try simp [ser] at h
    obtain ⟨l, hl, rfl⟩ := h
    simp only [uniqueNames]
    rw [mapAll_ok] at hl
    rw [uniqueArr_iff]
    intro d hd
    obtain ⟨x, -, hx⟩ := hl.right d hd
    rw [map_ok] at hx
    obtain ⟨y, -, rfl⟩ := hx
    simp [uniqueNames]
  | .opt t, ht, v, d, hv, h => by
    simp only [tyOk] at ht
    rcases hasTy_opt hv with rfl | ⟨w, rfl, hw⟩
    · simp only [ser, Except.ok.injEq] at h; subst h; simp [uniqueNames]
    · simp only [ser] at h
      exact ser_unique hB t ht w d hw h
  | .vec t, ht, v, d, hv, h => by
    simp only [tyOk] at ht
    obtain ⟨vs, rfl, hvs⟩ := hasTy_seq hv
    simp only [ser, map_ok] at h
    obtain ⟨l, hl, rfl⟩ := h
    simp only [uniqueNames]
    rw [mapAll_ok] at hl
    rw [uniqueArr_iff]
    intro d hd
    obtain ⟨x, hx, hx'⟩ := hl.right d hd
    exact ser_unique hB t ht x d (hvs x hx) hx'
  | .arr n t, ht, v, d, hv, h => by
    simp only [tyOk] at ht
    obtain ⟨vs, rfl, -, hvs⟩ := hasTy_arr hv
    simp only [ser, map_ok] at h
    obtain ⟨l, hl, rfl⟩ := h
    simp only [uniqueNames]
    rw [mapAll_ok] at hl
    rw [uniqueArr_iff]
    intro d hd
    obtain ⟨x, hx, hx'⟩ := hl.right d hd
    exact ser_unique hB t ht x d (hvs x hx) hx'
  | .map t, ht, v, d, hv, h => by
    simp only [tyOk] at ht
    obtain ⟨es, rfl, hs, hes⟩ := hasTy_map hv
    simp only [ser, map_ok] at h
    obtain ⟨ms, h, rfl⟩ := h
    have := serEntries_names hB hs h
    simp only [uniqueNames, Bool.and_eq_true, decide_eq_true_eq, uniqueObj_iff]
    refine ⟨this.1, ?_⟩
    intro m hm
    obtain ⟨-, w, hw, hd⟩ := this.2 m hm
    exact ser_unique hB t ht w m.2 (hes _ hw) hd
  | .tuple b ts, ht, v, d, hv, h => by
    simp only [tyOk] at ht
    obtain ⟨vs, rfl, hvs⟩ := hasTy_tuple hv
    simp only [ser, map_ok] at h
    obtain ⟨l, h, rfl⟩ := h
    simp only [uniqueNames, uniqueArr_iff]
    exact serTuple_unique hB ts ht vs l hvs h
  | .record n fs, ht, v, d, hv, h => by
    simp only [tyOk, Bool.and_eq_true] at ht
    obtain ⟨vs, rfl, hvs⟩ := hasTy_record hv
    simp only [ser] at h
    cases hr : reservedNames fs with
    | error e => rw [hr] at h; cases h
    | ok r =>
      rw [hr] at h
      simp only [map_ok] at h
      obtain ⟨ms, h, rfl⟩ := h
      simp only [uniqueNames, Bool.and_eq_true, decide_eq_true_eq, uniqueObj_iff]
      exact ⟨record_nodup hB ht.1.1 ht.1.2 hr hvs h, addFields_unique hB fs ht.1.1 vs ms hvs h⟩
theorem serTuple_unique {B : Backend σ} (hB : Lawful B) {s : Bool} : ∀ (ts : Tys), tysOk ts = true →
    ∀ (vs : List Value) (l : List (Doc σ)), hasTys ts vs = true → serTuple B s ts vs = .ok l →
    ∀ d ∈ l, uniqueNames d = true
  | .nil, _, vs, l, hv, h => by
    rw [hasTys_nil hv] at h
    simp only [serTuple, Except.ok.injEq] at h; subst h; simp
  | .cons t ts, ht, vs, l, hv, h => by
    simp only [tysOk, Bool.and_eq_true] at ht
    obtain ⟨v, ws, rfl, h1, h2⟩ := hasTys_cons hv
    simp only [serTuple] at h
    cases hd : ser B s t v with
    | error e => rw [hd] at h; cases h
    | ok d =>
      rw [hd] at h
      simp only at h
      cases hs : serTuple B s ts ws with
      | error e => rw [hs] at h; cases h
      | ok ds =>
        rw [hs] at h
        simp only [Except.ok.injEq] at h
        subst h
        intro x hx
        rcases List.mem_cons.1 hx with rfl | hx
        · exact ser_unique hB t ht.1 v _ h1 hd
        · exact serTuple_unique hB ts ht.2 ws ds h2 hs x hx
theorem addFields_unique {B : Backend σ} (hB : Lawful B) {s : Bool} {r : Option (List Str)} :
    ∀ (fs : Fields), fieldsOk fs = true → ∀ (vs : List Value) (out : List (Str × Doc σ)),
    hasFields fs vs = true → addFields B s r fs vs [] = .ok out → ∀ m ∈ out, uniqueNames m.2 = true
  | .nil, _, vs, out, ht, h => by
    rw [hasFields_nil ht] at h
    simp only [addFields, Except.ok.injEq] at h; subst h; simp
  | .cons f t fs, hf, vs, out, ht, h => by
    simp only [fieldsOk, Bool.and_eq_true] at hf
    have hfo := fieldOk_iff.1 hf.1.1
    obtain ⟨v, ws, rfl, h1, h2⟩ := hasFields_cons ht
    simp only [addFields] at h
    split at h
    · cases h
    rename_i o1 ho1
    rw [addFields_acc hB, map_ok] at h
    obtain ⟨o2, h, rfl⟩ := h
    intro m hm
    rcases List.mem_append.1 hm with hm | hm
    · by_cases c1 : f.skipSer = true
      · rw [if_pos c1] at ho1; cases ho1; cases hm
      rw [if_neg c1] at ho1
      by_cases c2 : skipField f s v = true
      · rw [if_pos c2] at ho1; cases ho1; cases hm
      rw [if_neg c2] at ho1
      by_cases c3 : f.extra = true
      · rw [if_pos c3] at ho1
        exact addExtras_unique hB t hf.1.2 v o1 h1 ho1 m hm
      rw [if_neg c3] at ho1
      by_cases c4 : f.flatten = true
      · rw [if_pos c4] at ho1
        exact addFlat_unique hB t hf.1.2 v o1 h1 ho1 m hm
      · rw [if_neg c4, map_ok] at ho1
        obtain ⟨d, hd, rfl⟩ := ho1
        rw [hB.add] at hm
        simp only [List.nil_append, List.mem_singleton] at hm
        subst hm
        exact ser_unique hB t hf.1.2 v d h1 hd
    · exact addFields_unique hB fs hf.2 ws o2 h2 h m hm
theorem addExtras_unique {B : Backend σ} (hB : Lawful B) {s : Bool} {r : Option (List Str)} :
    ∀ (t : Ty), tyOk t = true → ∀ (v : Value) (out : List (Str × Doc σ)),
    HasTy t v → addExtras B s r t v [] = .ok out → ∀ m ∈ out, uniqueNames m.2 = true
  | .map t, ht, v, out, hv, h => by
    simp only [tyOk] at ht
    obtain ⟨es, rfl, hs, hes⟩ := hasTy_map hv
    simp only [addExtras] at h
    intro m hm
    obtain ⟨-, w, hw, hd⟩ := (serEntries_names hB hs h).2 m hm
    exact ser_unique hB t ht w m.2 (hes _ hw) hd
  | .leaf _, _, _, _, _, h | .enum _, _, _, _, _, h | .rawEnum _, _, _, _, _, h
  | .enumSet _, _, _, _, _, h | .opt _, _, _, _, _, h | .vec _, _, _, _, _, h
  | .arr _ _, _, _, _, _, h | .record _ _, _, _, _, _, h | .tuple _ _, _, _, _, _, h => by cases h
theorem addFlat_unique {B : Backend σ} (hB : Lawful B) {s : Bool} {r : Option (List Str)} :
    ∀ (t : Ty), tyOk t = true → ∀ (v : Value) (out : List (Str × Doc σ)),
    HasTy t v → addFlat B s r t v [] = .ok out → ∀ m ∈ out, uniqueNames m.2 = true
  | .record _ fs, ht, v, out, hv, h => by
    simp only [tyOk, Bool.and_eq_true] at ht
    obtain ⟨vs, rfl, hvs⟩ := hasTy_record hv
    simp only [addFlat] at h
    exact addFields_unique hB fs ht.1.1 vs out hvs h
  | .leaf _, _, _, _, _, h | .enum _, _, _, _, _, h | .rawEnum _, _, _, _, _, h
  | .enumSet _, _, _, _, _, h | .opt _, _, _, _, _, h | .vec _, _, _, _, _, h
  | .arr _ _, _, _, _, _, h | .map _, _, _, _, _, h | .tuple _ _, _, _, _, _, h => by cases h
end

end Verif.Serial
