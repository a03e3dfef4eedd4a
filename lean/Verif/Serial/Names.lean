import Verif.Serial.Typing
/-
Lemmas: the checks of field names.
-/
namespace Verif.Serial
open Verif.Path Verif.Enums Spec

/-! ### The static assertions -/

theorem pushUnique_snd {buf : List Str} (hb : buf.Nodup) (n : Str) :
    (pushUnique buf n).2 = true ↔ (buf ++ [n]).Nodup := by
  unfold pushUnique
  by_cases h : n ∈ buf
  · simp [h, List.nodup_append]
  · simp [h, List.nodup_append, hb]
    rintro a ha rfl
    exact h ha

theorem pushUnique_fst {buf : List Str} {n : Str} (h : (pushUnique buf n).2 = true) :
    (pushUnique buf n).1 = buf ++ [n] := by
  unfold pushUnique at h ⊢
  by_cases hc : buf.contains n = true
  · rw [if_pos hc] at h; cases h
  · rw [if_neg hc]

theorem nodup_left {α : Type} {a b : List α} (h : (a ++ b).Nodup) : a.Nodup :=
  (List.nodup_append.1 h).1

theorem pushAll_spec : ∀ (ns : List Str) {buf : List Str}, buf.Nodup →
    ((pushAll buf ns).2 = true ↔ (buf ++ ns).Nodup) ∧
    ((pushAll buf ns).2 = true → (pushAll buf ns).1 = buf ++ ns)
  | [], buf, hb => by simp [pushAll, hb]
  | n :: ns, buf, hb => by
    simp only [pushAll, Bool.and_eq_true]
    have h1 := pushUnique_snd hb n
    by_cases h : (pushUnique buf n).2 = true
    · have hn := h1.1 h
      have hf := pushUnique_fst h
      rw [hf]
      have ih := pushAll_spec ns hn
      simp only [List.append_assoc, List.singleton_append] at ih
      exact ⟨by rw [← ih.1]; simp [h], fun h' => ih.2 h'.2⟩
    · refine ⟨?_, fun h' => absurd h'.1 h⟩
      constructor
      · exact fun h' => absurd h'.1 h
      · intro hn
        rw [show buf ++ n :: ns = (buf ++ [n]) ++ ns by simp] at hn
        exact absurd (h1.2 (nodup_left hn)) h

/-- Two steps of a collection, one after the other. -/
theorem collect_step {buf a b : List Str} {r : List Str × Bool} {c : List Str → List Str × Bool}
    (h1 : r.2 = true ↔ (buf ++ a).Nodup) (h1' : r.2 = true → r.1 = buf ++ a)
    (h2 : (buf ++ a).Nodup → ((c (buf ++ a)).2 = true ↔ (buf ++ a ++ b).Nodup) ∧
      ((c (buf ++ a)).2 = true → (c (buf ++ a)).1 = buf ++ a ++ b)) :
    ((r.2 && (c r.1).2) = true ↔ (buf ++ (a ++ b)).Nodup) ∧
    ((r.2 && (c r.1).2) = true → (c r.1).1 = buf ++ (a ++ b)) := by
  rw [← List.append_assoc]
  by_cases h : r.2 = true
  · have hn := h1.1 h
    rw [h1' h, h]
    simpa using h2 hn
  · have h' : r.2 = false := by simpa using h
    rw [h']
    refine ⟨?_, fun h => by simp at h⟩
    simp only [Bool.false_and, Bool.false_eq_true, false_iff]
    intro hn
    exact h (h1.2 (nodup_left hn))

mutual
theorem collectSer_spec : ∀ (fs : Fields), fieldsOk fs = true → ∀ {buf : List Str}, buf.Nodup →
    ((collectSer fs buf).2 = true ↔ (buf ++ outNames fs).Nodup) ∧
    ((collectSer fs buf).2 = true → (collectSer fs buf).1 = buf ++ outNames fs)
  | .nil, _, buf, hb => by simp [collectSer, outNames, hb]
  | .cons f t fs, hf, buf, hb => by
    simp only [fieldsOk, Bool.and_eq_true] at hf
    have hfo := fieldOk_iff.1 hf.1.1
    simp only [collectSer, outNames]
    by_cases c1 : (f.skipSer || f.extra) = true
    · simp only [c1, if_true, List.nil_append, Bool.true_and]
      exact collectSer_spec fs hf.2 hb
    · rw [if_neg c1, if_neg c1]
      by_cases c2 : f.flatten = true
      · rw [if_pos c2, if_pos c2]
        have := collectSerTy_spec t hf.1.2 (hfo.2.2.1 c2) hb
        exact collect_step this.1 this.2 fun h => collectSer_spec fs hf.2 h
      · rw [if_neg c2, if_neg c2]
        exact collect_step (pushUnique_snd hb _) pushUnique_fst fun h => collectSer_spec fs hf.2 h
theorem collectSerTy_spec : ∀ (t : Ty), tyOk t = true → isRecord t = true →
    ∀ {buf : List Str}, buf.Nodup →
    ((collectSerTy t buf).2 = true ↔ (buf ++ outNamesTy t).Nodup) ∧
    ((collectSerTy t buf).2 = true → (collectSerTy t buf).1 = buf ++ outNamesTy t)
  | .record _ fs, ht, _, buf, hb => by
    simp only [tyOk, Bool.and_eq_true] at ht
    simp only [collectSerTy, outNamesTy]
    exact collectSer_spec fs ht.1.1 hb
  | .leaf _, _, h, _, _ | .enum _, _, h, _, _ | .rawEnum _, _, h, _, _ | .enumSet _, _, h, _, _
  | .opt _, _, h, _, _ | .vec _, _, h, _, _ | .arr _ _, _, h, _, _ | .map _, _, h, _, _
  | .tuple _ _, _, h, _, _ => by cases h
end

theorem serNamesOk_iff {fs : Fields} (hf : fieldsOk fs = true) :
    serNamesOk fs = true ↔ (outNames fs).Nodup := by
  have := (collectSer_spec fs hf (buf := []) (by simp)).1
  simpa [serNamesOk] using this

mutual
theorem collectDeser_spec : ∀ (fs : Fields), fieldsOk fs = true → ∀ {buf : List Str}, buf.Nodup →
    ((collectDeser fs buf).2 = true ↔ (buf ++ inNames fs).Nodup) ∧
    ((collectDeser fs buf).2 = true → (collectDeser fs buf).1 = buf ++ inNames fs)
  | .nil, _, buf, hb => by simp [collectDeser, inNames, hb]
  | .cons f t fs, hf, buf, hb => by
    simp only [fieldsOk, Bool.and_eq_true] at hf
    have hfo := fieldOk_iff.1 hf.1.1
    simp only [collectDeser, inNames]
    by_cases c1 : (f.skipDeser || f.extra) = true
    · simp only [c1, if_true, List.nil_append, Bool.true_and]
      exact collectDeser_spec fs hf.2 hb
    · rw [if_neg c1, if_neg c1]
      by_cases c2 : f.flatten = true
      · rw [if_pos c2, if_pos c2]
        have := collectDeserTy_spec t hf.1.2 (hfo.2.2.1 c2) hb
        exact collect_step this.1 this.2 fun h => collectDeser_spec fs hf.2 h
      · rw [if_neg c2, if_neg c2]
        have := pushAll_spec (f.key :: f.aliases) hb
        exact collect_step this.1 this.2 fun h => collectDeser_spec fs hf.2 h
theorem collectDeserTy_spec : ∀ (t : Ty), tyOk t = true → isRecord t = true →
    ∀ {buf : List Str}, buf.Nodup →
    ((collectDeserTy t buf).2 = true ↔ (buf ++ inNamesTy t).Nodup) ∧
    ((collectDeserTy t buf).2 = true → (collectDeserTy t buf).1 = buf ++ inNamesTy t)
  | .record _ fs, ht, _, buf, hb => by
    simp only [tyOk, Bool.and_eq_true] at ht
    simp only [collectDeserTy, inNamesTy]
    exact collectDeser_spec fs ht.1.1 hb
  | .leaf _, _, h, _, _ | .enum _, _, h, _, _ | .rawEnum _, _, h, _, _ | .enumSet _, _, h, _, _
  | .opt _, _, h, _, _ | .vec _, _, h, _, _ | .arr _ _, _, h, _, _ | .map _, _, h, _, _
  | .tuple _ _, _, h, _, _ => by cases h
end

theorem deserNamesOk_iff {fs : Fields} (hf : fieldsOk fs = true) :
    deserNamesOk fs = true ↔ (inNames fs).Nodup := by
  have := (collectDeser_spec fs hf (buf := []) (by simp)).1
  simpa [deserNamesOk] using this

/-! ### Reserved names -/

theorem nodup_reverse' {l : List Str} : l.reverse.Nodup ↔ l.Nodup :=
  (List.reverse_perm l).nodup_iff

theorem addNames_ok : ∀ (ns : List Str) {names names' : List Str}, names.Nodup →
    (addNames names ns = .ok names' ↔ (ns.reverse ++ names).Nodup ∧ names' = ns.reverse ++ names)
  | [], names, names', hn => by simp [addNames, hn, eq_comm]
  | n :: ns, names, names', hn => by
    simp only [addNames, addName]
    by_cases h : n ∈ names
    · have : ¬ ((n :: ns).reverse ++ names).Nodup := by
        simp only [List.reverse_cons, List.append_assoc, List.singleton_append]
        intro h'
        have := (List.nodup_append.1 h').2.1
        simp [h] at this
      simp [h, this]
      intro h'; simp at this; exact absurd h' this
    · have hn' : (n :: names).Nodup := by simp [h, hn]
      have hc : names.contains n = false := by simpa using h
      simp only [hc, Bool.false_eq_true, if_false]
      rw [addNames_ok ns hn']
      simp

theorem addNames_err : ∀ {ns names : List Str} {e : Exc}, addNames names ns = .error e →
    ∃ w, e = .logic w
  | [], names, e, h => by cases h
  | n :: ns, names, e, h => by
    simp only [addNames, addName] at h
    by_cases hc : names.contains n = true
    · rw [if_pos hc] at h; cases h; exact ⟨_, rfl⟩
    · rw [if_neg hc] at h; exact addNames_err h

mutual
theorem collectReserved_ok : ∀ (fs : Fields), fieldsOk fs = true → ∀ {names : List Str} {n : Nat}
    {r : List Str × Nat}, names.Nodup → n ≤ 1 →
    (collectReserved fs (names, n) = .ok r ↔ ((allNames fs).reverse ++ names).Nodup ∧
      n + extraCount fs ≤ 1 ∧ r = ((allNames fs).reverse ++ names, n + extraCount fs))
  | .nil, _, names, n, r, hn, h1 => by
    simp [collectReserved, allNames, extraCount, hn, h1, eq_comm]
  | .cons f t fs, hf, names, n, r, hn, h1 => by
    simp only [fieldsOk, Bool.and_eq_true] at hf
    have hfo := fieldOk_iff.1 hf.1.1
    simp only [collectReserved, allNames, extraCount]
    by_cases c1 : f.extra = true
    · simp only [if_pos c1, List.nil_append]
      by_cases hn1 : n + 1 > 1
      · simp only [if_pos hn1, reduceCtorEq, false_iff]
        rintro ⟨-, h, -⟩; omega
      · simp only [if_neg hn1]
        rw [collectReserved_ok fs hf.2 hn (by omega), Nat.add_assoc]
    · simp only [if_neg c1]
      by_cases c2 : f.flatten = true
      · simp only [if_pos c2]
        have ht := fun q => collectReservedTy_ok t hf.1.2 (hfo.2.2.1 c2) (names := names) (n := n) q hn h1
        cases hc : collectReservedTy t (names, n) with
        | error e =>
          simp only [reduceCtorEq, false_iff]
          rintro ⟨hd, hx, -⟩
          have : collectReservedTy t (names, n) = .ok ((allNamesTy t).reverse ++ names, n + extraCountTy t) := by
            rw [ht]
            refine ⟨?_, by omega, rfl⟩
            rw [List.reverse_append, List.append_assoc] at hd
            exact (List.nodup_append.1 hd).2.1
          rw [hc] at this; cases this
        | ok q =>
          obtain ⟨h2, h3, rfl⟩ := (ht q).1 hc
          simp only
          rw [collectReserved_ok fs hf.2 h2 h3]
          simp [Nat.add_assoc]
      · simp only [if_neg c2]
        cases hc : addNames names (f.key :: f.aliases) with
        | error e =>
          simp only [Except.map, reduceCtorEq, false_iff]
          rintro ⟨hd, hx, -⟩
          have : addNames names (f.key :: f.aliases) = .ok ((f.key :: f.aliases).reverse ++ names) := by
            rw [addNames_ok _ hn]
            refine ⟨?_, rfl⟩
            rw [List.reverse_append, List.append_assoc] at hd
            exact (List.nodup_append.1 hd).2.1
          rw [hc] at this; cases this
        | ok q =>
          obtain ⟨h2, rfl⟩ := (addNames_ok _ hn).1 hc
          simp only [Except.map]
          rw [collectReserved_ok fs hf.2 h2 h1]
          simp
theorem collectReservedTy_ok : ∀ (t : Ty), tyOk t = true → isRecord t = true →
    ∀ {names : List Str} {n : Nat} (r : List Str × Nat), names.Nodup → n ≤ 1 →
    (collectReservedTy t (names, n) = .ok r ↔ ((allNamesTy t).reverse ++ names).Nodup ∧
      n + extraCountTy t ≤ 1 ∧ r = ((allNamesTy t).reverse ++ names, n + extraCountTy t))
  | .record _ fs, ht, _, names, n, r, hn, h1 => by
    simp only [tyOk, Bool.and_eq_true] at ht
    simp only [collectReservedTy, allNamesTy, extraCountTy]
    exact collectReserved_ok fs ht.1.1 hn h1
  | .leaf _, _, h, _, _, _, _, _ | .enum _, _, h, _, _, _, _, _ | .rawEnum _, _, h, _, _, _, _, _
  | .enumSet _, _, h, _, _, _, _, _ | .opt _, _, h, _, _, _, _, _ | .vec _, _, h, _, _, _, _, _
  | .arr _ _, _, h, _, _, _, _, _ | .map _, _, h, _, _, _, _, _
  | .tuple _ _, _, h, _, _, _, _, _ => by cases h
end

mutual
theorem collectReserved_err : ∀ (fs : Fields), fieldsOk fs = true → ∀ {acc : List Str × Nat} {e : Exc},
    collectReserved fs acc = .error e → ∃ w, e = .logic w
  | .nil, _, acc, e, h => by simp [collectReserved] at h
  | .cons f t fs, hf, acc, e, h => by
    simp only [fieldsOk, Bool.and_eq_true] at hf
    have hfo := fieldOk_iff.1 hf.1.1
    simp only [collectReserved] at h
    split at h
    · cases h
      rename_i he
      split at he
      · split at he
        · cases he; exact ⟨_, rfl⟩
        · cases he
      split at he
      · rename_i c2
        exact collectReservedTy_err t hf.1.2 (hfo.2.2.1 c2) he
      · rw [map_error] at he
        exact addNames_err he
    · exact collectReserved_err fs hf.2 h
theorem collectReservedTy_err : ∀ (t : Ty), tyOk t = true → isRecord t = true →
    ∀ {acc : List Str × Nat} {e : Exc}, collectReservedTy t acc = .error e → ∃ w, e = .logic w
  | .record _ fs, ht, _, acc, e, h => by
    simp only [tyOk, Bool.and_eq_true] at ht
    simp only [collectReservedTy] at h
    exact collectReserved_err fs ht.1.1 h
  | .leaf _, _, h, _, _, _ | .enum _, _, h, _, _, _ | .rawEnum _, _, h, _, _, _
  | .enumSet _, _, h, _, _, _ | .opt _, _, h, _, _, _ | .vec _, _, h, _, _, _
  | .arr _ _, _, h, _, _, _ | .map _, _, h, _, _, _
  | .tuple _ _, _, h, _, _, _ => by cases h
end

theorem reservedNames_none {fs : Fields} : reservedNames fs = .ok none ↔ hasExtraOrFlatten fs = false := by
  unfold reservedNames
  split
  · rename_i h
    simp [h]
  · rename_i h
    simpa using h

theorem reservedNames_some {fs : Fields} (hf : fieldsOk fs = true) {names : List Str} :
    reservedNames fs = .ok (some names) ↔ hasExtraOrFlatten fs = true ∧ (allNames fs).Nodup ∧
      extraCount fs ≤ 1 ∧ names = (allNames fs).reverse := by
  unfold reservedNames
  by_cases h : hasExtraOrFlatten fs = true
  · rw [if_pos h]
    have := fun r => collectReserved_ok fs hf (names := []) (n := 0) (r := r) (by simp) (by omega)
    simp only [map_ok, this, h, true_and]
    simp only [List.append_nil, nodup_reverse', Nat.zero_add]
    constructor
    · rintro ⟨a, ⟨h1, h2, rfl⟩, h3⟩
      simp only [Option.some.injEq] at h3
      exact ⟨h1, h2, h3.symm⟩
    · rintro ⟨h1, h2, rfl⟩
      exact ⟨_, ⟨h1, h2, rfl⟩, rfl⟩
  · rw [if_neg h]
    simp [h]

theorem reservedNames_err {fs : Fields} (hf : fieldsOk fs = true) {e : Exc}
    (h : reservedNames fs = .error e) : ∃ w, e = .logic w := by
  unfold reservedNames at h
  split at h
  · rw [map_error] at h
    exact collectReserved_err fs hf h
  · cases h

/-- What is known when the names were collected. -/
theorem reservedNames_ok {fs : Fields} (hf : fieldsOk fs = true) {r : Option (List Str)}
    (h : reservedNames fs = .ok r) :
    (r = none ∧ hasExtraOrFlatten fs = false) ∨
    (r = some (allNames fs).reverse ∧ hasExtraOrFlatten fs = true ∧ (allNames fs).Nodup ∧ extraCount fs ≤ 1) := by
  cases r with
  | none => exact .inl ⟨rfl, reservedNames_none.1 h⟩
  | some names =>
    obtain ⟨h1, h2, h3, rfl⟩ := (reservedNames_some hf).1 h
    exact .inr ⟨rfl, h1, h2, h3⟩

end Verif.Serial
