import Verif.Custom.Spec

/-! Which types `deserialize` and `patch` compile for. -/

namespace Verif.Custom

/-- The generic overload is better than nothing, and ambiguous next to the library's. -/
theorem resolve_user {α : Type} (f : α) (generic builtin : Bool) :
    resolve (some f) generic builtin = if generic && builtin then none else some (.custom f) := by
  cases generic <;> cases builtin <;> rfl

theorem resolve_none {α : Type} (generic builtin : Bool) :
    resolve (none : Option α) generic builtin = if builtin then some .builtin else none := by
  cases generic <;> cases builtin <;> rfl

theorem select_ok {α : Type} (m u : Option α) (g b : Bool) :
    (select m u g b).ok = true ↔ m ≠ none ∨ (u ≠ none ∧ (g = true → b = false)) ∨ (u = none ∧ b = true) := by
  cases m with
  | some f => simp [select, Sel.ok]
  | none =>
    cases u with
    | none => cases b <;> simp [select, resolve_none, Sel.ok]
    | some f => cases g <;> cases b <;> simp [select, resolve_user, Sel.ok]

theorem select_builtin {α : Type} (m u : Option α) (g b : Bool) :
    select m u g b = .builtin ↔ m = none ∧ u = none ∧ b = true := by
  cases m with
  | some f => simp [select]
  | none =>
    cases u with
    | none => cases b <;> simp [select, resolve_none]
    | some f => cases g <;> cases b <;> simp [select, resolve_user]

theorem readable_iff (t : Ty) : (t.hooks.onRead t.supported).ok = true ↔ Readable t :=
  select_ok _ _ _ _

/-- The match of `readCompiles` at a composite type. -/
theorem ok_match {α : Type} (s : Sel α) (inner : Bool) :
    s.compiles inner = true ↔
      s.ok = true ∧ (s = .builtin → inner = true) := by
  cases s <;> simp [Sel.ok, Sel.compiles]

mutual
theorem read_compiles : ∀ t : Ty, readCompiles t = true ↔ ∀ u, ReadReaches t u → Readable u
  | .opq h => by
    constructor
    · intro hc u hu
      cases hu
      exact (readable_iff _).mp hc
    · intro ha; exact (readable_iff (.opq h)).mpr (ha _ (.refl _))
  | .num h => by
    constructor
    · intro hc u hu
      cases hu
      exact (readable_iff (.num h)).mp hc
    · intro ha; exact (readable_iff (.num h)).mpr (ha _ (.refl _))
  | .str h => by
    constructor
    · intro hc u hu
      cases hu
      exact (readable_iff (.str h)).mp hc
    · intro ha; exact (readable_iff (.str h)).mpr (ha _ (.refl _))
  | .enm h names => by
    constructor
    · intro hc u hu
      cases hu
      exact (readable_iff (.enm h names)).mp hc
    · intro ha; exact (readable_iff (.enm h names)).mpr (ha _ (.refl _))
  | .opt h t => by
    simp only [readCompiles]
    rw [ok_match]
    constructor
    · rintro ⟨hok, hin⟩ u hu
      cases hu with
      | refl => exact (readable_iff (.opt h t)).mp hok
      | opt hb hr => exact (read_compiles t).mp (hin hb) u hr
    · intro ha
      exact ⟨(readable_iff (.opt h t)).mpr (ha _ (.refl _)),
        fun hb => (read_compiles t).mpr fun u hu => ha u (.opt hb hu)⟩
  | .seq h t => by
    simp only [readCompiles]
    rw [ok_match]
    constructor
    · rintro ⟨hok, hin⟩ u hu
      cases hu with
      | refl => exact (readable_iff (.seq h t)).mp hok
      | seq hb hr => exact (read_compiles t).mp (hin hb) u hr
    · intro ha
      exact ⟨(readable_iff (.seq h t)).mpr (ha _ (.refl _)),
        fun hb => (read_compiles t).mpr fun u hu => ha u (.seq hb hu)⟩
  | .map h key t => by
    simp only [readCompiles]
    rw [ok_match]
    constructor
    · rintro ⟨hok, hin⟩ u hu
      cases hu with
      | refl => exact (readable_iff (.map h key t)).mp hok
      | map hb hr => exact (read_compiles t).mp (hin hb) u hr
    · intro ha
      exact ⟨(readable_iff (.map h key t)).mpr (ha _ (.refl _)),
        fun hb => (read_compiles t).mpr fun u hu => ha u (.map hb hu)⟩
  | .tup h ts => by
    simp only [readCompiles]
    rw [ok_match]
    constructor
    · rintro ⟨hok, hin⟩ u hu
      cases hu with
      | refl => exact (readable_iff (.tup h ts)).mp hok
      | tup hb hm hr => exact (readTys_compile ts).mp (hin hb) _ hm u hr
    · intro ha
      exact ⟨(readable_iff (.tup h ts)).mpr (ha _ (.refl _)),
        fun hb => (readTys_compile ts).mpr fun t hm u hu => ha u (.tup hb hm hu)⟩
  | .set h eh names => by
    simp only [readCompiles]
    rw [ok_match]
    constructor
    · rintro ⟨hok, hin⟩ u hu
      cases hu with
      | refl => exact (readable_iff (.set h eh names)).mp hok
      | set hb => exact (readable_iff (.enm eh names)).mp (hin hb)
    · intro ha
      exact ⟨(readable_iff (.set h eh names)).mpr (ha _ (.refl _)),
        fun hb => (readable_iff (.enm eh names)).mpr (ha _ (.set hb))⟩
  | .obj h fs => by
    simp only [readCompiles]
    rw [ok_match]
    constructor
    · rintro ⟨hok, hin⟩ u hu
      cases hu with
      | refl => exact (readable_iff (.obj h fs)).mp hok
      | obj hb hm hr => exact (readFlds_compile fs).mp (hin hb) _ hm u hr
    · intro ha
      exact ⟨(readable_iff (.obj h fs)).mpr (ha _ (.refl _)),
        fun hb => (readFlds_compile fs).mpr fun t hm u hu => ha u (.obj hb hm hu)⟩

theorem readTys_compile : ∀ ts : Tys,
    readTysCompile ts = true ↔ ∀ t ∈ ts.types, ∀ u, ReadReaches t u → Readable u
  | .nil => by simp [readTysCompile, Tys.types]
  | .cons t rest => by
    simp only [readTysCompile, Bool.and_eq_true, Tys.types, List.mem_cons, forall_eq_or_imp,
      read_compiles t, readTys_compile rest]

theorem readFlds_compile : ∀ fs : Flds,
    readFldsCompile fs = true ↔ ∀ t ∈ fs.types, ∀ u, ReadReaches t u → Readable u
  | .nil => by simp [readFldsCompile, Flds.types]
  | .cons f t rest => by
    simp only [readFldsCompile, Bool.and_eq_true, Flds.types, List.mem_cons, forall_eq_or_imp,
      read_compiles t, readFlds_compile rest]
end

theorem onPatch_cases (h : Hooks) (b : Bool) :
    (∃ f, h.ser.patch = some f ∧ h.onPatch b = .custom f) ∨
    (h.ser.patch = none ∧ h.ser.read ≠ none ∧ h.onPatch b = .fails) ∨
    (h.ser.patch = none ∧ h.ser.read = none ∧ h.adl.patch = none ∧
      h.onPatch b = if b then .builtin else .replace) ∨
    (∃ f, h.ser.patch = none ∧ h.ser.read = none ∧ h.adl.patch = some f ∧
      h.onPatch b = if h.generic && b then .replace else .custom f) := by
  obtain ⟨⟨sd, sw, sr, sp⟩, ⟨ad, aw, ar, ap⟩, g⟩ := h
  cases sp with
  | some f => exact Or.inl ⟨f, rfl, rfl⟩
  | none =>
    cases sr with
    | some r =>
      refine Or.inr (Or.inl ⟨rfl, by simp, ?_⟩)
      cases ap with
      | none => cases b <;> rfl
      | some f => cases g <;> cases b <;> rfl
    | none =>
      cases ap with
      | none =>
        refine Or.inr (Or.inr (Or.inl ⟨rfl, rfl, rfl, ?_⟩))
        cases b <;> rfl
      | some f =>
        refine Or.inr (Or.inr (Or.inr ⟨f, rfl, rfl, rfl, ?_⟩))
        cases g <;> cases b <;> rfl

/-- Types that `patch` replaces as a whole. -/
theorem patch_leaf (t : Ty) (hp : t.patchable = false)
    (hr : ∀ u, PatchReaches t u → u = t) :
    (t.hooks.onPatch false).compiles false (readCompiles t) = true ↔ ∀ u, PatchReaches t u → Patchable u := by
  have hred : (∀ u, PatchReaches t u → Patchable u) ↔ Patchable t :=
    ⟨fun h => h t (.refl t), fun h u hu => hr u hu ▸ h⟩
  rw [hred]
  have hno : ¬ PatchesContent t := by
    rintro ⟨_, h, u, rfl⟩
    simp [Ty.patchable] at hp
  simp only [Patchable, AdlPatch, hp]
  rcases onPatch_cases t.hooks false with ⟨f, h1, h2⟩ | ⟨h1, h2, h3⟩ | ⟨h1, h2, h3, h4⟩ | ⟨f, h1, h2, h3, h4⟩
  · simp [h1, h2, PatchSel.compiles]
  · simp [h1, h2, h3, PatchSel.compiles]
  · simp only [h4, PatchSel.compiles, h1, h2, h3, Bool.false_eq_true, if_false, read_compiles]
    simp [hno]
  · simp [h4, PatchSel.compiles, h1, h2, h3]

mutual
theorem patch_compiles : ∀ t : Ty, patchCompiles t = true ↔ ∀ u, PatchReaches t u → Patchable u
  | .opq h => patch_leaf (.opq h) rfl (by rintro u hu; cases hu; rfl)
  | .num h => patch_leaf (.num h) rfl (by rintro u hu; cases hu; rfl)
  | .str h => patch_leaf (.str h) rfl (by rintro u hu; cases hu; rfl)
  | .enm h names => patch_leaf (.enm h names) rfl (by rintro u hu; cases hu; rfl)
  | .seq h t => patch_leaf (.seq h t) rfl (by rintro u hu; cases hu; rfl)
  | .map h key t => patch_leaf (.map h key t) rfl (by rintro u hu; cases hu; rfl)
  | .tup h ts => patch_leaf (.tup h ts) rfl (by rintro u hu; cases hu; rfl)
  | .set h eh names => patch_leaf (.set h eh names) rfl (by rintro u hu; cases hu; rfl)
  | .opt h t => by
    simp only [patchCompiles]
    rcases onPatch_cases h true with ⟨f, h1, h2⟩ | ⟨h1, h2, h3⟩ | ⟨h1, h2, h3, h4⟩ | ⟨f, h1, h2, h3, h4⟩
    · simp only [h2, PatchSel.compiles, true_iff]
      intro u hu
      cases hu with
      | refl => exact Or.inl (by simp [Ty.hooks, h1])
      | opt hb _ => rw [h2] at hb; cases hb
    · simp only [h3, PatchSel.compiles, Bool.false_eq_true, false_iff]
      intro ha
      rcases ha _ (.refl _) with hh | ⟨hh, _⟩
      · exact hh h1
      · exact h2 hh
    · simp only [if_true] at h4
      simp only [h4, PatchSel.compiles, patch_compiles t]
      constructor
      · intro ha u hu
        cases hu with
        | refl => exact Or.inr ⟨h2, Or.inr (Or.inl ⟨h3, h, t, rfl⟩)⟩
        | opt _ hr => exact ha u hr
      · intro ha u hu
        exact ha u (.opt h4 hu)
    · cases hg : h.generic with
      | true =>
        simp only [hg, Bool.true_and, if_true] at h4
        simp only [h4, PatchSel.compiles, read_compiles]
        constructor
        · intro ha u hu
          cases hu with
          | refl => exact Or.inr ⟨h2, Or.inr (Or.inr ha)⟩
          | opt hb _ => rw [h4] at hb; cases hb
        · intro ha
          rcases ha _ (.refl _) with hh | ⟨_, hh | hh | hh⟩
          · exact absurd h1 hh
          · exact absurd (hh.2 hg) (by simp [Ty.patchable])
          · have := hh.1; simp only [Ty.hooks, h3] at this; cases this
          · exact hh
      | false =>
        simp only [hg, Bool.false_and, Bool.false_eq_true, if_false] at h4
        simp only [h4, PatchSel.compiles, true_iff]
        intro u hu
        cases hu with
        | refl => exact Or.inr ⟨h2, Or.inl ⟨by simp [Ty.hooks, h3], by simp [Ty.hooks, hg]⟩⟩
        | opt hb _ => rw [h4] at hb; cases hb
  | .obj h fs => by
    simp only [patchCompiles]
    rcases onPatch_cases h true with ⟨f, h1, h2⟩ | ⟨h1, h2, h3⟩ | ⟨h1, h2, h3, h4⟩ | ⟨f, h1, h2, h3, h4⟩
    · simp only [h2, PatchSel.compiles, true_iff]
      intro u hu
      cases hu with
      | refl => exact Or.inl (by simp [Ty.hooks, h1])
      | obj hb _ _ => rw [h2] at hb; cases hb
    · simp only [h3, PatchSel.compiles, Bool.false_eq_true, false_iff]
      intro ha
      rcases ha _ (.refl _) with hh | ⟨hh, _⟩
      · exact hh h1
      · exact h2 hh
    · simp only [if_true] at h4
      simp only [h4, PatchSel.compiles, Bool.and_eq_true, read_compiles, patchFlds_compile fs]
      constructor
      · rintro ⟨hrd, ha⟩ u hu
        cases hu with
        | refl => exact Or.inr ⟨h2, Or.inr (Or.inr hrd)⟩
        | obj _ hm hr => exact ha _ hm u hr
      · intro ha
        refine ⟨?_, fun t hm u hu => ha u (.obj h4 hm hu)⟩
        rcases ha _ (.refl _) with hh | ⟨_, hh | hh | hh⟩
        · exact absurd h1 hh
        · exact absurd h3 hh.1
        · obtain ⟨_, _, _, hh⟩ := hh; cases hh
        · exact hh
    · cases hg : h.generic with
      | true =>
        simp only [hg, Bool.true_and, if_true] at h4
        simp only [h4, PatchSel.compiles, read_compiles]
        constructor
        · intro ha u hu
          cases hu with
          | refl => exact Or.inr ⟨h2, Or.inr (Or.inr ha)⟩
          | obj hb _ _ => rw [h4] at hb; cases hb
        · intro ha
          rcases ha _ (.refl _) with hh | ⟨_, hh | hh | hh⟩
          · exact absurd h1 hh
          · exact absurd (hh.2 hg) (by simp [Ty.patchable])
          · have := hh.1; simp only [Ty.hooks, h3] at this; cases this
          · exact hh
      | false =>
        simp only [hg, Bool.false_and, Bool.false_eq_true, if_false] at h4
        simp only [h4, PatchSel.compiles, true_iff]
        intro u hu
        cases hu with
        | refl => exact Or.inr ⟨h2, Or.inl ⟨by simp [Ty.hooks, h3], by simp [Ty.hooks, hg]⟩⟩
        | obj hb _ _ => rw [h4] at hb; cases hb

theorem patchFlds_compile : ∀ fs : Flds,
    patchFldsCompile fs = true ↔ ∀ t ∈ fs.types, ∀ u, PatchReaches t u → Patchable u
  | .nil => by simp [patchFldsCompile, Flds.types]
  | .cons f t rest => by
    simp only [patchFldsCompile, Bool.and_eq_true, Flds.types, List.mem_cons, forall_eq_or_imp,
      patch_compiles t, patchFlds_compile rest]
end

end Verif.Custom
