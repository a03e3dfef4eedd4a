import Verif.Targets.Exec
/-
Between emissions a signal lists only slots that are connected.
-/
namespace Verif.Targets

/-- The slot is connected. -/
def Conn (w : World) (s : SlotId) : Prop := ∃ x : Slot, w.slots[s]? = some x ∧ x.sender.isSome = true

structure Tidy (w : World) (acts : List Act) : Prop where
  once : ∀ s, total (fun y : Sig => y.slots.count s) w.sigs ≤ 1
  live : ∀ (g : SigId) (y : Sig) (s : SlotId), w.sigs[g]? = some y → y.deferred = false → s ∈ y.slots → Conn w s
  defer : ∀ (g : SigId) (y : Sig), w.sigs[g]? = some y → y.emitting = 0 → y.deferred = true → ∃ k, .clean g k ∈ acts
  done : ∀ (g : SigId) (k : Nat) (y : Sig) (i : Nat) (s : SlotId), .clean g k ∈ acts → w.sigs[g]? = some y → i < k →
    y.slots[i]? = some s → Conn w s

theorem Tidy.unique {w : World} {acts : List Act} (h : Tidy w acts) {g g' : SigId} {y y' : Sig} {s : SlotId}
    (hy : w.sigs[g]? = some y) (hy' : w.sigs[g']? = some y') (hs : s ∈ y.slots) (hs' : s ∈ y'.slots) : g = g' := by
  apply Classical.byContradiction
  intro hne
  have h1 := h.once s
  have h2 := total_set (fun y : Sig => y.slots.count s) hy { y with slots := [] }
  have h3 := total_pos (fun y : Sig => y.slots.count s) (l := w.sigs.set g { y with slots := [] }) (a := y') (by
    refine List.mem_of_getElem? (i := g') ?_
    rw [getElem?_set_some hy, if_neg hne, hy'])
  have h4 := List.count_pos_iff.2 hs
  have h5 := List.count_pos_iff.2 hs'
  simp only [List.count_nil] at h2
  omega

/-- A slot is listed once. -/
theorem Tidy.erased {w : World} {acts : List Act} (h : Tidy w acts) {g : SigId} {y : Sig} {s : SlotId}
    (hy : w.sigs[g]? = some y) (hs : s ∈ y.slots) : s ∉ y.slots.erase s := by
  intro hm
  have h1 := h.once s
  have h2 := total_pos (fun y : Sig => y.slots.count s) (List.mem_of_getElem? hy)
  have h3 := count_erase hs s
  have h4 := List.count_pos_iff.2 hm
  simp only [if_true] at h3
  omega

/-- A signal changes. -/
theorem tidy_sig {w : World} {acts acts' : List Act} (h : Tidy w acts) {g : SigId} {y y' : Sig}
    (hy : w.sigs[g]? = some y) (hn : ∀ s, y'.slots.count s ≤ y.slots.count s)
    (hl : y'.deferred = false → ∀ s ∈ y'.slots, Conn w s)
    (hd : y'.emitting = 0 → y'.deferred = true → ∃ k, .clean g k ∈ acts')
    (hc : ∀ k i s, .clean g k ∈ acts' → i < k → y'.slots[i]? = some s → Conn w s)
    (ho : ∀ g' k, g ≠ g' → (.clean g' k ∈ acts' ↔ .clean g' k ∈ acts)) : Tidy (w.setSig g y') acts' where
  once s := by
    have h1 := h.once s
    have h2 := total_set (fun y : Sig => y.slots.count s) hy y'
    have h3 := hn s
    simp only [World.setSig]
    omega
  live g' z s hz hf hs := by
    simp only [World.setSig, getElem?_set_some hy] at hz
    split at hz
    · cases hz; exact hl hf s hs
    · exact h.live g' z s hz hf hs
  defer g' z hz he hf := by
    simp only [World.setSig, getElem?_set_some hy] at hz
    split at hz
    · next hg => subst hg; cases hz; exact hd he hf
    · next hg =>
      obtain ⟨k, hk⟩ := h.defer g' z hz he hf
      exact ⟨k, (ho g' k hg).2 hk⟩
  done g' k z i s hk hz hi hs := by
    simp only [World.setSig, getElem?_set_some hy] at hz
    split at hz
    · next hg => subst hg; cases hz; exact hc k i s hk hi hs
    · next hg => exact h.done g' k z i s ((ho g' k hg).1 hk) hz hi hs

/-- Slots change. -/
theorem tidy_slots {w w' : World} {acts : List Act} (h : Tidy w acts) (hs : w'.sigs = w.sigs)
    (hc : ∀ (g : SigId) (y : Sig) (s : SlotId), w.sigs[g]? = some y → s ∈ y.slots →
      (y.deferred = true → ∃ k, .clean g k ∈ acts) → Conn w s → Conn w' s) : Tidy w' acts where
  once := by rw [hs]; exact h.once
  live g y s hy hf hm := by
    rw [hs] at hy
    exact hc g y s hy hm (fun h => by rw [hf] at h; cases h) (h.live g y s hy hf hm)
  defer := by rw [hs]; exact h.defer
  done g k y i s hk hy hi hm := by
    rw [hs] at hy
    exact hc g y s hy (List.mem_of_getElem? hm) (fun _ => ⟨k, hk⟩) (h.done g k y i s hk hy hi hm)

/-- Only actions change, and not those that clean. -/
theorem tidy_acts {w : World} {acts acts' : List Act} (h : Tidy w acts)
    (ho : ∀ g k, .clean g k ∈ acts' ↔ .clean g k ∈ acts) : Tidy w acts' where
  once := h.once
  live := h.live
  defer g y hy he hd := by obtain ⟨k, hk⟩ := h.defer g y hy he hd; exact ⟨k, (ho g k).2 hk⟩
  done g k y i s hk := h.done g k y i s ((ho g k).1 hk)

theorem conn_set {w : World} {s t : SlotId} {x x' : Slot} (hx : w.slots[s]? = some x) (h : Conn w t)
    (ht : s = t → x'.sender = x.sender) : Conn (w.setSlot s x') t := by
  obtain ⟨z, hz, hs⟩ := h
  by_cases hst : s = t
  · subst hst
    cases hx.symm.trans hz
    exact ⟨x', by simp only [World.setSlot, getElem?_set_some hx, if_true], by rw [ht rfl]; exact hs⟩
  · exact ⟨z, by simp only [World.setSlot, getElem?_set_some hx, if_neg hst]; exact hz, hs⟩

/-- While a signal is cleaned nothing else unlocks it. -/
theorem lone {w : World} {a : Act} {rest : List Act} (hi : Inv w (a :: rest)) {g : SigId} (ha : a.unlocks g = 1) {k : Nat} :
    .clean g k ∉ rest := by
  intro hm
  have h1 := hi.lock g
  have h2 := total_pos (Act.unlocks g) hm
  rw [total_cons, ha] at h1
  simp only [Act.unlocks, if_true] at h2
  have : (lockedOf w g).toNat ≤ 1 := by cases lockedOf w g <;> decide
  omega

theorem step_tidy {w w' : World} {a : Act} {new rest : List Act} (hi : Inv w (a :: rest)) (ht : Tidy w (a :: rest))
    (h : step w a = .ok (w', new)) : Tidy w' (new ++ rest) := by
  cases a with
  | release s =>
    have ht := tidy_acts (acts' := rest) ht (by simp)
    simp only [step, release] at h
    split at h
    · cases h
    · rename_i x hx
      have ⟨h1, h2⟩ := slot?_some.1 hx
      split at h
      · next h3 =>
        cases h
        refine tidy_acts (acts := rest) ?_ (by simp)
        refine tidy_slots ht rfl fun g y t hy hm _ hc => ?_
        refine conn_set (x' := ⟨0, none, []⟩) h1 hc fun he => ?_
        subst he
        -- a slot that is listed has two references
        have h4 := hi.refs s
        rw [refsOf_some h1, h3] at h4
        have h5 := total_pos (fun y : Sig => y.slots.count s) (List.mem_of_getElem? hy)
        have h6 := List.count_pos_iff.2 hm
        have h7 : total (Act.refs s) (.release s :: rest) = 1 + total (Act.refs s) rest := by
          simp [total_cons, Act.refs]
        unfold refCount at h4
        omega
      · cases h
        exact tidy_slots ht rfl fun g y t hy hm _ hc => conn_set h1 hc fun _ => rfl
  | drop o =>
    have ht := tidy_acts (acts' := rest) ht (by simp)
    cases o with
    | conn s => simp only [step, drop] at h; cases h; exact tidy_acts ht (by simp)
    | guard s => simp only [step, drop] at h; cases h; exact tidy_acts ht (by simp)
    | sig g =>
      simp only [step, drop] at h
      split at h
      · cases h
      · rename_i y hy
        split at h
        · cases h
        · split at h
          · cases h
          · split at h
            · cases h
            · cases h
              refine tidy_sig ht hy (fun _ => Nat.le_refl _) (fun hf s hs => ht.live g y s hy hf hs) (fun he hf => ?_)
                (fun k i s hk hik hs => ?_) (by simp)
              · obtain ⟨k, hk⟩ := ht.defer g y hy he hf
                exact ⟨k, by simpa using hk⟩
              · exact ht.done g k y i s (by simpa using hk) hy hik hs
  | disconnect s =>
    have ht := tidy_acts (acts' := rest) ht (by simp)
    simp only [step, disconnect] at h
    split at h
    · cases h
    · rename_i x hx
      have ⟨h1, h2⟩ := slot?_some.1 hx
      split at h
      · cases h; exact ht
      · rename_i g hg
        split at h
        · cases h
        · rename_i y hy
          split at h
          · cases h
          · rename_i hul
            have noclean : ∀ k, .clean g k ∉ rest := by
              intro k hk
              obtain ⟨z, hz, hlk⟩ := unlocker hi (List.mem_cons_of_mem _ hk) (g := g) (by simp [Act.unlocks])
              cases hy.symm.trans hz
              exact hul hlk
            split at h
            · cases h
            · split at h
              · rename_i hs
                split at h
                · cases h
                  have h3 : Tidy (w.setSig g { y with slots := y.slots.erase s, locked := true })
                      ([.release s, .unlock g] ++ rest) := by
                    refine tidy_sig ht hy (fun t => ?_) (fun hf t hm => ?_) (fun he hf => ?_) (fun k i t hk _ _ => ?_)
                      (by simp)
                    · have := count_erase hs t; dsimp only; omega
                    · exact ht.live g y t hy hf (List.mem_of_mem_erase hm)
                    · obtain ⟨k, hk⟩ := ht.defer g y hy he hf
                      exact ⟨k, by simp [hk]⟩
                    · exact absurd (by simpa using hk) (noclean k)
                  refine tidy_slots h3 rfl fun g' z t hz hm _ hc => ?_
                  refine conn_set (w := w.setSig g { y with slots := y.slots.erase s, locked := true }) h1 hc fun he => ?_
                  subst he
                  simp only [World.setSig, getElem?_set_some hy] at hz
                  split at hz
                  · cases hz; exact absurd hm (ht.erased hy hs)
                  · next hne => exact absurd (ht.unique hy hz hs hm) hne
                · rename_i hem
                  cases h
                  have h3 : Tidy (w.setSig g { y with deferred := true, locked := true }) ([.unlock g] ++ rest) := by
                    refine tidy_sig ht hy (fun t => Nat.le_refl _) (fun hf => by cases hf) (fun he => absurd he hem)
                      (fun k i t hk _ _ => ?_) (by simp)
                    exact absurd (by simpa using hk) (noclean k)
                  refine tidy_slots h3 rfl fun g' z t hz hm hcl hc => ?_
                  refine conn_set (w := w.setSig g { y with deferred := true, locked := true }) h1 hc fun he => ?_
                  subst he
                  simp only [World.setSig, getElem?_set_some hy] at hz
                  split at hz
                  · next hgg =>
                    subst hgg
                    cases hz
                    obtain ⟨k, hk⟩ := hcl rfl
                    exact absurd (by simpa using hk) (noclean k)
                  · next hne => exact absurd (ht.unique hy hz hs hm) hne
              · rename_i hs
                cases h
                obtain ⟨z, hz, hm⟩ := hi.member s x g h1 hg
                cases hy.symm.trans hz
                exact absurd hm hs
  | unlock g =>
    have ht := tidy_acts (acts' := rest) ht (by simp)
    simp only [step, unlock] at h
    split at h
    · cases h
    · rename_i y hy
      cases h
      exact tidy_sig ht hy (fun _ => Nat.le_refl _) (fun hf s hs => ht.live g y s hy hf hs) (ht.defer g y hy)
        (fun k i s hk hik hs => ht.done g k y i s hk hy hik hs) (by simp)
  | purge g =>
    have hlone := fun k => lone hi (g := g) (by simp [Act.unlocks]) (k := k)
    have ht := tidy_acts (acts' := rest) ht (by simp)
    simp only [step, purge] at h
    split at h
    · cases h
    · rename_i y hy
      split at h
      · cases h
        exact tidy_sig ht hy (fun _ => Nat.le_refl _) (fun hf s hs => ht.live g y s hy hf hs) (ht.defer g y hy)
          (fun k i s hk hik hs => ht.done g k y i s hk hy hik hs) (by simp)
      · rename_i s tl hsl
        split at h
        · cases h
        · rename_i x hx
          have ⟨h1, h2⟩ := slot?_some.1 hx
          have hs : s ∈ y.slots := by rw [hsl]; exact List.mem_cons_self
          cases h
          have h3 : Tidy (w.setSig g { y with slots := tl }) ([.release s, .purge g] ++ rest) := by
            refine tidy_sig ht hy (fun t => ?_) (fun hf t hm => ?_) (fun he hf => ?_) (fun k i t hk _ _ => ?_) (by simp)
            · rw [hsl, List.count_cons]; dsimp only; omega
            · exact ht.live g y t hy hf (by rw [hsl]; exact List.mem_cons_of_mem _ hm)
            · obtain ⟨k, hk⟩ := ht.defer g y hy he hf
              exact ⟨k, by simp [hk]⟩
            · exact absurd (by simpa using hk) (hlone k)
          refine tidy_slots h3 rfl fun g' z t hz hm _ hc => ?_
          refine conn_set (w := w.setSig g { y with slots := tl }) h1 hc fun he => ?_
          subst he
          simp only [World.setSig, getElem?_set_some hy] at hz
          split at hz
          · cases hz
            have := ht.erased hy hs
            rw [hsl, List.erase_cons_head] at this
            exact absurd hm this
          · next hne => exact absurd (ht.unique hy hz hs hm) hne
  | clean g k =>
    have hlone := fun k => lone hi (g := g) (by simp [Act.unlocks]) (k := k)
    simp only [step, clean] at h
    split at h
    · cases h
    · rename_i y hy
      split at h
      · rename_i hk
        cases h
        rw [List.getElem?_eq_none_iff] at hk
        refine tidy_sig ht hy (fun _ => Nat.le_refl _) (fun _ s hs => ?_) (fun _ hf => by cases hf)
          (fun k' i s hk' _ _ => absurd hk' (hlone k')) (fun g' k' hne => ?_)
        · obtain ⟨i, hi'⟩ := List.getElem?_of_mem hs
          have := (List.getElem?_eq_some_iff.1 hi').1
          exact ht.done g k y i s List.mem_cons_self hy (by dsimp only at this; omega) hi'
        · simp [Ne.symm hne]
      · rename_i s hs
        split at h
        · cases h
        · rename_i x hx
          have ⟨h1, h2⟩ := slot?_some.1 hx
          split at h
          · rename_i hsome
            cases h
            refine ⟨ht.once, ht.live, fun g' z hz he hf => ?_, fun g' k' z i t hk' hz hik hit => ?_⟩
            · obtain ⟨k', hk'⟩ := ht.defer g' z hz he hf
              rcases List.mem_cons.1 hk' with h | h
              · cases h; exact ⟨k + 1, by simp⟩
              · exact ⟨k', by simp [h]⟩
            · rcases List.mem_cons.1 hk' with h | h
              · cases h
                cases hy.symm.trans hz
                by_cases hik' : i = k
                · subst hik'
                  cases hs.symm.trans hit
                  exact ⟨x, h1, hsome⟩
                · exact ht.done g k y i t List.mem_cons_self hy (by omega) hit
              · exact ht.done g' k' z i t (List.mem_cons_of_mem _ h) hz hik hit
          · cases h
            refine tidy_sig ht hy (fun t => ?_) (fun hf t hm => ?_) (fun he hf => ⟨k, by simp⟩)
              (fun k' i t hk' hik hit => ?_) (by simp)
            · have := count_eraseIdx hs t; dsimp only; omega
            · exact ht.live g y t hy hf (List.mem_of_mem_eraseIdx hm)
            · have hkk : k' = k := by
                simp only [List.cons_append, List.nil_append, List.mem_cons, reduceCtorEq, false_or] at hk'
                rcases hk' with h | h
                · cases h; rfl
                · exact absurd h (hlone k')
              subst hkk
              simp only [List.getElem?_eraseIdx, if_pos hik] at hit
              exact ht.done g k' y i t List.mem_cons_self hy hik hit

theorem exec_tidy {w : World} {acts : List Act} {r : Outcome World} (h : Exec w acts r) (hi : Inv w acts)
    (ht : Tidy w acts) {w' : World} (hr : r = .ok w') : Tidy w' [] := by
  induction h with
  | done w => cases hr; exact ht
  | more h1 _ ih =>
    have := step_inv hi
    rw [h1] at this
    exact ih this (step_tidy hi ht h1) hr
  | relock _ => cases hr
  | misuse _ => cases hr
  | ub _ => cases hr

theorem begin_tidy {w w' : World} {op : Op} {acts : List Act} (hi : Inv w []) (ht : Tidy w [])
    (h : begin w op = some (w', acts)) : Tidy w' acts := by
  have hidle : ∀ (g : SigId) (y : Sig), w.sigs[g]? = some y → y.emitting = 0 → y.deferred = false := by
    intro g y hy he
    cases hf : y.deferred
    · rfl
    · obtain ⟨k, hk⟩ := ht.defer g y hy he hf
      simp at hk
  cases op with
  | newSig =>
    simp only [begin] at h
    cases h
    have key : ∀ (g : SigId) (y : Sig), (w.sigs ++ [⟨[], 0, false, false, true⟩])[g]? = some y →
        w.sigs[g]? = some y ∨ y = ⟨[], 0, false, false, true⟩ := by
      intro g y hy
      rcases Nat.lt_trichotomy g w.sigs.length with h | h | h
      · rw [List.getElem?_append_left h] at hy; exact .inl hy
      · subst h; simp at hy; exact .inr hy.symm
      · rw [List.getElem?_eq_none (by simp; omega)] at hy; cases hy
    refine ⟨fun s => ?_, fun g y s hy hf hs => ?_, fun g y hy he hf => ?_, fun g k y i s hk => ?_⟩
    · have := ht.once s
      simp only [total_append, total_cons, total_nil, List.count_nil]
      omega
    · rcases key g y hy with h | rfl
      · exact ht.live g y s h hf hs
      · cases hs
    · rcases key g y hy with h | rfl
      · exact ht.defer g y h he hf
      · cases hf
    · cases hk
  | connect g front =>
    simp only [begin] at h
    split at h
    · cases h
    · rename_i y hy
      have ⟨h1, _⟩ := sig?_some.1 hy
      cases h
      have hold : ∀ {s : SlotId}, Conn w s → ∀ (ss : List Sig) (hh : List Owned),
          Conn { w with slots := w.slots ++ [⟨2, some g, []⟩], sigs := ss, held := hh } s := by
        rintro s ⟨x, hx, hs⟩ ss hh
        exact ⟨x, by rw [List.getElem?_append_left (List.getElem?_eq_some_iff.1 hx).1]; exact hx, hs⟩
      have hnew : ∀ (ss : List Sig) (hh : List Owned),
          Conn { w with slots := w.slots ++ [⟨2, some g, []⟩], sigs := ss, held := hh } w.slots.length :=
        fun ss hh => ⟨⟨2, some g, []⟩, by simp, rfl⟩
      have hmem : ∀ s ∈ (if front then w.slots.length :: y.slots else y.slots ++ [w.slots.length]),
          s = w.slots.length ∨ s ∈ y.slots := by
        intro s hs
        split at hs <;> simpa [or_comm] using hs
      refine ⟨fun s => ?_, fun g' z s hz hf hs => ?_, fun g' z hz he hf => ?_, fun g k y i s hk => ?_⟩
      · have h2 := ht.once s
        have h3 := total_set (fun y : Sig => y.slots.count s) h1
          { y with slots := if front then w.slots.length :: y.slots else y.slots ++ [w.slots.length] }
        have h4 : (if front then w.slots.length :: y.slots else y.slots ++ [w.slots.length]).count s =
            y.slots.count s + if w.slots.length = s then 1 else 0 := by
          split <;> simp [List.count_cons, List.count_append]
        have h5 : w.slots.length = s → total (fun y : Sig => y.slots.count s) w.sigs = 0 := by
          intro he
          have := hi.refs s
          unfold refCount refsOf at this
          rw [List.getElem?_eq_none (by omega)] at this
          simp at this
          omega
        dsimp only [World.setSig] at h3 ⊢
        by_cases he : w.slots.length = s
        · have := h5 he
          simp only [he, if_true] at h4 h3 ⊢
          omega
        · simp only [he, if_false] at h4
          omega
      · simp only [World.setSig, getElem?_set_some h1] at hz
        split at hz
        · cases hz
          rcases hmem s hs with rfl | hs
          · exact hnew _ _
          · exact hold (ht.live g y s h1 hf hs) _ _
        · exact hold (ht.live g' z s hz hf hs) _ _
      · simp only [World.setSig, getElem?_set_some h1] at hz
        split at hz
        · next hg => subst hg; cases hz; exact ht.defer g y h1 he hf
        · exact ht.defer g' z hz he hf
      · cases hk
  | copy s =>
    simp only [begin] at h
    split at h
    · cases h
    · rename_i x hx
      have ⟨h1, h2⟩ := slot?_some.1 hx
      cases h
      exact tidy_slots ht rfl fun g y t hy hm _ hc => conn_set (x' := { x with refs := x.refs + 1 }) h1 hc fun _ => rfl
  | guard s => simp only [begin] at h; split at h <;> cases h; exact tidy_slots ht rfl fun _ _ _ _ _ _ hc => hc
  | unguard s => simp only [begin] at h; split at h <;> cases h; exact tidy_slots ht rfl fun _ _ _ _ _ _ hc => hc
  | give s o =>
    simp only [begin] at h
    split at h
    · cases h
    · rename_i x hx
      have ⟨h1, h2⟩ := slot?_some.1 hx
      split at h
      · cases h
        exact tidy_slots ht rfl fun g y t hy hm _ hc => conn_set (x' := { x with owns := o :: x.owns }) h1 hc fun _ => rfl
      · cases h
  | drop o =>
    simp only [begin] at h
    split at h <;> cases h
    exact tidy_acts (tidy_slots (w' := { w with held := w.held.erase o }) ht rfl fun _ _ _ _ _ _ hc => hc) (by simp)
  | disconnect s =>
    simp only [begin] at h
    split at h <;> cases h
    exact tidy_acts (tidy_slots (w' := { w with held := w.held.erase (.conn s) }) ht rfl fun _ _ _ _ _ _ hc => hc) (by simp)
  | disconnectAll g =>
    simp only [begin] at h
    split at h
    · cases h
    · rename_i y hy
      have ⟨h1, _⟩ := sig?_some.1 hy
      split at h
      · rename_i he
        cases h
        exact tidy_sig ht h1 (fun _ => Nat.le_refl _) (fun hf s hs => ht.live g y s h1 hf hs)
          (fun _ hf => by rw [hidle g y h1 he] at hf; cases hf) (by simp) (by simp)
      · rename_i he
        cases h
        have h3 : Tidy (w.setSig g { y with deferred := y.deferred || !y.slots.isEmpty }) [] := by
          refine tidy_sig ht h1 (fun _ => Nat.le_refl _) (fun hf s hs => ?_) (fun h => absurd h he) (by simp) (by simp)
          simp only [Bool.or_eq_false_iff] at hf
          exact ht.live g y s h1 hf.1 hs
        refine tidy_slots h3 rfl fun g' z s hz hm hcl hc => ?_
        simp only [List.not_mem_nil, exists_false, imp_false, Bool.not_eq_true] at hcl
        have hns : s ∉ y.slots := by
          intro hs
          simp only [World.setSig, getElem?_set_some h1] at hz
          split at hz
          · cases hz
            simp only [Bool.or_eq_false_iff, Bool.not_eq_false', List.isEmpty_iff] at hcl
            rw [hcl.2] at hs
            cases hs
          · next hne => exact hne (ht.unique h1 hz hs hm)
        obtain ⟨x, hx, hs⟩ := hc
        have hx : w.slots[s]? = some x := hx
        exact ⟨x, by simp [List.getElem?_mapIdx, hx, hns], hs⟩
  | emit g =>
    simp only [begin] at h
    split at h
    · cases h
    · rename_i y hy
      have ⟨h1, _⟩ := sig?_some.1 hy
      cases h
      exact tidy_sig ht h1 (fun _ => Nat.le_refl _) (fun hf s hs => ht.live g y s h1 hf hs)
          (fun he => by simp at he) (by simp) (by simp)
  | finish g =>
    simp only [begin] at h
    split at h
    · cases h
    · rename_i y hy
      have ⟨h1, _⟩ := sig?_some.1 hy
      split at h
      · cases h
      · rename_i n hn
        split at h
        · cases h
          refine tidy_sig ht h1 (fun _ => Nat.le_refl _) (fun hf s hs => ht.live g y s h1 hf hs)
            (fun he hf => ⟨0, by simp⟩) (fun k i s hk hik hs => ?_) (fun g' k hne => by simp [Ne.symm hne])
          simp at hk
          omega
        · rename_i hnd
          cases h
          exact tidy_sig ht h1 (fun _ => Nat.le_refl _) (fun hf s hs => ht.live g y s h1 hf hs)
            (fun he hf => absurd ⟨he, hf⟩ hnd) (by simp) (by simp)

theorem reach_tidy {w : World} (h : Reach w) : Tidy w [] := by
  induction h with
  | empty => exact ⟨by simp [World.empty, total_nil], by simp [World.empty], by simp [World.empty], by simp [World.empty]⟩
  | op hr h ih =>
    obtain ⟨w', acts, h1, h2⟩ := h
    exact exec_tidy h2 (begin_inv (reach_inv hr) h1) (begin_tidy (reach_inv hr) ih h1) rfl

end Verif.Targets
