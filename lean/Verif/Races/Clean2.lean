import Verif.Races.Clean

/-! All steps keep that (`Clean.lean`). -/

namespace Verif.Races

variable {st : State} {t : Nat}

theorem own_tail {st : State} (hk : StateOk st) {s g : Nat} (h : st.mem.own s = some g) :
    s ∈ tailAt (st.mem.list g) (st.mem.list g).head? := by
  rw [tailAt_head]
  exact (hk.mem.lists s g).2 h

theorem began_local {g : Nat} {m : Mem} {c' : Code} (h : RestOk st) (hp : (st.threads t).code.plain = true)
    (hq : Quiet st.mem m) (hc : c'.cleans = none) :
    Local t st.mem (st.threads t).code (m.began t g) c' := by
  have hl := plain_local (c' := c') h hp hq hc
  refine { hl with emits := ?_ }
  · intro g' hd
    by_cases hg : g' = g
    · subst hg; exact .inl (by simp [Mem.began, upd])
    · rcases hl.emits g' hd with h1 | h1 | h1
      · exact .inl (by simpa [Mem.began, upd, hg] using h1)
      · exact .inr (.inl h1)
      · exact .inr (.inr h1)

theorem K.cleaned_cleans (k : K) (o : Option Nat) : (k.cleaned o).cleans = none := by cases k <;> rfl

/-- What is rebound after the clean-up of `k.sig`. -/
theorem K.cleaned_rebinds {m : Mem} {k : K} {s g : Nat} (hs : s ∈ m.list g) (h : k.rebinds g) :
    Rebinds m s g (k.cleaned (m.list k.sig).head?) := by
  cases k with
  | em => exact h.elim
  | sw1 a b =>
    rcases h with rfl | rfl
    · exact .inl ⟨rfl, by rw [K.sig, tailAt_head]; exact hs⟩
    · exact .inr rfl
  | sw2 a b =>
    cases h
    exact .inl ⟨rfl, by rw [K.sig, tailAt_head]; exact hs⟩
  | mv a =>
    cases h
    exact .inl ⟨rfl, by rw [K.sig, tailAt_head]; exact hs⟩

theorem emEnd_local {g : Nat} {m : Mem} (hk : StateOk st) (h : RestOk st) (hp : (st.threads t).code.plain = true)
    (hq : Quiet st.mem m) (he : t ∈ st.mem.ems g) :
    Local t st.mem (st.threads t).code (m.ended t g)
      (if (m.ended t g).active g = 0 && (m.ended t g).deferred g then
        .cl g ((m.ended t g).list g).head? (.em g) else .unl g) := by
  have hl := plain_local (c' := .unl g) h hp hq rfl
  refine { deferred := hl.deferred, emits := ?_, cleans := ?_, kept := hl.kept, sender := ?_, owned := hl.owned, null := hl.null }
  · intro g' hd
    by_cases hg : g' = g
    · subst hg
      by_cases hx : (m.ended t g').ems g' = []
      · right; left
        have ha : (m.ended t g').active g' = 0 := by
          show upd m.active g' (m.active g' - 1) g' = 0
          have hx : upd m.ems g' ((m.ems g').erase t) g' = [] := hx
          rw [upd_same] at hx ⊢
          rw [hq.ems] at hx
          rw [hq.active, hk.mem.active]
          have := List.length_erase_of_mem he
          rw [hx] at this
          exact this.symm
        have hd' : (m.ended t g').deferred g' = true := hd
        rw [if_pos (by simp [ha, hd'])]
        exact ⟨_, rfl⟩
      · exact .inl hx
    · rcases hl.emits g' hd with h1 | ⟨i, h1⟩ | h1
      · exact .inl (by simpa [Mem.ended, upd, hg] using h1)
      · cases h1
      · exact .inr (.inr h1)
  · intro g' i hc s hs hm
    split at hc
    · cases hc
      show s ∈ tailAt (m.list g) (m.list g).head?
      have hs : m.own s = some g := hs
      rw [hq.own] at hs
      rw [hq.list]
      exact own_tail hk hs
    · cases hc
  · intro s g' hs
    rcases hl.sender s g' hs with h1 | h1
    · left
      rcases h1 with h1 | h1 | ⟨h1, h2 | h2⟩
      · exact .inl h1
      · exact h1.elim
      · exact .inr (.inr ⟨h1, .inl h2⟩)
      · exact h2.elim
    · exact .inr h1

/-- The slot `i` of `g` leaves the list. -/
theorem removed_tail {l : List Nat} {s i : Nat} (hn : l.Nodup) (hi : i ∈ l) (h : s ∈ tailAt l (some i)) (hs : s ≠ i) :
    s ∈ tailAt (l.erase i) (succ l i) :=
  tailAt_erase (fun h => succ_ne hn h rfl) hs (tailAt_next hn hi h hs)

/-- Invalidating `i` of `g` and removing it. -/
theorem removal_local {m : Mem} {i : Nat} {c' : Code} (h : RestOk st)
    (hown : ∀ s, m.own s = if s = i then none else st.mem.own s)
    (hmark : ∀ s, s ≠ i → m.marked s = st.mem.marked s) (hdef : m.deferred = st.mem.deferred) (hems : m.ems = st.mem.ems)
    (hsnd : ∀ s, s ≠ i → m.sender s = st.mem.sender s) (hi : m.sender i = none) (hlive : ∀ s, m.live s = true → st.mem.live s = true)
    (hcl : ∀ g i, (st.threads t).code.cleans = some (g, i) → ∃ i', c'.cleans = some (g, i'))
    (hcl' : ∀ g j, c'.cleans = some (g, j) → ∀ s, s ≠ i → st.mem.own s = some g → st.mem.marked s = true →
      s ∈ tailAt (m.list g) j)
    (hrb : ∀ s g, s ≠ i → st.mem.own s = some g → Rebinds st.mem s g (st.threads t).code → Rebinds m s g c')
    (hdis : ∀ s g, s ≠ i → st.mem.own s = some g → Dis st.mem s g (st.threads t).code → Dis m s g c') :
    Local t st.mem (st.threads t).code m c' := by
  have ho : ∀ {s g}, m.own s = some g → s ≠ i ∧ st.mem.own s = some g := by
    intro s g hs
    rw [hown] at hs
    split at hs
    · cases hs
    · exact ⟨‹_›, hs⟩
  refine ⟨?_, ?_, ?_, ?_, ?_, ?_, ?_⟩
  · intro s g hs hm
    obtain ⟨h1, h2⟩ := ho hs
    rw [hmark s h1] at hm
    rw [hdef]; exact h.deferred s g h2 hm
  · rw [hdef, hems]
    intro g hg
    by_cases he : st.mem.ems g = []
    · by_cases hc : ∃ i, (st.threads t).code.cleans = some (g, i)
      · obtain ⟨i, hi⟩ := hc
        exact .inr (.inl (hcl g i hi))
      · exact .inr (.inr ⟨hg, he, fun i hi => hc ⟨i, hi⟩⟩)
    · exact .inl he
  · intro g j hc s hs hm
    obtain ⟨h1, h2⟩ := ho hs
    rw [hmark s h1] at hm
    exact hcl' g j hc s h1 h2 hm
  · intro s g u _ _ hs hm
    obtain ⟨h1, h2⟩ := ho hs
    rw [hmark s h1] at hm
    exact ⟨h2, hm⟩
  · intro s g hs
    obtain ⟨h1, h2⟩ := ho hs
    by_cases hf : Fine st.mem (st.threads t).code s g
    · left
      unfold Fine
      rw [hsnd s h1, hmark s h1]
      rcases hf with h3 | h3 | ⟨h3, h4 | h4⟩
      · exact .inl h3
      · exact .inr (.inl (hrb s g h1 h2 h3))
      · exact .inr (.inr ⟨h3, .inl h4⟩)
      · exact .inr (.inr ⟨h3, .inr (hdis s g h1 h2 h4)⟩)
    · exact .inr ⟨h2, hf, fun h3 => by rw [hsnd s h1]; exact h3⟩
  · intro s hl hs
    have h1 : s ≠ i := by rintro rfl; exact hs hi
    rw [hown, if_neg h1]
    rw [hsnd s h1] at hs
    exact h.owned s (hlive s hl) hs
  · intro s hm
    by_cases h1 : s = i
    · rw [h1]; exact hi
    · rw [hmark s h1] at hm
      rw [hsnd s h1]
      exact h.null s hm

theorem remove_eq {m m' : Mem} {g i : Nat} (h : m.remove t g i = some m') : m' = m.removed t g i ∧ i ∈ m.list g := by
  unfold Mem.remove at h
  split at h
  · rename_i hx
    cases h
    simp only [Bool.and_eq_true, List.contains_iff_mem] at hx
    exact ⟨rfl, hx.1.2⟩
  · cases h

theorem store_eq {m m' : Mem} {i : Nat} {v : Option Nat} (h : m.store t i v = some m') : m' = m.stored t i v := by
  unfold Mem.store at h
  split at h
  · cases h; rfl
  · cases h

/-- Invalidating `i` of `g` while it is being emitted. -/
theorem invalidated_local {m : Mem} {g i : Nat} {c' : Code} (h : RestOk st) (hh : st.mem.held g = some t)
    (ho : st.mem.own i = some g) (he : st.mem.ems g ≠ [])
    (hown : m.own = st.mem.own)
    (hmark : m.marked = upd st.mem.marked i true) (hdef : m.deferred = upd st.mem.deferred g true)
    (hems : m.ems = st.mem.ems) (hsnd : m.sender = upd st.mem.sender i none) (hlive : ∀ s, m.live s = true → st.mem.live s = true)
    (hcl : (st.threads t).code.cleans = none) (hcl' : c'.cleans = none)
    (hrb : ∀ s g, ¬ Rebinds st.mem s g (st.threads t).code)
    (hdis : ∀ s g, s ≠ i → ¬ Dis st.mem s g (st.threads t).code) :
    Local t st.mem (st.threads t).code m c' := by
  have hd : ∀ s, s ≠ i → (m.sender s = st.mem.sender s ∧ m.marked s = st.mem.marked s) := by
    intro s hs
    rw [hsnd, hmark]
    exact ⟨upd_other _ _ hs, upd_other _ _ hs⟩
  have hi : m.sender i = none ∧ m.marked i = true := by
    rw [hsnd, hmark]
    exact ⟨upd_same .., upd_same ..⟩
  refine ⟨?_, ?_, ?_, ?_, ?_, ?_, ?_⟩
  · intro s g' hs hm
    rw [hdef]
    by_cases hg : g' = g
    · subst hg; exact upd_same ..
    · rw [upd_other _ _ hg]
      rw [hown] at hs
      have hx : s ≠ i := by
        rintro rfl
        rw [ho] at hs
        cases hs
        exact hg rfl
      rw [(hd s hx).2] at hm
      exact h.deferred s g' hs hm
  · intro g' hg
    rw [hems]
    by_cases hx : g' = g
    · subst hx; exact .inl he
    · rw [hdef, upd_other _ _ hx] at hg
      by_cases hy : st.mem.ems g' = []
      · exact .inr (.inr ⟨hg, hy, fun i h => by rw [hcl] at h; cases h⟩)
      · exact .inl hy
  · intro g' j hx
    rw [hcl'] at hx
    cases hx
  · intro s g' u hu hx hs hm
    rw [hown] at hs
    by_cases hsi : s = i
    · subst hsi
      rw [ho] at hs
      cases hs
      rw [hh] at hx
      cases hx
      exact absurd rfl hu
    · rw [(hd s hsi).2] at hm
      exact ⟨hs, hm⟩
  · intro s g' hs
    rw [hown] at hs
    by_cases hsi : s = i
    · subst hsi
      exact .inl (.inr (.inr ⟨hi.1, .inl hi.2⟩))
    · by_cases hf : Fine st.mem (st.threads t).code s g'
      · left
        unfold Fine
        rw [(hd s hsi).1, (hd s hsi).2]
        rcases hf with h3 | h3 | ⟨h3, h4 | h4⟩
        · exact .inl h3
        · exact absurd h3 (hrb s g')
        · exact .inr (.inr ⟨h3, .inl h4⟩)
        · exact absurd h4 (hdis s g' hsi)
      · exact .inr ⟨hs, hf, fun h3 => by rw [(hd s hsi).1]; exact h3⟩
  · intro s hl hs
    have h1 : s ≠ i := by rintro rfl; exact hs hi.1
    rw [hown]
    rw [(hd s h1).1] at hs
    exact h.owned s (hlive s hl) hs
  · intro s hm
    by_cases h1 : s = i
    · rw [h1]; exact hi.1
    · rw [(hd s h1).2] at hm
      rw [(hd s h1).1]
      exact h.null s hm

/-- Rebinding. -/
theorem rebound_local {m : Mem} {g i : Nat} {c' : Code} (h : RestOk st)
    (ho : st.mem.own i = some g)
    (hown : m.own = st.mem.own)
    (hmark : m.marked = upd st.mem.marked i false) (hdef : m.deferred = st.mem.deferred)
    (hems : m.ems = st.mem.ems) (hsnd : m.sender = upd st.mem.sender i (some g)) (hlive : ∀ s, m.live s = true → st.mem.live s = true)
    (hcl : (st.threads t).code.cleans = none) (hcl' : c'.cleans = none)
    (hrb : ∀ s g, s ≠ i → Rebinds st.mem s g (st.threads t).code → Rebinds m s g c')
    (hdis : ∀ s g, ¬ Dis st.mem s g (st.threads t).code) :
    Local t st.mem (st.threads t).code m c' := by
  have hd : ∀ s, s ≠ i → (m.sender s = st.mem.sender s ∧ m.marked s = st.mem.marked s) := by
    intro s hs
    rw [hsnd, hmark]
    exact ⟨upd_other _ _ hs, upd_other _ _ hs⟩
  have hi : m.sender i = some g ∧ m.marked i = false := by
    rw [hsnd, hmark]
    exact ⟨upd_same .., upd_same ..⟩
  have hne : ∀ {s}, m.marked s = true → s ≠ i := by
    rintro s hm rfl
    rw [hi.2] at hm
    cases hm
  refine ⟨?_, ?_, ?_, ?_, ?_, ?_, ?_⟩
  · intro s g' hs hm
    rw [hdef]
    rw [hown] at hs
    have hx := hne hm
    rw [(hd s hx).2] at hm
    exact h.deferred s g' hs hm
  · intro g' hg
    rw [hems]
    rw [hdef] at hg
    by_cases hy : st.mem.ems g' = []
    · exact .inr (.inr ⟨hg, hy, fun i h => by rw [hcl] at h; cases h⟩)
    · exact .inl hy
  · intro g' j hx
    rw [hcl'] at hx
    cases hx
  · intro s g' u hu hx hs hm
    rw [hown] at hs
    rw [(hd s (hne hm)).2] at hm
    exact ⟨hs, hm⟩
  · intro s g' hs
    rw [hown] at hs
    by_cases hsi : s = i
    · subst hsi
      rw [ho] at hs
      cases hs
      exact .inl (.inl hi.1)
    · by_cases hf : Fine st.mem (st.threads t).code s g'
      · left
        unfold Fine
        rw [(hd s hsi).1, (hd s hsi).2]
        rcases hf with h3 | h3 | ⟨h3, h4 | h4⟩
        · exact .inl h3
        · exact .inr (.inl (hrb s g' hsi h3))
        · exact .inr (.inr ⟨h3, .inl h4⟩)
        · exact absurd h4 (hdis s g')
      · exact .inr ⟨hs, hf, fun h3 => by rw [(hd s hsi).1]; exact h3⟩
  · intro s hl hs
    rw [hown]
    by_cases h1 : s = i
    · subst h1; rw [ho]; nofun
    · rw [(hd s h1).1] at hs
      exact h.owned s (hlive s hl) hs
  · intro s hm
    have h1 := hne hm
    rw [(hd s h1).2] at hm
    rw [(hd s h1).1]
    exact h.null s hm

end Verif.Races
