import Verif.Races.Clean2

/-! All steps keep that (`Clean.lean`). -/

namespace Verif.Races

variable {st : State} {t : Nat}

/-- The end of the clean-up. -/
theorem cleaned_local {m : Mem} {g : Nat} {k : K} (hk : StateOk st) (h : RestOk st)
    (hc : (st.threads t).code = .cl g none k)
    (hm : m = (st.mem.defer t g false)) :
    Local t st.mem (st.threads t).code m (k.cleaned (st.mem.list g).head?) := by
  have hw : k.sig = g := by have := (hk.threads t).wf; rw [hc] at this; exact this
  have hno : ∀ s, st.mem.own s = some g → st.mem.marked s ≠ true := by
    intro s hs hx
    exact nomatch h.cleans t g none (by rw [hc]; rfl) s hs hx
  subst hm
  refine ⟨?_, ?_, ?_, fun s g u _ _ h1 h2 => ⟨h1, h2⟩, ?_, h.owned, h.null⟩
  · intro s g' hs hx
    by_cases hg : g' = g
    · subst hg; exact absurd hx (hno s hs)
    · exact (upd_other _ _ hg).trans (h.deferred s g' hs hx)
  · intro g' hd
    by_cases hg : g' = g
    · subst hg
      have : upd st.mem.deferred g' false g' = true := hd
      rw [upd_same] at this
      cases this
    · have hd : upd st.mem.deferred g false g' = true := hd
      rw [upd_other _ _ hg] at hd
      by_cases he : st.mem.ems g' = []
      · refine .inr (.inr ⟨hd, he, fun i hx => ?_⟩)
        rw [hc] at hx
        cases hx
        exact hg rfl
      · exact .inl he
  · intro g' i hx
    rw [K.cleaned_cleans] at hx
    cases hx
  · intro s g' hs
    by_cases hf : Fine st.mem (st.threads t).code s g'
    · left
      rcases hf with h1 | h1 | ⟨h1, h2 | h2⟩
      · exact .inl h1
      · rw [hc] at h1
        have := K.cleaned_rebinds (m := st.mem.defer t g false) ((hk.mem.lists s g').2 hs) h1
        rw [hw] at this
        exact .inr (.inl this)
      · exact .inr (.inr ⟨h1, .inl h2⟩)
      · rw [hc] at h2; exact h2.elim
    · exact .inr ⟨hs, hf, id⟩

/-- A new slot. -/
theorem insert_local {m : Mem} {g : Nat} {pos : Pos} {c' : Code} (hk : StateOk st) (h : RestOk st)
    (hp : (st.threads t).code.plain = true) (hq : Quiet st.mem m) (hn : m.nslots = st.mem.nslots)
    (hcl : c'.cleans = none) : Local t st.mem (st.threads t).code (m.insert t g pos) c' := by
  have hno : st.mem.own st.mem.nslots = none := by
    cases hx : st.mem.own st.mem.nslots with
    | none => rfl
    | some g' => exact absurd (hk.mem.liveLt _ (hk.mem.ownLive _ _ hx).1) (Nat.lt_irrefl _)
  have h1 : ∀ s, (m.insert t g pos).own s = if s = st.mem.nslots then some g else st.mem.own s := by
    intro s
    show upd m.own m.nslots (some g) s = _
    rw [hn, hq.own]; rfl
  have h2 : ∀ s, (m.insert t g pos).marked s = if s = st.mem.nslots then false else st.mem.marked s := by
    intro s
    show upd m.marked m.nslots false s = _
    rw [hn, hq.marked]; rfl
  have h3 : ∀ s, (m.insert t g pos).sender s = if s = st.mem.nslots then some g else st.mem.sender s := by
    intro s
    show upd m.sender m.nslots (some g) s = _
    rw [hn, hq.sender]; rfl
  have hmk : ∀ s g', (m.insert t g pos).own s = some g' → (m.insert t g pos).marked s = true →
      s ≠ st.mem.nslots ∧ st.mem.own s = some g' ∧ st.mem.marked s = true := by
    intro s g' hs hm
    rw [h2] at hm
    rw [h1] at hs
    split at hm
    · cases hm
    · rw [if_neg ‹_›] at hs
      exact ⟨‹_›, hs, hm⟩
  refine ⟨?_, ?_, ?_, ?_, ?_, ?_, ?_⟩
  · intro s g' hs hm
    obtain ⟨_, h4, h5⟩ := hmk s g' hs hm
    show m.deferred g' = true
    rw [hq.deferred]
    exact h.deferred s g' h4 h5
  · intro g' hd
    have hd : m.deferred g' = true := hd
    rw [hq.deferred] at hd
    show m.ems g' ≠ [] ∨ _
    rw [hq.ems]
    by_cases he : st.mem.ems g' = []
    · exact .inr (.inr ⟨hd, he, fun i hx => by rw [Code.plain_cleans hp] at hx; cases hx⟩)
    · exact .inl he
  · intro g' i hx
    rw [hcl] at hx
    cases hx
  · intro s g' u _ _ hs hm
    exact (hmk s g' hs hm).2
  · intro s g' hs
    rw [h1] at hs
    by_cases hx : s = st.mem.nslots
    · rw [if_pos hx] at hs
      cases hs
      exact .inl (.inl (by rw [h3, if_pos hx]))
    · rw [if_neg hx] at hs
      by_cases hf : Fine st.mem (st.threads t).code s g'
      · left
        unfold Fine
        rw [h3, h2, if_neg hx, if_neg hx]
        rcases hf with h4 | h4 | ⟨h4, h5 | h5⟩
        · exact .inl h4
        · exact absurd h4 (plain_rebinds hp _ _)
        · exact .inr (.inr ⟨h4, .inl h5⟩)
        · exact absurd h5 (plain_dis hp _ _)
      · exact .inr ⟨hs, hf, fun h4 => by rw [h3, if_neg hx]; exact h4⟩
  · intro s hl hs
    rw [h1]
    by_cases hx : s = st.mem.nslots
    · rw [if_pos hx]; nofun
    · rw [if_neg hx]
      rw [h3, if_neg hx] at hs
      have hl : upd m.live m.nslots true s = true := hl
      rw [hn, upd_other _ _ hx] at hl
      exact h.owned s (hq.live s hl) hs
  · intro s hm
    rw [h2] at hm
    rw [h3]
    split at hm
    · cases hm
    · rw [if_neg ‹_›]; exact h.null s hm

/-- `disconnect` exchanges `sender_`. -/
theorem xchg_local {s0 : Nat} {r : Mem × Option Nat} (h : RestOk st) (hp : (st.threads t).code.plain = true)
    (hx : st.mem.xchg t s0 = some r) :
    Local t st.mem (st.threads t).code r.1 (match r.2 with
      | none => .rel s0
      | some g => .disLock s0 g) := by
  unfold Mem.xchg at hx
  split at hx <;> cases hx
  rename_i hlive
  have hcl : Code.cleans (match st.mem.sender s0 with
      | none => .rel s0
      | some g => .disLock s0 g) = none := by split <;> rfl
  have hl := plain_local h hp (Quiet.refl st.mem) hcl
  refine { deferred := hl.deferred, emits := hl.emits, cleans := hl.cleans, kept := hl.kept, sender := ?_, owned := ?_, null := ?_ }
  · intro s g hs
    by_cases hx : s = s0
    · subst hx
      have hz : (st.mem.xchgd t s).sender s = none := upd_same ..
      rcases Classical.em (st.mem.sender s = some g) with h1 | h1
      · left
        refine .inr (.inr ⟨hz, .inr ?_⟩)
        dsimp only
        rw [h1]
        exact ⟨rfl, rfl⟩
      · by_cases hf : Fine st.mem (st.threads t).code s g
        · left
          rcases hf with h4 | h4 | ⟨h4, h5 | h5⟩
          · exact absurd h4 h1
          · exact absurd h4 (plain_rebinds hp _ _)
          · exact .inr (.inr ⟨hz, .inl h5⟩)
          · exact absurd h5 (plain_dis hp _ _)
        · exact .inr ⟨hs, hf, fun _ => hz⟩
    · have hz : (st.mem.xchgd t s0).sender s = st.mem.sender s := upd_other _ _ hx
      rcases hl.sender s g hs with h1 | ⟨h1, h2, h3⟩
      · left
        rcases h1 with h4 | h4 | ⟨h4, h5⟩
        · exact .inl (hz.trans h4)
        · revert h4
          split <;> intro h4 <;> exact h4.elim
        · refine .inr (.inr ⟨hz.trans h4, h5⟩)
      · exact .inr ⟨h1, h2, fun h4 => hz.trans h4⟩
  · intro s h1 h2
    by_cases hx : s = s0
    · subst hx; exact absurd (upd_same ..) h2
    · have hz : (st.mem.xchgd t s0).sender s = st.mem.sender s := upd_other _ _ hx
      rw [hz] at h2
      exact h.owned s h1 h2
  · intro s hm
    by_cases hx : s = s0
    · subst hx; exact upd_same ..
    · exact (upd_other _ _ hx).trans (h.null s hm)

/-- `swap` -/
theorem swapped_local {m : Mem} {g g' : Nat} {c' : Code} (h : RestOk st) (hp : (st.threads t).code.plain = true)
    (hq : Quiet st.mem m)
    (hd : st.mem.deferred g = false) (hd' : st.mem.deferred g' = false)
    (hcl : c'.cleans = none) (hrb : ∀ s x, s ∈ (m.swapped g g').list x → x = g ∨ x = g' → Rebinds (m.swapped g g') s x c')
    (hin : ∀ s x, (m.swapped g g').own s = some x → s ∈ (m.swapped g g').list x) :
    Local t st.mem (st.threads t).code (m.swapped g g') c' := by
  have hown : ∀ s x, (m.swapped g g').own s = some x →
      (x = g ∧ st.mem.own s = some g') ∨ (x = g' ∧ st.mem.own s = some g) ∨ (x ≠ g ∧ x ≠ g' ∧ st.mem.own s = some x) := by
    intro s x hs
    have hs : (if m.own s = some g then some g' else if m.own s = some g' then some g else m.own s) = some x := hs
    rw [hq.own] at hs
    split at hs
    · cases hs; exact .inr (.inl ⟨rfl, ‹_›⟩)
    · split at hs
      · cases hs; exact .inl ⟨rfl, ‹_›⟩
      · refine .inr (.inr ⟨?_, ?_, hs⟩) <;> rintro rfl <;> contradiction
  have hmk : ∀ s x, (m.swapped g g').own s = some x → (m.swapped g g').marked s = true →
      x ≠ g ∧ x ≠ g' ∧ st.mem.own s = some x ∧ st.mem.marked s = true := by
    intro s x hs hm
    have hm : m.marked s = true := hm
    rw [hq.marked] at hm
    rcases hown s x hs with ⟨_, h2⟩ | ⟨_, h2⟩ | ⟨h1, h2, h3⟩
    · have := h.deferred s _ h2 hm
      rw [hd'] at this; cases this
    · have := h.deferred s _ h2 hm
      rw [hd] at this; cases this
    · exact ⟨h1, h2, h3, hm⟩
  have hdf : ∀ x, (m.swapped g g').deferred x = st.mem.deferred x := by
    intro x
    show upd (upd m.deferred g (m.deferred g')) g' (m.deferred g) x = _
    rw [hq.deferred]
    simp only [upd]
    split
    · subst x; rw [hd, hd']
    · split
      · subst x; rw [hd, hd']
      · rfl
  refine ⟨?_, ?_, ?_, ?_, ?_, ?_, ?_⟩
  · intro s x hs hm
    obtain ⟨_, _, h1, h2⟩ := hmk s x hs hm
    rw [hdf]
    exact h.deferred s x h1 h2
  · intro x hx
    rw [hdf] at hx
    show m.ems x ≠ [] ∨ _
    rw [hq.ems]
    by_cases he : st.mem.ems x = []
    · exact .inr (.inr ⟨hx, he, fun i hx => by rw [Code.plain_cleans hp] at hx; cases hx⟩)
    · exact .inl he
  · intro x i hx
    rw [hcl] at hx
    cases hx
  · intro s x u _ _ hs hm
    exact (hmk s x hs hm).2.2
  · intro s x hs
    by_cases hx : x = g ∨ x = g'
    · exact .inl (.inr (.inl (hrb s x (hin s x hs) hx)))
    · have h1 : st.mem.own s = some x := by
        rcases hown s x hs with ⟨h2, _⟩ | ⟨h2, _⟩ | ⟨_, _, h3⟩
        · exact absurd (.inl h2) hx
        · exact absurd (.inr h2) hx
        · exact h3
      by_cases hf : Fine st.mem (st.threads t).code s x
      · left
        have h2 : (m.swapped g g').sender s = st.mem.sender s := by show m.sender s = _; rw [hq.sender]
        have h3 : (m.swapped g g').marked s = st.mem.marked s := by show m.marked s = _; rw [hq.marked]
        unfold Fine
        rw [h2, h3]
        rcases hf with h4 | h4 | ⟨h4, h5 | h5⟩
        · exact .inl h4
        · exact absurd h4 (plain_rebinds hp _ _)
        · exact .inr (.inr ⟨h4, .inl h5⟩)
        · exact absurd h5 (plain_dis hp _ _)
      · exact .inr ⟨h1, hf, fun h4 => by show m.sender s = none; rw [hq.sender]; exact h4⟩
  · intro s hl hs
    have hs : m.sender s ≠ none := hs
    rw [hq.sender] at hs
    have h1 := h.owned s (hq.live s hl) hs
    show (if m.own s = some g then some g' else if m.own s = some g' then some g else m.own s) ≠ none
    rw [hq.own]
    split
    · nofun
    · split
      · nofun
      · exact h1
  · intro s hm
    have hm : m.marked s = true := hm
    show m.sender s = none
    rw [hq.marked] at hm
    rw [hq.sender]
    exact h.null s hm

/-- The members go to the new signal. -/
theorem moved_local {m : Mem} {g g' : Nat} (h : RestOk st) (hp : (st.threads t).code.plain = true)
    (hq : Quiet st.mem m) (hd : st.mem.deferred g = false) (he : ∀ s, st.mem.own s ≠ some g') :
    Local t st.mem (st.threads t).code (m.moved g g') (.mvUnl g g') := by
  have hown : ∀ s x, (m.moved g g').own s = some x →
      (x = g' ∧ st.mem.own s = some g) ∨ (x ≠ g ∧ st.mem.own s = some x) := by
    intro s x hs
    have hs : (if m.own s = some g then some g' else m.own s) = some x := hs
    rw [hq.own] at hs
    split at hs
    · cases hs; exact .inl ⟨rfl, ‹_›⟩
    · refine .inr ⟨?_, hs⟩
      rintro rfl; contradiction
  have hmk : ∀ s x, (m.moved g g').own s = some x → (m.moved g g').marked s = true →
      x ≠ g ∧ st.mem.own s = some x ∧ st.mem.marked s = true := by
    intro s x hs hm
    have hm : m.marked s = true := hm
    rw [hq.marked] at hm
    rcases hown s x hs with ⟨_, h2⟩ | ⟨h1, h3⟩
    · have := h.deferred s _ h2 hm
      rw [hd] at this; cases this
    · exact ⟨h1, h3, hm⟩
  have hdf : ∀ x, (m.moved g g').deferred x = if x = g ∨ x = g' then false else st.mem.deferred x := by
    intro x
    show upd (upd m.deferred g false) g' (m.deferred g) x = _
    rw [hq.deferred]
    simp only [upd]
    by_cases h1 : x = g' <;> by_cases h2 : x = g <;> simp [h1, h2, hd]
  refine ⟨?_, ?_, ?_, ?_, ?_, ?_, ?_⟩
  · intro s x hs hm
    obtain ⟨h0, h1, h2⟩ := hmk s x hs hm
    have : x ≠ g' := by rintro rfl; exact he s h1
    rw [hdf, if_neg (by rintro (h | h) <;> contradiction)]
    exact h.deferred s x h1 h2
  · intro x hx
    rw [hdf] at hx
    split at hx
    · cases hx
    · show m.ems x ≠ [] ∨ _
      rw [hq.ems]
      by_cases he : st.mem.ems x = []
      · exact .inr (.inr ⟨hx, he, fun i hx => by rw [Code.plain_cleans hp] at hx; cases hx⟩)
      · exact .inl he
  · intro x i hx
    cases hx
  · intro s x u _ _ hs hm
    exact (hmk s x hs hm).2
  · intro s x hs
    by_cases hx : x = g'
    · exact .inl (.inr (.inl hx.symm))
    · have h1 : st.mem.own s = some x := by
        rcases hown s x hs with ⟨h2, _⟩ | ⟨_, h3⟩
        · exact absurd h2 hx
        · exact h3
      by_cases hf : Fine st.mem (st.threads t).code s x
      · left
        have h2 : (m.moved g g').sender s = st.mem.sender s := by show m.sender s = _; rw [hq.sender]
        have h3 : (m.moved g g').marked s = st.mem.marked s := by show m.marked s = _; rw [hq.marked]
        unfold Fine
        rw [h2, h3]
        rcases hf with h4 | h4 | ⟨h4, h5 | h5⟩
        · exact .inl h4
        · exact absurd h4 (plain_rebinds hp _ _)
        · exact .inr (.inr ⟨h4, .inl h5⟩)
        · exact absurd h5 (plain_dis hp _ _)
      · exact .inr ⟨h1, hf, fun h4 => by show m.sender s = none; rw [hq.sender]; exact h4⟩
  · intro s hl hs
    have hs : m.sender s ≠ none := hs
    rw [hq.sender] at hs
    have h1 := h.owned s (hq.live s hl) hs
    show (if m.own s = some g then some g' else m.own s) ≠ none
    rw [hq.own]
    split
    · nofun
    · exact h1
  · intro s hm
    have hm : m.marked s = true := hm
    show m.sender s = none
    rw [hq.marked] at hm
    rw [hq.sender]
    exact h.null s hm

end Verif.Races
