import Verif.Races.Inv

/-! The accesses keep the invariant, and leave alone what other threads rely on. -/

namespace Verif.Races

/-- What a step of thread `t` guarantees to everybody. -/
structure Guar (t : Nat) (m m' : Mem) : Prop where
  tr : ∃ l, m'.tr = m.tr ++ l
  born : ∀ g, m.born g = true → m'.born g = true ∧ m'.birth g = m.birth g
  held : ∀ g u, u ≠ t → (m'.held g = some u ↔ m.held g = some u)
  list : ∀ g u, u ≠ t → m.held g = some u → m'.list g = m.list g ∧ m'.ems g = m.ems g ∧ m'.born g = m.born g
  grow : ∀ g s, m.ems g ≠ [] → s ∈ m.list g → s ∈ m'.list g
  refs : ∀ s h, h ≠ .thread t → (m'.refs s).count h = (m.refs s).count h
  ems : ∀ g u, u ≠ t → (m'.ems g).count u = (m.ems g).count u
  dying : ∀ s u, u ≠ t → m.dying s = some u → m'.dying s = some u

theorem Guar.refl (t : Nat) (m : Mem) : Guar t m m where
  tr := ⟨[], by simp⟩
  born := fun _ h => ⟨h, rfl⟩
  held := fun _ _ _ => Iff.rfl
  list := fun _ _ _ _ => ⟨rfl, rfl, rfl⟩
  grow := fun _ _ _ h => h
  refs := fun _ _ _ => rfl
  ems := fun _ _ _ => rfl
  dying := fun _ _ _ h => h

theorem Guar.trans {t : Nat} {m m' m'' : Mem} (h : Guar t m m') (he : m'.ems = m.ems) (h' : Guar t m' m'') :
    Guar t m m'' where
  tr := by
    obtain ⟨l, h1⟩ := h.tr
    obtain ⟨l', h2⟩ := h'.tr
    exact ⟨l ++ l', by rw [h2, h1, List.append_assoc]⟩
  born := fun g hg => by
    obtain ⟨h1, h2⟩ := h.born g hg
    obtain ⟨h3, h4⟩ := h'.born g h1
    exact ⟨h3, h4.trans h2⟩
  held := fun g u hu => (h'.held g u hu).trans (h.held g u hu)
  list := fun g u hu hg => by
    obtain ⟨h1, h2, h3⟩ := h.list g u hu hg
    obtain ⟨h4, h5, h6⟩ := h'.list g u hu ((h.held g u hu).2 hg)
    exact ⟨h4.trans h1, h5.trans h2, h6.trans h3⟩
  grow := fun g s hg hs => h'.grow g s (by rw [he]; exact hg) (h.grow g s hg hs)
  refs := fun s x hx => (h'.refs s x hx).trans (h.refs s x hx)
  ems := fun g u hu => (h'.ems g u hu).trans (h.ems g u hu)
  dying := fun s u hu hd => h'.dying s u hu (h.dying s u hu hd)

theorem Guar.ev (t : Nat) (m : Mem) (y : Sync) (acc : List (Loc × Bool)) : Guar t m (m.ev t y acc) :=
  { Guar.refl t m with tr := ⟨[⟨t, y, acc⟩], rfl⟩ }

/-- Parts of memory that most accesses leave alone. -/
structure Same (m m' : Mem) : Prop where
  ems : m'.ems = m.ems
  active : m'.active = m.active
  list : m'.list = m.list
  held : m'.held = m.held
  own : m'.own = m.own

theorem Same.refl (m : Mem) : Same m m := ⟨rfl, rfl, rfl, rfl, rfl⟩

theorem Same.ev (m : Mem) (t : Nat) (y : Sync) (acc : List (Loc × Bool)) : Same m (m.ev t y acc) := ⟨rfl, rfl, rfl, rfl, rfl⟩

theorem Same.trans {m m' m'' : Mem} (h : Same m m') (h' : Same m' m'') : Same m m'' :=
  ⟨h'.ems.trans h.ems, h'.active.trans h.active, h'.list.trans h.list, h'.held.trans h.held, h'.own.trans h.own⟩

/-! ### Mutexes -/

/-- Changing who holds mutexes. -/
theorem Core.guards {m m' : Mem} (h : Core m) (h1 : m' = { m with held := m'.held, birth := m'.birth, born := m'.born })
    (hG : ∀ g i, Guard m g i → Guard m' g i) (hb : ∀ g, m'.born g = true → g < m.nsigs)
    (hl : ∀ g t, m'.held g = some t → g < m.nsigs)
    (hB : ∀ i g, m'.born g = true → Acc m.tr i (.mtx g) true → HBE m.tr i (m'.birth g))
    (hN : ∀ i g t, m'.born g = false → m'.held g = some t → Acc m.tr i (.mtx g) true → Known m.tr t i) : Core m' := by
  generalize m'.held = a, m'.birth = b, m'.born = c at *
  subst h1
  exact { h with
    bornLt := hb
    heldLt := hl
    fld := fun i g w hi => hG g i (h.fld i g w hi)
    nxt := fun i s g w ho hi => hG g i (h.nxt i s g w ho hi)
    obj := fun i s w hl hd hi => by
      rcases h.obj i s w hl hd hi with h1 | h1 | ⟨g, h1, h2⟩
      · exact .inl h1
      · exact .inr (.inl h1)
      · exact .inr (.inr ⟨g, h1, hG g i h2⟩)
    newL := fun s g hg => hG g _ (h.newL s g hg)
    mtxB := hB
    mtxN := hN }

/-- The thread knows the signal. -/
def Knows (m : Mem) (t g : Nat) : Prop := m.born g = true ∧ Known m.tr t (m.birth g)

theorem Knows.guar {m m' : Mem} {t u g : Nat} (h : Knows m u g) (hg : Guar t m m') : Knows m' u g := by
  obtain ⟨l, hl⟩ := hg.tr
  obtain ⟨h1, h2⟩ := hg.born g h.1
  refine ⟨h1, ?_⟩
  rw [h2, hl]
  exact Under.append l h.2

/-- `lock` after the call. -/
def Mem.locked (m : Mem) (t g : Nat) : Mem := { m.ev t (.lock g) [] with held := upd m.held g (some t) }

theorem locked_ok {m : Mem} {t g : Nat} (h : Inv m) (hf : m.held g = none) (hk : Knows m t g) :
    Inv (m.locked t g) ∧ Guar t m (m.locked t g) := by
  have h1 : Inv (m.ev t (.lock g) []) := h.ev (by simp) (by simp) (by simp)
  have hn := known_last m.tr ⟨t, .lock g, []⟩
  have hb := h.bornLt g hk.1
  refine ⟨{ toCore := h1.toCore.guards rfl ?_ h.bornLt ?_ h1.mtxB ?_, snd := h1.snd }, ?_⟩
  · intro g' i hi
    by_cases hg : g' = g
    · subst hg
      have hf' : (m.ev t (.lock g') []).held g' = none := hf
      have hh : (m.locked t g').held g' = some t := by simp [Mem.locked, upd]
      rw [guard_held hh]
      show Known (m.tr ++ [⟨t, .lock g', []⟩]) t i
      rcases (guard_free hf').1 hi with hi | hi
      · -- the last action is no `unlock`
        obtain ⟨j, e, h2, h3, h4⟩ := hi
        rcases get_cases h2 with h2 | ⟨_, rfl⟩
        · refine Under.back ?_ h4
          have : Through m.tr (.unlock g') j := ⟨j, e, h2, h3, .inl rfl⟩
          exact known_of_hb (unlock_hb (e := ⟨t, .lock g', []⟩) this rfl)
        · cases h3
      · exact Under.back (Under.append _ hk.2) hi
    · have : (m.locked t g).held g' = m.held g' := by simp [Mem.locked, upd, hg]
      unfold Guard at *
      rw [this]
      exact hi
  · intro g' u hu
    by_cases hg : g' = g
    · subst hg; exact hb
    · simp only [Mem.locked, upd, if_neg hg] at hu
      exact h.heldLt g' u hu
  · intro i g' u hb' hu hi
    by_cases hg : g' = g
    · subst hg; exact nomatch hk.1.symm.trans hb'
    · simp only [Mem.locked, upd, if_neg hg] at hu
      exact h1.mtxN i g' u hb' hu hi
  · exact { Guar.ev t m (.lock g) [] with
      held := fun g' u hu => by
        by_cases hg : g' = g
        · subst hg; simp [Mem.locked, upd, hf]; exact fun h => hu h.symm
        · simp [Mem.locked, upd, hg] }

theorem calls_ok {m : Mem} {t g : Nat} (h : Inv m) (hk : Knows m t g) :
    Inv (m.calls t g) ∧ Guar t m (m.calls t g) :=
  ⟨h.ev (by simpa [Allowed, Knows] using hk) (by simp) (by simp), Guar.ev ..⟩

theorem lock_ok {m : Mem} {t g : Nat} (h : Inv m) (hf : m.held g = none) (hk : Knows m t g) :
    Inv (m.lock t g) ∧ Guar t m (m.lock t g) := by
  obtain ⟨h1, g1⟩ := calls_ok h hk
  obtain ⟨h2, g2⟩ := locked_ok (m := m.calls t g) h1 hf (hk.guar g1)
  exact ⟨h2, g1.trans rfl g2⟩

theorem unlock_ok {m : Mem} {t g : Nat} (h : Inv m) (hh : m.held g = some t) :
    Inv (m.unlock t g) ∧ Guar t m (m.unlock t g) := by
  have h1 : Inv (m.ev t (.unlock g) []) := h.ev (by simp) (by simp) (by simp)
  refine ⟨{ toCore := h1.toCore.guards rfl ?_ h.bornLt ?_ h1.mtxB ?_, snd := h1.snd }, ?_⟩
  · intro g' i hi
    by_cases hg : g' = g
    · subst hg
      have hh' : (m.ev t (.unlock g') []).held g' = some t := hh
      have hf : (m.unlock t g').held g' = none := by simp [Mem.unlock, upd]
      rw [guard_free hf]
      have hi := (guard_held hh').1 hi
      left
      show Through (m.tr ++ [⟨t, .unlock g', []⟩]) (.unlock g') i
      obtain ⟨j, e, h2, h3, h4⟩ := hi
      rcases get_cases h2 with h2 | ⟨rfl, rfl⟩
      · refine Under.back ?_ h4
        have : Known m.tr t j := ⟨j, e, h2, h3, .inl rfl⟩
        exact known_through (e := ⟨t, .unlock g', []⟩) this
      · exact (through_last m.tr ⟨t, .unlock g', []⟩).back h4
    · have : (m.unlock t g).held g' = m.held g' := by simp [Mem.unlock, upd, hg]
      unfold Guard at *
      rw [this]
      exact hi
  · intro g' u hu
    by_cases hg : g' = g
    · subst hg; simp [Mem.unlock, upd] at hu
    · simp only [Mem.unlock, upd, if_neg hg] at hu
      exact h.heldLt g' u hu
  · intro i g' u hb' hu hi
    by_cases hg : g' = g
    · subst hg; simp [Mem.unlock, upd] at hu
    · simp only [Mem.unlock, upd, if_neg hg] at hu
      exact h1.mtxN i g' u hb' hu hi
  · exact { Guar.ev t m (.unlock g) [] with
      held := fun g' u hu => by
        by_cases hg : g' = g
        · subst hg; simp [Mem.unlock, upd, hh]; exact fun h => hu h.symm
        · simp [Mem.unlock, upd, hg] }

/-- Accesses to the members of a signal whose mutex the thread holds. -/
theorem fields_ok {m : Mem} {t g : Nat} (h : Inv m) (hh : m.held g = some t) :
    Inv (m.fields t g) ∧ Guar t m (m.fields t g) :=
  ⟨h.ev (by simpa [Allowed] using hh) (by simp) (by simp), Guar.ev ..⟩

/-! ### Slots -/

theorem May.live {m : Mem} {t s : Nat} (h : Core m) (hm : May m t s) : m.live s = true ∧ m.dying s = none := by
  rcases hm with h1 | ⟨g, h1, _⟩
  · exact h.refsLive s _ h1
  · exact ⟨(h.ownLive s g h1).1, (h.ownLive s g h1).2.1⟩

theorem May.knows {m : Mem} {t s : Nat} (h : Core m) (hm : May m t s) : Known m.tr t (m.newEv s) := by
  rcases hm with h1 | ⟨g, h1, h2⟩
  · exact h.newR s _ h1
  · exact (guard_held h2).1 (h.newL s g h1)

theorem touch_ok {m : Mem} {t s : Nat} (h : Inv m) (hm : May m t s) :
    m.touch t s = some (m.ev t .none [(.obj s, false)]) ∧
      Inv (m.ev t .none [(.obj s, false)]) ∧ Guar t m (m.ev t .none [(.obj s, false)]) := by
  refine ⟨by simp [Mem.touch, (hm.live h.toCore).1], h.ev ?_ (by simp) (by simp), Guar.ev ..⟩
  simpa [Allowed, May] using hm

theorem added_ok {m : Mem} {t s : Nat} (h : Inv m) (hm : May m t s) : Inv (m.added t s) ∧ Guar t m (m.added t s) := by
  have hl := hm.live h.toCore
  have hn := hm.knows h.toCore
  refine ⟨{ h with
    refsLive := ?_, dyingOk := ?_, count := ?_, obj := ?_, newR := ?_ }, ?_⟩
  · intro s' x hx
    by_cases hs : s' = s
    · subst hs; exact hl
    · simp only [Mem.added, upd, if_neg hs] at hx; exact h.refsLive s' x hx
  · intro s' u hd
    by_cases hs : s' = s
    · subst hs
      have : m.dying s' = some u := hd
      rw [hl.2] at this; cases this
    · simp only [Mem.added, upd, if_neg hs]; exact h.dyingOk s' u hd
  · intro s' hl'
    by_cases hs : s' = s
    · subst hs; simp [Mem.added, upd, h.count s' hl']; omega
    · simp only [Mem.added, upd, if_neg hs]; exact h.count s' hl'
  · intro i s' w hl' hd hi
    rcases h.obj i s' w hl' hd hi with h1 | ⟨x, h1, h2⟩ | h1
    · exact .inl h1
    · refine .inr (.inl ⟨x, ?_, h2⟩)
      by_cases hs : s' = s
      · subst hs; simp [Mem.added, upd, h1]
      · simpa [Mem.added, upd, hs] using h1
    · exact .inr (.inr h1)
  · intro s' x hx
    by_cases hs : s' = s
    · subst hs
      simp only [Mem.added, upd_same, List.mem_cons] at hx
      rcases hx with rfl | hx
      · exact hn
      · exact h.newR s' x hx
    · simp only [Mem.added, upd, if_neg hs] at hx; exact h.newR s' x hx
  · exact { Guar.refl t m with
      refs := fun s' x hx => by
        by_cases hs : s' = s
        · subst hs
          simp only [Mem.added, upd_same]
          exact List.count_cons_of_ne (fun h => hx h.symm)
        · simp [Mem.added, upd, hs] }

theorem addRef_ok {m : Mem} {t s : Nat} (h : Inv m) (hm : May m t s) :
    ∃ m', m.addRef t s = some m' ∧ Inv m' ∧ Guar t m m' ∧ Same m m' ∧
      m'.refs = upd m.refs s (.thread t :: m.refs s) ∧ m'.dying = m.dying := by
  obtain ⟨h1, h2, h3⟩ := touch_ok h hm
  have hm' : May (m.ev t .none [(.obj s, false)]) t s := hm
  obtain ⟨h4, h5⟩ := added_ok h2 hm'
  exact ⟨_, by rw [Mem.addRef, h1]; rfl, h4, h3.trans rfl h5, ⟨rfl, rfl, rfl, rfl, rfl⟩, rfl, rfl⟩

end Verif.Races
