import Verif.Races.Prims3

/-! The accesses keep the invariant, continued: signals, emissions, and what users pass on. -/

namespace Verif.Races

/-! ### Emissions -/

theorem began_ok {m : Mem} {t g : Nat} (h : Inv m) (hh : m.held g = some t) :
    Inv (m.began t g) ∧ Guar t m (m.began t g) := by
  refine ⟨{ h with active := ?_ }, { Guar.refl t m with list := ?_, ems := ?_ }⟩
  · intro g'
    by_cases hg : g' = g
    · subst hg; simp [Mem.began, upd, h.active g']
    · simp [Mem.began, upd, hg, h.active g']
  · intro g' u hu hx
    have : g' ≠ g := by rintro rfl; rw [hh] at hx; cases hx; exact hu rfl
    simp [Mem.began, upd, this]
  · intro g' u hu
    by_cases hg : g' = g
    · subst hg; simp only [Mem.began, upd_same]; exact List.count_cons_of_ne (fun h => hu h.symm)
    · simp [Mem.began, upd, hg]

theorem ended_ok {m : Mem} {t g : Nat} (h : Inv m) (hh : m.held g = some t) (ht : t ∈ m.ems g) :
    Inv (m.ended t g) ∧ Guar t m (m.ended t g) := by
  refine ⟨{ h with active := ?_ }, { Guar.refl t m with list := ?_, ems := ?_ }⟩
  · intro g'
    by_cases hg : g' = g
    · subst hg; simp [Mem.ended, upd, h.active g', List.length_erase_of_mem ht]
    · simp [Mem.ended, upd, hg, h.active g']
  · intro g' u hu hx
    have : g' ≠ g := by rintro rfl; rw [hh] at hx; cases hx; exact hu rfl
    simp [Mem.ended, upd, this]
  · intro g' u hu
    by_cases hg : g' = g
    · subst hg; simp only [Mem.ended, upd_same]; exact List.count_erase_of_ne hu
    · simp [Mem.ended, upd, hg]

theorem defer_ok {m : Mem} {t g : Nat} {b : Bool} (h : Inv m) (hh : m.held g = some t) :
    Inv (m.defer t g b) ∧ Guar t m (m.defer t g b) := by
  obtain ⟨h1, h2⟩ := fields_ok h hh
  exact ⟨{ h1 with }, { h2 with }⟩

/-- Accesses to the members of two signals. -/
theorem fields2_ok {m : Mem} {t g g' : Nat} (h : Inv m) (hh : m.held g = some t) (hh' : m.held g' = some t) :
    Inv (m.ev t .none [(.fld g, true), (.fld g', true)]) ∧ Guar t m (m.ev t .none [(.fld g, true), (.fld g', true)]) :=
  ⟨h.ev (by simpa [Allowed] using ⟨hh, hh'⟩) (by simp) (by simp), Guar.ev ..⟩

/-! ### Signals -/

theorem known_hbe_last {tr : List Ev} {e : Ev} {i : Nat} (h : Known (tr ++ [e]) e.tid i) :
    HBE (tr ++ [e]) i tr.length := by
  obtain ⟨j, x, h1, h2, h3⟩ := h
  rcases get_cases h1 with h1 | ⟨rfl, rfl⟩
  · exact h3.trans (.inr (known_hb ⟨j, x, h1, h2, .inl rfl⟩))
  · exact h3

theorem finished_ok {m : Mem} {t g g' : Nat} (h : Inv m) (hh : m.held g = some t) (hh' : m.held g' = some t)
    (hne : g ≠ g') (hb : m.born g' = false) :
    Inv (m.finished t g g') ∧ Guar t m (m.finished t g g') ∧ Knows (m.finished t g g') t g' := by
  obtain ⟨h1, h2⟩ := unlock_ok h hh
  have hh1 : (m.unlock t g).held g' = some t := by simp [Mem.unlock, upd, hne.symm, Mem.ev, hh']
  have hbn : (m.finished t g g').birth g' = m.tr.length := by simp [Mem.finished, upd]
  refine ⟨{ toCore := h1.toCore.guards rfl ?_ ?_ ?_ ?_ ?_, snd := ?_ }, ?_, ?_, ?_⟩
  · intro x i hi
    by_cases hx : x = g'
    · subst hx
      have hf : (m.finished t g x).held x = none := by simp [Mem.finished, upd]
      rw [guard_free hf, hbn]
      exact .inr (known_hbe_last (e := ⟨t, .unlock g, []⟩) ((guard_held hh1).1 hi))
    · have e1 : (m.finished t g g').held x = (m.unlock t g).held x := by simp [Mem.finished, upd, hx]
      have e2 : (m.finished t g g').birth x = (m.unlock t g).birth x := by
        simp [Mem.finished, upd, hx, Mem.unlock, Mem.ev]
      unfold Guard at *
      rw [e1, e2]
      exact hi
  · intro x hx
    by_cases hxg : x = g'
    · subst hxg; exact h.heldLt x t hh'
    · simp only [Mem.finished, upd, if_neg hxg] at hx
      exact h.bornLt x hx
  · intro x u hx
    by_cases hxg : x = g'
    · subst hxg; exact h.heldLt x t hh'
    · simp only [Mem.finished, upd, if_neg hxg] at hx
      exact h1.heldLt x u hx
  · intro i x hx hi
    by_cases hxg : x = g'
    · subst hxg
      rw [hbn]
      exact known_hbe_last (e := ⟨t, .unlock g, []⟩) (h1.mtxN i x t hb hh1 hi)
    · simp only [Mem.finished, upd, if_neg hxg] at hx ⊢
      exact h1.mtxB i x hx hi
  · intro i x u hx hu hi
    by_cases hxg : x = g'
    · subst hxg; simp [Mem.finished, upd] at hx
    · simp only [Mem.finished, upd, if_neg hxg] at hx hu
      exact h1.mtxN i x u hx hu hi
  · intro s x hl hs
    obtain ⟨h3, h4, h5⟩ := h1.snd s x hl hs
    have hx : x ≠ g' := by
      rintro rfl
      have h3' : m.born x = true := h3
      rw [hb] at h3'; cases h3'
    refine ⟨?_, ?_, h5⟩
    · simp only [Mem.finished, upd, if_neg hx]; exact h3
    · simp only [Mem.finished, upd, if_neg hx]; exact h4
  · exact { h2 with
      born := fun x hx => by
        have : x ≠ g' := by rintro rfl; rw [hb] at hx; cases hx
        simp [Mem.finished, upd, this, Mem.unlock, Mem.ev, hx]
      held := fun x u hu => by
        by_cases hx : x = g'
        · subst hx; simp [Mem.finished, upd, hh']; exact fun h => hu h.symm
        · simp only [Mem.finished, upd, if_neg hx]; exact h2.held x u hu
      list := fun x u hu hx => by
        have : x ≠ g' := by rintro rfl; rw [hh'] at hx; cases hx; exact hu rfl
        simp [Mem.finished, upd, this, Mem.unlock, Mem.ev] }
  · simp [Mem.finished, upd]
  · rw [hbn]
    exact known_last m.tr ⟨t, .unlock g, []⟩

/-- Signals that do not exist yet. -/
theorem Core.fresh {m : Mem} (h : Core m) : m.held m.nsigs = none ∧ m.born m.nsigs = false ∧ m.list m.nsigs = [] ∧
    (∀ s, m.own s ≠ some m.nsigs) ∧ (∀ i w, ¬ Acc m.tr i (.fld m.nsigs) w) ∧
    ∀ i w, ¬ Acc m.tr i (.mtx m.nsigs) w := by
  have ho : ∀ s, m.own s ≠ some m.nsigs := fun s hs => Nat.lt_irrefl _ (h.ownLive s _ hs).2.2
  refine ⟨?_, ?_, ?_, ho, fun i w hi => Nat.lt_irrefl _ (h.accFld i _ w hi),
    fun i w hi => Nat.lt_irrefl _ (h.accMtx i _ w hi)⟩
  · cases hx : m.held m.nsigs with
    | none => rfl
    | some u => exact absurd (h.heldLt _ u hx) (Nat.lt_irrefl _)
  · cases hx : m.born m.nsigs with
    | false => rfl
    | true => exact absurd (h.bornLt _ hx) (Nat.lt_irrefl _)
  · cases hx : m.list m.nsigs with
    | nil => rfl
    | cons s l => exact absurd ((h.lists s _).1 (by simp [hx])) (ho s)

/-- A new signal is made with an access to its members. -/
theorem Core.newFields {m m' : Mem} {t : Nat} (h : Core m)
    (h1 : m' = { m.sigMade t with nsigs := m.nsigs + 1, held := m'.held, birth := m'.birth, born := m'.born })
    (hh : ∀ g, g ≠ m.nsigs → m'.held g = m.held g) (hb : ∀ g, g ≠ m.nsigs → m'.birth g = m.birth g)
    (hbo : ∀ g, g ≠ m.nsigs → m'.born g = m.born g) (hG : Guard m' m.nsigs m.tr.length)
    (hB : m'.born m.nsigs = true → m'.birth m.nsigs = m.tr.length) (hN : ∀ u, m'.held m.nsigs = some u → u = t) :
    Core m' := by
  obtain ⟨_, _, f3, f4, f5, f6⟩ := h.fresh
  generalize ha : m'.held = a at *
  generalize hbb : m'.birth = b at *
  generalize hc : m'.born = c at *
  subst h1
  have hge : ∀ g i, g ≠ m.nsigs → Guard m g i →
      Guard { m.sigMade t with nsigs := m.nsigs + 1, held := a, birth := b, born := c } g i := by
    intro g i hg hi
    have := Guard.ev (t := t) (y := .none) (acc := [(.fld m.nsigs, true), (.mtx m.nsigs, true)]) hi
    unfold Guard at *
    simp only [Mem.sigMade, Mem.ev] at *
    rw [hh g hg, hb g hg]
    exact this
  have hown : ∀ s g, m.own s = some g → g ≠ m.nsigs := fun s g hs => by rintro rfl; exact f4 s hs
  exact {
    ordered := by
      refine h.ordered.append fun i x w w' hi hx _ => ?_
      simp only [List.mem_cons, List.not_mem_nil, or_false, Prod.mk.injEq] at hx
      rcases hx with ⟨rfl, _⟩ | ⟨rfl, _⟩
      · exact absurd hi (f5 i w)
      · exact absurd hi (f6 i w)
    accObj := by
      intro i s w hi
      rcases acc_cases hi with hi | ⟨rfl, hx⟩
      · exact h.accObj i s w hi
      · simp at hx
    accNxt := by
      intro i s w hi
      rcases acc_cases hi with hi | ⟨rfl, hx⟩
      · obtain ⟨w', h1⟩ := h.accNxt i s w hi
        exact ⟨w', h1.append _⟩
      · simp at hx
    accFld := by
      intro i g w hi
      show g < m.nsigs + 1
      rcases acc_cases hi with hi | ⟨rfl, hx⟩
      · have := h.accFld i g w hi; omega
      · simp at hx; omega
    accMtx := by
      intro i g w hi
      show g < m.nsigs + 1
      rcases acc_cases hi with hi | ⟨rfl, hx⟩
      · have := h.accMtx i g w hi; omega
      · simp at hx; omega
    lists := h.lists
    nodup := h.nodup
    ownLive := fun s g hs => by
      obtain ⟨h2, h3, h4⟩ := h.ownLive s g hs
      exact ⟨h2, h3, Nat.lt_succ_of_lt h4⟩
    refsLive := h.refsLive
    dyingOk := h.dyingOk
    liveLt := h.liveLt
    bornLt := fun g hg => by
      by_cases hx : g = m.nsigs
      · subst hx; exact Nat.lt_succ_self _
      · exact Nat.lt_succ_of_lt (h.bornLt g (by rw [← hbo g hx]; exact hg))
    heldLt := fun g u hg => by
      by_cases hx : g = m.nsigs
      · subst hx; exact Nat.lt_succ_self _
      · exact Nat.lt_succ_of_lt (h.heldLt g u (by rw [← hh g hx]; exact hg))
    count := h.count
    active := h.active
    fld := by
      intro i g w hi
      rcases acc_cases hi with hi | ⟨rfl, hx⟩
      · exact hge _ _ (by rintro rfl; exact f5 i w hi) (h.fld i g w hi)
      · simp at hx
        rw [hx.1]; exact hG
    nxt := by
      intro i s g w ho hi
      rcases acc_cases hi with hi | ⟨rfl, hx⟩
      · exact hge _ _ (hown s g ho) (h.nxt i s g w ho hi)
      · simp at hx
    obj := by
      intro i s w hl hd hi
      rcases acc_cases hi with hi | ⟨rfl, hx⟩
      · rcases h.obj i s w hl hd hi with h1 | ⟨x, h1, h2⟩ | ⟨g, h1, h2⟩
        · exact .inl (Under.append _ h1)
        · exact .inr (.inl ⟨x, h1, h2.append _⟩)
        · exact .inr (.inr ⟨g, h1, hge _ _ (hown s g h1) h2⟩)
      · simp at hx
    dyi := by
      intro i s w u hd hi
      rcases acc_cases hi with hi | ⟨rfl, hx⟩
      · exact Under.append _ (h.dyi i s w u hd hi)
      · simp at hx
    wr := by
      intro i s hl hi
      rcases acc_cases hi with hi | ⟨rfl, hx⟩
      · exact h.wr i s hl hi
      · simp at hx
    newR := fun s x hx => (h.newR s x hx).append _
    newL := fun s g hg => hge _ _ (hown s g hg) (h.newL s g hg)
    mtxB := by
      intro i g hg hi
      rcases acc_cases hi with hi | ⟨rfl, hx⟩
      · have hx : g ≠ m.nsigs := by rintro rfl; exact f6 i _ hi
        show HBE _ i (b g)
        rw [hb g hx]
        exact (h.mtxB i g (by rw [← hbo g hx]; exact hg) hi).append _
      · simp at hx
        subst hx
        exact .inl (hB hg).symm
    mtxN := by
      intro i g u hg hu hi
      rcases acc_cases hi with hi | ⟨rfl, hx⟩
      · have hx : g ≠ m.nsigs := by rintro rfl; exact f6 i _ hi
        exact Under.append _ (h.mtxN i g u (by rw [← hbo g hx]; exact hg) (by rw [← hh g hx]; exact hu) hi)
      · simp at hx
        subst hx
        rw [hN u hu]
        exact known_last m.tr ⟨t, .none, _⟩ }

theorem newSig_ok {m : Mem} {t : Nat} (h : Inv m) :
    Inv (m.newSig t) ∧ Guar t m (m.newSig t) ∧ Knows (m.newSig t) t m.nsigs := by
  obtain ⟨f1, f2, f3, f4, f5, f6⟩ := h.toCore.fresh
  have hbn : (m.newSig t).birth m.nsigs = m.tr.length := by simp [Mem.newSig, upd]
  refine ⟨{ toCore := h.toCore.newFields (t := t) rfl ?_ ?_ ?_ ?_ ?_ ?_, snd := ?_ }, ?_, ?_, ?_⟩
  · intro g _; rfl
  · intro g hg; simp [Mem.newSig, upd, hg, Mem.sigMade, Mem.ev]
  · intro g hg; simp [Mem.newSig, upd, hg, Mem.sigMade, Mem.ev]
  · rw [guard_free (m := m.newSig t) f1, hbn]
    exact .inr (.inl rfl)
  · exact fun _ => hbn
  · intro u hu
    have : m.held m.nsigs = some u := hu
    rw [f1] at this; cases this
  · intro s x hl hs
    obtain ⟨h3, h4, h5⟩ := (h.snd s).ev (t := t) (y := .none) (acc := [(.fld m.nsigs, true), (.mtx m.nsigs, true)]) (by simp) x hl hs
    have hx : x ≠ m.nsigs := by
      rintro rfl
      have h3' : m.born m.nsigs = true := h3
      rw [f2] at h3'; cases h3'
    simp only [Mem.newSig, upd, if_neg hx]
    exact ⟨h3, h4, h5⟩
  · exact { Guar.ev t m .none [(.fld m.nsigs, true), (.mtx m.nsigs, true)] with
      born := fun x hx => by
        have : x ≠ m.nsigs := by rintro rfl; rw [f2] at hx; cases hx
        simp [Mem.newSig, upd, this, Mem.sigMade, Mem.ev, hx]
      list := fun x u hu hx => by
        have : x ≠ m.nsigs := by rintro rfl; rw [f1] at hx; cases hx
        simp [Mem.newSig, upd, this, Mem.sigMade, Mem.ev] }
  · simp [Mem.newSig, upd]
  · rw [hbn]; exact known_last m.tr ⟨t, .none, _⟩

theorem beginMove_ok {m : Mem} {t : Nat} (h : Inv m) :
    Inv (m.beginMove t) ∧ Guar t m (m.beginMove t) := by
  obtain ⟨f1, f2, f3, f4, f5, f6⟩ := h.toCore.fresh
  refine ⟨{ toCore := h.toCore.newFields (t := t) rfl ?_ ?_ ?_ ?_ ?_ ?_, snd := ?_ }, ?_⟩
  · intro g hg; simp [Mem.beginMove, upd, hg]
  · intro g _; rfl
  · intro g _; rfl
  · have : (m.beginMove t).held m.nsigs = some t := by simp [Mem.beginMove, upd]
    rw [guard_held this]
    exact known_last m.tr ⟨t, .none, _⟩
  · intro hb
    have : m.born m.nsigs = true := hb
    rw [f2] at this; cases this
  · intro u hu
    simpa [Mem.beginMove, upd, eq_comm] using hu
  · exact fun s => (h.snd s).ev (t := t) (y := .none) (acc := [(.fld m.nsigs, true), (.mtx m.nsigs, true)]) (by simp)
  · exact { Guar.ev t m .none [(.fld m.nsigs, true), (.mtx m.nsigs, true)] with
      held := fun x u hu => by
        by_cases hx : x = m.nsigs
        · subst hx; simp [Mem.beginMove, upd, f1]; exact fun h => hu h.symm
        · simp [Mem.beginMove, upd, hx] }

/-! ### What users pass on -/

/-- References go from one holder to another, who knows as much. -/
theorem Core.hand {m m' : Mem} {s : Nat} {x y : Holder} (h : Core m)
    (h1 : m' = { m with refs := upd m.refs s (y :: (m.refs s).erase x) }) (hx : x ∈ m.refs s)
    (hk : ∀ i, HoldK m.tr x i → HoldK m.tr y i) : Core m' := by
  subst h1
  have hl := h.refsLive s x hx
  exact { h with
    refsLive := fun s' z hz => by
      by_cases hs : s' = s
      · subst hs; exact hl
      · simp only [upd, if_neg hs] at hz; exact h.refsLive s' z hz
    dyingOk := fun s' u hd => by
      have hs : s' ≠ s := by
        rintro rfl
        have hd' : m.dying s' = some u := hd
        rw [hl.2] at hd'; cases hd'
      simp only [upd, if_neg hs]; exact h.dyingOk s' u hd
    count := fun s' hl' => by
      have := h.count s' hl'
      by_cases hs : s' = s
      · subst hs
        have h2 := List.length_erase_of_mem hx
        have h3 : 0 < (m.refs s').length := List.length_pos_of_mem hx
        simp only [upd_same, List.length_cons]
        omega
      · simp only [upd, if_neg hs]; exact this
    obj := fun i s' w hl' hd hi => by
      rcases h.obj i s' w hl' hd hi with h2 | ⟨z, h2, h3⟩ | h2
      · exact .inl h2
      · by_cases hs : s' = s
        · subst hs
          by_cases hz : z = x
          · subst hz; exact .inr (.inl ⟨y, by simp [upd], hk i h3⟩)
          · refine .inr (.inl ⟨z, ?_, h3⟩)
            simp only [upd_same, List.mem_cons]
            exact .inr ((List.mem_erase_of_ne hz).2 h2)
        · refine .inr (.inl ⟨z, ?_, h3⟩)
          simp only [upd, if_neg hs]; exact h2
      · exact .inr (.inr h2)
    newR := fun s' z hz => by
      by_cases hs : s' = s
      · subst hs
        simp only [upd_same, List.mem_cons] at hz
        rcases hz with rfl | hz
        · exact hk _ (h.newR s' x hx)
        · exact h.newR s' z (List.mem_of_mem_erase hz)
      · simp only [upd, if_neg hs] at hz; exact h.newR s' z hz }

theorem given_ok {m : Mem} {t s k : Nat} (h : Inv m) (hr : .thread t ∈ m.refs s) : Inv (m.given t s k) := by
  have h1 : Inv (m.ev t (.rel k) []) := h.ev (by simp) (by simp) (by simp)
  refine { toCore := h1.toCore.hand (x := .thread t) (y := .box k) rfl hr ?_, snd := h1.snd }
  intro i hi
  exact known_through' (e := ⟨t, .rel k, []⟩) hi

theorem taken_ok {m : Mem} {t s k : Nat} (h : Inv m) (hr : .box k ∈ m.refs s) : Inv (m.taken t s k) := by
  have h1 : Inv (m.ev t (.acq k) []) := h.ev (by simp) (by simp) (by simp)
  refine { toCore := h1.toCore.hand (x := .box k) (y := .thread t) rfl hr ?_, snd := h1.snd }
  intro i hi
  exact through_known (e := ⟨t, .acq k, []⟩) hi fun j hj => rel_hb hj rfl

end Verif.Races
