import Verif.Races.Prims

/-! The accesses keep the invariant, continued: references, lists and signals. -/

namespace Verif.Races

theorem sub_ok {m : Mem} {t s : Nat} (h : Inv m) (hr : .thread t ∈ m.refs s) :
    ∃ m' b, m.sub t s = some (m', b) ∧ Inv m' ∧ Guar t m m' ∧ Same m m' ∧
      m'.refs = upd m.refs s ((m.refs s).erase (.thread t)) ∧
      (b = true → m'.dying s = some t ∧ m'.refs s = []) ∧ (∀ s' u, m.dying s' = some u → m'.dying s' = some u) := by
  have hm : May m t s := .inl hr
  obtain ⟨hl, hd⟩ := hm.live h.toCore
  have hc := h.count s hl
  have hpos : 0 < (m.refs s).length := List.length_pos_of_mem hr
  have h1 : Inv (m.ev t (.sub s) [(.obj s, false)]) :=
    h.ev (by simpa [Allowed, May] using hm) (by simp) (by simp)
  refine ⟨m.subbed t s, m.count s == 1, by rw [Mem.sub, if_pos (by simp [hl]; omega)], ?_, ?_, ⟨rfl, rfl, rfl, rfl, rfl⟩, rfl, ?_, ?_⟩
  · have key1 : ∀ i, Known (m.tr ++ [⟨t, .sub s, [(.obj s, false)]⟩]) t i →
        Through (m.tr ++ [⟨t, .sub s, [(.obj s, false)]⟩]) (.sub s) i := fun i hi =>
      known_through' (e := ⟨t, .sub s, [(.obj s, false)]⟩) hi
    have key2 : ∀ i, Through (m.tr ++ [⟨t, .sub s, [(.obj s, false)]⟩]) (.sub s) i →
        Known (m.tr ++ [⟨t, .sub s, [(.obj s, false)]⟩]) t i := fun i hi =>
      through_known (e := ⟨t, .sub s, [(.obj s, false)]⟩) hi fun j hj => sub_hb hj rfl
    refine { h1 with refsLive := ?_, dyingOk := ?_, ownLive := ?_, count := ?_, obj := ?_, dyi := ?_, newR := ?_ }
    · intro s' g hg
      have := h.ownLive s' g hg
      refine ⟨this.1, ?_, this.2.2⟩
      by_cases hs : s' = s
      · subst hs
        have hg' : m.own s' = some g := hg
        have h2 : m.count s' ≠ 1 := by rw [hg'] at hc; simp at hc; omega
        simp [Mem.subbed, Mem.ev, h2, hd]
      · simp only [Mem.subbed, Mem.ev]
        split <;> simp [upd, hs, this.2.1]
    · intro s' x hx
      by_cases hs : s' = s
      · subst hs
        simp only [upd_same, Mem.subbed, Mem.ev] at hx ⊢
        refine ⟨hl, ?_⟩
        by_cases h2 : m.count s' = 1
        · have := List.length_erase_of_mem hr
          have : ((m.refs s').erase (.thread t)).length = 0 := by omega
          rw [List.eq_nil_of_length_eq_zero this] at hx
          cases hx
        · simpa [h2] using hd
      · simp only [upd, if_neg hs, Mem.subbed, Mem.ev] at hx ⊢
        have := h.refsLive s' x hx
        refine ⟨this.1, ?_⟩
        split <;> simp [upd, hs, this.2]
    · intro s' u hdy
      by_cases hs : s' = s
      · subst hs
        simp only [upd_same, Mem.subbed, Mem.ev] at hdy ⊢
        by_cases h2 : m.count s' = 1
        · have := List.length_erase_of_mem hr
          have h3 : ((m.refs s').erase (.thread t)).length = 0 := by omega
          have h4 : (m.own s').toList.length = 0 := by omega
          refine ⟨hl, List.eq_nil_of_length_eq_zero h3, ?_⟩
          cases ho : m.own s' with
          | none => rfl
          | some g => simp [ho] at h4
        · simp [h2, hd] at hdy
      · have : m.dying s' = some u := by
          simp only [Mem.subbed, Mem.ev] at hdy
          split at hdy <;> simpa [upd, hs] using hdy
        simp only [upd, if_neg hs, Mem.subbed, Mem.ev]
        exact h.dyingOk s' u this
    · intro s' hl'
      by_cases hs : s' = s
      · subst hs
        have := List.length_erase_of_mem hr
        simp only [upd_same, Mem.subbed, Mem.ev]
        omega
      · simp only [upd, if_neg hs, Mem.subbed, Mem.ev]; exact h.count s' hl'
    · intro i s' w hl' hd' hi
      by_cases hs : s' = s
      · subst hs
        rcases h1.obj i s' w hl' hd hi with h2 | ⟨x, h2, h3⟩ | h2
        · exact .inl h2
        · by_cases hx : x = .thread t
          · subst hx; exact .inl (key1 i h3)
          · refine .inr (.inl ⟨x, ?_, h3⟩)
            simp only [upd_same, Mem.subbed, Mem.ev]
            exact (List.mem_erase_of_ne hx).2 h2
        · exact .inr (.inr h2)
      · have : m.dying s' = none := by
          simp only [Mem.subbed, Mem.ev] at hd'
          split at hd' <;> simpa [upd, hs] using hd'
        rcases h1.obj i s' w hl' this hi with h2 | ⟨x, h2, h3⟩ | h2
        · exact .inl h2
        · refine .inr (.inl ⟨x, ?_, h3⟩)
          simp only [upd, if_neg hs, Mem.subbed, Mem.ev]; exact h2
        · exact .inr (.inr h2)
    · intro i s' w u hdy hi
      by_cases hs : s' = s
      · subst hs
        by_cases h2 : m.count s' = 1
        · have hu : u = t := by
            simp [Mem.subbed, Mem.ev, h2, upd] at hdy
            exact hdy.symm
          subst hu
          rcases h1.obj i s' w hl hd hi with h3 | ⟨x, h3, h4⟩ | ⟨g, h3, _⟩
          · exact key2 i h3
          · have h5 : x = .thread u := by
              have : (m.refs s').length = 1 := by omega
              obtain ⟨y, hy⟩ := List.length_eq_one_iff.1 this
              have h3' : x ∈ m.refs s' := h3
              rw [hy] at h3' hr
              simp at h3' hr
              rw [h3', ← hr]
            subst h5; exact h4
          · have h3' : m.own s' = some g := h3
            rw [h3'] at hc
            simp at hc; omega
        · simp [Mem.subbed, Mem.ev, h2, hd] at hdy
      · have : m.dying s' = some u := by
          simp only [Mem.subbed, Mem.ev] at hdy
          split at hdy <;> simpa [upd, hs] using hdy
        exact h1.dyi i s' w u this hi
    · intro s' x hx
      by_cases hs : s' = s
      · subst hs
        simp only [upd_same, Mem.subbed, Mem.ev] at hx
        exact h1.newR s' x (List.mem_of_mem_erase hx)
      · simp only [upd, if_neg hs, Mem.subbed, Mem.ev] at hx; exact h1.newR s' x hx
  · exact { Guar.ev t m (.sub s) [(.obj s, false)] with
      refs := fun s' x hx => by
        by_cases hs : s' = s
        · subst hs
          simp only [upd_same, Mem.subbed, Mem.ev]
          exact List.count_erase_of_ne hx
        · simp [upd, hs, Mem.subbed, Mem.ev]
      dying := fun s' u hu hdy => by
        by_cases hs : s' = s
        · subst hs; rw [hd] at hdy; cases hdy
        · simp only [Mem.subbed, Mem.ev]
          split <;> simp [upd, hs, hdy] }
  · intro hb
    have h2 : m.count s = 1 := by simpa [Mem.subbed, Mem.ev] using hb
    have := List.length_erase_of_mem hr
    have h3 : ((m.refs s).erase (.thread t)).length = 0 := by omega
    refine ⟨by simp [Mem.subbed, Mem.ev, h2, upd], ?_⟩
    simp only [upd_same, Mem.subbed, Mem.ev]
    exact List.eq_nil_of_length_eq_zero h3
  · intro s' u hdy
    by_cases hs : s' = s
    · subst hs; rw [hd] at hdy; cases hdy
    · simp only [Mem.subbed, Mem.ev]
      split <;> simp [upd, hs, hdy]

theorem del_ok {m : Mem} {t s : Nat} (h : Inv m) (hd : m.dying s = some t) :
    ∃ m', m.del t s = some m' ∧ Inv m' ∧ Guar t m m' ∧ Same m m' ∧ m'.refs = m.refs := by
  obtain ⟨hl, hr, ho⟩ := h.dyingOk s t hd
  refine ⟨m.deleted t s, by rw [Mem.del, if_pos hl], ?_, ?_, ⟨rfl, rfl, rfl, rfl, rfl⟩, rfl⟩
  · have hne : ∀ s' g, m.own s' = some g → s' ≠ s := by
      rintro s' g h1 rfl; rw [ho] at h1; cases h1
    refine { toCore := ?_, snd := ?_ }
    · exact {
        ordered := by
          refine h.ordered.append fun i x w w' hi hx _ => known_hb (e := ⟨t, _, _⟩) ?_
          simp only [List.mem_cons, Prod.mk.injEq, List.not_mem_nil, or_false] at hx
          rcases hx with ⟨rfl, _⟩ | ⟨rfl, _⟩
          · exact h.dyi i s w t hd hi
          · obtain ⟨w', h1⟩ := h.accNxt i s w hi
            exact h.dyi i s w' t hd h1
        accObj := by
          intro i s' w hi
          rcases acc_cases hi with hi | ⟨_, hx⟩
          · exact h.accObj i s' w hi
          · simp at hx
            rw [hx.1]; exact h.liveLt s hl
        accNxt := by
          intro i s' w hi
          rcases acc_cases hi with hi | ⟨rfl, hx⟩
          · obtain ⟨w', h1⟩ := h.accNxt i s' w hi
            exact ⟨w', h1.append _⟩
          · simp at hx
            rw [hx.1]
            exact ⟨true, _, get_last _ _, by simp⟩
        accFld := by
          intro i g w hi
          rcases acc_cases hi with hi | ⟨rfl, hx⟩
          · exact h.accFld i g w hi
          · simp at hx
        accMtx := by
          intro i g w hi
          rcases acc_cases hi with hi | ⟨rfl, hx⟩
          · exact h.accMtx i g w hi
          · simp at hx
        lists := h.lists
        nodup := h.nodup
        ownLive := by
          intro s' g hg
          have h1 := h.ownLive s' g hg
          have := hne s' g hg
          simpa [Mem.deleted, Mem.ev, upd, this] using h1
        refsLive := by
          intro s' x hx
          by_cases hs : s' = s
          · subst hs
            have : x ∈ m.refs s' := hx
            rw [hr] at this; cases this
          · simpa [Mem.deleted, Mem.ev, upd, hs] using h.refsLive s' x hx
        dyingOk := by
          intro s' u hdy
          by_cases hs : s' = s
          · subst hs; simp [Mem.deleted, upd] at hdy
          · simp only [Mem.deleted, Mem.ev, upd, if_neg hs] at hdy ⊢
            exact h.dyingOk s' u hdy
        liveLt := by
          intro s' hl'
          by_cases hs : s' = s
          · subst hs; exact h.liveLt s' hl
          · simp only [Mem.deleted, Mem.ev, upd, if_neg hs] at hl'; exact h.liveLt s' hl'
        bornLt := h.bornLt
        heldLt := h.heldLt
        count := by
          intro s' hl'
          by_cases hs : s' = s
          · subst hs; simp [Mem.deleted, upd] at hl'
          · simp only [Mem.deleted, Mem.ev, upd, if_neg hs] at hl'; exact h.count s' hl'
        active := h.active
        fld := by
          intro i g w hi
          rcases acc_cases hi with hi | ⟨rfl, hx⟩
          · exact (h.fld i g w hi).ev
          · simp at hx
        nxt := by
          intro i s' g w hg hi
          rcases acc_cases hi with hi | ⟨rfl, hx⟩
          · exact (h.nxt i s' g w hg hi).ev
          · simp at hx
            exact absurd hx.1 (hne s' g hg)
        obj := by
          intro i s' w hl' hd' hi
          by_cases hs : s' = s
          · subst hs; simp [Mem.deleted, upd] at hl'
          · simp only [Mem.deleted, Mem.ev, upd, if_neg hs] at hl' hd'
            rcases acc_cases hi with hi | ⟨rfl, hx⟩
            · rcases h.obj i s' w hl' hd' hi with h1 | ⟨x, h1, h2⟩ | ⟨g, h1, h2⟩
              · exact .inl (Under.append _ h1)
              · exact .inr (.inl ⟨x, h1, h2.append _⟩)
              · exact .inr (.inr ⟨g, h1, h2.ev⟩)
            · simp at hx
              exact absurd hx.1 hs
        dyi := by
          intro i s' w u hdy hi
          by_cases hs : s' = s
          · subst hs; simp [Mem.deleted, upd] at hdy
          · simp only [Mem.deleted, Mem.ev, upd, if_neg hs] at hdy
            rcases acc_cases hi with hi | ⟨rfl, hx⟩
            · exact Under.append _ (h.dyi i s' w u hdy hi)
            · simp at hx
              exact absurd hx.1 hs
        wr := by
          intro i s' hl' hi
          by_cases hs : s' = s
          · subst hs; simp [Mem.deleted, upd] at hl'
          · simp only [Mem.deleted, Mem.ev, upd, if_neg hs] at hl'
            rcases acc_cases hi with hi | ⟨rfl, hx⟩
            · exact h.wr i s' hl' hi
            · simp at hx
              exact absurd hx hs
        newR := fun s' x hx => (h.newR s' x hx).append _
        newL := fun s' g hg => (h.newL s' g hg).ev
        mtxB := by
          intro i g hb hi
          rcases acc_cases hi with hi | ⟨rfl, hx⟩
          · exact (h.mtxB i g hb hi).append _
          · simp at hx
        mtxN := by
          intro i g u hb hh hi
          rcases acc_cases hi with hi | ⟨rfl, hx⟩
          · exact Under.append _ (h.mtxN i g u hb hh hi)
          · simp at hx }
    · intro s' g hl' hs'
      by_cases hs : s' = s
      · subst hs; simp [Mem.deleted, upd] at hl'
      · simp only [Mem.deleted, Mem.ev, upd, if_neg hs] at hl'
        exact (h.snd s').ev (by simp) g hl' hs'
  · exact { Guar.ev t m .none [(.obj s, true), (.nxt s, true)] with
      dying := fun s' u hu hdy => by
        by_cases hs : s' = s
        · subst hs; rw [hd] at hdy; cases hdy; exact absurd rfl hu
        · simp [upd, hs, Mem.deleted, Mem.ev, hdy] }

theorem store_ok {m : Mem} {t s : Nat} {v : Option Nat} (h : Inv m) (hm : May m t s)
    (hk : ∀ g, v = some g → Knows m t g) :
    ∃ m', m.store t s v = some m' ∧ Inv m' ∧ Guar t m m' ∧ Same m m' ∧ m'.refs = m.refs ∧ m'.dying = m.dying ∧
      m'.sender = upd m.sender s v := by
  have hl := (hm.live h.toCore).1
  have h1 : Core (m.ev t (.store s) [(.obj s, false)]) :=
    h.toCore.ev (by simpa [Allowed, May] using hm) (by simp)
  refine ⟨m.stored t s v, by rw [Mem.store, if_pos hl], { h1 with snd := ?_ }, { Guar.ev t m (.store s) [(.obj s, false)] with },
    ⟨rfl, rfl, rfl, rfl, rfl⟩, rfl, rfl, rfl⟩
  intro s' g hl' hs'
  by_cases hs : s' = s
  · subst hs
    simp only [upd_same, Mem.stored, Mem.ev] at hs' ⊢
    obtain ⟨h2, h3⟩ := hk g hs'
    exact ⟨h2, .inr (known_hb (e := ⟨t, _, _⟩) h3), .inr (lastStore_last rfl)⟩
  · simp only [upd, if_neg hs, Mem.stored, Mem.ev] at hs' ⊢
    exact (h.snd s').ev (t := t) (y := .store s) (acc := [(.obj s, false)]) (by simpa using fun h => hs h.symm) g hl' hs'

theorem xchg_ok {m : Mem} {t s : Nat} (h : Inv m) (hm : May m t s) :
    ∃ m', m.xchg t s = some (m', m.sender s) ∧ Inv m' ∧ Guar t m m' ∧ Same m m' ∧ m'.refs = m.refs ∧
      m'.dying = m.dying ∧ (∀ g, m.sender s = some g → Knows m' t g) := by
  have hl := (hm.live h.toCore).1
  have h1 : Inv (m.ev t (.xchg s) [(.obj s, false)]) :=
    h.ev (by simpa [Allowed, May] using hm) (by simp) (by simp)
  refine ⟨m.xchgd t s, by rw [Mem.xchg, if_pos hl], { h1 with snd := ?_ },
    { Guar.ev t m (.xchg s) [(.obj s, false)] with }, ⟨rfl, rfl, rfl, rfl, rfl⟩, rfl, rfl, ?_⟩
  · intro s' g hl' hs'
    by_cases hs : s' = s
    · subst hs; simp [Mem.xchgd, upd] at hs'
    · simp only [Mem.xchgd, upd, if_neg hs] at hs'
      exact h1.snd s' g hl' hs'
  · intro g hg
    obtain ⟨h2, h3, h4⟩ := h.snd s g hl hg
    refine ⟨h2, ?_⟩
    show Known (m.tr ++ [⟨t, .xchg s, [(.obj s, false)]⟩]) t (m.birth g)
    refine Under.back ?_ (h3.append _)
    rcases h4 with h4 | h4
    · rw [h4]; exact Under.append _ (hm.knows h.toCore)
    · exact known_of_hb (e := ⟨t, .xchg s, _⟩) (h4.hb rfl)

end Verif.Races
