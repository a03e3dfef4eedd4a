import Verif.Races.Prims2

/-! The accesses keep the invariant, continued: lists. -/

namespace Verif.Races

theorem Core.mayList {m : Mem} (h : Core m) {t g s : Nat} (hh : m.held g = some t) (hs : s ∈ m.list g) : May m t s :=
  .inr ⟨g, (h.lists s g).1 hs, hh⟩

theorem link_allowed {m : Mem} {t g s : Nat} {w : Bool} (ho : m.own s = some g) (hh : m.held g = some t) :
    ∀ a ∈ link s w, Allowed m t a := by
  simp only [link, List.mem_cons, List.not_mem_nil, or_false, forall_eq_or_imp, forall_eq, Allowed, true_and]
  exact ⟨.inr ⟨g, ho, hh⟩, g, ho, hh⟩

theorem link_obj {s x : Nat} {w w' : Bool} (h : (Loc.nxt x, w') ∈ link s w) : (Loc.obj x, false) ∈ link s w := by
  simp only [link, List.mem_cons, List.not_mem_nil, or_false, Prod.mk.injEq, reduceCtorEq, false_and, false_or] at h
  cases h.1
  simp [link]

/-! ### Following links -/

theorem succ_mem : ∀ {l : List Nat} {s n : Nat}, succ l s = some n → n ∈ l
  | [], _, _, h => by simp [succ] at h
  | [_], _, _, h => by simp [succ] at h
  | a :: b :: l, s, n, h => by
    unfold succ at h
    split at h
    · cases h; simp
    · exact List.mem_cons_of_mem _ (succ_mem h)

theorem succ_ne : ∀ {l : List Nat} {s n : Nat}, l.Nodup → succ l s = some n → n ≠ s
  | [], _, _, _, h => by simp [succ] at h
  | [_], _, _, _, h => by simp [succ] at h
  | a :: b :: l, s, n, hn, h => by
    unfold succ at h
    split at h
    · cases h
      rename_i h1
      subst h1
      intro h2
      subst h2
      simp at hn
    · exact succ_ne hn.tail h

theorem pred_mem : ∀ {l : List Nat} {s n : Nat}, pred l s = some n → n ∈ l
  | [], _, _, h => by simp [pred] at h
  | [_], _, _, h => by simp [pred] at h
  | a :: b :: l, s, n, h => by
    unfold pred at h
    split at h
    · cases h; simp
    · exact List.mem_cons_of_mem _ (pred_mem h)

theorem next_ok {m : Mem} {t g s : Nat} (h : Inv m) (hh : m.held g = some t) (hs : s ∈ m.list g) :
    m.next t g s = some (m.ev t .none (link s false), succ (m.list g) s) ∧
      Inv (m.ev t .none (link s false)) ∧ Guar t m (m.ev t .none (link s false)) := by
  have ho := (h.lists s g).1 hs
  refine ⟨?_, h.ev (link_allowed ho hh) (fun x w hx => link_obj hx) (by simp), Guar.ev ..⟩
  rw [Mem.next, if_pos]
  simp [(h.ownLive s g ho).1, hs]

/-! ### Inserting -/

theorem made_ok {m : Mem} {t g : Nat} {pos : Pos} (h : Inv m) (hh : m.held g = some t) (hk : Knows m t g) :
    Inv (m.made t g pos) ∧ Guar t m (m.made t g pos) := by
  have hnl : m.live m.nslots = false := by
    cases hl : m.live m.nslots with
    | false => rfl
    | true => exact absurd (h.liveLt _ hl) (Nat.lt_irrefl _)
  have hno : m.own m.nslots = none := by
    cases ho : m.own m.nslots with
    | none => rfl
    | some g' => have := (h.ownLive _ g' ho).1; rw [hnl] at this; cases this
  have hnr : m.refs m.nslots = [] := by
    cases hr : m.refs m.nslots with
    | nil => rfl
    | cons x l => have := (h.refsLive m.nslots x (by simp [hr])).1; rw [hnl] at this; cases this
  have hnd : m.dying m.nslots = none := by
    cases hd : m.dying m.nslots with
    | none => rfl
    | some u => have := (h.dyingOk _ u hd).1; rw [hnl] at this; cases this
  have hni : ∀ g', m.nslots ∉ m.list g' := fun g' hm => by
    have := (h.lists _ g').1 hm; rw [hno] at this; cases this
  have hmem : ∀ s, s ∈ insertAt (m.list g) m.nslots pos ↔
      s = m.nslots ∨ s ∈ m.list g := by
    intro s; cases pos <;> simp [insertAt, or_comm]
  have hacc : ∀ i w, ¬ Acc m.tr i (.obj m.nslots) w := fun i w hi => Nat.lt_irrefl _ (h.accObj i _ w hi)
  have hacn : ∀ i w, ¬ Acc m.tr i (.nxt m.nslots) w := fun i w hi => by
    obtain ⟨w', h1⟩ := h.accNxt i _ w hi; exact hacc i w' h1
  have hkn : Known (m.tr ++ [⟨t, .none, [(.obj m.nslots, true), (.nxt m.nslots, true)]⟩]) t m.tr.length :=
    known_last m.tr ⟨t, .none, _⟩
  have hgn : Guard (m.made t g pos) g m.tr.length :=
    (guard_held (m := m.made t g pos) hh).2 hkn
  have hge : ∀ g' i, Guard m g' i → Guard (m.made t g pos) g' i := fun g' i hi =>
    Guard.ev (t := t) (y := .none) (acc := [(.obj m.nslots, true), (.nxt m.nslots, true)]) hi
  refine ⟨{ toCore := ?_, snd := ?_ }, ?_⟩
  · exact {
      ordered := by
        refine h.ordered.append fun i x w w' hi hx _ => ?_
        simp only [List.mem_cons, Prod.mk.injEq, List.not_mem_nil, or_false] at hx
        rcases hx with ⟨rfl, _⟩ | ⟨rfl, _⟩
        · exact absurd hi (hacc i w)
        · exact absurd hi (hacn i w)
      accObj := by
        intro i s w hi
        show s < m.nslots + 1
        rcases acc_cases hi with hi | ⟨_, hx⟩
        · have := h.accObj i s w hi; omega
        · simp at hx; omega
      accNxt := by
        intro i s w hi
        rcases acc_cases hi with hi | ⟨rfl, hx⟩
        · obtain ⟨w', h1⟩ := h.accNxt i s w hi
          exact ⟨w', h1.append _⟩
        · simp at hx
          rw [hx.1]
          exact ⟨true, _, get_last _ _, by simp⟩
      accFld := by
        intro i g' w hi
        rcases acc_cases hi with hi | ⟨rfl, hx⟩
        · exact h.accFld i g' w hi
        · simp at hx
      accMtx := by
        intro i g' w hi
        rcases acc_cases hi with hi | ⟨rfl, hx⟩
        · exact h.accMtx i g' w hi
        · simp at hx
      lists := by
        intro s g'
        simp only [Mem.made, Mem.ev, upd]
        by_cases hs : s = m.nslots <;> by_cases hg : g' = g
        · subst hs hg; simp [hmem]
        · subst hs
          simp only [hg, if_false, if_true, hni, false_iff, Option.some.injEq]
          exact fun h => hg h.symm
        · subst hg; simp only [if_true, hmem, hs, false_or, if_false]; exact h.lists s g'
        · simp only [if_neg hg, if_neg hs]; exact h.lists s g'
      nodup := by
        intro g'
        simp only [Mem.made, Mem.ev, upd]
        by_cases hg : g' = g
        · subst hg
          have := h.nodup g'
          have h2 := hni g'
          cases pos
          · simp only [if_true, insertAt]
            rw [List.nodup_append]
            refine ⟨this, by simp, fun a ha b hb => ?_⟩
            simp at hb; subst hb
            rintro rfl; exact h2 ha
          · simp [insertAt, this, h2]
        · simp only [if_neg hg]; exact h.nodup g'
      ownLive := by
        intro s g' ho
        simp only [Mem.made, Mem.ev, upd] at ho ⊢
        by_cases hs : s = m.nslots
        · subst hs
          simp only [if_true, Option.some.injEq] at ho
          subst ho
          exact ⟨by simp, hnd, h.heldLt _ t hh⟩
        · simp only [if_neg hs] at ho ⊢; exact h.ownLive s g' ho
      refsLive := by
        intro s x hx
        have hx' : x ∈ m.refs s := hx
        simp only [Mem.made, Mem.ev, upd]
        have := h.refsLive s x hx'
        refine ⟨?_, this.2⟩
        split
        · rfl
        · exact this.1
      dyingOk := by
        intro s u hd
        have hd' : m.dying s = some u := hd
        have hs : s ≠ m.nslots := by rintro rfl; rw [hnd] at hd'; cases hd'
        simp only [Mem.made, Mem.ev, upd, if_neg hs]
        exact h.dyingOk s u hd'
      liveLt := by
        intro s hl
        simp only [Mem.made, Mem.ev, upd] at hl ⊢
        by_cases hs : s = m.nslots
        · omega
        · simp only [if_neg hs] at hl; have := h.liveLt s hl; omega
      bornLt := h.bornLt
      heldLt := h.heldLt
      count := by
        intro s hl
        simp only [Mem.made, Mem.ev, upd] at hl ⊢
        by_cases hs : s = m.nslots
        · subst hs; simp [hnr]
        · simp only [if_neg hs] at hl ⊢; exact h.count s hl
      active := h.active
      fld := by
        intro i g' w hi
        rcases acc_cases hi with hi | ⟨rfl, hx⟩
        · exact hge _ _ (h.fld i g' w hi)
        · simp at hx
      nxt := by
        intro i s g' w ho hi
        simp only [Mem.made, Mem.ev, upd] at ho
        by_cases hs : s = m.nslots
        · subst hs
          simp only [if_true, Option.some.injEq] at ho
          subst ho
          rcases acc_cases hi with hi | ⟨rfl, hx⟩
          · exact absurd hi (hacn i w)
          · exact hgn
        · simp only [if_neg hs] at ho
          rcases acc_cases hi with hi | ⟨rfl, hx⟩
          · exact hge _ _ (h.nxt i s g' w ho hi)
          · simp at hx; exact absurd hx.1 hs
      obj := by
        intro i s w hl hd hi
        by_cases hs : s = m.nslots
        · subst hs
          rcases acc_cases hi with hi | ⟨rfl, hx⟩
          · exact absurd hi (hacc i w)
          · exact .inr (.inr ⟨g, by simp [Mem.made, upd], hgn⟩)
        · simp only [Mem.made, Mem.ev, upd, if_neg hs] at hl
          rcases acc_cases hi with hi | ⟨rfl, hx⟩
          · rcases h.obj i s w hl hd hi with h1 | ⟨x, h1, h2⟩ | ⟨g', h1, h2⟩
            · exact .inl (Under.append _ h1)
            · exact .inr (.inl ⟨x, h1, h2.append _⟩)
            · refine .inr (.inr ⟨g', ?_, hge _ _ h2⟩)
              simpa [Mem.made, Mem.ev, upd, hs] using h1
          · simp at hx; exact absurd hx.1 hs
      dyi := by
        intro i s w u hd hi
        have hd' : m.dying s = some u := hd
        have hs : s ≠ m.nslots := by rintro rfl; rw [hnd] at hd'; cases hd'
        rcases acc_cases hi with hi | ⟨rfl, hx⟩
        · exact Under.append _ (h.dyi i s w u hd' hi)
        · simp at hx; exact absurd hx.1 hs
      wr := by
        intro i s hl hi
        simp only [Mem.made, Mem.ev, upd] at hl ⊢
        by_cases hs : s = m.nslots
        · subst hs
          rcases acc_cases hi with hi | ⟨rfl, hx⟩
          · exact absurd hi (hacc i _)
          · simp
        · simp only [if_neg hs] at hl ⊢
          rcases acc_cases hi with hi | ⟨rfl, hx⟩
          · exact h.wr i s hl hi
          · simp at hx; exact absurd hx hs
      newR := by
        intro s x hx
        have hx' : x ∈ m.refs s := hx
        have hs : s ≠ m.nslots := by rintro rfl; rw [hnr] at hx'; cases hx'
        simp only [Mem.made, Mem.ev, upd, if_neg hs]
        exact (h.newR s x hx').append _
      newL := by
        intro s g' ho
        by_cases hs : s = m.nslots
        · subst hs
          simp only [Mem.made, Mem.ev, upd, if_true, Option.some.injEq] at ho
          subst ho
          have : (m.made t g pos).newEv m.nslots = m.tr.length := by simp [Mem.made, upd]
          rw [this]
          exact hgn
        · simp only [Mem.made, Mem.ev, upd, if_neg hs] at ho
          have : (m.made t g pos).newEv s = m.newEv s := by simp [Mem.made, Mem.ev, upd, hs]
          rw [this]
          exact hge _ _ (h.newL s g' ho)
      mtxB := by
        intro i g' hb hi
        rcases acc_cases hi with hi | ⟨rfl, hx⟩
        · exact (h.mtxB i g' hb hi).append _
        · simp at hx
      mtxN := by
        intro i g' u hb hu hi
        rcases acc_cases hi with hi | ⟨rfl, hx⟩
        · exact Under.append _ (h.mtxN i g' u hb hu hi)
        · simp at hx }
  · intro s g' hl hs'
    by_cases hs : s = m.nslots
    · subst hs
      simp only [Mem.made, Mem.ev, upd, if_true, Option.some.injEq] at hs' ⊢
      subst hs'
      exact ⟨hk.1, .inr (known_hb (e := ⟨t, .none, _⟩) hk.2), .inl trivial⟩
    · simp only [Mem.made, Mem.ev, upd, if_neg hs] at hs' hl ⊢
      exact (h.snd s).ev (t := t) (y := .none) (acc := [(.obj m.nslots, true), (.nxt m.nslots, true)]) (by simp) g' hl hs'
  · exact { Guar.ev t m .none [(.obj m.nslots, true), (.nxt m.nslots, true)] with
      list := fun g' u hu hg => by
        have : g' ≠ g := by rintro rfl; rw [hh] at hg; cases hg; exact hu rfl
        simp [Mem.made, Mem.ev, upd, this]
      grow := fun g' s he hs => by
        simp only [Mem.made, Mem.ev, upd]
        by_cases hg : g' = g
        · subst hg; simp only [if_true, hmem, hs, or_true]
        · simp only [if_neg hg]; exact hs }

theorem insert_ok {m : Mem} {t g : Nat} {pos : Pos} (h : Inv m) (hh : m.held g = some t) (hk : Knows m t g) :
    Inv (m.insert t g pos) ∧ Guar t m (m.insert t g pos) ∧ m.nslots ∈ (m.insert t g pos).list g := by
  obtain ⟨h1, h2⟩ := made_ok (pos := pos) h hh hk
  have hh1 : (m.made t g pos).held g = some t := hh
  refine ⟨?_, h2.trans rfl (Guar.ev ..), by cases pos <;> simp [Mem.insert, Mem.made, Mem.ev, upd, insertAt]⟩
  have hn : (m.made t g pos).own m.nslots = some g := by simp [Mem.made, upd]
  have hold : ∀ z ∈ m.list g, (m.made t g pos).own z = some g := fun z hz => by
    have : z ≠ m.nslots := by
      rintro rfl
      exact Nat.lt_irrefl _ (h.liveLt _ (h.ownLive _ g ((h.lists _ g).1 hz)).1)
    simp only [Mem.made, Mem.ev, upd, if_neg this]
    exact (h.lists z g).1 hz
  refine h1.ev ?_ ?_ (by simp)
  · intro a ha
    rcases List.mem_cons.1 ha with rfl | ha
    · exact hh1
    · cases pos with
      | back =>
        simp only [insertLinks] at ha
        split at ha
        · cases ha
        · rename_i z hz
          exact link_allowed (hold z (List.mem_of_getLast? hz)) hh1 a ha
      | front =>
        simp only [insertLinks] at ha
        split at ha
        · cases ha
        · exact link_allowed hn hh1 a ha
  · intro s w hx
    rcases List.mem_cons.1 hx with hx | hx
    · cases hx
    · refine List.mem_cons_of_mem _ ?_
      cases pos with
      | back =>
        simp only [insertLinks] at hx ⊢
        split at hx
        · cases hx
        · exact link_obj hx
      | front =>
        simp only [insertLinks] at hx ⊢
        split at hx
        · cases hx
        · rename_i hc
          rw [if_neg hc]
          exact link_obj hx

/-! ### Removing -/

theorem removed_ok {m : Mem} {t g s : Nat} (h : Inv m) (hh : m.held g = some t) (hs : s ∈ m.list g) (he : m.ems g = []) :
    m.remove t g s = some (m.removed t g s) ∧ Inv (m.removed t g s) ∧ Guar t m (m.removed t g s) := by
  have ho := (h.lists s g).1 hs
  obtain ⟨hl, hd, _⟩ := h.ownLive s g ho
  have h1 : Inv (m.ev t .none ((.fld g, true) :: (link s false ++ removeLinks (m.list g) s))) := by
    refine h.ev ?_ ?_ (by simp)
    · intro a ha
      rcases List.mem_cons.1 ha with rfl | ha
      · exact hh
      · rcases List.mem_append.1 ha with ha | ha
        · exact link_allowed ho hh a ha
        · simp only [removeLinks] at ha
          split at ha
          · cases ha
          · rename_i p hp
            exact link_allowed ((h.lists p g).1 (pred_mem hp)) hh a ha
    · intro x w hx
      rcases List.mem_cons.1 hx with hx | hx
      · cases hx
      · refine List.mem_cons_of_mem _ ?_
        rcases List.mem_append.1 hx with hx | hx
        · exact List.mem_append_left _ (link_obj hx)
        · refine List.mem_append_right _ ?_
          simp only [removeLinks] at hx ⊢
          split at hx
          · cases hx
          · exact link_obj hx
  refine ⟨?_, ?_, ?_⟩
  · rw [Mem.remove, if_pos]
    simp [hl, hs, h.active g, he]
  · have hne : ∀ s' g', (m.removed t g s).own s' = some g' → s' ≠ s ∧ m.own s' = some g' := by
      intro s' g' h2
      by_cases hx : s' = s
      · subst hx; simp [Mem.removed, upd] at h2
      · simp only [Mem.removed, Mem.ev, upd, if_neg hx] at h2
        exact ⟨hx, h2⟩
    refine { h1 with
      lists := ?_, nodup := ?_, ownLive := ?_, refsLive := ?_, dyingOk := ?_, count := ?_, nxt := ?_, obj := ?_,
      newR := ?_, newL := ?_ }
    · intro s' g'
      simp only [Mem.removed, Mem.ev, upd]
      by_cases hx : s' = s
      · subst hx
        simp only [if_true, reduceCtorEq, iff_false]
        split
        · exact (h.nodup g).not_mem_erase
        · rename_i hg
          intro h2
          have := (h.lists s' g').1 h2
          rw [ho] at this; cases this; exact hg rfl
      · simp only [if_neg hx]
        split
        · rename_i hg
          subst hg
          rw [List.mem_erase_of_ne hx]
          exact h.lists s' g'
        · exact h.lists s' g'
    · intro g'
      simp only [Mem.removed, Mem.ev, upd]
      split
      · exact (h.nodup g).erase s
      · exact h.nodup g'
    · intro s' g' h2
      exact h.ownLive s' g' (hne s' g' h2).2
    · intro s' x hx
      by_cases hs' : s' = s
      · subst hs'; exact ⟨hl, hd⟩
      · simp only [Mem.removed, Mem.ev, upd, if_neg hs'] at hx; exact h.refsLive s' x hx
    · intro s' u hdy
      have hdy' : m.dying s' = some u := hdy
      have hs' : s' ≠ s := by rintro rfl; rw [hd] at hdy'; cases hdy'
      simp only [Mem.removed, Mem.ev, upd, if_neg hs']
      exact h.dyingOk s' u hdy'
    · intro s' hl'
      have := h.count s' hl'
      by_cases hs' : s' = s
      · subst hs'
        simp [Mem.removed, upd, Mem.ev]
        simp [ho] at this
        exact this
      · simp only [Mem.removed, Mem.ev, upd, if_neg hs']; exact this
    · intro i s' g' w h2 hi
      exact h1.nxt i s' g' w (hne s' g' h2).2 hi
    · intro i s' w hl' hd' hi
      rcases h1.obj i s' w hl' hd' hi with h2 | ⟨x, h2, h3⟩ | ⟨g', h2, h3⟩
      · exact .inl h2
      · refine .inr (.inl ⟨x, ?_, h3⟩)
        by_cases hs' : s' = s
        · subst hs'; simp only [Mem.removed, upd_same]; exact List.mem_cons_of_mem _ h2
        · simp only [Mem.removed, upd, if_neg hs']; exact h2
      · by_cases hs' : s' = s
        · subst hs'
          have : g' = g := by
            have h2' : m.own s' = some g' := h2
            rw [ho] at h2'; cases h2'; rfl
          subst this
          refine .inr (.inl ⟨.thread t, by simp [Mem.removed, upd], ?_⟩)
          exact (guard_held (m := m.ev t .none _) hh).1 h3
        · refine .inr (.inr ⟨g', ?_, h3⟩)
          simp only [Mem.removed, upd, if_neg hs']
          exact h2
    · intro s' x hx
      by_cases hs' : s' = s
      · subst hs'
        simp only [Mem.removed, upd_same, List.mem_cons] at hx
        rcases hx with rfl | hx
        · exact (guard_held (m := m.ev t .none _) hh).1 (h1.newL s' g ho)
        · exact h1.newR s' x hx
      · simp only [Mem.removed, upd, if_neg hs'] at hx; exact h1.newR s' x hx
    · intro s' g' h2
      exact h1.newL s' g' (hne s' g' h2).2
  · exact { Guar.ev t m .none ((.fld g, true) :: (link s false ++ removeLinks (m.list g) s)) with
      list := fun g' u hu hg => by
        have : g' ≠ g := by rintro rfl; rw [hh] at hg; cases hg; exact hu rfl
        simp [Mem.removed, Mem.ev, upd, this]
      grow := fun g' x hx hm => by
        have : g' ≠ g := by rintro rfl; exact hx he
        simpa [Mem.removed, Mem.ev, upd, this] using hm
      refs := fun s' x hx => by
        by_cases hs' : s' = s
        · subst hs'
          simp only [Mem.removed, upd_same]
          exact List.count_cons_of_ne (fun h => hx h.symm)
        · simp [Mem.removed, Mem.ev, upd, hs'] }

/-! ### Exchanging lists -/

/-- A change of owners between signals that thread `t` has locked. -/
theorem Core.owners {m m' : Mem} {t : Nat} (h : Core m)
    (h1 : m' = { m with list := m'.list, own := m'.own, deferred := m'.deferred })
    (hlists : ∀ s g, s ∈ m'.list g ↔ m'.own s = some g) (hnodup : ∀ g, (m'.list g).Nodup)
    (hsome : ∀ s g', m'.own s = some g' → g' < m.nsigs ∧
      (m.own s = some g' ∨ ∃ g, m.own s = some g ∧ m.held g = some t ∧ m.held g' = some t))
    (hnone : ∀ s g, m.own s = some g → m'.own s = some g ∨
      ∃ g', m'.own s = some g' ∧ m.held g = some t ∧ m.held g' = some t) : Core m' := by
  generalize m'.list = a, m'.own = b, m'.deferred = c at *
  subst h1
  have hcnt : ∀ s, (b s).toList.length = (m.own s).toList.length := by
    intro s
    cases ho : m.own s with
    | none =>
      cases hb : b s with
      | none => rfl
      | some g' =>
        rcases (hsome s g' hb).2 with h2 | ⟨g, h2, _⟩
        · rw [ho] at h2; cases h2
        · rw [ho] at h2; cases h2
    | some g =>
      rcases hnone s g ho with h2 | ⟨g', h2, _⟩ <;> simp [h2]
  have hto : ∀ s g' i, b s = some g' → (∀ g, m.own s = some g → Guard m g i) → Guard m g' i := by
    intro s g' i hb hG
    rcases (hsome s g' hb).2 with h2 | ⟨g, h2, h3, h4⟩
    · exact hG g' h2
    · exact (guard_held h4).2 ((guard_held h3).1 (hG g h2))
  exact { h with
    lists := hlists
    nodup := hnodup
    ownLive := fun s g' hb => by
      rcases hsome s g' hb with ⟨h5, h2 | ⟨g, h2, _⟩⟩
      · exact ⟨(h.ownLive s _ h2).1, (h.ownLive s _ h2).2.1, h5⟩
      · exact ⟨(h.ownLive s _ h2).1, (h.ownLive s _ h2).2.1, h5⟩
    dyingOk := fun s u hd => by
      obtain ⟨h2, h3, h4⟩ := h.dyingOk s u hd
      refine ⟨h2, h3, ?_⟩
      cases hb : b s with
      | none => exact hb
      | some g' => have := hcnt s; rw [hb, h4] at this; simp at this
    count := fun s hl => by
      have := h.count s hl
      show m.count s = (m.refs s).length + (b s).toList.length
      rw [hcnt s]; exact this
    nxt := fun i s g' w hb hi => hto s g' i hb fun g hg => h.nxt i s g w hg hi
    obj := fun i s w hl hd hi => by
      rcases h.obj i s w hl hd hi with h2 | h2 | ⟨g, h2, h3⟩
      · exact .inl h2
      · exact .inr (.inl h2)
      · rcases hnone s g h2 with h4 | ⟨g', h4, h5, h6⟩
        · exact .inr (.inr ⟨g, h4, h3⟩)
        · exact .inr (.inr ⟨g', h4, (guard_held (m := m) h6).2 ((guard_held h5).1 h3)⟩)
    newL := fun s g' hb => hto s g' _ hb fun g hg => h.newL s g hg }

theorem swapped_ok {m : Mem} {t g g' : Nat} (h : Inv m) (hh : m.held g = some t) (hh' : m.held g' = some t)
    (hne : g ≠ g') (he : m.ems g = []) (he' : m.ems g' = []) :
    Inv (m.swapped g g') ∧ Guar t m (m.swapped g g') := by
  refine ⟨{ toCore := h.toCore.owners (t := t) rfl ?_ ?_ ?_ ?_, snd := h.snd }, ?_⟩
  · intro s x
    have hx := h.lists s
    simp only [Mem.swapped, upd]
    by_cases h1 : x = g' <;> by_cases h2 : x = g
    · subst h1; exact absurd h2.symm hne
    · subst h1
      simp only [if_true, hx]
      constructor
      · intro h3; simp [h3]
      · split
        · intro _; assumption
        · split
          · intro h4; cases h4; exact absurd rfl hne
          · intro h4; exact absurd h4 ‹_›
    · subst h2
      simp only [if_neg h1, if_true, hx]
      constructor
      · intro h3
        have : ¬ m.own s = some x := by rw [h3]; simpa using fun h => hne h.symm
        simp [h3]
      · split
        · intro h4; cases h4; exact absurd rfl h1
        · split
          · intro _; assumption
          · intro h4; exact absurd h4 ‹_›
    · simp only [if_neg h1, if_neg h2, hx]
      constructor
      · intro h3
        have h4 : ¬ m.own s = some g := by rw [h3]; simpa using h2
        have h5 : ¬ m.own s = some g' := by rw [h3]; simpa using h1
        rw [if_neg h4, if_neg h5]; exact h3
      · split
        · intro h4; cases h4; exact absurd rfl h1
        · split
          · intro h4; cases h4; exact absurd rfl h2
          · exact id
  · intro x
    simp only [Mem.swapped, upd]
    split
    · exact h.nodup g
    · split
      · exact h.nodup g'
      · exact h.nodup x
  · intro s x
    simp only [Mem.swapped]
    split
    · rename_i h1
      intro h2; cases h2
      exact ⟨h.heldLt _ _ hh', .inr ⟨g, h1, hh, hh'⟩⟩
    · split
      · rename_i h1
        intro h2; cases h2
        exact ⟨h.heldLt _ _ hh, .inr ⟨g', h1, hh', hh⟩⟩
      · intro h2
        exact ⟨(h.ownLive s x h2).2.2, .inl h2⟩
  · intro s x hx
    simp only [Mem.swapped]
    split
    · rename_i h1
      rw [hx] at h1; cases h1
      exact .inr ⟨g', rfl, hh, hh'⟩
    · split
      · rename_i h1
        rw [hx] at h1; cases h1
        exact .inr ⟨g, rfl, hh', hh⟩
      · exact .inl hx
  · exact { Guar.refl t m with
      list := fun x u hu hx => by
        have h1 : x ≠ g := by rintro rfl; rw [hh] at hx; cases hx; exact hu rfl
        have h2 : x ≠ g' := by rintro rfl; rw [hh'] at hx; cases hx; exact hu rfl
        simp [Mem.swapped, upd, h1, h2]
      grow := fun x s hx hs => by
        have h1 : x ≠ g := by rintro rfl; exact hx he
        have h2 : x ≠ g' := by rintro rfl; exact hx he'
        simpa [Mem.swapped, upd, h1, h2] using hs }

theorem moved_ok {m : Mem} {t g g' : Nat} (h : Inv m) (hh : m.held g = some t) (hh' : m.held g' = some t)
    (hne : g ≠ g') (he : m.ems g = []) (hl : m.list g' = []) :
    Inv (m.moved g g') ∧ Guar t m (m.moved g g') := by
  have hno : ∀ s, m.own s ≠ some g' := fun s hs => by
    have := (h.lists s g').2 hs; rw [hl] at this; cases this
  refine ⟨{ toCore := h.toCore.owners (t := t) rfl ?_ ?_ ?_ ?_, snd := h.snd }, ?_⟩
  · intro s x
    have hx := h.lists s
    simp only [Mem.moved, upd]
    by_cases h1 : x = g' <;> by_cases h2 : x = g
    · subst h1; exact absurd h2.symm hne
    · subst h1
      simp only [if_true, hx]
      constructor
      · intro h3; simp [h3]
      · split
        · intro _; assumption
        · intro h4; exact absurd h4 (hno s)
    · subst h2
      simp only [if_neg h1, if_true, List.not_mem_nil, false_iff]
      split
      · simpa using fun h => h1 h.symm
      · assumption
    · simp only [if_neg h1, if_neg h2, hx]
      constructor
      · intro h3
        have h4 : ¬ m.own s = some g := by rw [h3]; simpa using h2
        rw [if_neg h4]; exact h3
      · split
        · intro h4; cases h4; exact absurd rfl h1
        · exact id
  · intro x
    simp only [Mem.moved, upd]
    split
    · exact h.nodup g
    · split
      · exact List.nodup_nil
      · exact h.nodup x
  · intro s x
    simp only [Mem.moved]
    split
    · rename_i h1
      intro h2; cases h2
      exact ⟨h.heldLt _ _ hh', .inr ⟨g, h1, hh, hh'⟩⟩
    · intro h2
      exact ⟨(h.ownLive s x h2).2.2, .inl h2⟩
  · intro s x hx
    simp only [Mem.moved]
    split
    · rename_i h1
      rw [hx] at h1; cases h1
      exact .inr ⟨g', rfl, hh, hh'⟩
    · exact .inl hx
  · exact { Guar.refl t m with
      list := fun x u hu hx => by
        have h1 : x ≠ g := by rintro rfl; rw [hh] at hx; cases hx; exact hu rfl
        have h2 : x ≠ g' := by rintro rfl; rw [hh'] at hx; cases hx; exact hu rfl
        simp [Mem.moved, upd, h1, h2]
      grow := fun x s hx hs => by
        have h1 : x ≠ g := by rintro rfl; exact hx he
        have h2 : x ≠ g' := by rintro rfl; rw [hl] at hs; cases hs
        simpa [Mem.moved, upd, h1, h2] using hs }

end Verif.Races
