import Verif.Races.Clean3

/-! All steps keep that (`Clean.lean`). -/

namespace Verif.Races

variable {st : State} {t : Nat}

theorem ems_active {m : Mem} {g : Nat} (hk : StateOk st) (hq : m.active = st.mem.active) (h : m.active g = 0) :
    st.mem.ems g = [] := by
  rw [hq, hk.mem.active] at h
  exact List.length_eq_zero_iff.1 h

theorem swapped_lists {m : Mem} {g g' : Nat} (hk : StateOk st) (hne : g ≠ g') (hl : m.list = st.mem.list := by rfl)
    (ho : m.own = st.mem.own := by rfl) (s x : Nat) (hs : (m.swapped g g').own s = some x) :
    s ∈ (m.swapped g g').list x := by
  have hs : (if m.own s = some g then some g' else if m.own s = some g' then some g else m.own s) = some x := hs
  show s ∈ upd (upd m.list g (m.list g')) g' (m.list g) x
  rw [ho] at hs
  rw [hl]
  split at hs
  · cases hs
    rw [upd_same]
    exact (hk.mem.lists s g).2 ‹_›
  · split at hs
    · cases hs
      rw [upd_other _ _ hne, upd_same]
      exact (hk.mem.lists s g').2 ‹_›
    · have h1 : x ≠ g := by rintro rfl; contradiction
      have h2 : x ≠ g' := by rintro rfl; contradiction
      rw [upd_other _ _ h2, upd_other _ _ h1]
      exact (hk.mem.lists s x).2 hs

theorem stepCode_local {b : Bool} (hk : StateOk st) (h : RestOk st) : LocalOut st t (stepCode st t (st.threads t) b) := by
  have hq := Quiet.refl st.mem
  have ht := hk.threads t
  have hrc := h.cleans t
  cases hc : (st.threads t).code <;> simp only [stepCode, hc]
  all_goals try
    (have hp : (st.threads t).code.plain = true := by rw [hc]; rfl)
  case emLock g =>
    refine local_free fun _ => local_go (began_local h hp ?_ rfl)
    quiets
  case emEnd g =>
    have he : t ∈ st.mem.ems g := by
      have := ht.ems g
      rw [hc] at this
      have h2 : 0 < (st.mem.ems g).count t := by
        rw [← this]
        simp [Code.ems]
      exact List.count_pos_iff.1 h2
    refine local_free fun _ => ?_
    split
    · exact local_ub
    · exact local_go (emEnd_local (m := (st.mem.lock t g).fields t g) hk h hp (by quiets) he)
  case cl g iter k =>
    have hw : k.sig = g := by have := ht.wf; rw [hc] at this; exact this
    cases iter with
    | none => exact local_go (cleaned_local hk h hc rfl)
    | some i =>
      have hil : i ∈ st.mem.list g := ht.listed (i, g) (by rw [hc]; simp [Code.listed, inList])
      have hio := (hk.mem.lists i g).1 hil
      refine local_touch hq fun m1 hq1 => ?_
      split
      · rename_i hv
        have hmi : st.mem.marked i = false := by
          unfold Mem.seen at hv
          rw [hq1.marked] at hv
          simp only [Bool.and_eq_true, Bool.not_eq_true'] at hv
          exact hv.1
        refine local_next hq1 fun r hr _ hs => local_go (quiet_local h hr ?_ ?_ ?_ ?_)
        · intro g' j hx
          rw [hc] at hx
          cases hx
          exact ⟨_, rfl⟩
        · intro g' j hx s ho hm
          cases hx
          rw [hs]
          refine tailAt_next (hk.mem.nodup g) hil (hrc g (some i) (by rw [hc]; rfl) s ho hm) ?_
          rintro rfl
          rw [hmi] at hm
          cases hm
        · intro s g' _ hx
          rw [hc] at hx
          exact hx
        · intro s g' _ hx
          rw [hc] at hx
          exact hx.elim
      · rename_i hv
        have hz : st.mem.sender i = none := by
          unfold Mem.seen at hv
          rw [hq1.marked, hq1.sender] at hv
          cases hm : st.mem.marked i with
          | true => exact h.null i hm
          | false =>
            rw [hm] at hv
            cases hs : st.mem.sender i with
            | none => rfl
            | some x => rw [hs] at hv; exact absurd rfl hv
        refine local_next hq1 fun r hr _ hs => local_orUb fun m2 h2 => local_go ?_
        obtain ⟨rfl, _⟩ := remove_eq h2
        refine removal_local (i := i) h ?_ ?_ ?_ ?_ ?_ ?_ ?_ ?_ ?_ ?_ ?_
        · intro s
          show upd r.1.own i none s = _
          rw [hr.own]; rfl
        · intro s _
          show r.1.marked s = _
          rw [hr.marked]
        · exact hr.deferred
        · exact hr.ems
        · intro s _
          show r.1.sender s = _
          rw [hr.sender]
        · show r.1.sender i = none
          rw [hr.sender]; exact hz
        · exact hr.live
        · intro g' j hx
          rw [hc] at hx
          cases hx
          exact ⟨_, rfl⟩
        · intro g' j hx s hsi ho hm
          cases hx
          show s ∈ tailAt (upd r.1.list g ((r.1.list g).erase i) g) r.2
          rw [upd_same, hs, hr.list]
          exact removed_tail (hk.mem.nodup g) hil (hrc g (some i) (by rw [hc]; rfl) s ho hm) hsi
        · intro s g' _ _ hx
          rw [hc] at hx
          exact hx
        · intro s g' _ _ hx
          rw [hc] at hx
          exact hx.elim
  case clRel g s next k =>
    refine local_sub hq fun r hr => local_go (quiet_local h hr ?_ ?_ ?_ ?_)
    · intro g' j hx
      rw [hc] at hx
      cases hx
      refine ⟨next, ?_⟩
      unfold thenDel
      split <;> rfl
    · intro g' j hx s ho hm
      have hx : some (g, next) = some (g', j) := by
        rw [← hx]
        unfold thenDel
        split <;> rfl
      cases hx
      exact hrc g next (by rw [hc]; rfl) s ho hm
    · intro s g' _ hx
      rw [hc] at hx
      unfold thenDel
      split <;> exact hx
    · intro s g' _ hx
      rw [hc] at hx
      exact hx.elim
  case clDel g s next k =>
    refine local_del hq fun r hr => local_go (quiet_local h hr ?_ ?_ ?_ ?_)
    · intro g' j hx
      rw [hc] at hx
      cases hx
      exact ⟨next, rfl⟩
    · intro g' j hx s ho hm
      cases hx
      exact hrc g next (by rw [hc]; rfl) s ho hm
    · intro s g' _ hx
      rw [hc] at hx
      exact hx
    · intro s g' _ hx
      rw [hc] at hx
      exact hx.elim
  case rb g iter k =>
    have hw : k.sig = g := by have := ht.wf; rw [hc] at this; exact this
    cases iter with
    | none =>
      have hcn : (st.threads t).code.cleans = none := by rw [hc]; rfl
      have hdn : ∀ s g, ¬ Dis st.mem s g (st.threads t).code := by intro s g hx; rw [hc] at hx; exact hx
      have hrb : ∀ s x, Rebinds st.mem s x (st.threads t).code → k.later x := by
        intro s x hx
        rw [hc] at hx
        rcases hx with ⟨_, hx⟩ | hx
        · cases hx
        · exact hx
      cases k with
      | em x =>
        refine local_go (quiet_local h hq ?_ (fun _ _ hx => by cases hx) (fun s y _ hx => (hrb s y hx).elim)
          (fun s y _ hx => absurd hx (hdn s y)))
        intro _ _ hx; rw [hcn] at hx; cases hx
      | mv x =>
        refine local_go (quiet_local h hq ?_ (fun _ _ hx => by cases hx) (fun s y _ hx => (hrb s y hx).elim)
          (fun s y _ hx => absurd hx (hdn s y)))
        intro _ _ hx; rw [hcn] at hx; cases hx
      | sw2 x x' =>
        refine local_go (quiet_local h hq ?_ (fun _ _ hx => by cases hx) (fun s y _ hx => (hrb s y hx).elim)
          (fun s y _ hx => absurd hx (hdn s y)))
        intro _ _ hx; rw [hcn] at hx; cases hx
      | sw1 x x' =>
        refine local_go (quiet_local (m' := st.mem.fields t x') h (by quiets) ?_ ?_ ?_ (fun s y _ hx => absurd hx (hdn s y)))
        · intro _ _ hx; rw [hcn] at hx; cases hx
        · intro y j hx s ho hm
          dsimp only at hx
          split at hx
          · cases hx
            exact own_tail hk ho
          · rw [K.cleaned_cleans] at hx
            cases hx
        · intro s y ho hx
          have : y = x' := hrb s y hx
          subst this
          dsimp only
          split
          · exact rfl
          · exact K.cleaned_rebinds (m := st.mem) ((hk.mem.lists s y).2 ho) (k := .sw2 x y) rfl
    | some i =>
      have hil : i ∈ st.mem.list g := ht.listed (i, g) (by rw [hc]; simp [Code.listed, inList])
      have hio := (hk.mem.lists i g).1 hil
      refine local_orUb fun m1 h1 => ?_
      cases store_eq h1
      refine local_orUb fun r h2 => local_go ?_
      obtain ⟨hr, _, hs⟩ := quiet_next h2
      refine rebound_local (i := i) (g := g) h hio ?_ ?_ ?_ ?_ ?_ ?_ ?_ ?_ ?_ ?_
      · exact hr.own
      · exact hr.marked
      · exact hr.deferred
      · exact hr.ems
      · exact hr.sender
      · exact hr.live
      · rw [hc]; rfl
      · rfl
      · intro s x hsi hx
        rw [hc] at hx
        rcases hx with ⟨hx, hx'⟩ | hx
        · subst hx
          refine .inl ⟨rfl, ?_⟩
          rw [hr.list, hs]
          exact tailAt_next (hk.mem.nodup g) hil hx' hsi
        · exact .inr hx
      · intro s x hx
        rw [hc] at hx
        exact hx
  case disLock s g =>
    refine local_free fun _ => local_go (quiet_local (m' := (st.mem.lock t g).fields t g) h (by quiets) ?_ ?_ ?_ ?_)
    · intro _ _ hx; rw [hc] at hx; cases hx
    · intro _ _ hx; cases hx
    · intro _ _ _ hx; rw [hc] at hx; exact hx.elim
    · intro s' g' ho hx
      rw [hc] at hx
      obtain ⟨rfl, rfl⟩ := hx
      exact ⟨rfl, rfl, own_tail hk ho⟩
  case disLoop s g iter =>
    have hcn : ∀ {c' : Code} g i, (st.threads t).code.cleans = some (g, i) → ∃ i', c'.cleans = some (g, i') := by
      intro _ _ _ hx; rw [hc] at hx; cases hx
    have hrn : ∀ {c' : Code} s x, st.mem.own s = some x → Rebinds st.mem s x (st.threads t).code → Rebinds st.mem s x c' := by
      intro _ _ _ _ hx; rw [hc] at hx; exact hx.elim
    cases iter with
    | none =>
      refine local_go (quiet_local h hq hcn (fun _ _ hx => by cases hx) hrn ?_)
      intro s' g' _ hx
      rw [hc] at hx
      obtain ⟨_, _, hx⟩ := hx
      cases hx
    | some i =>
      have hil : i ∈ st.mem.list g := ht.listed (i, g) (by rw [hc]; simp [Code.listed, inList])
      dsimp only
      split
      · refine local_go (quiet_local h hq hcn (fun _ _ hx => by cases hx) hrn ?_)
        intro s' g' _ hx
        rw [hc] at hx
        exact ⟨hx.1, hx.2.1⟩
      · rename_i hne
        refine local_next hq fun r hr _ hs => local_go (quiet_local h hr hcn (fun _ _ hx => by cases hx) hrn ?_)
        intro s' g' _ hx
        rw [hc] at hx
        obtain ⟨rfl, rfl, hx⟩ := hx
        refine ⟨rfl, rfl, ?_⟩
        rw [hs]
        exact tailAt_next (hk.mem.nodup g) hil hx fun hx => hne hx.symm
  case disStore s g =>
    have hil : s ∈ st.mem.list g := ht.listed (s, g) (by rw [hc]; simp [Code.listed])
    have hio := (hk.mem.lists s g).1 hil
    have hh : st.mem.held g = some t := (ht.held g).2 (by rw [hc]; simp [Code.locks])
    refine local_orUb fun m1 h1 => ?_
    cases store_eq h1
    split
    · refine local_orUb fun m2 h2 => local_go ?_
      obtain ⟨rfl, _⟩ := remove_eq h2
      refine removal_local (i := s) h (fun _ => rfl) (fun x hx => upd_other _ _ hx) rfl rfl (fun x hx => upd_other _ _ hx)
        (upd_same ..) (fun _ h => h) ?_ ?_ ?_ ?_
      · intro _ _ hx; rw [hc] at hx; cases hx
      · intro _ _ hx; cases hx
      · intro _ _ _ _ hx; rw [hc] at hx; exact hx.elim
      · intro s' g' hne _ hx
        rw [hc] at hx
        exact absurd hx.1.symm hne
    · rename_i ha
      refine local_go (invalidated_local (i := s) (g := g) h hh hio ?_ rfl rfl rfl rfl rfl (fun _ h => h) (by rw [hc]; rfl) rfl ?_ ?_)
      · intro he
        refine ha ?_
        show st.mem.active g = 0
        rw [hk.mem.active, he]; rfl
      · intro _ _ hx; rw [hc] at hx; exact hx
      · intro s' g' hne hx
        rw [hc] at hx
        exact absurd hx.1.symm hne
  case allLoop g iter =>
    cases iter with
    | none => exact local_go (plain_local h hp hq rfl)
    | some s =>
      have hil : s ∈ st.mem.list g := ht.listed (s, g) (by rw [hc]; simp [Code.listed, inList])
      have hio := (hk.mem.lists s g).1 hil
      have hh : st.mem.held g = some t := (ht.held g).2 (by rw [hc]; simp [Code.locks])
      refine local_orUb fun m1 h1 => ?_
      cases store_eq h1
      refine local_orUb fun r h3 => ?_
      obtain ⟨hr, _, hs⟩ := quiet_next h3
      split
      · refine local_orUb fun m2 h2 => local_go ?_
        obtain ⟨rfl, _⟩ := remove_eq h2
        refine removal_local (i := s) h ?_ ?_ hr.deferred hr.ems ?_ ?_ hr.live ?_ ?_ ?_ ?_
        · intro x
          show upd r.1.own s none x = _
          rw [hr.own]; rfl
        · intro x hx
          show r.1.marked x = _
          rw [hr.marked]; exact upd_other _ _ hx
        · intro x hx
          show r.1.sender x = _
          rw [hr.sender]; exact upd_other _ _ hx
        · show r.1.sender s = _
          rw [hr.sender]; exact upd_same ..
        · intro _ _ hx; rw [hc] at hx; cases hx
        · intro _ _ hx; cases hx
        · intro _ _ _ _ hx; rw [hc] at hx; exact hx.elim
        · intro _ _ _ _ hx; rw [hc] at hx; exact hx.elim
      · rename_i ha
        refine local_go (invalidated_local (i := s) (g := g) h hh hio ?_ hr.own hr.marked ?_ hr.ems hr.sender hr.live
          (by rw [hc]; rfl) rfl ?_ ?_)
        · intro he
          refine ha ?_
          show st.mem.active g = 0
          rw [hk.mem.active, he]; rfl
        · show upd r.1.deferred g true = _
          rw [hr.deferred]; rfl
        · intro _ _ hx; rw [hc] at hx; exact hx
        · intro _ _ _ hx; rw [hc] at hx; exact hx
  case conLock g pos =>
    exact local_free fun _ => local_go (insert_local hk h hp (m := st.mem.lock t g) (by quiets) rfl rfl)
  case swLock g g' =>
    split
    · exact local_go (plain_local h hp hq rfl)
    · rename_i hne
      refine local_free fun hf => local_free fun hf' => ?_
      split
      · exact local_term
      · rename_i ha
        simp only [Bool.or_eq_true, decide_eq_true_eq, not_or, Decidable.not_not] at ha
        have he : st.mem.ems g = [] := ems_active hk (m := (st.mem.lock t g).lock t g') rfl ha.1
        have he' : st.mem.ems g' = [] := ems_active hk (m := (st.mem.lock t g).lock t g') rfl ha.2
        have hd := free_deferred hk h hf he
        have hd' := free_deferred hk h hf' he'
        rw [if_neg (by
          show ¬ upd (upd st.mem.deferred g (st.mem.deferred g')) g' (st.mem.deferred g) g = true
          rw [upd_other _ _ hne, upd_same, hd']; nofun)]
        refine local_go (swapped_local h hp (by quiets) hd hd' rfl ?_ ?_)
        · intro s x hs hx
          exact K.cleaned_rebinds (k := .sw1 g g') hs hx
        · exact swapped_lists hk hne
  case mvLock g g' =>
    have hh : st.mem.held g' = some t := (ht.held g').2 (by rw [hc]; simp [Code.locks])
    refine local_free fun hf => ?_
    split
    · exact local_term
    · rename_i ha
      have he : st.mem.ems g = [] := ems_active hk (m := st.mem.lock t g) rfl (Decidable.not_not.1 ha)
      refine local_go (moved_local h hp (by quiets) (free_deferred hk h hf he) ?_)
      intro s hs
      have h1 := (hk.mem.lists s g').2 hs
      rw [ht.empty g' (by rw [hc]; simp [Code.empty])] at h1
      cases h1
  case mvUnl g g' =>
    refine local_go (quiet_local h (by quiets) ?_ (fun _ _ hx => by cases hx) ?_ ?_)
    · intro _ _ hx; rw [hc] at hx; cases hx
    · intro s x _ hx; rw [hc] at hx; exact hx
    · intro s x _ hx; rw [hc] at hx; exact hx.elim
  case mvLock2 g =>
    refine local_free fun _ => ?_
    split
    · refine local_go (quiet_local (m' := (st.mem.lock t g).fields t g) h (by quiets) ?_ ?_ ?_ ?_)
      · intro _ _ hx; rw [hc] at hx; cases hx
      · intro x j hx s ho hm
        cases hx
        exact own_tail hk ho
      · intro s x _ hx
        rw [hc] at hx
        exact hx.symm
      · intro s x _ hx; rw [hc] at hx; exact hx.elim
    · refine local_go (quiet_local (m' := (st.mem.lock t g).fields t g) h (by quiets) ?_ ?_ ?_ ?_)
      · intro _ _ hx; rw [hc] at hx; cases hx
      · intro x j hx; cases hx
      · intro s x ho hx
        rw [hc] at hx
        cases hx
        exact K.cleaned_rebinds (k := .mv g) ((hk.mem.lists s g).2 ho) rfl
      · intro s x _ hx; rw [hc] at hx; exact hx.elim
  all_goals
    locals h hp

theorem stepUser_local {op : Op} (h : RestOk st) (hc : (st.threads t).code = .idle) :
    LocalOut st t (stepUser st t (st.threads t) op) := by
  have hq := Quiet.refl st.mem
  have hp : (st.threads t).code.plain = true := by rw [hc]; rfl
  have hx : (st.threads t).code.cleans = none := by rw [hc]; rfl
  cases op with
  | disconnect i =>
    simp only [stepUser]
    split
    · exact local_off
    · exact local_orUb fun r hr => local_go (xchg_local h hp hr)
  | _ =>
    simp only [stepUser]
    repeat' (first
      | exact local_off
      | exact local_ub
      | exact local_go (plain_local h hp (by quiets) rfl)
      | exact local_go (plain_local h hp (by quiets) hx)
      | exact local_ok (plain_local h hp (by quiets) (by simp only [upd_same]; exact hx))
      | exact local_ok (plain_local h hp (by quiets) hx)
      | (refine local_touch (by quiets) fun _ _ => ?_)
      | (refine local_addRef (by quiets) fun _ _ => ?_)
      | split)

theorem step_rest {op : Op} {st' : State} (hk : StateOk st) (h : RestOk st) (hs : step st t op = .ok st') : RestOk st' := by
  refine restOk_step hk h hs ?_
  have : LocalOut st t (step st t op) := by
    unfold step
    dsimp only
    split
    · exact stepCode_local hk h
    · split
      · exact stepUser_local h ‹_›
      · exact local_off
  exact this st' hs

theorem reach_rest (h : Reach st) : RestOk st := by
  induction h with
  | init => exact ⟨nofun, nofun, nofun, nofun, nofun, nofun⟩
  | @step st st' t op hr hs ih => exact step_rest (reach_ok hr) ih hs

end Verif.Races
