import Verif.Signal.Frames
/-
The invariant is kept by the library part of emissions.
-/
namespace Verif.Signal
open Spec

theorem nid_lt {st : State} {L : Nat → List Nat} (hi : Inv st L) {t : Nat} {th : Thread} {f : Frame}
    (ht : st.threads[t]? = some th) (hf : f ∈ th.frames) : f.id < st.nem := by
  apply Classical.byContradiction
  intro hc
  have h1 := hi.em.idsLt f.id (by omega)
  have h2 := le_sumBy (nid f.id) ht
  obtain ⟨j, hj⟩ := List.mem_iff_getElem?.1 hf
  have h3 := le_sumBy (fun f' => if f'.id = f.id then 1 else 0) hj
  simp only [if_true] at h3
  have h4 : nid f.id th = sumBy (fun f' => if f'.id = f.id then 1 else 0) th.frames := rfl
  omega

theorem good_emit {st : State} {L : Nat → List Nat} (hi : Inv st L) {t : Nat} {th : Thread} {g : Nat}
    (ht : st.threads[t]? = some th) (hpn : th.pend = .none) (hu : UserFrames th.frames)
    (hga : (st.sigs g).alive = true) : Good st L (.emit g) (stepUser st t th (.emit g)) := by
  simp only [stepUser, hga, Bool.not_true, Bool.false_eq_true, if_false]
  have hp1 : ∀ p, (st.sigs g).tail = some p → 0 < (st.heap p).refs := fun p h => by
    rw [hi.list.tail] at h
    exact hi.list_pos (List.mem_of_getLast? h)
  have hp2 : ∀ p, (st.sigs g).slots = some p → 0 < (st.heap p).refs := fun p h => by
    rw [hi.list.slots] at h
    exact hi.list_pos (List.mem_of_head? h)
  rw [addRef?_ok hi.ref.alive hp1]
  simp only [orUb]
  rw [addRef?_ok (aliveOk_withRB _ _ _) (fun p h => by
    show 0 < (st.heap p).refs + _
    have := hp2 p h; omega)]
  simp only [withRB_withRB]
  have hnone : ∀ ev ∈ st.log, evEm ev ≠ some st.nem := fun ev h e => by
    have := hi.log.ems ev h _ e; omega
  have hlog : ∀ (i : Nat) (th' : Thread), st.threads[i]? = some th' →
      FramesOk L (.begin st.nem g :: st.log) th'.tls th'.frames := by
    intro i th' h
    refine (hi.em.fok i th' h).imp fun f hf tls h1 => h1.mono ⟨[], [], by simp⟩ ?_
    have := nid_lt hi h hf
    simp only [evEm, ne_eq, Option.some.injEq]; omega
  generalize hth' : (⟨⟨false, th.tls.current⟩, ⟨st.nem, g, (st.sigs g).tail, (st.sigs g).slots, .loop, th.tls⟩ :: th.frames,
    th.pend⟩ : Thread) = th1
  have hpd1 : th1.pend = .none := by rw [← hth']; exact hpn
  refine ⟨L, ⟨⟨aliveOk_withRB _ _ _, fun q h => ?_, fun q => ?_, hi.ref.blocking, hi.ref.blog⟩, ?_, ?_, ?_⟩, fun _ hc => ?_⟩
  · show (st.heap q).refs + ind (st.sigs g).tail q + ind (st.sigs g).slots q = 0
    rw [hi.ref.fresh q h, ind_fresh hi hp1 h, ind_fresh hi hp2 h]
  · show (st.heap q).refs + ind (st.sigs g).tail q + ind (st.sigs g).slots q =
      held st.conns st.blks (st.threads.set t th1) st.leaks q + listed L q
    have h1 := sumBy_set (hthread q) (b := th1) ht
    have h2 : hthread q th1 = hthread q th + ind (st.sigs g).tail q + ind (st.sigs g).slots q := by
      rw [← hth']
      simp only [hthread, sumBy_cons, hframe, hpc]; omega
    rw [hi.ref.refs]
    unfold held
    omega
  · have l := hi.list
    refine ⟨l.linked, l.nodup, l.disj, fun x => ?_, fun x => ?_, l.senderL, l.lsender, fun x h => ?_, fun x h => ?_, l.bound⟩
    · show (if x = g then (⟨(st.sigs g).slots, (st.sigs g).tail, (st.sigs g).active + 1, (st.sigs g).deferred, true⟩ : Sig) else st.sigs x).slots = _
      split
      · rename_i e; subst e; exact l.slots x
      · exact l.slots x
    · show (if x = g then (⟨(st.sigs g).slots, (st.sigs g).tail, (st.sigs g).active + 1, (st.sigs g).deferred, true⟩ : Sig) else st.sigs x).tail = _
      split
      · rename_i e; subst e; exact l.tail x
      · exact l.tail x
    · have h : (if x = g then (⟨(st.sigs g).slots, (st.sigs g).tail, (st.sigs g).active + 1, (st.sigs g).deferred, true⟩ : Sig) else st.sigs x).alive = false := h
      split at h
      · cases h
      · exact l.dead x h
    · have h1 := l.sigFresh x h
      have : x ≠ g := by rintro rfl; rw [hga] at h1; cases h1
      show (if x = g then _ else st.sigs x).alive = false
      rw [if_neg this]; exact h1
  · have em := hi.em
    have hsg : ∀ x, (setThread (setSig st g ⟨(st.sigs g).slots, (st.sigs g).tail, (st.sigs g).active + 1,
        (st.sigs g).deferred, true⟩) t th1).sigs x =
        if x = g then ⟨(st.sigs g).slots, (st.sigs g).tail, (st.sigs g).active + 1, (st.sigs g).deferred, true⟩
        else st.sigs x := fun _ => rfl
    have hnid : ∀ e, nid e th1 = nid e th + (if e = st.nem then 1 else 0) := fun e => by
      rw [← hth']
      simp only [nid, sumBy_cons]
      by_cases h : e = st.nem
      · subst h; simp; omega
      · have : ¬ st.nem = e := fun h' => h h'.symm
        simp [h, this]
    have hsum : ∀ e, sumBy (nid e) (st.threads.set t th1) = sumBy (nid e) st.threads + (if e = st.nem then 1 else 0) := fun e => by
      have h1 := sumBy_set (nid e) (b := th1) ht
      have := hnid e
      omega
    refine ⟨fun x => ?_, fun x h => ?_, fun i th' h f hf => ?_, fun i th' h s x hp => ?_, fun i th' h s x hp => ?_,
      fun i th' h => ?_, fun i th' h hp => ?_, fun e => ?_, fun e h => ?_, fun e h h' => ?_⟩
    · rw [hsg]
      show _ = sumBy (nfr x) (st.threads.set t th1)
      have h1 := sumBy_set (nfr x) (b := th1) ht
      have h2 : nfr x th1 = nfr x th + if x = g then 1 else 0 := by
        rw [← hth']
        simp only [nfr, sumBy_cons]
        by_cases e : x = g
        · subst e; simp; omega
        · have : ¬ g = x := fun h' => e h'.symm
          simp [e, this]
      have h3 := em.active x
      split
      · rename_i e; subst e
        simp only [if_true] at h2
        show (st.sigs x).active + 1 = _
        omega
      · rename_i e
        simp only [e, if_false] at h2
        omega
    · rw [hsg] at h ⊢
      split at h
      · rename_i e; rw [if_pos e]; exact Nat.succ_ne_zero _
      · rename_i e; rw [if_neg e]; exact em.deferred x h
    · have key : (st.sigs f.sig).alive = true := by
        rcases getElem?_set_of h with ⟨_, e⟩ | ⟨_, h⟩
        · rw [e, ← hth'] at hf
          rcases List.mem_cons.1 hf with e | hf
          · rw [e]; exact hga
          · exact em.falive t th ht f hf
        · exact em.falive i th' h f hf
      rw [hsg]
      split
      · rfl
      · exact key
    · have key : (st.sigs x).alive = true := by
        rcases getElem?_set_of h with ⟨_, e⟩ | ⟨_, h⟩
        · rw [e, hpd1] at hp; cases hp
        · exact em.palive i th' h s x hp
      rw [hsg]
      split
      · rfl
      · exact key
    · rcases getElem?_set_of h with ⟨_, e⟩ | ⟨_, h⟩
      · rw [e, hpd1] at hp; cases hp
      · exact em.pconn i th' h s x hp
    · rcases getElem?_set_of h with ⟨_, e⟩ | ⟨_, h⟩
      · rw [e, ← hth']
        refine ⟨⟨?_, ?_, ?_, ?_, by simp, by simp, [], [], L g, [], by simp, ?_, ?_, ?_, ?_⟩, ?_, hlog t th ht⟩
        · show sigOf (.begin st.nem g :: st.log) st.nem = g
          simp [sigOf]
        · show Ev.stop st.nem ∈ Ev.begin st.nem g :: st.log ↔ false = true
          simp only [List.mem_cons, reduceCtorEq, false_or, Bool.false_eq_true, iff_false]
          exact fun h => hnone _ h rfl
        · show Ev.throw st.nem ∈ Ev.begin st.nem g :: st.log ↔ false = true
          simp only [List.mem_cons, reduceCtorEq, false_or, Bool.false_eq_true, iff_false]
          exact fun h => hnone _ h rfl
        · intro b
          show Ev.end_ st.nem b ∉ Ev.begin st.nem g :: st.log
          simp only [List.mem_cons, reduceCtorEq, false_or]
          exact fun h => hnone _ h rfl
        · show proc st.log st.nem = []
          exact proc_none hnone
        · show ([] ++ L g).Sublist (order (before (.begin st.nem g :: st.log) st.nem) g)
          simp only [before, if_true, List.nil_append]
          exact hi.log.order g
        · intro s h
          have h : conn (before (.begin st.nem g :: st.log) st.nem) s = some g := h
          simp only [before, if_true] at h
          exact hi.list.senderL s g (hi.log.conn s g h)
        · exact ⟨hi.list.tail g, hi.list.slots g, fun _ => rfl, rfl⟩
        · intro f' hf'
          cases hfs : th.frames with
          | nil => rw [hfs] at hf'; cases hf'
          | cons f rest =>
            rw [hfs] at hf' hu
            rcases List.mem_cons.1 hf' with rfl | hf'
            · exact hu
            · exact (hi.frOk ht hfs).2.1 f' hf'
      · exact hlog i th' h
    · rcases getElem?_set_of h with ⟨_, e⟩ | ⟨_, h⟩
      · rw [e, hpd1] at hp; exact absurd rfl hp
      · exact em.mode i th' h hp
    · show sumBy (nid e) (st.threads.set t th1) ≤ 1
      rw [hsum]
      split
      · rename_i h
        rw [h, em.idsLt st.nem (Nat.le_refl _)]
        exact Nat.le_refl _
      · exact em.ids e
    · show sumBy (nid e) (st.threads.set t th1) = 0
      have h : st.nem + 1 ≤ e := h
      rw [hsum, if_neg (by omega)]
      exact em.idsLt e (by omega)
    · have h' : sumBy (nid e) (st.threads.set t th1) = 0 := h'
      have h : e < st.nem + 1 := h
      rw [hsum] at h'
      have hne : e ≠ st.nem := by
        intro hc; rw [if_pos hc] at h'; omega
      rw [if_neg hne] at h'
      refine (em.ended e (by omega) h').mono ?_
      simp only [evEm, ne_eq, Option.some.injEq]; omega
  · refine ⟨⟨?_, hi.log.hist⟩, hi.log.order, hi.log.conn, fun ev h e he => ?_, fun ev h s he => ?_⟩
    · exact hnone
    · show e < st.nem + 1
      rcases List.mem_cons.1 h with rfl | h
      · simp only [evEm, Option.some.injEq] at he; omega
      · have := hi.log.ems ev h e he; omega
    · rcases List.mem_cons.1 h with rfl | h
      · cases he
      · exact hi.log.slots ev h s he
  · refine ⟨hc.conn, fun x s h h' => ?_, fun i th' s x x' h h' hs => ?_, ⟨trivial, hc.hist⟩⟩
    · rcases hc.half x s h h' with d | ⟨i, th', d1, d2⟩
      · left
        show (if x = g then _ else st.sigs x).deferred = true
        split
        · rename_i e; rw [← e]; exact d
        · exact d
      · right
        refine ⟨i, th', ?_, d2⟩
        show (st.threads.set t _)[i]? = some th'
        rw [List.getElem?_set_ne]
        · exact d1
        · rintro rfl
          rw [ht] at d1; cases d1
          rw [hpn] at d2; cases d2
    · rcases getElem?_set_of h with ⟨_, e⟩ | ⟨_, h⟩
      · rw [e, hpd1] at h'; cases h'
      · exact hc.pendL i th' s x x' h h' hs

/-! ### The steps of the loop -/

theorem good_loop {st : State} {L : Nat → List Nat} (hi : Inv st L) {op : Op} {t : Nat} {th : Thread} {f : Frame}
    {rest : List Frame} (ht : st.threads[t]? = some th) (hpn : th.pend = .none) (hfs : th.frames = f :: rest)
    (hq : f.pc = .loop) : Good st L op (stepFrame st t th f rest) := by
  simp only [stepFrame, hq]
  have fo := (hi.frOk ht hfs).1
  obtain ⟨F, P, R, B, h1, h2, h3, h4, h5⟩ := fo.pos
  simp only [PcOk, hq] at h5
  have hgo : Going st.log f.id := Going.of fo h5.2.2.2 (by rw [hq]; rfl)
  cases hc : f.cur with
  | none =>
    have hR : R = [] := List.head?_eq_none_iff.1 (by rw [← h5.2.1]; exact hc)
    refine hi.frameStep' (f' := { f with cur := none, pc := .finish false }) (tls' := th.tls) (leaks' := st.leaks) (evs := []) ht hpn hfs
      rfl rfl rfl (Plain.nil _ _ _) (fun q => ?_) hi.log.hist (fun hc => hc.hist) ?_
    · simp only [hframe, hc, hq, hpc]
    · refine ⟨fo.sig, fo.stop, ?_, fo.notEnd, by simp, by simp, F, P, R, B, h1, h2, h3, h4, ?_⟩
      · rw [List.nil_append, fo.thr, hq]; rfl
      · exact ⟨h5.1, rfl, .inl hR⟩
  | some c =>
    have hpos := hi.cur_pos ht hfs hc
    obtain ⟨R', rfl⟩ : ∃ R', R = c :: R' := by
      rw [hc] at h5
      cases R with
      | nil => cases h5.2.1
      | cons a R' => simp only [List.head?_cons, Option.some.injEq] at h5; exact ⟨R', by rw [h5.2.1]⟩
    simp only [deref_eq hi.ref.alive hpos, orUb]
    have hlt := hi.lt_of_pos hpos
    by_cases hb : (st.heap c).blocking > 0
    · rw [if_pos hb]
      refine hi.frameStep' (f' := { f with cur := some c, pc := .advance }) (tls' := th.tls) (leaks' := st.leaks)
        (evs := [.skipBlocked f.id c]) ht hpn hfs rfl rfl rfl
        ⟨by simp [evEm], by simp [evSlot]; omega, fun _ => rfl, fun _ => rfl, fun _ => rfl⟩ (fun q => ?_)
        ⟨⟨hgo, ?_⟩, hi.log.hist⟩ (fun hc => ⟨trivial, hc.hist⟩) ?_
      · simp only [hframe, hc, hq, hpc]
      · show 0 < blockers st.log c
        rw [hi.ref.blog]; exact hb
      · refine ⟨fo.sig, ?_, ?_, ?_, by simp, by simp, F, P ++ [c], R', B, ?_, ?_, ?_, ?_, ?_⟩
        · simp only [List.singleton_append, List.mem_cons, reduceCtorEq, false_or]; exact fo.stop
        · simp only [List.singleton_append, List.mem_cons, reduceCtorEq, false_or]; rw [fo.thr, hq]; rfl
        · intro b
          simp only [List.singleton_append, List.mem_cons, reduceCtorEq, false_or]; exact fo.notEnd b
        · rw [h1]; simp
        · show proc (.skipBlocked f.id c :: st.log) f.id = _
          simp only [proc, if_true, h2]
        · have : P ++ [c] ++ R' = P ++ c :: R' := by simp
          rw [this]; exact h3
        · intro s hs
          have := h4 s hs
          simpa using this
        · refine ⟨?_, c, rfl, by simp⟩
          have : P ++ [c] ++ R' = P ++ c :: R' := by simp
          rw [this]; exact h5.1
    · rw [if_neg hb]
      refine hi.frameStep' (f' := { f with cur := some c, pc := .checkValid }) (tls' := th.tls) (leaks' := st.leaks)
        (evs := [.pass f.id c]) ht hpn hfs rfl rfl rfl
        ⟨by simp [evEm], by simp [evSlot]; omega, fun _ => rfl, fun _ => rfl, fun _ => rfl⟩ (fun q => ?_)
        ⟨⟨hgo, ?_⟩, hi.log.hist⟩ (fun hc => ⟨trivial, hc.hist⟩) ?_
      · simp only [hframe, hc, hq, hpc]
      · show blockers st.log c = 0
        rw [hi.ref.blog]; omega
      · refine ⟨fo.sig, ?_, ?_, ?_, by simp, fun _ => ⟨c, rfl, ?_⟩, F, P, c :: R', B, h1, h2, h3, h4, ?_⟩
        · simp only [List.singleton_append, List.mem_cons, reduceCtorEq, false_or]; exact fo.stop
        · simp only [List.singleton_append, List.mem_cons, reduceCtorEq, false_or]; rw [fo.thr, hq]; rfl
        · intro b
          simp only [List.singleton_append, List.mem_cons, reduceCtorEq, false_or]; exact fo.notEnd b
        · show latest (.pass f.id c :: st.log) f.id = _
          simp [latest, evEm]
        · exact ⟨h5.1, rfl, by simp, h5.2.2.2⟩

theorem good_checkValid {st : State} {L : Nat → List Nat} (hi : Inv st L) {op : Op} {t : Nat} {th : Thread} {f : Frame}
    {rest : List Frame} (ht : st.threads[t]? = some th) (hpn : th.pend = .none) (hfs : th.frames = f :: rest)
    (hq : f.pc = .checkValid) : Good st L op (stepFrame st t th f rest) := by
  simp only [stepFrame, hq]
  have fo := (hi.frOk ht hfs).1
  obtain ⟨F, P, R, B, h1, h2, h3, h4, h5⟩ := fo.pos
  simp only [PcOk, hq] at h5
  have hgo : Going st.log f.id := Going.of fo h5.2.2.2 (by rw [hq]; rfl)
  obtain ⟨c, hc, hla⟩ := fo.pass hq
  have hpos := hi.cur_pos ht hfs hc
  obtain ⟨R', rfl⟩ : ∃ R', R = c :: R' := by
    rw [hc] at h5
    cases R with
    | nil => cases h5.2.1
    | cons a R' => simp only [List.head?_cons, Option.some.injEq] at h5; exact ⟨R', by rw [h5.2.1]⟩
  have hmem : c ∈ L f.sig := by rw [h1]; simp
  have happ : P ++ [c] ++ R' = P ++ c :: R' := by simp
  simp only [hc, deref_eq hi.ref.alive hpos, orUb]
  have hlt := hi.lt_of_pos hpos
  by_cases hb : (st.heap c).sender.isSome = true
  · rw [if_pos hb]
    refine hi.frameStep' (th := th) (f' := { f with cur := some c, pc := .calling }) (tls' := { th.tls with current := some c }) (leaks' := st.leaks)
      (evs := [.call f.id c]) ht hpn hfs rfl rfl rfl
      ⟨by simp [evEm], by simp [evSlot]; omega, fun _ => rfl, fun _ => rfl, fun _ => rfl⟩ (fun q => ?_)
      ⟨⟨hgo, hla⟩, hi.log.hist⟩ (fun hcc => ⟨?_, hcc.hist⟩) ?_
    · simp only [hframe, hc, hq, hpc]
    · show conn st.log c = some (sigOf st.log f.id)
      rw [fo.sig]
      rcases hi.list.lsender c f.sig hmem with h | h
      · exact hcc.conn c f.sig h
      · have h : (st.heap c).sender = none := h
        rw [h] at hb; cases hb
    · refine ⟨fo.sig, ?_, ?_, ?_, fun _ => ⟨rfl, by simp [calls]⟩, by simp, F, P ++ [c], R', B, ?_, ?_, ?_, ?_, ?_⟩
      · simp only [List.singleton_append, List.mem_cons, reduceCtorEq, false_or]; exact fo.stop
      · simp only [List.singleton_append, List.mem_cons, reduceCtorEq, false_or]; rw [fo.thr, hq]; rfl
      · intro b
        simp only [List.singleton_append, List.mem_cons, reduceCtorEq, false_or]; exact fo.notEnd b
      · rw [happ]; exact h1
      · show proc (.call f.id c :: st.log) f.id = _
        simp only [proc, if_true, h2]
      · rw [happ]; exact h3
      · rw [happ]; exact h4
      · refine ⟨?_, c, rfl, by simp⟩
        rw [happ]; exact h5.1
  · rw [if_neg hb]
    have hs : (st.heap c).sender = none := by
      cases h : (st.heap c).sender with
      | none => rfl
      | some x => rw [h] at hb; exact absurd rfl hb
    refine hi.frameStep' (f' := { f with cur := some c, pc := .advance }) (tls' := th.tls) (leaks' := st.leaks)
      (evs := [.skipInvalid f.id c]) ht hpn hfs rfl rfl rfl
      ⟨by simp [evEm], by simp [evSlot]; omega, fun _ => rfl, fun _ => rfl, fun _ => rfl⟩ (fun q => ?_)
      ⟨⟨hgo, hla, ?_⟩, hi.log.hist⟩ (fun hc => ⟨trivial, hc.hist⟩) ?_
    · simp only [hframe, hc, hq, hpc]
    · show conn st.log c = none
      cases h : conn st.log c with
      | none => rfl
      | some x =>
        have := hi.log.conn c x h
        have this : (st.heap c).sender = some x := this
        rw [hs] at this; cases this
    · refine ⟨fo.sig, ?_, ?_, ?_, by simp, by simp, F, P ++ [c], R', B, ?_, ?_, ?_, ?_, ?_⟩
      · simp only [List.singleton_append, List.mem_cons, reduceCtorEq, false_or]; exact fo.stop
      · simp only [List.singleton_append, List.mem_cons, reduceCtorEq, false_or]; rw [fo.thr, hq]; rfl
      · intro b
        simp only [List.singleton_append, List.mem_cons, reduceCtorEq, false_or]; exact fo.notEnd b
      · rw [happ]; exact h1
      · show proc (.skipInvalid f.id c :: st.log) f.id = _
        simp only [proc, if_true, h2]
      · rw [happ]; exact h3
      · rw [happ]; exact h4
      · refine ⟨?_, c, rfl, by simp⟩
        rw [happ]; exact h5.1

theorem nodup_mid {l F M B : List Nat} (hn : l.Nodup) (h : l = F ++ M ++ B) : M.Nodup := by
  rw [h, List.nodup_append, List.nodup_append] at hn
  exact hn.1.2.1

theorem good_advance {st : State} {L : Nat → List Nat} (hi : Inv st L) {op : Op} {t : Nat} {th : Thread} {f : Frame}
    {rest : List Frame} (ht : st.threads[t]? = some th) (hpn : th.pend = .none) (hfs : th.frames = f :: rest)
    (hq : f.pc = .advance) : Good st L op (stepFrame st t th f rest) := by
  simp only [stepFrame, hq]
  have fo := (hi.frOk ht hfs).1
  obtain ⟨F, P, R, B, h1, h2, h3, h4, h5⟩ := fo.pos
  simp only [PcOk, hq] at h5
  obtain ⟨hlast, c, hc, hP⟩ := h5
  have hpos := hi.cur_pos ht hfs hc
  have hn : (P ++ R).Nodup := nodup_mid (hi.list.nodup f.sig) h1
  have hli := last_iff hn hP
  rw [← hlast] at hli
  simp only [hc]
  by_cases hcond : (decide (some c ≠ f.last) && !th.tls.stopped) = true
  · rw [if_pos hcond]
    simp only [Bool.and_eq_true, decide_eq_true_eq, Bool.not_eq_true'] at hcond
    have hal := hi.em.falive t th ht f (by rw [hfs]; simp)
    simp only [hal, Bool.not_true, Bool.false_eq_true, if_false, deref_eq hi.ref.alive hpos, orUb]
    obtain ⟨P0, rfl⟩ := eq_snoc_of_getLast? hP
    obtain ⟨r, R', rfl⟩ : ∃ r R', R = r :: R' := by
      cases R with
      | nil => exact absurd (hli.2 rfl) hcond.1
      | cons r R' => exact ⟨r, R', rfl⟩
    have hnext : (st.heap c).next = some r := by
      have hl := hi.list.linked f.sig
      rw [h1] at hl
      have e : F ++ (P0 ++ [c] ++ r :: R') ++ B = (F ++ P0) ++ c :: (r :: R' ++ B) := by simp
      rw [e] at hl
      exact linkedN_next hl
    have hp' : ∀ p, (st.heap c).next = some p → 0 < (st.heap p).refs := by
      intro p hp
      rw [hnext] at hp; cases hp
      exact hi.list_pos (g := f.sig) (by rw [h1]; simp)
    rw [addRef?_ok hi.ref.alive hp']
    refine hi.frameStep (f' := { f with cur := some c, pc := .rel (st.heap c).next }) (tls' := th.tls) (leaks' := st.leaks) (evs := []) ht hpn
      hfs rfl rfl rfl (Plain.nil _ _ _) (fun q => ?_) (fun q h => ?_) hi.log.hist (fun hc => hc.hist) ?_
    · simp only [hframe, hc, hq, hpc]; omega
    · show (st.heap q).refs + _ = 0
      rw [hi.ref.fresh q h, ind_fresh hi hp' h]
    · refine ⟨fo.sig, fo.stop, ?_, fo.notEnd, by simp, by simp, F, P0 ++ [c], r :: R', B, h1, h2, h3, h4, ?_⟩
      · rw [List.nil_append, fo.thr, hq]; rfl
      · refine ⟨hlast, ⟨c, rfl, hP⟩, ?_⟩
        rw [hcond.2]; simp [hnext]
  · rw [if_neg hcond]
    simp only [Bool.and_eq_true, decide_eq_true_eq, Bool.not_eq_true', not_and, Bool.not_eq_false] at hcond
    refine hi.frameStep' (f' := { f with cur := some c, pc := .rel none }) (tls' := th.tls) (leaks' := st.leaks) (evs := []) ht hpn
      hfs rfl rfl rfl (Plain.nil _ _ _) (fun q => ?_) hi.log.hist (fun hc => hc.hist) ?_
    · simp only [hframe, hc, hq, hpc, ind_none]
    · refine ⟨fo.sig, fo.stop, ?_, fo.notEnd, by simp, by simp, F, P, R, B, h1, h2, h3, h4, ?_⟩
      · rw [List.nil_append, fo.thr, hq]; rfl
      · refine ⟨hlast, ⟨c, rfl, hP⟩, ?_⟩
        cases hs : th.tls.stopped with
        | true => simp
        | false =>
          have : R = [] := by
            apply hli.1
            apply Classical.byContradiction
            intro hne
            have := hcond hne
            rw [hs] at this; cases this
          simp [this]

theorem good_relFrame {st : State} {L : Nat → List Nat} (hi : Inv st L) {op : Op} {t : Nat} {th : Thread} {f : Frame}
    {rest : List Frame} {next : Option Nat} (ht : st.threads[t]? = some th) (hpn : th.pend = .none)
    (hfs : th.frames = f :: rest) (hq : f.pc = .rel next) : Good st L op (stepFrame st t th f rest) := by
  simp only [stepFrame, hq]
  have fo := (hi.frOk ht hfs).1
  obtain ⟨F, P, R, B, h1, h2, h3, h4, h5⟩ := fo.pos
  simp only [PcOk, hq] at h5
  obtain ⟨hlast, ⟨c, hc, hP⟩, hnext⟩ := h5
  have hpos := hi.cur_pos ht hfs hc
  have hn : (P ++ R).Nodup := nodup_mid (hi.list.nodup f.sig) h1
  have hli := last_iff hn hP
  rw [← hlast] at hli
  simp only [hc, release_eq hi.ref.alive hpos, orUb]
  have hle : ∀ q, ind (some c) q ≤ (st.heap q).refs := by
    intro q
    by_cases e : c = q
    · subst e; rw [ind_self]; exact hpos
    · have : ¬ (some c = some q) := by simpa using e
      unfold ind; rw [if_neg this]; exact Nat.zero_le _
  have hrel : ∀ q, (st.heap q).refs - ind (some c) q + hframe q f + st.leaks.count q =
      (st.heap q).refs + (ind f.last q + ind next q + 0) + st.leaks.count q := by
    intro q
    have := hle q
    simp only [hframe, hq, hpc, hc]; omega
  have hfresh : ∀ q, st.nslots ≤ q → (st.heap q).refs - ind (some c) q = 0 := by
    intro q h
    rw [hi.ref.fresh q h]; omega
  by_cases hcond : (decide (some c = f.last) || th.tls.stopped) = true
  · rw [if_pos hcond]
    simp only [Bool.or_eq_true, decide_eq_true_eq] at hcond
    have hnn : next = none := by
      rw [hnext]
      rcases hcond with h | h
      · rw [hli.1 h]; simp
      · rw [h]; rfl
    refine hi.frameStep (f' := { f with cur := next, pc := .finish false }) (tls' := th.tls) (leaks' := st.leaks) (evs := []) ht
      hpn hfs rfl rfl rfl (Plain.nil _ _ _) hrel hfresh hi.log.hist (fun hc => hc.hist) ?_
    refine ⟨fo.sig, fo.stop, ?_, fo.notEnd, by simp, by simp, F, P, R, B, h1, h2, h3, h4, ?_⟩
    · rw [List.nil_append, fo.thr, hq]; rfl
    · refine ⟨hlast, hnn, ?_⟩
      rcases hcond with h | h
      · exact .inl (hli.1 h)
      · exact .inr (.inl h)
  · rw [if_neg hcond]
    simp only [Bool.or_eq_true, decide_eq_true_eq, not_or, Bool.not_eq_true] at hcond
    refine hi.frameStep (f' := { f with cur := next, pc := .loop }) (tls' := th.tls) (leaks' := st.leaks) (evs := []) ht
      hpn hfs rfl rfl rfl (Plain.nil _ _ _) hrel hfresh hi.log.hist (fun hc => hc.hist) ?_
    refine ⟨fo.sig, fo.stop, ?_, fo.notEnd, by simp, by simp, F, P, R, B, h1, h2, h3, h4, ?_⟩
    · rw [List.nil_append, fo.thr, hq]; rfl
    · refine ⟨hlast, ?_, fun h => absurd (hli.2 h) hcond.1, hcond.2⟩
      show next = R.head?
      rw [hnext, hcond.2]; rfl

theorem good_finish {st : State} {L : Nat → List Nat} (hi : Inv st L) {op : Op} {t : Nat} {th : Thread} {f : Frame}
    {rest : List Frame} {thr : Bool} (ht : st.threads[t]? = some th) (hpn : th.pend = .none)
    (hfs : th.frames = f :: rest) (hq : f.pc = .finish thr) : Good st L op (stepFrame st t th f rest) := by
  simp only [stepFrame, hq]
  have fo := (hi.frOk ht hfs).1
  obtain ⟨F, P, R, B, h1, h2, h3, h4, h5⟩ := fo.pos
  simp only [PcOk, hq] at h5
  obtain ⟨hlast, hc, hfin⟩ := h5
  have hp' : ∀ p, f.last = some p → 0 < (st.heap p).refs := fun p hp =>
    hi.frame_pos ht hfs (by simp only [hframe, hp, ind_self]; omega)
  rw [release?_ok hi.ref.alive hp']
  simp only [orUb]
  refine hi.frameStep (f' := { f with last := none, pc := .finish2 thr }) (tls' := th.tls) (leaks' := st.leaks) (evs := []) ht
    hpn hfs rfl rfl rfl (Plain.nil _ _ _) (fun q => ?_) (fun q h => ?_) hi.log.hist (fun hc => hc.hist) ?_
  · have hle : ind f.last q ≤ (st.heap q).refs := by
      unfold ind
      split
      · rename_i e; exact hp' q e
      · exact Nat.zero_le _
    simp only [hframe, hq, hpc, ind_none]; omega
  · show (st.heap q).refs - _ = 0
    rw [hi.ref.fresh q h]; omega
  · refine ⟨fo.sig, fo.stop, ?_, fo.notEnd, by simp, by simp, F, P, R, B, h1, h2, h3, h4, ?_⟩
    · rw [List.nil_append, fo.thr, hq]; rfl
    · exact ⟨rfl, hc, hfin⟩

end Verif.Signal
