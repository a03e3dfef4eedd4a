import Verif.Signal.Signals
/-
The invariant is kept by emissions.
-/
namespace Verif.Signal
open Spec

/-! ### Lists -/

theorem linkedN_next {next : Nat → Option Nat} {A B : List Nat} {c : Nat} (h : LinkedN next (A ++ c :: B)) :
    next c = B.head? := by
  induction A with
  | nil => exact h.1
  | cons a A ih => exact ih h.2

theorem eq_snoc_of_getLast? {P : List Nat} {c : Nat} (h : P.getLast? = some c) : ∃ P0, P = P0 ++ [c] := by
  rw [List.getLast?_eq_some_iff] at h
  exact h

/-- In a list without duplicates the end of a prefix is the end of the list only if nothing follows. -/
theorem last_iff {P R : List Nat} {c : Nat} (hn : (P ++ R).Nodup) (hP : P.getLast? = some c) :
    some c = (P ++ R).getLast? ↔ R = [] := by
  obtain ⟨P0, rfl⟩ := eq_snoc_of_getLast? hP
  constructor
  · intro h
    cases hr : R.getLast? with
    | none => exact List.getLast?_eq_none_iff.1 hr
    | some d =>
      obtain ⟨R0, rfl⟩ := eq_snoc_of_getLast? hr
      exfalso
      have : (P0 ++ [c] ++ (R0 ++ [d])).getLast? = some d := by
        rw [← List.append_assoc, List.getLast?_append]; simp
      rw [this] at h
      cases h
      rw [List.nodup_append] at hn
      exact hn.2.2 c (by simp) c (by simp) rfl
  · rintro rfl; simp

theorem proc_none {l : List Ev} {e : Nat} (h : ∀ ev ∈ l, evEm ev ≠ some e) : proc l e = [] := by
  induction l with
  | nil => rfl
  | cons ev l ih =>
    rw [proc_other (h ev (by simp))]
    exact ih fun ev' h' => h ev' (by simp [h'])

/-! ### A step of the top frame -/

theorem Going.of {L : Nat → List Nat} {log : List Ev} {tls : Tls} {f : Frame} (h : FrOk L log tls f)
    (hs : tls.stopped = false) (ht : f.pc.threw = false) : Going log f.id := by
  refine ⟨fun hm => ?_, fun hm => ?_, h.notEnd⟩
  · have := h.stop.1 hm; rw [hs] at this; cases this
  · have := h.thr.1 hm; rw [ht] at this; cases this

/-- Events that say nothing about connections and blockers. -/
structure Plain (evs log : List Ev) (e : Nat) (nslots : Nat) : Prop where
  em : ∀ ev ∈ evs, evEm ev = some e
  slot : ∀ ev ∈ evs, ∀ s, evSlot ev = some s → s < nslots
  order : ∀ x, order (evs ++ log) x = order log x
  conn : ∀ x, conn (evs ++ log) x = conn log x
  blockers : ∀ x, blockers (evs ++ log) x = blockers log x

theorem Plain.nil (log : List Ev) (e n : Nat) : Plain [] log e n :=
  ⟨by simp, by simp, fun _ => rfl, fun _ => rfl, fun _ => rfl⟩

theorem Inv.frameStep {st : State} {L : Nat → List Nat} (hi : Inv st L) {op : Op} {t : Nat} {th : Thread}
    {f f' : Frame} {rest : List Frame} {tls' : Tls} {r : Nat → Nat} {leaks' : List Nat} {evs : List Ev}
    (ht : st.threads[t]? = some th) (hpn : th.pend = .none) (hfs : th.frames = f :: rest) (hid : f'.id = f.id)
    (hsg : f'.sig = f.sig) (hsv : f'.saved = f.saved)
    (hpl : Plain evs st.log f.id st.nslots)
    (hr : ∀ q, r q + hframe q f + st.leaks.count q = (st.heap q).refs + hframe q f' + leaks'.count q)
    (hf : ∀ s, st.nslots ≤ s → r s = 0)
    (hok : Hist Ok (evs ++ st.log)) (hcok : CalmI st L → Hist CallOk (evs ++ st.log))
    (hfo : FrOk L (evs ++ st.log) tls' f') :
    Good st L op (.ok { setThread st t { th with tls := tls', frames := f' :: rest } with
      heap := withRB st.heap r (fun q => (st.heap q).blocking), leaks := leaks', log := evs ++ st.log }) := by
  have hidlt : f.id < st.nem := by
    apply Classical.byContradiction
    intro hc
    have h1 := hi.em.idsLt f.id (by omega)
    have h2 := le_sumBy (nid f.id) ht
    have h3 : 1 ≤ nid f.id th := by simp only [nid, hfs, sumBy_cons, if_true]; omega
    omega
  refine ⟨L, ⟨⟨aliveOk_withRB _ _ _, hf, fun q => ?_, hi.ref.blocking, fun q => (hpl.blockers q).trans (hi.ref.blog q)⟩,
    hi.list, ?_, ?_⟩, fun _ hc => ?_⟩
  · show r q = held st.conns st.blks (st.threads.set t { th with tls := tls', frames := f' :: rest }) leaks' q + listed L q
    have h1 := sumBy_set (hthread q) (b := { th with tls := tls', frames := f' :: rest }) ht
    have h2 : hthread q { th with tls := tls', frames := f' :: rest } + hframe q f = hthread q th + hframe q f' := by
      simp only [hthread, hfs, sumBy_cons]; omega
    have h3 := hr q
    have h4 := hi.ref.refs q
    unfold held at h4 ⊢
    omega
  · exact hi.em.frame ht hpn hfs hid hsg hsv (fun ev h => .inr (hpl.em ev h)) hpl.conn hfo
  · refine ⟨hok, fun g => ?_, fun s g h => ?_, fun ev h e he => ?_, fun ev h s he => ?_⟩
    · show (L g).Sublist (order (evs ++ st.log) g)
      rw [hpl.order]; exact hi.log.order g
    · have h : conn (evs ++ st.log) s = some g := h
      rw [hpl.conn] at h; exact hi.log.conn s g h
    · show e < st.nem
      rcases List.mem_append.1 h with h | h
      · rw [hpl.em ev h] at he
        simp only [Option.some.injEq] at he
        omega
      · exact hi.log.ems ev h e he
    · show s < st.nslots
      rcases List.mem_append.1 h with h | h
      · exact hpl.slot ev h s he
      · exact hi.log.slots ev h s he
  · refine ⟨fun s g h => ?_, fun g s h h' => ?_, fun i th' s g g' h h' hs => ?_, hcok hc⟩
    · show conn (evs ++ st.log) s = some g
      rw [hpl.conn]; exact hc.conn s g h
    · rcases hc.half g s h h' with d | ⟨i, th', d1, d2⟩
      · exact .inl d
      · right
        refine ⟨i, th', ?_, d2⟩
        show (st.threads.set t _)[i]? = some th'
        rw [List.getElem?_set_ne]
        · exact d1
        · rintro rfl
          rw [ht] at d1; cases d1
          rw [hpn] at d2; cases d2
    · rcases getElem?_set_of h with ⟨_, e⟩ | ⟨_, h⟩
      · subst e
        have h' : th.pend = .disc s g := h'
        rw [hpn] at h'; cases h'
      · exact hc.pendL i th' s g g' h h' hs

/-- The same with the heap as it is. -/
theorem Inv.frameStep' {st : State} {L : Nat → List Nat} (hi : Inv st L) {op : Op} {t : Nat} {th : Thread}
    {f f' : Frame} {rest : List Frame} {tls' : Tls} {leaks' : List Nat} {evs : List Ev}
    (ht : st.threads[t]? = some th) (hpn : th.pend = .none) (hfs : th.frames = f :: rest) (hid : f'.id = f.id)
    (hsg : f'.sig = f.sig) (hsv : f'.saved = f.saved)
    (hpl : Plain evs st.log f.id st.nslots)
    (hr : ∀ q, hframe q f + st.leaks.count q = hframe q f' + leaks'.count q)
    (hok : Hist Ok (evs ++ st.log)) (hcok : CalmI st L → Hist CallOk (evs ++ st.log))
    (hfo : FrOk L (evs ++ st.log) tls' f') :
    Good st L op (.ok { setThread st t { th with tls := tls', frames := f' :: rest } with
      leaks := leaks', log := evs ++ st.log }) := by
  have := hi.frameStep (op := op) (r := fun q => (st.heap q).refs) (leaks' := leaks') ht hpn hfs hid hsg hsv hpl
    (fun q => by have := hr q; omega) hi.ref.fresh hok hcok hfo
  rw [withRB_self hi.ref.alive] at this
  exact this

theorem Inv.frOk {st : State} {L : Nat → List Nat} (hi : Inv st L) {t : Nat} {th : Thread} {f : Frame}
    {rest : List Frame} (ht : st.threads[t]? = some th) (hfs : th.frames = f :: rest) :
    FrOk L st.log th.tls f ∧ (∀ f' ∈ rest, f'.pc = .calling) ∧ FramesOk L st.log f.saved rest := by
  have := hi.em.fok t th ht
  rw [hfs] at this
  exact this

theorem Inv.frame_pos {st : State} {L : Nat → List Nat} (hi : Inv st L) {t s : Nat} {th : Thread} {f : Frame}
    {rest : List Frame} (ht : st.threads[t]? = some th) (hfs : th.frames = f :: rest) (hs : 0 < hframe s f) :
    0 < (st.heap s).refs := by
  apply hi.thread_pos ht
  simp only [hthread, hfs, sumBy_cons]; omega

theorem Inv.cur_pos {st : State} {L : Nat → List Nat} (hi : Inv st L) {t c : Nat} {th : Thread} {f : Frame}
    {rest : List Frame} (ht : st.threads[t]? = some th) (hfs : th.frames = f :: rest) (hs : f.cur = some c) :
    0 < (st.heap c).refs :=
  hi.frame_pos ht hfs (by simp only [hframe, hs, ind_self]; omega)

theorem good_ret {st : State} {L : Nat → List Nat} (hi : Inv st L) {t : Nat} {th : Thread}
    (ht : st.threads[t]? = some th) (hpn : th.pend = .none) (hu : UserFrames th.frames) :
    Good st L .ret (stepUser st t th .ret) := by
  simp only [stepUser]
  cases hfs : th.frames with
  | nil => trivial
  | cons f rest =>
    rw [hfs] at hu
    have hcal : f.pc = .calling := hu
    have fo := (hi.frOk ht hfs).1
    refine hi.frameStep' (f' := { f with pc := .advance }) (tls' := th.tls) (leaks' := st.leaks) (evs := []) ht hpn hfs rfl rfl rfl
      (Plain.nil _ _ _) (fun q => ?_) hi.log.hist (fun hc => hc.hist) ?_
    · simp only [hframe, hcal, hpc]
    · obtain ⟨F, P, R, B, h1, h2, h3, h4, h5⟩ := fo.pos
      refine ⟨fo.sig, fo.stop, ?_, fo.notEnd, by simp, by simp, F, P, R, B, h1, h2, h3, h4, ?_⟩
      · rw [List.nil_append, fo.thr, hcal]; rfl
      · simp only [PcOk, hcal] at h5 ⊢; exact h5

theorem good_throw {st : State} {L : Nat → List Nat} (hi : Inv st L) {t : Nat} {th : Thread}
    (ht : st.threads[t]? = some th) (hpn : th.pend = .none) (hu : UserFrames th.frames) :
    Good st L .throw (stepUser st t th .throw) := by
  simp only [stepUser]
  cases hfs : th.frames with
  | nil => trivial
  | cons f rest =>
    rw [hfs] at hu
    have hcal : f.pc = .calling := hu
    have fo := (hi.frOk ht hfs).1
    refine hi.frameStep' (f' := { f with cur := none, pc := .finish true }) (tls' := th.tls)
      (leaks' := f.cur.toList ++ st.leaks) (evs := [.throw f.id]) ht hpn hfs rfl rfl rfl
      ⟨by simp [evEm], by simp [evSlot], fun _ => rfl, fun _ => rfl, fun _ => rfl⟩ (fun q => ?_)
      ⟨trivial, hi.log.hist⟩ (fun hc => ⟨trivial, hc.hist⟩) ?_
    · simp only [hframe, hcal, hpc, ind_none]
      cases f.cur with
      | none => simp [ind_none]
      | some c =>
        have : ([c] ++ st.leaks).count q = ind (some c) q + st.leaks.count q := by
          rw [List.count_append, List.count_singleton]
          unfold ind
          simp
        simp only [Option.toList_some, this]; omega
    · obtain ⟨F, P, R, B, h1, h2, h3, h4, h5⟩ := fo.pos
      refine ⟨fo.sig, ?_, by simp [Pc.threw], ?_, by simp, by simp, F, P, R, B, h1, h2, h3, h4, ?_⟩
      · simp only [List.singleton_append, List.mem_cons, reduceCtorEq, false_or]; exact fo.stop
      · intro b
        simp only [List.singleton_append, List.mem_cons, reduceCtorEq, false_or]; exact fo.notEnd b
      · simp only [PcOk, hcal] at h5 ⊢
        exact ⟨h5.1, by simp⟩

theorem good_stop {st : State} {L : Nat → List Nat} (hi : Inv st L) {t : Nat} {th : Thread}
    (ht : st.threads[t]? = some th) (hpn : th.pend = .none) (hu : UserFrames th.frames) :
    Good st L .stop (stepUser st t th .stop) := by
  cases hfs : th.frames with
  | nil =>
    have e0 : stepUser st t th .stop = .ok (setThread st t { th with tls := { th.tls with stopped := true } }) := by
      simp only [stepUser, hfs]; rfl
    rw [e0]
    refine ⟨L, ⟨⟨hi.ref.alive, hi.ref.fresh, fun q => ?_, hi.ref.blocking, hi.ref.blog⟩, hi.list, ?_, hi.log⟩, fun _ hc => ?_⟩
    · refine (hi.ref.refs q).trans ?_
      unfold held
      have := sumBy_set_eq (hthread q) (b := { th with tls := { th.tls with stopped := true } }) ht rfl
      simp only [setThread, this]
    · have em := hi.em
      refine ⟨fun g => ?_, em.deferred, ?_, ?_, ?_, ?_, ?_, fun e => ?_, fun e h => ?_, fun e h h' => ?_⟩
      · exact (em.active g).trans (sumBy_set_eq (nfr g) (b := { th with tls := { th.tls with stopped := true } }) ht rfl).symm
      · intro i th' h f hf
        rcases getElem?_set_of h with ⟨_, e⟩ | ⟨_, h⟩
        · subst e; exact em.falive t th ht f hf
        · exact em.falive i th' h f hf
      · intro i th' h s g hp
        rcases getElem?_set_of h with ⟨_, e⟩ | ⟨_, h⟩
        · subst e; exact em.palive t th ht s g hp
        · exact em.palive i th' h s g hp
      · intro i th' h s g hp
        rcases getElem?_set_of h with ⟨_, e⟩ | ⟨_, h⟩
        · subst e; exact em.pconn t th ht s g hp
        · exact em.pconn i th' h s g hp
      · intro i th' h
        rcases getElem?_set_of h with ⟨_, e⟩ | ⟨_, h⟩
        · subst e
          have := em.fok t th ht
          rw [hfs] at this
          show FramesOk _ _ _ th.frames
          rw [hfs]
          exact this
        · exact em.fok i th' h
      · intro i th' h hp
        rcases getElem?_set_of h with ⟨_, e⟩ | ⟨_, h⟩
        · subst e; exact em.mode t th ht hp
        · exact em.mode i th' h hp
      · have := sumBy_set_eq (nid e) (b := { th with tls := { th.tls with stopped := true } }) ht rfl
        exact Nat.le_trans (Nat.le_of_eq this) (em.ids e)
      · exact (sumBy_set_eq (nid e) (b := { th with tls := { th.tls with stopped := true } }) ht rfl).trans (em.idsLt e h)
      · have := sumBy_set_eq (nid e) (b := { th with tls := { th.tls with stopped := true } }) ht rfl
        exact em.ended e h (this.symm.trans h')
    · refine ⟨hc.conn, fun g s h h' => ?_, fun i th' s g g' h h' hs => ?_, hc.hist⟩
      · rcases hc.half g s h h' with d | ⟨i, th', d1, d2⟩
        · exact .inl d
        · right
          refine ⟨i, th', ?_, d2⟩
          show (st.threads.set t _)[i]? = some th'
          rw [List.getElem?_set_ne]
          · exact d1
          · rintro rfl
            rw [ht] at d1; cases d1
            rw [hpn] at d2; cases d2
      · rcases getElem?_set_of h with ⟨_, e⟩ | ⟨_, h⟩
        · subst e
          have h' : th.pend = .disc s g := h'
          rw [hpn] at h'; cases h'
        · exact hc.pendL i th' s g g' h h' hs
  | cons f rest =>
    rw [hfs] at hu
    have hcal : f.pc = .calling := hu
    have fo := (hi.frOk ht hfs).1
    have := hi.frameStep' (op := .stop) (f' := f) (tls' := { th.tls with stopped := true })
      (leaks' := st.leaks) (evs := [.stop f.id]) ht hpn hfs rfl rfl rfl
      ⟨by simp [evEm], by simp [evSlot], fun _ => rfl, fun _ => rfl, fun _ => rfl⟩ (fun q => rfl)
      ⟨trivial, hi.log.hist⟩ (fun hc => ⟨trivial, hc.hist⟩) (by
        obtain ⟨F, P, R, B, h1, h2, h3, h4, h5⟩ := fo.pos
        refine ⟨fo.sig, by simp, ?_, ?_, fo.tlsCur, by simp [hcal], F, P, R, B, h1, h2, h3, h4, ?_⟩
        · simp only [List.singleton_append, List.mem_cons, reduceCtorEq, false_or]; exact fo.thr
        · intro b
          simp only [List.singleton_append, List.mem_cons, reduceCtorEq, false_or]; exact fo.notEnd b
        · simp only [PcOk, hcal] at h5 ⊢; exact h5)
    have e0 : stepUser st t th .stop = .ok { setThread st t { th with tls := { th.tls with stopped := true } } with
        log := .stop f.id :: st.log } := by simp only [stepUser, hfs]
    rw [e0]
    rw [← hfs] at this
    exact this

theorem good_current {st : State} {L : Nat → List Nat} (hi : Inv st L) {t : Nat} {th : Thread}
    (ht : st.threads[t]? = some th) (hpn : th.pend = .none) (hu : UserFrames th.frames) :
    Good st L .current (stepUser st t th .current) := by
  simp only [stepUser]
  have hpos : ∀ p, th.tls.current = some p → 0 < (st.heap p).refs := by
    intro p h
    cases hfs : th.frames with
    | nil =>
      have := hi.em.fok t th ht
      rw [hfs] at this
      have this : th.tls.current = none := this
      rw [this] at h; cases h
    | cons f rest =>
      rw [hfs] at hu
      have fo := (hi.frOk ht hfs).1
      exact hi.cur_pos ht hfs (by rw [← (fo.tlsCur hu).1]; exact h)
  simp only [addRef?_ok hi.ref.alive hpos, orUb]
  refine hi.handles' (blks' := st.blks) (evs := []) ht hpn (by simp) (by simp) (fun q => ?_) hi.ref.blocking hi.ref.blog (fun q h => ?_)
  · rw [hi.ref.refs]
    unfold held
    rw [sumBy_snoc]
    simp only
    omega
  · have h1 := hi.ref.fresh q h
    have h2 := ind_fresh hi hpos h
    simp only [h1, h2]

end Verif.Signal
