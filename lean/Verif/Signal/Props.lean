import Verif.Signal.Facts
/-
C19 - C29: the properties of signals.

`Reach Pre n st`: `st` is reached by any interleaving of any actions of `n` threads, where
signals are used only while they exist.  `Reach Careful n st`: besides, signals are not moved
or swapped while another thread is in the middle of disconnecting one of their slots (with one
thread that is always so: `reach_single`).
-/
namespace Verif.Signal
open Spec

/-! ### Concrete programs for the examples -/

/-- One thread: three slots (2 in front of 0 and 1), an emission that calls all of them. -/
def prog3 : List (Nat × Op) :=
  [(0, .newSig), (0, .connect 0 .back), (0, .connect 0 .back), (0, .connect 0 .front), (0, .emit 0),
   (0, .cont), (0, .cont), (0, .ret), (0, .cont), (0, .cont),
   (0, .cont), (0, .cont), (0, .ret), (0, .cont), (0, .cont),
   (0, .cont), (0, .cont), (0, .ret), (0, .cont), (0, .cont), (0, .cont), (0, .cont)]

/-- The second slot called connects a fourth slot, disconnects the third and is itself blocked. -/
def progMix : List (Nat × Op) :=
  [(0, .newSig), (0, .connect 0 .back), (0, .connect 0 .back), (0, .connect 0 .back), (0, .emit 0),
   (0, .cont), (0, .cont), (0, .connect 0 .back), (0, .disconnect 1), (0, .cont), (0, .cont), (0, .blk 2), (0, .ret),
   (0, .cont), (0, .cont), (0, .cont), (0, .cont), (0, .cont), (0, .cont), (0, .cont), (0, .cont), (0, .cont),
   (0, .cont), (0, .cont)]

/-- Nested emission; the inner one is stopped, then the outer slot throws. -/
def progNest : List (Nat × Op) :=
  [(0, .newSig), (0, .newSig), (0, .connect 0 .back), (0, .connect 0 .back), (0, .connect 1 .back), (0, .connect 1 .back),
   (0, .emit 0), (0, .cont), (0, .cont),
   (0, .emit 1), (0, .cont), (0, .cont), (0, .stop), (0, .current), (0, .ret), (0, .cont), (0, .cont), (0, .cont), (0, .cont),
   (0, .current), (0, .throw), (0, .cont), (0, .cont)]

/-- Two threads: a disconnection is overtaken by a swap. -/
def progRace : List (Nat × Op) :=
  [(0, .newSig), (0, .newSig), (0, .connect 0 .back), (0, .disconnect 0), (1, .swap 0 1), (0, .cont), (0, .cont),
   (1, .emit 1), (1, .cont), (1, .cont)]

/-- Two threads: a blocker is created between the two checks of an emission. -/
def progBlk : List (Nat × Op) :=
  [(0, .newSig), (0, .connect 0 .back), (0, .emit 0), (0, .cont), (1, .blk 0), (0, .cont)]

/-! ### C19 order -/

/-- An emission calls slots of the signal in calling order. -/
theorem C19_order {n : Nat} {st : State} (h : Reach Pre n st) (e : Nat) :
    (calls st.log e).Sublist (order (before st.log e) (sigOf st.log e)) := by
  obtain ⟨L, hi⟩ := reach_inv h
  exact (calls_sub_proc _ _).trans (hi.proc_order e)

theorem called_connected {L : Nat → List Nat} {st : State} (hi : Inv st L) {e b g : Nat} {pos : Pos} {l1 l2 : List Ev}
    (hl : st.log = l1 ++ .connect b g pos :: l2) (hb : b ∈ order (before st.log e) (sigOf st.log e)) :
    ∃ l1', before st.log e = l1' ++ .connect b g pos :: l2 := by
  obtain ⟨k, hk⟩ := before_suffix st.log e
  have hh := hi.log.hist
  rw [hl] at hh
  have hf := (hist_split hh).1
  have key : l1 ++ .connect b g pos :: l2 = k ++ before st.log e := by rw [← hl]; exact hk
  rcases List.append_eq_append_iff.1 key with ⟨a, h1, h2⟩ | ⟨a, h1, h2⟩
  · cases a with
    | nil => exact ⟨[], by simpa using h2.symm⟩
    | cons x a =>
      exfalso
      simp only [List.cons_append, List.cons.injEq] at h2
      obtain ⟨g', pos', hm⟩ := order_mem hb
      exact hf (.connect b g' pos') (by rw [h2.2]; simp [hm]) rfl
  · exact ⟨a, h2⟩

/-- A slot connected at the back is called after every slot connected earlier. -/
theorem C19_back {n : Nat} {st : State} (h : Reach Pre n st) {a b g g' e : Nat} {pos : Pos} {l1 l2 : List Ev}
    (hl : st.log = l1 ++ .connect b g .back :: l2) (ha : Ev.connect a g' pos ∈ l2)
    (hca : Ev.call e a ∈ st.log) (hcb : Ev.call e b ∈ st.log) : [a, b].Sublist (calls st.log e) := by
  obtain ⟨L, hi⟩ := reach_inv h
  have hs := C19_order h e
  have ha' := hs.subset (mem_calls.2 hca)
  have hb' := hs.subset (mem_calls.2 hcb)
  obtain ⟨l1', hbe⟩ := called_connected hi hl hb'
  obtain ⟨k, hk⟩ := before_suffix st.log e
  have hh : Hist Ok (before st.log e) := by
    have := hi.log.hist
    rw [hk] at this; exact hist_suffix this
  refine List.sub_pair (order_nodup hh _) hs (mem_calls.2 hca) (mem_calls.2 hcb) ?_
  rw [hbe] at hh ha' hb' ⊢
  exact order_back hh ⟨g', pos, ha⟩ ha' hb'

/-- A slot connected at the front is called before every slot connected earlier. -/
theorem C19_front {n : Nat} {st : State} (h : Reach Pre n st) {a b g g' e : Nat} {pos : Pos} {l1 l2 : List Ev}
    (hl : st.log = l1 ++ .connect b g .front :: l2) (ha : Ev.connect a g' pos ∈ l2)
    (hca : Ev.call e a ∈ st.log) (hcb : Ev.call e b ∈ st.log) : [b, a].Sublist (calls st.log e) := by
  obtain ⟨L, hi⟩ := reach_inv h
  have hs := C19_order h e
  have ha' := hs.subset (mem_calls.2 hca)
  have hb' := hs.subset (mem_calls.2 hcb)
  obtain ⟨l1', hbe⟩ := called_connected hi hl hb'
  obtain ⟨k, hk⟩ := before_suffix st.log e
  have hh : Hist Ok (before st.log e) := by
    have := hi.log.hist
    rw [hk] at this; exact hist_suffix this
  refine List.sub_pair (order_nodup hh _) hs (mem_calls.2 hcb) (mem_calls.2 hca) ?_
  rw [hbe] at hh ha' hb' ⊢
  exact order_front hh ⟨g', pos, ha⟩ ha' hb'

/-- Three slots, one connected at the front: called in the order 2, 0, 1. -/
example : ∃ st, Reach Pre 1 st ∧ (decide (calls st.log 0 = [2, 0, 1]) && decide (Ev.end_ 0 false ∈ st.log)) = true :=
  exec_reach (l := prog3) (by decide +kernel)

/-! ### C20 snapshot -/

/-- A slot called by an emission was connected before the emission began. -/
theorem C20_snapshot {n : Nat} {st : State} (h : Reach Pre n st) {e g s : Nat} {l1 l2 : List Ev}
    (hl : st.log = l1 ++ .begin e g :: l2) (hc : Ev.call e s ∈ st.log) : ∃ g' pos, Ev.connect s g' pos ∈ l2 := by
  obtain ⟨L, hi⟩ := reach_inv h
  have hs := (C19_order h e).subset (mem_calls.2 hc)
  have hh := hi.log.hist
  rw [hl] at hh hs
  rw [(before_split hh).1] at hs
  exact order_mem hs

/-- A slot connected after an emission began is not called by it. -/
theorem C20_later {n : Nat} {st : State} (h : Reach Pre n st) {e g s g' : Nat} {pos : Pos} {l1 l2 : List Ev}
    (hl : st.log = l1 ++ .begin e g :: l2) (hs : Ev.connect s g' pos ∈ l1) : Ev.call e s ∉ st.log := by
  intro hc
  obtain ⟨L, hi⟩ := reach_inv h
  obtain ⟨g2, pos2, h2⟩ := C20_snapshot h hl hc
  obtain ⟨a, b, rfl⟩ := List.append_of_mem hs
  have hh := hi.log.hist
  rw [hl, List.append_assoc, List.cons_append] at hh
  exact (hist_split hh).1 (.connect s g2 pos2) (by simp [h2]) rfl

/-- Slot 3 is connected while slot 0 runs and not called. -/
example : ∃ st, Reach Pre 1 st ∧ (decide (calls st.log 0 = [0]) && decide (Ev.connect 3 0 .back ∈ st.log) &&
    decide (Ev.end_ 0 false ∈ st.log)) = true :=
  exec_reach (l := progMix) (by decide +kernel)

/-! ### C21 disconnected slots are not called -/

/-- A slot is called only while it is connected to the emitting signal. -/
theorem C21_connected_partial {n : Nat} {st : State} (h : Reach Careful n st) {e s : Nat} {l1 l2 : List Ev}
    (hl : st.log = l1 ++ .call e s :: l2) : conn l2 s = some (sigOf l2 e) := by
  obtain ⟨L, hi, hc⟩ := reach_calm h
  have hh := hc.hist
  rw [hl] at hh
  exact (hist_split hh).1

/-- After a slot was disconnected no call of it begins.
Missing for the full claim: signals moved or swapped while the disconnection is under way on
another thread; there the claim is false, see `C21_violated`. -/
theorem C21_disconnected_partial {n : Nat} {st : State} (h : Reach Careful n st) {e s : Nat} {l1 l2 : List Ev}
    (hl : st.log = l1 ++ .disc s :: l2) : Ev.call e s ∉ l1 := by
  intro hm
  obtain ⟨a, b, rfl⟩ := List.append_of_mem hm
  obtain ⟨L, hi⟩ := reach_inv h.pre
  have hh := hi.log.hist
  have hl' : st.log = a ++ .call e s :: (b ++ .disc s :: l2) := by rw [hl]; simp
  have h1 := C21_connected_partial h hl'
  rw [hl'] at hh
  have hh := (hist_split hh).2
  rw [conn_none_stays hh ⟨.disc s, by simp, rfl⟩ (by simp [conn])] at h1
  cases h1

/-- What is not connected is not called later. -/
theorem not_called {n : Nat} {st1 st2 : State} {s : Nat} (h1 : Reach Careful n st1) (hlt : s < st1.nslots)
    (hn : conn st1.log s = none) (hr : Run Careful st1 st2) :
    ∃ evs, st2.log = evs ++ st1.log ∧ ∀ e, Ev.call e s ∉ evs := by
  have h2 : Reach Careful n st2 := hr.reach h1
  obtain ⟨evs, he⟩ := hr.log
  refine ⟨evs, he, fun e hm => ?_⟩
  obtain ⟨a, b, rfl⟩ := List.append_of_mem hm
  have hl' : st2.log = a ++ .call e s :: (b ++ st1.log) := by rw [he]; simp
  have hcon := C21_connected_partial h2 hl'
  obtain ⟨L2, hi2⟩ := reach_inv h2.pre
  have hh := hi2.log.hist
  rw [hl'] at hh
  have hh := (hist_split hh).2
  obtain ⟨g', pos, hrec⟩ := reach_connected h1 hlt
  rw [conn_none_stays hh ⟨_, hrec, rfl⟩ hn] at hcon
  cases hcon

theorem startDisconnect_conn {st st1 : State} {L : Nat → List Nat} (hi : Inv st L) {t s : Nat} {th : Thread}
    {cs : List Handle} (hs : startDisconnect { st with conns := cs } t th s = .ok st1) :
    conn st1.log s = none ∧ st1.nslots = st.nslots ∧ st1.conns = cs ∧
      (st1.log = st.log ∧ conn st.log s = none ∨ st1.log = .disc s :: st.log) := by
  unfold startDisconnect at hs
  obtain ⟨o, ho, hs⟩ := orUb_ok hs
  have ho : o = st.heap s := by
    unfold deref at ho
    split at ho <;> cases ho
    rfl
  split at hs
  · rename_i hsn
    cases hs
    have hcn : conn st.log s = none := by
      cases hcn : conn st.log s with
      | none => rfl
      | some g =>
        have := hi.log.conn s g hcn
        rw [ho] at hsn
        have this : (st.heap s).sender = some g := this
        rw [hsn] at this; cases this
    exact ⟨hcn, rfl, rfl, .inl ⟨rfl, hcn⟩⟩
  · cases hs
    exact ⟨by simp [conn], rfl, rfl, .inr rfl⟩

theorem step_user {st st1 : State} {t : Nat} {op : Op} (hop : op ≠ .cont) (hs : step st t op = .ok st1) :
    ∃ th, st.threads[t]? = some th ∧ th.user = true ∧ stepUser st t th op = .ok st1 := by
  unfold step at hs
  split at hs
  · cases hs
  · rename_i th ht
    split at hs
    · exact absurd rfl hop
    · split at hs
      · rename_i hu
        exact ⟨th, ht, hu, hs⟩
      · cases hs

/-- From the moment that `disconnect` of a connection has exchanged the sender (its first
action) no call of the slot begins, whatever the threads do. -/
theorem C21_disconnect_partial {n : Nat} {st st1 st2 : State} {t c s : Nat} {x : Handle} (h : Reach Careful n st)
    (hx : st.conns[c]? = some x) (hxs : x.slot = some s) (hs : step st t (.disconnect c) = .ok st1)
    (hr : Run Careful st1 st2) : ∃ evs, st2.log = evs ++ st1.log ∧ ∀ e, Ev.call e s ∉ evs := by
  have h1 : Reach Careful n st1 := h.step (op := .disconnect c) ⟨trivial, trivial⟩ hs
  obtain ⟨L, hi⟩ := reach_inv h.pre
  obtain ⟨th, ht, hu, hs⟩ := step_user (by simp) hs
  simp only [stepUser, hx, hxs] at hs
  obtain ⟨e1, e2, -, -⟩ := startDisconnect_conn hi hs
  exact not_called h1 (by rw [e2]; exact hi.lt_of_pos (hi.conn_pos hx hxs)) e1 hr

theorem conn_discs (l : List Nat) (log : List Ev) (s : Nat) :
    conn (l.map Ev.disc ++ log) s = if s ∈ l then none else conn log s := by
  induction l with
  | nil => rfl
  | cons a l ih =>
    simp only [List.map_cons, List.cons_append, conn, ih, List.mem_cons]
    by_cases h1 : s = a <;> by_cases h2 : s ∈ l <;> simp [h1, h2]

theorem discAll_log {st : State} {L : Nat → List Nat} (hi : Inv st L) (g : Nat) :
    ∃ h' x, discAllLoop st.nslots st.heap (st.sigs g) (st.sigs g).slots none = some (h', x, L g) := by
  rw [hi.list.slots g]
  by_cases ha : (st.sigs g).active = 0
  · obtain ⟨h', e1, -, -⟩ := discAllLoop_remove (L g) st.nslots st.heap (st.sigs g) (hi.len g) hi.ref.alive
      (hi.linkedHeap g) (hi.list.nodup g) (hi.allPos g) (hi.list.slots g) (hi.list.tail g) ha
    exact ⟨_, _, e1⟩
  · obtain ⟨h', e1, -, -⟩ := discAllLoop_defer (L g) st.nslots st.heap (st.sigs g) none (hi.len g) hi.ref.alive
      (hi.linkedHeap g) (hi.allPos g) ha
    exact ⟨_, _, e1⟩

/-- `disconnect_all_slots` disconnects all slots of the signal. -/
theorem discAll_conn {st st1 : State} {L : Nat → List Nat} (hi : Inv st L) {t g : Nat}
    (hs : step st t (.discAll g) = .ok st1) :
    st1.nslots = st.nslots ∧ (∀ s, OnList st g s → conn st1.log s = none) ∧
      ∀ s, ¬ OnList st g s → conn st1.log s = conn st.log s := by
  obtain ⟨th, ht, hu, hs⟩ := step_user (by simp) hs
  simp only [stepUser] at hs
  split at hs
  · cases hs
  · obtain ⟨h', x, e⟩ := discAll_log hi g
    rw [e] at hs
    simp only [orUb] at hs
    cases hs
    refine ⟨rfl, fun s hm => ?_, fun s hm => ?_⟩
    · show conn ((L g).reverse.map Ev.disc ++ st.log) s = _
      rw [conn_discs, if_pos (by simpa using (hi.onList g s).1 hm)]
    · show conn ((L g).reverse.map Ev.disc ++ st.log) s = _
      rw [conn_discs, if_neg (fun h => hm ((hi.onList g s).2 (by simpa using h)))]

/-- After `disconnect_all_slots` no call of a slot that was connected to the signal begins. -/
theorem C21_disconnect_all_partial {n : Nat} {st st1 st2 : State} {t g s : Nat} (h : Reach Careful n st)
    (hg : (st.sigs g).alive = true) (hcs : conn st.log s = some g) (hs : step st t (.discAll g) = .ok st1)
    (hr : Run Careful st1 st2) : ∃ evs, st2.log = evs ++ st1.log ∧ ∀ e, Ev.call e s ∉ evs := by
  have h1 : Reach Careful n st1 := h.step (op := .discAll g) ⟨hg, trivial⟩ hs
  obtain ⟨L, hi⟩ := reach_inv h.pre
  obtain ⟨e1, e2, -⟩ := discAll_conn hi hs
  have hm := hi.list.senderL s g (hi.log.conn s g hcs)
  exact not_called h1 (by rw [e1]; exact hi.list.bound g s hm) (e2 s ((hi.onList g s).2 hm)) hr

theorem Run.single {n : Nat} {st st' : State} (hn : n = 1) (h : Reach Pre n st) (r : Run Pre st st') : Run Careful st st' := by
  subst hn
  induction r with
  | refl => exact .refl _
  | @step st1 st2 t op hr hp hs ih => exact ih.step ⟨hp, single_calm (reach_threads (hr.reach h)) hs⟩ hs

/-- On one thread the claim holds without further conditions, however emissions nest. -/
theorem C21_single_thread {st st1 st2 : State} {t c s : Nat} {x : Handle} (h : Reach Pre 1 st)
    (hx : st.conns[c]? = some x) (hxs : x.slot = some s) (hs : step st t (.disconnect c) = .ok st1) (hr : Run Pre st1 st2) :
    ∃ evs, st2.log = evs ++ st1.log ∧ ∀ e, Ev.call e s ∉ evs :=
  C21_disconnect_partial (reach_single h) hx hxs hs (hr.single rfl (h.step (op := .disconnect c) trivial hs))

/-- With more threads a swap can bring the slot back to life. -/
theorem C21_violated : ∃ st l1 l2, Reach Pre 2 st ∧ st.log = l1 ++ .disc 0 :: l2 ∧ Ev.call 0 0 ∈ l1 := by
  obtain ⟨st, h1, h2⟩ := exec_reach (n := 2) (l := progRace)
    (q := fun st => decide (st.log = [Ev.call 0 0, .pass 0 0, .begin 0 1, .swap 0 1] ++ .disc 0 :: [.connect 0 0 .back]))
    (by decide +kernel)
  exact ⟨st, _, _, h1, of_decide_eq_true h2, by simp⟩

/-- The third slot is disconnected while slot 0 runs. -/
example : ∃ st, Reach Careful 1 st ∧ (decide (Ev.disc 1 ∈ st.log) && decide (Ev.skipInvalid 0 1 ∈ st.log)) = true :=
  exec_careful (l := progMix) (by decide +kernel)

/-! ### C22 exactly once -/

/-- No emission calls a slot twice. -/
theorem C22_at_most_once {n : Nat} {st : State} (h : Reach Pre n st) (e s : Nat) : st.log.count (.call e s) ≤ 1 := by
  obtain ⟨L, hi⟩ := reach_inv h
  rw [count_calls]
  have hh : Hist Ok (before st.log e) := by
    obtain ⟨k, hk⟩ := before_suffix st.log e
    have := hi.log.hist
    rw [hk] at this; exact hist_suffix this
  exact List.nodup_iff_count.1 ((order_nodup hh _).sublist (C19_order h e)) s

/-- When an emission is over, each slot that was connected when it began has been called, or it
was blocked or disconnected when it was reached, unless the emission was cut off by
`stop_emission` or an exception. -/
theorem C22_all {n : Nat} {st : State} (h : Reach Pre n st) {e : Nat} {b : Bool} (he : Ev.end_ e b ∈ st.log)
    (hst : Ev.stop e ∉ st.log) (hth : Ev.throw e ∉ st.log) {s : Nat}
    (hs : conn (before st.log e) s = some (sigOf st.log e)) :
    st.log.count (.call e s) = 1 ∨
      (∃ l1 l2, st.log = l1 ++ .skipBlocked e s :: l2 ∧ 0 < blockers l2 s) ∨
      ∃ l1 l2, st.log = l1 ++ .skipInvalid e s :: l2 ∧ conn l2 s = none := by
  obtain ⟨L, hi⟩ := reach_inv h
  have hh := hi.log.hist
  rcases (hi.end_ended he).all with h1 | h1 | h1
  · exact absurd h1 hst
  · exact absurd h1 hth
  · rcases mem_proc.1 (h1 s hs) with h2 | h2 | h2
    · left
      have := List.count_pos_iff.2 h2
      have := C22_at_most_once h e s
      omega
    · right; left
      obtain ⟨l1, l2, hl⟩ := List.append_of_mem h2
      rw [hl] at hh
      exact ⟨l1, l2, hl, (hist_split hh).1.2⟩
    · right; right
      obtain ⟨l1, l2, hl⟩ := List.append_of_mem h2
      rw [hl] at hh
      exact ⟨l1, l2, hl, (hist_split hh).1.2.2⟩

/-- One slot called, one disconnected, one blocked, in one emission. -/
example : ∃ st, Reach Pre 1 st ∧ (decide (Ev.end_ 0 false ∈ st.log) && decide (Ev.stop 0 ∉ st.log) &&
    decide (Ev.throw 0 ∉ st.log) && decide (conn (before st.log 0) 2 = some (sigOf st.log 0)) &&
    decide (Ev.call 0 0 ∈ st.log) && decide (Ev.skipInvalid 0 1 ∈ st.log) && decide (Ev.skipBlocked 0 2 ∈ st.log)) = true :=
  exec_reach (l := progMix) (by decide +kernel)

/-! ### C23 stopping -/

/-- After `stop_emission` the emission calls no slot. -/
theorem C23_stops {n : Nat} {st : State} (h : Reach Pre n st) {e s : Nat} {l1 l2 : List Ev}
    (hl : st.log = l1 ++ .stop e :: l2) : Ev.call e s ∉ l1 := by
  intro hm
  obtain ⟨a, b, rfl⟩ := List.append_of_mem hm
  obtain ⟨L, hi⟩ := reach_inv h
  have hh := hi.log.hist
  rw [hl, List.append_assoc, List.cons_append] at hh
  exact (hist_split hh).1.1.1 (by simp)

/-- `stop_emission` marks the innermost emission of the calling thread and no other, and
nothing else does. (With `C22_all`: other emissions call all their slots.) -/
theorem C23_innermost {st st' : State} {t : Nat} {op : Op} (hs : step st t op = .ok st') (e : Nat) :
    (Ev.stop e ∈ st'.log ∧ Ev.stop e ∉ st.log →
      op = .stop ∧ ∃ th f rest, st.threads[t]? = some th ∧ th.frames = f :: rest ∧ f.id = e) ∧
    (∀ th f rest, op = .stop → st.threads[t]? = some th → th.frames = f :: rest → f.id = e → Ev.stop e ∈ st'.log) := by
  constructor
  · rintro ⟨h1, h2⟩
    obtain ⟨evs, e1, -, e2, -⟩ := (step_grow hs).grow
    rw [e1] at h1
    rcases List.mem_append.1 h1 with h1 | h1
    · obtain ⟨h3, th, f, rest, h4, h5, h6, h7⟩ := e2 e h1
      exact ⟨h3, th, f, rest, h4, h6, h7⟩
    · exact absurd h1 h2
  · rintro th f rest rfl h4 h5 h6
    obtain ⟨th', ht, hu, hs⟩ := step_user (by simp) hs
    rw [h4] at ht; cases ht
    simp only [stepUser, h5] at hs
    cases hs
    simp [h6]

/-- `current_connection` gives a connection to the slot that the innermost emission of the
thread called last, that is, to the slot that runs; and an empty one outside of emissions. -/
theorem C23_current {n : Nat} {st st' : State} {t : Nat} {th : Thread} (h : Reach Pre n st)
    (ht : st.threads[t]? = some th) (hs : step st t .current = .ok st') :
    st'.conns = st.conns ++ [⟨th.frames.head?.bind fun f => (calls st.log f.id).getLast?, false⟩] := by
  obtain ⟨L, hi⟩ := reach_inv h
  obtain ⟨th', ht', hu, hs⟩ := step_user (by simp) hs
  rw [ht] at ht'; cases ht'
  simp only [stepUser] at hs
  obtain ⟨h', -, hs⟩ := orUb_ok hs
  cases hs
  have hfo := hi.em.fok t th ht
  have hus := (user_of hu).2
  show st.conns ++ [⟨th.tls.current, false⟩] = _
  congr 3
  cases hf : th.frames with
  | nil => rw [hf] at hfo; exact hfo
  | cons f rest =>
    rw [hf] at hfo hus
    obtain ⟨h1, h2⟩ := hfo.1.tlsCur hus
    show th.tls.current = (calls st.log f.id).getLast?
    rw [h1, h2]

/-- The inner emission is stopped after slot 2; `current_connection` is slot 2 inside of it and
slot 0 afterwards. -/
example : ∃ st, Reach Pre 1 st ∧ (decide (calls st.log 1 = [2]) && decide (Ev.stop 1 ∈ st.log) && decide (Ev.stop 0 ∉ st.log) &&
    decide ((st.conns.drop 4).map Handle.slot = [some 2, some 0])) = true :=
  exec_reach (l := progNest) (by decide +kernel)

/-! ### C24 blocking -/

/-- The number of blockers of a slot in the history is the number of blocker objects that refer
to it and the counter of the slot. -/
theorem C24_count {n : Nat} {st : State} (h : Reach Pre n st) (s : Nat) :
    blockers st.log s = st.blks.count (some s) ∧ (st.heap s).blocking = st.blks.count (some s) := by
  obtain ⟨L, hi⟩ := reach_inv h
  rw [hi.ref.blog, hi.ref.blocking, sumBy_ind]
  exact ⟨rfl, rfl⟩

/-- An emission that reaches a slot skips it if there is a blocker of it and goes on to the
next check otherwise. -/
theorem C24_decision {n : Nat} {st : State} {t c : Nat} {th : Thread} {f : Frame} {rest : List Frame} (h : Reach Pre n st)
    (ht : st.threads[t]? = some th) (hf : th.frames = f :: rest) (hp : f.pc = .loop) (hc : f.cur = some c) :
    ∃ st', step st t .cont = .ok st' ∧
      st'.log = (if some c ∈ st.blks then Ev.skipBlocked f.id c else .pass f.id c) :: st.log := by
  obtain ⟨L, hi⟩ := reach_inv h
  have hpn : th.pend = .none := by
    apply Classical.byContradiction
    intro hpn
    have := hi.em.mode t th ht hpn
    rw [hf] at this
    have this : f.pc = .calling := this
    rw [hp] at this; cases this
  have hd : deref st.heap c = some (st.heap c) := deref_eq hi.ref.alive (hi.cur_pos ht hf hc)
  have hb : (st.heap c).blocking > 0 ↔ some c ∈ st.blks := by
    rw [(C24_count h c).2]; exact List.count_pos_iff
  by_cases hm : some c ∈ st.blks
  · refine ⟨_, by simp only [step, ht, hpn, hf, stepFrame, hp, hc, hd, orUb, if_pos (hb.2 hm)]; rfl, ?_⟩
    simp [hm, setThread]
  · refine ⟨_, by simp only [step, ht, hpn, hf, stepFrame, hp, hc, hd, orUb, if_neg (fun x => hm (hb.1 x))]; rfl, ?_⟩
    simp [hm, setThread]

/-- A slot is skipped as blocked only while it is blocked; it is called only if it was not
blocked at the check which is the emission's action before the call. -/
theorem C24_checked {n : Nat} {st : State} (h : Reach Pre n st) {e s : Nat} {l1 l2 : List Ev} :
    (st.log = l1 ++ .skipBlocked e s :: l2 → 0 < blockers l2 s) ∧
    (st.log = l1 ++ .call e s :: l2 → latest l2 e = some (.pass e s)) ∧
    (st.log = l1 ++ .pass e s :: l2 → blockers l2 s = 0) := by
  obtain ⟨L, hi⟩ := reach_inv h
  have hh := hi.log.hist
  refine ⟨fun hl => ?_, fun hl => ?_, fun hl => ?_⟩ <;> rw [hl] at hh <;> exact (hist_split hh).1.2

/-- On one thread a slot is called only if it is not blocked. -/
theorem C24_single_thread {st : State} (h : Reach Pre 1 st) {e s : Nat} {l1 l2 : List Ev}
    (hl : st.log = l1 ++ .call e s :: l2) : blockers l2 s = 0 := by
  have ha := (adj_single h).hist
  rw [hl] at ha
  have h1 : l2.head? = some (.pass e s) := (hist_split ha).1
  cases l2 with
  | nil => cases h1
  | cons ev l2 =>
    simp only [List.head?_cons, Option.some.injEq] at h1
    subst h1
    have hl' : st.log = (l1 ++ [.call e s]) ++ .pass e s :: l2 := by rw [hl]; simp
    have := (C24_checked (e := e) (s := s) (l1 := l1 ++ [.call e s]) (l2 := l2) h).2.2 hl'
    simpa [blockers] using this

/-- With more threads a slot may be called although a blocker was created just before. -/
theorem C24_race : ∃ st l1 l2, Reach Pre 2 st ∧ st.log = l1 ++ .call 0 0 :: l2 ∧ 0 < blockers l2 0 := by
  obtain ⟨st, h1, h2⟩ := exec_reach (n := 2) (l := progBlk)
    (q := fun st => decide (st.log = [] ++ .call 0 0 :: [.blk 0, .pass 0 0, .begin 0 0, .connect 0 0 .back]))
    (by decide +kernel)
  exact ⟨st, _, _, h1, of_decide_eq_true h2, by simp [blockers]⟩

/-- Two blockers, one copied and moved from; all gone: the slot is called again. -/
example : ∃ st, Reach Pre 1 st ∧ (decide (Ev.skipBlocked 0 0 ∈ st.log) && decide (Ev.call 1 0 ∈ st.log) &&
    decide (st.blks = [none, none, none])) = true :=
  exec_reach (l := [(0, .newSig), (0, .connect 0 .back), (0, .blk 0), (0, .blkCopy 0), (0, .blkMove 0), (0, .blkDrop 2), (0, .cont),
    (0, .emit 0), (0, .cont), (0, .cont), (0, .cont), (0, .cont), (0, .cont), (0, .blkDrop 1), (0, .cont), (0, .emit 0), (0, .cont), (0, .cont)])
    (by decide +kernel)

/-! ### C25 memory -/

/-- No action touches a destroyed slot or signal, releases a reference too much, or fails to end. -/
theorem C25_safe {n : Nat} {st : State} (h : Reach Pre n st) (t : Nat) {op : Op} (hp : Pre st op) : step st t op ≠ .ub := by
  obtain ⟨L, hi⟩ := reach_inv h
  intro hu
  have := good_step hi t hp
  rw [hu] at this
  exact this

/-- The library code always goes on. -/
theorem C25_progress {n : Nat} {st : State} {t : Nat} {th : Thread} (h : Reach Pre n st) (ht : st.threads[t]? = some th)
    (hl : th.user = false) : ∃ st', step st t .cont = .ok st' := by
  have hub := C25_safe h t (op := .cont) trivial
  cases hr : step st t .cont with
  | ok st' => exact ⟨st', rfl⟩
  | ub => exact absurd hr hub
  | off =>
    exfalso
    unfold step at hr
    rw [ht] at hr
    simp only [stepFrame, stepPend] at hr
    unfold Thread.user at hl
    repeat' (first | (cases hr; done) | split at hr | (unfold orUb at hr) | dsimp only at hr)
    all_goals simp_all
  | terminate =>
    exfalso
    unfold step at hr
    rw [ht] at hr
    simp only [stepFrame, stepPend] at hr
    repeat' (first | (cases hr; done) | split at hr | (unfold orUb at hr) | dsimp only at hr)

/-- What somebody refers to exists. -/
theorem C25_referred_alive {n : Nat} {st : State} (h : Reach Pre n st) {s : Nat} (hs : Refers st s) :
    (st.heap s).alive = true := by
  obtain ⟨L, hi⟩ := reach_inv h
  rw [hi.ref.alive]
  simpa using (hi.refers s).2 (.inl hs)

/-- As long as no slot throws, what nobody refers to does not exist. -/
theorem C25_unreferred_gone {n : Nat} {st : State} (h : Reach Pre n st) (hn : ∀ e, Ev.throw e ∉ st.log) {s : Nat}
    (hs : (st.heap s).alive = true) : Refers st s := by
  obtain ⟨L, hi⟩ := reach_inv h
  rw [hi.ref.alive] at hs
  have hs : 0 < (st.heap s).refs := by simpa using hs
  rcases (hi.refers s).1 hs with h1 | h1
  · exact h1
  · rw [leaks_nil h hn] at h1; cases h1

/-- All handles dropped, the signal emptied: the slot is gone, while its number was in use. -/
example : ∃ st, Reach Pre 1 st ∧ (decide (Ev.connect 0 0 .back ∈ st.log) && !(st.heap 0).alive && (st.heap 1).alive) = true :=
  exec_reach (l := [(0, .newSig), (0, .connect 0 .back), (0, .connect 0 .back), (0, .disconnect 0), (0, .cont), (0, .cont)])
    (by decide +kernel)

/-! ### C26 at rest -/

/-- At rest the list of a signal consists of the connected slots, in calling order.
Missing for the full claim: signals moved or swapped during a disconnection on another thread
(`C26_violated`). -/
theorem C26_rest_partial {n : Nat} {st : State} (h : Reach Careful n st) {g : Nat} (hr : AtRest st g) :
    Chain st.heap (st.sigs g).slots (connectedSlots st.log g) ∧ (st.sigs g).tail = (connectedSlots st.log g).getLast? := by
  obtain ⟨L, hi, hc⟩ := reach_calm h
  rw [← hi.valid_slots hc g, hi.all_valid hc hr]
  exact ⟨hi.chain g, hi.list.tail g⟩

/-- `num_slots()` is the number of connected slots at every moment, `empty()` agrees. -/
theorem C26_num_slots_partial {n : Nat} {st : State} (h : Reach Careful n st) {g : Nat} (hg : (st.sigs g).alive = true) :
    numSlots st g = some (connectedSlots st.log g).length ∧ empty st g = some (connectedSlots st.log g).isEmpty := by
  obtain ⟨L, hi, hc⟩ := reach_calm h
  have h1 : numSlots st g = some (connectedSlots st.log g).length := by
    unfold numSlots
    rw [if_neg (by simp [hg]), hi.list.slots, countLoop_ok (L g) _ _ (hi.len g) hi.ref.alive (hi.linkedHeap g) (hi.allPos g),
      hi.valid_slots hc g]
  refine ⟨h1, ?_⟩
  unfold empty
  rw [h1]
  cases connectedSlots st.log g <;> rfl

/-- On one thread: between two actions of the program outside of slots the list is exact. -/
theorem C26_single_thread {st : State} (h : Reach Pre 1 st) {th : Thread} (ht : st.threads[0]? = some th)
    (hf : th.frames = []) (hp : th.pend = .none) (g : Nat) :
    Chain st.heap (st.sigs g).slots (connectedSlots st.log g) := by
  refine (C26_rest_partial (reach_single h) ⟨?_, ?_⟩).1
  all_goals
    intro x hx
    obtain ⟨a, ha⟩ := List.length_eq_one_iff.1 (reach_threads h)
    rw [ha] at ht hx
    simp only [List.getElem?_cons_zero, Option.some.injEq] at ht
    simp only [List.mem_singleton] at hx
    rw [hx, ht]
  · rw [hf]; simp
  · rw [hp]; simp

/-- After the race of a disconnection with a swap the slot is on a list and counted, although
it was disconnected and everything is at rest. -/
theorem C26_violated : ∃ st, Reach Pre 2 st ∧ AtRest st 1 ∧ connectedSlots st.log 1 = [] ∧ numSlots st 1 = some 1 ∧
    Chain st.heap (st.sigs 1).slots [0] := by
  obtain ⟨st, h1, h2⟩ := exec_reach (n := 2) (l := progRace.take 7)
    (q := fun st => decide (connectedSlots st.log 1 = []) && decide (numSlots st 1 = some 1) &&
      decide (st.threads = [⟨⟨false, none⟩, [], .none⟩, ⟨⟨false, none⟩, [], .none⟩]) &&
      decide ((st.sigs 1).slots = some 0) && (st.heap 0).alive && decide ((st.heap 0).next = none))
    (by decide +kernel)
  simp only [Bool.and_eq_true, decide_eq_true_eq] at h2
  obtain ⟨⟨⟨⟨⟨a1, a2⟩, a3⟩, a4⟩, a5⟩, a6⟩ := h2
  refine ⟨st, h1, ⟨?_, ?_⟩, a1, a2, ?_⟩
  · rw [a3]; intro th hth f hf
    simp only [List.mem_cons, List.not_mem_nil, or_false, or_self] at hth
    rw [hth] at hf; cases hf
  · rw [a3]; intro th hth s hs
    simp only [List.mem_cons, List.not_mem_nil, or_false, or_self] at hth
    rw [hth] at hs; cases hs
  · rw [a4]
    refine ⟨rfl, a5, ?_⟩
    rw [a6]; trivial

/-- A slot disconnected during an emission is gone from the list when the emission is over. -/
example : ∃ st, Reach Careful 1 st ∧ (decide (connectedSlots st.log 0 = [0, 2, 3]) && decide (numSlots st 0 = some 3) &&
    decide ((st.threads.map Thread.frames) = [[]]) && decide ((st.threads.map Thread.pend) = [.none])) = true :=
  exec_careful (l := progMix) (by decide +kernel)

/-! ### C27 exceptions -/

/-- After a slot threw, the emission calls no slot. -/
theorem C27_no_calls {n : Nat} {st : State} (h : Reach Pre n st) {e s : Nat} {l1 l2 : List Ev}
    (hl : st.log = l1 ++ .throw e :: l2) : Ev.call e s ∉ l1 := by
  intro hm
  obtain ⟨a, b, rfl⟩ := List.append_of_mem hm
  obtain ⟨L, hi⟩ := reach_inv h
  have hh := hi.log.hist
  rw [hl, List.append_assoc, List.cons_append] at hh
  exact (hist_split hh).1.1.2.1 (by simp)

/-- An emission ends with an exception exactly if one of its slots threw. -/
theorem C27_propagates {n : Nat} {st : State} (h : Reach Pre n st) {e : Nat} {b : Bool} {l1 l2 : List Ev}
    (hl : st.log = l1 ++ .end_ e b :: l2) : b = true ↔ Ev.throw e ∈ l2 := by
  obtain ⟨L, hi⟩ := reach_inv h
  have hh := hi.log.hist
  rw [hl] at hh
  exact (hist_split hh).1.symm

/-- The bookkeeping of the signal always counts the emissions in flight, also after exceptions. -/
theorem C27_active {n : Nat} {st : State} (h : Reach Pre n st) (g : Nat) :
    (st.sigs g).active = ((st.threads.flatMap Thread.frames).filter (fun f => decide (f.sig = g))).length := by
  obtain ⟨L, hi⟩ := reach_inv h
  rw [hi.em.active]
  have h1 : ∀ fs : List Frame, sumBy (fun f => if f.sig = g then 1 else 0) fs = (fs.filter (fun f => decide (f.sig = g))).length := by
    intro fs
    induction fs with
    | nil => rfl
    | cons f fs ih =>
      rw [sumBy_cons, ih, List.filter_cons]
      by_cases e : f.sig = g <;> simp [e]
      omega
  induction st.threads with
  | nil => rfl
  | cons th ths ih =>
    rw [sumBy_cons, ih, List.flatMap_cons, List.filter_append, List.length_append, nfr, h1]

/-- While an emission is in flight its saved state and everything below it on the stack stay as
they were when it began. -/
theorem saved_stays {n : Nat} {st st1 st2 : State} {t g : Nat} {th th2 : Thread} {f : Frame} {rest : List Frame}
    (h : Reach Pre n st) (ht : st.threads[t]? = some th) (hg : (st.sigs g).alive = true)
    (hs : step st t (.emit g) = .ok st1) (hr : Run Pre st1 st2)
    (ht2 : st2.threads[t]? = some th2) (hf : th2.frames = f :: rest) (hid : f.id = st.nem) :
    f.saved = th.tls ∧ rest = th.frames := by
  have h1 : Reach Pre n st1 := h.step (op := .emit g) hg hs
  -- somewhere on the stack, or over
  have key : ∀ {st2}, Run Pre st1 st2 → (∃ th2 pre f, st2.threads[t]? = some th2 ∧ th2.frames = pre ++ f :: th.frames ∧
      f.id = st.nem ∧ f.saved = th.tls) ∨ ∃ b, Ev.end_ st.nem b ∈ st2.log := by
    intro st2 hr
    induction hr with
    | refl =>
      left
      obtain ⟨th', ht', hu, hs⟩ := step_user (by simp) hs
      rw [ht] at ht'; cases ht'
      simp only [stepUser] at hs
      split at hs
      · cases hs
      · obtain ⟨r, -, hs⟩ := orUb_ok hs
        obtain ⟨r', -, hs⟩ := orUb_ok hs
        cases hs
        refine ⟨_, [], _, List.getElem?_set_self (List.getElem?_eq_some_iff.1 ht).1, rfl, rfl, rfl⟩
    | @step sa sb t' op hra hp hst ih =>
      rcases ih with ⟨tha, pre, f, e1, e2, e3, e4⟩ | ⟨b, hb⟩
      · obtain ⟨x, x', evs, sh⟩ := step_shape hst
        by_cases htt : t' = t
        · subst htt
          have := sh.thread
          rw [e1] at this; cases this
          have hget : sb.threads[t']? = some x' := by
            rw [sh.threads]; exact List.getElem?_set_self (List.getElem?_eq_some_iff.1 e1).1
          cases sh.tstep with
          | same q1 q2 => exact .inl ⟨x', pre, f, hget, by rw [q1, e2], e3, e4⟩
          | push f0 q1 q2 q3 q4 => exact .inl ⟨x', f0 :: pre, f, hget, by rw [q1, e2]; rfl, e3, e4⟩
          | top f0 f1 rest0 q1 q2 q3 q4 q5 q6 q7 q8 =>
            rw [e2] at q1
            cases pre with
            | nil =>
              simp only [List.nil_append, List.cons.injEq] at q1
              exact .inl ⟨x', [], f1, hget, by rw [q2, ← q1.2]; rfl, by rw [q3, ← q1.1, e3], by rw [q5, ← q1.1, e4]⟩
            | cons a pre =>
              simp only [List.cons_append, List.cons.injEq] at q1
              exact .inl ⟨x', f1 :: pre, f, hget, by rw [q2, ← q1.2]; rfl, e3, e4⟩
          | pop f0 rest0 b q1 q2 q3 q4 =>
            rw [e2] at q1
            cases pre with
            | nil =>
              simp only [List.nil_append, List.cons.injEq] at q1
              exact .inr ⟨b, by rw [sh.log, q4, ← q1.1, e3]; simp⟩
            | cons a pre =>
              simp only [List.cons_append, List.cons.injEq] at q1
              exact .inl ⟨x', pre, f, hget, by rw [q2, ← q1.2], e3, e4⟩
        · exact .inl ⟨tha, pre, f, by rw [sh.threads, List.getElem?_set_ne htt]; exact e1, e2, e3, e4⟩
      · obtain ⟨evs, h4, -⟩ := (step_grow hst).grow
        exact .inr ⟨b, by rw [h4]; simp [hb]⟩
  obtain ⟨L, hi⟩ := reach_inv (hr.reach h1)
  have hfo := hi.em.fok t th2 ht2
  rw [hf] at hfo
  rcases key hr with ⟨th3, pre, f', e1, e2, e3, e4⟩ | ⟨b, hb⟩
  · rw [ht2] at e1; cases e1
    rw [hf] at e2
    cases pre with
    | nil =>
      simp only [List.nil_append, List.cons.injEq] at e2
      exact ⟨by rw [e2.1, e4], e2.2⟩
    | cons a pre =>
      -- two frames of the same emission
      exfalso
      simp only [List.cons_append, List.cons.injEq] at e2
      have h6 := hi.em.ids st.nem
      have h7 := le_sumBy (nid st.nem) ht2
      have h8 : 2 ≤ nid st.nem th2 := by
        unfold nid
        rw [hf, e2.2, sumBy_cons, sumBy_append, sumBy_cons, if_pos hid, if_pos e3]
        omega
      omega
  · exact absurd (by rw [hid]; exact hb) (hfo.1.notEnd b)

theorem removeSlot_active {h h' : Heap} {g g' : Sig} {i : Nat} {p n : Option Nat}
    (e : removeSlot h g i p = some (h', g', n)) : g'.active = g.active := by
  unfold removeSlot at e
  split at e
  · cases e
  · split at e
    · cases e
    · rename_i h1 g1 n1 hu
      split at e
      · cases e
      · cases e
        unfold unlink at hu
        cases hd : deref h i with
        | none => rw [hd] at hu; cases hu
        | some o =>
          rw [hd] at hu
          simp only [Option.bind_some] at hu
          split at hu
          · rename_i p0
            cases hd' : deref h p0 with
            | none => rw [hd'] at hu; cases hu
            | some po => rw [hd'] at hu; cases hu; rfl
          · cases hu; rfl

theorem cleanupLoop_active {fuel : Nat} : ∀ {h : Heap} {g : Sig} {i p : Option Nat} {r : Heap × Sig},
    cleanupLoop fuel h g i p = some r → r.2.active = g.active := by
  induction fuel with
  | zero =>
    intro h g i p r e
    cases i with
    | none => cases e; rfl
    | some i => cases e
  | succ fuel ih =>
    intro h g i p r e
    cases i with
    | none => cases e; rfl
    | some i =>
      simp only [cleanupLoop] at e
      split at e
      · cases e
      · split at e
        · exact ih e
        · split at e
          · cases e
          · rename_i hrm
            rw [ih e, removeSlot_active hrm]

theorem cleanup_active {fuel : Nat} {h : Heap} {g : Sig} {r : Heap × Sig} (e : cleanup fuel h g = some r) :
    r.2.active = g.active := by
  unfold cleanup at e
  split at e
  · cases e; rfl
  · split at e
    · cases e; rfl
    · cases hc : cleanupLoop fuel h g g.slots none with
      | none => rw [hc] at e; cases e
      | some r' =>
        rw [hc] at e; cases e
        have := cleanupLoop_active hc
        exact this

/-- An exception: two actions of the library later the emission is over with the exception, the
thread's emission state and stack are those before the emission (whatever happened in between),
and the signal counts one emission less. -/
theorem C27_unwinds {n : Nat} {st st1 st2 st3 : State} {t g : Nat} {th th2 : Thread} {f : Frame} {rest : List Frame}
    (h : Reach Pre n st) (ht : st.threads[t]? = some th) (hg : (st.sigs g).alive = true)
    (hs : step st t (.emit g) = .ok st1) (hr : Run Pre st1 st2)
    (ht2 : st2.threads[t]? = some th2) (hf : th2.frames = f :: rest) (hid : f.id = st.nem)
    (hth : step st2 t .throw = .ok st3) :
    ∃ st4 st5, step st3 t .cont = .ok st4 ∧ step st4 t .cont = .ok st5 ∧
      st5.log = .end_ st.nem true :: .throw st.nem :: st2.log ∧
      st5.threads = st2.threads.set t th ∧ (st5.sigs f.sig).active + 1 = (st2.sigs f.sig).active := by
  obtain ⟨hsv, hrest⟩ := saved_stays h ht hg hs hr ht2 hf hid
  have h2 : Reach Pre n st2 := hr.reach (h.step (op := .emit g) hg hs)
  have h3 : Reach Pre n st3 := h2.step (op := .throw) trivial hth
  obtain ⟨th', ht', hu, hth⟩ := step_user (by simp) hth
  rw [ht2] at ht'; cases ht'
  have hpn : th2.pend = .none := (user_of hu).1
  have hlt := (List.getElem?_eq_some_iff.1 ht2).1
  obtain ⟨thu, htu, huu, -⟩ := step_user (by simp) hs
  rw [ht] at htu; cases htu
  have hpn0 : th.pend = .none := (user_of huu).1
  simp only [stepUser, hf] at hth
  cases hth
  -- first action
  obtain ⟨st4, h4⟩ := C25_progress h3 (t := t) (List.getElem?_set_self hlt) (by simp [Thread.user, hpn, setFrame])
  have h4r : Reach Pre n st4 := h3.step (op := .cont) trivial h4
  have e4 := h4
  simp only [step, setThread, setFrame, List.getElem?_set_self hlt, hpn, stepFrame] at e4
  obtain ⟨h', -, e4⟩ := orUb_ok e4
  cases e4
  -- second action
  simp only [List.set_set] at h4 h4r
  obtain ⟨st5, h5⟩ := C25_progress h4r (t := t) (List.getElem?_set_self hlt) (by simp [Thread.user])
  have e5 := h5
  simp only [step, setThread, setFrame, List.getElem?_set_self hlt, stepFrame] at e5
  split at e5
  · cases e5
  · rename_i hact
    simp only [Bool.or_eq_true, decide_eq_true_eq, not_or] at hact
    obtain ⟨r, hr5, e5⟩ := orUb_ok e5
    cases e5
    refine ⟨_, _, by simpa only [List.set_set] using h4, h5, by simp [hid], ?_, ?_⟩
    · show (st2.threads.set t _).set t _ = _
      rw [List.set_set, hsv, hrest, ← hpn0]
    · have : r.2.active = (st2.sigs f.sig).active - 1 := by
        split at hr5
        · exact cleanup_active hr5
        · cases hr5; rfl
      show (if f.sig = f.sig then r.2 else _).active + 1 = _
      rw [if_pos rfl, this]
      have := hact.2
      omega

/-- The reference of the emission to the throwing slot is never given back: the slot exists
although nobody refers to it. -/
theorem C27_leak : ∃ st, Reach Pre 1 st ∧ (st.heap 0).alive = true ∧ (st.heap 0).refs = 1 ∧
    (st.sigs 0).alive = false ∧ st.conns = [⟨none, false⟩] ∧ st.blks = [] ∧ st.threads = [⟨⟨false, none⟩, [], .none⟩] := by
  obtain ⟨st, h1, h2⟩ := exec_reach (n := 1)
    (l := [(0, .newSig), (0, .connect 0 .back), (0, .emit 0), (0, .cont), (0, .cont), (0, .throw), (0, .cont), (0, .cont),
      (0, .disconnect 0), (0, .cont), (0, .cont), (0, .delSig 0)])
    (q := fun st => (st.heap 0).alive && decide ((st.heap 0).refs = 1) && decide ((st.sigs 0).alive = false) &&
      decide (st.conns = [⟨none, false⟩]) && decide (st.blks = []) &&
      decide (st.threads = [⟨⟨false, none⟩, [], .none⟩]))
    (by decide +kernel)
  simp only [Bool.and_eq_true, decide_eq_true_eq] at h2
  obtain ⟨⟨⟨⟨⟨a1, a2⟩, a3⟩, a4⟩, a5⟩, a6⟩ := h2
  exact ⟨st, h1, a1, a2, a3, a4, a5, a6⟩

/-- The outer slot throws after a nested emission; its second slot is not called. -/
example : ∃ st, Reach Pre 1 st ∧ (decide (Ev.end_ 0 true ∈ st.log) && decide (calls st.log 0 = [0]) &&
    decide (Ev.end_ 1 false ∈ st.log) && decide (st.threads = [⟨⟨false, none⟩, [], .none⟩]) &&
    decide ((st.sigs 0).active = 0)) = true :=
  exec_reach (l := progNest) (by decide +kernel)

/-! ### C28 moving and swapping -/

theorem rest_of_idle {st : State} {L : Nat → List Nat} (hi : Inv st L) {g : Nat} (ha : (st.sigs g).active = 0) :
    ∀ th ∈ st.threads, ∀ f ∈ th.frames, f.sig ≠ g := by
  intro th hth f hf hg
  rw [hi.em.active] at ha
  have h1 : 0 < sumBy (nfr g) st.threads := by
    rw [sumBy_pos_iff]
    refine ⟨th, hth, ?_⟩
    unfold nfr
    rw [sumBy_pos_iff]
    exact ⟨f, hf, by simp [hg]⟩
  omega

theorem idle_of_rest {st : State} {L : Nat → List Nat} (hi : Inv st L) {g : Nat} :
    (st.sigs g).active = 0 ↔ ∀ th ∈ st.threads, ∀ f ∈ th.frames, f.sig ≠ g := by
  refine ⟨rest_of_idle hi, fun h => ?_⟩
  rw [hi.em.active]
  apply Classical.byContradiction
  intro hne
  obtain ⟨i, th, h1, h2⟩ := sumBy_pos _ (Nat.pos_of_ne_zero hne)
  obtain ⟨j, f, h3, h4⟩ := sumBy_pos _ h2
  have := h th (List.mem_of_getElem? h1) f (List.mem_of_getElem? h3)
  simp [this] at h4

theorem slots_swap {l : List Ev} {a b : Nat} (hab : a ≠ b) (x : Nat) :
    connectedSlots (.swap a b :: l) x = connectedSlots l (if x = a then b else if x = b then a else x) := by
  have hc : ∀ s, conn (.swap a b :: l) s = some x ↔ conn l s = some (if x = a then b else if x = b then a else x) := by
    intro s
    simp only [conn]
    cases conn l s with
    | none => simp
    | some y =>
      simp only [Option.map_some, Option.some.injEq]
      by_cases h1 : y = a <;> by_cases h2 : y = b <;> by_cases h3 : x = a <;> by_cases h4 : x = b <;> simp_all <;> omega
  unfold connectedSlots
  have ho : order (.swap a b :: l) x = order l (if x = a then b else if x = b then a else x) := by
    simp only [order]
    repeat (first | rfl | split)
  rw [ho]
  apply List.filter_congr
  intro s _
  simp only [hc]

/-- Swapping two signals exchanges their lists (and does nothing else to lists), so that
each slot is from then on called by the other signal, in the same order. -/
theorem C28_swap {n : Nat} {st st' : State} {t g g' : Nat} (h : Reach Careful n st) (hp : Careful st (.swap g g'))
    (hne : g ≠ g') (hs : step st t (.swap g g') = .ok st') :
    Chain st.heap (st.sigs g).slots (connectedSlots st.log g) ∧
    Chain st.heap (st.sigs g').slots (connectedSlots st.log g') ∧
    Chain st'.heap (st'.sigs g).slots (connectedSlots st.log g') ∧
    Chain st'.heap (st'.sigs g').slots (connectedSlots st.log g) ∧
    (∀ x, x ≠ g → x ≠ g' → connectedSlots st'.log x = connectedSlots st.log x) := by
  obtain ⟨L, hi⟩ := reach_inv h.pre
  have h' : Reach Careful n st' := h.step hp hs
  obtain ⟨th, ht, hu, hs'⟩ := step_user (by simp) hs
  obtain ⟨th0, th0', evs, sh⟩ := step_shape hs
  simp only [stepUser, if_neg hne] at hs'
  split at hs'
  · cases hs'
  · split at hs'
    · cases hs'
    · rename_i hact
      simp only [Bool.or_eq_true, decide_eq_true_eq, not_or, ne_eq, Decidable.not_not] at hact
      obtain ⟨r, -, hs'⟩ := orUb_ok hs'
      obtain ⟨r', -, hs'⟩ := orUb_ok hs'
      have hlog : st'.log = .swap g g' :: st.log := by cases hs'; rfl
      have hthr : st'.threads = st.threads := by cases hs'; rfl
      have hr1 : AtRest st g := ⟨rest_of_idle hi hact.1, fun x hx s hps => (hp.2 x hx s g hps).1 rfl⟩
      have hr2 : AtRest st g' := ⟨rest_of_idle hi hact.2, fun x hx s hps => (hp.2 x hx s g' hps).2 rfl⟩
      have hr1' : AtRest st' g := by unfold AtRest; rw [hthr]; exact hr1
      have hr2' : AtRest st' g' := by unfold AtRest; rw [hthr]; exact hr2
      have c1 := (C26_rest_partial h' hr1').1
      have c2 := (C26_rest_partial h' hr2').1
      rw [hlog, slots_swap hne, if_pos rfl] at c1
      rw [hlog, slots_swap hne, if_neg (fun e => hne e.symm), if_pos rfl] at c2
      refine ⟨(C26_rest_partial h hr1).1, (C26_rest_partial h hr2).1, c1, c2, fun x hx hx' => ?_⟩
      rw [hlog, slots_swap hne, if_neg hx, if_neg hx']

theorem slots_move {l : List Ev} {g m : Nat} (hgm : g ≠ m) (hf : ∀ s, conn l s ≠ some m) (x : Nat) :
    connectedSlots (.move g m :: l) x = if x = m then connectedSlots l g else if x = g then [] else connectedSlots l x := by
  have hc : ∀ s, conn (.move g m :: l) s = (conn l s).map fun y => if y = g then m else y := fun s => rfl
  unfold connectedSlots
  simp only [hc, order]
  by_cases h1 : x = m
  · simp only [h1, if_true]
    apply List.filter_congr
    intro s _
    cases hcs : conn l s with
    | none => simp
    | some y =>
      have : y ≠ m := by rintro rfl; exact hf s hcs
      by_cases h3 : y = g <;> simp [h3, this]
  · by_cases h2 : x = g
    · simp [h1, h2, hgm]
    · simp only [if_neg h1, if_neg h2]
      apply List.filter_congr
      intro s _
      cases hcs : conn l s with
      | none => simp
      | some y =>
        by_cases h3 : y = g
        · simp only [h3, Option.map_some, if_true, Option.some.injEq]
          have : m ≠ x := fun e => h1 e.symm
          have : g ≠ x := fun e => h2 e.symm
          simp [*]
        · simp [h3]

/-- A signal constructed by moving another one receives its list; the moved-from signal is
empty and remains usable. -/
theorem C28_move {n : Nat} {st st' : State} {t g : Nat} (h : Reach Careful n st) (hp : Careful st (.moveSig g))
    (hs : step st t (.moveSig g) = .ok st') :
    Chain st.heap (st.sigs g).slots (connectedSlots st.log g) ∧
    Chain st'.heap (st'.sigs st.nsigs).slots (connectedSlots st.log g) ∧
    (st'.sigs st.nsigs).alive = true ∧ (st'.sigs g).alive = true ∧ numSlots st' g = some 0 ∧
    (∀ x, x ≠ g → x ≠ st.nsigs → connectedSlots st'.log x = connectedSlots st.log x) := by
  obtain ⟨L, hi, hc⟩ := reach_calm h
  have h' : Reach Careful n st' := h.step hp hs
  have hga : (st.sigs g).alive = true := hp.1
  have hgn : g < st.nsigs := by
    apply Classical.byContradiction
    intro hc
    rw [hi.list.sigFresh g (by omega)] at hga; cases hga
  have hfresh : ∀ s, conn st.log s ≠ some st.nsigs := fun s hcs => by
    have := hi.list.senderL s _ (hi.log.conn s _ hcs)
    rw [hi.list.dead _ (hi.list.sigFresh _ (Nat.le_refl _))] at this; cases this
  obtain ⟨th, ht, hu, hs'⟩ := step_user (by simp) hs
  simp only [stepUser] at hs'
  split at hs'
  · cases hs'
  · split at hs'
    · cases hs'
    · rename_i hact
      simp only [ne_eq, Decidable.not_not] at hact
      obtain ⟨r, hr, hs'⟩ := orUb_ok hs'
      have hlog : st'.log = .move g st.nsigs :: st.log := by cases hs'; rfl
      have hthr : st'.threads = st.threads := by cases hs'; rfl
      have hsig : (st'.sigs g).alive = true := by
        cases hs'
        show (if g = st.nsigs then _ else if g = g then _ else _ : Sig).alive = true
        rw [if_neg (by omega), if_pos rfl]; exact hga
      obtain ⟨L', hi', -⟩ := reach_calm h'
      have hsn : (st'.sigs st.nsigs).alive = true := by
        cases hs'
        show (if st.nsigs = st.nsigs then r.2 else _ : Sig).alive = true
        rw [if_pos rfl]
        obtain ⟨h1, e1, -⟩ := rebindAll_ok hi hi.ref.alive (fun _ => rfl) (fun _ => rfl)
          (x := ⟨(st.sigs g).slots, (st.sigs g).tail, 0, (st.sigs g).deferred, true⟩)
          (g := g) (n := st.nsigs) (hi.list.slots g) (by
            cases hd : (st.sigs g).deferred with
            | false => rfl
            | true => exact absurd hact (hi.em.deferred g hd))
        rw [e1] at hr; cases hr; rfl
      have hr1 : AtRest st g := ⟨rest_of_idle hi hact, fun x hx s hps => hp.2 x hx s g hps rfl⟩
      have hr2' : AtRest st' st.nsigs := by
        unfold AtRest; rw [hthr]
        refine ⟨rest_of_idle hi (hi.active_fresh (hi.list.sigFresh _ (Nat.le_refl _))), fun x hx s hps => ?_⟩
        obtain ⟨i, hx⟩ := List.mem_iff_getElem?.1 hx
        have := hi.em.palive i x hx s _ hps
        rw [hi.list.sigFresh _ (Nat.le_refl _)] at this; cases this
      have c2 := (C26_rest_partial h' hr2').1
      rw [hlog, slots_move (by omega) hfresh, if_pos rfl] at c2
      refine ⟨(C26_rest_partial h hr1).1, c2, hsn, hsig, ?_, fun x hx hx' => ?_⟩
      · rw [(C26_num_slots_partial h' hsig).1, hlog, slots_move (by omega) hfresh, if_neg (by omega), if_pos rfl]
        rfl
      · rw [hlog, slots_move (by omega) hfresh, if_neg hx', if_neg hx]

/-- Swapping (and likewise moving) terminates the program exactly if an emission of one of the
signals is in flight. -/
theorem C28_terminate {n : Nat} {st : State} {t g g' : Nat} {th : Thread} (h : Reach Pre n st)
    (ht : st.threads[t]? = some th) (hu : th.user = true) (hne : g ≠ g') (hp : Pre st (.swap g g')) :
    step st t (.swap g g') = .terminate ↔ ∃ th ∈ st.threads, ∃ f ∈ th.frames, f.sig = g ∨ f.sig = g' := by
  obtain ⟨L, hi⟩ := reach_inv h
  have hub := C25_safe h t hp
  have key : step st t (.swap g g') = .terminate ↔ ((st.sigs g).active ≠ 0 ∨ (st.sigs g').active ≠ 0) := by
    have hg := hp.1
    have hg' := hp.2
    simp only [step, ht, hu, if_true, stepUser, hg, hg', Bool.not_true, Bool.or_self, Bool.false_eq_true, if_false, if_neg hne]
    constructor
    · intro hstep
      split at hstep
      · rename_i hc; simpa using hc
      · exfalso
        unfold orUb at hstep
        split at hstep
        · cases hstep
        · dsimp only at hstep
          split at hstep <;> cases hstep
    · intro hc
      rw [if_pos (by simpa using hc)]
  rw [key]
  have e1 := idle_of_rest hi (g := g)
  have e2 := idle_of_rest hi (g := g')
  constructor
  · rintro (h1 | h1)
    · apply Classical.byContradiction
      intro hno
      exact h1 (e1.2 fun x hx f hf hs => hno ⟨x, hx, f, hf, .inl hs⟩)
    · apply Classical.byContradiction
      intro hno
      exact h1 (e2.2 fun x hx f hf hs => hno ⟨x, hx, f, hf, .inr hs⟩)
  · rintro ⟨x, hx, f, hf, hs | hs⟩
    · exact .inl fun e => e1.1 e x hx f hf hs
    · exact .inr fun e => e2.1 e x hx f hf hs

/-- Two signals with two slots and one, swapped; then one slot is disconnected through its
handle and leaves the signal that received it, the other is called by that signal. -/
example : ∃ st, Reach Careful 1 st ∧ (decide (connectedSlots st.log 0 = [2]) && decide (connectedSlots st.log 1 = [1]) &&
    decide (calls st.log 0 = [1]) && decide (numSlots st 1 = some 1)) = true :=
  exec_careful (l := [(0, .newSig), (0, .newSig), (0, .connect 0 .back), (0, .connect 0 .back), (0, .connect 1 .back), (0, .swap 0 1),
    (0, .disconnect 0), (0, .cont), (0, .cont), (0, .emit 1), (0, .cont), (0, .cont)]) (by decide +kernel)

example : ∃ st, Reach Careful 1 st ∧ (decide (connectedSlots st.log 1 = [1, 0]) && decide (connectedSlots st.log 0 = []) &&
    decide (numSlots st 0 = some 0) && decide ((st.sigs 1).slots = some 1)) = true :=
  exec_careful (l := [(0, .newSig), (0, .connect 0 .back), (0, .connect 0 .front), (0, .moveSig 0)]) (by decide +kernel)

/-! ### C29 connection handles -/

/-- `connected()` tells whether the history connected the slot and did not disconnect it since
(by whichever handle, by `disconnect_all_slots` or by the destruction of the signal). -/
theorem C29_connected {n : Nat} {st : State} (h : Reach Careful n st) {c : Nat} {x : Handle} (hx : st.conns[c]? = some x) :
    connected st c = some (x.slot.any fun s => (conn st.log s).isSome) := by
  obtain ⟨L, hi, hc⟩ := reach_calm h
  unfold connected
  rw [hx]
  cases hxs : x.slot with
  | none => simp [hxs]
  | some s =>
    simp only [hxs, deref_eq hi.ref.alive (hi.conn_pos hx hxs), Option.map_some, Option.any_some]
    cases hsn : (st.heap s).sender with
    | some g => simp [hc.conn s g hsn]
    | none =>
      cases hcn : conn st.log s with
      | none => rfl
      | some g =>
        have := hi.log.conn s g hcn
        have this : (st.heap s).sender = some g := this
        rw [hsn] at this; cases this

/-- After `disconnect()` the handle is empty, neither it nor any other handle of the slot is
connected, and disconnecting again does nothing. -/
theorem C29_disconnect {n : Nat} {st st1 : State} {t c : Nat} {x : Handle} (h : Reach Careful n st)
    (hx : st.conns[c]? = some x) (hs : step st t (.disconnect c) = .ok st1) :
    st1.conns = st.conns.set c ⟨none, x.isScoped⟩ ∧ connected st1 c = some false ∧
    (∀ c' y, st1.conns[c']? = some y → y.slot ≠ none → y.slot = x.slot → connected st1 c' = some false) ∧
    (∀ s, x.slot ≠ some s → conn st1.log s = conn st.log s) ∧
    ∀ t' th, st1.threads[t']? = some th → th.user = true → step st1 t' (.disconnect c) = .ok st1 := by
  have h1 : Reach Careful n st1 := h.step (op := .disconnect c) ⟨trivial, trivial⟩ hs
  obtain ⟨L, hi⟩ := reach_inv h.pre
  have hlt := (List.getElem?_eq_some_iff.1 hx).1
  obtain ⟨th, ht, hu, hs'⟩ := step_user (by simp) hs
  simp only [stepUser, hx] at hs'
  -- the handle afterwards
  have key : st1.conns = st.conns.set c ⟨none, x.isScoped⟩ ∧ (∀ s, x.slot = some s → conn st1.log s = none) ∧
      ∀ s, x.slot ≠ some s → conn st1.log s = conn st.log s := by
    split at hs'
    · rename_i hxs
      cases hs'
      refine ⟨?_, by simp [hxs], fun _ _ => rfl⟩
      have : (⟨none, x.isScoped⟩ : Handle) = x := by cases x; simp_all
      rw [this, set_self hx]
    · rename_i s hxs
      obtain ⟨e1, e2, e3, e4⟩ := startDisconnect_conn hi hs'
      refine ⟨e3, fun s' hs2 => ?_, fun s' hs2 => ?_⟩
      · rw [hxs] at hs2; cases hs2; exact e1
      · rcases e4 with ⟨e4, -⟩ | e4
        · rw [e4]
        · rw [e4]
          have : s' ≠ s := fun e => hs2 (by rw [hxs, e])
          simp [conn, this]
  obtain ⟨k1, k2, k3⟩ := key
  have hc1 : st1.conns[c]? = some ⟨none, x.isScoped⟩ := by rw [k1]; exact List.getElem?_set_self hlt
  refine ⟨k1, by rw [C29_connected h1 hc1]; rfl, fun c' y hy hyn hys => ?_, k3, fun t' th' ht' hu' => ?_⟩
  · rw [C29_connected h1 hy]
    cases hys' : y.slot with
    | none => rfl
    | some s => rw [Option.any_some, k2 s (by rw [← hys, hys'])]; rfl
  · have : step st1 t' (.disconnect c) = stepUser st1 t' th' (.disconnect c) := by
      simp [step, ht', hu']
    rw [this]
    simp [stepUser, hc1]

/-- Destroying a scoped connection disconnects its slot, once; destroying a plain connection
changes no connection.  Both leave other handles alone. -/
theorem C29_drop {n : Nat} {st st1 : State} {t c : Nat} {x : Handle} (h : Reach Careful n st)
    (hx : st.conns[c]? = some x) (hs : step st t (.drop c) = .ok st1) :
    st1.conns = st.conns.set c ⟨none, x.isScoped⟩ ∧
    (∀ s, conn st1.log s = if x.isScoped = true ∧ x.slot = some s then none else conn st.log s) ∧
    (x.isScoped = false → st1.log = st.log) ∧ (x.slot = none → st1 = st) := by
  obtain ⟨L, hi⟩ := reach_inv h.pre
  obtain ⟨th, ht, hu, hs'⟩ := step_user (by simp) hs
  simp only [stepUser, hx] at hs'
  split at hs'
  · rename_i hxs
    cases hs'
    refine ⟨?_, by simp [hxs], fun _ => rfl, fun _ => rfl⟩
    have : (⟨none, x.isScoped⟩ : Handle) = x := by cases x; simp_all
    rw [this, set_self hx]
  · rename_i s hxs
    split at hs'
    · rename_i hsc
      obtain ⟨e1, e2, e3, e4⟩ := startDisconnect_conn hi hs'
      refine ⟨e3, fun s' => ?_, by simp [hsc], by simp [hxs]⟩
      by_cases hss : s' = s
      · rw [if_pos ⟨hsc, by rw [hxs, hss]⟩, hss, e1]
      · rw [if_neg (by rw [hxs]; simp; intro _ e; exact hss e.symm)]
        rcases e4 with ⟨e4, -⟩ | e4
        · rw [e4]
        · rw [e4]; simp [conn, hss]
    · rename_i hsc
      cases hs'
      exact ⟨rfl, fun s' => by rw [if_neg (by simp [hsc])]; rfl, fun _ => rfl, by simp [hxs]⟩

/-- Releasing, or moving from, a scoped connection disarms it: it is empty afterwards, so that
destroying it does nothing; the slot lives on in the new handle and nothing was disconnected. -/
theorem C29_release {st st1 : State} {t c : Nat} {x : Handle} {op : Op} (hop : op = .toPlain c ∨ op = .move c)
    (hx : st.conns[c]? = some x) (hs : step st t op = .ok st1) :
    st1.log = st.log ∧ st1.heap = st.heap ∧ st1.conns[c]? = some ⟨none, x.isScoped⟩ ∧
    st1.conns[st.conns.length]? = some ⟨x.slot, x.isScoped && decide (op = .move c)⟩ ∧ step st1 t (.drop c) = .ok st1 := by
  have hlt := (List.getElem?_eq_some_iff.1 hx).1
  obtain ⟨th, ht, hu, hs'⟩ := step_user (by rcases hop with rfl | rfl <;> simp) hs
  have fin : st1.log = st.log → st1.heap = st.heap → st1.threads = st.threads → ∀ y : Handle,
      st1.conns = st.conns.set c ⟨none, x.isScoped⟩ ++ [y] →
      st1.log = st.log ∧ st1.heap = st.heap ∧ st1.conns[c]? = some ⟨none, x.isScoped⟩ ∧
        st1.conns[st.conns.length]? = some y ∧ step st1 t (.drop c) = .ok st1 := by
    intro a1 a2 a3 y a4
    have a5 : st1.conns[c]? = some ⟨none, x.isScoped⟩ := by
      rw [a4, List.getElem?_append_left (by simpa using hlt)]
      exact List.getElem?_set_self hlt
    refine ⟨a1, a2, a5, ?_, ?_⟩
    · rw [a4, List.getElem?_append_right (by simp)]; simp
    · rw [← a3] at ht
      have : step st1 t (.drop c) = stepUser st1 t th (.drop c) := by simp [step, ht, hu]
      rw [this]
      simp [stepUser, a5]
  rcases hop with rfl | rfl
  · simp only [stepUser, hx] at hs'
    split at hs'
    · rename_i hsc
      cases hs'
      have := fin rfl rfl rfl ⟨x.slot, false⟩ (by rw [hsc])
      simpa using this
    · cases hs'
  · simp only [stepUser, hx] at hs'
    cases hs'
    have := fin rfl rfl rfl x rfl
    simpa using this

/-- A signal's destruction disconnects its slots, and so does `disconnect_all_slots`; no slot of
another signal is touched. -/
theorem C29_signal_gone {n : Nat} {st st1 : State} {t g : Nat} {op : Op} (h : Reach Careful n st)
    (hop : op = .delSig g ∨ op = .discAll g) (hp : Careful st op) (hs : step st t op = .ok st1) (s : Nat) :
    conn st1.log s = if conn st.log s = some g then none else conn st.log s := by
  obtain ⟨L, hi, hc⟩ := reach_calm h
  have key : st1.log = (L g).reverse.map Ev.disc ++ st.log := by
    obtain ⟨h', x, e⟩ := discAll_log hi g
    obtain ⟨th, ht, hu, hs'⟩ := step_user (by rcases hop with rfl | rfl <;> simp) hs
    rcases hop with rfl | rfl <;> simp only [stepUser] at hs' <;> (split at hs'; · cases hs')
    all_goals
      rw [e] at hs'
      simp only [orUb] at hs'
      cases hs'
      rfl
  rw [key, conn_discs]
  by_cases hm : s ∈ L g
  · rw [if_pos (by simpa using hm)]
    split
    · rfl
    · rename_i hne
      rcases hi.list.lsender s g hm with h1 | h1
      · exact absurd (hc.conn s g h1) hne
      · cases hcn : conn st.log s with
        | none => rfl
        | some g' =>
          have := hi.log.conn s g' hcn
          have h1 : (st.heap s).sender = none := h1
          have this : (st.heap s).sender = some g' := this
          rw [h1] at this; cases this
  · rw [if_neg (by simpa using hm), if_neg]
    intro hcn
    exact hm (hi.list.senderL s g (hi.log.conn s g hcn))

/-- Connecting gives a connected handle of a new slot; connecting an empty function gives an
empty handle and no slot. -/
theorem C29_connect {n : Nat} {st st1 : State} {t g : Nat} {pos : Pos} {op : Op} (h : Reach Careful n st)
    (hop : op = .connect g pos ∨ op = .emptyConn) (hp : Careful st op) (hs : step st t op = .ok st1) :
    st1.conns.length = st.conns.length + 1 ∧ connected st1 st.conns.length = some (decide (op = .connect g pos)) ∧
    (op = .emptyConn → st1.log = st.log ∧ st1.nslots = st.nslots) := by
  have h1 : Reach Careful n st1 := h.step hp hs
  obtain ⟨th, ht, hu, hs'⟩ := step_user (by rcases hop with rfl | rfl <;> simp) hs
  rcases hop with rfl | rfl
  · simp only [stepUser] at hs'
    split at hs'
    · cases hs'
    · obtain ⟨r, -, hs'⟩ := orUb_ok hs'
      obtain ⟨r', -, hs'⟩ := orUb_ok hs'
      have e1 : st1.conns = st.conns ++ [⟨some st.nslots, false⟩] := by cases hs'; rfl
      have e2 : st1.log = .connect st.nslots g pos :: st.log := by cases hs'; rfl
      refine ⟨by rw [e1]; simp, ?_, by simp⟩
      rw [C29_connected h1 (c := st.conns.length) (x := ⟨some st.nslots, false⟩) (by rw [e1]; simp), e2]
      simp [conn]
  · simp only [stepUser] at hs'
    have e1 : st1.conns = st.conns ++ [⟨none, false⟩] := by cases hs'; rfl
    refine ⟨by rw [e1]; simp, ?_, fun _ => ?_⟩
    · rw [C29_connected h1 (c := st.conns.length) (x := ⟨none, false⟩) (by rw [e1]; simp)]
      simp
    · cases hs'; exact ⟨rfl, rfl⟩

/-- A signal destroyed: no handle of its slot is connected. -/
example : ∃ st, Reach Careful 1 st ∧ decide ((List.range 2).map (connected st) = [some false, some false]) = true :=
  exec_careful (l := [(0, .newSig), (0, .connect 0 .back), (0, .copy 0), (0, .delSig 0)]) (by decide +kernel)

/-- A scoped connection dropped, one released and dropped, copies of both. -/
example : ∃ st, Reach Careful 1 st ∧ (decide ((List.range 9).map (connected st) =
    [some false, some false, some true, some false, some true, some false, some false, some false, some true]) &&
    decide (connectedSlots st.log 0 = [1]) && decide (connectedSlots st.log 1 = [2])) = true :=
  exec_careful (l := [(0, .newSig), (0, .newSig), (0, .connect 0 .back), (0, .connect 0 .back), (0, .connect 1 .back), (0, .emptyConn),
    (0, .copy 2), (0, .toScoped 0), (0, .drop 5), (0, .cont), (0, .cont), (0, .toScoped 1), (0, .copy 0), (0, .toPlain 6), (0, .drop 6)])
    (by decide +kernel)

end Verif.Signal
