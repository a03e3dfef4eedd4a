import Verif.Locks.Props
/-
C148: targets of slots are destroyed while the mutex of their signal is locked (signal.hpp:660-676, 618-622), and what they own may lock
other signals when destroyed, such as a `scoped_connection` (317). With several threads.
-/
namespace Verif.Locks

/-! ### Model -/

/-- What a thread does: a call, or a section of a signal in which targets are destroyed, with what their destructors do. (signal.hpp:620,
660-676, 410, 317) -/
inductive Act where
  | call (c : Call)
  | under (m : Nat) (inside : List Act)

mutual
/-- The commands. (signal.hpp:660-676) -/
def Act.cmds : Act → List Cmd
  | .call c => program [c]
  | .under m inside => .lock m :: (actCmds inside ++ [.unlock m])
/-- One after the other. (signal.hpp:664-670) -/
def actCmds : List Act → List Cmd
  | [] => []
  | a :: l => a.cmds ++ actCmds l
end

/-- The signals of a call. (signal.hpp:421-760) -/
def Call.signals : Call → List Nat
  | .connect s => [s]
  | .emitBegin s => [s]
  | .emitNext s => [s]
  | .emitEnd s => [s]
  | .disconnectAll s => [s]
  | .numSlots s => [s]
  | .disconnect s => [s]
  | .moveNew s f => [s, f]
  | .moveAssign s f => [s, f]
  | .swap l r => [l, r]

/-! ### Specification -/

mutual
/-- Only signals from this level on are used, and in destructors of targets only signals of higher levels than that of the signal. -/
def Act.From (level : Nat → Nat) (lo : Nat) : Act → Prop
  | .call c => ∀ s ∈ c.signals, lo ≤ level s
  | .under m inside => lo ≤ level m ∧ ActsFrom level (level m + 1) inside
/-- All of them. -/
def ActsFrom (level : Nat → Nat) (lo : Nat) : List Act → Prop
  | [] => True
  | a :: l => a.From level lo ∧ ActsFrom level lo l
end

/-! ### Proofs -/

/-- Mutexes are locked in the order of their levels; `o` are those owned. -/
def Ordered (rk : Nat → Nat) : List Nat → List Cmd → Prop
  | o, [] => o = []
  | o, .lock m :: r => (∀ x ∈ o, rk x < rk m) ∧ Ordered rk (m :: o) r
  | o, .both a b :: r => a ≠ b ∧ (∀ x ∈ o, rk x < rk a ∧ rk x < rk b) ∧ Ordered rk (a :: b :: o) r
  | o, .unlock m :: r => m ∈ o ∧ Ordered rk (o.erase m) r

theorem ordered_section {rk : Nat → Nat} {o : List Nat} {rest : List Cmd} (hr : Ordered rk o rest) (x : Section)
    (hx : match x with
      | .one m => ∀ y ∈ o, rk y < rk m
      | .two a b _ => ∀ y ∈ o, rk y < rk a ∧ rk y < rk b) : Ordered rk o (x.cmds ++ rest) := by
  cases x with
  | one m => exact ⟨hx, List.mem_cons_self .., by simpa using hr⟩
  | two a b hne =>
    refine ⟨hne, hx, List.mem_cons_self .., ?_⟩
    rw [List.erase_cons_head]
    exact ⟨List.mem_cons_self .., by rw [List.erase_cons_head]; exact hr⟩

theorem ordered_call {rk : Nat → Nat} {o : List Nat} {rest : List Cmd} (hr : Ordered rk o rest) (c : Call) {lo : Nat}
    (hc : ∀ s ∈ c.signals, lo ≤ rk s) (ho : ∀ x ∈ o, rk x < lo) : Ordered rk o (program [c] ++ rest) := by
  have one : ∀ {m : Nat} {rest : List Cmd}, Ordered rk o rest → lo ≤ rk m → Ordered rk o ((Section.one m).cmds ++ rest) :=
    fun h hm => ordered_section h _ fun y hy => Nat.lt_of_lt_of_le (ho y hy) hm
  have two : ∀ {a b : Nat}, lo ≤ rk a → lo ≤ rk b → Ordered rk o ((swapSections a b).flatMap Section.cmds ++ rest) := by
    intro a b ha hb
    simp only [swapSections]
    split
    · exact hr
    · rename_i hne
      simp only [List.flatMap_cons, List.flatMap_nil, List.append_nil]
      exact ordered_section hr (.two a b hne) fun y hy => ⟨Nat.lt_of_lt_of_le (ho y hy) ha, Nat.lt_of_lt_of_le (ho y hy) hb⟩
  simp only [program, List.flatMap_cons, List.flatMap_nil, List.append_nil]
  cases c with
  | moveNew s f =>
    simp only [sections, List.flatMap_cons, List.flatMap_nil, List.append_nil, List.append_assoc]
    exact one (one hr (hc s (by simp [Call.signals]))) (hc f (by simp [Call.signals]))
  | moveAssign s f =>
    simp only [sections]
    split
    · exact two (hc s (by simp [Call.signals])) (hc f (by simp [Call.signals]))
    · exact hr
  | swap l r => exact two (hc l (by simp [Call.signals])) (hc r (by simp [Call.signals]))
  | _ s =>
    simp only [sections, List.flatMap_cons, List.flatMap_nil, List.append_nil]
    exact one hr (hc s (by simp [Call.signals]))

mutual
theorem ordered_act {rk : Nat → Nat} : ∀ (a : Act) {lo : Nat} {o : List Nat} {rest : List Cmd}, a.From rk lo → (∀ x ∈ o, rk x < lo) →
    Ordered rk o rest → Ordered rk o (a.cmds ++ rest)
  | .call c, _, _, _, hf, ho, hr => by
    simp only [Act.From] at hf
    simp only [Act.cmds]
    exact ordered_call hr c hf ho
  | .under m inside, lo, o, rest, hf, ho, hr => by
    simp only [Act.From] at hf
    simp only [Act.cmds, List.cons_append, List.append_assoc, List.nil_append]
    refine ⟨fun x hx => Nat.lt_of_lt_of_le (ho x hx) hf.1, ordered_acts inside hf.2 ?_ ⟨List.mem_cons_self .., by simpa using hr⟩⟩
    intro x hx
    rcases List.mem_cons.1 hx with rfl | hx
    · exact Nat.lt_succ_self _
    · exact Nat.lt_succ_of_lt (Nat.lt_of_lt_of_le (ho x hx) hf.1)
theorem ordered_acts {rk : Nat → Nat} : ∀ (l : List Act) {lo : Nat} {o : List Nat} {rest : List Cmd}, ActsFrom rk lo l → (∀ x ∈ o, rk x < lo) →
    Ordered rk o rest → Ordered rk o (actCmds l ++ rest)
  | [], _, _, _, _, _, hr => by simpa [actCmds] using hr
  | a :: l, _, _, _, hf, ho, hr => by
    simp only [ActsFrom] at hf
    simp only [actCmds, List.append_assoc]
    exact ordered_act a hf.1 ho (ordered_acts l hf.2 ho hr)
end

/-- Every thread owns what it unlocks later and keeps the order. -/
def Coarse.Ranked (rk : Nat → Nat) (c : Coarse) : Prop :=
  ∀ t, ∃ o : List Nat, o.Nodup ∧ (∀ m, c.own m = some t ↔ m ∈ o) ∧ Ordered rk o (c.todo t)

theorem ranked_start {rk : Nat → Nat} {p : Nat → List Act} (h : ∀ t, ActsFrom rk 0 (p t)) :
    (Coarse.start fun t => actCmds (p t)).Ranked rk := by
  intro t
  refine ⟨[], .nil, by simp [Coarse.start], ?_⟩
  have := ordered_acts (p t) (o := []) (rest := []) (h t) (by simp) rfl
  simpa [Coarse.start] using this

theorem ranked_step {rk : Nat → Nat} {c c' : Coarse} {e : Nat × Cmd} (h : c.Ranked rk) (hs : CoarseStep c e c') : c'.Ranked rk := by
  intro u
  obtain ⟨o, h1, h2, h3⟩ := h u
  cases hs with
  | @lock t m r ht hm =>
    by_cases hu : u = t
    · subst hu
      rw [ht] at h3
      have hmo : m ∉ o := fun hx => Nat.lt_irrefl _ (h3.1 m hx)
      refine ⟨m :: o, List.nodup_cons.2 ⟨hmo, h1⟩, fun j => ?_, by simpa using h3.2⟩
      simp only [upd, List.mem_cons]
      split
      · rename_i e; simp [e]
      · rename_i e; simp [e, h2 j]
    · refine ⟨o, h1, fun j => ?_, by simpa [upd, hu] using h3⟩
      rw [← h2 j]
      simp only [upd]
      split
      · rename_i e; subst e; simp [hm, Ne.symm hu]
      · rfl
  | @both t a b r ht hne ha hb =>
    by_cases hu : u = t
    · subst hu
      rw [ht] at h3
      have hao : a ∉ o := fun hx => Nat.lt_irrefl _ (h3.2.1 a hx).1
      have hbo : b ∉ o := fun hx => Nat.lt_irrefl _ (h3.2.1 b hx).2
      refine ⟨a :: b :: o, List.nodup_cons.2 ⟨by simp [hne, hao], List.nodup_cons.2 ⟨hbo, h1⟩⟩, fun j => ?_, by simpa using h3.2.2⟩
      simp only [upd, List.mem_cons]
      split
      · rename_i e; simp [e]
      · split
        · rename_i e; simp [e]
        · rename_i e1 e2; simp [e1, e2, h2 j]
    · refine ⟨o, h1, fun j => ?_, by simpa [upd, hu] using h3⟩
      rw [← h2 j]
      simp only [upd]
      split
      · rename_i e; subst e; simp [hb, Ne.symm hu]
      · split
        · rename_i e; subst e; simp [ha, Ne.symm hu]
        · rfl
  | @unlock t m r ht hm =>
    by_cases hu : u = t
    · subst hu
      rw [ht] at h3
      refine ⟨o.erase m, h1.erase m, fun j => ?_, by simpa using h3.2⟩
      rw [h1.mem_erase_iff]
      simp only [upd]
      split
      · rename_i e; simp [e]
      · rename_i e; simp [e, h2 j]
    · refine ⟨o, h1, fun j => ?_, by simpa [upd, hu] using h3⟩
      rw [← h2 j]
      simp only [upd]
      split
      · rename_i e; subst e; simp [hm, Ne.symm hu]
      · rfl

theorem ranked_run {rk : Nat → Nat} {c c' : Coarse} {l : List (Nat × Cmd)} (h : c.Ranked rk) (hr : CoarseRun c l c') : c'.Ranked rk := by
  induction hr with
  | nil => exact h
  | cons hs _ ih => exact ih (ranked_step h hs)

/-- Owners of mutexes of high levels can go on, so those who wait for them can. -/
theorem ranked_owner {rk : Nat → Nat} {R : Nat} (hR : ∀ s, rk s ≤ R) {c : Coarse} (h : c.Ranked rk) :
    ∀ (k : Nat) {m u : Nat}, R - rk m = k → c.own m = some u → ∃ e c', CoarseStep c e c' := by
  intro k
  induction k using Nat.strongRecOn with
  | _ k ih =>
    intro m u hk hm
    obtain ⟨o, -, h2, h3⟩ := h u
    have hmo := (h2 m).1 hm
    have wait : ∀ {x : Nat}, rk m < rk x → (c.own x = none → ∃ e c', CoarseStep c e c') → ∃ e c', CoarseStep c e c' := by
      intro x hx hf
      cases hq : c.own x with
      | none => exact hf hq
      | some v =>
        have := hR x
        exact ih (R - rk x) (by omega) rfl hq
    cases ht : c.todo u with
    | nil => rw [ht] at h3; simp only [Ordered] at h3; subst h3; cases hmo
    | cons x r =>
      rw [ht] at h3
      cases x with
      | lock y => exact wait (h3.1 m hmo) fun hy => ⟨_, _, .lock ht hy⟩
      | unlock y => exact ⟨_, _, .unlock ht ((h2 y).2 h3.1)⟩
      | both a b =>
        have hab := h3.2.1 m hmo
        exact wait hab.1 fun ha => wait hab.2 fun hb => ⟨_, _, .both ht h3.1 ha hb⟩

theorem ranked_progress {rk : Nat → Nat} {R : Nat} (hR : ∀ s, rk s ≤ R) {c : Coarse} (h : c.Ranked rk) {t : Nat} (ht : c.todo t ≠ []) :
    ∃ e c', CoarseStep c e c' := by
  obtain ⟨o, -, h2, h3⟩ := h t
  have wait : ∀ {x : Nat}, (c.own x = none → ∃ e c', CoarseStep c e c') → ∃ e c', CoarseStep c e c' := by
    intro x hf
    cases hq : c.own x with
    | none => exact hf hq
    | some v => exact ranked_owner hR h _ rfl hq
  cases hx : c.todo t with
  | nil => exact absurd hx ht
  | cons x r =>
    rw [hx] at h3
    cases x with
    | lock y => exact wait fun hy => ⟨_, _, .lock hx hy⟩
    | unlock y => exact ⟨_, _, .unlock hx ((h2 y).2 h3.1)⟩
    | both a b => exact wait fun ha => wait fun hb => ⟨_, _, .both hx h3.1 ha hb⟩

/-- If something can always be done, everything can. -/
theorem finish_of {P : Coarse → Prop} (hstep : ∀ {c c' e}, P c → CoarseStep c e c' → P c')
    (hprog : ∀ {c : Coarse} {t : Nat}, P c → c.todo t ≠ [] → ∃ e c', CoarseStep c e c') {n : Nat} :
    ∀ (k : Nat) {s : Fine}, left s.abs.todo n = k → s.Ok → P s.abs → (∀ t, n ≤ t → s.abs.todo t = []) →
      ∃ s' l, FineRun s l s' ∧ ∀ t, s'.todo t = [] := by
  intro k
  induction k using Nat.strongRecOn with
  | _ k ih =>
    intro s hk h1 h2 hlast
    by_cases hd : ∀ t, s.todo t = []
    · exact ⟨s, [], .nil, hd⟩
    · obtain ⟨t, ht⟩ := Classical.not_forall.1 hd
      obtain ⟨e, c, hc⟩ := hprog (t := t) h2 ht
      obtain ⟨s1, e1, hr⟩ := progress h1 hc
      have hrun := run_abs h1 hr
      have hs : CoarseStep s.abs e1 s1.abs := by
        cases hrun with
        | cons hs hr' =>
          generalize s1.abs = c1 at hr' ⊢
          cases hr'; exact hs
      obtain ⟨g1, g2⟩ := left_step hs hlast
      obtain ⟨s2, l2, r2, d2⟩ := ih _ (by omega) rfl (run_ok h1 hr) (hstep h2 hs) g2
      exact ⟨s2, _, hr.append r2, d2⟩

theorem run_last {n : Nat} {c c' : Coarse} {l : List (Nat × Cmd)} (hr : CoarseRun c l c') (h : ∀ t, n ≤ t → c.todo t = []) :
    ∀ t, n ≤ t → c'.todo t = [] := by
  induction hr with
  | nil => exact h
  | cons hs _ ih => exact ih (left_step hs h).2

/-! ### C148 -/

/-- The commands of threads, with those of destructors of targets. -/
def nested (p : Nat → List Act) : Nat → List Cmd := fun t => actCmds (p t)

/-- C148: if signals have levels such that destructors of targets of a signal use signals of higher levels only, threads never wait for each
other for ever, however deep destructors nest: as long as one has something to do, something gets done. -/
theorem C148_levels {level : Nat → Nat} {R : Nat} (hR : ∀ s, level s ≤ R) {p : Nat → List Act} (hp : ∀ t, ActsFrom level 0 (p t)) {s : Fine}
    (h : Reached (nested p) s) {t : Nat} (ht : s.todo t ≠ []) : ∃ s' e, FineRun s [e] s' := by
  obtain ⟨l, h⟩ := h
  obtain ⟨e, c, hc⟩ := ranked_progress hR (ranked_run (ranked_start hp) (run_abs (ok_start _) h)) (t := t) ht
  exact progress (run_ok (ok_start _) h) hc

/-- C148: and finitely many threads can finish from every state. -/
theorem C148_finish {level : Nat → Nat} {R : Nat} (hR : ∀ s, level s ≤ R) {p : Nat → List Act} (hp : ∀ t, ActsFrom level 0 (p t)) {n : Nat}
    (hn : ∀ t, n ≤ t → p t = []) {s : Fine} (h : Reached (nested p) s) : ∃ s' l, FineRun s l s' ∧ ∀ t, s'.todo t = [] := by
  obtain ⟨l, h⟩ := h
  have hr := run_abs (ok_start _) h
  refine finish_of (P := Coarse.Ranked level) (n := n) ranked_step (fun h ht => ranked_progress hR h ht) _ rfl (run_ok (ok_start _) h)
    (ranked_run (ranked_start hp) hr) (run_last hr fun t ht => ?_)
  simp [Fine.abs, Fine.start, nested, hn t ht, actCmds]

/-- C148: with levels no thread locks, or tries, a mutex that it owns; inside `std::scoped_lock` it may have just taken one of the two. -/
theorem C148_not_twice {level : Nat → Nat} {p : Nat → List Act} (hp : ∀ t, ActsFrom level 0 (p t)) {s : Fine} (h : Reached (nested p) s)
    {t : Nat} : (∀ m r, s.todo t = .lock m :: r → s.own m ≠ some t) ∧
    ∀ a b r, s.todo t = .both a b :: r → a ≠ b ∧ ∀ j, j = a ∨ j = b → s.own j = some t → ∃ f, s.half t = some (j, f) := by
  obtain ⟨l, h⟩ := h
  obtain ⟨o, -, h2, h3⟩ := ranked_run (ranked_start hp) (run_abs (ok_start _) h) t
  have ok := run_ok (ok_start _) h
  constructor
  · intro m r ht hm
    rw [show s.abs.todo t = _ from ht] at h3
    have hh : s.half t = none := by
      cases hq : s.half t with
      | none => rfl
      | some q => obtain ⟨-, a, b, r', e, -⟩ := ok t q.1 q.2 hq; rw [ht] at e; cases e
    have : m ∈ o := (h2 m).1 (seen_own hm (by simp [hh]))
    exact Nat.lt_irrefl _ (h3.1 m this)
  · intro a b r ht
    rw [show s.abs.todo t = _ from ht] at h3
    refine ⟨h3.1, fun j hj hm => ?_⟩
    have hjo : j ∉ o := by
      intro hx
      have := h3.2.1 j hx
      rcases hj with rfl | rfl
      · exact Nat.lt_irrefl _ this.1
      · exact Nat.lt_irrefl _ this.2
    have hs : s.seen j ≠ some t := fun e => hjo ((h2 j).1 e)
    cases hq : s.half t with
    | none => exact absurd (seen_own hm (by simp [hq])) hs
    | some q =>
      obtain ⟨x, f⟩ := q
      by_cases e : x = j
      · subst e; exact ⟨f, rfl⟩
      · exact absurd (seen_own hm (by simp [hq, e])) hs

namespace Sample
/-- Targets of signal 0 own `scoped_connection`s of signals 1 and 2, those of signal 1 one of signal 2. Thread 0 disconnects all slots of
signal 0, thread 1 those of signal 1 and swaps 2 and 0. -/
def tree : Nat → List Act
  | 0 => [.under 0 [.call (.disconnect 1), .under 1 [.call (.disconnect 2)]]]
  | 1 => [.under 1 [.call (.disconnect 2)], .call (.swap 2 0)]
  | _ => []

/-- A target of signal 0 owns a `scoped_connection` of signal 1 and a target of signal 1 one of signal 0; each thread disconnects all
slots of one signal. -/
def cycle : Nat → List Act
  | 0 => [.under 0 [.call (.disconnect 1)]]
  | 1 => [.under 1 [.call (.disconnect 0)]]
  | _ => []
end Sample

example : (∀ s, min s 2 ≤ 2) ∧ (∀ t, ActsFrom (fun s => min s 2) 0 (Sample.tree t)) ∧ ∀ t, 2 ≤ t → Sample.tree t = [] := by
  refine ⟨fun s => Nat.min_le_right .., fun t => ?_, fun t ht => ?_⟩
  · match t with
    | 0 => simp [Sample.tree, ActsFrom, Act.From, Call.signals]
    | 1 => simp [Sample.tree, ActsFrom, Act.From, Call.signals]
    | t + 2 => simp [Sample.tree, ActsFrom]
  · match t, ht with
    | t + 2, _ => rfl

/-- C148: two signals whose targets own `scoped_connection`s of each other: two threads that disconnect all slots of one each can wait for
each other for ever. One thread alone could do both. -/
theorem C148_cycle_violated :
    (∃ s, Reached (nested Sample.cycle) s ∧ s.todo 0 ≠ [] ∧ s.todo 1 ≠ [] ∧ ∀ e s', ¬ FineStep s e s') ∧
    ∃ l s, FineRun (Fine.start (nested fun t => if t = 0 then Sample.cycle 0 ++ Sample.cycle 1 else [])) l s ∧ ∀ t, s.todo t = [] := by
  constructor
  · obtain ⟨s, ⟨l, h1⟩, h2, h3⟩ := inOrder_stuck
    refine ⟨s, ⟨l, ?_⟩, h2.1, h2.2, h3⟩
    have : nested Sample.cycle = Sample.inOrder := by
      funext t
      match t with
      | 0 => rfl
      | 1 => rfl
      | t + 2 => rfl
    rw [this]; exact h1
  · let p : Nat → List Act := fun t => if t = 0 then Sample.cycle 0 ++ Sample.cycle 1 else []
    have h := (FineStep.done (.lock (s := Fine.start (nested p)) (t := 0) (m := 0) rfl rfl)).append
      ((FineStep.done (.lock (t := 0) (m := 1) rfl rfl)).append ((FineStep.done (.unlock (t := 0) (m := 1) rfl rfl)).append
      ((FineStep.done (.unlock (t := 0) (m := 0) rfl rfl)).append
      ((FineStep.done (.lock (t := 0) (m := 1) rfl rfl)).append ((FineStep.done (.lock (t := 0) (m := 0) rfl rfl)).append
      ((FineStep.done (.unlock (t := 0) (m := 0) rfl rfl)).append (FineStep.done (.unlock (t := 0) (m := 1) (r := []) rfl rfl))))))))
    refine ⟨_, _, h, fun t => ?_⟩
    match t with
    | 0 => rfl
    | t + 1 => rfl

end Verif.Locks
