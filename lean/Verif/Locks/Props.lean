import Verif.Locks.Lemmas
/-
C147: `swap` of signals takes two mutexes. How `std::scoped_lock` does that cannot be told from taking both at once, and nobody waits for ever.
-/
namespace Verif.Locks

/-- A state that threads with these commands get to. -/
def Reached (p : Nat → List Cmd) (s : Fine) : Prop := ∃ l, FineRun (Fine.start p) l s

/-- The commands of threads that call signals. -/
def programs (calls : Nat → List Call) : Nat → List Cmd := fun t => program (calls t)

/-- C147: whatever threads do with mutexes, the commands done, in their order, are possible with both mutexes taken at once, and the
other way round. -/
theorem C147_same (p : Nat → List Cmd) (l : List (Nat × Cmd)) :
    (∃ s, FineRun (Fine.start p) l s) ↔ ∃ c, CoarseRun (Coarse.start p) l c := by
  constructor
  · rintro ⟨s, h⟩
    exact ⟨s.abs, run_abs (ok_start p) h⟩
  · rintro ⟨c, h⟩
    exact ⟨_, coarse_fine h⟩

/-- C147: trying does not add deadlocks: where some command could be done with both mutexes taken at once, the threads get to do one. -/
theorem C147_no_new_deadlock {p : Nat → List Cmd} {s : Fine} (h : Reached p s) {e : Nat × Cmd} {c : Coarse} (hc : CoarseStep s.abs e c) :
    ∃ s' e', FineRun s [e'] s' := by
  obtain ⟨l, h⟩ := h
  exact progress (run_ok (ok_start p) h) hc

theorem reached_shaped {calls : Nat → List Call} {s : Fine} (h : Reached (programs calls) s) : s.Ok ∧ s.abs.Shaped := by
  obtain ⟨l, h⟩ := h
  exact ⟨run_ok (ok_start _) h, shaped_run (shaped_start calls) (run_abs (ok_start _) h)⟩

/-- C147: threads that call signals, whatever and as often as they like, never all wait: as long as one has something to do, some command
gets done. -/
theorem C147_progress {calls : Nat → List Call} {s : Fine} (h : Reached (programs calls) s) {t : Nat} (ht : s.todo t ≠ []) :
    ∃ s' e, FineRun s [e] s' := by
  obtain ⟨h1, h2⟩ := reached_shaped h
  obtain ⟨e, c, hc⟩ := shaped_progress h2 (t := t) ht
  exact progress h1 hc

/-- C147: from every state they get to, finitely many threads can finish. -/
theorem C147_finish {calls : Nat → List Call} {n : Nat} (hn : ∀ t, n ≤ t → calls t = []) {s : Fine} (h : Reached (programs calls) s) :
    ∃ s' l, FineRun s l s' ∧ ∀ t, s'.todo t = [] := by
  obtain ⟨h1, h2⟩ := reached_shaped h
  have hlast : ∀ t, n ≤ t → s.abs.todo t = [] := by
    obtain ⟨l, h⟩ := h
    have hr := run_abs (ok_start _) h
    have : ∀ t, n ≤ t → (Coarse.start (programs calls)).todo t = [] := fun t ht => by simp [Coarse.start, programs, hn t ht, program]
    revert this
    rw [show Coarse.start (programs calls) = (Fine.start (programs calls)).abs from rfl]
    generalize (Fine.start (programs calls)).abs = c0 at hr ⊢
    generalize s.abs = c1 at hr ⊢
    clear h h1 h2
    induction hr with
    | nil => exact id
    | cons hs _ ih => exact fun h0 => ih (left_step hs h0).2
  generalize hk : left s.abs.todo n = k
  clear h
  induction k using Nat.strongRecOn generalizing s with
  | _ k ih =>
    by_cases hd : ∀ t, s.todo t = []
    · exact ⟨s, [], .nil, hd⟩
    · obtain ⟨t, ht⟩ := Classical.not_forall.1 hd
      obtain ⟨e, c, hc⟩ := shaped_progress h2 (t := t) ht
      obtain ⟨s1, e1, hr⟩ := progress h1 hc
      have hrun := run_abs h1 hr
      have hstep : CoarseStep s.abs e1 s1.abs := by
        cases hrun with
        | cons hs hr' =>
          rename_i c'
          generalize s1.abs = c1 at hr' ⊢
          cases hr'; exact hs
      obtain ⟨g1, g2⟩ := left_step hstep hlast
      obtain ⟨s2, l2, r2, d2⟩ := ih _ (by omega) (run_ok h1 hr) (shaped_step h2 hstep) g2 rfl
      exact ⟨s2, _, hr.append r2, d2⟩

/-- C147: no thread tries a mutex that it owns (which would be undefined): inside `std::scoped_lock` it owns at most the one it has just
taken, and before `lock` none. -/
theorem C147_not_twice {calls : Nat → List Call} {s : Fine} (h : Reached (programs calls) s) {t : Nat} :
    (∀ m r, s.todo t = .lock m :: r → ∀ j, s.own j ≠ some t) ∧
    ∀ a b r, s.todo t = .both a b :: r → a ≠ b ∧ ∀ j, s.own j = some t → ∃ f, s.half t = some (j, f) := by
  obtain ⟨h1, h2⟩ := reached_shaped h
  have hseen : (∀ m, s.seen m ≠ some t) → ∀ j, s.own j = some t → ∃ f, s.half t = some (j, f) := by
    intro hn j hj
    cases hq : s.half t with
    | none => exact absurd (seen_own hj (by simp [hq])) (hn j)
    | some q =>
      obtain ⟨x, f⟩ := q
      by_cases e : x = j
      · subst e; exact ⟨f, rfl⟩
      · exact absurd (seen_own hj (by simp [hq, e])) (hn j)
  constructor
  · intro m r ht j hj
    have := shape_cases (h2 t)
    rw [show s.abs.todo t = _ from ht] at this
    rcases this with ⟨g, -⟩ | ⟨_, _, -, g⟩ | ⟨_, _, _, _, g, -⟩ | ⟨_, _, g, -⟩ | ⟨_, _, _, _, g, -⟩ <;> try cases g
    obtain ⟨f, hf⟩ := hseen g j hj
    obtain ⟨-, a, b, r', e, -⟩ := h1 t j f hf
    rw [ht] at e; cases e
  · intro a b r ht
    have := shape_cases (h2 t)
    rw [show s.abs.todo t = _ from ht] at this
    rcases this with ⟨g, -⟩ | ⟨_, _, g, -⟩ | ⟨_, _, _, hne, g, g2⟩ | ⟨_, _, g, -⟩ | ⟨_, _, _, _, g, -⟩ <;> cases g
    exact ⟨hne, hseen g2⟩

namespace Sample
/-- Thread 0 swaps signals 0 and 1, thread 1 swaps 1 and 0. -/
def swaps : Nat → List Call
  | 0 => [.swap 0 1]
  | 1 => [.swap 1 0]
  | _ => []

/-- The same with `lock_guard`s one after the other. -/
def inOrder : Nat → List Cmd
  | 0 => [.lock 0, .lock 1, .unlock 1, .unlock 0]
  | 1 => [.lock 1, .lock 0, .unlock 0, .unlock 1]
  | _ => []

/-- Each thread has one mutex. -/
def each : Fine := ⟨programs swaps, upd (upd (fun _ => none) 0 (some 0)) 1 (some 1), upd (upd (fun _ => none) 0 (some (0, false))) 1 (some (1, false))⟩
end Sample

/-- Each thread has one mutex: the beginning of what would be a deadlock. -/
theorem sample_each : FineRun (Fine.start (programs Sample.swaps)) [] Sample.each :=
  (FineStep.silent (.take (t := 0) (a := 0) (b := 1) (x := 0) rfl rfl (.inl rfl) rfl)).append
    (FineStep.silent (.take (t := 1) (a := 1) (b := 0) (x := 1) rfl rfl (.inl rfl) rfl))

example : Reached (programs Sample.swaps) Sample.each ∧ Sample.each.todo 0 ≠ [] ∧ ∀ t, 2 ≤ t → Sample.swaps t = [] := by
  refine ⟨⟨_, sample_each⟩, by simp [Sample.each, programs, Sample.swaps, program, sections, swapSections, Section.cmds], fun t ht => ?_⟩
  match t, ht with
  | t + 2, _ => rfl

theorem inOrder_stuck : ∃ s, Reached Sample.inOrder s ∧ (s.todo 0 ≠ [] ∧ s.todo 1 ≠ []) ∧ ∀ e s', ¬ FineStep s e s' := by
  refine ⟨_, ⟨_, (FineStep.done (.lock (s := Fine.start Sample.inOrder) (t := 0) (m := 0) rfl rfl)).append
    (FineStep.done (.lock (t := 1) (m := 1) (r := [.lock 0, .unlock 0, .unlock 1]) rfl rfl))⟩, by simp [upd], ?_⟩
  intro e s' hs
  have hcase : ∀ t, (upd (upd Sample.inOrder 0 [.lock 1, .unlock 1, .unlock 0]) 1 [.lock 0, .unlock 0, .unlock 1]) t =
      if t = 1 then [.lock 0, .unlock 0, .unlock 1] else if t = 0 then [.lock 1, .unlock 1, .unlock 0] else [] := by
    intro t
    match t with
    | 0 => rfl
    | 1 => rfl
    | t + 2 => rfl
  cases hs with
  | @lock t m r h hm =>
    have h' := (hcase t).symm.trans h
    split at h'
    · cases h'; cases hm
    · split at h'
      · cases h'; cases hm
      · cases h'
  | @unlock t m r h hm =>
    have h' := (hcase t).symm.trans h
    split at h'
    · cases h'
    · split at h' <;> cases h'
  | @take t a b x r h =>
    have h' := (hcase t).symm.trans h
    split at h'
    · cases h'
    · split at h' <;> cases h'
  | @got t a b x r h hh => cases hh
  | @miss t a b x r h hh => cases hh
  | @back t x hh => cases hh

/-- C147: with one `lock_guard` after the other instead, `swap(a, b)` and `swap(b, a)` can wait for each other for ever. -/
theorem C147_needed : ∃ s, Reached Sample.inOrder s ∧ (s.todo 0 ≠ [] ∧ s.todo 1 ≠ []) ∧ ∀ e s', ¬ FineStep s e s' := inOrder_stuck

/-- Steps that get nothing done. -/
inductive Idle : Nat → Fine → Fine → Prop
  | nil {s : Fine} : Idle 0 s s
  | cons {s s' s'' : Fine} {n : Nat} (h : FineStep s none s') (hr : Idle n s' s'') : Idle (n + 1) s s''

theorem Idle.append {s s' s'' : Fine} {m n : Nat} (h : Idle m s s') (h' : Idle n s' s'') : Idle (m + n) s s'' := by
  induction h with
  | nil => rw [Nat.zero_add]; exact h'
  | @cons s s1 s2 k hs _ ih => rw [Nat.add_right_comm]; exact .cons hs (ih h')

/-- C147: no bound on trying: two threads that swap the same signals may take turns for ever, each having a mutex and missing the other. -/
theorem C147_livelock_violated (k : Nat) : Idle (6 * k) (Fine.start (programs Sample.swaps)) (Fine.start (programs Sample.swaps)) := by
  have round : Idle 6 (Fine.start (programs Sample.swaps)) (Fine.start (programs Sample.swaps)) := by
    have h := Idle.cons (.take (s := Fine.start (programs Sample.swaps)) (t := 0) (a := 0) (b := 1) (x := 0) rfl rfl (.inl rfl) rfl)
      (.cons (.take (t := 1) (a := 1) (b := 0) (x := 1) rfl rfl (.inl rfl) rfl)
      (.cons (.miss (t := 0) (a := 0) (b := 1) (x := 0) rfl rfl (by simp [upd, other]))
      (.cons (.miss (t := 1) (a := 1) (b := 0) (x := 1) rfl rfl (by simp [upd, other]))
      (.cons (.back (t := 0) (x := 0) rfl) (.cons (.back (t := 1) (x := 1) rfl) .nil)))))
    refine Eq.mp (congrArg (Idle 6 _) ?_) h
    simp only [Fine.start, Fine.mk.injEq, true_and]
    constructor
    · funext j; simp only [upd]; split
      · rfl
      · split
        · rfl
        · simp [*]
    · funext j; simp only [upd]; split
      · rfl
      · split
        · rfl
        · simp [*]
  induction k with
  | zero => exact .nil
  | succ k ih => rw [Nat.mul_succ]; exact ih.append round

/-- C147: without the check for the same signal (signal.hpp:702) a swap of a signal with itself would never be done. -/
theorem C147_self_check {p : Nat → List Cmd} {t a : Nat} {r : List Cmd} (hp : p t = .both a a :: r) {s : Fine} (h : Reached p s) :
    s.todo t = .both a a :: r := by
  obtain ⟨l, h⟩ := h
  have hr := run_abs (ok_start p) h
  have : ∀ {c c' : Coarse} {l : List (Nat × Cmd)}, CoarseRun c l c' → c.todo t = .both a a :: r → c'.todo t = .both a a :: r := by
    intro c c' l hr
    induction hr with
    | nil => exact id
    | cons hs _ ih =>
      intro h0
      refine ih ?_
      cases hs with
      | @lock u m r' hu =>
        have : t ≠ u := by rintro rfl; rw [h0] at hu; cases hu
        simpa [upd, this] using h0
      | @unlock u m r' hu =>
        have : t ≠ u := by rintro rfl; rw [h0] at hu; cases hu
        simpa [upd, this] using h0
      | @both u x y r' hu hne =>
        have : t ≠ u := by rintro rfl; rw [h0] at hu; cases hu; exact hne rfl
        simpa [upd, this] using h0
  exact this hr hp

example : program [.swap 3 3, .moveAssign 2 2] = [] ∧ program [.swap 3 4] = [.both 3 4, .unlock 3, .unlock 4] := by
  constructor <;> rfl

end Verif.Locks
