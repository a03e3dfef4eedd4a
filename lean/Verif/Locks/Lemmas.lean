import Verif.Locks.Model
namespace Verif.Locks

@[simp] theorem upd_same {α : Type} (f : Nat → α) (i : Nat) (v : α) : upd f i v i = v := by simp [upd]
theorem upd_ne {α : Type} (f : Nat → α) {i j : Nat} (v : α) (h : j ≠ i) : upd f i v j = f j := by simp [upd, h]

/-- Mutexes that a thread inside `std::scoped_lock` may give back count as free. -/
def Fine.seen (s : Fine) (m : Nat) : Option Nat :=
  match s.own m with
  | none => none
  | some t => if (s.half t).map Prod.fst = some m then none else some t

/-- What the threads have done so far, both mutexes taken at once. -/
def Fine.abs (s : Fine) : Coarse := ⟨s.todo, s.seen⟩

/-- A thread with one mutex of two is inside `std::scoped_lock` of them. -/
def Fine.Ok (s : Fine) : Prop :=
  ∀ t x f, s.half t = some (x, f) → s.own x = some t ∧ ∃ a b r, s.todo t = .both a b :: r ∧ (x = a ∨ x = b)

theorem ok_start (p : Nat → List Cmd) : (Fine.start p).Ok := fun _ _ _ h => by cases h

theorem other_ne {a b x : Nat} (hx : x = a ∨ x = b) (h : other a b x = x) : a = b := by
  simp only [other] at h
  split at h <;> omega

theorem ok_step {s s' : Fine} {e : Option (Nat × Cmd)} (h : s.Ok) (hs : FineStep s e s') : s'.Ok := by
  intro u x f hu
  cases hs with
  | @lock t m r ht hm =>
    obtain ⟨h1, a, b, r', h2, h3⟩ := h u x f hu
    have hut : u ≠ t := by rintro rfl; rw [ht] at h2; cases h2
    have hxm : x ≠ m := by rintro rfl; rw [hm] at h1; cases h1
    exact ⟨by simpa [upd, hxm] using h1, a, b, r', by simpa [upd, hut] using h2, h3⟩
  | @unlock t m r ht hm =>
    obtain ⟨h1, a, b, r', h2, h3⟩ := h u x f hu
    have hut : u ≠ t := by rintro rfl; rw [ht] at h2; cases h2
    have hxm : x ≠ m := by rintro rfl; rw [hm] at h1; cases h1; exact hut rfl
    exact ⟨by simpa [upd, hxm] using h1, a, b, r', by simpa [upd, hut] using h2, h3⟩
  | @take t a b y r ht hh hy hm =>
    by_cases hut : u = t
    · subst hut
      simp only [upd_same, Option.some.injEq, Prod.mk.injEq] at hu
      obtain ⟨rfl, rfl⟩ := hu
      exact ⟨by simp, a, b, r, ht, hy⟩
    · simp only [upd_ne _ _ hut] at hu
      obtain ⟨h1, a', b', r', h2, h3⟩ := h u x f hu
      have hxm : x ≠ y := by rintro rfl; rw [hm] at h1; cases h1
      exact ⟨by simpa [upd, hxm] using h1, a', b', r', h2, h3⟩
  | @got t a b y r ht hh hm =>
    by_cases hut : u = t
    · subst hut; simp at hu
    · simp only [upd_ne _ _ hut] at hu
      obtain ⟨h1, a', b', r', h2, h3⟩ := h u x f hu
      have hxm : x ≠ other a b y := by rintro rfl; rw [hm] at h1; cases h1
      exact ⟨by simpa [upd, hxm] using h1, a', b', r', by simpa [upd, hut] using h2, h3⟩
  | @miss t a b y r ht hh hm =>
    by_cases hut : u = t
    · subst hut
      simp only [upd_same, Option.some.injEq, Prod.mk.injEq] at hu
      obtain ⟨rfl, rfl⟩ := hu
      exact h u y false hh
    · simp only [upd_ne _ _ hut] at hu
      exact h u x f hu
  | @back t y hh =>
    by_cases hut : u = t
    · subst hut; simp at hu
    · simp only [upd_ne _ _ hut] at hu
      obtain ⟨h1, h2⟩ := h u x f hu
      have hxy : x ≠ y := by
        rintro rfl
        rw [(h t x true hh).1] at h1
        cases h1; exact hut rfl
      exact ⟨by simpa [upd, hxy] using h1, h2⟩

theorem coarse_ext {c d : Coarse} (h1 : c.todo = d.todo) (h2 : ∀ m, c.own m = d.own m) : c = d := by
  cases c; cases d
  simp only [Coarse.mk.injEq]
  exact ⟨h1, funext h2⟩

theorem seen_none {s : Fine} {m : Nat} (h : s.own m = none) : s.seen m = none := by simp [Fine.seen, h]

theorem seen_own {s : Fine} {m t : Nat} (h : s.own m = some t) (hh : (s.half t).map Prod.fst ≠ some m) : s.seen m = some t := by
  simp [Fine.seen, h, hh]

/-- A step seen from outside: the command done at once, or nothing. -/
theorem step_abs {s s' : Fine} {e : Option (Nat × Cmd)} (h : s.Ok) (hs : FineStep s e s') :
    match e with
    | none => s'.abs = s.abs
    | some e => CoarseStep s.abs e s'.abs := by
  cases hs with
  | @lock t m r ht hm =>
    have hh : s.half t = none := by
      cases hq : s.half t with
      | none => rfl
      | some q => obtain ⟨-, a, b, r', h2, -⟩ := h t q.1 q.2 hq; rw [ht] at h2; cases h2
    have : Fine.abs ⟨upd s.todo t r, upd s.own m (some t), s.half⟩ = ⟨upd s.abs.todo t r, upd s.abs.own m (some t)⟩ := by
      refine coarse_ext rfl fun j => ?_
      by_cases hj : j = m
      · subst hj; simp [Fine.abs, Fine.seen, hh]
      · simp [Fine.abs, Fine.seen, upd_ne _ _ hj]
    simp only [this]
    exact .lock ht (seen_none hm)
  | @unlock t m r ht hm =>
    have hh : s.half t = none := by
      cases hq : s.half t with
      | none => rfl
      | some q => obtain ⟨-, a, b, r', h2, -⟩ := h t q.1 q.2 hq; rw [ht] at h2; cases h2
    have : Fine.abs ⟨upd s.todo t r, upd s.own m none, s.half⟩ = ⟨upd s.abs.todo t r, upd s.abs.own m none⟩ := by
      refine coarse_ext rfl fun j => ?_
      by_cases hj : j = m
      · subst hj; simp [Fine.abs, Fine.seen]
      · simp [Fine.abs, Fine.seen, upd_ne _ _ hj]
    simp only [this]
    exact .unlock ht (seen_own hm (by simp [hh]))
  | @take t a b y r ht hh hy hm =>
    refine coarse_ext rfl fun j => ?_
    by_cases hj : j = y
    · subst hj; simp [Fine.abs, Fine.seen, hm]
    · simp only [Fine.abs, Fine.seen, upd_ne _ _ hj]
      cases hq : s.own j with
      | none => rfl
      | some u =>
        by_cases hu : u = t
        · subst hu; simp [hh, Ne.symm hj]
        · simp [upd_ne _ _ hu]
  | @got t a b y r ht hh hm =>
    obtain ⟨h1, a', b', r', h2, h3⟩ := h t y false hh
    rw [ht] at h2; cases h2
    have hne : a ≠ b := by
      rintro rfl
      have : other a a y = y := by simp only [other]; split <;> omega
      rw [this, h1] at hm; cases hm
    have hyo : y ≠ other a b y := by intro e; rw [← e, h1] at hm; cases hm
    have key : ∀ j, (upd (upd s.seen a (some t)) b (some t)) j = if j = y ∨ j = other a b y then some t else s.seen j := by
      intro j
      have : (j = y ∨ j = other a b y) ↔ (j = a ∨ j = b) := by
        simp only [other]; split <;> omega
      simp only [this, upd]
      by_cases e1 : j = a <;> by_cases e2 : j = b <;> simp [e1, e2]
    have : Fine.abs ⟨upd s.todo t r, upd s.own (other a b y) (some t), upd s.half t none⟩ =
        ⟨upd s.abs.todo t r, upd (upd s.abs.own a (some t)) b (some t)⟩ := by
      refine coarse_ext rfl fun j => ?_
      simp only [Fine.abs, key]
      by_cases hj : j = other a b y
      · subst hj; simp [Fine.seen]
      · by_cases hj' : j = y
        · subst hj'; simp [Fine.seen, upd_ne _ _ hj, h1]
        · simp only [Fine.seen, upd_ne _ _ hj, hj, hj', or_self, if_false]
          cases hq : s.own j with
          | none => rfl
          | some u =>
            by_cases hu : u = t
            · subst hu; simp [hh, Ne.symm hj']
            · simp [upd_ne _ _ hu]
    simp only [this]
    have hy : s.seen y = none := by simp [Fine.seen, h1, hh]
    have ho := seen_none hm
    refine .both ht hne ?_ ?_
    · rcases h3 with rfl | rfl
      · exact hy
      · rwa [show other a y y = a by simp only [other]; split <;> simp_all] at ho
    · rcases h3 with rfl | rfl
      · rwa [show other y b y = b by simp [other]] at ho
      · exact hy
  | @miss t a b y r ht hh hm =>
    refine coarse_ext rfl fun j => ?_
    simp only [Fine.abs, Fine.seen]
    cases hq : s.own j with
    | none => rfl
    | some u =>
      by_cases hu : u = t
      · subst hu; simp [hh]
      · simp [upd_ne _ _ hu]
  | @back t y hh =>
    refine coarse_ext rfl fun j => ?_
    obtain ⟨h1, -⟩ := h t y true hh
    by_cases hj : j = y
    · subst hj; simp [Fine.abs, Fine.seen, h1, hh]
    · simp only [Fine.abs, Fine.seen, upd_ne _ _ hj]
      cases hq : s.own j with
      | none => rfl
      | some u =>
        by_cases hu : u = t
        · subst hu; simp [hh, Ne.symm hj]
        · simp [upd_ne _ _ hu]

theorem run_ok {s s' : Fine} {l : List (Nat × Cmd)} (h : s.Ok) (hr : FineRun s l s') : s'.Ok := by
  induction hr with
  | nil => exact h
  | cons hs _ ih => exact ih (ok_step h hs)

theorem run_abs {s s' : Fine} {l : List (Nat × Cmd)} (h : s.Ok) (hr : FineRun s l s') : CoarseRun s.abs l s'.abs := by
  induction hr with
  | nil => exact .nil
  | @cons s s1 s2 e l hs _ ih =>
    have h1 := step_abs h hs
    have h2 := ih (ok_step h hs)
    cases e with
    | none => simp only at h1; rw [h1] at h2; exact h2
    | some e => exact .cons h1 h2

theorem FineRun.append {s s' s'' : Fine} {l l' : List (Nat × Cmd)} (h : FineRun s l s') (h' : FineRun s' l' s'') :
    FineRun s (l ++ l') s'' := by
  induction h with
  | nil => exact h'
  | cons hs _ ih => rw [List.append_assoc]; exact .cons hs (ih h')

theorem CoarseRun.append {s s' s'' : Coarse} {l l' : List (Nat × Cmd)} (h : CoarseRun s l s') (h' : CoarseRun s' l' s'') :
    CoarseRun s (l ++ l') s'' := by
  induction h with
  | nil => exact h'
  | cons hs _ ih => exact .cons hs (ih h')

theorem FineStep.silent {s s' : Fine} (h : FineStep s none s') : FineRun s [] s' := .cons h .nil
theorem FineStep.done {s s' : Fine} {e : Nat × Cmd} (h : FineStep s (some e) s') : FineRun s [e] s' := .cons h .nil

/-- A mutex that counts as free becomes free, unless meanwhile somebody gets both mutexes. -/
theorem clear {s : Fine} (h : s.Ok) {m : Nat} (hm : s.seen m = none) :
    (∃ s' e, FineRun s [e] s') ∨ ∃ s', FineRun s [] s' ∧ s'.own m = none ∧ s'.todo = s.todo ∧
      (∀ j, s.own j = none → s'.own j = none) ∧ ∀ t, s.half t = none → s'.half t = none := by
  cases ho : s.own m with
  | none => exact .inr ⟨s, .nil, ho, rfl, fun _ h => h, fun _ h => h⟩
  | some u =>
    have hu : (s.half u).map Prod.fst = some m := by
      apply Classical.byContradiction
      intro hn
      rw [seen_own ho hn] at hm; cases hm
    obtain ⟨⟨x, f⟩, hx, rfl⟩ := Option.map_eq_some_iff.1 hu
    obtain ⟨h1, a, b, r, h2, h3⟩ := h u x f hx
    have fin : ∀ {s1 : Fine}, FineRun s [] s1 → s1.half u = some (x, true) → s1.own = s.own → s1.todo = s.todo →
        (∀ t, t ≠ u → s1.half t = s.half t) →
        ∃ s', FineRun s [] s' ∧ s'.own x = none ∧ s'.todo = s.todo ∧
          (∀ j, s.own j = none → s'.own j = none) ∧ ∀ t, s.half t = none → s'.half t = none := by
      intro s1 hr h4 h5 h6 h7
      refine ⟨_, hr.append (FineStep.silent (.back h4)), by simp, h6, fun j hj => ?_, fun t ht => ?_⟩
      · simp only [upd, h5]; split
        · rfl
        · exact hj
      · have htu : t ≠ u := by rintro rfl; rw [hx] at ht; cases ht
        simp only [upd_ne _ _ htu]
        rw [h7 t htu]; exact ht
    cases f with
    | true => exact .inr (fin .nil hx rfl rfl fun _ _ => rfl)
    | false =>
      by_cases hy : s.own (other a b x) = none
      · exact .inl ⟨_, _, (FineStep.got h2 hx hy).done⟩
      · exact .inr (fin (FineStep.silent (.miss h2 hx hy)) (by simp) rfl rfl fun t ht => upd_ne _ _ ht)

theorem silent_abs {s s' : Fine} (h : s.Ok) (hr : FineRun s [] s') : s'.abs = s.abs := by
  have := run_abs h hr
  generalize s.abs = c at this
  generalize s'.abs = c' at this
  cases this; rfl

/-- Where a command could be done with both mutexes at once, one will be. -/
theorem progress {s : Fine} (h : s.Ok) {e : Nat × Cmd} {c : Coarse} (hc : CoarseStep s.abs e c) : ∃ s' e', FineRun s [e'] s' := by
  generalize hg : s.abs = g at hc
  cases hc with
  | @lock t m r ht hm =>
    subst hg
    rcases clear h hm with h1 | ⟨s1, h1, h2, h3, -⟩
    · exact h1
    · exact ⟨_, _, h1.append (FineStep.done (.lock (t := t) (by rw [h3]; exact ht) h2))⟩
  | @unlock t m r ht hm =>
    subst hg
    have : s.own m = some t := by
      simp only [Fine.abs, Fine.seen] at hm
      split at hm
      · cases hm
      · split at hm
        · cases hm
        · cases hm; assumption
    exact ⟨_, _, FineStep.done (.unlock (t := t) ht this)⟩
  | @both t a b r ht hne ha hb =>
    subst hg
    have finish : ∀ {s1 : Fine}, FineRun s [] s1 → s1.half t = none → s1.todo = s.todo → ∃ s' e', FineRun s [e'] s' := by
      intro s1 hr hh htd
      have ok1 := run_ok h hr
      have e1 := silent_abs h hr
      rcases clear ok1 (m := a) (by have := congrArg (Coarse.own · a) e1; exact this.trans ha) with ⟨s', e, h1⟩ | ⟨s2, h1, h2, h3, -, h5⟩
      · exact ⟨s', e, hr.append h1⟩
      have ok2 := run_ok ok1 h1
      have e2 := (silent_abs ok1 h1).trans e1
      rcases clear ok2 (m := b) (by have := congrArg (Coarse.own · b) e2; exact this.trans hb) with ⟨s', e, g1⟩ | ⟨s3, g1, g2, g3, g4, g5⟩
      · exact ⟨s', e, (hr.append h1).append g1⟩
      have h3t : s3.todo t = .both a b :: r := by rw [g3, h3, htd]; exact ht
      have hab : other a b a = b := by simp [other]
      refine ⟨_, _, (((hr.append h1).append g1).append (FineStep.silent (.take (t := t) (x := a) h3t (g5 t (h5 t hh)) (.inl rfl) (g4 a h2)))).append
        (FineStep.done (.got (t := t) (a := a) (b := b) (x := a) (r := r) h3t (by simp) ?_))⟩
      rw [hab]
      simpa [upd, Ne.symm hne] using g2
    cases hh : s.half t with
    | none => exact finish .nil hh rfl
    | some q =>
      obtain ⟨x, f⟩ := q
      cases f with
      | true => exact finish (FineStep.silent (.back hh)) (by simp) rfl
      | false =>
        by_cases hy : s.own (other a b x) = none
        · exact ⟨_, _, (FineStep.got ht hh hy).done⟩
        · refine finish ((FineStep.silent (.miss ht hh hy)).append (FineStep.silent (.back (t := t) (x := x) ?_))) ?_ rfl <;> simp

/-- Every run with both mutexes at once is a run. -/
theorem coarse_fine {c c' : Coarse} {l : List (Nat × Cmd)} (hr : CoarseRun c l c') :
    FineRun ⟨c.todo, c.own, fun _ => none⟩ l ⟨c'.todo, c'.own, fun _ => none⟩ := by
  induction hr with
  | nil => exact .nil
  | @cons c c1 c2 e l hs _ ih =>
    cases hs with
    | @lock t m r ht hm => exact (FineStep.done (s := ⟨c.todo, c.own, fun _ => none⟩) (.lock (t := t) ht hm)).append ih
    | @unlock t m r ht hm => exact (FineStep.done (s := ⟨c.todo, c.own, fun _ => none⟩) (.unlock (t := t) ht hm)).append ih
    | @both t a b r ht hne ha hb =>
      have hab : other a b a = b := by simp [other]
      have h1 := FineStep.silent (.take (s := ⟨c.todo, c.own, fun _ => none⟩) (t := t) (x := a) ht rfl (.inl rfl) ha)
      have h2 := FineStep.done (.got (s := ⟨c.todo, upd c.own a (some t), upd (fun _ => none) t (some (a, false))⟩) (t := t) (a := a) (b := b)
        (x := a) (r := r) ht (by simp) (by rw [hab]; simpa [upd, Ne.symm hne] using hb))
      have h3 := h1.append h2
      rw [hab] at h3
      have e : upd (upd (fun _ => (none : Option (Nat × Bool))) t (some (a, false))) t none = fun _ => none := by
        funext j; simp only [upd]; split <;> rfl
      rw [e] at h3
      exact h3.append ih

/-! ### Signals -/

/-- The mutexes a thread of signals owns are those it unlocks next. -/
inductive Shape (own : Nat → Option Nat) (t : Nat) : List Cmd → Prop
  | idle (ss : List Section) (h : ∀ m, own m ≠ some t) : Shape own t (ss.flatMap Section.cmds)
  | one (m : Nat) (ss : List Section) (h : ∀ j, own j = some t ↔ j = m) : Shape own t (.unlock m :: ss.flatMap Section.cmds)
  | two (a b : Nat) (ss : List Section) (hne : a ≠ b) (h : ∀ j, own j = some t ↔ j = a ∨ j = b) :
    Shape own t (.unlock a :: .unlock b :: ss.flatMap Section.cmds)

/-- All threads are like that. -/
def Coarse.Shaped (c : Coarse) : Prop := ∀ t, Shape c.own t (c.todo t)

theorem shape_congr {own own' : Nat → Option Nat} {t : Nat} {l : List Cmd} (h : Shape own t l)
    (he : ∀ j, own' j = some t ↔ own j = some t) : Shape own' t l := by
  cases h with
  | idle ss h => exact .idle ss fun m hm => h m ((he m).1 hm)
  | one m ss h => exact .one m ss fun j => (he j).trans (h j)
  | two a b ss hne h => exact .two a b ss hne fun j => (he j).trans (h j)

/-- The first command of a shape. -/
theorem shape_cases {own : Nat → Option Nat} {t : Nat} {l : List Cmd} (h : Shape own t l) :
    (l = [] ∧ ∀ m, own m ≠ some t) ∨
    (∃ (m : Nat) (ss : List Section), l = .lock m :: .unlock m :: ss.flatMap Section.cmds ∧ ∀ m, own m ≠ some t) ∨
    (∃ (a b : Nat) (ss : List Section), a ≠ b ∧ l = .both a b :: .unlock a :: .unlock b :: ss.flatMap Section.cmds ∧ ∀ m, own m ≠ some t) ∨
    (∃ (m : Nat) (ss : List Section), l = .unlock m :: ss.flatMap Section.cmds ∧ ∀ j, own j = some t ↔ j = m) ∨
    (∃ (a b : Nat) (ss : List Section), a ≠ b ∧ l = .unlock a :: .unlock b :: ss.flatMap Section.cmds ∧ ∀ j, own j = some t ↔ j = a ∨ j = b) := by
  cases h with
  | idle ss h =>
    cases ss with
    | nil => exact .inl ⟨rfl, h⟩
    | cons x ss =>
      cases x with
      | one m => exact .inr (.inl ⟨m, ss, by simp [Section.cmds], h⟩)
      | two a b hne => exact .inr (.inr (.inl ⟨a, b, ss, hne, by simp [Section.cmds], h⟩))
  | one m ss h => exact .inr (.inr (.inr (.inl ⟨m, ss, rfl, h⟩)))
  | two a b ss hne h => exact .inr (.inr (.inr (.inr ⟨a, b, ss, hne, rfl, h⟩)))

theorem shaped_start (p : Nat → List Call) : (Coarse.start fun t => program (p t)).Shaped :=
  fun _ => .idle _ fun _ h => by cases h

theorem shaped_step {c c' : Coarse} {e : Nat × Cmd} (h : c.Shaped) (hs : CoarseStep c e c') : c'.Shaped := by
  intro u
  cases hs with
  | @lock t m r ht hm =>
    by_cases hu : u = t
    · subst hu
      simp only [upd_same]
      have := shape_cases (h u)
      rw [ht] at this
      rcases this with ⟨h1, -⟩ | ⟨m', ss, h1, h2⟩ | ⟨_, _, _, _, h1, -⟩ | ⟨_, _, h1, -⟩ | ⟨_, _, _, _, h1, -⟩ <;> cases h1
      refine .one m ss fun j => ?_
      simp only [upd]
      split
      · rename_i e; simp [e]
      · rename_i e; simp [e, h2 j]
    · simp only [upd_ne _ _ hu]
      refine shape_congr (h u) fun j => ?_
      simp only [upd]
      split
      · rename_i e; subst e; simp [hm, Ne.symm hu]
      · rfl
  | @both t a b r ht hne ha hb =>
    by_cases hu : u = t
    · subst hu
      simp only [upd_same]
      have := shape_cases (h u)
      rw [ht] at this
      rcases this with ⟨h1, -⟩ | ⟨m', ss, h1, h2⟩ | ⟨_, _, ss, _, h1, h2⟩ | ⟨_, _, h1, -⟩ | ⟨_, _, _, _, h1, -⟩ <;> cases h1
      refine .two a b ss hne fun j => ?_
      simp only [upd]
      split
      · rename_i e; simp [e]
      · split
        · rename_i e; simp [e]
        · rename_i e1 e2; simp [e1, e2, h2 j]
    · simp only [upd_ne _ _ hu]
      refine shape_congr (h u) fun j => ?_
      simp only [upd]
      split
      · rename_i e; subst e; simp [hb, Ne.symm hu]
      · split
        · rename_i e; subst e; simp [ha, Ne.symm hu]
        · rfl
  | @unlock t m r ht hm =>
    by_cases hu : u = t
    · subst hu
      simp only [upd_same]
      have := shape_cases (h u)
      rw [ht] at this
      rcases this with ⟨h1, -⟩ | ⟨m', ss, h1, h2⟩ | ⟨_, _, ss, _, h1, h2⟩ | ⟨_, ss, h1, h2⟩ | ⟨_, b, ss, hne, h1, h2⟩ <;> cases h1
      · refine .idle ss fun j => ?_
        simp only [upd]
        split
        · simp
        · rename_i e; exact fun e' => e ((h2 j).1 e')
      · refine .one b ss fun j => ?_
        simp only [upd]
        split
        · rename_i e; subst e; simp [hne]
        · rename_i e; rw [h2 j]; simp [e]
    · simp only [upd_ne _ _ hu]
      refine shape_congr (h u) fun j => ?_
      simp only [upd]
      split
      · rename_i e; subst e; simp [hm, Ne.symm hu]
      · rfl

theorem shaped_run {c c' : Coarse} {l : List (Nat × Cmd)} (h : c.Shaped) (hr : CoarseRun c l c') : c'.Shaped := by
  induction hr with
  | nil => exact h
  | cons hs _ ih => exact ih (shaped_step h hs)

/-- A thread that owns a mutex can unlock one. -/
theorem shaped_owner {c : Coarse} (h : c.Shaped) {m u : Nat} (hm : c.own m = some u) : ∃ e c', CoarseStep c e c' := by
  rcases shape_cases (h u) with ⟨-, h2⟩ | ⟨_, _, -, h2⟩ | ⟨_, _, _, _, -, h2⟩ | ⟨k, ss, h1, h2⟩ | ⟨a, b, ss, _, h1, h2⟩
  · exact absurd hm (h2 m)
  · exact absurd hm (h2 m)
  · exact absurd hm (h2 m)
  · exact ⟨_, _, .unlock h1 ((h2 k).2 rfl)⟩
  · exact ⟨_, _, .unlock h1 ((h2 a).2 (.inl rfl))⟩

/-- As long as a thread has something to do, some thread can do it. -/
theorem shaped_progress {c : Coarse} (h : c.Shaped) {t : Nat} (ht : c.todo t ≠ []) : ∃ e c', CoarseStep c e c' := by
  rcases shape_cases (h t) with ⟨h1, -⟩ | ⟨m, _, h1, -⟩ | ⟨a, b, _, hne, h1, -⟩ | ⟨k, ss, h1, h2⟩ | ⟨a, b, ss, _, h1, h2⟩
  · exact absurd h1 ht
  · cases hm : c.own m with
    | none => exact ⟨_, _, .lock h1 hm⟩
    | some u => exact shaped_owner h hm
  · cases ha : c.own a with
    | some u => exact shaped_owner h ha
    | none =>
      cases hb : c.own b with
      | some u => exact shaped_owner h hb
      | none => exact ⟨_, _, .both h1 hne ha hb⟩
  · exact ⟨_, _, .unlock h1 ((h2 k).2 rfl)⟩
  · exact ⟨_, _, .unlock h1 ((h2 a).2 (.inl rfl))⟩

/-- Commands left to the first `n` threads. -/
def left (todo : Nat → List Cmd) : Nat → Nat
  | 0 => 0
  | n + 1 => left todo n + (todo n).length

theorem left_upd {todo : Nat → List Cmd} {t : Nat} {x : Cmd} {r : List Cmd} (ht : todo t = x :: r) :
    ∀ n, left (upd todo t r) n = if t < n then left todo n - 1 else left todo n
  | 0 => by simp [left]
  | n + 1 => by
    have ih := left_upd ht n
    have hpos : t < n → 0 < left todo n := by
      clear ih
      induction n with
      | zero => intro h; omega
      | succ n ihn =>
        intro h
        simp only [left]
        by_cases e : t = n
        · subst e; rw [ht, List.length_cons]; omega
        · have := ihn (by omega); omega
    simp only [left, ih]
    by_cases e : n = t
    · subst e; simp [ht]
    · rw [upd_ne _ _ e]
      by_cases hlt : t < n
      · have := hpos hlt
        rw [if_pos hlt, if_pos (by omega)]; omega
      · rw [if_neg hlt, if_neg (by omega)]

theorem left_zero {todo : Nat → List Cmd} : ∀ {n : Nat}, left todo n = 0 → ∀ t, t < n → todo t = []
  | 0, _, t, ht => by omega
  | n + 1, h, t, ht => by
    simp only [left] at h
    by_cases e : t = n
    · subst e; exact List.length_eq_zero_iff.1 (by omega)
    · exact left_zero (n := n) (by omega) t (by omega)

theorem left_step {c c' : Coarse} {e : Nat × Cmd} (hs : CoarseStep c e c') {n : Nat} (hn : ∀ t, n ≤ t → c.todo t = []) :
    left c'.todo n + 1 = left c.todo n ∧ ∀ t, n ≤ t → c'.todo t = [] := by
  have key : ∀ {t : Nat} {x : Cmd} {r : List Cmd}, c.todo t = x :: r →
      left (upd c.todo t r) n + 1 = left c.todo n ∧ ∀ u, n ≤ u → (upd c.todo t r) u = [] := by
    intro t x r ht
    have hlt : t < n := by
      apply Classical.byContradiction
      intro h; rw [hn t (by omega)] at ht; cases ht
    refine ⟨?_, fun u hu => by rw [upd_ne _ _ (by omega)]; exact hn u hu⟩
    rw [left_upd ht, if_pos hlt]
    have : left c.todo n ≠ 0 := fun h => by rw [left_zero h t hlt] at ht; cases ht
    omega
  cases hs with
  | lock ht => exact key ht
  | both ht => exact key ht
  | unlock ht => exact key ht

end Verif.Locks
