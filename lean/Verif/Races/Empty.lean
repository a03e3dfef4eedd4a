import Verif.Races.Destroy

/-! `disconnect_all_slots` without emissions leaves an empty list. -/

namespace Verif.Races

variable {st : State} {t : Nat}

/-- In the loop of `disconnect_all_slots`: the signal, and the slot that comes next. -/
def Code.all : Code → Option (Nat × Option Nat)
  | .allLoop g i => some (g, i)
  | .allRel g _ i => some (g, i)
  | .allDel g _ i => some (g, i)
  | _ => none

/-- What is left of the list begins with that slot. -/
def AllOk (st : State) (t : Nat) : Prop :=
  ∀ g i, (st.threads t).code.all = some (g, i) → st.mem.active g = 0 → (st.mem.list g).head? = i

def AllOut (t : Nat) (o : Out) : Prop := ∀ st', o = .ok st' → AllOk st' t

theorem all_off : AllOut t .off := nofun
theorem all_ub : AllOut t .ub := nofun
theorem all_term : AllOut t .term := nofun

theorem all_go {m : Mem} {th : Thread}
    (h : ∀ g i, th.code.all = some (g, i) → m.active g = 0 → (m.list g).head? = i) : AllOut t (st.go t m th) := by
  intro st' hs
  cases hs
  intro g i hc ha
  simp only [upd_same] at hc
  exact h g i hc ha

theorem all_no {m : Mem} {th : Thread} (h : th.code.all = none) : AllOut t (st.go t m th) :=
  all_go fun _ _ hx => by rw [h] at hx; cases hx

theorem all_free {m : Mem} {g : Nat} {k : Out} (h : AllOut t k) : AllOut t (whenFree m g k) := by
  unfold whenFree
  split
  · exact h
  · exact all_off

theorem all_orUb {α : Type} {x : Option α} {k : α → Out} (h : ∀ a, x = some a → AllOut t (k a)) : AllOut t (orUb x k) := by
  cases x with
  | none => exact all_ub
  | some a => exact h a rfl

theorem all_ite {p : Prop} [Decidable p] {a b : Code} (ha : a.all = none) (hb : b.all = none) :
    (if p then a else b).all = none := by split <;> assumption
theorem all_then {r : Mem × Bool} {a b : Code} (ha : a.all = none) (hb : b.all = none) : (thenDel r a b).all = none :=
  all_ite ha hb
theorem all_cleaned (k : K) (o : Option Nat) : (k.cleaned o).all = none := by cases k <;> rfl

macro "alls" : tactic => `(tactic| repeat' (first
  | exact all_off
  | exact all_ub
  | exact all_term
  | exact all_no rfl
  | (refine all_no (all_ite ?_ ?_) <;> first | rfl | exact all_cleaned _ _)
  | (refine all_no (all_then ?_ ?_) <;> rfl)
  | exact all_no (all_cleaned _ _)
  | (refine all_free ?_)
  | (refine all_orUb fun _ _ => ?_)
  | split))

theorem head_succ {l : List Nat} {i : Nat} (h : l.head? = some i) : (l.erase i).head? = succ l i := by
  cases l with
  | nil => cases h
  | cons a l =>
    cases h
    simp only [List.erase_cons_head]
    cases l with
    | nil => rfl
    | cons b l => simp [succ]

theorem store_same {m m' : Mem} {i : Nat} {v : Option Nat} (h : m.store t i v = some m') :
    m'.list = m.list ∧ m'.active = m.active := by
  unfold Mem.store at h
  split at h
  · cases h; exact ⟨rfl, rfl⟩
  · cases h

theorem nextL_same {m : Mem} {g i : Nat} {r : Mem × Option Nat} (h : m.next t g i = some r) :
    r.1.list = m.list ∧ r.1.active = m.active ∧ r.2 = succ (m.list g) i := by
  unfold Mem.next at h
  split at h
  · cases h; exact ⟨rfl, rfl, rfl⟩
  · cases h

theorem remove_same {m m' : Mem} {g i : Nat} (h : m.remove t g i = some m') :
    m'.list g = (m.list g).erase i ∧ m'.active = m.active := by
  unfold Mem.remove at h
  split at h
  · cases h; exact ⟨upd_same .., rfl⟩
  · cases h

theorem sub_same {m : Mem} {r : Mem × Bool} {i : Nat} (h : m.sub t i = some r) :
    r.1.list = m.list ∧ r.1.active = m.active := by
  unfold Mem.sub at h
  split at h
  · cases h; exact ⟨rfl, rfl⟩
  · cases h

theorem del_same {m m' : Mem} {i : Nat} (h : m.del t i = some m') : m'.list = m.list ∧ m'.active = m.active := by
  unfold Mem.del at h
  split at h
  · cases h; exact ⟨rfl, rfl⟩
  · cases h

theorem stepCode_all {th : Thread} {b : Bool}
    (h : ∀ g i, th.code.all = some (g, i) → st.mem.active g = 0 → (st.mem.list g).head? = i) :
    AllOut t (stepCode st t th b) := by
  obtain ⟨c, calls, handles, knows, lost⟩ := th
  cases c with
  | allLock g =>
    refine all_free (all_go ?_)
    intro g' i hc _
    cases hc
    rfl
  | allLoop g iter =>
    simp only [stepCode]
    split
    · exact all_no rfl
    · rename_i i
      refine all_orUb fun m1 h1 => all_orUb fun r h2 => ?_
      obtain ⟨h3, h4⟩ := store_same h1
      obtain ⟨h5, h6, h7⟩ := nextL_same h2
      split
      · rename_i hz
        refine all_orUb fun m2 h8 => all_go ?_
        obtain ⟨h9, h10⟩ := remove_same h8
        intro g' i' hc ha
        cases hc
        rw [h9, h5, h7, h3]
        rw [h4] at hz
        exact head_succ (h g (some i) rfl hz)
      · rename_i hz
        refine all_go ?_
        intro g' i' hc ha
        cases hc
        have ha : r.1.active g = 0 := ha
        rw [h6] at ha
        exact absurd ha hz
  | allRel g s next =>
    simp only [stepCode]
    refine all_orUb fun r h1 => all_go ?_
    obtain ⟨h2, h3⟩ := sub_same h1
    intro g' i' hc ha
    have hx : (g', i') = (g, next) := by
      unfold thenDel at hc
      split at hc <;> cases hc <;> rfl
    cases hx
    rw [h2]
    rw [h3] at ha
    exact h g next rfl ha
  | allDel g s next =>
    simp only [stepCode]
    refine all_orUb fun m1 h1 => all_go ?_
    obtain ⟨h2, h3⟩ := del_same h1
    intro g' i' hc ha
    cases hc
    rw [h2]
    rw [h3] at ha
    exact h g next rfl ha
  | _ =>
    simp only [stepCode]
    alls

theorem stepUser_all {op : Op} {th : Thread} (hc : th.code = .idle) (ht : (st.threads t).code = .idle) :
    AllOut t (stepUser st t th op) := by
  have hx : th.code.all = none := by rw [hc]; rfl
  have hy : ∀ (h : Nat → Thread), (h t).code.all = none → ∀ m x y, AllOut t (.ok ⟨m, h, x, y⟩) := by
    intro h hn m x y st' hs
    cases hs
    intro g i hg
    rw [hn] at hg
    cases hg
  cases op with
  | disconnect i =>
    simp only [stepUser]
    split
    · exact all_off
    · refine all_orUb fun r _ => all_no ?_
      split <;> rfl
  | _ =>
    simp only [stepUser]
    repeat' (first
      | exact all_off
      | exact all_ub
      | exact all_no rfl
      | exact all_no hx
      | exact hy _ (by simp only [upd_same]; exact hx) _ _ _
      | exact hy _ (by rw [ht]; rfl) _ _ _
      | (refine all_orUb fun _ _ => ?_)
      | split)

theorem step_all {op : Op} {st' : State} (hk : StateOk st) (h : ∀ u, AllOk st u) (hs : step st t op = .ok st') (u : Nat) :
    AllOk st' u := by
  by_cases hu : u = t
  · subst hu
    have : AllOut u (step st u op) := by
      unfold step
      dsimp only
      split
      · exact stepCode_all (h u)
      · split
        · exact stepUser_all ‹_› ‹_›
        · exact all_off
    exact this st' hs
  · have h1 := step_ok (t := t) (op := op) hk
    rw [hs] at h1
    obtain ⟨h2, h3⟩ := h1
    intro g i hc ha
    rw [step_only st' hs u hu] at hc
    have hl : st.mem.held g = some u := by
      refine ((hk.threads u).held g).2 ?_
      revert hc
      cases (st.threads u).code <;> intro hc <;> cases hc <;> exact List.mem_singleton.2 rfl
    obtain ⟨h4, h5, _⟩ := h3.list g u hu hl
    rw [h4]
    refine h u g i hc ?_
    rw [hk.mem.active, ← h5, ← h2.mem.active]
    exact ha

theorem reach_all (h : Reach st) : ∀ u, AllOk st u := by
  induction h with
  | init => intro u g i hc; cases hc
  | @step st st' t op hr hs ih => exact step_all (reach_ok hr) ih hs

/-- When the loop of `disconnect_all_slots` ends and no emission of the signal is active, its list is empty: `~signal`
leaves no slots behind. -/
theorem C124_empty {g : Nat} (h : Reach st) (hc : (st.threads t).code = .allLoop g none)
    (ha : st.mem.active g = 0) : st.mem.list g = [] := by
  have := reach_all h t g none (by rw [hc]; rfl) ha
  cases hl : st.mem.list g with
  | nil => rfl
  | cons a l => rw [hl] at this; cases this

/-- Three slots; the loop takes seven steps. -/
example : ∃ st st', run .init ([(0, .newSig), (0, .connect 0 .back)] ++ go 0 3 ++ [(0, .connect 0 .front)] ++ go 0 3 ++
      [(0, .connect 0 .back)] ++ go 0 3 ++ [(0, .discAll 0)] ++ go 0 1) = .ok st ∧ st.mem.list 0 = [1, 0, 2] ∧
    run st (go 0 6) = .ok st' ∧ (st'.threads 0).code = .allLoop 0 none ∧ st'.mem.active 0 = 0 ∧ st'.mem.list 0 = [] :=
  ⟨_, _, rfl, rfl, rfl, rfl, rfl, rfl⟩

/-- With an emission the list is cleaned up at its end instead. -/
example : ∃ st, run .init ([(0, .newSig), (0, .connect 0 .back)] ++ go 0 3 ++ [(0, .emit 0)] ++ go 0 5 ++ [(0, .cont true)] ++
      go 0 1 ++ [(0, .discAll 0)] ++ go 0 2) = .ok st ∧ (st.threads 0).code = .allLoop 0 none ∧
    st.mem.active 0 = 1 ∧ st.mem.list 0 = [0] ∧ st.mem.deferred 0 = true :=
  ⟨_, rfl, rfl, rfl, rfl, rfl⟩

end Verif.Races
