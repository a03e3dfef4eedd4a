import Verif.Races.Unused
import Verif.Races.Insert
import Verif.Races.Props

/-!
Property C124: destroying a signal while other threads run. The machine of `Model.lean` has no step for it; here
the action is put into the execution, after the last step of `disconnect_all_slots` in `~signal`.
-/

namespace Verif.Races

variable {st : State} {t g : Nat}

/-- signal.hpp:410, 814-818: after `disconnect_all_slots` the data members and the mutex are destroyed. -/
def destroyed (t g : Nat) : Ev := ⟨t, .none, [(.fld g, true), (.mtx g, true)]⟩

/-- signal.hpp:410 the thread does not use the signal any more once it has destroyed it. -/
def State.forget (st : State) (t g : Nat) : State :=
  { st with threads := upd st.threads t { st.threads t with knows := (st.threads t).knows.filter (· != g) } }

theorem forget_ok (h : StateOk st) : StateOk (st.forget t g) where
  mem := h.mem
  threads := by
    intro u
    by_cases hu : u = t
    · subst hu
      have := h.threads u
      simp only [State.forget, upd_same]
      exact { this with knows := fun x hx => this.knows x (List.mem_filter.1 hx).1 }
    · simp only [State.forget, upd_other _ _ hu]
      exact h.threads u
  boxH := h.boxH
  boxS := h.boxS

/-- At the end of a critical section the thread knows every access to the signal so far. -/
theorem unl_known {st1 : State} {b : Bool} (h : Reach st) (hc : (st.threads t).code = .unl g)
    (hs : step st t (.cont b) = .ok st1) :
    (∀ i w, Acc st1.mem.tr i (.fld g) w → Known st1.mem.tr t i) ∧
      ∀ i w, Acc st1.mem.tr i (.mtx g) w → Known st1.mem.tr t i := by
  have hk := reach_ok h
  have hh : st.mem.held g = some t := ((hk.threads t).held g).2 (by rw [hc]; simp [Code.locks])
  simp only [step, stepCode, hc, State.go] at hs
  cases hs
  refine ⟨fun i w hi => ?_, fun i w hi => ?_⟩
  · rcases acc_cases hi with hi | ⟨_, hi⟩
    · exact Under.append _ ((guard_held hh).1 (hk.mem.fld i g w hi))
    · cases hi
  · rcases acc_cases hi with hi | ⟨_, hi⟩
    · exact Under.append _ ((guard_held hh).1 (reach_guards h i g w hi))
    · cases hi

/-- Thread `t` destroys the signal `g` after its last critical section there, and nobody refers to the signal then:
however the other threads (and `t`) go on, destroying the signal races with nothing, before or after, and nobody uses
the signal again. -/
theorem C124_destroy {st1 st2 : State} {b : Bool} {l : List (Nat × Op)} (h : Reach st)
    (hc : (st.threads t).code = .unl g) (hs : step st t (.cont b) = .ok st1) (hu : Unused (st1.forget t g) g)
    (hr : run (st1.forget t g) l = .ok st2) :
    (∀ i j, ¬ Race (putAt st2.mem.tr st1.mem.tr.length (destroyed t g)) i j) ∧
      ∀ i e, st1.mem.tr.length ≤ i → st2.mem.tr[i]? = some e → ¬ UsesSig g e := by
  have h1 : StateOk st1 := reach_ok (.step h hs)
  obtain ⟨h2, _, h3⟩ := run_unused l (forget_ok h1) hu hr
  obtain ⟨ev, h4, h5⟩ := h3.tr
  have h4 : st2.mem.tr = st1.mem.tr ++ ev := h4
  have h6 : ∀ i e, st1.mem.tr.length ≤ i → st2.mem.tr[i]? = some e → ¬ UsesSig g e := by
    intro i e hi he
    rw [h4, List.getElem?_append_right hi] at he
    exact h5 e (List.mem_of_getElem? he)
  obtain ⟨h7, h8⟩ := unl_known h hc hs
  have hn : st1.mem.tr.length ≤ st2.mem.tr.length := by rw [h4]; simp
  have ht : st2.mem.tr.take st1.mem.tr.length = st1.mem.tr := by rw [h4]; simp
  refine ⟨fun i j => Ordered.no_race (Ordered.put h2.mem.ordered hn (by intro s h; simp [destroyed] at h) ?_ ?_) i j, h6⟩
  · intro i x w w' hi ha hx
    rw [ht]
    have ha : Acc st1.mem.tr i x w := by
      obtain ⟨e, he, hx⟩ := ha
      rw [h4, List.getElem?_append_left hi] at he
      exact ⟨e, he, hx⟩
    simp only [destroyed, List.mem_cons, Prod.mk.injEq, List.not_mem_nil, or_false] at hx
    rcases hx with ⟨rfl, _⟩ | ⟨rfl, _⟩
    · exact h7 i w ha
    · exact h8 i w ha
  · rintro i x w w' hi ⟨e, he, hx⟩ hd
    refine h6 i e hi he (.inr (.inr ⟨w, ?_⟩))
    simp only [destroyed, List.mem_cons, Prod.mk.injEq, List.not_mem_nil, or_false] at hd
    rcases hd with ⟨rfl, _⟩ | ⟨rfl, _⟩
    · exact .inl hx
    · exact .inr hx

/-- The state after a run. -/
def endOf (st : State) (l : List (Nat × Op)) : State :=
  match run st l with
  | .ok st => st
  | _ => st

/-- Thread 0 makes a signal with two slots and gives the connection of the first one to 1, which disconnects it.
Then 0 destroys the signal: `disconnect_all_slots` up to the end of its critical section. -/
def exDestroy : List (Nat × Op) :=
  [(0, .newSig), (0, .connect 0 .back)] ++ go 0 3 ++ [(0, .connect 0 .back)] ++ go 0 3 ++
  [(0, .give 0 1), (1, .take 1 0), (1, .disconnect 0)] ++ go 1 7 ++ [(0, .discAll 0)] ++ go 0 4

/-- … Both threads go on: 0 with the connection that it still has, 1 with a signal of its own. -/
def exAfter : List (Nat × Op) := [(1, .newSig), (0, .disconnect 0)] ++ go 0 2 ++ [(1, .emit 1)] ++ go 1 4

/-- Just before the mutex is unlocked, and after it. -/
def exD0 : State := endOf .init exDestroy
def exD1 : State := endOf exD0 (go 0 1)

theorem exD1_unused : Unused (exD1.forget 0 0) 0 where
  knows := fun u => by
    match u with
    | 0 => decide +kernel
    | 1 => decide +kernel
    | u + 2 => exact List.not_mem_nil
  boxes := fun _ => List.not_mem_nil
  code := fun u => by
    match u with
    | 0 => decide +kernel
    | 1 => decide +kernel
    | u + 2 => exact ⟨List.not_mem_nil, List.not_mem_nil⟩
  calls := fun u => by
    match u with
    | 0 => decide +kernel
    | 1 => decide +kernel
    | u + 2 => exact fun c hc => absurd hc List.not_mem_nil
  sender := fun s => by
    match s with
    | 0 => decide +kernel
    | 1 => decide +kernel
    | s + 2 => exact nofun
  made := by decide +kernel

/-- Destroying conflicts with what thread 1 did (17: it locked the mutex, 18: it read the members). -/
example : run .init exDestroy = .ok exD0 ∧ (exD0.threads 0).code = .unl 0 ∧ step exD0 0 (.cont false) = .ok exD1 ∧
    (exD1.threads 0).knows = [0] ∧ Unused (exD1.forget 0 0) 0 ∧
    ∃ st2, run (exD1.forget 0 0) exAfter = .ok st2 ∧ st2.mem.live 1 = false ∧
      Conflict (putAt st2.mem.tr exD1.mem.tr.length (destroyed 0 0)) 16 33 ∧
      Conflict (putAt st2.mem.tr exD1.mem.tr.length (destroyed 0 0)) 18 33 :=
  ⟨rfl, rfl, rfl, rfl, exD1_unused, _, rfl, rfl,
    ⟨.mtx 0, false, true, ⟨_, rfl, by decide⟩, ⟨_, rfl, by decide⟩, rfl⟩,
    ⟨.fld 0, true, true, ⟨_, rfl, by decide⟩, ⟨_, rfl, by decide⟩, rfl⟩⟩

/-- Thread 0 makes a signal with a slot and gives the connection to 1. Thread 1 calls `disconnect`, which exchanges
`sender_`; then 0 destroys the signal. -/
def exDangling : List (Nat × Op) :=
  [(0, .newSig), (0, .connect 0 .back)] ++ go 0 3 ++ [(0, .give 0 1), (1, .take 1 0), (1, .disconnect 0), (0, .discAll 0)] ++
  go 0 5

def exL1 : State := endOf .init exDangling
def exL2 : State := endOf (exL1.forget 0 0) (go 1 1)

/-- `disconnect` uses the signal after others may have destroyed it: thread 1 has nothing but a connection, no thread
knows the signal or works on it except for 1 in `disconnect`, and no slot is connected (signal.hpp:81 has
exchanged `sender_`). Then 1 locks the mutex (signal.hpp:83, 728), and that races with destroying it. So a
`connection` must not be disconnected while its signal is destroyed by another thread. -/
theorem C124_disconnect_violated : run .init exDangling = .ok exL1 ∧ (exL1.threads 0).code = .idle ∧
    (exL1.threads 1).knows = [] ∧ (exL1.threads 1).calls = [] ∧ (exL1.threads 1).code = .disLock 0 0 ∧
    (∀ s, exL1.mem.sender s = none) ∧ exL1.mem.list 0 = [] ∧ run (exL1.forget 0 0) (go 1 1) = .ok exL2 ∧
    Race (putAt exL2.mem.tr exL1.mem.tr.length (destroyed 0 0)) exL1.mem.tr.length (exL1.mem.tr.length + 1) := by
  refine ⟨rfl, rfl, rfl, rfl, rfl, fun s => ?_, rfl, rfl, ?_⟩
  · match s with
    | 0 => rfl
    | s + 1 => rfl
  · refine ⟨by omega, ⟨.mtx 0, true, false, ⟨destroyed 0 0, rfl, by decide⟩, ⟨⟨1, .none, [(.mtx 0, false)]⟩, rfl, by decide⟩, rfl⟩,
      fun h => ?_, fun h => by have := h.lt; omega⟩
    cases h with
    | edge h =>
      obtain ⟨_, a, b, ha, hb, h⟩ := h
      have ha' : a = destroyed 0 0 := (Option.some.inj ha).symm
      have hb' : b = ⟨1, .none, [(.mtx 0, false)]⟩ := (Option.some.inj hb).symm
      subst ha' hb'
      simp [Syncs, destroyed] at h
    | trans h h' =>
      have := h.lt
      have := h'.1
      omega

end Verif.Races
