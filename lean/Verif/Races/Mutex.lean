import Verif.Races.Owners
import Verif.Races.Props

/-! C121, mutexes: they are used as `std::mutex` requires, and not while code of users runs. -/

namespace Verif.Races

variable {st : State}

/-- Mutexes are locked only while nobody owns them (in particular not by their owners) and unlocked by their
owners only. -/
theorem C121_mutex (h : Reach st) : MutexOk st.mem.tr := (reach_owns h).1

/-- Between calls of the library, and while targets run, a thread owns no mutex. -/
theorem C121_outside {t : Nat} (h : Reach st) (hc : (st.threads t).code = .idle) (g : Nat) :
    owner st.mem.tr g ≠ some t := by
  intro ho
  have hh := (reach_owns h).2 g
  rw [ho] at hh
  have hh' : st.mem.held g = some t := by
    cases hb : st.mem.born g with
    | true => rw [hb] at hh; exact hh.symm
    | false => rw [hb] at hh; cases hh
  have := (((reach_ok h).threads t).held g).1 hh'
  rw [hc] at this
  cases this

/-- Thread 1 runs a target of the signal, and 0 holds its mutex: it has found the slot to disconnect. -/
def exOwn : List (Nat × Op) :=
  [(0, .newSig), (0, .publish 0 0), (0, .connect 0 .back)] ++ go 0 3 ++
  [(1, .learn 0 0), (1, .emit 0)] ++ go 1 5 ++ [(1, .cont true)] ++ go 1 1 ++
  [(0, .disconnect 0)] ++ go 0 2

example : ∃ st, run .init exOwn = .ok st ∧ (st.threads 1).code = .idle ∧ (st.threads 1).calls.length = 1 ∧
    owner st.mem.tr 0 = some 0 ∧ st.mem.tr[10]? = some ⟨1, .lock 0, []⟩ ∧ st.mem.tr[14]? = some ⟨1, .unlock 0, []⟩ :=
  ⟨_, rfl, rfl, rfl, by decide +kernel, rfl, rfl⟩

/-- What the requirement excludes: locking twice, and unlocking for another thread. -/
example : ¬ MutexOk [⟨0, .lock 5, []⟩, ⟨0, .lock 5, []⟩] := by
  intro h
  have := (h 1 _ 5 rfl).1 rfl
  revert this
  decide
example : ¬ MutexOk [⟨0, .lock 5, []⟩, ⟨1, .unlock 5, []⟩] := by
  intro h
  have := (h 1 _ 5 rfl).2 rfl
  revert this
  decide

end Verif.Races
