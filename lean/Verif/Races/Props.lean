import Verif.Races.Gone

/-!
Properties C120 to C123 of `signal.hpp` with many threads. `Spec.lean` says what a data race is, `Model.lean` what
the code does.
-/

namespace Verif.Races

variable {st : State}

/-! ### C120 -/

/-- However threads use signals, connections and blockers, no two accesses to ordinary memory race. -/
theorem C120_no_race (h : Reach st) (i j : Nat) : ¬ Race st.mem.tr i j := (reach_ok h).mem.ordered.no_race i j

/-- … and no step has undefined behaviour of another kind: slots are not used after `delete` or deleted twice,
links are followed in lists only, and counters do not drop below zero. -/
theorem C120_no_ub (h : Reach st) (t : Nat) (op : Op) : step st t op ≠ .ub := by
  intro hs
  have := step_ok (t := t) (op := op) (reach_ok h)
  rw [hs] at this
  exact this

/-- `n` steps of thread `t` in the library; loads of `blocking_` give "not blocked". -/
def go (t n : Nat) : List (Nat × Op) := List.replicate n (t, .cont false)

theorem run_reach : ∀ (l : List (Nat × Op)) {st st' : State}, Reach st → run st l = .ok st' → Reach st'
  | [], st, st', h, hr => by cases hr; exact h
  | (u, op) :: l, st, st', h, hr => by
    simp only [run] at hr
    split at hr
    · rename_i st1 hs
      exact run_reach l (.step h hs) hr
    · rename_i o hne
      exact absurd hr (hne _)

/-- Two threads: 0 makes a signal, connects a slot and tells 1, which emits. While the target runs, 0 disconnects
the slot. -/
def exEmit : List (Nat × Op) :=
  [(0, .newSig), (0, .publish 0 0), (0, .connect 0 .back)] ++ go 0 3 ++
  [(1, .learn 0 0), (1, .emit 0)] ++ go 1 5 ++ [(1, .cont true)] ++ go 1 1 ++
  [(0, .disconnect 0)] ++ go 0 5

/-- … Then the target returns, and 1 deletes the slot. -/
def exDelete : List (Nat × Op) := exEmit ++ [(1, .ret)] ++ go 1 10

/-- The accesses of different threads do conflict: to the members of the signal, to its mutex, and to the slot. -/
example : ∃ st, run .init exDelete = .ok st ∧ st.mem.live 0 = false ∧ (st.threads 1).code = .idle ∧
    Conflict st.mem.tr 0 11 ∧ (st.mem.tr[0]?).map (·.tid) = some 0 ∧ (st.mem.tr[11]?).map (·.tid) = some 1 ∧
    Conflict st.mem.tr 11 21 ∧ (st.mem.tr[21]?).map (·.tid) = some 0 ∧
    Conflict st.mem.tr 0 9 ∧ (st.mem.tr[9]?).map (·.tid) = some 1 ∧
    Conflict st.mem.tr 22 35 ∧ (st.mem.tr[22]?).map (·.tid) = some 0 ∧ (st.mem.tr[35]?).map (·.tid) = some 1 :=
  ⟨_, rfl, rfl, rfl,
    ⟨.fld 0, true, true, ⟨_, rfl, by decide⟩, ⟨_, rfl, by decide⟩, rfl⟩, rfl, rfl,
    ⟨.fld 0, true, true, ⟨_, rfl, by decide⟩, ⟨_, rfl, by decide⟩, rfl⟩, rfl,
    ⟨.mtx 0, true, false, ⟨_, rfl, by decide⟩, ⟨_, rfl, by decide⟩, rfl⟩, rfl,
    ⟨.obj 0, false, true, ⟨_, rfl, by decide⟩, ⟨_, rfl, by decide⟩, rfl⟩, rfl, rfl⟩

/-- What the notion of a race excludes: two threads write the members of a signal without its mutex … -/
example : Race [⟨0, .none, [(.fld 0, true)]⟩, ⟨1, .none, [(.fld 0, true)]⟩] 0 1 := by
  refine ⟨by decide, ⟨.fld 0, true, true, ⟨_, rfl, by decide⟩, ⟨_, rfl, by decide⟩, rfl⟩, fun h => ?_,
    fun h => by have := h.lt; omega⟩
  cases h with
  | edge h =>
    obtain ⟨_, a, b, ha, hb, h⟩ := h
    cases ha; cases hb
    simp [Syncs] at h
  | trans h h' =>
    have := h.lt
    have := h'.1
    omega

/-- … but not with it. -/
example : ¬ Race [⟨0, .lock 0, []⟩, ⟨0, .none, [(.fld 0, true)]⟩, ⟨0, .unlock 0, []⟩, ⟨1, .lock 0, []⟩,
    ⟨1, .none, [(.fld 0, true)]⟩] 1 4 := by
  rintro ⟨_, _, h, _⟩
  refine h (.trans (j := 3) (.trans (j := 2) (.edge ?_) ?_) ?_)
  · exact ⟨by decide, _, _, rfl, rfl, .inl rfl⟩
  · exact ⟨by decide, _, _, rfl, rfl, .inr (.inl ⟨0, rfl, rfl⟩)⟩
  · exact ⟨by decide, _, _, rfl, rfl, .inl rfl⟩

/-! ### C121 -/

/-- The mutexes that the next step of the library may wait for. -/
def Code.waits : Code → List Nat
  | .emLock g => [g]
  | .emAdv g _ _ => [g]
  | .emEnd g => [g]
  | .disLock _ g => [g]
  | .allLock g => [g]
  | .numLock g => [g]
  | .conLock g _ => [g]
  | .swLock g g' => [g, g']
  | .mvLock g _ => [g]
  | .mvLock2 g => [g]
  | _ => []

theorem whenFree_off {m : Mem} {g : Nat} {k : Out} (h : whenFree m g k = .off) : m.held g ≠ none ∨ k = .off := by
  unfold whenFree at h
  split at h
  · exact .inr h
  · exact .inl ‹_›

theorem orUb_off {α : Type} {x : Option α} {k : α → Out} (h : orUb x k = .off) : ∃ a, k a = .off := by
  cases x with
  | none => cases h
  | some a => exact ⟨a, h⟩

theorem go_on {t : Nat} {m : Mem} {th : Thread} : st.go t m th ≠ .off := nofun

theorem orUb_on {α : Type} {x : Option α} {k : α → Out} (h : ∀ a, k a ≠ .off) : orUb x k ≠ .off := fun h' =>
  (orUb_off h').elim h

/-- A step that cannot be done now waits for a mutex. -/
theorem stuck_waits {t : Nat} {b : Bool} (hc : (st.threads t).code ≠ .idle) (hs : step st t (.cont b) = .off) :
    ∃ g ∈ (st.threads t).code.waits, st.mem.held g ≠ none := by
  simp only [step] at hs
  generalize st.threads t = th at hs hc
  obtain ⟨c, calls, handles, knows, lost⟩ := th
  cases c with
  | idle => exact absurd rfl hc
  | emLock g | emEnd g | disLock s g | allLock g | numLock g | conLock g pos | mvLock g g' | mvLock2 g =>
    simp only [stepCode] at hs
    rcases whenFree_off hs with h | h
    · exact ⟨g, by simp [Code.waits], h⟩
    · repeat' split at h
      all_goals cases h
  | emAdv g last c =>
    simp only [stepCode] at hs
    split at hs
    · cases hs
    · rcases whenFree_off hs with h | h
      · exact ⟨g, by simp [Code.waits], h⟩
      · obtain ⟨_, h⟩ := orUb_off h
        cases h
  | swLock g g' =>
    simp only [stepCode] at hs
    split at hs
    · cases hs
    · rcases whenFree_off hs with h | h
      · exact ⟨g, by simp [Code.waits], h⟩
      · rcases whenFree_off h with h | h
        · exact ⟨g', by simp [Code.waits], h⟩
        · split at h <;> cases h
  | _ =>
    refine absurd hs ?_
    simp only [stepCode]
    repeat' (first
      | exact go_on
      | (refine orUb_on fun _ => ?_)
      | split)

/-- A thread that cannot go on waits for a mutex that another thread has locked; and that thread can go on,
whatever its loads give. So threads never wait for each other in a circle. -/
theorem C121_wait {t : Nat} {b : Bool} (h : Reach st) (hc : (st.threads t).code ≠ .idle)
    (hs : step st t (.cont b) = .off) :
    ∃ g ∈ (st.threads t).code.waits, ∃ u, u ≠ t ∧ st.mem.held g = some u ∧
      ∀ b', ∃ st', step st u (.cont b') = .ok st' := by
  have hk := reach_ok h
  obtain ⟨g, hg, hh⟩ := stuck_waits hc hs
  obtain ⟨u, hu⟩ := Option.ne_none_iff_exists'.1 hh
  have ht := hk.threads t
  have hb : st.mem.born g = true := by
    have := ht.sigs g
    cases hx : (st.threads t).code <;> rw [hx] at hg this <;> simp only [Code.waits] at hg <;>
      first
      | exact (this hg).1
      | cases hg
  refine ⟨g, hg, u, ?_, hu, fun b' => ?_⟩
  · intro hx
    subst hx
    have := born_owns ht hu hb
    cases hx : (st.threads u).code <;> rw [hx] at hg this <;> simp [Code.waits, Code.owns, Code.locks] at hg this
  · have hl := born_owns (hk.threads u) hu hb
    obtain ⟨st', e, _⟩ := stepCode_nearer (b := b') hk (t := u) (fun h0 => by rw [h0] at hl; cases hl)
    exact ⟨st', e⟩

/-- Locked mutexes are unlocked after a number of steps of the thread that has locked them, whatever it loads and
whatever other threads do meanwhile: the number does not depend on them. -/
theorem C121_release {t g : Nat} (h : Reach st) (hh : st.mem.held g = some t) :
    ∃ n, ∀ l st', run st l = .ok st' → n ≤ (l.filter (·.1 == t)).length →
      ∃ l1 st1, l1 <+: l ∧ run st l1 = .ok st1 ∧ st1.mem.held g ≠ some t :=
  ⟨_, fun l _ hr hn => released l (reach_ok h) hh hr hn⟩

/-- No deadlock: as long as a thread is in the library, some thread can go on there. -/
theorem C121_progress {t : Nat} (h : Reach st) (hc : (st.threads t).code ≠ .idle) :
    ∃ u, ∀ b, (∃ st', step st u (.cont b) = .ok st') ∨ step st u (.cont b) = .term := by
  by_cases hs : ∃ b, step st t (.cont b) = .off
  · obtain ⟨b, hs⟩ := hs
    obtain ⟨g, _, u, _, _, hu⟩ := C121_wait h hc hs
    exact ⟨u, fun b => .inl (hu b)⟩
  · refine ⟨t, fun b => ?_⟩
    cases hx : step st t (.cont b) with
    | ok st' => exact .inl ⟨st', rfl⟩
    | off => exact absurd ⟨b, hx⟩ hs
    | ub => exact absurd hx (C120_no_ub h t _)
    | term => exact .inr rfl

/-- Thread 1 wants to connect to the signal while 0 holds its mutex, in `disconnect_all_slots`:
it waits. After four steps of 0 it can lock the mutex. -/
def exWait : List (Nat × Op) :=
  [(0, .newSig), (0, .publish 0 0), (1, .learn 0 0), (0, .connect 0 .back)] ++ go 0 3 ++ [(0, .discAll 0)] ++ go 0 1 ++
  [(1, .connect 0 .front)]

example : ∃ st, run .init exWait = .ok st ∧ st.mem.held 0 = some 0 ∧ (st.threads 1).code.waits = [0] ∧
    step st 1 (.cont false) = .off ∧
    ∃ st', run st (go 0 4) = .ok st' ∧ st'.mem.held 0 = none ∧ ∃ st'', step st' 1 (.cont false) = .ok st'' :=
  ⟨_, rfl, rfl, rfl, rfl, _, rfl, rfl, _, rfl⟩

/-! ### C122 -/

/-- The operation neither swaps nor moves signals. -/
def Op.stays : Op → Bool
  | .swap .. => false
  | .moveSig _ => false
  | _ => true

/-- Once a slot is not connected it stays so, whatever any threads do, if no signal is moved or swapped. -/
theorem C122_stays {l l' : List (Nat × Op)} {st st' : State} {s : Nat}
    (hl : ∀ x ∈ l ++ l', x.2.stays = true) (hr : run .init l = .ok st) (hr' : run st l' = .ok st')
    (hs : s < st.mem.nslots) (hn : st.mem.sender s = none) : st'.mem.sender s = none := by
  have hx : ∀ x ∈ l ++ l', (∀ g g', x.2 ≠ .swap g g') ∧ ∀ g, x.2 ≠ .moveSig g := by
    intro x hx
    have := hl x hx
    refine ⟨fun g g' h => ?_, fun g h => ?_⟩ <;> rw [h] at this <;> cases this
  have h1 := run_calm l (st := .init) (fun _ => rfl) (fun x h => hx x (by simp [h])) hr
  exact (run_calm l' h1.1 (fun x h => hx x (by simp [h])) hr').2.2 s hs hn

/-- Once a slot is not connected and in no list, it stays so, even if signals are moved and swapped. -/
theorem C122_gone {l : List (Nat × Op)} {st st' : State} {s : Nat} (h : Reach st) (hr : run st l = .ok st')
    (hs : s < st.mem.nslots) (hn : st.mem.sender s = none) (hl : ∀ g, s ∉ st.mem.list g) :
    st'.mem.sender s = none ∧ ∀ g, s ∉ st'.mem.list g := by
  have hk := reach_ok h
  have ho : st.mem.own s = none := by
    cases hx : st.mem.own s with
    | none => rfl
    | some g => exact absurd ((hk.mem.lists s g).2 hx) (hl g)
  obtain ⟨h1, h2⟩ := run_gone l hk ⟨hs, ho, hn⟩ hr
  refine ⟨h1.2.2, fun g hg => ?_⟩
  have := (h2.mem.lists s g).1 hg
  rw [h1.2.1] at this
  cases this

/-- After `disconnect` has returned in `exEmit` the slot is not connected; nor is it in the end. -/
example : ∃ st st', (∀ x ∈ exEmit ++ ([(1, .ret)] ++ go 1 10), x.2.stays = true) ∧ run .init exEmit = .ok st ∧
    (st.threads 0).code = .idle ∧ 0 < st.mem.nslots ∧ st.mem.sender 0 = none ∧
    run st ([(1, .ret)] ++ go 1 10) = .ok st' ∧ st'.mem.sender 0 = none :=
  ⟨_, _, by decide, rfl, rfl, by decide, rfl, rfl, rfl⟩

/-- The same after `disconnect` without emissions, and then moving the signal. -/
example : ∃ st st', run .init ([(0, .newSig), (0, .connect 0 .back)] ++ go 0 3 ++ [(0, .copy 0), (0, .disconnect 0)] ++
      go 0 6) = .ok st ∧
    (st.threads 0).code = .idle ∧ (st.threads 0).handles = [0] ∧ 0 < st.mem.nslots ∧ st.mem.sender 0 = none ∧
    st.mem.list 0 = [] ∧ run st ([(0, .moveSig 0)] ++ go 0 5) = .ok st' ∧ st'.mem.sender 0 = none :=
  ⟨_, _, rfl, rfl, rfl, by decide, rfl, rfl, rfl, rfl⟩

/-- Thread 0 has a connection and disconnects it; 1 moves the signal at the same time. -/
def exUndone : List (Nat × Op) :=
  [(0, .newSig), (0, .publish 0 0), (1, .learn 0 0), (0, .connect 0 .back)] ++ go 0 3 ++
  [(0, .disconnect 0), (1, .moveSig 0)] ++ go 1 6 ++ go 0 4

/-- `disconnect` can be undone: it exchanges `sender_` (signal.hpp:81) before it locks the mutex of the signal (728).
A thread that moves the signal in between stores the new signal into `sender_` (431-432, 755-758) without
looking at what is there; `disconnect` then does not find the slot in the list of the old signal (730-747) and
returns. The slot is connected, and the next emission of the new signal calls it. -/
theorem C122_undone_violated : ∃ st, run .init exUndone = .ok st ∧ (st.threads 0).code = .idle ∧
    (st.threads 0).handles = [] ∧ (st.threads 1).code = .idle ∧ st.mem.sender 0 = some 1 ∧ st.mem.list 1 = [0] ∧
    st.mem.live 0 = true ∧
    ∃ st', run st ([(1, .emit 1)] ++ go 1 5 ++ [(1, .cont true)] ++ go 1 1) = .ok st' ∧
      (st'.threads 1).calls = [⟨1, some 0, 0⟩] :=
  ⟨_, rfl, rfl, rfl, rfl, rfl, rfl, rfl, _, rfl, rfl⟩

/-! ### C123 -/

/-- Somebody refers to the slot: it is in the list of a signal, a `connection` or `blocker` of some thread
refers to it, or such an object is on its way between threads; or a target is running or a function of the library
has not returned. -/
def Referred (st : State) (s : Nat) : Prop :=
  (∃ g, s ∈ st.mem.list g) ∨ (∃ t, s ∈ (st.threads t).handles) ∨ (∃ k, s ∈ st.boxH k) ∨
    ∃ t, (st.threads t).calls ≠ [] ∨ (st.threads t).code ≠ .idle

/-- Slots that somebody refers to exist. -/
theorem C123_exists {s : Nat} (h : Reach st) (hr : (∃ g, s ∈ st.mem.list g) ∨ (∃ t, s ∈ (st.threads t).handles) ∨
    (∃ k, s ∈ st.boxH k) ∨ ∃ t, ∃ c ∈ (st.threads t).calls, c.cur = s) : st.mem.live s = true := by
  have hk := reach_ok h
  rcases hr with ⟨g, hg⟩ | ⟨t, ht⟩ | ⟨k, hb⟩ | ⟨t, c, hc, rfl⟩
  · exact (hk.mem.ownLive s g ((hk.mem.lists s g).1 hg)).1
  · have := (hk.threads t).refs s
    have := List.count_pos_iff.2 ht
    exact (hk.mem.refsLive s (.thread t) (List.count_pos_iff.1 (by omega))).1
  · have := hk.boxH k s
    have := List.count_pos_iff.2 hb
    exact (hk.mem.refsLive s (.box k) (List.count_pos_iff.1 (by omega))).1
  · have := (hk.threads t).refs c.cur
    have h1 : 0 < (callRefs (st.threads t).calls).count c.cur := by
      rw [List.count_pos_iff]
      simp only [callRefs, List.mem_flatMap]
      exact ⟨c, hc, by simp⟩
    exact (hk.mem.refsLive c.cur (.thread t) (List.count_pos_iff.1 (by omega))).1

/-- Slots that nobody refers to have been deleted, except for those that a target was called through which
threw (`lost`). -/
theorem C123_deleted {s : Nat} (h : Reach st) (hl : st.mem.live s = true) :
    Referred st s ∨ ∃ t, s ∈ (st.threads t).lost := by
  have hk := reach_ok h
  have hp := reach_kept h
  rcases hp.keep s hl with h1 | h1 | h1
  · obtain ⟨x, hx⟩ := List.exists_mem_of_ne_nil _ h1
    cases x with
    | thread t =>
      have h2 := (hk.threads t).refs s
      have h3 := List.count_pos_iff.2 hx
      by_cases h4 : (st.threads t).handles.count s = 0
      · by_cases h5 : (st.threads t).calls = []
        · by_cases h6 : (st.threads t).code = .idle
          · right
            refine ⟨t, List.count_pos_iff.1 ?_⟩
            rw [h4, h5, h6] at h2
            simp [callRefs, Code.refs] at h2
            omega
          · exact .inl (.inr (.inr (.inr ⟨t, .inr h6⟩)))
        · exact .inl (.inr (.inr (.inr ⟨t, .inl h5⟩)))
      · exact .inl (.inr (.inl ⟨t, List.count_pos_iff.1 (by omega)⟩))
    | box k =>
      have h2 := hk.boxH k s
      have h3 := List.count_pos_iff.2 hx
      exact .inl (.inr (.inr (.inl ⟨k, List.count_pos_iff.1 (by omega)⟩)))
  · obtain ⟨g, hg⟩ := Option.ne_none_iff_exists'.1 h1
    exact .inl (.inl ⟨g, (hk.mem.lists s g).2 hg⟩)
  · obtain ⟨t, ht⟩ := Option.ne_none_iff_exists'.1 h1
    refine .inl (.inr (.inr (.inr ⟨t, .inr fun h6 => ?_⟩)))
    have := hp.dying s t ht
    rw [h6] at this
    cases this

/-- Without targets that throw nothing is lost. -/
theorem C123_lost {l : List (Nat × Op)} (hl : ∀ x ∈ l, x.2 ≠ .throw) (hr : run .init l = .ok st) (t : Nat) :
    (st.threads t).lost = [] :=
  run_lost l (st := .init) (fun _ => rfl) hl hr t

/-- In the end of `exEmit` the slot exists since thread 1 still calls it; in the end of `exDelete` it does not. -/
example : ∃ st st', run .init exEmit = .ok st ∧ st.mem.live 0 = true ∧ (∃ c ∈ (st.threads 1).calls, c.cur = 0) ∧
    run .init exDelete = .ok st' ∧ st'.mem.live 0 = false :=
  ⟨_, _, rfl, rfl, ⟨⟨0, some 0, 0⟩, by decide, rfl⟩, rfl, rfl⟩

/-- A target that throws makes the slot stay for ever (see `C27_leak`): nobody refers to it in the end. -/
example : ∃ st, run .init (exEmit ++ [(1, .throw)] ++ go 1 6) = .ok st ∧ st.mem.live 0 = true ∧
    (st.threads 0) = ⟨.idle, [], [], [0], []⟩ ∧ (st.threads 1) = ⟨.idle, [], [], [0], [0]⟩ ∧ st.mem.list 0 = [] ∧
    st.mem.count 0 = 1 :=
  ⟨_, rfl, rfl, rfl, rfl, rfl, rfl⟩

end Verif.Races
