import Verif.Races.Clean4
import Verif.Races.Seen

/-!
Property C126: when nothing is going on the lists of signals contain the connected slots, and no others. Slots that
are disconnected during emissions stay in the list until the last emission ends (signal.hpp:620-621, 743-744,
763-785); here this is shown for any number of threads, with loads of `sender_` that need not give the latest
value.
-/

namespace Verif.Races

variable {st : State}

/-- Whoever has locked the mutex of a signal sees the last store to `sender_` of a slot in its list (or the slot's
construction): it happens before whatever that thread does next. If the slot is connected then no exchange came after
it, so that a load gives the value of `sender_`; the same if null was stored. (This is why `valid` at signal.hpp:775
may not give an outdated value: `Mem.seen`.) -/
theorem C126_seen {g s t : Nat} (h : Reach st) (hh : st.mem.held g = some t) (hs : s ∈ st.mem.list g) :
    ∃ i, (∀ e : Ev, e.tid = t → HB (st.mem.tr ++ [e]) i st.mem.tr.length) ∧
      (∀ j e, st.mem.tr[j]? = some e → i < j → e.sync ≠ .store s) ∧
      (st.mem.sender s ≠ none → ∀ j e, st.mem.tr[j]? = some e → i < j → e.sync ≠ .xchg s) ∧
      (st.mem.marked s = true → ∃ e, st.mem.tr[i]? = some e ∧ e.sync = .store s) := by
  have hk := reach_ok h
  have hg := reach_seens h
  have ho := (hk.mem.lists s g).1 hs
  have hlt := hk.mem.liveLt s (hk.mem.ownLive s g ho).1
  refine ⟨st.mem.sndEv s, ?_, ?_, ?_, hg.mark s⟩
  · rintro e rfl
    exact known_hb ((guard_held hh).1 (hg.guard s g ho))
  · intro j e he hj
    exact (hg.last s hlt j e he hj).1
  · intro hn j e he hj hx
    exact hn ((hg.last s hlt j e he hj).2 hx)

/-- A signal that is not being emitted and whose mutex is free has nothing left to clean up: its slots are connected to
it, or some thread is about to lock the mutex to disconnect the slot (728), or it has just been moved
(430-431). -/
theorem C126_tidy {g : Nat} (h : Reach st) (hf : st.mem.held g = none) (ha : st.mem.active g = 0) :
    st.mem.deferred g = false ∧ ∀ s ∈ st.mem.list g, st.mem.sender s = some g ∨
      (st.mem.sender s = none ∧ ∃ t, (st.threads t).code = .disLock s g) ∨ ∃ t, (st.threads t).code = .mvLock2 g := by
  have hk := reach_ok h
  have hr := reach_rest h
  have he : st.mem.ems g = [] := ems_active hk rfl ha
  have hd := free_deferred hk hr hf he
  refine ⟨hd, fun s hs => ?_⟩
  have ho := (hk.mem.lists s g).1 hs
  obtain ⟨t, ht⟩ := hr.sender s g ho
  have hl : g ∉ (st.threads t).code.locks := by
    intro hx
    have := ((hk.threads t).held g).2 hx
    rw [hf] at this
    cases this
  have hw := (hk.threads t).wf
  have hkl : ∀ k : K, k.rebinds g → g ∈ k.locks := by
    intro k hx
    cases k with
    | em => exact hx.elim
    | sw1 a b => rcases hx with rfl | rfl <;> simp [K.locks]
    | sw2 a b => cases hx; simp [K.locks]
    | mv a => cases hx; simp [K.locks]
  rcases ht with h1 | h1 | ⟨h1, h2 | h2⟩
  · exact .inl h1
  · right; right
    refine ⟨t, ?_⟩
    cases hc : (st.threads t).code <;> rw [hc] at h1 hl hw <;> try exact h1.elim
    case cl => exact absurd (hkl _ h1) hl
    case clRel => exact absurd (hkl _ h1) hl
    case clDel => exact absurd (hkl _ h1) hl
    case rb g' i k =>
      rcases h1 with ⟨rfl, _⟩ | h1
      · have hw : k.sig = g' := hw
        subst hw
        exact absurd (by cases k <;> simp [Code.locks, K.sig, K.locks]) hl
      · cases k <;> try exact h1.elim
        cases h1
        exact absurd (by simp [Code.locks, K.locks]) hl
    case mvUnl a b =>
      cases h1
      exact absurd (by simp [Code.locks]) hl
    case mvLock2 a => cases h1; rfl
  · rw [free_marked hk hr hf he ho] at h2
    cases h2
  · right; left
    refine ⟨h1, t, ?_⟩
    cases hc : (st.threads t).code <;> rw [hc] at h2 hl <;> try exact h2.elim
    case disLock a b => cases h2.1; cases h2.2; rfl
    case disLoop a b i => cases h2.2.1; exact absurd (by simp [Code.locks]) hl
    case disStore a b => cases h2.2; exact absurd (by simp [Code.locks]) hl

/-- Every function of the library has returned, and no target runs. -/
def AtRest (st : State) : Prop := ∀ t, (st.threads t).code = .idle ∧ (st.threads t).calls = []

theorem rest_free {g : Nat} (h : Reach st) (hr : AtRest st) : st.mem.held g = none := by
  cases hx : st.mem.held g with
  | none => rfl
  | some t =>
    have := (((reach_ok h).threads t).held g).1 hx
    rw [(hr t).1] at this
    cases this

/-- At rest no emission is counted, nothing is left to clean up, and the list of a signal contains exactly the slots
that are connected to it. -/
theorem C126_rest {g : Nat} (h : Reach st) (hr : AtRest st) : st.mem.active g = 0 ∧ st.mem.deferred g = false ∧
    ∀ s, s ∈ st.mem.list g ↔ st.mem.live s = true ∧ st.mem.sender s = some g := by
  have hk := reach_ok h
  have he : st.mem.ems g = [] := by
    cases hx : st.mem.ems g with
    | nil => rfl
    | cons t l =>
      have := (hk.threads t).ems g
      rw [(hr t).1, (hr t).2, hx] at this
      simp [callEms, Code.ems] at this
  have ha : st.mem.active g = 0 := by rw [hk.mem.active, he]; rfl
  have hc : ∀ g, st.mem.active g = 0 → ∀ s ∈ st.mem.list g, st.mem.sender s = some g := by
    intro g ha s hs
    rcases (C126_tidy h (rest_free h hr) ha).2 s hs with h1 | ⟨_, t, h1⟩ | ⟨t, h1⟩
    · exact h1
    · rw [(hr t).1] at h1; cases h1
    · rw [(hr t).1] at h1; cases h1
  have hall : ∀ g, st.mem.active g = 0 := by
    intro g
    rw [hk.mem.active]
    cases hx : st.mem.ems g with
    | nil => rfl
    | cons t l =>
      have := (hk.threads t).ems g
      rw [(hr t).1, (hr t).2, hx] at this
      simp [callEms, Code.ems] at this
  refine ⟨ha, (C126_tidy h (rest_free h hr) ha).1, fun s => ⟨fun hs => ?_, fun ⟨hl, hs⟩ => ?_⟩⟩
  · exact ⟨(hk.mem.ownLive s g ((hk.mem.lists s g).1 hs)).1, hc g ha s hs⟩
  · obtain ⟨g', hg⟩ := Option.ne_none_iff_exists'.1 ((reach_rest h).owned s hl (by rw [hs]; nofun))
    have h1 := (hk.mem.lists s g').2 hg
    have h2 := hc g' (hall g') s h1
    rw [hs] at h2
    cases h2
    exact h1

/-- At rest a slot exists exactly if it is connected or a `connection` or `blocker` refers to it, if no target has
thrown. -/
theorem C126_slots {s : Nat} (h : Reach st) (hr : AtRest st) (hn : ∀ t, (st.threads t).lost = []) :
    st.mem.live s = true ↔ (∃ g, s ∈ st.mem.list g ∧ st.mem.sender s = some g) ∨
      (∃ t, s ∈ (st.threads t).handles) ∨ ∃ k, s ∈ st.boxH k := by
  constructor
  · intro hl
    rcases C123_deleted h hl with (⟨g, hg⟩ | h1 | h1 | ⟨t, h1⟩) | ⟨t, h1⟩
    · exact .inl ⟨g, hg, (((C126_rest h hr).2.2 s).1 hg).2⟩
    · exact .inr (.inl h1)
    · exact .inr (.inr h1)
    · exact absurd (h1.imp (fun hx => hx (hr t).2) (fun hx => hx (hr t).1)) (by simp)
    · rw [hn t] at h1; cases h1
  · rintro (⟨g, hg, _⟩ | h1 | h1)
    · exact C123_exists h (.inl ⟨g, hg⟩)
    · exact C123_exists h (.inr (.inl h1))
    · exact C123_exists h (.inr (.inr (.inl h1)))

/-- Thread 0 makes a signal with three slots and tells 1, which emits it. While the first target runs, 0 disconnects the
second slot: it stays in the list, and the clean-up is deferred. -/
def exTidy : List (Nat × Op) :=
  [(0, .newSig), (0, .publish 0 0), (0, .connect 0 .back)] ++ go 0 3 ++ [(0, .connect 0 .back)] ++ go 0 3 ++
  [(0, .connect 0 .back)] ++ go 0 3 ++ [(1, .learn 0 0), (1, .emit 0)] ++ go 1 5 ++ [(1, .cont true)] ++ go 1 1 ++
  [(0, .disconnect 1)] ++ go 0 6

/-- … Then 1 skips the other two (the third is blocked), and cleans up. -/
def exTidied : List (Nat × Op) :=
  exTidy ++ [(1, .ret)] ++ go 1 24

example : ∃ st, run .init exTidy = .ok st ∧ (st.threads 0).code = .idle ∧ (st.threads 1).calls = [⟨0, some 2, 0⟩] ∧
    st.mem.list 0 = [0, 1, 2] ∧ st.mem.sender 1 = none ∧ st.mem.marked 1 = true ∧ st.mem.deferred 0 = true ∧
    st.mem.active 0 = 1 :=
  ⟨_, rfl, rfl, rfl, rfl, rfl, rfl, rfl, rfl⟩

/-- `C126_rest`, `C126_slots`: thread 1 has removed and deleted the slot. -/
example : ∃ st, run .init exTidied = .ok st ∧ AtRest st ∧ (∀ t, (st.threads t).lost = []) ∧ st.mem.list 0 = [0, 2] ∧
    st.mem.live 1 = false ∧ (st.threads 0).handles = [0, 2] :=
  ⟨_, rfl, fun t => match t with
    | 0 => ⟨rfl, rfl⟩
    | 1 => ⟨rfl, rfl⟩
    | _ + 2 => ⟨rfl, rfl⟩, fun t => match t with
    | 0 => rfl
    | 1 => rfl
    | _ + 2 => rfl, rfl, rfl, rfl⟩

/-- `C126_seen`: in the clean-up, thread 1 has the mutex and is at the slot that 0 has disconnected. -/
example : ∃ st, run .init (exTidy ++ [(1, .ret)] ++ go 1 18) = .ok st ∧ st.mem.held 0 = some 1 ∧ 1 ∈ st.mem.list 0 ∧
    (st.threads 1).code = .cl 0 (some 1) (.em 0) ∧ st.mem.marked 1 = true :=
  ⟨_, rfl, rfl, by decide, rfl, rfl⟩

/-- `C126_tidy`: thread 0 has exchanged `sender_` of the second slot and not yet locked the mutex. -/
example : ∃ st, run .init ([(0, .newSig), (0, .connect 0 .back)] ++ go 0 3 ++ [(0, .connect 0 .back)] ++ go 0 3 ++
      [(0, .disconnect 1)]) = .ok st ∧ st.mem.held 0 = none ∧ st.mem.active 0 = 0 ∧ st.mem.list 0 = [0, 1] ∧
    st.mem.sender 0 = some 0 ∧ st.mem.sender 1 = none ∧ (st.threads 0).code = .disLock 1 0 :=
  ⟨_, rfl, rfl, rfl, rfl, rfl, rfl, rfl⟩

end Verif.Races
