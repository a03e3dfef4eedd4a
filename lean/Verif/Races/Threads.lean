import Verif.Races.Prims4

/-! What every thread holds, at each point of its program. -/

namespace Verif.Races

/-- The references of the local variables. -/
def Code.refs : Code → List Nat
  | .emRef2 _ last _ => last.toList
  | .emUnl _ last cur => last.toList ++ cur.toList
  | .emHead _ last cur => last.toList ++ cur.toList
  | .emChk _ last c => last.toList ++ [c]
  | .emCall _ last c => last.toList ++ [c]
  | .emAdv _ last c => last.toList ++ [c]
  | .emNRef _ last c _ => last.toList ++ [c]
  | .emNUnl _ last c next => last.toList ++ [c] ++ next.toList
  | .emRel _ last c next => last.toList ++ [c] ++ next.toList
  | .emDel _ last _ next => last.toList ++ next.toList
  | .emFin _ last => last.toList
  | .clRel _ s _ _ => [s]
  | .disLock s _ => [s]
  | .disLoop s _ _ => [s]
  | .disStore s _ => [s]
  | .disRel s _ => [s] ++ [s]
  | .disDel s _ => [s]
  | .disUnl s _ => [s]
  | .rel s => [s]
  | .allRel _ s _ => [s]
  | _ => []

/-- The emission that is going on. -/
def Code.ems : Code → List Nat
  | .emRef1 g _ _ => [g]
  | .emRef2 g _ _ => [g]
  | .emUnl g _ _ => [g]
  | .emHead g _ _ => [g]
  | .emChk g _ _ => [g]
  | .emCall g _ _ => [g]
  | .emAdv g _ _ => [g]
  | .emNRef g _ _ _ => [g]
  | .emNUnl g _ _ _ => [g]
  | .emRel g _ _ _ => [g]
  | .emDel g _ _ _ => [g]
  | .emFin g _ => [g]
  | .emFinDel g _ => [g]
  | .emEnd g => [g]
  | _ => []

def K.locks : K → List Nat
  | .em g => [g]
  | .sw1 g g' => [g, g']
  | .sw2 g g' => [g, g']
  | .mv g => [g]

/-- The mutexes that are locked. -/
def Code.locks : Code → List Nat
  | .emRef1 g _ _ => [g]
  | .emRef2 g _ _ => [g]
  | .emUnl g _ _ => [g]
  | .emNRef g _ _ _ => [g]
  | .emNUnl g _ _ _ => [g]
  | .cl _ _ k => k.locks
  | .clRel _ _ _ k => k.locks
  | .clDel _ _ _ k => k.locks
  | .rb _ _ k => k.locks
  | .unl g => [g]
  | .unl2 g g' => [g, g']
  | .disLoop _ g _ => [g]
  | .disStore _ g => [g]
  | .disRel _ g => [g]
  | .disDel _ g => [g]
  | .disUnl _ g => [g]
  | .allLoop g _ => [g]
  | .allRel g _ _ => [g]
  | .allDel g _ _ => [g]
  | .numLoop g _ => [g]
  | .conRef g _ => [g]
  | .mvLock _ g' => [g']
  | .mvUnl g g' => [g, g']
  | _ => []

/-- The signals that are used and exist. -/
def Code.sigs : Code → List Nat
  | .emLock g => [g]
  | .emRef1 g _ _ => [g]
  | .emRef2 g _ _ => [g]
  | .emUnl g _ _ => [g]
  | .emHead g _ _ => [g]
  | .emChk g _ _ => [g]
  | .emCall g _ _ => [g]
  | .emAdv g _ _ => [g]
  | .emNRef g _ _ _ => [g]
  | .emNUnl g _ _ _ => [g]
  | .emRel g _ _ _ => [g]
  | .emDel g _ _ _ => [g]
  | .emFin g _ => [g]
  | .emFinDel g _ => [g]
  | .emEnd g => [g]
  | .cl _ _ k => k.locks
  | .clRel _ _ _ k => k.locks
  | .clDel _ _ _ k => k.locks
  | .rb _ _ k => k.locks
  | .disLock _ g => [g]
  | .allLock g => [g]
  | .numLock g => [g]
  | .conLock g _ => [g]
  | .swLock g g' => [g, g']
  | .mvLock g _ => [g]
  | .mvUnl g _ => [g]
  | .mvLock2 g => [g]
  | _ => []

def inList (g : Nat) (o : Option Nat) : List (Nat × Nat) := o.toList.map fun s => (s, g)

/-- Slots that are in the list of a signal. -/
def Code.listed : Code → List (Nat × Nat)
  | .emRef1 g last cur => inList g last ++ inList g cur
  | .emRef2 g _ cur => inList g cur
  | .emUnl g _ cur => inList g cur
  | .emHead g _ cur => inList g cur
  | .emChk g _ c => [(c, g)]
  | .emCall g _ c => [(c, g)]
  | .emAdv g _ c => [(c, g)]
  | .emNRef g _ _ next => inList g next
  | .emNUnl g _ _ next => inList g next
  | .emRel g _ _ next => inList g next
  | .emDel g _ _ next => inList g next
  | .cl g iter _ => inList g iter
  | .clRel g _ next _ => inList g next
  | .clDel g _ next _ => inList g next
  | .rb g iter _ => inList g iter
  | .disLoop _ g iter => inList g iter
  | .disStore s g => [(s, g)]
  | .allLoop g iter => inList g iter
  | .allRel g _ next => inList g next
  | .allDel g _ next => inList g next
  | .numLoop g iter => inList g iter
  | .conRef g s => [(s, g)]
  | _ => []

/-- The slot that is about to be deleted. -/
def Code.dying : Code → List Nat
  | .emDel _ _ c _ => [c]
  | .emFinDel _ s => [s]
  | .clDel _ s _ _ => [s]
  | .disDel s _ => [s]
  | .del s => [s]
  | .allDel _ s _ => [s]
  | _ => []

def K.rest : K → List Nat
  | .sw1 _ g' => [g']
  | _ => []

/-- Signals without emissions. -/
def Code.quiet : Code → List Nat
  | .cl g _ k => g :: k.rest
  | .clRel g _ _ k => g :: k.rest
  | .clDel g _ _ k => g :: k.rest
  | .rb _ _ k => k.rest
  | _ => []

/-- The signal whose construction has not ended. -/
def Code.unborn : Code → List Nat
  | .mvLock _ g' => [g']
  | .mvUnl _ g' => [g']
  | _ => []

/-- … and has no slots. -/
def Code.empty : Code → List Nat
  | .mvLock _ g' => [g']
  | _ => []

/-- The signal of a loop is the one that comes with its continuation. -/
def Code.wf : Code → Prop
  | .cl g _ k => k.sig = g
  | .clRel g _ _ k => k.sig = g
  | .clDel g _ _ k => k.sig = g
  | .rb g _ k => k.sig = g
  | _ => True

def callRefs (cs : List Call) : List Nat := cs.flatMap fun c => c.last.toList ++ [c.cur]
def callEms (cs : List Call) : List Nat := cs.map (·.sig)
def callListed (cs : List Call) : List (Nat × Nat) := cs.map fun c => (c.cur, c.sig)

structure ThreadOk (m : Mem) (t : Nat) (th : Thread) : Prop where
  refs : ∀ s, th.handles.count s + (callRefs th.calls).count s + th.code.refs.count s + th.lost.count s =
    (m.refs s).count (.thread t)
  ems : ∀ g, (callEms th.calls).count g + th.code.ems.count g = (m.ems g).count t
  held : ∀ g, m.held g = some t ↔ g ∈ th.code.locks
  nodup : th.code.locks.Nodup
  knows : ∀ g ∈ th.knows, Knows m t g
  calls : ∀ g ∈ callEms th.calls, Knows m t g
  sigs : ∀ g ∈ th.code.sigs, Knows m t g
  callListed : ∀ p ∈ callListed th.calls, p.1 ∈ m.list p.2
  listed : ∀ p ∈ th.code.listed, p.1 ∈ m.list p.2
  dying : ∀ s ∈ th.code.dying, m.dying s = some t
  quiet : ∀ g ∈ th.code.quiet, m.ems g = []
  unborn : ∀ g ∈ th.code.unborn, m.born g = false
  empty : ∀ g ∈ th.code.empty, m.list g = []
  wf : th.code.wf

/-- What a step of thread `t` guarantees to other threads. -/
structure GuarT (t : Nat) (m m' : Mem) : Prop where
  tr : ∃ l, m'.tr = m.tr ++ l
  born : ∀ g, m.born g = true → m'.born g = true ∧ m'.birth g = m.birth g
  held : ∀ g u, u ≠ t → (m'.held g = some u ↔ m.held g = some u)
  list : ∀ g u, u ≠ t → m.held g = some u → m'.list g = m.list g ∧ m'.ems g = m.ems g ∧ m'.born g = m.born g
  grow : ∀ g s, m.ems g ≠ [] → s ∈ m.list g → s ∈ m'.list g
  refs : ∀ s u, u ≠ t → (m'.refs s).count (.thread u) = (m.refs s).count (.thread u)
  ems : ∀ g u, u ≠ t → (m'.ems g).count u = (m.ems g).count u
  dying : ∀ s u, u ≠ t → m.dying s = some u → m'.dying s = some u

theorem Guar.toT {t : Nat} {m m' : Mem} (h : Guar t m m') : GuarT t m m' :=
  { h with refs := fun s u hu => h.refs s _ (by simpa using hu) }

theorem Knows.guarT {m m' : Mem} {t u g : Nat} (h : Knows m u g) (hg : GuarT t m m') : Knows m' u g := by
  obtain ⟨l, hl⟩ := hg.tr
  obtain ⟨h1, h2⟩ := hg.born g h.1
  refine ⟨h1, ?_⟩
  rw [h2, hl]
  exact Under.append l h.2

/-- A slot that is listed is listed because of an emission or under the mutex. -/
theorem Code.listed_why (c : Code) (hw : c.wf) : ∀ p ∈ c.listed, p.2 ∈ c.ems ∨ p.2 ∈ c.locks := by
  have hk : ∀ (k : K) g, k.sig = g → g ∈ k.locks := by
    intro k g hg; subst hg; cases k <;> simp [K.sig, K.locks]
  cases c <;> simp [Code.listed, inList, Code.ems, Code.locks, Code.wf] at hw ⊢
  case emRef1 => rintro a b (⟨_, _, _, h⟩ | ⟨_, _, _, h⟩) <;> exact h.symm
  all_goals intros; exact hk _ _ hw

theorem Code.quiet_locks (c : Code) (hw : c.wf) : ∀ g ∈ c.quiet, g ∈ c.locks := by
  have hk : ∀ (k : K) g, k.sig = g → g ∈ k.locks ∧ ∀ x ∈ k.rest, x ∈ k.locks := by
    intro k g hg; subst hg; cases k <;> simp [K.sig, K.locks, K.rest]
  cases c <;> simp only [Code.quiet, Code.locks, Code.wf, List.not_mem_nil, false_imp_iff, implies_true,
    List.mem_cons] at hw ⊢
  all_goals
    intro x hx
    have := hk _ _ hw
    first
      | exact this.2 _ hx
      | exact hx.elim (fun h => by rw [h]; exact this.1) (this.2 _)

theorem Code.unborn_locks (c : Code) : ∀ g ∈ c.unborn, g ∈ c.locks := by
  cases c <;> simp [Code.unborn, Code.locks]

theorem Code.empty_locks (c : Code) : ∀ g ∈ c.empty, g ∈ c.locks := by
  cases c <;> simp [Code.empty, Code.locks]

/-- Other threads keep what they hold. -/
theorem ThreadOk.guar {m m' : Mem} {t u : Nat} {th : Thread} (h : ThreadOk m u th) (hu : u ≠ t) (hg : GuarT t m m') :
    ThreadOk m' u th where
  refs := fun s => by rw [hg.refs s u hu]; exact h.refs s
  ems := fun g => by rw [hg.ems g u hu]; exact h.ems g
  held := fun g => (hg.held g u hu).trans (h.held g)
  nodup := h.nodup
  knows := fun g hk => (h.knows g hk).guarT hg
  calls := fun g hk => (h.calls g hk).guarT hg
  sigs := fun g hk => (h.sigs g hk).guarT hg
  callListed := fun p hp => by
    refine hg.grow _ _ ?_ (h.callListed p hp)
    have h1 := h.ems p.2
    have h2 : 0 < (callEms th.calls).count p.2 := by
      rw [List.count_pos_iff]
      simp only [callEms, Verif.Races.callListed, List.mem_map] at hp ⊢
      obtain ⟨c, hc, rfl⟩ := hp
      exact ⟨c, hc, rfl⟩
    intro h3
    rw [h3] at h1
    simp at h1
    omega
  listed := fun p hp => by
    rcases th.code.listed_why h.wf p hp with h1 | h1
    · refine hg.grow _ _ ?_ (h.listed p hp)
      have h2 := h.ems p.2
      have h3 : 0 < th.code.ems.count p.2 := List.count_pos_iff.2 h1
      intro h4
      rw [h4] at h2
      simp at h2
      omega
    · rw [(hg.list p.2 u hu ((h.held _).2 h1)).1]; exact h.listed p hp
  dying := fun s hs => hg.dying s u hu (h.dying s hs)
  quiet := fun g hq => by
    rw [(hg.list g u hu ((h.held _).2 (th.code.quiet_locks h.wf g hq))).2.1]; exact h.quiet g hq
  unborn := fun g hq => by
    rw [(hg.list g u hu ((h.held _).2 (th.code.unborn_locks g hq))).2.2]; exact h.unborn g hq
  empty := fun g hq => by
    rw [(hg.list g u hu ((h.held _).2 (th.code.empty_locks g hq))).1]; exact h.empty g hq
  wf := h.wf

structure StateOk (st : State) : Prop where
  mem : Inv st.mem
  threads : ∀ t, ThreadOk st.mem t (st.threads t)
  boxH : ∀ k s, (st.boxH k).count s = (st.mem.refs s).count (.box k)
  boxS : ∀ k g, g ∈ st.boxS k → st.mem.born g = true ∧ Through st.mem.tr (.rel k) (st.mem.birth g)

/-- No undefined behaviour, the invariant holds afterwards, and other threads keep what they have. -/
def Good (st : State) (t : Nat) : Out → Prop
  | .ok st' => StateOk st' ∧ GuarT t st.mem st'.mem
  | .off => True
  | .ub => False
  | .term => True

theorem good_free {st : State} {t : Nat} {m : Mem} {g : Nat} {k : Out} (h : m.held g = none → Good st t k) : Good st t (whenFree m g k) := by
  unfold whenFree
  split
  · exact h ‹_›
  · trivial

theorem good_orUb {st : State} {t : Nat} {α : Type} {x : Option α} {a : α} {k : α → Out} (hx : x = some a) (h : Good st t (k a)) : Good st t (orUb x k) := by
  rw [hx]; exact h

theorem good_go {st : State} {t : Nat} {m : Mem} {th : Thread} (h : StateOk st) (hi : Inv m) (hg : Guar t st.mem m)
    (ht : ThreadOk m t th) : Good st t (st.go t m th) := by
  refine ⟨{ mem := hi, threads := ?_, boxH := ?_, boxS := ?_ }, hg.toT⟩
  · intro u
    by_cases hu : u = t
    · subst hu; simpa [upd] using ht
    · simp only [upd, if_neg hu]
      exact (h.threads u).guar hu hg.toT
  · intro k s
    show _ = (m.refs s).count _
    rw [hg.refs s (.box k) (by simp)]
    exact h.boxH k s
  · intro k g hk
    obtain ⟨h1, h2⟩ := h.boxS k g hk
    obtain ⟨h3, h4⟩ := hg.born g h1
    obtain ⟨l, hl⟩ := hg.tr
    refine ⟨h3, ?_⟩
    show Through m.tr _ (m.birth g)
    rw [h4, hl]
    exact Under.append l h2

/-- Obligations of a thread that goes on to `c`. -/
structure Next (m m' : Mem) (t : Nat) (c c' : Code) : Prop where
  refs : ∀ s, c'.refs.count s + (m.refs s).count (.thread t) = c.refs.count s + (m'.refs s).count (.thread t)
  ems : ∀ g, c'.ems.count g + (m.ems g).count t = c.ems.count g + (m'.ems g).count t
  held : ∀ g, m'.held g = some t ↔ g ∈ c'.locks
  nodup : c'.locks.Nodup
  sigs : ∀ g ∈ c'.sigs, Knows m' t g
  listed : ∀ p ∈ c'.listed, p.1 ∈ m'.list p.2
  dying : ∀ s ∈ c'.dying, m'.dying s = some t
  quiet : ∀ g ∈ c'.quiet, m'.ems g = []
  unborn : ∀ g ∈ c'.unborn, m'.born g = false
  empty : ∀ g ∈ c'.empty, m'.list g = []
  wf : c'.wf

theorem ThreadOk.next {m m' : Mem} {t : Nat} {th : Thread} {c' : Code} (h : ThreadOk m t th) (hg : Guar t m m')
    (hn : Next m m' t th.code c') : ThreadOk m' t { th with code := c' } where
  refs := fun s => by have := h.refs s; have := hn.refs s; show th.handles.count s + (callRefs th.calls).count s + c'.refs.count s + th.lost.count s = _; omega
  ems := fun g => by have := h.ems g; have := hn.ems g; show (callEms th.calls).count g + c'.ems.count g = _; omega
  held := hn.held
  nodup := hn.nodup
  knows := fun g hk => (h.knows g hk).guar hg
  calls := fun g hk => (h.calls g hk).guar hg
  sigs := hn.sigs
  callListed := fun p hp => by
    refine hg.grow _ _ ?_ (h.callListed p hp)
    have h1 := h.ems p.2
    have h2 : 0 < (callEms th.calls).count p.2 := by
      rw [List.count_pos_iff]
      simp only [callEms, Verif.Races.callListed, List.mem_map] at hp ⊢
      obtain ⟨c, hc, rfl⟩ := hp
      exact ⟨c, hc, rfl⟩
    intro h3
    rw [h3] at h1
    simp at h1
    omega
  listed := hn.listed
  dying := hn.dying
  quiet := hn.quiet
  unborn := hn.unborn
  empty := hn.empty
  wf := hn.wf

end Verif.Races
