import Verif.Races.Progress

/-! What is disconnected stays so, as long as no signal is moved or swapped. -/

namespace Verif.Races

variable {st : State} {t : Nat}

/-- Slots that are not connected stay so. -/
def Fades (m m' : Mem) : Prop := m.nslots ≤ m'.nslots ∧ ∀ s, s < m.nslots → m.sender s = none → m'.sender s = none

theorem Fades.trans {m m' m'' : Mem} (h : Fades m m') (h' : Fades m' m'') : Fades m m'' :=
  ⟨Nat.le_trans h.1 h'.1, fun s hs hn => h'.2 s (Nat.lt_of_lt_of_le hs h.1) (h.2 s hs hn)⟩

theorem Fades.refl (m : Mem) : Fades m m := ⟨Nat.le_refl _, fun _ _ h => h⟩

theorem fades_touch {m m' : Mem} {s : Nat} (h : m.touch t s = some m') : Fades m m' := by
  unfold Mem.touch at h
  split at h
  · cases h; exact ⟨Nat.le_refl _, fun _ _ h => h⟩
  · cases h

theorem fades_addRef {m m' : Mem} {s : Nat} (h : m.addRef t s = some m') : Fades m m' := by
  unfold Mem.addRef at h
  cases ht : m.touch t s with
  | none => rw [ht] at h; cases h
  | some m1 =>
    rw [ht] at h
    cases h
    exact (fades_touch ht).trans ⟨Nat.le_refl _, fun _ _ h => h⟩

theorem fades_sub {m : Mem} {r : Mem × Bool} {s : Nat} (h : m.sub t s = some r) : Fades m r.1 := by
  unfold Mem.sub at h
  split at h
  · cases h; exact ⟨Nat.le_refl _, fun _ _ h => h⟩
  · cases h

theorem fades_del {m m' : Mem} {s : Nat} (h : m.del t s = some m') : Fades m m' := by
  unfold Mem.del at h
  split at h
  · cases h; exact ⟨Nat.le_refl _, fun _ _ h => h⟩
  · cases h

theorem fades_none {m : Mem} (s : Nat) : ∀ x, m.sender x = none → upd m.sender s none x = none := by
  intro x hx
  unfold upd
  split
  · rfl
  · exact hx

theorem fades_store {m m' : Mem} {s : Nat} (h : m.store t s none = some m') : Fades m m' := by
  unfold Mem.store at h
  split at h
  · cases h; exact ⟨Nat.le_refl _, fun x _ hx => fades_none s x hx⟩
  · cases h

theorem fades_xchg {m : Mem} {r : Mem × Option Nat} {s : Nat} (h : m.xchg t s = some r) : Fades m r.1 := by
  unfold Mem.xchg at h
  split at h
  · cases h; exact ⟨Nat.le_refl _, fun x _ hx => fades_none s x hx⟩
  · cases h

theorem fades_next {m : Mem} {g : Nat} {r : Mem × Option Nat} {s : Nat} (h : m.next t g s = some r) : Fades m r.1 := by
  unfold Mem.next at h
  split at h
  · cases h; exact ⟨Nat.le_refl _, fun _ _ h => h⟩
  · cases h

theorem fades_remove {m m' : Mem} {g s : Nat} (h : m.remove t g s = some m') : Fades m m' := by
  unfold Mem.remove at h
  split at h
  · cases h; exact ⟨Nat.le_refl _, fun _ _ h => h⟩
  · cases h

theorem fades_insert (m : Mem) (g : Nat) (pos : Pos) : Fades m (m.insert t g pos) := by
  refine ⟨Nat.le_succ _, fun s hs hn => ?_⟩
  show upd m.sender m.nslots (some g) s = none
  rw [upd_other _ _ (Nat.ne_of_lt hs)]
  exact hn

/-- Neither moving nor swapping. -/
def Code.still : Code → Bool
  | .cl _ _ (.em _) => true
  | .cl .. => false
  | .clRel _ _ _ (.em _) => true
  | .clRel .. => false
  | .clDel _ _ _ (.em _) => true
  | .clDel .. => false
  | .rb .. => false
  | .swLock .. => false
  | .mvLock .. => false
  | .mvUnl .. => false
  | .mvLock2 .. => false
  | _ => true

def Calm (st : State) (t : Nat) (m : Mem) (o : Out) : Prop :=
  ∀ st', o = .ok st' → (st'.threads t).code.still = true ∧ Fades m st'.mem

theorem calm_go {m m' : Mem} {th : Thread} (h : th.code.still = true) (h' : Fades m m') :
    Calm st t m (st.go t m' th) := by
  intro st' hs
  cases hs
  refine ⟨?_, h'⟩
  show (upd st.threads t th t).code.still = true
  rw [upd_same]
  exact h

theorem calm_ok {m m' : Mem} {th : Thread} {x y : Nat → List Nat} (h : th.code.still = true) (h' : Fades m m') :
    Calm st t m (.ok ⟨m', upd st.threads t th, x, y⟩) := by
  intro st' hs
  cases hs
  refine ⟨?_, h'⟩
  show (upd st.threads t th t).code.still = true
  rw [upd_same]
  exact h

theorem calm_same {m m' : Mem} {x y : Nat → List Nat} (h : (st.threads t).code.still = true) (h' : Fades m m') :
    Calm st t m (.ok ⟨m', st.threads, x, y⟩) := by
  intro st' hs
  cases hs
  exact ⟨h, h'⟩

theorem calm_orUb {α : Type} {m : Mem} {x : Option α} {k : α → Out} (h : ∀ a, x = some a → Calm st t m (k a)) :
    Calm st t m (orUb x k) := by
  cases x with
  | none => intro _ h; cases h
  | some a => exact h a rfl

theorem calm_free {m m' : Mem} {g : Nat} {k : Out} (h : Calm st t m k) : Calm st t m (whenFree m' g k) := by
  unfold whenFree
  split
  · exact h
  · intro _ h; cases h

theorem calm_off {m : Mem} : Calm st t m .off := by intro _ h; cases h
theorem calm_ub {m : Mem} : Calm st t m .ub := by intro _ h; cases h
theorem calm_term {m : Mem} : Calm st t m .term := by intro _ h; cases h

theorem Calm.weaken {m m' : Mem} {o : Out} (h : Fades m m') (h' : Calm st t m' o) : Calm st t m o :=
  fun st' hs => ⟨(h' st' hs).1, h.trans (h' st' hs).2⟩

theorem fades_id {m : Mem} {r : Mem} (h : r.sender = m.sender) (hn : r.nslots = m.nslots) : Fades m r :=
  ⟨Nat.le_of_eq hn.symm, fun s _ hx => by rw [h]; exact hx⟩

theorem calm_by {α : Type} {m0 m : Mem} {x : Option α} {k : α → Out} {f : α → Mem}
    (h0 : Fades m0 m) (h : ∀ a, x = some a → Fades m (f a)) (h' : ∀ a, x = some a → Calm st t (f a) (k a)) :
    Calm st t m0 (orUb x k) :=
  calm_orUb fun a ha => ((h' a ha).weaken (h a ha)).weaken h0

theorem calm_touch {m0 m : Mem} {s : Nat} {k : Mem → Out} (h0 : Fades m0 m) (h : ∀ a, Calm st t a (k a)) :
    Calm st t m0 (orUb (m.touch t s) k) := calm_by (f := id) h0 (fun _ => fades_touch) fun a _ => h a
theorem calm_addRef {m0 m : Mem} {s : Nat} {k : Mem → Out} (h0 : Fades m0 m) (h : ∀ a, Calm st t a (k a)) :
    Calm st t m0 (orUb (m.addRef t s) k) := calm_by (f := id) h0 (fun _ => fades_addRef) fun a _ => h a
theorem calm_sub {m0 m : Mem} {s : Nat} {k : Mem × Bool → Out} (h0 : Fades m0 m) (h : ∀ a, Calm st t a.1 (k a)) :
    Calm st t m0 (orUb (m.sub t s) k) := calm_by (f := (·.1)) h0 (fun _ => fades_sub) fun a _ => h a
theorem calm_del {m0 m : Mem} {s : Nat} {k : Mem → Out} (h0 : Fades m0 m) (h : ∀ a, Calm st t a (k a)) :
    Calm st t m0 (orUb (m.del t s) k) := calm_by (f := id) h0 (fun _ => fades_del) fun a _ => h a
theorem calm_store {m0 m : Mem} {s : Nat} {k : Mem → Out} (h0 : Fades m0 m) (h : ∀ a, Calm st t a (k a)) :
    Calm st t m0 (orUb (m.store t s none) k) := calm_by (f := id) h0 (fun _ => fades_store) fun a _ => h a
theorem calm_next {m0 m : Mem} {g s : Nat} {k : Mem × Option Nat → Out} (h0 : Fades m0 m)
    (h : ∀ a, Calm st t a.1 (k a)) : Calm st t m0 (orUb (m.next t g s) k) :=
  calm_by (f := (·.1)) h0 (fun _ => fades_next) fun a _ => h a
theorem calm_xchg {m0 m : Mem} {s : Nat} {k : Mem × Option Nat → Out} (h0 : Fades m0 m)
    (h : ∀ a, Calm st t a.1 (k a)) : Calm st t m0 (orUb (m.xchg t s) k) :=
  calm_by (f := (·.1)) h0 (fun _ => fades_xchg) fun a _ => h a
theorem calm_remove {m0 m : Mem} {g s : Nat} {k : Mem → Out} (h0 : Fades m0 m)
    (h : ∀ a, Calm st t a (k a)) : Calm st t m0 (orUb (m.remove t g s) k) :=
  calm_by (f := id) h0 (fun _ => fades_remove) fun a _ => h a

macro "calm" : tactic => `(tactic|
  repeat' (first
    | exact calm_off
    | exact calm_ub
    | exact calm_term
    | exact calm_go rfl (fades_id rfl rfl)
    | exact calm_go ‹_› (fades_id rfl rfl)
    | exact calm_go rfl ((fades_id rfl rfl).trans (fades_insert (Mem.lock _ _ _) ..))
    | exact calm_ok ‹_› (fades_id rfl rfl)
    | exact calm_same ‹_› (fades_id rfl rfl)
    | (apply calm_free)
    | (refine calm_touch (fades_id rfl rfl) fun _ => ?_)
    | (refine calm_addRef (fades_id rfl rfl) fun _ => ?_)
    | (refine calm_sub (fades_id rfl rfl) fun _ => ?_)
    | (refine calm_del (fades_id rfl rfl) fun _ => ?_)
    | (refine calm_store (fades_id rfl rfl) fun _ => ?_)
    | (refine calm_next (fades_id rfl rfl) fun _ => ?_)
    | (refine calm_remove (fades_id rfl rfl) fun _ => ?_)
    | (refine calm_xchg (fades_id rfl rfl) fun _ => ?_)
    | (refine calm_go ?_ (fades_id rfl rfl); dsimp only [thenDel]; split <;> rfl)
    | split))

theorem stepCode_calm {b : Bool} {th : Thread} (h : th.code.still = true) : Calm st t st.mem (stepCode st t th b) := by
  obtain ⟨c, calls, handles, knows, lost⟩ := th
  cases c with
  | cl g iter k =>
    cases k with
    | em x => simp only [stepCode, K.cleaned]; calm
    | _ => cases h
  | clRel g s next k =>
    cases k with
    | em x => simp only [stepCode]; calm
    | _ => cases h
  | clDel g s next k =>
    cases k with
    | em x => simp only [stepCode]; calm
    | _ => cases h
  | rb => cases h
  | swLock => cases h
  | mvLock => cases h
  | mvUnl => cases h
  | mvLock2 => cases h
  | _ => simp only [stepCode]; calm

theorem stepUser_calm {op : Op} (h : (st.threads t).code.still = true) (hs : ∀ g g', op ≠ .swap g g')
    (hm : ∀ g, op ≠ .moveSig g) : Calm st t st.mem (stepUser st t (st.threads t) op) := by
  cases op with
  | swap g g' => exact absurd rfl (hs g g')
  | moveSig g => exact absurd rfl (hm g)
  | _ => simp only [stepUser]; calm

theorem step_calm {op : Op} (h : (st.threads t).code.still = true) (hs : ∀ g g', op ≠ .swap g g')
    (hm : ∀ g, op ≠ .moveSig g) : Calm st t st.mem (step st t op) := by
  unfold step
  dsimp only
  split
  · exact stepCode_calm h
  · split
    · exact stepUser_calm h hs hm
    · exact calm_off

theorem run_calm : ∀ (l : List (Nat × Op)) {st st' : State}, (∀ t, (st.threads t).code.still = true) →
    (∀ x ∈ l, (∀ g g', x.2 ≠ .swap g g') ∧ ∀ g, x.2 ≠ .moveSig g) → run st l = .ok st' →
    (∀ t, (st'.threads t).code.still = true) ∧ Fades st.mem st'.mem
  | [], st, st', h, _, hr => by cases hr; exact ⟨h, .refl _⟩
  | (u, op) :: l, st, st', h, ho, hr => by
    simp only [run] at hr
    split at hr
    · rename_i st1 hs
      have hx := ho (u, op) (by simp)
      have h1 := step_calm (h u) hx.1 hx.2 st1 hs
      have h2 := run_calm l (st := st1) (fun v => ?_) (fun x hx => ho x (by simp [hx])) hr
      · exact ⟨h2.1, h1.2.trans h2.2⟩
      · by_cases hv : v = u
        · subst hv; exact h1.1
        · rw [step_only st1 hs v hv]; exact h v
    · rename_i o hne
      exact absurd hr (hne _)

end Verif.Races
