import Verif.Races.Leak

/-! Slots that are in no list and not connected stay so, even if signals are moved and swapped. -/

namespace Verif.Races

variable {st : State} {t s : Nat}

def Gone (s : Nat) (m : Mem) : Prop := s < m.nslots ∧ m.own s = none ∧ m.sender s = none

def GR (s : Nat) (m m' : Mem) : Prop := Gone s m → Gone s m'

theorem GR.trans {m m' m'' : Mem} (h : GR s m m') (h' : GR s m' m'') : GR s m m'' := fun x => h' (h x)

theorem gr_id {m m' : Mem} (hn : m'.nslots = m.nslots) (ho : m'.own = m.own) (hs : m'.sender = m.sender) :
    GR s m m' := fun h => ⟨by rw [hn]; exact h.1, by rw [ho]; exact h.2.1, by rw [hs]; exact h.2.2⟩

theorem gr_touch {m m' : Mem} {i : Nat} (h : m.touch t i = some m') : GR s m m' := by
  unfold Mem.touch at h
  split at h
  · cases h; exact gr_id rfl rfl rfl
  · cases h

theorem gr_addRef {m m' : Mem} {i : Nat} (h : m.addRef t i = some m') : GR s m m' := by
  unfold Mem.addRef at h
  cases ht : m.touch t i with
  | none => rw [ht] at h; cases h
  | some m1 =>
    rw [ht] at h
    cases h
    exact (gr_touch ht).trans (gr_id rfl rfl rfl)

theorem gr_sub {m : Mem} {r : Mem × Bool} {i : Nat} (h : m.sub t i = some r) : GR s m r.1 := by
  unfold Mem.sub at h
  split at h
  · cases h; exact gr_id rfl rfl rfl
  · cases h

theorem gr_del {m m' : Mem} {i : Nat} (h : m.del t i = some m') : GR s m m' := by
  unfold Mem.del at h
  split at h
  · cases h; exact gr_id rfl rfl rfl
  · cases h

theorem gr_store {m m' : Mem} {i : Nat} (h : m.store t i none = some m') : GR s m m' := by
  unfold Mem.store at h
  split at h
  · cases h; exact fun h => ⟨h.1, h.2.1, fades_none i s h.2.2⟩
  · cases h

theorem gr_rebind {m m' : Mem} {i g g' : Nat} (h : m.store t i (some g) = some m') (ho : m.own i = some g') :
    GR s m m' := by
  unfold Mem.store at h
  split at h
  · cases h
    refine fun h => ⟨h.1, h.2.1, ?_⟩
    show upd m.sender i (some g) s = none
    rw [upd_other]
    · exact h.2.2
    · intro hx
      rw [← hx, h.2.1] at ho
      cases ho
  · cases h

theorem gr_xchg {m : Mem} {r : Mem × Option Nat} {i : Nat} (h : m.xchg t i = some r) : GR s m r.1 := by
  unfold Mem.xchg at h
  split at h
  · cases h; exact fun h => ⟨h.1, h.2.1, fades_none i s h.2.2⟩
  · cases h

theorem gr_next {m : Mem} {g : Nat} {r : Mem × Option Nat} {i : Nat} (h : m.next t g i = some r) : GR s m r.1 := by
  unfold Mem.next at h
  split at h
  · cases h; exact gr_id rfl rfl rfl
  · cases h

theorem gr_remove {m m' : Mem} {g i : Nat} (h : m.remove t g i = some m') : GR s m m' := by
  unfold Mem.remove at h
  split at h
  · cases h
    refine fun h => ⟨h.1, ?_, h.2.2⟩
    show upd m.own i none s = none
    unfold upd
    split
    · rfl
    · exact h.2.1
  · cases h

theorem gr_insert (m : Mem) (g : Nat) (pos : Pos) : GR s m (m.insert t g pos) := by
  refine fun h => ⟨Nat.lt_succ_of_lt h.1, ?_, ?_⟩
  · show upd m.own m.nslots (some g) s = none
    rw [upd_other _ _ (Nat.ne_of_lt h.1)]
    exact h.2.1
  · show upd m.sender m.nslots (some g) s = none
    rw [upd_other _ _ (Nat.ne_of_lt h.1)]
    exact h.2.2

theorem gr_swapped (m : Mem) (g g' : Nat) : GR s m (m.swapped g g') :=
  fun h => ⟨h.1, by simp [Mem.swapped, h.2.1], h.2.2⟩

theorem gr_moved (m : Mem) (g g' : Nat) : GR s m (m.moved g g') :=
  fun h => ⟨h.1, by simp [Mem.moved, h.2.1], h.2.2⟩

def Stays (s : Nat) (m : Mem) (o : Out) : Prop := Gone s m → ∀ st', o = .ok st' → Gone s st'.mem

theorem stays_go {m m' : Mem} {th : Thread} (h : GR s m m') : Stays s m (st.go t m' th) := by
  intro hc st' hs
  cases hs
  exact h hc

theorem stays_ok {m m' : Mem} {f : Nat → Thread} {x y : Nat → List Nat} (h : GR s m m') :
    Stays s m (.ok ⟨m', f, x, y⟩) := by
  intro hc st' hs
  cases hs
  exact h hc

theorem stays_swapped {m m' : Mem} {g g' : Nat} {th : Thread} (h : GR s m m') :
    Stays s m (st.go t (m'.swapped g g') th) := stays_go (h.trans (gr_swapped _ _ _))

theorem stays_moved {m m' : Mem} {g g' : Nat} {th : Thread} (h : GR s m m') :
    Stays s m (st.go t (m'.moved g g') th) := stays_go (h.trans (gr_moved _ _ _))

theorem stays_off {m : Mem} : Stays s m .off := by intro _ _ h; cases h
theorem stays_ub {m : Mem} : Stays s m .ub := by intro _ _ h; cases h
theorem stays_term {m : Mem} : Stays s m .term := by intro _ _ h; cases h

theorem stays_free {m m' : Mem} {g : Nat} {k : Out} (h : Stays s m k) : Stays s m (whenFree m' g k) := by
  unfold whenFree
  split
  · exact h
  · exact stays_off

theorem stays_by {α : Type} {m0 m : Mem} {x : Option α} {k : α → Out} {f : α → Mem}
    (h0 : GR s m0 m) (h : ∀ a, x = some a → GR s m (f a)) (h' : ∀ a, x = some a → Stays s (f a) (k a)) :
    Stays s m0 (orUb x k) := by
  cases hx : x with
  | none => exact stays_ub
  | some a => exact fun hc st' hs => h' a hx (h a hx (h0 hc)) st' hs

theorem stays_touch {m0 m : Mem} {i : Nat} {k : Mem → Out} (h0 : GR s m0 m) (h : ∀ a, Stays s a (k a)) :
    Stays s m0 (orUb (m.touch t i) k) := stays_by (f := id) h0 (fun _ => gr_touch) fun a _ => h a
theorem stays_addRef {m0 m : Mem} {i : Nat} {k : Mem → Out} (h0 : GR s m0 m) (h : ∀ a, Stays s a (k a)) :
    Stays s m0 (orUb (m.addRef t i) k) := stays_by (f := id) h0 (fun _ => gr_addRef) fun a _ => h a
theorem stays_sub {m0 m : Mem} {i : Nat} {k : Mem × Bool → Out} (h0 : GR s m0 m) (h : ∀ a, Stays s a.1 (k a)) :
    Stays s m0 (orUb (m.sub t i) k) := stays_by (f := (·.1)) h0 (fun _ => gr_sub) fun a _ => h a
theorem stays_del {m0 m : Mem} {i : Nat} {k : Mem → Out} (h0 : GR s m0 m) (h : ∀ a, Stays s a (k a)) :
    Stays s m0 (orUb (m.del t i) k) := stays_by (f := id) h0 (fun _ => gr_del) fun a _ => h a
theorem stays_store {m0 m : Mem} {i : Nat} {k : Mem → Out} (h0 : GR s m0 m) (h : ∀ a, Stays s a (k a)) :
    Stays s m0 (orUb (m.store t i none) k) := stays_by (f := id) h0 (fun _ => gr_store) fun a _ => h a
theorem stays_next {m0 m : Mem} {g i : Nat} {k : Mem × Option Nat → Out} (h0 : GR s m0 m)
    (h : ∀ a, Stays s a.1 (k a)) : Stays s m0 (orUb (m.next t g i) k) :=
  stays_by (f := (·.1)) h0 (fun _ => gr_next) fun a _ => h a
theorem stays_xchg {m0 m : Mem} {i : Nat} {k : Mem × Option Nat → Out} (h0 : GR s m0 m)
    (h : ∀ a, Stays s a.1 (k a)) : Stays s m0 (orUb (m.xchg t i) k) :=
  stays_by (f := (·.1)) h0 (fun _ => gr_xchg) fun a _ => h a
theorem stays_remove {m0 m : Mem} {g i : Nat} {k : Mem → Out} (h0 : GR s m0 m)
    (h : ∀ a, Stays s a (k a)) : Stays s m0 (orUb (m.remove t g i) k) :=
  stays_by (f := id) h0 (fun _ => gr_remove) fun a _ => h a

macro "stays" : tactic => `(tactic|
  repeat' (first
    | exact stays_off
    | exact stays_ub
    | exact stays_term
    | exact stays_go (gr_id rfl rfl rfl)
    | exact stays_go ((gr_id rfl rfl rfl).trans (gr_insert (Mem.lock _ _ _) _ _))
    | (refine stays_swapped ?_; exact gr_id rfl rfl rfl)
    | (refine stays_moved ?_; exact gr_id rfl rfl rfl)
    | exact stays_ok (gr_id rfl rfl rfl)
    | (apply stays_free)
    | (refine stays_touch (gr_id rfl rfl rfl) fun _ => ?_)
    | (refine stays_addRef (gr_id rfl rfl rfl) fun _ => ?_)
    | (refine stays_sub (gr_id rfl rfl rfl) fun _ => ?_)
    | (refine stays_del (gr_id rfl rfl rfl) fun _ => ?_)
    | (refine stays_store (gr_id rfl rfl rfl) fun _ => ?_)
    | (refine stays_next (gr_id rfl rfl rfl) fun _ => ?_)
    | (refine stays_remove (gr_id rfl rfl rfl) fun _ => ?_)
    | (refine stays_xchg (gr_id rfl rfl rfl) fun _ => ?_)
    | split))

theorem stepUser_stays {op : Op} {th : Thread} : Stays s st.mem (stepUser st t th op) := by
  cases op <;> simp only [stepUser] <;> stays

theorem stepCode_stays {b : Bool} (h : StateOk st) : Stays s st.mem (stepCode st t (st.threads t) b) := by
  have hl := (h.threads t).listed
  cases hc : (st.threads t).code with
  | rb g iter k =>
    rw [hc] at hl
    simp only [stepCode, hc]
    cases iter with
    | none => dsimp only; stays
    | some i =>
      have ho := (h.mem.lists i g).1 (hl (i, g) (by code))
      exact stays_by (f := id) (gr_id rfl rfl rfl) (fun _ ha => gr_rebind ha ho) fun a _ => by stays
  | _ => simp only [stepCode, hc]; stays

theorem step_stays {op : Op} (h : StateOk st) : Stays s st.mem (step st t op) := by
  unfold step
  dsimp only
  split
  · exact stepCode_stays h
  · split
    · exact stepUser_stays
    · exact stays_off

theorem run_gone : ∀ (l : List (Nat × Op)) {st st' : State}, StateOk st → Gone s st.mem → run st l = .ok st' →
    Gone s st'.mem ∧ StateOk st'
  | [], st, st', h, hg, hr => by cases hr; exact ⟨hg, h⟩
  | (u, op) :: l, st, st', h, hg, hr => by
    simp only [run] at hr
    split at hr
    · rename_i st1 hs
      have h1 := step_ok (t := u) (op := op) h
      rw [hs] at h1
      exact run_gone l h1.1 (step_stays h hg st1 hs) hr
    · rename_i o hne
      exact absurd hr (hne _)

end Verif.Races
