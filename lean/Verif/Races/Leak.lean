import Verif.Races.Calm

/-! Slots that nobody refers to are deleted. -/

namespace Verif.Races

variable {st : State} {t : Nat}

/-- Every slot that exists is referred to, or about to be deleted. -/
def Keep (m : Mem) : Prop := ∀ s, m.live s = true → m.refs s ≠ [] ∨ m.own s ≠ none ∨ m.dying s ≠ none

/-- … but not by thread `t`. -/
def Clean (t : Nat) (m : Mem) : Prop := Keep m ∧ ∀ s, m.dying s ≠ some t

def KR (t : Nat) (m m' : Mem) : Prop :=
  (Clean t m → Clean t m') ∧ ∀ s u, u ≠ t → m'.dying s = some u → m.dying s = some u

theorem KR.trans {m m' m'' : Mem} (h : KR t m m') (h' : KR t m' m'') : KR t m m'' :=
  ⟨fun x => h'.1 (h.1 x), fun s u hu hx => h.2 s u hu (h'.2 s u hu hx)⟩

theorem kr_of {m m' : Mem} (hl : m'.live = m.live) (hr : ∀ s, m.refs s ≠ [] → m'.refs s ≠ [])
    (ho : ∀ s, m.own s ≠ none → m'.own s ≠ none ∨ m'.refs s ≠ []) (hd : m'.dying = m.dying) : KR t m m' := by
  refine ⟨fun h => ⟨fun s hs => ?_, by rw [hd]; exact h.2⟩, fun s u _ hx => by rw [← hd]; exact hx⟩
  rw [hl] at hs
  rcases h.1 s hs with h1 | h1 | h1
  · exact .inl (hr s h1)
  · rcases ho s h1 with h2 | h2
    · exact .inr (.inl h2)
    · exact .inl h2
  · exact .inr (.inr (by rw [hd]; exact h1))

theorem kr_id {m m' : Mem} (hl : m'.live = m.live) (hr : m'.refs = m.refs) (ho : m'.own = m.own)
    (hd : m'.dying = m.dying) : KR t m m' :=
  kr_of hl (fun s h => by rw [hr]; exact h) (fun s h => by rw [ho]; exact .inl h) hd

theorem upd_refs {f : Nat → List Holder} {i : Nat} {h : Holder} {l : List Holder} :
    ∀ s, f s ≠ [] → upd f i (h :: l) s ≠ [] := by
  intro s hs
  unfold upd
  split
  · simp
  · exact hs

theorem kr_touch {m m' : Mem} {s : Nat} (h : m.touch t s = some m') : KR t m m' := by
  unfold Mem.touch at h
  split at h
  · cases h; exact kr_id rfl rfl rfl rfl
  · cases h

theorem kr_addRef {m m' : Mem} {s : Nat} (h : m.addRef t s = some m') : KR t m m' := by
  unfold Mem.addRef at h
  cases ht : m.touch t s with
  | none => rw [ht] at h; cases h
  | some m1 =>
    rw [ht] at h
    cases h
    exact (kr_touch ht).trans (kr_of rfl upd_refs (fun _ h => .inl h) rfl)

theorem kr_store {m m' : Mem} {s : Nat} {v : Option Nat} (h : m.store t s v = some m') : KR t m m' := by
  unfold Mem.store at h
  split at h
  · cases h; exact kr_id rfl rfl rfl rfl
  · cases h

theorem kr_xchg {m : Mem} {r : Mem × Option Nat} {s : Nat} (h : m.xchg t s = some r) : KR t m r.1 := by
  unfold Mem.xchg at h
  split at h
  · cases h; exact kr_id rfl rfl rfl rfl
  · cases h

theorem kr_next {m : Mem} {g : Nat} {r : Mem × Option Nat} {s : Nat} (h : m.next t g s = some r) : KR t m r.1 := by
  unfold Mem.next at h
  split at h
  · cases h; exact kr_id rfl rfl rfl rfl
  · cases h

theorem kr_remove {m m' : Mem} {g s : Nat} (h : m.remove t g s = some m') : KR t m m' := by
  unfold Mem.remove at h
  split at h
  · cases h
    refine kr_of rfl upd_refs (fun x hx => ?_) rfl
    by_cases hxs : x = s
    · subst hxs
      exact .inr (by simp [Mem.removed, Mem.ev, upd])
    · exact .inl (by simpa [Mem.removed, Mem.ev, upd, hxs] using hx)
  · cases h

theorem kr_insert (m : Mem) (g : Nat) (pos : Pos) : KR t m (m.insert t g pos) := by
  refine ⟨fun h => ⟨fun s hs => ?_, h.2⟩, fun _ _ _ h => h⟩
  by_cases hn : s = m.nslots
  · subst hn
    exact .inr (.inl (by simp [Mem.insert, Mem.made, Mem.ev, upd]))
  · simp only [Mem.insert, Mem.made, Mem.ev, upd, if_neg hn] at hs ⊢
    exact h.1 s hs

theorem kr_swapped (m : Mem) (g g' : Nat) : KR t m (m.swapped g g') := by
  refine kr_of rfl (fun _ h => h) (fun s h => .inl ?_) rfl
  simp only [Mem.swapped]
  split
  · simp
  · split
    · simp
    · exact h

theorem kr_moved (m : Mem) (g g' : Nat) : KR t m (m.moved g g') := by
  refine kr_of rfl (fun _ h => h) (fun s h => .inl ?_) rfl
  simp only [Mem.moved]
  split
  · simp
  · exact h

theorem kr_given (m : Mem) (s k : Nat) : KR t m (m.given t s k) := kr_of rfl upd_refs (fun _ h => .inl h) rfl
theorem kr_taken (m : Mem) (s k : Nat) : KR t m (m.taken t s k) := kr_of rfl upd_refs (fun _ h => .inl h) rfl

/-- What a step keeps. -/
def Keeps (st : State) (t : Nat) (m : Mem) (o : Out) : Prop :=
  Clean t m → ∀ st', o = .ok st' → Keep st'.mem ∧
    (∀ s u, u ≠ t → st'.mem.dying s = some u → m.dying s = some u) ∧
    ∀ s, st'.mem.dying s = some t → s ∈ (st'.threads t).code.dying

theorem keeps_any {m m' : Mem} {o : Out} (h : KR t m m') (hm : ∀ st', o = .ok st' → st'.mem = m') : Keeps st t m o := by
  intro hc st' hs
  have h1 := h.1 hc
  rw [hm st' hs]
  exact ⟨h1.1, h.2, fun s hx => absurd hx (h1.2 s)⟩

theorem keeps_go {m m' : Mem} {th : Thread} (h : KR t m m') : Keeps st t m (st.go t m' th) :=
  keeps_any h (by intro _ h; cases h; rfl)

theorem keeps_swapped {m m' : Mem} {g g' : Nat} {th : Thread} (h : KR t m m') :
    Keeps st t m (st.go t (m'.swapped g g') th) := keeps_go (h.trans (kr_swapped ..))

theorem keeps_moved {m m' : Mem} {g g' : Nat} {th : Thread} (h : KR t m m') :
    Keeps st t m (st.go t (m'.moved g g') th) := keeps_go (h.trans (kr_moved ..))

theorem keeps_ok {m m' : Mem} {f : Nat → Thread} {x y : Nat → List Nat} (h : KR t m m') :
    Keeps st t m (.ok ⟨m', f, x, y⟩) := keeps_any h (by intro _ h; cases h; rfl)

theorem keeps_off {m : Mem} : Keeps st t m .off := by intro _ _ h; cases h
theorem keeps_ub {m : Mem} : Keeps st t m .ub := by intro _ _ h; cases h
theorem keeps_term {m : Mem} : Keeps st t m .term := by intro _ _ h; cases h

theorem keeps_free {m m' : Mem} {g : Nat} {k : Out} (h : Keeps st t m k) : Keeps st t m (whenFree m' g k) := by
  unfold whenFree
  split
  · exact h
  · exact keeps_off

theorem keeps_by {α : Type} {m0 m : Mem} {x : Option α} {k : α → Out} {f : α → Mem}
    (h0 : KR t m0 m) (h : ∀ a, x = some a → KR t m (f a)) (h' : ∀ a, x = some a → Keeps st t (f a) (k a)) :
    Keeps st t m0 (orUb x k) := by
  cases hx : x with
  | none => exact keeps_ub
  | some a =>
    intro hc st' hs
    have h2 := h0.trans (h a hx)
    have h3 := h' a hx (h2.1 hc) st' hs
    exact ⟨h3.1, fun s u hu hd => h2.2 s u hu (h3.2.1 s u hu hd), h3.2.2⟩

theorem keeps_touch {m0 m : Mem} {s : Nat} {k : Mem → Out} (h0 : KR t m0 m) (h : ∀ a, Keeps st t a (k a)) :
    Keeps st t m0 (orUb (m.touch t s) k) := keeps_by (f := id) h0 (fun _ => kr_touch) fun a _ => h a
theorem keeps_addRef {m0 m : Mem} {s : Nat} {k : Mem → Out} (h0 : KR t m0 m) (h : ∀ a, Keeps st t a (k a)) :
    Keeps st t m0 (orUb (m.addRef t s) k) := keeps_by (f := id) h0 (fun _ => kr_addRef) fun a _ => h a
theorem keeps_store {m0 m : Mem} {s : Nat} {v : Option Nat} {k : Mem → Out} (h0 : KR t m0 m)
    (h : ∀ a, Keeps st t a (k a)) :
    Keeps st t m0 (orUb (m.store t s v) k) := keeps_by (f := id) h0 (fun _ => kr_store) fun a _ => h a
theorem keeps_next {m0 m : Mem} {g s : Nat} {k : Mem × Option Nat → Out} (h0 : KR t m0 m)
    (h : ∀ a, Keeps st t a.1 (k a)) : Keeps st t m0 (orUb (m.next t g s) k) :=
  keeps_by (f := (·.1)) h0 (fun _ => kr_next) fun a _ => h a
theorem keeps_xchg {m0 m : Mem} {s : Nat} {k : Mem × Option Nat → Out} (h0 : KR t m0 m)
    (h : ∀ a, Keeps st t a.1 (k a)) : Keeps st t m0 (orUb (m.xchg t s) k) :=
  keeps_by (f := (·.1)) h0 (fun _ => kr_xchg) fun a _ => h a
theorem keeps_remove {m0 m : Mem} {g s : Nat} {k : Mem → Out} (h0 : KR t m0 m)
    (h : ∀ a, Keeps st t a (k a)) : Keeps st t m0 (orUb (m.remove t g s) k) :=
  keeps_by (f := id) h0 (fun _ => kr_remove) fun a _ => h a

/-- A release leaves the slot with another reference, or makes this thread delete it. -/
theorem keeps_sub {m : Mem} {f : Mem × Bool → Thread} (s : Nat) (yes no : Code) (hi : Inv m)
    (hr : .thread t ∈ m.refs s) (hf : ∀ r, (f r).code = thenDel r yes no) (hy : s ∈ yes.dying) :
    Keeps st t m (orUb (m.sub t s) fun r => st.go t r.1 (f r)) := by
  unfold Mem.sub
  split
  · intro hc st' hs
    cases hs
    have hcount := hi.count s (hi.refsLive s _ hr).1
    have hlen := List.length_erase_of_mem hr
    refine ⟨fun x hx => ?_, fun x u hu hx => ?_, fun x hx => ?_⟩
    · have hx : m.live x = true := hx
      by_cases hxs : x = s
      · subst hxs
        simp only [Mem.subbed, Mem.ev, upd_same]
        by_cases h1 : m.count x = 1
        · exact .inr (.inr (by rw [if_pos h1, upd_same]; simp))
        · cases ho : m.own x with
          | some g => exact .inr (.inl (by simp))
          | none =>
            left
            intro h0
            rw [h0] at hlen
            rw [ho] at hcount
            have := List.length_pos_of_mem hr
            simp only [List.length_nil, Option.toList_none] at hlen hcount
            omega
      · simp only [Mem.subbed, Mem.ev, upd_other _ _ hxs]
        rcases hc.1 x hx with h1 | h1 | h1
        · exact .inl h1
        · exact .inr (.inl h1)
        · right; right
          split
          · rw [upd_other _ _ hxs]; exact h1
          · exact h1
    · simp only [Mem.subbed, Mem.ev] at hx
      split at hx
      · unfold upd at hx
        split at hx
        · cases hx; exact absurd rfl hu
        · exact hx
      · exact hx
    · simp only [Mem.subbed, Mem.ev] at hx
      show x ∈ (upd st.threads t _ t).code.dying
      rw [upd_same, hf]
      split at hx
      · rename_i h1
        unfold upd at hx
        split at hx
        · rename_i hxs
          subst hxs
          simpa [thenDel, h1] using hy
        · exact absurd hx (hc.2 x)
      · exact absurd hx (hc.2 x)
  · exact keeps_ub

/-- `delete` of the slot that is about to be deleted. -/
theorem del_keeps {m : Mem} {s : Nat} {th : Thread} (hk : Keep m) (hd : ∀ x, m.dying x = some t → x = s)
    {st' : State} (hs : (orUb (m.del t s) fun m => st.go t m th) = .ok st') :
    Keep st'.mem ∧ (∀ x u, u ≠ t → st'.mem.dying x = some u → m.dying x = some u) ∧
      ∀ x, st'.mem.dying x = some t → x ∈ (st'.threads t).code.dying := by
  unfold Mem.del at hs
  split at hs
  · cases hs
    refine ⟨fun x hx => ?_, fun x u _ hx => ?_, fun x hx => ?_⟩
    · simp only [Mem.deleted, Mem.ev] at hx ⊢
      by_cases hxs : x = s
      · subst hxs; rw [upd_same] at hx; cases hx
      · rw [upd_other _ _ hxs] at hx ⊢
        exact hk x hx
    · simp only [Mem.deleted, Mem.ev] at hx
      unfold upd at hx
      split at hx
      · cases hx
      · exact hx
    · simp only [Mem.deleted, Mem.ev] at hx
      unfold upd at hx
      split at hx
      · cases hx
      · rename_i hxs
        exact absurd (hd x hx) hxs
  · cases hs

macro "keeps" : tactic => `(tactic|
  repeat' (first
    | exact keeps_off
    | exact keeps_ub
    | exact keeps_term
    | exact keeps_go (kr_id rfl rfl rfl rfl)
    | exact keeps_go ((kr_id rfl rfl rfl rfl).trans (kr_insert (Mem.lock _ _ _) ..))
    | (refine keeps_swapped ?_; exact kr_id rfl rfl rfl rfl)
    | (refine keeps_moved ?_; exact kr_id rfl rfl rfl rfl)
    | exact keeps_ok (kr_id rfl rfl rfl rfl)
    | exact keeps_ok (kr_given ..)
    | exact keeps_ok (kr_taken ..)
    | (apply keeps_free)
    | (refine keeps_touch (kr_id rfl rfl rfl rfl) fun _ => ?_)
    | (refine keeps_addRef (kr_id rfl rfl rfl rfl) fun _ => ?_)
    | (refine keeps_store (kr_id rfl rfl rfl rfl) fun _ => ?_)
    | (refine keeps_next (kr_id rfl rfl rfl rfl) fun _ => ?_)
    | (refine keeps_remove (kr_id rfl rfl rfl rfl) fun _ => ?_)
    | (refine keeps_xchg (kr_id rfl rfl rfl rfl) fun _ => ?_)
    | split))

theorem stepUser_keeps {op : Op} {th : Thread} : Keeps st t st.mem (stepUser st t th op) := by
  cases op <;> simp only [stepUser] <;> keeps

theorem stepCode_keeps {b : Bool} (h : StateOk st) (hd : (st.threads t).code.dying = []) :
    Keeps st t st.mem (stepCode st t (st.threads t) b) := by
  have ht := h.threads t
  have hr := fun s hs => ht.ref (s := s) hs
  generalize hth : st.threads t = th at *
  obtain ⟨c, calls, handles, knows, lost⟩ := th
  cases c with
  | emRel g last c next =>
    simp only [stepCode]
    exact keeps_sub c (.emDel g last c next) (.emHead g last next) h.mem (hr c (by code)) (fun _ => rfl) (by code)
  | emFin g last =>
    cases last with
    | none => simp only [stepCode]; keeps
    | some s =>
      simp only [stepCode]
      exact keeps_sub s (.emFinDel g s) (.emEnd g) h.mem (hr s (by code)) (fun _ => rfl) (by code)
  | clRel g s next k =>
    simp only [stepCode]
    exact keeps_sub s (.clDel g s next k) (.cl g next k) h.mem (hr s (by code)) (fun _ => rfl) (by code)
  | disRel s g =>
    simp only [stepCode]
    exact keeps_sub s (.disDel s g) (.disUnl s g) h.mem (hr s (by code)) (fun _ => rfl) (by code)
  | rel s =>
    simp only [stepCode]
    exact keeps_sub s (.del s) .idle h.mem (hr s (by code)) (fun _ => rfl) (by code)
  | allRel g s next =>
    simp only [stepCode]
    exact keeps_sub s (.allDel g s next) (.allLoop g next) h.mem (hr s (by code)) (fun _ => rfl) (by code)
  | emDel | emFinDel | clDel | disDel | del | allDel => cases hd
  | _ => simp only [stepCode]; keeps

/-- The invariant. -/
structure Kept (st : State) : Prop where
  keep : Keep st.mem
  dying : ∀ s t, st.mem.dying s = some t → s ∈ (st.threads t).code.dying

theorem step_kept {op : Op} {st' : State} (h : StateOk st) (hk : Kept st) (hs : step st t op = .ok st') : Kept st' := by
  suffices h1 : Keep st'.mem ∧ (∀ s u, u ≠ t → st'.mem.dying s = some u → st.mem.dying s = some u) ∧
      ∀ s, st'.mem.dying s = some t → s ∈ (st'.threads t).code.dying by
    refine ⟨h1.1, fun s u hx => ?_⟩
    by_cases hu : u = t
    · subst hu; exact h1.2.2 s hx
    · rw [step_only st' hs u hu]
      exact hk.dying s u (h1.2.1 s u hu hx)
  have hcl : (st.threads t).code.dying = [] → Clean t st.mem := fun hd => ⟨hk.keep, fun s hx => by
    have := hk.dying s t hx
    rw [hd] at this
    cases this⟩
  unfold step at hs
  dsimp only at hs
  split at hs
  · rename_i b
    by_cases hd : (st.threads t).code.dying = []
    · exact stepCode_keeps h hd (hcl hd) st' hs
    · have hdy := hk.dying
      cases hc : (st.threads t).code with
      | emDel g last c next =>
        simp only [stepCode, hc] at hs
        exact del_keeps hk.keep (fun x hx => by have := hdy x t hx; rw [hc] at this; simpa [Code.dying] using this) hs
      | emFinDel g s =>
        simp only [stepCode, hc] at hs
        exact del_keeps hk.keep (fun x hx => by have := hdy x t hx; rw [hc] at this; simpa [Code.dying] using this) hs
      | clDel g s next k =>
        simp only [stepCode, hc] at hs
        exact del_keeps hk.keep (fun x hx => by have := hdy x t hx; rw [hc] at this; simpa [Code.dying] using this) hs
      | disDel s g =>
        simp only [stepCode, hc] at hs
        exact del_keeps hk.keep (fun x hx => by have := hdy x t hx; rw [hc] at this; simpa [Code.dying] using this) hs
      | del s =>
        simp only [stepCode, hc] at hs
        exact del_keeps hk.keep (fun x hx => by have := hdy x t hx; rw [hc] at this; simpa [Code.dying] using this) hs
      | allDel g s next =>
        simp only [stepCode, hc] at hs
        exact del_keeps hk.keep (fun x hx => by have := hdy x t hx; rw [hc] at this; simpa [Code.dying] using this) hs
      | _ => rw [hc] at hd; exact absurd rfl hd
  · split at hs
    · rename_i hc
      exact stepUser_keeps (hcl (by rw [hc]; rfl)) st' hs
    · cases hs

theorem reach_kept (h : Reach st) : Kept st := by
  induction h with
  | init => exact ⟨fun s h => by simp [State.init] at h, fun s t h => by simp [State.init] at h⟩
  | @step st st' t op hr hs ih => exact step_kept (reach_ok hr) ih hs

/-! ### What targets that throw leave -/

/-- The thread loses nothing. -/
def Saves (st : State) (t : Nat) (o : Out) : Prop := ∀ st', o = .ok st' → (st'.threads t).lost = (st.threads t).lost

theorem saves_go {m : Mem} {th : Thread} (h : th.lost = (st.threads t).lost) : Saves st t (st.go t m th) := by
  intro st' hs
  cases hs
  show (upd st.threads t th t).lost = _
  rw [upd_same]; exact h

theorem saves_ok {m : Mem} {th : Thread} {x y : Nat → List Nat} (h : th.lost = (st.threads t).lost) :
    Saves st t (.ok ⟨m, upd st.threads t th, x, y⟩) := by
  intro st' hs
  cases hs
  show (upd st.threads t th t).lost = _
  rw [upd_same]; exact h

theorem saves_same {m : Mem} {x y : Nat → List Nat} : Saves st t (.ok ⟨m, st.threads, x, y⟩) := by
  intro st' hs
  cases hs
  rfl

theorem saves_orUb {α : Type} {x : Option α} {k : α → Out} (h : ∀ a, Saves st t (k a)) : Saves st t (orUb x k) := by
  cases x with
  | none => intro _ h; cases h
  | some a => exact h a

theorem saves_free {m : Mem} {g : Nat} {k : Out} (h : Saves st t k) : Saves st t (whenFree m g k) := by
  unfold whenFree
  split
  · exact h
  · intro _ h; cases h

theorem saves_off : Saves st t .off := by intro _ h; cases h
theorem saves_ub : Saves st t .ub := by intro _ h; cases h
theorem saves_term : Saves st t .term := by intro _ h; cases h

macro "saves" : tactic => `(tactic|
  repeat' (first
    | exact saves_go rfl
    | exact saves_ok rfl
    | exact saves_same
    | exact saves_off
    | exact saves_ub
    | exact saves_term
    | (apply saves_free)
    | (refine saves_orUb fun _ => ?_)
    | split))

theorem stepCode_saves {b : Bool} : Saves st t (stepCode st t (st.threads t) b) := by
  cases hc : (st.threads t).code <;> simp only [stepCode, hc] <;> saves

theorem stepUser_saves {op : Op} (h : op ≠ .throw) : Saves st t (stepUser st t (st.threads t) op) := by
  cases op with
  | throw => exact absurd rfl h
  | _ => simp only [stepUser]; saves

theorem step_saves {op : Op} (h : op ≠ .throw) : Saves st t (step st t op) := by
  unfold step
  dsimp only
  split
  · exact stepCode_saves
  · split
    · exact stepUser_saves h
    · exact saves_off

theorem run_lost : ∀ (l : List (Nat × Op)) {st st' : State}, (∀ t, (st.threads t).lost = []) →
    (∀ x ∈ l, x.2 ≠ .throw) → run st l = .ok st' → ∀ t, (st'.threads t).lost = []
  | [], st, st', h, _, hr => by cases hr; exact h
  | (u, op) :: l, st, st', h, ho, hr => by
    simp only [run] at hr
    split at hr
    · rename_i st1 hs
      refine run_lost l (st := st1) (fun v => ?_) (fun x hx => ho x (by simp [hx])) hr
      by_cases hv : v = u
      · subst hv; rw [step_saves (ho (v, op) (by simp)) st1 hs]; exact h v
      · rw [step_only st1 hs v hv]; exact h v
    · rename_i o hne
      exact absurd hr (hne _)

end Verif.Races
