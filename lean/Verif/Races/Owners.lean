import Verif.Races.Guards

/-! Mutexes are locked by one thread at a time and unlocked by their owners. -/

namespace Verif.Races

variable {st : State} {t : Nat}

theorem owner_append (tr : List Ev) (e : Ev) (g : Nat) : owner (tr ++ [e]) g =
    if e.sync = .lock g then some e.tid else if e.sync = .unlock g then none else owner tr g := by
  simp [owner]

theorem MutexOk.append {tr : List Ev} {e : Ev} (h : MutexOk tr)
    (h1 : ∀ g, e.sync = .lock g → owner tr g = none) (h2 : ∀ g, e.sync = .unlock g → owner tr g = some e.tid) :
    MutexOk (tr ++ [e]) := by
  intro i e' g hi
  rcases Nat.lt_trichotomy i tr.length with hl | rfl | hl
  · rw [List.getElem?_append_left hl] at hi
    rw [List.take_append_of_le_length (Nat.le_of_lt hl)]
    exact h i e' g hi
  · simp at hi
    subst hi
    simp only [List.take_left]
    exact ⟨h1 g, h2 g⟩
  · rw [List.getElem?_eq_none (by simp; omega)] at hi
    cases hi

/-- The mutex of a signal that exists is held by its owner; that of a signal under construction has none. -/
def OW (m : Mem) : Prop := MutexOk m.tr ∧ ∀ g, owner m.tr g = bif m.born g then m.held g else none

def OWR (m m' : Mem) : Prop := OW m → OW m'

theorem OWR.trans {m m' m'' : Mem} (h : OWR m m') (h' : OWR m' m'') : OWR m m'' := fun x => h' (h x)

theorem owr_same {m m' : Mem} (h1 : m'.tr = m.tr) (h2 : m'.held = m.held) (h3 : m'.born = m.born) : OWR m m' := by
  intro h
  unfold OW at *
  rw [h1, h2, h3]
  exact h

/-- No action of a mutex. -/
def NoLock : Sync → Prop
  | .lock _ => False
  | .unlock _ => False
  | _ => True

theorem owr_ev {m m' : Mem} {e : Ev} (hn : NoLock e.sync) (h1 : m'.tr = m.tr ++ [e]) (h2 : m'.held = m.held)
    (h3 : m'.born = m.born) : OWR m m' := by
  intro h
  have ha : ∀ g, e.sync ≠ .lock g := by intro g hx; rw [hx] at hn; exact hn
  have hb : ∀ g, e.sync ≠ .unlock g := by intro g hx; rw [hx] at hn; exact hn
  unfold OW
  rw [h1, h2, h3]
  refine ⟨h.1.append (fun g hx => absurd hx (ha g)) (fun g hx => absurd hx (hb g)), fun g => ?_⟩
  rw [owner_append, if_neg (ha g), if_neg (hb g)]
  exact h.2 g

theorem owr_touch {m m' : Mem} {i : Nat} (h : m.touch t i = some m') : OWR m m' := by
  unfold Mem.touch at h
  split at h
  · cases h; exact owr_ev (by exact trivial) rfl rfl rfl
  · cases h

theorem owr_addRef {m m' : Mem} {i : Nat} (h : m.addRef t i = some m') : OWR m m' := by
  unfold Mem.addRef at h
  cases ht : m.touch t i with
  | none => rw [ht] at h; cases h
  | some m1 =>
    rw [ht] at h
    cases h
    exact (owr_touch ht).trans (owr_same rfl rfl rfl)

theorem owr_sub {m : Mem} {r : Mem × Bool} {i : Nat} (h : m.sub t i = some r) : OWR m r.1 := by
  unfold Mem.sub at h
  split at h
  · cases h; exact owr_ev (by exact trivial) rfl rfl rfl
  · cases h

theorem owr_del {m m' : Mem} {i : Nat} (h : m.del t i = some m') : OWR m m' := by
  unfold Mem.del at h
  split at h
  · cases h; exact owr_ev (by exact trivial) rfl rfl rfl
  · cases h

theorem owr_store {m m' : Mem} {i : Nat} {v : Option Nat} (h : m.store t i v = some m') : OWR m m' := by
  unfold Mem.store at h
  split at h
  · cases h; exact owr_ev (by exact trivial) rfl rfl rfl
  · cases h

theorem owr_xchg {m : Mem} {r : Mem × Option Nat} {i : Nat} (h : m.xchg t i = some r) : OWR m r.1 := by
  unfold Mem.xchg at h
  split at h
  · cases h; exact owr_ev (by exact trivial) rfl rfl rfl
  · cases h

theorem owr_next {m : Mem} {g : Nat} {r : Mem × Option Nat} {i : Nat} (h : m.next t g i = some r) : OWR m r.1 := by
  unfold Mem.next at h
  split at h
  · cases h; exact owr_ev (by exact trivial) rfl rfl rfl
  · cases h

theorem owr_remove {m m' : Mem} {g i : Nat} (h : m.remove t g i = some m') : OWR m m' := by
  unfold Mem.remove at h
  split at h
  · cases h; exact owr_ev (by exact trivial) rfl rfl rfl
  · cases h

theorem owr_insert (m : Mem) (g : Nat) (pos : Pos) : OWR m (m.insert t g pos) :=
  (owr_ev (m' := m.made t g pos) (e := ⟨t, .none, _⟩) trivial rfl rfl rfl).trans
    (owr_ev (e := ⟨t, .none, _⟩) trivial rfl rfl rfl)

theorem owr_fields (m : Mem) (g : Nat) : OWR m (m.fields t g) := owr_ev (e := ⟨t, .none, _⟩) trivial rfl rfl rfl

theorem owr_fields2 (m : Mem) (g g' : Nat) : OWR m (m.ev t .none [(.fld g, true), (.fld g', true)]) :=
  owr_ev (e := ⟨t, .none, _⟩) trivial rfl rfl rfl

theorem owr_rel (m : Mem) (k : Nat) : OWR m (m.ev t (.rel k) []) := owr_ev (e := ⟨t, .rel k, _⟩) trivial rfl rfl rfl

theorem owr_acq (m : Mem) (k : Nat) : OWR m (m.ev t (.acq k) []) := owr_ev (e := ⟨t, .acq k, _⟩) trivial rfl rfl rfl

theorem owr_lock {m : Mem} {g : Nat} (hf : m.held g = none) (hk : Knows m t g) : OWR m (m.lock t g) := by
  intro h
  have h0 : OW (m.calls t g) := owr_ev (e := ⟨t, .none, [(.mtx g, false)]⟩) trivial rfl rfl rfl h
  have hg : owner (m.calls t g).tr g = none := by
    rw [h0.2 g]
    simp [Mem.calls, Mem.ev, hf]
  refine ⟨h0.1.append (e := ⟨t, .lock g, []⟩) (fun g' hx => ?_) (fun g' hx => nomatch hx), fun g' => ?_⟩
  · injection hx with hx; subst hx; exact hg
  · show owner ((m.calls t g).tr ++ [⟨t, .lock g, []⟩]) g' = _
    rw [owner_append]
    by_cases hx : g = g'
    · subst hx
      simp [Mem.lock, Mem.calls, Mem.ev, upd, hk.1]
    · have hy : g' ≠ g := fun h => hx h.symm
      rw [if_neg (by simpa using hx), if_neg (by simp), h0.2 g']
      simp [Mem.lock, Mem.calls, Mem.ev, upd, hy]

theorem owr_unlock {m : Mem} {g : Nat} (hh : m.held g = some t) (hk : m.born g = true) : OWR m (m.unlock t g) := by
  intro h
  have hg : owner m.tr g = some t := by rw [h.2 g, hk]; exact hh
  refine ⟨h.1.append (e := ⟨t, .unlock g, []⟩) (fun g' hx => nomatch hx) (fun g' hx => ?_), fun g' => ?_⟩
  · injection hx with hx; subst hx; exact hg
  · show owner (m.tr ++ [⟨t, .unlock g, []⟩]) g' = _
    rw [owner_append]
    by_cases hx : g = g'
    · subst hx
      simp [Mem.unlock, Mem.ev, upd]
    · have hy : g' ≠ g := fun h => hx h.symm
      rw [if_neg (by simp), if_neg (by simpa using hx), h.2 g']
      simp [Mem.unlock, Mem.ev, upd, hy]

theorem held_new {m : Mem} (hi : Inv m) : m.held m.nsigs = none := by
  cases hx : m.held m.nsigs with
  | none => rfl
  | some u => exact absurd (hi.heldLt _ _ hx) (Nat.lt_irrefl _)

theorem born_new {m : Mem} (hi : Inv m) : m.born m.nsigs = false := by
  cases hx : m.born m.nsigs with
  | false => rfl
  | true => exact absurd (hi.bornLt _ hx) (Nat.lt_irrefl _)

theorem owr_newSig {m : Mem} (hi : Inv m) : OWR m (m.newSig t) := by
  intro h
  have h0 : OW (m.sigMade t) := owr_ev (e := ⟨t, .none, _⟩) trivial rfl rfl rfl h
  refine ⟨h0.1, fun g => (h0.2 g).trans ?_⟩
  by_cases hg : g = m.nsigs
  · subst hg
    simp [Mem.newSig, Mem.sigMade, Mem.ev, upd, held_new hi]
  · simp [Mem.newSig, Mem.sigMade, Mem.ev, upd, hg]

theorem owr_beginMove {m : Mem} (hi : Inv m) : OWR m (m.beginMove t) := by
  intro h
  have h0 : OW (m.sigMade t) := owr_ev (e := ⟨t, .none, _⟩) trivial rfl rfl rfl h
  refine ⟨h0.1, fun g => (h0.2 g).trans ?_⟩
  by_cases hg : g = m.nsigs
  · subst hg
    simp [Mem.beginMove, Mem.sigMade, Mem.ev, born_new hi]
  · simp [Mem.beginMove, Mem.sigMade, Mem.ev, upd, hg]

theorem owr_finished {m : Mem} {g g' : Nat} (hh : m.held g = some t) (hk : m.born g = true) (hn : m.born g' = false) :
    OWR m (m.finished t g g') := by
  intro h
  have h0 : OW (m.unlock t g) := owr_unlock hh hk h
  refine ⟨h0.1, fun x => (h0.2 x).trans ?_⟩
  by_cases hg : x = g'
  · subst hg
    simp [Mem.finished, Mem.unlock, Mem.ev, upd, hn]
  · simp [Mem.finished, Mem.unlock, Mem.ev, upd, hg]

/-! ### What a thread owns has been constructed -/

/-- The thread that went on owns signals that existed before. -/
def Borns (st : State) (t : Nat) (o : Out) : Prop :=
  ∀ st', o = .ok st' → ∀ g ∈ (st'.threads t).code.owns, st.mem.born g = true

theorem borns_go {m : Mem} {th : Thread} (h : ∀ g ∈ th.code.owns, st.mem.born g = true) :
    Borns st t (st.go t m th) := by
  intro st' hs
  cases hs
  simpa [State.go, upd] using h

theorem borns_off : Borns st t .off := by intro _ h; cases h
theorem borns_ub : Borns st t .ub := by intro _ h; cases h
theorem borns_term : Borns st t .term := by intro _ h; cases h

theorem borns_free {m : Mem} {g : Nat} {k : Out} (h : Borns st t k) : Borns st t (whenFree m g k) := by
  unfold whenFree
  split
  · exact h
  · exact borns_off

theorem borns_by {α : Type} {x : Option α} {k : α → Out} (h : ∀ a, Borns st t (k a)) : Borns st t (orUb x k) := by
  cases x with
  | none => exact borns_ub
  | some a => exact h a

theorem owns_ite {P : Nat → Prop} {c : Prop} [Decidable c] {x y : Code} (h : ∀ g ∈ x.owns, P g)
    (h' : ∀ g ∈ y.owns, P g) : ∀ g ∈ (if c then x else y).owns, P g := by
  split
  · exact h
  · exact h'

theorem owns_thenDel {P : Nat → Prop} {r : Mem × Bool} {x y : Code} (h : ∀ g ∈ x.owns, P g)
    (h' : ∀ g ∈ y.owns, P g) : ∀ g ∈ (thenDel r x y).owns, P g := owns_ite h h'

theorem owns_cleaned {P : Nat → Prop} {k : K} {o : Option Nat} (h : ∀ g ∈ k.locks, P g) :
    ∀ g ∈ (k.cleaned o).owns, P g := by
  cases k <;> simpa [K.cleaned, Code.owns, Code.locks, K.locks] using h

macro "borns" : tactic => `(tactic|
  repeat' (first
    | exact borns_off
    | exact borns_ub
    | exact borns_term
    | (refine borns_free ?_)
    | (refine borns_by fun _ => ?_)
    | (refine borns_go ?_; dsimp only)
    | (refine owns_ite ?_ ?_)
    | (refine owns_thenDel ?_ ?_)
    | (refine owns_cleaned ?_)
    | split))

theorem stepCode_borns {b : Bool} {th : Thread} (h : ∀ g ∈ th.code.owns, st.mem.born g = true)
    (hk : ∀ g ∈ th.code.sigs, st.mem.born g = true) : Borns st t (stepCode st t th b) := by
  cases hc : th.code <;> rw [hc] at h hk <;> simp only [stepCode, hc] <;> borns <;>
    simp_all [Code.owns, Code.locks, Code.sigs, K.locks]

theorem stepUser_borns {op : Op} {th : Thread} (hc : th.code = .idle) (ht : th = st.threads t) :
    Borns st t (stepUser st t th op) := by
  have hx : ∀ P : Nat → Prop, ∀ g ∈ th.code.owns, P g := by rw [hc]; intro P g h; cases h
  cases op with
  | give i k =>
    simp only [stepUser]
    split
    · exact borns_off
    · intro st' hs
      cases hs
      simpa [upd] using hx _
  | take i k =>
    simp only [stepUser]
    split
    · exact borns_off
    · intro st' hs
      cases hs
      simpa [upd] using hx _
  | publish g k =>
    simp only [stepUser]
    split
    · intro st' hs
      cases hs
      subst ht
      exact hx _
    · exact borns_off
  | disconnect i =>
    simp only [stepUser]
    borns <;> (intro g h; cases h)
  | _ =>
    simp only [stepUser]
    borns <;> first | exact hx _ | (intro g h; cases h; done) | (intro st' hs; cases hs; simpa [upd] using hx _)

theorem step_borns {op : Op} (h : StateOk st) (hb : ∀ g ∈ (st.threads t).code.owns, st.mem.born g = true) :
    Borns st t (step st t op) := by
  unfold step
  dsimp only
  split
  · exact stepCode_borns hb fun g hg => ((h.threads t).sigs g hg).1
  · split
    · exact stepUser_borns ‹_› rfl
    · exact borns_off

theorem reach_borns (h : Reach st) : ∀ t, ∀ g ∈ (st.threads t).code.owns, st.mem.born g = true := by
  induction h with
  | init => intro t g hg; cases hg
  | @step st st' t op hr hs ih =>
    have hk := step_ok (t := t) (op := op) (reach_ok hr)
    rw [hs] at hk
    intro u g hg
    by_cases hu : u = t
    · subst hu
      exact (hk.2.born g (step_borns (reach_ok hr) (ih u) st' hs g hg)).1
    · rw [step_only st' hs u hu] at hg
      exact (hk.2.born g (ih u g hg)).1

def Owns (m : Mem) (o : Out) : Prop := OW m → ∀ st', o = .ok st' → OW st'.mem

theorem owns_go {m m' : Mem} {th : Thread} (h : OWR m m') : Owns m (st.go t m' th) := by
  intro hc st' hs
  cases hs
  exact h hc

theorem owns_ok {m m' : Mem} {f : Nat → Thread} {x y : Nat → List Nat} (h : OWR m m') :
    Owns m (.ok ⟨m', f, x, y⟩) := by
  intro hc st' hs
  cases hs
  exact h hc

theorem owns_off {m : Mem} : Owns m .off := by intro _ _ h; cases h
theorem owns_ub {m : Mem} : Owns m .ub := by intro _ _ h; cases h
theorem owns_term {m : Mem} : Owns m .term := by intro _ _ h; cases h

theorem owns_first {m m' : Mem} {o : Out} (h : OWR m m') (h' : Owns m' o) : Owns m o :=
  fun hc st' hs => h' (h hc) st' hs

theorem owns_free {m m' : Mem} {g : Nat} {k : Out} (h : m'.held g = none → Owns m k) :
    Owns m (whenFree m' g k) := by
  unfold whenFree
  split
  · exact h ‹_›
  · exact owns_off

theorem owns_by {α : Type} {m0 m : Mem} {x : Option α} {k : α → Out} {f : α → Mem}
    (h0 : OWR m0 m) (h : ∀ a, x = some a → OWR m (f a)) (h' : ∀ a, x = some a → Owns (f a) (k a)) :
    Owns m0 (orUb x k) := by
  cases hx : x with
  | none => exact owns_ub
  | some a => exact fun hc st' hs => h' a hx (h a hx (h0 hc)) st' hs

theorem owr_refl (m : Mem) : OWR m m := id

theorem owns_touch {m : Mem} {i : Nat} {k : Mem → Out} (h : ∀ a, Owns a (k a)) :
    Owns m (orUb (m.touch t i) k) := owns_by (f := id) (owr_refl m) (fun _ => owr_touch) fun a _ => h a
theorem owns_addRef {m : Mem} {i : Nat} {k : Mem → Out} (h : ∀ a, Owns a (k a)) :
    Owns m (orUb (m.addRef t i) k) := owns_by (f := id) (owr_refl m) (fun _ => owr_addRef) fun a _ => h a
theorem owns_sub {m : Mem} {i : Nat} {k : Mem × Bool → Out} (h : ∀ a, Owns a.1 (k a)) :
    Owns m (orUb (m.sub t i) k) := owns_by (f := (·.1)) (owr_refl m) (fun _ => owr_sub) fun a _ => h a
theorem owns_del {m : Mem} {i : Nat} {k : Mem → Out} (h : ∀ a, Owns a (k a)) :
    Owns m (orUb (m.del t i) k) := owns_by (f := id) (owr_refl m) (fun _ => owr_del) fun a _ => h a
theorem owns_store {m : Mem} {i : Nat} {v : Option Nat} {k : Mem → Out} (h : ∀ a, Owns a (k a)) :
    Owns m (orUb (m.store t i v) k) := owns_by (f := id) (owr_refl m) (fun _ => owr_store) fun a _ => h a
theorem owns_next {m : Mem} {g i : Nat} {k : Mem × Option Nat → Out}
    (h : ∀ a, Owns a.1 (k a)) : Owns m (orUb (m.next t g i) k) :=
  owns_by (f := (·.1)) (owr_refl m) (fun _ => owr_next) fun a _ => h a
theorem owns_xchg {m : Mem} {i : Nat} {k : Mem × Option Nat → Out}
    (h : ∀ a, Owns a.1 (k a)) : Owns m (orUb (m.xchg t i) k) :=
  owns_by (f := (·.1)) (owr_refl m) (fun _ => owr_xchg) fun a _ => h a
theorem owns_remove {m : Mem} {g i : Nat} {k : Mem → Out}
    (h : ∀ a, Owns a (k a)) : Owns m (orUb (m.remove t g i) k) :=
  owns_by (f := id) (owr_refl m) (fun _ => owr_remove) fun a _ => h a

theorem owns_swapped {m m' : Mem} {g g' : Nat} {th : Thread} (h : OWR m m') :
    Owns m (st.go t (m'.swapped g g') th) := owns_go (h.trans (owr_same rfl rfl rfl))

macro "owning" : tactic => `(tactic|
  repeat' (first
    | exact owns_off
    | exact owns_ub
    | exact owns_term
    | exact owns_go (owr_refl _)
    | exact owns_go (owr_same rfl rfl rfl)
    | exact owns_go (owr_rel _ _)
    | exact owns_go (owr_acq _ _)
    | exact owns_go (owr_fields _ _)
    | exact owns_go ((owr_fields _ _).trans (owr_same rfl rfl rfl))
    | exact owns_go ((owr_fields2 _ _ _).trans (owr_same rfl rfl rfl))
    | exact owns_go (owr_insert _ _ _)
    | exact owns_ok ((owr_rel _ _).trans (owr_same rfl rfl rfl))
    | exact owns_ok ((owr_acq _ _).trans (owr_same rfl rfl rfl))
    | (refine owns_touch fun _ => ?_)
    | (refine owns_addRef fun _ => ?_)
    | (refine owns_sub fun _ => ?_)
    | (refine owns_del fun _ => ?_)
    | (refine owns_store fun _ => ?_)
    | (refine owns_next fun _ => ?_)
    | (refine owns_remove fun _ => ?_)
    | (refine owns_xchg fun _ => ?_)
    | split))

theorem stepUser_owns {op : Op} {th : Thread} (hi : Inv st.mem) : Owns st.mem (stepUser st t th op) := by
  cases op with
  | newSig => exact owns_go (owr_newSig hi)
  | moveSig g =>
    simp only [stepUser]
    split
    · exact owns_go (owr_beginMove hi)
    · exact owns_off
  | _ => simp only [stepUser] <;> owning

theorem stepCode_owns {b : Bool} (h : StateOk st) (hb : ∀ g ∈ (st.threads t).code.owns, st.mem.born g = true) :
    Owns st.mem (stepCode st t (st.threads t) b) := by
  have hk := (h.threads t).sigs
  have hh := fun g => ((h.threads t).held g).2
  have hl : ∀ {g : Nat} {o : Out}, Knows st.mem t g → (st.mem.held g = none → Owns (st.mem.lock t g) o) →
      Owns st.mem (whenFree st.mem g o) := fun h1 h2 =>
    owns_free fun hf => owns_first (owr_lock hf h1) (h2 hf)
  cases hc : (st.threads t).code with
  | emLock g | allLock g | numLock g | conLock g pos | disLock s g | mvLock2 g | emEnd g | mvLock g g' =>
    rw [hc] at hk
    simp only [stepCode, hc]
    refine hl (hk g (by code)) fun _ => ?_
    owning
  | emAdv g last c =>
    rw [hc] at hk
    simp only [stepCode, hc]
    split
    · owning
    · refine hl (hk g (by code)) fun _ => ?_
      owning
  | swLock g g' =>
    rw [hc] at hk
    simp only [stepCode, hc]
    split
    · owning
    · rename_i hne
      refine owns_free fun h1 => owns_free fun h2 => ?_
      refine owns_first ((owr_lock h1 (hk g (by code))).trans (owr_lock (t := t) (g := g') ?_ ?_)) ?_
      · simp only [Mem.lock, upd]
        rw [if_neg (fun h => hne h.symm)]
        exact h2
      · exact (hk g' (by code)).guar (lock_ok h.mem h1 (hk g (by code))).2
      · split
        · exact owns_term
        · exact owns_go ((owr_fields2 _ _ _).trans (owr_same rfl rfl rfl))
  | emUnl g _ _ | emNUnl g _ _ _ | unl g | unl2 g g' | disUnl s g =>
    rw [hc] at hh hb
    simp only [stepCode, hc]
    exact owns_go (owr_unlock (hh g (by code)) (hb g (by simp [Code.owns, Code.locks])))
  | mvUnl g g' =>
    have hn := (h.threads t).unborn
    rw [hc] at hh hb hn
    simp only [stepCode, hc]
    exact owns_go (owr_finished (hh g (by code)) (hb g (by simp [Code.owns])) (hn g' (by code)))
  | _ => simp only [stepCode, hc]; owning

theorem step_owns {op : Op} (h : StateOk st) (hb : ∀ g ∈ (st.threads t).code.owns, st.mem.born g = true) :
    Owns st.mem (step st t op) := by
  unfold step
  dsimp only
  split
  · exact stepCode_owns h hb
  · split
    · exact stepUser_owns h.mem
    · exact owns_off

theorem reach_owns (h : Reach st) : OW st.mem := by
  induction h with
  | init => exact ⟨by intro i e g h; simp [State.init] at h, fun g => by simp [State.init, owner]⟩
  | @step st st' t op hr hs ih => exact step_owns (reach_ok hr) (reach_borns hr t) ih st' hs

end Verif.Races
