import Verif.Races.Guards

/-! Whoever has locked the mutex of a signal knows the last store to `sender_` of its slots. -/

namespace Verif.Races

variable {st : State} {t : Nat}

structure SG (m : Mem) : Prop where
  guard : ∀ s g, m.own s = some g → Guard m g (m.sndEv s)
  last : ∀ s, s < m.nslots → ∀ j e, m.tr[j]? = some e → m.sndEv s < j →
    e.sync ≠ .store s ∧ (e.sync = .xchg s → m.sender s = none)
  mark : ∀ s, m.marked s = true → ∃ e, m.tr[m.sndEv s]? = some e ∧ e.sync = .store s

def SGR (m m' : Mem) : Prop := SG m → SG m'

theorem SGR.trans {m m' m'' : Mem} (h : SGR m m') (h' : SGR m' m'') : SGR m m'' := fun x => h' (h x)
theorem sgr_refl (m : Mem) : SGR m m := id

theorem Guard.same {m m' : Mem} {g i : Nat} (h : Guard m g i) (h1 : m'.tr = m.tr) (h2 : m'.held g = m.held g)
    (h3 : m'.birth g = m.birth g) : Guard m' g i := by
  unfold Guard at *
  rw [h1, h2, h3]
  exact h

theorem sgr_same {m m' : Mem} (h1 : m'.tr = m.tr) (h2 : m'.held = m.held) (h3 : m'.birth = m.birth)
    (h4 : ∀ s g, m'.own s = some g → m.own s = some g) (h5 : m'.sndEv = m.sndEv) (h6 : m'.sender = m.sender)
    (h7 : m'.marked = m.marked) (h8 : m'.nslots = m.nslots) : SGR m m' := by
  intro h
  refine ⟨?_, ?_, ?_⟩
  · intro s g hs
    rw [h5]
    exact (h.guard s g (h4 s g hs)).same h1 (by rw [h2]) (by rw [h3])
  · rw [h1, h5, h6, h8]; exact h.last
  · rw [h1, h5, h7]; exact h.mark

/-- Events other than stores and exchanges. -/
def NoSnd (y : Sync) : Prop := ∀ s, y ≠ .store s ∧ y ≠ .xchg s

theorem SG.ev' {m : Mem} (h : SG m) {y : Sync} {acc : List (Loc × Bool)} (hy : NoSnd y) : SG (m.ev t y acc) := by
  refine ⟨fun s g hs => (h.guard s g hs).ev, ?_, ?_⟩
  · intro s hs j e he hj
    rcases get_cases he with he | ⟨_, rfl⟩
    · exact h.last s hs j e he hj
    · exact ⟨(hy s).1, fun hx => absurd hx (hy s).2⟩
  · intro s hs
    obtain ⟨e, h1, h2⟩ := h.mark s hs
    exact ⟨e, get_append _ h1, h2⟩

theorem sgr_ev {m : Mem} {y : Sync} {acc : List (Loc × Bool)} (hy : NoSnd y) : SGR m (m.ev t y acc) := fun h => h.ev' hy

theorem noSnd_none : NoSnd .none := fun _ => ⟨nofun, nofun⟩

theorem sgr_touch {m m' : Mem} {i : Nat} (h : m.touch t i = some m') : SGR m m' := by
  unfold Mem.touch at h
  split at h
  · cases h; exact sgr_ev noSnd_none
  · cases h

theorem sgr_addRef {m m' : Mem} {i : Nat} (h : m.addRef t i = some m') : SGR m m' := by
  unfold Mem.addRef at h
  cases ht : m.touch t i with
  | none => rw [ht] at h; cases h
  | some m1 =>
    rw [ht] at h
    cases h
    exact (sgr_touch ht).trans (sgr_same rfl rfl rfl (fun _ _ h => h) rfl rfl rfl rfl)

theorem sgr_sub {m : Mem} {r : Mem × Bool} {i : Nat} (h : m.sub t i = some r) : SGR m r.1 := by
  unfold Mem.sub at h
  split at h
  · cases h
    exact (sgr_ev (y := .sub i) fun _ => ⟨nofun, nofun⟩).trans (sgr_same rfl rfl rfl (fun _ _ h => h) rfl rfl rfl rfl)
  · cases h

theorem sgr_del {m m' : Mem} {i : Nat} (h : m.del t i = some m') : SGR m m' := by
  unfold Mem.del at h
  split at h
  · cases h; exact (sgr_ev noSnd_none).trans (sgr_same rfl rfl rfl (fun _ _ h => h) rfl rfl rfl rfl)
  · cases h

theorem sgr_next {m : Mem} {g : Nat} {r : Mem × Option Nat} {i : Nat} (h : m.next t g i = some r) : SGR m r.1 := by
  unfold Mem.next at h
  split at h
  · cases h; exact sgr_ev noSnd_none
  · cases h

theorem sgr_remove {m m' : Mem} {g i : Nat} (h : m.remove t g i = some m') : SGR m m' := by
  unfold Mem.remove at h
  split at h
  · cases h
    refine (sgr_ev noSnd_none).trans (sgr_same rfl rfl rfl ?_ rfl rfl rfl rfl)
    intro s x hs
    have hs : upd m.own i none s = some x := hs
    by_cases hx : s = i
    · subst hx; rw [upd_same] at hs; cases hs
    · rw [upd_other _ _ hx] at hs; exact hs
  · cases h

theorem sgr_fields (m : Mem) (g : Nat) : SGR m (m.fields t g) := sgr_ev noSnd_none

theorem sgr_store {m m' : Mem} {i : Nat} {v : Option Nat} (hg : ∀ g, m.own i = some g → m.held g = some t)
    (h : m.store t i v = some m') : SGR m m' := by
  unfold Mem.store at h
  split at h <;> cases h
  intro h
  have hn : (m.stored t i v).sndEv i = m.tr.length := upd_same ..
  have ho : ∀ s, s ≠ i → (m.stored t i v).sndEv s = m.sndEv s := fun s hs => upd_other _ _ hs
  refine ⟨?_, ?_, ?_⟩
  · intro s g hs
    by_cases hx : s = i
    · subst hx
      rw [hn]
      exact (guard_held (m := m.stored t s v) (hg g hs)).2 (known_last m.tr ⟨t, .store s, [(.obj s, false)]⟩)
    · rw [ho s hx]
      exact Guard.same ((h.guard s g hs).ev (t := t) (y := .store i) (acc := [(.obj i, false)])) rfl rfl rfl
  · intro s hs j e he hj
    by_cases hx : s = i
    · subst hx
      rw [hn] at hj
      have := get_lt he
      simp [Mem.stored, Mem.ev] at this
      omega
    · rw [ho s hx] at hj
      rcases get_cases he with he | ⟨_, rfl⟩
      · refine (h.last s hs j e he hj).imp_right fun h1 h2 => ?_
        exact (upd_other _ _ hx).trans (h1 h2)
      · exact ⟨fun hy => hx (by injection hy with hy; exact hy.symm), fun hy => nomatch hy⟩
  · intro s hs
    by_cases hx : s = i
    · subst hx
      rw [hn]
      exact ⟨_, get_last m.tr _, rfl⟩
    · rw [ho s hx]
      have hs : upd m.marked i v.isNone s = true := hs
      rw [upd_other _ _ hx] at hs
      obtain ⟨e, h1, h2⟩ := h.mark s hs
      exact ⟨e, get_append _ h1, h2⟩

theorem sgr_xchg {m : Mem} {r : Mem × Option Nat} {i : Nat} (h : m.xchg t i = some r) : SGR m r.1 := by
  unfold Mem.xchg at h
  split at h <;> cases h
  intro h
  refine ⟨?_, ?_, ?_⟩
  · intro s g hs
    exact Guard.same ((h.guard s g hs).ev (t := t) (y := .xchg i) (acc := [(.obj i, false)])) rfl rfl rfl
  · intro s hs j e he hj
    rcases get_cases he with he | ⟨_, rfl⟩
    · refine (h.last s hs j e he hj).imp_right fun h1 h2 => ?_
      show upd m.sender i none s = none
      by_cases hx : s = i
      · subst hx; exact upd_same ..
      · exact (upd_other _ _ hx).trans (h1 h2)
    · refine ⟨nofun, fun hy => ?_⟩
      injection hy with hy
      subst hy
      exact upd_same ..
  · intro s hs
    obtain ⟨e, h1, h2⟩ := h.mark s hs
    exact ⟨e, get_append _ h1, h2⟩

theorem sgr_insert {m : Mem} {g : Nat} {pos : Pos} (hh : m.held g = some t) : SGR m (m.insert t g pos) := by
  refine SGR.trans (m' := m.made t g pos) ?_ (sgr_ev noSnd_none)
  intro h
  have hn : (m.made t g pos).sndEv m.nslots = m.tr.length := upd_same ..
  have ho : ∀ s, s ≠ m.nslots → (m.made t g pos).sndEv s = m.sndEv s := fun s hs => upd_other _ _ hs
  refine ⟨?_, ?_, ?_⟩
  · intro s x hs
    have hs : upd m.own m.nslots (some g) s = some x := hs
    by_cases hx : s = m.nslots
    · subst hx
      rw [upd_same] at hs
      cases hs
      rw [hn]
      exact (guard_held (m := m.made t g pos) hh).2 (known_last m.tr ⟨t, .none, [(.obj m.nslots, true), (.nxt m.nslots, true)]⟩)
    · rw [upd_other _ _ hx] at hs
      rw [ho s hx]
      exact Guard.same ((h.guard s x hs).ev (t := t) (y := .none) (acc := [(.obj m.nslots, true), (.nxt m.nslots, true)]))
        rfl rfl rfl
  · intro s hs j e he hj
    by_cases hx : s = m.nslots
    · subst hx
      rw [hn] at hj
      have := get_lt he
      simp [Mem.made, Mem.ev] at this
      omega
    · rw [ho s hx] at hj
      have hs : s < m.nslots + 1 := hs
      rcases get_cases he with he | ⟨_, rfl⟩
      · refine (h.last s (by omega) j e he hj).imp_right fun h1 h2 => ?_
        exact (upd_other _ _ hx).trans (h1 h2)
      · exact ⟨nofun, nofun⟩
  · intro s hs
    have hs : upd m.marked m.nslots false s = true := hs
    by_cases hx : s = m.nslots
    · subst hx; rw [upd_same] at hs; cases hs
    · rw [upd_other _ _ hx] at hs
      rw [ho s hx]
      obtain ⟨e, h1, h2⟩ := h.mark s hs
      exact ⟨e, get_append _ h1, h2⟩

theorem sgr_lock {m : Mem} {g : Nat} (hf : m.held g = none) (hk : Knows m t g) : SGR m (m.lock t g) := by
  intro h
  have h0 : SG ((m.calls t g).ev t (.lock g) []) := (h.ev' noSnd_none).ev' fun _ => ⟨nofun, nofun⟩
  refine ⟨?_, h0.last, h0.mark⟩
  intro s x hs
  by_cases hg : x = g
  · subst hg
    rw [guard_held (t := t) (by simp [Mem.lock, upd])]
    rcases (guard_free hf).1 (h.guard s x hs) with h1 | h1
    · have h2 : Through (m.calls t x).tr (.unlock x) (m.sndEv s) := Under.append _ h1
      exact known_of_hb (unlock_hb (e := ⟨t, .lock x, []⟩) h2 rfl)
    · exact Under.back (Under.append _ (Under.append _ hk.2)) (HBE.append _ (HBE.append _ h1))
  · exact (h0.guard s x hs).same rfl (by simp [Mem.lock, upd, hg, Mem.calls, Mem.ev]) rfl

theorem sgr_unlock {m : Mem} {g : Nat} (hh : m.held g = some t) : SGR m (m.unlock t g) := by
  intro h
  have h0 : SG (m.ev t (.unlock g) []) := h.ev' fun _ => ⟨nofun, nofun⟩
  refine ⟨?_, h0.last, h0.mark⟩
  intro s x hs
  by_cases hg : x = g
  · subst hg
    rw [guard_free (by simp [Mem.unlock, upd])]
    exact .inl (known_through (e := ⟨t, .unlock x, []⟩) ((guard_held hh).1 (h.guard s x hs)))
  · exact (h0.guard s x hs).same rfl (by simp [Mem.unlock, upd, hg, Mem.ev]) rfl

theorem sgr_finished {m : Mem} {g g' : Nat} (hh : m.held g = some t) (hh' : m.held g' = some t) :
    SGR m (m.finished t g g') := by
  intro h
  have h0 := sgr_unlock hh h
  refine ⟨?_, h0.last, h0.mark⟩
  intro s x hs
  by_cases hx : x = g'
  · subst hx
    rw [guard_free (by simp [Mem.finished, upd])]
    right
    have hb : (m.finished t g x).birth x = m.tr.length := by simp [Mem.finished, upd]
    rw [hb]
    exact .inr (known_hb (e := ⟨t, .unlock g, []⟩) ((guard_held hh').1 (h.guard s x hs)))
  · exact (h0.guard s x hs).same rfl (by simp [Mem.finished, upd, hx]) (by simp [Mem.finished, upd, hx, Mem.unlock, Mem.ev])

theorem sgr_newSig {m : Mem} (hi : Inv m) : SGR m (m.newSig t) := by
  intro h
  have h0 : SG (m.sigMade t) := h.ev' noSnd_none
  refine ⟨?_, h0.last, h0.mark⟩
  intro s x hs
  have hx : x ≠ m.nsigs := Nat.ne_of_lt (hi.ownLive s x hs).2.2
  exact (h0.guard s x hs).same rfl rfl (by simp [Mem.newSig, upd, hx, Mem.sigMade, Mem.ev])

theorem sgr_beginMove {m : Mem} (hi : Inv m) : SGR m (m.beginMove t) := by
  intro h
  have h0 : SG (m.sigMade t) := h.ev' noSnd_none
  refine ⟨?_, h0.last, h0.mark⟩
  intro s x hs
  have hx : x ≠ m.nsigs := Nat.ne_of_lt (hi.ownLive s x hs).2.2
  exact (h0.guard s x hs).same rfl (by simp [Mem.beginMove, upd, hx, Mem.sigMade, Mem.ev]) rfl

theorem sgr_swapped {m : Mem} {g g' : Nat} (hh : m.held g = some t) (hh' : m.held g' = some t) : SGR m (m.swapped g g') := by
  intro h
  refine ⟨?_, h.last, h.mark⟩
  intro s x hs
  have hs : (if m.own s = some g then some g' else if m.own s = some g' then some g else m.own s) = some x := hs
  split at hs
  · cases hs
    exact (guard_held (m := m.swapped g g') hh').2 ((guard_held hh).1 (h.guard s g ‹_›))
  · split at hs
    · cases hs
      exact (guard_held (m := m.swapped g g') hh).2 ((guard_held hh').1 (h.guard s g' ‹_›))
    · exact h.guard s x hs

theorem sgr_moved {m : Mem} {g g' : Nat} (hh : m.held g = some t) (hh' : m.held g' = some t) : SGR m (m.moved g g') := by
  intro h
  refine ⟨?_, h.last, h.mark⟩
  intro s x hs
  have hs : (if m.own s = some g then some g' else m.own s) = some x := hs
  split at hs
  · cases hs
    exact (guard_held (m := m.moved g g') hh').2 ((guard_held hh).1 (h.guard s g ‹_›))
  · exact h.guard s x hs

def Seens (m : Mem) (o : Out) : Prop := SG m → ∀ st', o = .ok st' → SG st'.mem

theorem seens_go {m m' : Mem} {th : Thread} (h : SGR m m') : Seens m (st.go t m' th) := by
  intro hc st' hs
  cases hs
  exact h hc

theorem seens_ok {m m' : Mem} {f : Nat → Thread} {x y : Nat → List Nat} (h : SGR m m') :
    Seens m (.ok ⟨m', f, x, y⟩) := by
  intro hc st' hs
  cases hs
  exact h hc

theorem seens_off {m : Mem} : Seens m .off := by intro _ _ h; cases h
theorem seens_ub {m : Mem} : Seens m .ub := by intro _ _ h; cases h
theorem seens_term {m : Mem} : Seens m .term := by intro _ _ h; cases h

theorem seens_first {m m' : Mem} {o : Out} (h : SGR m m') (h' : Seens m' o) : Seens m o :=
  fun hc st' hs => h' (h hc) st' hs

theorem seens_free {m m' : Mem} {g : Nat} {k : Out} (h : m'.held g = none → Seens m k) :
    Seens m (whenFree m' g k) := by
  unfold whenFree
  split
  · exact h ‹_›
  · exact seens_off

theorem seens_by {α : Type} {m : Mem} {x : Option α} {k : α → Out} {f : α → Mem}
    (h : ∀ a, x = some a → SGR m (f a)) (h' : ∀ a, x = some a → Seens (f a) (k a)) :
    Seens m (orUb x k) := by
  cases hx : x with
  | none => exact seens_ub
  | some a => exact fun hc st' hs => h' a hx (h a hx hc) st' hs

theorem seens_touch {m : Mem} {i : Nat} {k : Mem → Out} (h : ∀ a, Seens a (k a)) :
    Seens m (orUb (m.touch t i) k) := seens_by (f := id) (fun _ => sgr_touch) fun a _ => h a
theorem seens_addRef {m : Mem} {i : Nat} {k : Mem → Out} (h : ∀ a, Seens a (k a)) :
    Seens m (orUb (m.addRef t i) k) := seens_by (f := id) (fun _ => sgr_addRef) fun a _ => h a
theorem seens_sub {m : Mem} {i : Nat} {k : Mem × Bool → Out} (h : ∀ a, Seens a.1 (k a)) :
    Seens m (orUb (m.sub t i) k) := seens_by (f := (·.1)) (fun _ => sgr_sub) fun a _ => h a
theorem seens_del {m : Mem} {i : Nat} {k : Mem → Out} (h : ∀ a, Seens a (k a)) :
    Seens m (orUb (m.del t i) k) := seens_by (f := id) (fun _ => sgr_del) fun a _ => h a
theorem seens_next {m : Mem} {g i : Nat} {k : Mem × Option Nat → Out}
    (h : ∀ a, Seens a.1 (k a)) : Seens m (orUb (m.next t g i) k) :=
  seens_by (f := (·.1)) (fun _ => sgr_next) fun a _ => h a
theorem seens_xchg {m : Mem} {i : Nat} {k : Mem × Option Nat → Out}
    (h : ∀ a, Seens a.1 (k a)) : Seens m (orUb (m.xchg t i) k) :=
  seens_by (f := (·.1)) (fun _ => sgr_xchg) fun a _ => h a
theorem seens_remove {m : Mem} {g i : Nat} {k : Mem → Out}
    (h : ∀ a, Seens a (k a)) : Seens m (orUb (m.remove t g i) k) :=
  seens_by (f := id) (fun _ => sgr_remove) fun a _ => h a
theorem seens_store {m : Mem} {i : Nat} {v : Option Nat} {k : Mem → Out}
    (hg : ∀ g, m.own i = some g → m.held g = some t) (h : ∀ a, Seens a (k a)) :
    Seens m (orUb (m.store t i v) k) := seens_by (f := id) (fun _ => sgr_store hg) fun a _ => h a

theorem sgr_memb {m m' : Mem} (h1 : m'.tr = m.tr := by rfl) (h2 : m'.held = m.held := by rfl)
    (h3 : m'.birth = m.birth := by rfl)
    (h4 : m'.own = m.own := by rfl) (h5 : m'.sndEv = m.sndEv := by rfl) (h6 : m'.sender = m.sender := by rfl)
    (h7 : m'.marked = m.marked := by rfl) (h8 : m'.nslots = m.nslots := by rfl) : SGR m m' :=
  sgr_same h1 h2 h3 (fun s g h => by rw [h4] at h; exact h) h5 h6 h7 h8

theorem sgr_give (m : Mem) (s k : Nat) : SGR m (m.given t s k) :=
  (sgr_ev (y := .rel k) fun _ => ⟨nofun, nofun⟩).trans (sgr_memb (m := m.ev t (.rel k) []))
theorem sgr_take (m : Mem) (s k : Nat) : SGR m (m.taken t s k) :=
  (sgr_ev (y := .acq k) fun _ => ⟨nofun, nofun⟩).trans (sgr_memb (m := m.ev t (.acq k) []))

macro "seens" : tactic => `(tactic|
  repeat' (first
    | exact seens_off
    | exact seens_ub
    | exact seens_term
    | exact seens_go (sgr_refl _)
    | exact seens_go (sgr_memb)
    | exact seens_go (sgr_ev fun _ => ⟨nofun, nofun⟩)
    | exact seens_go (sgr_fields _ _)
    | exact seens_go ((sgr_fields _ _).trans sgr_memb)
    | exact seens_ok (sgr_ev fun _ => ⟨nofun, nofun⟩)
    | exact seens_ok (sgr_give _ _ _)
    | exact seens_ok (sgr_take _ _ _)
    | (refine seens_touch fun _ => ?_)
    | (refine seens_addRef fun _ => ?_)
    | (refine seens_sub fun _ => ?_)
    | (refine seens_del fun _ => ?_)
    | (refine seens_next fun _ => ?_)
    | (refine seens_remove fun _ => ?_)
    | (refine seens_xchg fun _ => ?_)
    | split))

theorem stepUser_seens {op : Op} {th : Thread} (hi : Inv st.mem) : Seens st.mem (stepUser st t th op) := by
  cases op with
  | newSig => exact seens_go (sgr_newSig hi)
  | moveSig g =>
    simp only [stepUser]
    split
    · exact seens_go (sgr_beginMove hi)
    · exact seens_off
  | _ => simp only [stepUser] <;> seens

theorem stepCode_seens {b : Bool} (h : StateOk st) : Seens st.mem (stepCode st t (st.threads t) b) := by
  have hk := (h.threads t).sigs
  have hh := fun g => ((h.threads t).held g).2
  have hls := (h.threads t).listed
  have hw := (h.threads t).wf
  have hl : ∀ {g : Nat} {o : Out}, Knows st.mem t g → (st.mem.held g = none → Seens (st.mem.lock t g) o) →
      Seens st.mem (whenFree st.mem g o) := fun h1 h2 =>
    seens_free fun hf => seens_first (sgr_lock hf h1) (h2 hf)
  have hst : ∀ {s g : Nat} {v : Option Nat} {k : Mem → Out}, s ∈ st.mem.list g → st.mem.held g = some t →
      (∀ a, Seens a (k a)) → Seens st.mem (orUb (st.mem.store t s v) k) := by
    intro s g v k h1 h2 h3
    refine seens_store ?_ h3
    intro g' hg
    rw [(h.mem.lists s g).1 h1] at hg
    cases hg
    exact h2
  cases hc : (st.threads t).code with
  | emLock g | allLock g | numLock g | disLock s g | mvLock2 g | emEnd g =>
    rw [hc] at hk
    simp only [stepCode, hc]
    refine hl (hk g (by code)) fun _ => ?_
    seens
  | conLock g pos =>
    rw [hc] at hk
    simp only [stepCode, hc]
    exact hl (hk g (by code)) fun _ => seens_go (sgr_insert (upd_same ..))
  | mvLock g g' =>
    rw [hc] at hk hh
    simp only [stepCode, hc]
    refine hl (hk g (by code)) fun hf => ?_
    split
    · exact seens_term
    · refine seens_go ((sgr_ev noSnd_none).trans (sgr_moved (t := t) (upd_same ..) ?_))
      have h1 := hh g' (by code)
      show upd st.mem.held g (some t) g' = some t
      by_cases hx : g' = g
      · subst hx; exact upd_same ..
      · rw [upd_other _ _ hx]; exact h1
  | emAdv g last c =>
    rw [hc] at hk
    simp only [stepCode, hc]
    split
    · seens
    · refine hl (hk g (by code)) fun _ => ?_
      seens
  | swLock g g' =>
    rw [hc] at hk
    simp only [stepCode, hc]
    split
    · seens
    · rename_i hne
      refine seens_free fun h1 => seens_free fun h2 => ?_
      refine seens_first ((sgr_lock h1 (hk g (by code))).trans (sgr_lock (t := t) (g := g') ?_ ?_)) ?_
      · simp only [Mem.lock, upd]
        rw [if_neg (fun h => hne h.symm)]
        exact h2
      · exact (hk g' (by code)).guar (lock_ok h.mem h1 (hk g (by code))).2
      · split
        · exact seens_term
        · refine seens_go ((sgr_ev noSnd_none).trans (sgr_swapped (t := t) ?_ (upd_same ..)))
          show upd (upd st.mem.held g (some t)) g' (some t) g = some t
          rw [upd_other _ _ hne, upd_same]
  | emUnl g _ _ | emNUnl g _ _ _ | unl g | unl2 g g' | disUnl s g =>
    rw [hc] at hh
    simp only [stepCode, hc]
    exact seens_go (sgr_unlock (hh g (by code)))
  | mvUnl g g' =>
    rw [hc] at hh
    simp only [stepCode, hc]
    exact seens_go (sgr_finished (hh g (by code)) (hh g' (by code)))
  | rb g iter k =>
    rw [hc] at hh hls hw
    simp only [stepCode, hc]
    cases iter with
    | none => cases k <;> seens
    | some i =>
      refine hst (hls (i, g) (by simp [Code.listed, inList])) (hh g ?_) fun _ => ?_
      · have hw : k.sig = g := hw
        subst hw
        cases k <;> simp [K.sig, K.locks, Code.locks]
      · seens
  | disStore s g =>
    rw [hc] at hh hls
    simp only [stepCode, hc]
    refine hst (hls (s, g) (by simp [Code.listed])) (hh g (by code)) fun _ => ?_
    seens
  | allLoop g iter =>
    rw [hc] at hh hls
    simp only [stepCode, hc]
    cases iter with
    | none => seens
    | some i =>
      refine hst (hls (i, g) (by simp [Code.listed, inList])) (hh g (by code)) fun _ => ?_
      seens
  | _ => simp only [stepCode, hc]; seens

theorem step_seens {op : Op} (h : StateOk st) : Seens st.mem (step st t op) := by
  unfold step
  dsimp only
  split
  · exact stepCode_seens h
  · split
    · exact stepUser_seens h.mem
    · exact seens_off

theorem reach_seens (h : Reach st) : SG st.mem := by
  induction h with
  | init => exact ⟨nofun, nofun, nofun⟩
  | @step st st' t op hr hs ih => exact step_seens (reach_ok hr) ih st' hs

end Verif.Races
