import Verif.Races.Gone

/-! Whoever locks the mutex of a signal knows all earlier calls of `lock` too. -/

namespace Verif.Races

variable {st : State} {t : Nat}

/-- Calls of `lock`, and making the mutex, are guarded by the mutex itself. -/
def MG (m : Mem) : Prop := ∀ i g w, Acc m.tr i (.mtx g) w → Guard m g i

def MGR (m m' : Mem) : Prop := MG m → MG m'

theorem MGR.trans {m m' m'' : Mem} (h : MGR m m') (h' : MGR m' m'') : MGR m m'' := fun x => h' (h x)

/-- No call of `lock`. -/
def NoMtx (acc : List (Loc × Bool)) : Prop := ∀ g w, (Loc.mtx g, w) ∉ acc

theorem mgr_same {m m' : Mem} (h1 : m'.tr = m.tr) (h2 : m'.held = m.held) (h3 : m'.birth = m.birth) : MGR m m' := by
  intro h i g w hi
  rw [h1] at hi
  have := h i g w hi
  unfold Guard at *
  rw [h1, h2, h3]
  exact this

theorem mgr_ev {m m' : Mem} {e : Ev} (hn : NoMtx e.acc) (h1 : m'.tr = m.tr ++ [e]) (h2 : m'.held = m.held)
    (h3 : m'.birth = m.birth) : MGR m m' := by
  intro h i g w hi
  rw [h1] at hi
  rcases acc_cases hi with hi | ⟨_, hi⟩
  · have := h i g w hi
    unfold Guard at *
    rw [h1, h2, h3]
    cases hh : m.held g with
    | none => rw [hh] at this; exact this.imp (Under.append _) (HBE.append _)
    | some u => rw [hh] at this; exact Under.append _ this
  · exact absurd hi (hn g w)

theorem noMtx_nil : NoMtx [] := by intro g w h; cases h
theorem noMtx_link (s : Nat) (w : Bool) : NoMtx (link s w) := by intro g w' h; simp [link] at h
theorem noMtx_append {a b : List (Loc × Bool)} (ha : NoMtx a) (hb : NoMtx b) : NoMtx (a ++ b) := by
  intro g w h
  rcases List.mem_append.1 h with h | h
  · exact ha g w h
  · exact hb g w h
theorem noMtx_fld {a : List (Loc × Bool)} (g : Nat) (w : Bool) (ha : NoMtx a) : NoMtx ((.fld g, w) :: a) := by
  intro g' w' h
  rcases List.mem_cons.1 h with h | h
  · cases h
  · exact ha g' w' h
theorem noMtx_removeLinks (l : List Nat) (s : Nat) : NoMtx (removeLinks l s) := by
  unfold removeLinks
  split
  · exact noMtx_nil
  · exact noMtx_link _ _
theorem noMtx_insertLinks (l : List Nat) (n : Nat) (pos : Pos) : NoMtx (insertLinks l n pos) := by
  unfold insertLinks
  split
  · split
    · exact noMtx_nil
    · exact noMtx_link _ _
  · split
    · exact noMtx_nil
    · exact noMtx_link _ _
theorem noMtx_obj (s : Nat) (w : Bool) : NoMtx [(.obj s, w)] := by intro g w h; simp at h
theorem noMtx_new (s : Nat) (w w' : Bool) : NoMtx [(.obj s, w), (.nxt s, w')] := by intro g w h; simp at h

theorem mgr_touch {m m' : Mem} {i : Nat} (h : m.touch t i = some m') : MGR m m' := by
  unfold Mem.touch at h
  split at h
  · cases h; exact mgr_ev (noMtx_obj _ _) rfl rfl rfl
  · cases h

theorem mgr_addRef {m m' : Mem} {i : Nat} (h : m.addRef t i = some m') : MGR m m' := by
  unfold Mem.addRef at h
  cases ht : m.touch t i with
  | none => rw [ht] at h; cases h
  | some m1 =>
    rw [ht] at h
    cases h
    exact (mgr_touch ht).trans (mgr_same rfl rfl rfl)

theorem mgr_sub {m : Mem} {r : Mem × Bool} {i : Nat} (h : m.sub t i = some r) : MGR m r.1 := by
  unfold Mem.sub at h
  split at h
  · cases h; exact mgr_ev (noMtx_obj _ _) rfl rfl rfl
  · cases h

theorem mgr_del {m m' : Mem} {i : Nat} (h : m.del t i = some m') : MGR m m' := by
  unfold Mem.del at h
  split at h
  · cases h; exact mgr_ev (noMtx_new _ _ _) rfl rfl rfl
  · cases h

theorem mgr_store {m m' : Mem} {i : Nat} {v : Option Nat} (h : m.store t i v = some m') : MGR m m' := by
  unfold Mem.store at h
  split at h
  · cases h; exact mgr_ev (noMtx_obj _ _) rfl rfl rfl
  · cases h

theorem mgr_xchg {m : Mem} {r : Mem × Option Nat} {i : Nat} (h : m.xchg t i = some r) : MGR m r.1 := by
  unfold Mem.xchg at h
  split at h
  · cases h; exact mgr_ev (noMtx_obj _ _) rfl rfl rfl
  · cases h

theorem mgr_next {m : Mem} {g : Nat} {r : Mem × Option Nat} {i : Nat} (h : m.next t g i = some r) : MGR m r.1 := by
  unfold Mem.next at h
  split at h
  · cases h; exact mgr_ev (noMtx_link _ _) rfl rfl rfl
  · cases h

theorem mgr_remove {m m' : Mem} {g i : Nat} (h : m.remove t g i = some m') : MGR m m' := by
  unfold Mem.remove at h
  split at h
  · cases h
    exact mgr_ev (noMtx_fld _ _ (noMtx_append (noMtx_link _ _) (noMtx_removeLinks _ _))) rfl rfl rfl
  · cases h

theorem mgr_insert (m : Mem) (g : Nat) (pos : Pos) : MGR m (m.insert t g pos) :=
  (mgr_ev (m' := m.made t g pos) (noMtx_new _ _ _) rfl rfl rfl).trans
    (mgr_ev (noMtx_fld _ _ (noMtx_insertLinks _ _ _)) rfl rfl rfl)

theorem mgr_fields (m : Mem) (g : Nat) : MGR m (m.fields t g) := mgr_ev (noMtx_fld _ _ noMtx_nil) rfl rfl rfl

theorem mgr_fields2 (m : Mem) (g g' : Nat) : MGR m (m.ev t .none [(.fld g, true), (.fld g', true)]) :=
  mgr_ev (noMtx_fld _ _ (noMtx_fld _ _ noMtx_nil)) rfl rfl rfl

theorem mgr_plain (m : Mem) (y : Sync) : MGR m (m.ev t y []) := mgr_ev noMtx_nil rfl rfl rfl

theorem mgr_lock {m : Mem} {g : Nat} (hf : m.held g = none) (hk : Knows m t g) : MGR m (m.lock t g) := by
  intro h i g' w hi
  have hn : Known (m.lock t g).tr t (m.tr.length + 1) := by
    have := known_last (m.calls t g).tr ⟨t, .lock g, []⟩
    simpa [Mem.lock, Mem.calls, Mem.ev] using this
  by_cases hg : g' = g
  · subst hg
    rw [guard_held (t := t) (by simp [Mem.lock, upd])]
    rcases acc_cases (e := ⟨t, .lock g', []⟩) hi with hi | ⟨_, hi⟩
    · rcases acc_cases (e := ⟨t, .none, [(.mtx g', false)]⟩) hi with hi | ⟨rfl, _⟩
      · rcases (guard_free hf).1 (h i g' w hi) with h1 | h1
        · have h2 : Through (m.calls t g').tr (.unlock g') i := Under.append _ h1
          exact known_of_hb (unlock_hb (e := ⟨t, .lock g', []⟩) h2 rfl)
        · exact Under.back (Under.append _ (Under.append _ hk.2)) (HBE.append _ (HBE.append _ h1))
      · exact Under.append _ (known_last m.tr ⟨t, .none, [(.mtx g', false)]⟩)
    · cases hi
  · have hi' : Acc m.tr i (.mtx g') w := by
      rcases acc_cases (e := ⟨t, .lock g, []⟩) hi with hi | ⟨_, hi⟩
      · rcases acc_cases (e := ⟨t, .none, [(.mtx g, false)]⟩) hi with hi | ⟨_, hi⟩
        · exact hi
        · simp at hi; exact absurd hi.1 hg
      · cases hi
    have h1 : Guard ((m.calls t g).ev t (.lock g) []) g' i := ((h i g' w hi').ev).ev
    have h2 : (m.lock t g).held g' = m.held g' := by simp [Mem.lock, upd, hg]
    unfold Guard at *
    rw [h2]
    exact h1

theorem mgr_unlock {m : Mem} {g : Nat} (hh : m.held g = some t) : MGR m (m.unlock t g) := by
  intro h i g' w hi
  have hi' : Acc m.tr i (.mtx g') w := by
    rcases acc_cases (e := ⟨t, .unlock g, []⟩) hi with hi | ⟨_, hi⟩
    · exact hi
    · cases hi
  have h0 := h i g' w hi'
  by_cases hg : g' = g
  · subst hg
    rw [guard_free (by simp [Mem.unlock, upd])]
    exact .inl (known_through (e := ⟨t, .unlock g', []⟩) ((guard_held hh).1 h0))
  · have h1 : Guard (m.ev t (.unlock g) []) g' i := h0.ev
    have h2 : (m.unlock t g).held g' = m.held g' := by simp [Mem.unlock, upd, hg]
    unfold Guard at *
    rw [h2]
    exact h1

/-- A signal that did not exist before. -/
theorem mgr_sigMade {m : Mem} (hi : Inv m) {i g : Nat} {w : Bool} (ha : Acc (m.sigMade t).tr i (.mtx g) w) :
    (g ≠ m.nsigs ∧ Acc m.tr i (.mtx g) w) ∨ (g = m.nsigs ∧ i = m.tr.length) := by
  rcases acc_cases (e := ⟨t, .none, [(.fld m.nsigs, true), (.mtx m.nsigs, true)]⟩) ha with ha | ⟨rfl, hx⟩
  · exact .inl ⟨Nat.ne_of_lt (hi.accMtx i g w ha), ha⟩
  · refine .inr ⟨?_, rfl⟩
    rcases List.mem_cons.1 hx with hx | hx
    · cases hx
    · rcases List.mem_cons.1 hx with hx | hx
      · injection hx with hx _; injection hx
      · cases hx

theorem mgr_newSig {m : Mem} (hi : Inv m) : MGR m (m.newSig t) := by
  intro h i g w ha
  have hf : m.held m.nsigs = none := by
    cases hx : m.held m.nsigs with
    | none => rfl
    | some u => exact absurd (hi.heldLt _ _ hx) (Nat.lt_irrefl _)
  rcases mgr_sigMade hi ha with ⟨hg, ha⟩ | ⟨rfl, rfl⟩
  · have h1 : Guard (m.sigMade t) g i := (h i g w ha).ev
    have h2 : (m.newSig t).birth g = m.birth g := by simp [Mem.newSig, upd, hg]
    unfold Guard at *
    rw [h2]
    exact h1
  · rw [guard_free (m := m.newSig t) hf]
    exact .inr (.inl (by simp [Mem.newSig, upd]))

theorem mgr_beginMove {m : Mem} (hi : Inv m) : MGR m (m.beginMove t) := by
  intro h i g w ha
  rcases mgr_sigMade hi ha with ⟨hg, ha⟩ | ⟨rfl, rfl⟩
  · have h1 : Guard (m.sigMade t) g i := (h i g w ha).ev
    have h2 : (m.beginMove t).held g = m.held g := by simp [Mem.beginMove, upd, hg]
    unfold Guard at *
    rw [h2]
    exact h1
  · rw [guard_held (t := t) (by simp [Mem.beginMove, upd])]
    exact known_last m.tr ⟨t, .none, [(.fld m.nsigs, true), (.mtx m.nsigs, true)]⟩

theorem mgr_finished {m : Mem} {g g' : Nat} (hh : m.held g = some t) (hh' : m.held g' = some t) (hne : g ≠ g') :
    MGR m (m.finished t g g') := by
  intro h i x w ha
  have ha' : Acc m.tr i (.mtx x) w := by
    rcases acc_cases (e := ⟨t, .unlock g, []⟩) ha with hi | ⟨_, hi⟩
    · exact hi
    · cases hi
  by_cases hx : x = g'
  · subst hx
    rw [guard_free (by simp [Mem.finished, upd])]
    right
    have hb : (m.finished t g x).birth x = m.tr.length := by simp [Mem.finished, upd]
    rw [hb]
    exact .inr (known_hb (e := ⟨t, .unlock g, []⟩) ((guard_held hh').1 (h i x w ha')))
  · have h1 := mgr_unlock (t := t) hh h i x w ha
    have h2 : (m.finished t g g').held x = (m.unlock t g).held x := by simp [Mem.finished, upd, hx]
    have h3 : (m.finished t g g').birth x = (m.unlock t g).birth x := by
      simp [Mem.finished, upd, hx, Mem.unlock, Mem.ev]
    unfold Guard at *
    rw [h2, h3]
    exact h1

def Guards (m : Mem) (o : Out) : Prop := MG m → ∀ st', o = .ok st' → MG st'.mem

theorem guards_go {m m' : Mem} {th : Thread} (h : MGR m m') : Guards m (st.go t m' th) := by
  intro hc st' hs
  cases hs
  exact h hc

theorem guards_ok {m m' : Mem} {f : Nat → Thread} {x y : Nat → List Nat} (h : MGR m m') :
    Guards m (.ok ⟨m', f, x, y⟩) := by
  intro hc st' hs
  cases hs
  exact h hc

theorem guards_off {m : Mem} : Guards m .off := by intro _ _ h; cases h
theorem guards_ub {m : Mem} : Guards m .ub := by intro _ _ h; cases h
theorem guards_term {m : Mem} : Guards m .term := by intro _ _ h; cases h

theorem guards_first {m m' : Mem} {o : Out} (h : MGR m m') (h' : Guards m' o) : Guards m o :=
  fun hc st' hs => h' (h hc) st' hs

theorem guards_free {m m' : Mem} {g : Nat} {k : Out} (h : m'.held g = none → Guards m k) :
    Guards m (whenFree m' g k) := by
  unfold whenFree
  split
  · exact h ‹_›
  · exact guards_off

theorem guards_by {α : Type} {m0 m : Mem} {x : Option α} {k : α → Out} {f : α → Mem}
    (h0 : MGR m0 m) (h : ∀ a, x = some a → MGR m (f a)) (h' : ∀ a, x = some a → Guards (f a) (k a)) :
    Guards m0 (orUb x k) := by
  cases hx : x with
  | none => exact guards_ub
  | some a => exact fun hc st' hs => h' a hx (h a hx (h0 hc)) st' hs

theorem mgr_refl (m : Mem) : MGR m m := id

theorem guards_touch {m : Mem} {i : Nat} {k : Mem → Out} (h : ∀ a, Guards a (k a)) :
    Guards m (orUb (m.touch t i) k) := guards_by (f := id) (mgr_refl m) (fun _ => mgr_touch) fun a _ => h a
theorem guards_addRef {m : Mem} {i : Nat} {k : Mem → Out} (h : ∀ a, Guards a (k a)) :
    Guards m (orUb (m.addRef t i) k) := guards_by (f := id) (mgr_refl m) (fun _ => mgr_addRef) fun a _ => h a
theorem guards_sub {m : Mem} {i : Nat} {k : Mem × Bool → Out} (h : ∀ a, Guards a.1 (k a)) :
    Guards m (orUb (m.sub t i) k) := guards_by (f := (·.1)) (mgr_refl m) (fun _ => mgr_sub) fun a _ => h a
theorem guards_del {m : Mem} {i : Nat} {k : Mem → Out} (h : ∀ a, Guards a (k a)) :
    Guards m (orUb (m.del t i) k) := guards_by (f := id) (mgr_refl m) (fun _ => mgr_del) fun a _ => h a
theorem guards_store {m : Mem} {i : Nat} {v : Option Nat} {k : Mem → Out} (h : ∀ a, Guards a (k a)) :
    Guards m (orUb (m.store t i v) k) := guards_by (f := id) (mgr_refl m) (fun _ => mgr_store) fun a _ => h a
theorem guards_next {m : Mem} {g i : Nat} {k : Mem × Option Nat → Out}
    (h : ∀ a, Guards a.1 (k a)) : Guards m (orUb (m.next t g i) k) :=
  guards_by (f := (·.1)) (mgr_refl m) (fun _ => mgr_next) fun a _ => h a
theorem guards_xchg {m : Mem} {i : Nat} {k : Mem × Option Nat → Out}
    (h : ∀ a, Guards a.1 (k a)) : Guards m (orUb (m.xchg t i) k) :=
  guards_by (f := (·.1)) (mgr_refl m) (fun _ => mgr_xchg) fun a _ => h a
theorem guards_remove {m : Mem} {g i : Nat} {k : Mem → Out}
    (h : ∀ a, Guards a (k a)) : Guards m (orUb (m.remove t g i) k) :=
  guards_by (f := id) (mgr_refl m) (fun _ => mgr_remove) fun a _ => h a

theorem guards_swapped {m m' : Mem} {g g' : Nat} {th : Thread} (h : MGR m m') :
    Guards m (st.go t (m'.swapped g g') th) := guards_go (h.trans (mgr_same rfl rfl rfl))

macro "guards" : tactic => `(tactic|
  repeat' (first
    | exact guards_off
    | exact guards_ub
    | exact guards_term
    | exact guards_go (mgr_refl _)
    | exact guards_go (mgr_same rfl rfl rfl)
    | exact guards_go (mgr_plain _ _)
    | exact guards_go (mgr_fields _ _)
    | exact guards_go ((mgr_fields _ _).trans (mgr_same rfl rfl rfl))
    | exact guards_go ((mgr_fields2 _ _ _).trans (mgr_same rfl rfl rfl))
    | exact guards_go (mgr_insert _ _ _)
    | exact guards_ok ((mgr_plain _ _).trans (mgr_same rfl rfl rfl))
    | (refine guards_touch fun _ => ?_)
    | (refine guards_addRef fun _ => ?_)
    | (refine guards_sub fun _ => ?_)
    | (refine guards_del fun _ => ?_)
    | (refine guards_store fun _ => ?_)
    | (refine guards_next fun _ => ?_)
    | (refine guards_remove fun _ => ?_)
    | (refine guards_xchg fun _ => ?_)
    | split))

theorem stepUser_guards {op : Op} {th : Thread} (hi : Inv st.mem) : Guards st.mem (stepUser st t th op) := by
  cases op with
  | newSig => exact guards_go (mgr_newSig hi)
  | moveSig g =>
    simp only [stepUser]
    split
    · exact guards_go (mgr_beginMove hi)
    · exact guards_off
  | _ => simp only [stepUser] <;> guards

theorem stepCode_guards {b : Bool} (h : StateOk st) : Guards st.mem (stepCode st t (st.threads t) b) := by
  have hk := (h.threads t).sigs
  have hh := fun g => ((h.threads t).held g).2
  have hl : ∀ {g : Nat} {o : Out}, Knows st.mem t g → (st.mem.held g = none → Guards (st.mem.lock t g) o) →
      Guards st.mem (whenFree st.mem g o) := fun h1 h2 =>
    guards_free fun hf => guards_first (mgr_lock hf h1) (h2 hf)
  cases hc : (st.threads t).code with
  | emLock g | allLock g | numLock g | conLock g pos | disLock s g | mvLock2 g | emEnd g | mvLock g g' =>
    rw [hc] at hk
    simp only [stepCode, hc]
    refine hl (hk g (by code)) fun _ => ?_
    guards
  | emAdv g last c =>
    rw [hc] at hk
    simp only [stepCode, hc]
    split
    · guards
    · refine hl (hk g (by code)) fun _ => ?_
      guards
  | swLock g g' =>
    rw [hc] at hk
    simp only [stepCode, hc]
    split
    · guards
    · rename_i hne
      refine guards_free fun h1 => guards_free fun h2 => ?_
      refine guards_first ((mgr_lock h1 (hk g (by code))).trans (mgr_lock (t := t) (g := g') ?_ ?_)) ?_
      · simp only [Mem.lock, upd]
        rw [if_neg (fun h => hne h.symm)]
        exact h2
      · exact (hk g' (by code)).guar (lock_ok h.mem h1 (hk g (by code))).2
      · split
        · exact guards_term
        · exact guards_go ((mgr_fields2 _ _ _).trans (mgr_same rfl rfl rfl))
  | emUnl g _ _ | emNUnl g _ _ _ | unl g | unl2 g g' | disUnl s g =>
    rw [hc] at hh
    simp only [stepCode, hc]
    exact guards_go (mgr_unlock (hh g (by code)))
  | mvUnl g g' =>
    rw [hc] at hh
    have hn := (h.threads t).nodup
    rw [hc] at hn
    simp only [stepCode, hc]
    exact guards_go (mgr_finished (hh g (by code)) (hh g' (by code)) (by simpa [Code.locks] using hn))
  | _ => simp only [stepCode, hc]; guards

theorem step_guards {op : Op} (h : StateOk st) : Guards st.mem (step st t op) := by
  unfold step
  dsimp only
  split
  · exact stepCode_guards h
  · split
    · exact stepUser_guards h.mem
    · exact guards_off

theorem reach_guards (h : Reach st) : MG st.mem := by
  induction h with
  | init => intro i g w hi; obtain ⟨a, ha, _⟩ := hi; simp [State.init] at ha
  | @step st st' t op hr hs ih => exact step_guards (reach_ok hr) ih st' hs

end Verif.Races
