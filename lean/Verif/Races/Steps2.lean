import Verif.Races.Steps

/-! Every step keeps the invariant, continued: everything but emissions. -/

namespace Verif.Races

variable {st : State} {m m' : Mem} {t : Nat} {th : Thread} {c c' : Code}

/-! ### Loops over the list of a signal -/

theorem head_listed {g : Nat} (m : Mem) : ∀ p ∈ inList g (m.list g).head?, p.1 ∈ m.list p.2 := by
  intro p hp
  simp only [inList, List.mem_map, Option.mem_toList] at hp
  obtain ⟨s, hs, rfl⟩ := hp
  exact List.mem_of_head? hs

theorem succ_listed {g s : Nat} (m : Mem) : ∀ p ∈ inList g (succ (m.list g) s), p.1 ∈ m.list p.2 := by
  intro p hp
  simp only [inList, List.mem_map, Option.mem_toList] at hp
  obtain ⟨x, hx, rfl⟩ := hp
  exact succ_mem hx

/-- Removing a slot, and what the thread has then. -/
theorem next_removed {g s : Nat} (h : ThreadOk m t th) (hc : th.code = c) (hi : Inv m) (hg : Guar t m (m.removed t g s))
    (refs : ∀ x, c'.refs.count x = c.refs.count x + [s].count x)
    (listed : ∀ p ∈ c'.listed, p.1 ∈ m.list p.2 ∧ p.1 ≠ s)
    (dying : c'.dying = [])
    (ems : c'.ems = c.ems) (locks : c'.locks = c.locks) (sigs : ∀ g ∈ c'.sigs, g ∈ c.sigs)
    (quiet : ∀ g ∈ c'.quiet, g ∈ c.quiet) (unborn : c'.unborn = []) (empty : c'.empty = []) (wf : c'.wf) :
    ThreadOk (m.removed t g s) t { th with code := c' } := by
  subst hc
  have hadd : ∀ x, ((m.removed t g s).refs x).count (.thread t) = (m.refs x).count (.thread t) + [s].count x :=
    refs_add (m := m) (m' := m.removed t g s) rfl
  exact h.next hg {
    refs := fun x => by rw [hadd x]; have := refs x; omega
    ems := fun x => by rw [ems]; rfl
    held := fun x => by rw [locks]; exact h.held x
    nodup := by rw [locks]; exact h.nodup
    sigs := fun x hx => (h.sigs x (sigs x hx)).guar hg
    listed := fun p hp => by
      obtain ⟨h1, h2⟩ := listed p hp
      simp only [Mem.removed, Mem.ev, upd]
      split
      · rename_i hx
        rw [List.mem_erase_of_ne h2, ← hx]
        exact h1
      · exact h1
    dying := by rw [dying]; simp
    quiet := fun x hq => h.quiet x (quiet x hq)
    unborn := by rw [unborn]; simp
    empty := by rw [empty]; simp
    wf := wf }

/-! ### `cleanup_invalidated_slots_locked` and `rebind_locked` -/

theorem K.locks_sig (k : K) : k.sig ∈ k.locks := by cases k <;> simp [K.sig, K.locks]

theorem K.rest_locks (k : K) : ∀ x ∈ k.rest, x ∈ k.locks := by cases k <;> simp [K.rest, K.locks]

/-- Going to the beginning of `rebind_locked`. -/
theorem cleaned_wf (k : K) (o : Option Nat) : (k.cleaned o).wf := by cases k <;> code

theorem step_cl {g : Nat} {iter : Option Nat} {k : K} {b : Bool} (h : StateOk st)
    (hc : (st.threads t).code = .cl g iter k) : Good st t (stepCode st t (st.threads t) b) := by
  have ht := h.threads t
  have hl := ht.listed
  have hw := ht.wf
  have hq := ht.quiet
  rw [hc] at hl hw hq
  have hw : k.sig = g := hw
  have hh : st.mem.held g = some t := (ht.held g).2 (by rw [hc, ← hw]; exact k.locks_sig)
  simp only [stepCode, hc]
  cases iter with
  | none =>
    obtain ⟨h1, g1⟩ := defer_ok (b := false) h.mem hh
    have hs : Same st.mem (st.mem.defer t g false) := ⟨rfl, rfl, rfl, rfl, rfl⟩
    refine good_go h h1 g1 (next_same ht hc g1 hs ?_ ?_ ?_ ?_ ?_ ?_ ?_ ?_ ?_ (cleaned_wf ..))
    · intro x; cases k <;> exact rfl
    · intro p hp
      subst hw
      cases k <;> first | (simp [K.cleaned, Code.listed] at hp; done) | exact head_listed _ p hp
    all_goals subst hw; cases k <;> simp [K.cleaned, Code.ems, Code.dying, Code.locks, Code.sigs, Code.quiet, Code.unborn, Code.empty,
      K.locks, K.rest, K.sig]
  | some i =>
    have him : i ∈ st.mem.list g := hl (i, g) (by code)
    obtain ⟨e, h1, g1⟩ := touch_ok h.mem (h.mem.toCore.mayList hh him)
    refine good_orUb e ?_
    obtain ⟨e2, h2, g2⟩ := next_ok (m := st.mem.ev t .none [(.obj i, false)]) h1 hh him
    have g12 := g1.trans rfl g2
    split
    · refine good_orUb e2 (good_go h h2 g12 (next_same ht hc g12 ⟨rfl, rfl, rfl, rfl, rfl⟩ (fun _ => rfl)
        (succ_listed st.mem) (by code) (by code) (by code) (fun _ => id) (fun _ => id) (by code) (by code) hw))
    · refine good_orUb e2 ?_
      obtain ⟨e3, h3, g3⟩ := removed_ok h2 hh him (hq g (by code))
      have hg := g12.trans rfl g3
      refine good_orUb e3 (good_go h h3 hg ?_)
      have ht2 := next_same (c' := .cl g (some i) k) ht hc g12 ⟨rfl, rfl, rfl, rfl, rfl⟩ (fun _ => rfl)
        hl (by code) (by code) (by code) (fun _ => id) (fun _ => id) (by code) (by code) hw
      refine next_removed (th := { st.threads t with code := .cl g (some i) k }) (c := .cl g (some i) k) ht2 rfl h2 g3 (fun x => ?_) (fun p hp => ⟨succ_listed st.mem p hp, ?_⟩)
        (by code) (by code) (by code) (fun _ => id) (fun _ => id) (by code) (by code) hw
      · simp [Code.refs]
      · simp only [Code.listed, inList, List.mem_map, Option.mem_toList] at hp
        obtain ⟨x, hx, rfl⟩ := hp
        exact succ_ne (h.mem.nodup g) hx

theorem step_clRel {g s : Nat} {next : Option Nat} {k : K} {b : Bool} (h : StateOk st)
    (hc : (st.threads t).code = .clRel g s next k) : Good st t (stepCode st t (st.threads t) b) := by
  have hw := (h.threads t).wf
  rw [hc] at hw
  have hw : k.sig = g := hw
  simp only [stepCode, hc]
  refine good_sub h hc (by code) ?_ ?_ (fun _ => id) (fun _ => id) (by code) (by code) (by code) (by code) (by code) (by code)
    (fun _ => id) (fun _ => id) (fun _ => id) (fun _ => id) (by code) (by code) (by code) (by code) hw hw
  · intro x; simp [Code.refs]
  · intro x; simp [Code.refs]

theorem step_clDel {g s : Nat} {next : Option Nat} {k : K} {b : Bool} (h : StateOk st)
    (hc : (st.threads t).code = .clDel g s next k) : Good st t (stepCode st t (st.threads t) b) := by
  have hw := (h.threads t).wf
  rw [hc] at hw
  have hw : k.sig = g := hw
  simp only [stepCode, hc]
  exact good_del h hc (by code) (by code) (by code) (by code) (by code) (by code) (fun _ => id) (fun _ => id) (by code) (by code) hw

theorem step_rb {g : Nat} {iter : Option Nat} {k : K} {b : Bool} (h : StateOk st)
    (hc : (st.threads t).code = .rb g iter k) : Good st t (stepCode st t (st.threads t) b) := by
  have ht := h.threads t
  have hl := ht.listed
  have hw := ht.wf
  have hk := ht.sigs
  rw [hc] at hl hw hk
  have hw : k.sig = g := hw
  have hh : st.mem.held g = some t := (ht.held g).2 (by rw [hc, ← hw]; exact k.locks_sig)
  simp only [stepCode, hc]
  cases iter with
  | none =>
    cases k with
    | em x =>
      exact good_stay h hc (by code) (by code) (by code) (by code) (by code) (by code) (by code) (by code) (by code) (by code)
    | mv x =>
      exact good_stay h hc (by code) (by code) (by code) (by code) (by code) (by code) (by code) (by code) (by code) (by code)
    | sw2 x y =>
      exact good_stay h hc (by code) (by code) (by code) (by code) (by code) (by code) (by code) (by code) (by code) (by code)
    | sw1 x y =>
      have hh' : st.mem.held y = some t := (ht.held y).2 (by rw [hc]; code)
      obtain ⟨h1, g1⟩ := fields_ok h.mem hh'
      dsimp only
      split
      · exact good_go h h1 g1 (next_same ht hc g1 (Same.ev ..) (fun _ => rfl) (head_listed st.mem) (by code) (by code)
          (by code) (by code) (by code) (by code) (by code) (by code))
      · simp only [K.cleaned]
        exact good_go h h1 g1 (next_same ht hc g1 (Same.ev ..) (fun _ => rfl) (head_listed st.mem) (by code) (by code)
          (by code) (by code) (by code) (by code) (by code) (by code))
  | some i =>
    have him : i ∈ st.mem.list g := hl (i, g) (by code)
    obtain ⟨m', e, h1, g1, s1, r1, d1, _⟩ := store_ok (v := some g) h.mem (h.mem.toCore.mayList hh him)
      (fun x hx => by cases hx; exact hk g (by rw [← hw]; exact k.locks_sig))
    refine good_orUb e ?_
    obtain ⟨e2, h2, g2⟩ := next_ok (m := m') h1 (by rw [s1.held]; exact hh) (by rw [s1.list]; exact him)
    have hg := g1.trans s1.ems g2
    refine good_orUb e2 (good_go h h2 hg (next_same ht hc hg (s1.trans (Same.ev ..)) (fun x => ?_) ?_ (by code) (by code) (by code)
      (fun _ => id) (fun _ => id) (by code) (by code) hw))
    · show _ = _ + (m'.refs x).count _
      rw [r1]; rfl
    · rw [s1.list]
      exact succ_listed st.mem

/-! ### The end of a critical section -/

theorem step_unl {g : Nat} {b : Bool} (h : StateOk st) (hc : (st.threads t).code = .unl g) :
    Good st t (stepCode st t (st.threads t) b) := by
  have ht := h.threads t
  simp only [stepCode, hc]
  obtain ⟨h1, g1⟩ := unlock_ok h.mem ((ht.held g).2 (by rw [hc]; code))
  exact good_go h h1 g1 (next_unlock ht hc g1 (by code) (by code) (by code) (by code) (by code) (by code) (by code) (by code)
    (by code) (by code))

theorem step_unl2 {g g' : Nat} {b : Bool} (h : StateOk st) (hc : (st.threads t).code = .unl2 g g') :
    Good st t (stepCode st t (st.threads t) b) := by
  have ht := h.threads t
  simp only [stepCode, hc]
  obtain ⟨h1, g1⟩ := unlock_ok h.mem ((ht.held g).2 (by rw [hc]; code))
  exact good_go h h1 g1 (next_unlock ht hc g1 (by code) (by code) (by code) (by code) (by code) (by code) (by code) (by code)
    (by code) (by code))

/-! ### `disconnect` -/

/-- Locking a mutex and going to the head of the list. -/
theorem good_lockHead {g : Nat} {f : Option Nat → Code} (h : StateOk st) (hc : (st.threads t).code = c)
    (sig : g ∈ c.sigs)
    (listed : ∀ o, (f o).listed = inList g o) (quiet : ∀ o, (f o).quiet = []) (refs : ∀ o, (f o).refs = c.refs)
    (ems : ∀ o, (f o).ems = c.ems)
    (locks : ∀ o, (f o).locks = g :: c.locks) (sigs : ∀ o, ∀ g ∈ (f o).sigs, g ∈ c.sigs)
    (dying : ∀ o, (f o).dying = []) (unborn : ∀ o, (f o).unborn = []) (empty : ∀ o, (f o).empty = []) (wf : ∀ o, (f o).wf) :
    Good st t (whenFree st.mem g (
      let m := (st.mem.lock t g).fields t g
      st.go t m { st.threads t with code := f (m.list g).head? })) := by
  have ht := h.threads t
  have hk : Knows st.mem t g := ht.sigs g (by rw [hc]; exact sig)
  refine good_free fun hf => ?_
  obtain ⟨h1, g1⟩ := lock_ok h.mem hf hk
  have hh : (st.mem.lock t g).held g = some t := by simp [Mem.lock, upd]
  obtain ⟨h2, g2⟩ := fields_ok h1 hh
  have hg := g1.trans rfl g2
  refine good_go h h2 hg (next_lock ht hc hg hf rfl rfl ?_ ?_ ?_ (refs _) (locks _) (sigs _) (dying _) (unborn _) (empty _) (wf _))
  · intro x; rw [ems]; rfl
  · rw [listed]; exact head_listed _
  · rw [quiet]; simp

theorem step_disLock {s g : Nat} {b : Bool} (h : StateOk st) (hc : (st.threads t).code = .disLock s g) :
    Good st t (stepCode st t (st.threads t) b) := by
  simp only [stepCode, hc]
  exact good_lockHead (f := fun o => .disLoop s g o) h hc (by code) (fun _ => rfl) (fun _ => rfl) (fun _ => rfl) (fun _ => rfl)
    (fun _ => rfl) (by code) (fun _ => rfl) (fun _ => rfl) (fun _ => rfl) (fun _ => trivial)

theorem step_disLoop {s g : Nat} {iter : Option Nat} {b : Bool} (h : StateOk st)
    (hc : (st.threads t).code = .disLoop s g iter) : Good st t (stepCode st t (st.threads t) b) := by
  have ht := h.threads t
  have hl := ht.listed
  rw [hc] at hl
  have hh : st.mem.held g = some t := (ht.held g).2 (by rw [hc]; code)
  simp only [stepCode, hc]
  cases iter with
  | none =>
    exact good_stay h hc (by intro s; simp [Code.refs]) (by code) (by code) (by code) (by code) (by code) (by code) (by code)
      (by code) (by code)
  | some i =>
    dsimp only
    have him : i ∈ st.mem.list g := hl (i, g) (by code)
    split
    · rename_i hi
      subst hi
      exact good_stay h hc (by intro s; simp [Code.refs]) hl (by code) (by code) (by code) (by code) (by code) (by code)
        (by code) (by code)
    · obtain ⟨e2, h2, g2⟩ := next_ok h.mem hh him
      exact good_orUb e2 (good_go h h2 g2 (next_same ht hc g2 (Same.ev ..) (fun x => rfl) (succ_listed st.mem) (by code)
        (by code) (by code) (by code) (by code) (by code) (by code) (by code)))

theorem step_disStore {s g : Nat} {b : Bool} (h : StateOk st) (hc : (st.threads t).code = .disStore s g) :
    Good st t (stepCode st t (st.threads t) b) := by
  have ht := h.threads t
  have hl := ht.listed
  rw [hc] at hl
  have hh : st.mem.held g = some t := (ht.held g).2 (by rw [hc]; code)
  have hs : s ∈ st.mem.list g := hl (s, g) (by code)
  simp only [stepCode, hc]
  obtain ⟨m', e, h1, g1, s1, r1, d1, _⟩ := store_ok (v := none) h.mem (h.mem.toCore.mayList hh hs) (by simp)
  refine good_orUb e ?_
  have hh' : m'.held g = some t := by rw [s1.held]; exact hh
  have hs' : s ∈ m'.list g := by rw [s1.list]; exact hs
  split
  · rename_i h0
    have he : m'.ems g = [] := by
      have := h1.active g
      rw [h0] at this
      exact List.eq_nil_of_length_eq_zero this.symm
    obtain ⟨e3, h3, g3⟩ := removed_ok h1 hh' hs' he
    have hg := g1.trans s1.ems g3
    have ht2 := next_same (c' := .disStore s g) ht hc g1 s1 (fun x => by rw [r1])
      hl (by code) (by code) (by code) (fun _ => id) (fun _ => id) (by code) (by code) (by code)
    refine good_orUb e3 (good_go h h3 hg (next_removed (th := { st.threads t with code := .disStore s g }) (c := .disStore s g) ht2 rfl h1 g3 (fun x => ?_) (by code) (by code) (by code) (by code) (by code)
      (by code) (by code) (by code) (by code)))
    simp only [Code.refs, List.count_append]
  · obtain ⟨h3, g3⟩ := defer_ok (b := true) h1 hh'
    have hg := g1.trans s1.ems g3
    have hsm : Same st.mem (m'.defer t g true) := s1.trans ⟨rfl, rfl, rfl, rfl, rfl⟩
    refine good_go h h3 hg (next_same ht hc hg hsm (fun x => ?_) (by code) (by code) (by code) (by code) (by code) (by code)
      (by code) (by code) (by code))
    show _ = _ + (m'.refs x).count _
    rw [r1]; rfl

theorem step_disRel {s g : Nat} {b : Bool} (h : StateOk st) (hc : (st.threads t).code = .disRel s g) :
    Good st t (stepCode st t (st.threads t) b) := by
  simp only [stepCode, hc]
  refine good_sub h hc (by code) ?_ ?_ (by code) (by code) (by code) (by code) (by code) (by code) (by code) (by code) (by code) (by code)
    (by code) (by code) (by code) (by code) (by code) (by code) (by code) (by code)
  · intro x; simp only [Code.refs, List.count_append]
  · intro x; simp only [Code.refs, List.count_append]

theorem step_disDel {s g : Nat} {b : Bool} (h : StateOk st) (hc : (st.threads t).code = .disDel s g) :
    Good st t (stepCode st t (st.threads t) b) := by
  simp only [stepCode, hc]
  exact good_del h hc (by code) (by code) (by code) (by code) (by code) (by code) (by code) (by code) (by code) (by code) (by code)

theorem step_disUnl {s g : Nat} {b : Bool} (h : StateOk st) (hc : (st.threads t).code = .disUnl s g) :
    Good st t (stepCode st t (st.threads t) b) := by
  have ht := h.threads t
  simp only [stepCode, hc]
  obtain ⟨h1, g1⟩ := unlock_ok h.mem ((ht.held g).2 (by rw [hc]; code))
  exact good_go h h1 g1 (next_unlock ht hc g1 (by code) (by code) (by code) (by code) (by code) (by code) (by code) (by code)
    (by code) (by code))

theorem step_rel {s : Nat} {b : Bool} (h : StateOk st) (hc : (st.threads t).code = .rel s) :
    Good st t (stepCode st t (st.threads t) b) := by
  simp only [stepCode, hc]
  refine good_sub h hc (by code) ?_ ?_ (by code) (by code) (by code) (by code) (by code) (by code) (by code) (by code) (by code) (by code)
    (by code) (by code) (by code) (by code) (by code) (by code) (by code) (by code)
  · intro x; simp [Code.refs]
  · intro x; simp [Code.refs]

theorem step_del {s : Nat} {b : Bool} (h : StateOk st) (hc : (st.threads t).code = .del s) :
    Good st t (stepCode st t (st.threads t) b) := by
  simp only [stepCode, hc]
  exact good_del h hc (by code) (by code) (by code) (by code) (by code) (by code) (by code) (by code) (by code) (by code) (by code)

/-! ### `disconnect_all_slots` and `num_slots` -/

theorem step_allLock {g : Nat} {b : Bool} (h : StateOk st) (hc : (st.threads t).code = .allLock g) :
    Good st t (stepCode st t (st.threads t) b) := by
  simp only [stepCode, hc]
  exact good_lockHead (f := fun o => .allLoop g o) h hc (by code) (fun _ => rfl) (fun _ => rfl) (fun _ => rfl) (fun _ => rfl)
    (fun _ => rfl) (by code) (fun _ => rfl) (fun _ => rfl) (fun _ => rfl) (fun _ => trivial)

theorem step_allLoop {g : Nat} {iter : Option Nat} {b : Bool} (h : StateOk st)
    (hc : (st.threads t).code = .allLoop g iter) : Good st t (stepCode st t (st.threads t) b) := by
  have ht := h.threads t
  have hl := ht.listed
  rw [hc] at hl
  have hh : st.mem.held g = some t := (ht.held g).2 (by rw [hc]; code)
  simp only [stepCode, hc]
  cases iter with
  | none =>
    exact good_stay h hc (by intro s; simp [Code.refs]) (by code) (by code) (by code) (by code) (by code) (by code) (by code)
      (by code) (by code)
  | some i =>
    have him : i ∈ st.mem.list g := hl (i, g) (by code)
    obtain ⟨m', e, h1, g1, s1, r1, d1, _⟩ := store_ok (v := none) h.mem (h.mem.toCore.mayList hh him) (by simp)
    refine good_orUb e ?_
    have hh' : m'.held g = some t := by rw [s1.held]; exact hh
    have hs' : i ∈ m'.list g := by rw [s1.list]; exact him
    obtain ⟨e2, h2, g2⟩ := next_ok h1 hh' hs'
    refine good_orUb e2 ?_
    have g12 := g1.trans s1.ems g2
    have s12 : Same st.mem (m'.ev t .none (link i false)) := s1.trans (Same.ev ..)
    have hlist : ∀ p ∈ inList g (succ (m'.list g) i), p.1 ∈ st.mem.list p.2 := by rw [s1.list]; exact succ_listed st.mem
    split
    · rename_i h0
      have he : m'.ems g = [] := by
        have := h1.active g
        rw [h0] at this
        exact List.eq_nil_of_length_eq_zero this.symm
      obtain ⟨e3, h3, g3⟩ := removed_ok h2 hh' hs' he
      have hg := g12.trans (m' := m'.ev t .none (link i false)) s12.ems g3
      have ht2 := next_same (c' := .allLoop g (some i)) ht hc g12 s12
        (fun x => by show _ = _ + (m'.refs x).count _; rw [r1])
        hl (by code) (by code) (by code) (fun _ => id) (fun _ => id) (by code) (by code) (by code)
      refine good_orUb e3 (good_go h h3 hg (next_removed (th := { st.threads t with code := .allLoop g (some i) }) (c := .allLoop g (some i)) ht2 rfl h2 g3 (fun x => ?_) (fun p hp => ⟨?_, ?_⟩) (by code) (by code)
        (by code) (by code) (by code) (by code) (by code) (by code)))
      · simp [Code.refs]
      · rw [s12.list]; exact hlist p hp
      · simp only [Code.listed, inList, List.mem_map, Option.mem_toList] at hp
        obtain ⟨x, hx, rfl⟩ := hp
        exact succ_ne (h1.nodup g) hx
    · obtain ⟨h3, g3⟩ := defer_ok (b := true) h2 hh'
      have hg := g12.trans (m' := m'.ev t .none (link i false)) s12.ems g3
      have hsm : Same st.mem ((m'.ev t .none (link i false)).defer t g true) := s12.trans ⟨rfl, rfl, rfl, rfl, rfl⟩
      refine good_go h h3 hg (next_same ht hc hg hsm (fun x => ?_) hlist (by code) (by code) (by code) (by code) (by code)
        (by code) (by code) (by code))
      show _ = _ + (m'.refs x).count _
      rw [r1]; rfl

theorem step_allRel {g s : Nat} {next : Option Nat} {b : Bool} (h : StateOk st)
    (hc : (st.threads t).code = .allRel g s next) : Good st t (stepCode st t (st.threads t) b) := by
  simp only [stepCode, hc]
  refine good_sub h hc (by code) ?_ ?_ (fun _ => id) (fun _ => id) (by code) (by code) (by code) (by code) (by code) (by code)
    (by code) (by code) (by code) (by code) (by code) (by code) (by code) (by code) (by code) (by code)
  · intro x; simp [Code.refs]
  · intro x; simp [Code.refs]

theorem step_allDel {g s : Nat} {next : Option Nat} {b : Bool} (h : StateOk st)
    (hc : (st.threads t).code = .allDel g s next) : Good st t (stepCode st t (st.threads t) b) := by
  simp only [stepCode, hc]
  exact good_del h hc (by code) (by code) (by code) (by code) (by code) (by code) (by code) (by code) (by code) (by code) (by code)

theorem step_numLock {g : Nat} {b : Bool} (h : StateOk st) (hc : (st.threads t).code = .numLock g) :
    Good st t (stepCode st t (st.threads t) b) := by
  simp only [stepCode, hc]
  exact good_lockHead (f := fun o => .numLoop g o) h hc (by code) (fun _ => rfl) (fun _ => rfl) (fun _ => rfl) (fun _ => rfl)
    (fun _ => rfl) (by code) (fun _ => rfl) (fun _ => rfl) (fun _ => rfl) (fun _ => trivial)

theorem step_numLoop {g : Nat} {iter : Option Nat} {b : Bool} (h : StateOk st)
    (hc : (st.threads t).code = .numLoop g iter) : Good st t (stepCode st t (st.threads t) b) := by
  have ht := h.threads t
  have hl := ht.listed
  rw [hc] at hl
  have hh : st.mem.held g = some t := (ht.held g).2 (by rw [hc]; code)
  simp only [stepCode, hc]
  cases iter with
  | none =>
    exact good_stay h hc (by intro s; simp [Code.refs]) (by code) (by code) (by code) (by code) (by code) (by code) (by code)
      (by code) (by code)
  | some i =>
    have him : i ∈ st.mem.list g := hl (i, g) (by code)
    obtain ⟨e, h1, g1⟩ := touch_ok h.mem (h.mem.toCore.mayList hh him)
    refine good_orUb e ?_
    obtain ⟨e2, h2, g2⟩ := next_ok (m := st.mem.ev t .none [(.obj i, false)]) h1 hh him
    have hg := g1.trans rfl g2
    exact good_orUb e2 (good_go h h2 hg (next_same ht hc hg ⟨rfl, rfl, rfl, rfl, rfl⟩ (fun x => rfl) (succ_listed st.mem)
      (by code) (by code) (by code) (by code) (by code) (by code) (by code) (by code)))

/-! ### `connect` -/

theorem step_conLock {g : Nat} {pos : Pos} {b : Bool} (h : StateOk st) (hc : (st.threads t).code = .conLock g pos) :
    Good st t (stepCode st t (st.threads t) b) := by
  have ht := h.threads t
  have hk : Knows st.mem t g := ht.sigs g (by rw [hc]; code)
  simp only [stepCode, hc]
  refine good_free fun hf => ?_
  obtain ⟨h1, g1⟩ := lock_ok h.mem hf hk
  have hh : (st.mem.lock t g).held g = some t := by simp [Mem.lock, upd]
  obtain ⟨h2, g2, hin⟩ := insert_ok (pos := pos) h1 hh (hk.guar g1)
  have hg := g1.trans rfl g2
  refine good_go h h2 hg (next_lock ht hc hg hf rfl rfl (fun _ => rfl) ?_ (by code) (by code) (by code) (by code) (by code) (by code)
    (by code) (by code))
  intro p hp
  simp only [Code.listed, List.mem_singleton] at hp
  subst hp
  exact hin

theorem step_conRef {g s : Nat} {b : Bool} (h : StateOk st) (hc : (st.threads t).code = .conRef g s) :
    Good st t (stepCode st t (st.threads t) b) := by
  have ht := h.threads t
  have hl := ht.listed
  rw [hc] at hl
  have hh : st.mem.held g = some t := (ht.held g).2 (by rw [hc]; code)
  simp only [stepCode, hc]
  obtain ⟨m', e, h1, g1, s1, r1, d1⟩ := addRef_ok h.mem (h.mem.toCore.mayList hh (hl (s, g) (by code)))
  refine good_orUb e ?_
  have h2 : ThreadOk m' t { st.threads t with code := .disUnl s g } := by
    refine next_same ht hc g1 s1 (fun x => ?_) (by code) (by code) (by code) (by code) (by code) (by code)
      (by code) (by code) (by code)
    rw [refs_add r1]; simp only [Code.refs, List.count_nil]; omega
  refine good_go h h1 g1 { h2 with refs := fun x => ?_ }
  have := h2.refs x
  simp only [Code.refs, List.count_nil, List.count_append] at this ⊢
  omega

/-! ### `swap` and moving -/

theorem step_swLock {g g' : Nat} {b : Bool} (h : StateOk st) (hc : (st.threads t).code = .swLock g g') :
    Good st t (stepCode st t (st.threads t) b) := by
  have ht := h.threads t
  have hk : Knows st.mem t g := ht.sigs g (by rw [hc]; code)
  have hk' : Knows st.mem t g' := ht.sigs g' (by rw [hc]; code)
  simp only [stepCode, hc]
  split
  · exact good_stay h hc (by code) (by code) (by code) (by code) (by code) (by code) (by code) (by code) (by code) (by code)
  rename_i hne
  refine good_free fun hf => good_free fun hf' => ?_
  obtain ⟨h1, g1⟩ := lock_ok h.mem hf hk
  have hf1 : (st.mem.lock t g).held g' = none := by simp [Mem.lock, Mem.calls, upd, Mem.ev, hf', Ne.symm hne]
  obtain ⟨h2, g2⟩ := lock_ok h1 hf1 (hk'.guar g1)
  have hh : ((st.mem.lock t g).lock t g').held g = some t := by simp [Mem.lock, upd]
  have hh' : ((st.mem.lock t g).lock t g').held g' = some t := by simp [Mem.lock, upd]
  obtain ⟨h3, g3⟩ := fields2_ok h2 hh hh'
  have g123 := (g1.trans rfl g2).trans rfl g3
  split
  · trivial
  · rename_i h0
    simp only [Bool.or_eq_true, decide_eq_true_eq, not_or, ne_eq, Decidable.not_not] at h0
    have he := h3.active g
    have he' := h3.active g'
    rw [h0.1] at he
    rw [h0.2] at he'
    have he := List.eq_nil_of_length_eq_zero he.symm
    have he' := List.eq_nil_of_length_eq_zero he'.symm
    obtain ⟨h4, g4⟩ := swapped_ok h3 hh hh' hne he he'
    have hg := g123.trans rfl g4
    have key : ∀ c' : Code, c'.refs = [] → c'.ems = [] → c'.locks = [g, g'] → c'.sigs = [g, g'] →
        (∀ p ∈ c'.listed, p.1 ∈ ((((st.mem.lock t g).lock t g').ev t .none [(.fld g, true), (.fld g', true)]).swapped g g').list p.2) →
        c'.dying = [] → (∀ x ∈ c'.quiet, x = g ∨ x = g') → c'.unborn = [] → c'.empty = [] → c'.wf →
        Good st t (st.go t ((((st.mem.lock t g).lock t g').ev t .none [(.fld g, true), (.fld g', true)]).swapped g g')
          { st.threads t with code := c' }) := by
      intro c' k1 k2 k3 k4 k5 k6 k7 k8 k9 k10
      refine good_go h h4 hg (ht.next hg {
        refs := fun x => by rw [k1, hc]; exact rfl
        ems := fun x => by rw [k2, hc]; rfl
        held := fun x => by
          have := ht.held x
          rw [hc] at this
          simp only [Code.locks, List.not_mem_nil, iff_false] at this
          rw [k3]
          by_cases hx : x = g <;> by_cases hx' : x = g' <;>
            simp [Mem.swapped, Mem.lock, Mem.calls, Mem.ev, upd, hx, hx', Ne.symm hne, this]
        nodup := by rw [k3]; simp [hne]
        sigs := fun x hx => by
          rw [k4] at hx
          simp only [List.mem_cons, List.not_mem_nil, or_false] at hx
          rcases hx with rfl | rfl
          · exact hk.guar hg
          · exact hk'.guar hg
        listed := k5
        dying := by rw [k6]; simp
        quiet := fun x hx => by
          rcases k7 x hx with rfl | rfl
          · exact he
          · exact he'
        unborn := by rw [k8]; simp
        empty := by rw [k9]; simp
        wf := k10 })
    split
    · exact key _ (by code) (by code) (by code) (by code) (head_listed _) (by code) (by code) (by code) (by code) (by code)
    · simp only [K.cleaned]
      exact key _ (by code) (by code) (by code) (by code) (head_listed _) (by code) (by code) (by code) (by code) (by code)

theorem step_mvLock {g g' : Nat} {b : Bool} (h : StateOk st) (hc : (st.threads t).code = .mvLock g g') :
    Good st t (stepCode st t (st.threads t) b) := by
  have ht := h.threads t
  have hk : Knows st.mem t g := ht.sigs g (by rw [hc]; code)
  have hb : st.mem.born g' = false := ht.unborn g' (by rw [hc]; code)
  have hem : st.mem.list g' = [] := ht.empty g' (by rw [hc]; code)
  have hh0 : st.mem.held g' = some t := (ht.held g').2 (by rw [hc]; code)
  have hne : g ≠ g' := by rintro rfl; have := hk.1; rw [hb] at this; cases this
  simp only [stepCode, hc]
  refine good_free fun hf => ?_
  obtain ⟨h1, g1⟩ := lock_ok h.mem hf hk
  have hh : (st.mem.lock t g).held g = some t := by simp [Mem.lock, upd]
  have hh' : (st.mem.lock t g).held g' = some t := by simp [Mem.lock, Mem.calls, upd, Mem.ev, hh0]
  obtain ⟨h3, g3⟩ := fields2_ok h1 hh hh'
  have g13 := g1.trans rfl g3
  split
  · trivial
  · rename_i h0
    have he := h3.active g
    rw [Decidable.not_not.1 h0] at he
    have he := List.eq_nil_of_length_eq_zero he.symm
    obtain ⟨h4, g4⟩ := moved_ok h3 hh hh' hne he hem
    have hg := g13.trans rfl g4
    refine good_go h h4 hg (ht.next hg {
      refs := fun x => by rw [hc]; exact rfl
      ems := fun x => by rw [hc]; rfl
      held := fun x => by
        have := ht.held x
        rw [hc] at this
        simp only [Code.locks, List.mem_singleton] at this
        by_cases hx : x = g
        · subst hx; simp [Mem.moved, Mem.lock, Mem.calls, Mem.ev, upd, Code.locks]
        · simp [Mem.moved, Mem.lock, Mem.calls, Mem.ev, upd, Code.locks, hx, this]
      nodup := by simp [Code.locks, hne]
      sigs := fun x hx => by
        simp only [Code.sigs, List.mem_singleton] at hx
        subst hx
        exact hk.guar hg
      listed := by code
      dying := by code
      quiet := by code
      unborn := fun x hx => by
        simp only [Code.unborn, List.mem_singleton] at hx
        subst hx
        exact hb
      empty := by code
      wf := by code })

theorem step_mvUnl {g g' : Nat} {b : Bool} (h : StateOk st) (hc : (st.threads t).code = .mvUnl g g') :
    Good st t (stepCode st t (st.threads t) b) := by
  have ht := h.threads t
  have hk : Knows st.mem t g := ht.sigs g (by rw [hc]; code)
  have hb : st.mem.born g' = false := ht.unborn g' (by rw [hc]; code)
  have hh : st.mem.held g = some t := (ht.held g).2 (by rw [hc]; code)
  have hh' : st.mem.held g' = some t := (ht.held g').2 (by rw [hc]; code)
  have hne : g ≠ g' := by rintro rfl; have := hk.1; rw [hb] at this; cases this
  simp only [stepCode, hc]
  obtain ⟨h1, g1, k1⟩ := finished_ok h.mem hh hh' hne hb
  have h2 : ThreadOk (st.mem.finished t g g') t { st.threads t with code := .mvLock2 g' } := ht.next g1 {
    refs := fun x => by rw [hc]; exact rfl
    ems := fun x => by rw [hc]; rfl
    held := fun x => by
      have := ht.held x
      rw [hc] at this
      simp only [Code.locks, List.mem_cons, List.not_mem_nil, or_false] at this
      by_cases hx : x = g' <;> by_cases hx' : x = g <;>
        simp [Mem.finished, Mem.unlock, Mem.ev, upd, Code.locks, hx, hx', this]
    nodup := by code
    sigs := fun x hx => by
      simp only [Code.sigs, List.mem_singleton] at hx
      subst hx
      exact k1
    listed := by code
    dying := by code
    quiet := by code
    unborn := by code
    empty := by code
    wf := by code }
  refine good_go h h1 g1 { h2 with knows := fun x hx => ?_ }
  rcases List.mem_cons.1 hx with rfl | hx
  · exact k1
  · exact (ht.knows x hx).guar g1

theorem step_mvLock2 {g : Nat} {b : Bool} (h : StateOk st) (hc : (st.threads t).code = .mvLock2 g) :
    Good st t (stepCode st t (st.threads t) b) := by
  have ht := h.threads t
  have hk : Knows st.mem t g := ht.sigs g (by rw [hc]; code)
  simp only [stepCode, hc]
  refine good_free fun hf => ?_
  obtain ⟨h1, g1⟩ := lock_ok h.mem hf hk
  have hh : (st.mem.lock t g).held g = some t := by simp [Mem.lock, upd]
  obtain ⟨h2, g2⟩ := fields_ok h1 hh
  have hg := g1.trans rfl g2
  split
  · rename_i h0
    simp only [Bool.and_eq_true, decide_eq_true_eq] at h0
    refine good_go h h2 hg (next_lock ht hc hg hf rfl rfl (fun _ => rfl) (head_listed _) ?_ (by code) (by code) (by code) (by code)
      (by code) (by code) (by code))
    intro x hx
    simp only [Code.quiet, K.rest, List.mem_singleton] at hx
    subst hx
    have := h2.active x
    rw [h0.2] at this
    exact List.eq_nil_of_length_eq_zero this.symm
  · simp only [K.cleaned]
    exact good_go h h2 hg (next_lock ht hc hg hf rfl rfl (fun _ => rfl) (head_listed _) (by code) (by code) (by code) (by code)
      (by code) (by code) (by code) (by code))

theorem stepCode_ok {b : Bool} (h : StateOk st) : Good st t (stepCode st t (st.threads t) b) := by
  cases hc : (st.threads t).code with
  | idle => simp only [stepCode, hc]; trivial
  | emLock => exact step_emLock h hc
  | emRef1 => exact step_emRef1 h hc
  | emRef2 => exact step_emRef2 h hc
  | emUnl => exact step_emUnl h hc
  | emHead => exact step_emHead h hc
  | emChk => exact step_emChk h hc
  | emCall => exact step_emCall h hc
  | emAdv => exact step_emAdv h hc
  | emNRef => exact step_emNRef h hc
  | emNUnl => exact step_emNUnl h hc
  | emRel => exact step_emRel h hc
  | emDel => exact step_emDel h hc
  | emFin => exact step_emFin h hc
  | emFinDel => exact step_emFinDel h hc
  | emEnd => exact step_emEnd h hc
  | cl => exact step_cl h hc
  | clRel => exact step_clRel h hc
  | clDel => exact step_clDel h hc
  | rb => exact step_rb h hc
  | unl => exact step_unl h hc
  | unl2 => exact step_unl2 h hc
  | disLock => exact step_disLock h hc
  | disLoop => exact step_disLoop h hc
  | disStore => exact step_disStore h hc
  | disRel => exact step_disRel h hc
  | disDel => exact step_disDel h hc
  | disUnl => exact step_disUnl h hc
  | rel => exact step_rel h hc
  | del => exact step_del h hc
  | allLock => exact step_allLock h hc
  | allLoop => exact step_allLoop h hc
  | allRel => exact step_allRel h hc
  | allDel => exact step_allDel h hc
  | numLock => exact step_numLock h hc
  | numLoop => exact step_numLoop h hc
  | conLock => exact step_conLock h hc
  | conRef => exact step_conRef h hc
  | swLock => exact step_swLock h hc
  | mvLock => exact step_mvLock h hc
  | mvUnl => exact step_mvUnl h hc
  | mvLock2 => exact step_mvLock2 h hc

end Verif.Races
