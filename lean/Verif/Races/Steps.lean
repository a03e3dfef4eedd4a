import Verif.Races.Threads

/-! Every step keeps the invariant. -/

namespace Verif.Races

variable {st : State} {m m' : Mem} {t : Nat} {th : Thread} {c c' : Code}

macro "code" : tactic => `(tactic| first
  | rfl
  | trivial
  | simp [Code.refs, Code.ems, Code.locks, Code.sigs, Code.listed, Code.dying, Code.quiet, Code.unborn, Code.empty,
      Code.wf, inList, K.locks, K.rest, K.sig])

/-- Steps that leave the lists, the mutexes and the emissions alone. -/
theorem next_same (h : ThreadOk m t th) (hc : th.code = c) (hg : Guar t m m') (hs : Same m m')
    (refs : ∀ s, c'.refs.count s + (m.refs s).count (.thread t) = c.refs.count s + (m'.refs s).count (.thread t))
    (listed : ∀ p ∈ c'.listed, p.1 ∈ m.list p.2)
    (dying : ∀ s ∈ c'.dying, m'.dying s = some t)
    (ems : c'.ems = c.ems) (locks : c'.locks = c.locks) (sigs : ∀ g ∈ c'.sigs, g ∈ c.sigs)
    (quiet : ∀ g ∈ c'.quiet, g ∈ c.quiet) (unborn : c'.unborn = []) (empty : c'.empty = []) (wf : c'.wf) :
    ThreadOk m' t { th with code := c' } := by
  subst hc
  exact h.next hg {
    refs := refs
    ems := fun g => by rw [ems, hs.ems]
    held := fun g => by rw [locks, hs.held]; exact h.held g
    nodup := by rw [locks]; exact h.nodup
    sigs := fun g hg' => (h.sigs g (sigs g hg')).guar hg
    listed := fun p hp => by rw [hs.list]; exact listed p hp
    dying := dying
    quiet := fun g hq => by rw [hs.ems]; exact h.quiet g (quiet g hq)
    unborn := by rw [unborn]; simp
    empty := by rw [empty]; simp
    wf := wf }

/-- Locking a mutex. -/
theorem next_lock {g : Nat} (h : ThreadOk m t th) (hc : th.code = c) (hg : Guar t m m') (hf : m.held g = none)
    (hh : m'.held = upd m.held g (some t)) (hr : m'.refs = m.refs)
    (ems : ∀ x, c'.ems.count x + (m.ems x).count t = c.ems.count x + (m'.ems x).count t)
    (listed : ∀ p ∈ c'.listed, p.1 ∈ m'.list p.2) (quiet : ∀ x ∈ c'.quiet, m'.ems x = [])
    (refs : c'.refs = c.refs)
    (locks : c'.locks = g :: c.locks) (sigs : ∀ g ∈ c'.sigs, g ∈ c.sigs)
    (dying : c'.dying = []) (unborn : c'.unborn = []) (empty : c'.empty = []) (wf : c'.wf) :
    ThreadOk m' t { th with code := c' } := by
  subst hc
  have hn : g ∉ th.code.locks := fun hx => by
    have := (h.held g).2 hx; rw [hf] at this; cases this
  exact h.next hg {
    refs := fun s => by rw [refs, hr]
    ems := ems
    held := fun x => by
      rw [locks, hh]
      by_cases hx : x = g
      · subst hx; simp [upd]
      · simp [upd, hx]; exact h.held x
    nodup := by rw [locks]; exact List.nodup_cons.2 ⟨hn, h.nodup⟩
    sigs := fun g hg' => (h.sigs g (sigs g hg')).guar hg
    listed := listed
    dying := by rw [dying]; simp
    quiet := quiet
    unborn := by rw [unborn]; simp
    empty := by rw [empty]; simp
    wf := wf }

/-- Unlocking a mutex. -/
theorem next_unlock {g : Nat} (h : ThreadOk m t th) (hc : th.code = c) (hg : Guar t m (m.unlock t g))
    (locks : c.locks = g :: c'.locks)
    (listed : ∀ p ∈ c'.listed, p ∈ c.listed)
    (refs : c'.refs = c.refs) (ems : c'.ems = c.ems)
    (sigs : ∀ g ∈ c'.sigs, g ∈ c.sigs)
    (dying : c'.dying = []) (quiet : c'.quiet = []) (unborn : c'.unborn = []) (empty : c'.empty = []) (wf : c'.wf) :
    ThreadOk (m.unlock t g) t { th with code := c' } := by
  subst hc
  have hn := h.nodup
  rw [locks, List.nodup_cons] at hn
  exact h.next hg {
    refs := fun s => by rw [refs]; exact rfl
    ems := fun x => by rw [ems]; rfl
    held := fun x => by
      by_cases hx : x = g
      · subst hx; simp [Mem.unlock, upd, hn.1]
      · have := h.held x
        rw [locks] at this
        simpa [Mem.unlock, Mem.ev, upd, hx] using this
    nodup := hn.2
    sigs := fun g hg' => (h.sigs g (sigs g hg')).guar hg
    listed := fun p hp => h.listed p (listed p hp)
    dying := by rw [dying]; simp
    quiet := by rw [quiet]; simp
    unborn := by rw [unborn]; simp
    empty := by rw [empty]; simp
    wf := wf }

/-! ### References -/

theorem refs_add {s : Nat} (h : m'.refs = upd m.refs s (.thread t :: m.refs s)) (x : Nat) :
    (m'.refs x).count (.thread t) = (m.refs x).count (.thread t) + [s].count x := by
  rw [h]
  by_cases hx : x = s
  · subst hx; simp [upd]
  · simp [upd, hx]
    rw [List.count_cons_of_ne (Ne.symm hx)]
    simp

theorem refs_sub {s : Nat} (h : m'.refs = upd m.refs s ((m.refs s).erase (.thread t))) (hr : .thread t ∈ m.refs s) (x : Nat) :
    (m'.refs x).count (.thread t) + [s].count x = (m.refs x).count (.thread t) := by
  rw [h]
  by_cases hx : x = s
  · subst hx
    simp only [upd_same, List.count_erase_self, List.count_singleton_self]
    have := List.count_pos_iff.2 hr
    omega
  · simp [upd, hx]
    rw [List.count_cons_of_ne (Ne.symm hx)]
    simp

theorem ThreadOk.ref (h : ThreadOk m t th) {s : Nat} (hs : s ∈ th.code.refs) : .thread t ∈ m.refs s := by
  have := h.refs s
  have := List.count_pos_iff.2 hs
  exact List.count_pos_iff.1 (by omega)

theorem ThreadOk.handle (h : ThreadOk m t th) {s : Nat} (hs : s ∈ th.handles) : .thread t ∈ m.refs s := by
  have := h.refs s
  have := List.count_pos_iff.2 hs
  exact List.count_pos_iff.1 (by omega)

/-! ### Steps without a change of memory -/

theorem good_stay (h : StateOk st) (hc : (st.threads t).code = c)
    (ht : ∀ s, c'.refs.count s = c.refs.count s)
    (listed : ∀ p ∈ c'.listed, p.1 ∈ st.mem.list p.2)
    (dying : c'.dying = [])
    (ems : c'.ems = c.ems) (locks : c'.locks = c.locks) (sigs : ∀ g ∈ c'.sigs, g ∈ c.sigs)
    (quiet : ∀ g ∈ c'.quiet, g ∈ c.quiet) (unborn : c'.unborn = []) (empty : c'.empty = []) (wf : c'.wf) :
    Good st t (st.go t st.mem { st.threads t with code := c' }) :=
  good_go h h.mem (Guar.refl ..) (next_same (h.threads t) hc (Guar.refl ..) (Same.refl _)
    (fun s => congrArg (· + _) (ht s)) listed (by rw [dying]; simp) ems locks sigs quiet unborn empty wf)

/-! ### Emissions -/

theorem step_emLock {g : Nat} {b : Bool} (h : StateOk st) (hc : (st.threads t).code = .emLock g) :
    Good st t (stepCode st t (st.threads t) b) := by
  have ht := h.threads t
  have hk : Knows st.mem t g := ht.sigs g (by rw [hc]; code)
  simp only [stepCode, hc]
  refine good_free fun hf => ?_
  obtain ⟨h1, g1⟩ := lock_ok h.mem hf hk
  have hh : (st.mem.lock t g).held g = some t := by simp [Mem.lock, upd]
  obtain ⟨h2, g2⟩ := fields_ok h1 hh
  obtain ⟨h3, g3⟩ := began_ok (m := (st.mem.lock t g).fields t g) h2 hh
  have hg := (g1.trans rfl g2).trans rfl g3
  refine good_go h h3 hg (next_lock ht hc hg hf rfl rfl ?_ ?_ (by code) (by code) (by code) (by code) (by code) (by code)
    (by code) (by code))
  · intro x
    by_cases hx : x = g
    · subst hx; simp [Code.ems, Mem.began, upd, Mem.fields, Mem.lock, Mem.calls, Mem.ev]; omega
    · simp only [Code.ems, Mem.began, upd, if_neg hx, Mem.fields, Mem.lock, Mem.calls, Mem.ev, List.count_nil, Nat.zero_add]
      rw [List.count_cons_of_ne (Ne.symm hx)]; simp
  · intro p hp
    simp only [Code.listed, inList, List.mem_append, List.mem_map, Option.mem_toList] at hp
    rcases hp with ⟨s, hs, rfl⟩ | ⟨s, hs, rfl⟩
    · exact List.mem_of_getLast? hs
    · exact List.mem_of_head? hs

theorem step_emRef1 {g : Nat} {last cur : Option Nat} {b : Bool} (h : StateOk st)
    (hc : (st.threads t).code = .emRef1 g last cur) : Good st t (stepCode st t (st.threads t) b) := by
  have ht := h.threads t
  have hl := ht.listed
  rw [hc] at hl
  have hcur : ∀ p ∈ (Code.emRef2 g last cur).listed, p.1 ∈ st.mem.list p.2 := fun p hp =>
    hl p (List.mem_append_right _ hp)
  simp only [stepCode, hc]
  cases last with
  | none => exact good_stay h hc (by code) hcur (by code) (by code) (by code) (by code) (by code) (by code) (by code) (by code)
  | some s =>
    have hh : st.mem.held g = some t := (ht.held g).2 (by rw [hc]; code)
    have hm := h.mem.toCore.mayList hh (hl (s, g) (by code))
    obtain ⟨m', e, h1, g1, s1, r1, d1⟩ := addRef_ok h.mem hm
    refine good_orUb e (good_go h h1 g1 (next_same ht hc g1 s1 ?_ hcur (by code) (by code) (by code) (by code) (by code)
      (by code) (by code) (by code)))
    intro x
    rw [refs_add r1]
    simp only [Code.refs, Option.toList, List.count_nil]
    omega

theorem step_emRef2 {g : Nat} {last cur : Option Nat} {b : Bool} (h : StateOk st)
    (hc : (st.threads t).code = .emRef2 g last cur) : Good st t (stepCode st t (st.threads t) b) := by
  have ht := h.threads t
  have hl := ht.listed
  rw [hc] at hl
  simp only [stepCode, hc]
  cases cur with
  | none =>
    exact good_stay h hc (by intro s; simp [Code.refs]) hl (by code) (by code) (by code) (by code) (by code) (by code)
      (by code) (by code)
  | some s =>
    have hh : st.mem.held g = some t := (ht.held g).2 (by rw [hc]; code)
    have hm := h.mem.toCore.mayList hh (hl (s, g) (by code))
    obtain ⟨m', e, h1, g1, s1, r1, d1⟩ := addRef_ok h.mem hm
    refine good_orUb e (good_go h h1 g1 (next_same ht hc g1 s1 ?_ hl (by code) (by code) (by code) (by code) (by code)
      (by code) (by code) (by code)))
    intro x
    rw [refs_add r1]
    simp only [Code.refs, Option.toList, List.count_append]
    omega

theorem step_emUnl {g : Nat} {last cur : Option Nat} {b : Bool} (h : StateOk st)
    (hc : (st.threads t).code = .emUnl g last cur) : Good st t (stepCode st t (st.threads t) b) := by
  have ht := h.threads t
  simp only [stepCode, hc]
  obtain ⟨h1, g1⟩ := unlock_ok h.mem ((ht.held g).2 (by rw [hc]; code))
  exact good_go h h1 g1 (next_unlock ht hc g1 (by code) (fun _ => id) (by code) (by code) (by code) (by code) (by code) (by code)
    (by code) (by code))

theorem step_emHead {g : Nat} {last cur : Option Nat} {b : Bool} (h : StateOk st)
    (hc : (st.threads t).code = .emHead g last cur) : Good st t (stepCode st t (st.threads t) b) := by
  have ht := h.threads t
  have hl := ht.listed
  rw [hc] at hl
  simp only [stepCode, hc]
  cases cur with
  | none =>
    exact good_stay h hc (by intro s; simp [Code.refs]) (by code) (by code) (by code) (by code) (by code) (by code) (by code)
      (by code) (by code)
  | some s =>
    have hm : May st.mem t s := .inl (ht.ref (by rw [hc]; code))
    obtain ⟨e, h1, g1⟩ := touch_ok h.mem hm
    refine good_orUb e ?_
    cases b
    · exact good_go h h1 g1 (next_same ht hc g1 (Same.ev ..) (by intro x; exact rfl) hl (by code) (by code)
        (by code) (by code) (by code) (by code) (by code) (by code))
    · exact good_go h h1 g1 (next_same ht hc g1 (Same.ev ..) (by intro x; exact rfl) hl (by code) (by code)
        (by code) (by code) (by code) (by code) (by code) (by code))

theorem step_emChk {g s : Nat} {last : Option Nat} {b : Bool} (h : StateOk st)
    (hc : (st.threads t).code = .emChk g last s) : Good st t (stepCode st t (st.threads t) b) := by
  have ht := h.threads t
  have hl := ht.listed
  rw [hc] at hl
  simp only [stepCode, hc]
  have hm : May st.mem t s := .inl (ht.ref (by rw [hc]; code))
  obtain ⟨e, h1, g1⟩ := touch_ok h.mem hm
  refine good_orUb e ?_
  cases b
  · exact good_go h h1 g1 (next_same ht hc g1 (Same.ev ..) (by intro x; exact rfl) hl (by code) (by code)
      (by code) (by code) (by code) (by code) (by code) (by code))
  · exact good_go h h1 g1 (next_same ht hc g1 (Same.ev ..) (by intro x; exact rfl) hl (by code) (by code)
      (by code) (by code) (by code) (by code) (by code) (by code))

theorem step_emCall {g s : Nat} {last : Option Nat} {b : Bool} (h : StateOk st)
    (hc : (st.threads t).code = .emCall g last s) : Good st t (stepCode st t (st.threads t) b) := by
  have ht := h.threads t
  have hl := ht.listed
  have hk := ht.sigs
  have hr := ht.refs
  have he := ht.ems
  have hh := ht.held
  rw [hc] at hl hk hr he hh
  simp only [stepCode, hc]
  have hm : May st.mem t s := .inl (ht.ref (by rw [hc]; code))
  obtain ⟨e, h1, g1⟩ := touch_ok h.mem hm
  refine good_orUb e ?_
  have h2 : ThreadOk (st.mem.ev t .none [(.obj s, false)]) t (st.threads t) := by
    have := next_same (c' := Code.emCall g last s) ht hc g1 (Same.ev ..) (by intro x; exact rfl) hl (by code) (by code)
      (by code) (by code) (by code) (by code) (by code) (by code)
    have e : { st.threads t with code := Code.emCall g last s } = st.threads t := by rw [← hc]
    rw [e] at this
    exact this
  have hr := h2.refs
  have he := h2.ems
  have hh := h2.held
  have hk := h2.sigs
  have hl := h2.listed
  rw [hc] at hr he hh hk hl
  refine good_go h h1 g1 { h2 with
    refs := ?_, ems := ?_, held := ?_, nodup := ?_, calls := ?_, sigs := ?_, callListed := ?_, listed := ?_, dying := ?_
    quiet := ?_, unborn := ?_, empty := ?_, wf := ?_ }
  · intro x
    have := hr x
    simp only [callRefs, List.flatMap_cons, Code.refs, List.count_append, List.count_nil] at this ⊢
    omega
  · intro x
    have := he x
    rw [← this]
    simp only [callEms, List.map_cons, Code.ems, List.count_nil, Nat.add_zero]
    rw [List.count_cons, List.count_singleton]
  · intro x; exact hh x
  · code
  · intro x hx
    simp only [callEms, List.map_cons, List.mem_cons] at hx
    rcases hx with rfl | hx
    · exact hk _ (by code)
    · exact h2.calls x hx
  · code
  · intro p hp
    simp only [callListed, List.map_cons, List.mem_cons] at hp
    rcases hp with rfl | hp
    · exact hl (s, g) (by code)
    · exact h2.callListed p hp
  · code
  · code
  · code
  · code
  · code
  · code

theorem step_emAdv {g s : Nat} {last : Option Nat} {b : Bool} (h : StateOk st)
    (hc : (st.threads t).code = .emAdv g last s) : Good st t (stepCode st t (st.threads t) b) := by
  have ht := h.threads t
  have hl := ht.listed
  have hk : Knows st.mem t g := ht.sigs g (by rw [hc]; code)
  rw [hc] at hl
  simp only [stepCode, hc]
  split
  · exact good_stay h hc (by intro x; simp [Code.refs]) (by code) (by code) (by code) (by code) (by code) (by code)
      (by code) (by code) (by code)
  · refine good_free fun hf => ?_
    obtain ⟨h1, g1⟩ := lock_ok h.mem hf hk
    have hh : (st.mem.lock t g).held g = some t := by simp [Mem.lock, upd]
    obtain ⟨e, h2, g2⟩ := next_ok (m := st.mem.lock t g) h1 hh (hl (s, g) (by code))
    refine good_orUb e ?_
    have hg := g1.trans rfl g2
    refine good_go h h2 hg (next_lock ht hc hg hf rfl rfl (fun _ => rfl) ?_ (by code) (by code) (by code) (by code) (by code)
      (by code) (by code) (by code))
    intro p hp
    simp only [Code.listed, inList, List.mem_map, Option.mem_toList] at hp
    obtain ⟨x, hx, rfl⟩ := hp
    exact succ_mem hx

theorem step_emNRef {g s : Nat} {last next : Option Nat} {b : Bool} (h : StateOk st)
    (hc : (st.threads t).code = .emNRef g last s next) : Good st t (stepCode st t (st.threads t) b) := by
  have ht := h.threads t
  have hl := ht.listed
  rw [hc] at hl
  simp only [stepCode, hc]
  cases next with
  | none =>
    exact good_stay h hc (by intro s; simp [Code.refs]) hl (by code) (by code) (by code) (by code) (by code) (by code)
      (by code) (by code)
  | some s =>
    have hh : st.mem.held g = some t := (ht.held g).2 (by rw [hc]; code)
    have hm := h.mem.toCore.mayList hh (hl (s, g) (by code))
    obtain ⟨m', e, h1, g1, s1, r1, d1⟩ := addRef_ok h.mem hm
    refine good_orUb e (good_go h h1 g1 (next_same ht hc g1 s1 ?_ hl (by code) (by code) (by code) (by code) (by code)
      (by code) (by code) (by code)))
    intro x
    rw [refs_add r1]
    simp only [Code.refs, Option.toList, List.count_append]
    omega

theorem step_emNUnl {g s : Nat} {last next : Option Nat} {b : Bool} (h : StateOk st)
    (hc : (st.threads t).code = .emNUnl g last s next) : Good st t (stepCode st t (st.threads t) b) := by
  have ht := h.threads t
  simp only [stepCode, hc]
  obtain ⟨h1, g1⟩ := unlock_ok h.mem ((ht.held g).2 (by rw [hc]; code))
  exact good_go h h1 g1 (next_unlock ht hc g1 (by code) (fun _ => id) (by code) (by code) (by code) (by code) (by code) (by code)
    (by code) (by code))

/-- Releasing a reference: either way the thread goes on. -/
theorem good_sub {s : Nat} {yes no : Code} (h : StateOk st) (hc : (st.threads t).code = c) (hr : s ∈ c.refs)
    (ry : ∀ x, yes.refs.count x + [s].count x = c.refs.count x)
    (rn : ∀ x, no.refs.count x + [s].count x = c.refs.count x)
    (ly : ∀ p ∈ yes.listed, p ∈ c.listed) (ln : ∀ p ∈ no.listed, p ∈ c.listed)
    (dy : yes.dying = [s]) (dn : no.dying = [])
    (ey : yes.ems = c.ems) (en : no.ems = c.ems) (ky : yes.locks = c.locks) (kn : no.locks = c.locks)
    (sy : ∀ g ∈ yes.sigs, g ∈ c.sigs) (sn : ∀ g ∈ no.sigs, g ∈ c.sigs)
    (qy : ∀ g ∈ yes.quiet, g ∈ c.quiet) (qn : ∀ g ∈ no.quiet, g ∈ c.quiet)
    (uy : yes.unborn = []) (un : no.unborn = []) (my : yes.empty = []) (mn : no.empty = []) (wy : yes.wf) (wn : no.wf) :
    Good st t (orUb (st.mem.sub t s) fun r => st.go t r.1 { st.threads t with code := thenDel r yes no }) := by
  have ht := h.threads t
  have hl := ht.listed
  rw [hc] at hl
  have hr' := ht.ref (s := s) (by rw [hc]; exact hr)
  obtain ⟨m', b, e, h1, g1, s1, r1, d1, _⟩ := sub_ok h.mem hr'
  refine good_orUb e ?_
  have hx := refs_sub r1 hr'
  cases b with
  | true =>
    show Good st t (st.go t m' { st.threads t with code := yes })
    refine good_go h h1 g1 (next_same ht hc g1 s1 ?_ (fun p hp => hl p (ly p hp)) ?_ ey ky sy qy uy my wy)
    · intro x
      have := hx x
      have := ry x
      omega
    · rw [dy]; simpa using (d1 rfl).1
  | false =>
    show Good st t (st.go t m' { st.threads t with code := no })
    refine good_go h h1 g1 (next_same ht hc g1 s1 ?_ (fun p hp => hl p (ln p hp)) ?_ en kn sn qn un mn wn)
    · intro x
      have := hx x
      have := rn x
      omega
    · rw [dn]; simp

/-- Deleting a slot. -/
theorem good_del {s : Nat} (h : StateOk st) (hc : (st.threads t).code = c) (hd : c.dying = [s])
    (refs : c'.refs = c.refs) (listed : c'.listed = c.listed) (dying : c'.dying = [])
    (ems : c'.ems = c.ems) (locks : c'.locks = c.locks) (sigs : ∀ g ∈ c'.sigs, g ∈ c.sigs)
    (quiet : ∀ g ∈ c'.quiet, g ∈ c.quiet) (unborn : c'.unborn = []) (empty : c'.empty = []) (wf : c'.wf) :
    Good st t (orUb (st.mem.del t s) fun m => st.go t m { st.threads t with code := c' }) := by
  have ht := h.threads t
  have hl := ht.listed
  rw [hc] at hl
  obtain ⟨m', e, h1, g1, s1, r1⟩ := del_ok h.mem (ht.dying s (by rw [hc, hd]; simp))
  refine good_orUb e (good_go h h1 g1 (next_same ht hc g1 s1 ?_ (by rw [listed]; exact hl) (by rw [dying]; simp) ems locks sigs
    quiet unborn empty wf))
  intro x
  rw [refs, r1]

theorem step_emRel {g s : Nat} {last next : Option Nat} {b : Bool} (h : StateOk st)
    (hc : (st.threads t).code = .emRel g last s next) : Good st t (stepCode st t (st.threads t) b) := by
  simp only [stepCode, hc]
  refine good_sub h hc (by code) ?_ ?_ (fun _ => id) (fun _ => id) (by code) (by code) (by code) (by code) (by code) (by code) (by code) (by code)
    (by code) (by code) (by code) (by code) (by code) (by code) (by code) (by code)
  · intro x; simp only [Code.refs, List.count_append]; omega
  · intro x; simp only [Code.refs, List.count_append]; omega

theorem step_emDel {g s : Nat} {last next : Option Nat} {b : Bool} (h : StateOk st)
    (hc : (st.threads t).code = .emDel g last s next) : Good st t (stepCode st t (st.threads t) b) := by
  simp only [stepCode, hc]
  exact good_del h hc (by code) (by code) (by code) (by code) (by code) (by code) (by code) (by code) (by code) (by code) (by code)

theorem step_emFin {g : Nat} {last : Option Nat} {b : Bool} (h : StateOk st)
    (hc : (st.threads t).code = .emFin g last) : Good st t (stepCode st t (st.threads t) b) := by
  simp only [stepCode, hc]
  cases last with
  | none =>
    exact good_stay h hc (by code) (by code) (by code) (by code) (by code) (by code) (by code) (by code) (by code) (by code)
  | some s =>
    refine good_sub h hc (by code) ?_ ?_ (by code) (by code) (by code) (by code) (by code) (by code) (by code) (by code) (by code) (by code)
      (by code) (by code) (by code) (by code) (by code) (by code) (by code) (by code)
    · intro x; simp [Code.refs]
    · intro x; simp [Code.refs]

theorem step_emFinDel {g s : Nat} {b : Bool} (h : StateOk st)
    (hc : (st.threads t).code = .emFinDel g s) : Good st t (stepCode st t (st.threads t) b) := by
  simp only [stepCode, hc]
  exact good_del h hc (by code) (by code) (by code) (by code) (by code) (by code) (by code) (by code) (by code) (by code) (by code)

theorem step_emEnd {g : Nat} {b : Bool} (h : StateOk st) (hc : (st.threads t).code = .emEnd g) :
    Good st t (stepCode st t (st.threads t) b) := by
  have ht := h.threads t
  have hk : Knows st.mem t g := ht.sigs g (by rw [hc]; code)
  have hem := ht.ems
  rw [hc] at hem
  have hmem : t ∈ st.mem.ems g := by
    have := hem g
    simp only [Code.ems, List.count_singleton_self] at this
    exact List.count_pos_iff.1 (by omega)
  simp only [stepCode, hc]
  refine good_free fun hf => ?_
  split
  · rename_i h0
    have := h.mem.active g
    rw [h0] at this
    rw [List.eq_nil_of_length_eq_zero this.symm] at hmem
    cases hmem
  · obtain ⟨h1, g1⟩ := lock_ok h.mem hf hk
    have hh : (st.mem.lock t g).held g = some t := by simp [Mem.lock, upd]
    obtain ⟨h2, g2⟩ := fields_ok h1 hh
    obtain ⟨h3, g3⟩ := ended_ok (m := (st.mem.lock t g).fields t g) h2 hh hmem
    have hg := (g1.trans rfl g2).trans rfl g3
    have hems : ∀ x, (st.mem.ems x).count t = [g].count x + ((((st.mem.lock t g).fields t g).ended t g).ems x).count t := by
      intro x
      by_cases hx : x = g
      · subst hx
        have := List.count_pos_iff.2 hmem
        simp [Mem.ended, upd, Mem.fields, Mem.lock, Mem.calls, Mem.ev]; omega
      · simp only [Mem.ended, upd, if_neg hx, Mem.fields, Mem.lock, Mem.calls, Mem.ev]
        rw [List.count_cons_of_ne (Ne.symm hx)]; simp
    split
    · rename_i h0
      refine good_go h h3 hg (next_lock ht hc hg hf rfl rfl ?_ ?_ ?_ (by code) (by code) (by code) (by code) (by code)
        (by code) (by code))
      · intro x; rw [hems x]; simp [Code.ems]
      · intro p hp
        simp only [Code.listed, inList, List.mem_map, Option.mem_toList] at hp
        obtain ⟨s, hs, rfl⟩ := hp
        exact List.mem_of_head? hs
      · intro x hx
        simp only [Code.quiet, K.rest, List.mem_singleton] at hx
        subst hx
        simp only [Bool.and_eq_true, decide_eq_true_eq] at h0
        have := h3.active x
        rw [h0.1] at this
        exact List.eq_nil_of_length_eq_zero this.symm
    · refine good_go h h3 hg (next_lock ht hc hg hf rfl rfl ?_ (by code) (by code) (by code) (by code) (by code) (by code) (by code)
        (by code) (by code))
      intro x; rw [hems x]; simp [Code.ems]

end Verif.Races
