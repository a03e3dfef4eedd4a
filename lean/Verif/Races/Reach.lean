import Verif.Races.Steps2

/-! The invariant holds in every execution. -/

namespace Verif.Races

variable {st : State} {t : Nat}

/-- A thread in user code. -/
theorem next_idle {m m' : Mem} {th : Thread} {c' : Code} (h : ThreadOk m t th) (hc : th.code = .idle) (hg : Guar t m m')
    (hs : Same m m') (hr : m'.refs = m.refs) (refs : c'.refs = []) (ems : c'.ems = []) (locks : c'.locks = [])
    (sigs : ∀ g ∈ c'.sigs, Knows m' t g) (listed : c'.listed = []) (dying : c'.dying = []) (quiet : c'.quiet = [])
    (unborn : c'.unborn = []) (empty : c'.empty = []) (wf : c'.wf) : ThreadOk m' t { th with code := c' } :=
  h.next hg {
    refs := fun x => by rw [refs, hc, hr]; rfl
    ems := fun x => by rw [ems, hc, hs.ems]; rfl
    held := fun x => by rw [locks, hs.held, h.held x, hc]; rfl
    nodup := by rw [locks]; simp
    sigs := sigs
    listed := by rw [listed]; simp
    dying := by rw [dying]; simp
    quiet := by rw [quiet]; simp
    unborn := by rw [unborn]; simp
    empty := by rw [empty]; simp
    wf := wf }

theorem good_start {c' : Code} (h : StateOk st) (hc : (st.threads t).code = .idle)
    (sigs : ∀ g ∈ c'.sigs, g ∈ (st.threads t).knows) (refs : c'.refs = []) (ems : c'.ems = []) (locks : c'.locks = [])
    (listed : c'.listed = []) (dying : c'.dying = []) (quiet : c'.quiet = [])
    (unborn : c'.unborn = []) (empty : c'.empty = []) (wf : c'.wf) :
    Good st t (st.go t st.mem { st.threads t with code := c' }) :=
  good_go h h.mem (Guar.refl ..) (next_idle (h.threads t) hc (Guar.refl ..) (Same.refl _) rfl refs ems locks
    (fun g hg => (h.threads t).knows g (sigs g hg)) listed dying quiet unborn empty wf)

theorem count_eraseIdx {l : List Nat} {i s : Nat} (h : l[i]? = some s) (x : Nat) :
    (l.eraseIdx i).count x + [s].count x = l.count x := by
  induction l generalizing i with
  | nil => simp at h
  | cons a l ih =>
    cases i with
    | zero =>
      simp only [List.getElem?_cons_zero, Option.some.injEq] at h
      subst h
      simp only [List.eraseIdx_cons_zero, List.count_cons, List.count_nil, Nat.zero_add]
    | succ i =>
      simp only [List.getElem?_cons_succ] at h
      have := ih h
      simp only [List.eraseIdx_cons_succ, List.count_cons (a := x) (b := a)] at this ⊢
      omega

theorem idle_refs {m : Mem} {th : Thread} (h : ThreadOk m t th) (hc : th.code = .idle) (s : Nat) :
    th.handles.count s + (callRefs th.calls).count s + th.lost.count s = (m.refs s).count (.thread t) := by
  have := h.refs s
  rw [hc] at this
  simpa [Code.refs] using this

/-- A reference more. -/
theorem good_handle {s : Nat} (h : StateOk st) (hc : (st.threads t).code = .idle) (hr : .thread t ∈ st.mem.refs s) :
    Good st t (orUb (st.mem.addRef t s) fun m => st.go t m { st.threads t with handles := (st.threads t).handles ++ [s] }) := by
  have ht := h.threads t
  obtain ⟨m', e, h1, g1, s1, r1, d1⟩ := addRef_ok h.mem (.inl hr)
  have h2 : ThreadOk m' t { st.threads t with code := .rel s } := ht.next g1 {
    refs := fun x => by rw [hc, refs_add r1]; simp only [Code.refs, List.count_nil]; omega
    ems := fun x => by rw [hc, s1.ems]; rfl
    held := fun x => by rw [s1.held, ht.held x, hc]; rfl
    nodup := by code
    sigs := by code
    listed := by code
    dying := by code
    quiet := by code
    unborn := by code
    empty := by code
    wf := by code }
  have h3 : ThreadOk m' t { st.threads t with code := .idle, handles := (st.threads t).handles ++ [s] } := { h2 with
    refs := fun x => by
      have := h2.refs x
      simp only [Code.refs, List.count_nil, List.count_append] at this ⊢
      omega }
  have e3 : { st.threads t with code := Code.idle, handles := (st.threads t).handles ++ [s] } =
      { st.threads t with handles := (st.threads t).handles ++ [s] } := by rw [← hc]
  rw [e3] at h3
  exact good_orUb e (good_go h h1 g1 h3)

/-- A handle is used up by the code that follows. -/
theorem handle_gone {m : Mem} {th : Thread} {i s : Nat} {c' : Code} (h : ThreadOk m t { th with code := .idle })
    (hi : th.handles[i]? = some s) (refs : c'.refs = [s]) (ems : c'.ems = []) (locks : c'.locks = [])
    (sigs : ∀ g ∈ c'.sigs, Knows m t g) (listed : c'.listed = []) (dying : c'.dying = []) (quiet : c'.quiet = [])
    (unborn : c'.unborn = []) (empty : c'.empty = []) (wf : c'.wf) :
    ThreadOk m t { th with code := c', handles := th.handles.eraseIdx i } :=
  { h with
    refs := fun x => by
      have h1 := h.refs x
      have h2 := count_eraseIdx hi x
      simp only [Code.refs, List.count_nil] at h1
      show (th.handles.eraseIdx i).count x + (callRefs th.calls).count x + c'.refs.count x + th.lost.count x = _
      rw [refs]
      omega
    ems := fun x => by have := h.ems x; rw [ems]; exact this
    held := fun x => by have := h.held x; rw [locks]; exact this
    nodup := by rw [locks]; simp
    sigs := sigs
    listed := by rw [listed]; simp
    dying := by rw [dying]; simp
    quiet := by rw [quiet]; simp
    unborn := by rw [unborn]; simp
    empty := by rw [empty]; simp
    wf := wf }

theorem idle_eta {th : Thread} (hc : th.code = .idle) : { th with code := Code.idle } = th := by rw [← hc]

theorem stepUser_ok {op : Op} (h : StateOk st) (hc : (st.threads t).code = .idle) : Good st t (stepUser st t (st.threads t) op) := by
  have ht := h.threads t
  have ht' : ThreadOk st.mem t { st.threads t with code := .idle } := by rw [idle_eta hc]; exact ht
  cases op with
  | cont b => trivial
  | newSig =>
    obtain ⟨h1, g1, k1⟩ := newSig_ok (t := t) h.mem
    have h2 := next_idle (c' := .idle) ht hc g1 ⟨rfl, rfl, rfl, rfl, rfl⟩ rfl (by code) (by code) (by code) (by code) (by code)
      (by code) (by code) (by code) (by code) (by code)
    rw [idle_eta hc] at h2
    refine good_go h h1 g1 { h2 with knows := fun x hx => ?_ }
    rcases List.mem_cons.1 hx with rfl | hx
    · exact k1
    · exact (ht.knows x hx).guar g1
  | connect g pos =>
    simp only [stepUser]
    split
    · rename_i hk
      exact good_start h hc (by simpa [Code.sigs] using hk) (by code) (by code) (by code) (by code) (by code) (by code) (by code) (by code) (by code)
    · trivial
  | emit g =>
    simp only [stepUser]
    split
    · rename_i hk
      exact good_start h hc (by simpa [Code.sigs] using hk) (by code) (by code) (by code) (by code) (by code) (by code) (by code) (by code) (by code)
    · trivial
  | discAll g =>
    simp only [stepUser]
    split
    · rename_i hk
      exact good_start h hc (by simpa [Code.sigs] using hk) (by code) (by code) (by code) (by code) (by code) (by code) (by code) (by code) (by code)
    · trivial
  | numSlots g =>
    simp only [stepUser]
    split
    · rename_i hk
      exact good_start h hc (by simpa [Code.sigs] using hk) (by code) (by code) (by code) (by code) (by code) (by code) (by code) (by code) (by code)
    · trivial
  | swap g g' =>
    simp only [stepUser]
    split
    · rename_i hk
      exact good_start h hc (by simpa [Code.sigs] using hk) (by code) (by code) (by code) (by code) (by code) (by code) (by code) (by code) (by code)
    · trivial
  | moveSig g =>
    simp only [stepUser]
    split
    · rename_i hk
      obtain ⟨f1, f2, f3, _, _⟩ := h.mem.toCore.fresh
      obtain ⟨h1, g1⟩ := beginMove_ok (t := t) h.mem
      refine good_go h h1 g1 (ht.next g1 {
        refs := fun x => by rw [hc]; exact rfl
        ems := fun x => by rw [hc]; rfl
        held := fun x => by
          have := ht.held x
          rw [hc] at this
          simp only [Code.locks, List.not_mem_nil, iff_false] at this
          by_cases hx : x = st.mem.nsigs
          · subst hx; simp [Mem.beginMove, upd, Code.locks]
          · simp [Mem.beginMove, upd, Code.locks, hx, Mem.sigMade, Mem.ev, this]
        nodup := by code
        sigs := fun x hx => by
          simp only [Code.sigs, List.mem_singleton] at hx
          subst hx
          exact (ht.knows x hk).guar g1
        listed := by code
        dying := by code
        quiet := by code
        unborn := fun x hx => by
          simp only [Code.unborn, List.mem_singleton] at hx
          subst hx; exact f2
        empty := fun x hx => by
          simp only [Code.empty, List.mem_singleton] at hx
          subst hx; exact f3
        wf := by code })
    · trivial
  | copy i =>
    simp only [stepUser]
    split
    · trivial
    · rename_i s hs
      exact good_handle h hc (ht.handle (List.mem_of_getElem? hs))
  | drop i =>
    simp only [stepUser]
    split
    · trivial
    · rename_i s hs
      exact good_go h h.mem (Guar.refl ..) (handle_gone (c' := .rel s) ht' hs (by code) (by code) (by code) (by code) (by code)
        (by code) (by code) (by code) (by code) (by code))
  | disconnect i =>
    simp only [stepUser]
    split
    · trivial
    · rename_i s hs
      obtain ⟨m', e, h1, g1, s1, r1, d1, k1⟩ := xchg_ok h.mem (.inl (ht.handle (List.mem_of_getElem? hs)))
      have h2 := next_idle (c' := .idle) ht hc g1 s1 r1 (by code) (by code) (by code) (by code) (by code)
        (by code) (by code) (by code) (by code) (by code)
      refine good_orUb e (good_go h h1 g1 ?_)
      dsimp only
      split
      · exact handle_gone (c' := .rel s) h2 hs (by code) (by code) (by code) (by code) (by code)
          (by code) (by code) (by code) (by code) (by code)
      · rename_i g hg
        refine handle_gone (c' := .disLock s g) h2 hs (by code) (by code) (by code) ?_ (by code)
          (by code) (by code) (by code) (by code) (by code)
        intro x hx
        simp only [Code.sigs, List.mem_singleton] at hx
        subst hx
        exact k1 x hg
  | touch i =>
    simp only [stepUser]
    split
    · trivial
    · rename_i s hs
      obtain ⟨e, h1, g1⟩ := touch_ok h.mem (.inl (ht.handle (List.mem_of_getElem? hs)))
      have h2 := next_idle (c' := .idle) ht hc g1 (Same.ev ..) rfl (by code) (by code) (by code) (by code) (by code)
        (by code) (by code) (by code) (by code) (by code)
      rw [idle_eta hc] at h2
      exact good_orUb e (good_go h h1 g1 h2)
  | current =>
    simp only [stepUser]
    split
    · trivial
    · rename_i c cs hs
      refine good_handle h hc ?_
      have := ht.refs c.cur
      rw [hs] at this
      refine List.count_pos_iff.1 (Nat.lt_of_lt_of_le ?_ (Nat.le_of_eq this))
      have : 0 < (callRefs (c :: cs)).count c.cur := List.count_pos_iff.2 (by simp [callRefs])
      omega
  | give i k =>
    simp only [stepUser]
    split
    · trivial
    · rename_i s hs
      have hr := ht.handle (List.mem_of_getElem? hs)
      have h1 := given_ok (k := k) h.mem hr
      have hrefs : ∀ x, ((st.mem.given t s k).refs x).count (.thread t) + [s].count x = (st.mem.refs x).count (.thread t) := by
        intro x
        have hp := List.count_pos_iff.2 hr
        by_cases hx : x = s
        · subst hx
          simp only [Mem.given, upd_same, List.count_singleton_self]
          rw [List.count_cons_of_ne (by simp), List.count_erase_self]
          omega
        · simp only [Mem.given, Mem.ev, upd, if_neg hx]
          rw [List.count_cons_of_ne (Ne.symm hx)]; simp
      have hbox : ∀ x j, ((st.mem.given t s k).refs x).count (.box j) =
          (st.mem.refs x).count (.box j) + if j = k then [s].count x else 0 := by
        intro x j
        by_cases hx : x = s
        · subst hx
          simp only [Mem.given, upd_same, List.count_singleton_self]
          rw [List.count_cons, List.count_erase_of_ne (by simp)]
          by_cases hj : j = k
          · subst hj; simp
          · simp [hj, Ne.symm hj]
        · simp only [Mem.given, Mem.ev, upd, if_neg hx]
          rw [List.count_cons_of_ne (Ne.symm hx)]; simp
      have hoth : ∀ x u, u ≠ t → ((st.mem.given t s k).refs x).count (.thread u) = (st.mem.refs x).count (.thread u) := by
        intro x u hu
        by_cases hx : x = s
        · subst hx
          simp only [Mem.given, upd_same]
          rw [List.count_cons_of_ne (by simp), List.count_erase_of_ne (by simpa using hu)]
        · simp only [Mem.given, Mem.ev, upd, if_neg hx]
      have hg : GuarT t st.mem (st.mem.given t s k) := { (Guar.ev t st.mem (.rel k) []).toT with refs := hoth }
      have hev := Guar.ev t st.mem (.rel k) []
      refine ⟨{ mem := h1, threads := fun u => ?_, boxH := fun j x => ?_, boxS := fun j g hj => ?_ }, hg⟩
      · by_cases hu : u = t
        · subst hu
          simp only [upd_same]
          have h2 : ThreadOk (st.mem.ev u (.rel k) []) u { st.threads u with code := .idle } :=
            next_idle ht hc hev (Same.ev ..) rfl (by code) (by code) (by code) (by code) (by code)
              (by code) (by code) (by code) (by code) (by code)
          rw [idle_eta hc] at h2
          refine { h2 with refs := fun x => ?_ }
          have h3 := ht.refs x
          have h4 := hrefs x
          have h5 := count_eraseIdx hs x
          show ((st.threads u).handles.eraseIdx i).count x + _ + _ + _ = _
          simp only
          omega
        · simp only [upd, if_neg hu]
          exact (h.threads u).guar hu hg
      · show (upd st.boxH k (s :: st.boxH k) j).count x = _
        rw [hbox x j]
        have := h.boxH j x
        by_cases hj : j = k
        · subst hj
          have e : (s :: st.boxH j).count x = (st.boxH j).count x + [s].count x := by
            rw [List.count_cons, List.count_singleton]
          simp only [upd_same, if_true]; omega
        · simp only [upd, if_neg hj]; omega
      · obtain ⟨h2, h3⟩ := h.boxS j g hj
        exact ⟨h2, Under.append _ h3⟩
  | take k i =>
    simp only [stepUser]
    split
    · trivial
    · rename_i s hs
      have hr : .box k ∈ st.mem.refs s := by
        have := h.boxH k s
        have := List.count_pos_iff.2 (List.mem_of_getElem? hs)
        exact List.count_pos_iff.1 (by omega)
      have h1 := taken_ok (t := t) h.mem hr
      have hrefs : ∀ x, ((st.mem.taken t s k).refs x).count (.thread t) = (st.mem.refs x).count (.thread t) + [s].count x := by
        intro x
        by_cases hx : x = s
        · subst hx
          simp only [Mem.taken, upd_same, List.count_singleton_self]
          rw [List.count_cons_self, List.count_erase_of_ne (by simp)]
        · simp only [Mem.taken, Mem.ev, upd, if_neg hx]
          rw [List.count_cons_of_ne (Ne.symm hx)]; simp
      have hbox : ∀ x j, ((st.mem.taken t s k).refs x).count (.box j) + (if j = k then [s].count x else 0) =
          (st.mem.refs x).count (.box j) := by
        intro x j
        have hp := List.count_pos_iff.2 hr
        by_cases hx : x = s
        · subst hx
          simp only [Mem.taken, upd_same, List.count_singleton_self]
          rw [List.count_cons_of_ne (by simp)]
          by_cases hj : j = k
          · subst hj
            rw [List.count_erase_self]
            simp only [if_true]; omega
          · rw [List.count_erase_of_ne (by simpa using hj)]; simp [hj]
        · simp only [Mem.taken, Mem.ev, upd, if_neg hx]
          rw [List.count_cons_of_ne (Ne.symm hx)]; simp
      have hoth : ∀ x u, u ≠ t → ((st.mem.taken t s k).refs x).count (.thread u) = (st.mem.refs x).count (.thread u) := by
        intro x u hu
        by_cases hx : x = s
        · subst hx
          simp only [Mem.taken, upd_same]
          rw [List.count_cons_of_ne (by simpa using Ne.symm hu), List.count_erase_of_ne (by simp)]
        · simp only [Mem.taken, Mem.ev, upd, if_neg hx]
      have hg : GuarT t st.mem (st.mem.taken t s k) := { (Guar.ev t st.mem (.acq k) []).toT with refs := hoth }
      have hev := Guar.ev t st.mem (.acq k) []
      refine ⟨{ mem := h1, threads := fun u => ?_, boxH := fun j x => ?_, boxS := fun j g hj => ?_ }, hg⟩
      · by_cases hu : u = t
        · subst hu
          simp only [upd_same]
          have h2 : ThreadOk (st.mem.ev u (.acq k) []) u { st.threads u with code := .idle } :=
            next_idle ht hc hev (Same.ev ..) rfl (by code) (by code) (by code) (by code) (by code)
              (by code) (by code) (by code) (by code) (by code)
          rw [idle_eta hc] at h2
          refine { h2 with refs := fun x => ?_ }
          have h3 := ht.refs x
          have h4 := hrefs x
          simp only [List.count_append]
          omega
        · simp only [upd, if_neg hu]
          exact (h.threads u).guar hu hg
      · show (upd st.boxH k ((st.boxH k).eraseIdx i) j).count x = _
        have h2 := hbox x j
        have h3 := h.boxH j x
        by_cases hj : j = k
        · subst hj
          have h4 := count_eraseIdx hs x
          simp only [if_true] at h2
          simp only [upd_same]; omega
        · simp only [if_neg hj] at h2
          simp only [upd, if_neg hj]; omega
      · obtain ⟨h2, h3⟩ := h.boxS j g hj
        exact ⟨h2, Under.append _ h3⟩
  | publish g k =>
    simp only [stepUser]
    split
    · rename_i hk
      have h1 : Inv (st.mem.ev t (.rel k) []) := h.mem.ev (by simp) (by simp) (by simp)
      have g1 := Guar.ev t st.mem (.rel k) []
      have h2 : ThreadOk (st.mem.ev t (.rel k) []) t { st.threads t with code := .idle } :=
        next_idle ht hc g1 (Same.ev ..) rfl (by code) (by code) (by code) (by code) (by code)
          (by code) (by code) (by code) (by code) (by code)
      rw [idle_eta hc] at h2
      refine ⟨{ mem := h1, threads := fun u => ?_, boxH := h.boxH, boxS := fun j x hj => ?_ }, g1.toT⟩
      · by_cases hu : u = t
        · subst hu; exact h2
        · exact (h.threads u).guar hu g1.toT
      · by_cases hx : j = k
        · subst hx
          simp only [upd_same, List.mem_cons] at hj
          rcases hj with rfl | hj
          · obtain ⟨k1, k2⟩ := ht.knows x hk
            exact ⟨k1, known_through (e := ⟨t, .rel j, []⟩) k2⟩
          · obtain ⟨h2, h3⟩ := h.boxS j x hj
            exact ⟨h2, Under.append _ h3⟩
        · simp only [upd, if_neg hx] at hj
          obtain ⟨h2, h3⟩ := h.boxS j x hj
          exact ⟨h2, Under.append _ h3⟩
    · trivial
  | learn k i =>
    simp only [stepUser]
    split
    · trivial
    · rename_i g hs
      obtain ⟨k1, k2⟩ := h.boxS k g (List.mem_of_getElem? hs)
      have h1 : Inv (st.mem.ev t (.acq k) []) := h.mem.ev (by simp) (by simp) (by simp)
      have g1 := Guar.ev t st.mem (.acq k) []
      have h2 : ThreadOk (st.mem.ev t (.acq k) []) t { st.threads t with code := .idle } :=
        next_idle ht hc g1 (Same.ev ..) rfl (by code) (by code) (by code) (by code) (by code)
          (by code) (by code) (by code) (by code) (by code)
      rw [idle_eta hc] at h2
      refine good_go h h1 g1 { h2 with knows := fun x hx => ?_ }
      rcases List.mem_cons.1 hx with rfl | hx
      · exact ⟨k1, known_of_hb (e := ⟨t, .acq k, []⟩) (rel_hb k2 rfl)⟩
      · exact (ht.knows x hx).guar g1
  | ret =>
    simp only [stepUser]
    split
    · trivial
    · rename_i c cs hs
      refine good_go h h.mem (Guar.refl ..) { ht' with refs := ?_, ems := ?_, held := ?_, nodup := ?_, calls := ?_, sigs := ?_, callListed := ?_, listed := ?_, dying := ?_, quiet := ?_, unborn := ?_, empty := ?_, wf := ?_ }
      · intro x
        have := ht'.refs x
        have e : (c.cur :: (st.threads t).lost).count x = [c.cur].count x + (st.threads t).lost.count x := by
          rw [← List.count_append]; rfl
        simp only [hs, callRefs, List.flatMap_cons, Code.refs, List.count_append, List.count_nil] at this ⊢
        omega
      · intro x
        have := ht'.ems x
        rw [← this]
        simp only [hs, callEms, List.map_cons, Code.ems, List.count_nil, Nat.add_zero]
        simp only [List.count_cons, List.count_nil, Nat.zero_add]
      · exact ht'.held
      · code
      · intro x hx; exact ht.calls x (by rw [hs]; exact List.mem_cons_of_mem _ hx)
      · intro x hx
        simp only [Code.sigs, List.mem_singleton] at hx
        subst hx
        exact ht.calls _ (by rw [hs]; simp [callEms])
      · intro x hx; exact ht.callListed x (by rw [hs]; exact List.mem_cons_of_mem _ hx)
      · intro x hx
        simp only [Code.listed, List.mem_singleton] at hx
        subst hx
        exact ht.callListed (c.cur, c.sig) (by rw [hs]; simp [callListed])
      · code
      · code
      · code
      · code
      · code
  | throw =>
    simp only [stepUser]
    split
    · trivial
    · rename_i c cs hs
      refine good_go h h.mem (Guar.refl ..) { ht' with refs := ?_, ems := ?_, held := ?_, nodup := ?_, calls := ?_, sigs := ?_, callListed := ?_, listed := ?_, dying := ?_, quiet := ?_, unborn := ?_, empty := ?_, wf := ?_ }
      · intro x
        have := ht'.refs x
        have e : (c.cur :: (st.threads t).lost).count x = [c.cur].count x + (st.threads t).lost.count x := by
          rw [← List.count_append]; rfl
        simp only [hs, callRefs, List.flatMap_cons, Code.refs, List.count_append, List.count_nil] at this ⊢
        omega
      · intro x
        have := ht'.ems x
        rw [← this]
        simp only [hs, callEms, List.map_cons, Code.ems, List.count_nil, Nat.add_zero]
        simp only [List.count_cons, List.count_nil, Nat.zero_add]
      · exact ht'.held
      · code
      · intro x hx; exact ht.calls x (by rw [hs]; exact List.mem_cons_of_mem _ hx)
      · intro x hx
        simp only [Code.sigs, List.mem_singleton] at hx
        subst hx
        exact ht.calls _ (by rw [hs]; simp [callEms])
      · intro x hx; exact ht.callListed x (by rw [hs]; exact List.mem_cons_of_mem _ hx)
      · code
      · code
      · code
      · code
      · code
      · code

theorem step_ok {op : Op} (h : StateOk st) : Good st t (step st t op) := by
  unfold step
  dsimp only
  split
  · exact stepCode_ok h
  · split
    · exact stepUser_ok h ‹_›
    · trivial

theorem stateOk_init : StateOk .init where
  mem := {
    ordered := fun _ _ _ _ _ _ h => by obtain ⟨a, h, _⟩ := h; simp [State.init] at h
    accObj := fun _ _ _ h => by obtain ⟨a, h, _⟩ := h; simp [State.init] at h
    accNxt := fun _ _ _ h => by obtain ⟨a, h, _⟩ := h; simp [State.init] at h
    accFld := fun _ _ _ h => by obtain ⟨a, h, _⟩ := h; simp [State.init] at h
    accMtx := fun _ _ _ h => by obtain ⟨a, h, _⟩ := h; simp [State.init] at h
    lists := fun _ _ => by simp [State.init]
    nodup := fun _ => by simp [State.init]
    ownLive := fun _ _ h => by simp [State.init] at h
    refsLive := fun _ _ h => by simp [State.init] at h
    dyingOk := fun _ _ h => by simp [State.init] at h
    liveLt := fun _ h => by simp [State.init] at h
    bornLt := fun _ h => by simp [State.init] at h
    heldLt := fun _ _ h => by simp [State.init] at h
    count := fun _ h => by simp [State.init] at h
    active := fun _ => by simp [State.init]
    fld := fun _ _ _ h => by obtain ⟨a, h, _⟩ := h; simp [State.init] at h
    nxt := fun _ _ _ _ h => by simp [State.init] at h
    obj := fun _ _ _ h => by simp [State.init] at h
    dyi := fun _ _ _ _ h => by simp [State.init] at h
    wr := fun _ _ h => by simp [State.init] at h
    newR := fun _ _ h => by simp [State.init] at h
    newL := fun _ _ h => by simp [State.init] at h
    mtxB := fun _ _ h => by simp [State.init] at h
    mtxN := fun _ _ _ _ h => by simp [State.init] at h
    snd := fun _ _ h => by simp [State.init] at h }
  threads := fun t => {
    refs := fun _ => by simp [State.init, callRefs, Code.refs]
    ems := fun _ => by simp [State.init, callEms, Code.ems]
    held := fun _ => by simp [State.init, Code.locks]
    nodup := by simp [State.init, Code.locks, Code.sigs, Code.listed, Code.dying, Code.quiet, Code.unborn, Code.empty, Code.wf]
    knows := by simp [State.init]
    calls := by simp [State.init, callEms]
    sigs := by simp [State.init, Code.locks, Code.sigs, Code.listed, Code.dying, Code.quiet, Code.unborn, Code.empty, Code.wf]
    callListed := by simp [State.init, callListed]
    listed := by simp [State.init, Code.locks, Code.sigs, Code.listed, Code.dying, Code.quiet, Code.unborn, Code.empty, Code.wf]
    dying := by simp [State.init, Code.locks, Code.sigs, Code.listed, Code.dying, Code.quiet, Code.unborn, Code.empty, Code.wf]
    quiet := by simp [State.init, Code.locks, Code.sigs, Code.listed, Code.dying, Code.quiet, Code.unborn, Code.empty, Code.wf]
    unborn := by simp [State.init, Code.locks, Code.sigs, Code.listed, Code.dying, Code.quiet, Code.unborn, Code.empty, Code.wf]
    empty := by simp [State.init, Code.locks, Code.sigs, Code.listed, Code.dying, Code.quiet, Code.unborn, Code.empty, Code.wf]
    wf := by simp [State.init, Code.locks, Code.sigs, Code.listed, Code.dying, Code.quiet, Code.unborn, Code.empty, Code.wf] }
  boxH := fun _ _ => by simp [State.init]
  boxS := fun _ _ h => by simp [State.init] at h

theorem reach_ok (h : Reach st) : StateOk st := by
  induction h with
  | init => exact stateOk_init
  | @step st st' t op _ hs ih =>
    have := step_ok (t := t) (op := op) ih
    rw [hs] at this
    exact this.1

end Verif.Races
