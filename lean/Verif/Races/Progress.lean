import Verif.Races.Reach

/-! Critical sections end. -/

namespace Verif.Races

/-- How many slots are left, from one on. -/
def after (l : List Nat) : Option Nat → Nat
  | none => 0
  | some s => (l.dropWhile (· != s)).length

theorem after_none (l : List Nat) : after l none = 0 := rfl

theorem after_le (l : List Nat) (o : Option Nat) : after l o ≤ l.length := by
  cases o with
  | none => exact Nat.zero_le _
  | some s => exact (List.dropWhile_sublist _).length_le

theorem after_cons_ne {a s : Nat} {l : List Nat} (h : a ≠ s) : after (a :: l) (some s) = after l (some s) := by
  simp [after, List.dropWhile_cons, h]

theorem after_cons_self {s : Nat} {l : List Nat} : after (s :: l) (some s) = l.length + 1 := by
  simp [after, List.dropWhile_cons]

theorem after_head (l : List Nat) : after l l.head? = l.length := by
  cases l with
  | nil => rfl
  | cons a l => simp [after, List.dropWhile_cons]

theorem after_cons_succ {a : Nat} {l : List Nat} {o : Option Nat} (ha : a ∉ l) (h : ∀ x, o = some x → x ∈ l) :
    after (a :: l) o = after l o := by
  cases o with
  | none => rfl
  | some x => exact after_cons_ne fun h1 => ha (h1 ▸ h x rfl)

theorem after_succ : ∀ {l : List Nat} {s : Nat}, l.Nodup → s ∈ l → after l (some s) = after l (succ l s) + 1
  | [], _, _, h => by cases h
  | [a], s, _, h => by
    simp only [List.mem_singleton] at h
    subst h
    simp [after, succ]
  | a :: b :: l, s, hn, h => by
    rw [List.nodup_cons] at hn
    unfold succ
    by_cases ha : a = s
    · subst ha
      simp only [if_true, after_cons_self]
      rw [after_cons_ne (fun h => hn.1 (by rw [h]; simp)), after_cons_self]
      simp
    · rw [if_neg ha, after_cons_ne ha, after_cons_succ hn.1 fun x hx => succ_mem hx]
      refine after_succ hn.2 ?_
      rcases List.mem_cons.1 h with h | h
      · exact absurd h.symm ha
      · exact h

theorem after_erase : ∀ {l : List Nat} {s x : Nat}, x ≠ s → after (l.erase s) (some x) ≤ after l (some x)
  | [], _, _, _ => Nat.le_refl _
  | a :: l, s, x, h => by
    by_cases ha : a = s
    · subst ha
      rw [List.erase_cons_head, after_cons_ne (Ne.symm h)]
      exact Nat.le_refl _
    · rw [List.erase_cons_tail (by simpa using ha)]
      by_cases hx : a = x
      · subst hx
        simp only [after_cons_self]
        have := List.length_erase_le (a := s) (l := l)
        omega
      · rw [after_cons_ne hx, after_cons_ne hx]
        exact after_erase h

theorem after_erase_succ {l : List Nat} {s : Nat} (hn : l.Nodup) (h : s ∈ l) :
    after (l.erase s) (succ l s) + 1 ≤ after l (some s) := by
  rw [after_succ hn h]
  cases hs : succ l s with
  | none => exact Nat.le_refl _
  | some x => exact Nat.add_le_add_right (after_erase (succ_ne hn hs)) 1

/-- Steps that are left after `rebind_locked`. -/
def K.left (m : Mem) : K → Nat
  | .em _ => 1
  | .mv _ => 1
  | .sw2 _ _ => 2
  | .sw1 _ g' => 4 * (m.list g').length + 4

/-- At most so many steps are left of a critical section. -/
def Code.left (m : Mem) : Code → Nat
  | .emRef1 .. => 3
  | .emRef2 .. => 2
  | .emUnl .. => 1
  | .emNRef .. => 2
  | .emNUnl .. => 1
  | .cl g iter k => 3 * after (m.list g) iter + (m.list g).length + 2 + k.left m
  | .clRel g _ next k => 3 * after (m.list g) next + (m.list g).length + 4 + k.left m
  | .clDel g _ next k => 3 * after (m.list g) next + (m.list g).length + 3 + k.left m
  | .rb g iter k => after (m.list g) iter + 1 + k.left m
  | .unl _ => 1
  | .unl2 _ _ => 2
  | .disLoop _ g iter => after (m.list g) iter + 4
  | .disStore _ _ => 4
  | .disRel _ _ => 3
  | .disDel _ _ => 2
  | .disUnl _ _ => 1
  | .allLoop g iter => 3 * after (m.list g) iter + 2
  | .allRel g _ next => 3 * after (m.list g) next + 4
  | .allDel g _ next => 3 * after (m.list g) next + 3
  | .numLoop g iter => after (m.list g) iter + 2
  | .conRef _ _ => 2
  | .mvUnl _ _ => 1
  | .mvLock _ _ => 2
  | _ => 0

/-- The mutexes that are locked, without that of a signal that is being constructed. -/
def Code.owns : Code → List Nat
  | .mvLock _ _ => []
  | .mvUnl g _ => [g]
  | c => c.locks

variable {st : State} {t : Nat}

/-- Goes on, and nearer to the end of the critical section. -/
def Nearer (st : State) (t : Nat) (o : Out) : Prop :=
  ∃ st', o = .ok st' ∧ ((st'.threads t).code.locks = [] ∨
    (st'.threads t).code.left st'.mem < (st.threads t).code.left st.mem)

theorem nearer_go {m : Mem} {th : Thread}
    (h : th.code.locks = [] ∨ th.code.left m < (st.threads t).code.left st.mem) : Nearer st t (st.go t m th) := by
  refine ⟨_, rfl, ?_⟩
  simpa [upd] using h

theorem nearer_orUb {α : Type} {x : Option α} {a : α} {k : α → Out} (hx : x = some a) (h : Nearer st t (k a)) :
    Nearer st t (orUb x k) := by
  rw [hx]; exact h

theorem K.left_eq {m m' : Mem} (h : m'.list = m.list) (k : K) : k.left m' = k.left m := by
  cases k <;> simp only [K.left, h]

theorem owns_locks (c : Code) : ∀ g ∈ c.owns, g ∈ c.locks := by
  cases c <;> simp [Code.owns, Code.locks]

/-- The list of the other signal of a swap is not changed by removing a slot. -/
theorem K.left_removed {m : Mem} {g s : Nat} {k : K} (hw : k.sig = g) (hn : k.locks.Nodup) :
    k.left (m.removed t g s) = k.left m := by
  subst hw
  cases k with
  | sw1 g g' =>
    simp only [K.left, K.sig, Mem.removed, Mem.ev, upd]
    rw [if_neg]
    intro h
    simp [K.locks, h] at hn
  | _ => rfl

theorem stepCode_nearer {b : Bool} (h : StateOk st) (hl : (st.threads t).code.owns ≠ []) :
    Nearer st t (stepCode st t (st.threads t) b) := by
  have ht := h.threads t
  have hli := ht.listed
  have hn := ht.nodup
  have hw := ht.wf
  have hhd := ht.held
  have hq := ht.quiet
  cases hc : (st.threads t).code with
  | emRef1 g last cur =>
    rw [hc] at hli hhd
    simp only [stepCode, hc]
    cases last with
    | none => exact nearer_go (by rw [hc]; exact .inr (by simp [Code.left]))
    | some s =>
      have hm := h.mem.toCore.mayList ((hhd g).2 (by code)) (hli (s, g) (by code))
      obtain ⟨m', e, _⟩ := addRef_ok h.mem hm
      exact nearer_orUb e (nearer_go (by rw [hc]; exact .inr (by simp [Code.left])))
  | emRef2 g last cur =>
    rw [hc] at hli hhd
    simp only [stepCode, hc]
    cases cur with
    | none => exact nearer_go (by rw [hc]; exact .inr (by simp [Code.left]))
    | some s =>
      have hm := h.mem.toCore.mayList ((hhd g).2 (by code)) (hli (s, g) (by code))
      obtain ⟨m', e, _⟩ := addRef_ok h.mem hm
      exact nearer_orUb e (nearer_go (by rw [hc]; exact .inr (by simp [Code.left])))
  | emUnl g last cur =>
    simp only [stepCode, hc]
    exact nearer_go (.inl rfl)
  | emNRef g last s next =>
    rw [hc] at hli hhd
    simp only [stepCode, hc]
    cases next with
    | none => exact nearer_go (by rw [hc]; exact .inr (by simp [Code.left]))
    | some s =>
      have hm := h.mem.toCore.mayList ((hhd g).2 (by code)) (hli (s, g) (by code))
      obtain ⟨m', e, _⟩ := addRef_ok h.mem hm
      exact nearer_orUb e (nearer_go (by rw [hc]; exact .inr (by simp [Code.left])))
  | emNUnl g last s next =>
    simp only [stepCode, hc]
    exact nearer_go (.inl rfl)
  | cl g iter k =>
    rw [hc] at hli hhd hw hn hq
    have hw : k.sig = g := hw
    have hh : st.mem.held g = some t := (hhd g).2 (by rw [← hw]; exact k.locks_sig)
    simp only [stepCode, hc]
    cases iter with
    | none =>
      refine nearer_go (.inr ?_)
      have e : ∀ x, ((st.mem.defer t x false).list) = st.mem.list := fun _ => rfl
      rw [hc]
      subst hw
      cases k <;> simp only [K.cleaned, Code.left, K.sig, K.left, e, after_head, after_none] <;> omega
    | some i =>
      have him : i ∈ st.mem.list g := hli (i, g) (by code)
      obtain ⟨e, h1, g1⟩ := touch_ok h.mem (h.mem.toCore.mayList hh him)
      refine nearer_orUb e ?_
      obtain ⟨e2, h2, g2⟩ := next_ok (m := st.mem.ev t .none [(.obj i, false)]) h1 hh him
      split
      · refine nearer_orUb e2 (nearer_go (.inr ?_))
        rw [hc]
        have := after_succ (h.mem.nodup g) him
        have e5 : k.left ((st.mem.ev t .none [(.obj i, false)]).ev t .none (link i false)) = k.left st.mem :=
          K.left_eq rfl k
        simp only [Code.left]
        rw [e5]
        show 3 * after (st.mem.list g) (succ (st.mem.list g) i) + (st.mem.list g).length + 2 + _ < _
        omega
      · refine nearer_orUb e2 ?_
        obtain ⟨e3, h3, g3⟩ := removed_ok h2 hh him (hq g (by code))
        refine nearer_orUb e3 (nearer_go (.inr ?_))
        rw [hc]
        have h4 := after_erase_succ (h.mem.nodup g) him
        have h5 := List.length_erase_le (a := i) (l := st.mem.list g)
        have e5 : k.left ((st.mem.ev t .none [(.obj i, false)]).ev t .none (link i false)) = k.left st.mem :=
          K.left_eq rfl k
        simp only [Code.left]
        rw [K.left_removed hw hn, e5]
        simp only [Mem.removed, Mem.ev, upd_same]
        omega
  | clRel g s next k =>
    rw [hc] at hli hhd hw hn
    have hr := ht.ref (s := s) (by rw [hc]; code)
    simp only [stepCode, hc]
    obtain ⟨m', bb, e, h1, g1, s1, _⟩ := sub_ok h.mem hr
    refine nearer_orUb e (nearer_go (.inr ?_))
    rw [hc]
    have e1 := s1.list
    cases bb <;> simp only [thenDel, Code.left, e1, K.left_eq e1, if_true, Bool.false_eq_true, if_false] <;> omega
  | clDel g s next k =>
    have hd := ht.dying s (by rw [hc]; code)
    simp only [stepCode, hc]
    obtain ⟨m', e, h1, g1, s1, _⟩ := del_ok h.mem hd
    refine nearer_orUb e (nearer_go (.inr ?_))
    rw [hc]
    have e1 := s1.list
    simp only [Code.left, e1, K.left_eq e1]; omega
  | rb g iter k =>
    rw [hc] at hli hhd hw hn
    have hw : k.sig = g := hw
    have hh : st.mem.held g = some t := (hhd g).2 (by rw [← hw]; exact k.locks_sig)
    simp only [stepCode, hc]
    cases iter with
    | none =>
      cases k with
      | em x => exact nearer_go (.inr (by rw [hc]; simp [Code.left, K.left, after]))
      | mv x => exact nearer_go (.inr (by rw [hc]; simp [Code.left, K.left, after]))
      | sw2 x y => exact nearer_go (.inr (by rw [hc]; simp [Code.left, K.left, after]))
      | sw1 x y =>
        refine nearer_go (.inr ?_)
        rw [hc]
        dsimp only
        have e : ((st.mem.fields t y).list) = st.mem.list := rfl
        split
        · simp only [Code.left, K.left, e, after_head, after_none]; omega
        · simp only [K.cleaned, K.sig, Code.left, K.left, e, after_head, after_none]; omega
    | some i =>
      have him : i ∈ st.mem.list g := hli (i, g) (by code)
      have hk := ht.sigs
      rw [hc] at hk
      obtain ⟨m', e, h1, g1, s1, r1, d1, _⟩ := store_ok (v := some g) h.mem (h.mem.toCore.mayList hh him)
        (fun x hx => by cases hx; exact hk g (by rw [← hw]; exact k.locks_sig))
      refine nearer_orUb e ?_
      obtain ⟨e2, h2, g2⟩ := next_ok (m := m') h1 (by rw [s1.held]; exact hh) (by rw [s1.list]; exact him)
      refine nearer_orUb e2 (nearer_go (.inr ?_))
      rw [hc]
      have e1 : (m'.ev t .none (link i false)).list = st.mem.list := s1.list
      have := after_succ (h.mem.nodup g) him
      rw [Code.left, Code.left, K.left_eq e1, e1, s1.list]
      dsimp only
      omega
  | unl g =>
    simp only [stepCode, hc]
    exact nearer_go (.inl rfl)
  | unl2 g g' =>
    simp only [stepCode, hc]
    exact nearer_go (.inr (by rw [hc]; simp [Code.left]))
  | disLoop s g iter =>
    rw [hc] at hli hhd
    have hh : st.mem.held g = some t := (hhd g).2 (by code)
    simp only [stepCode, hc]
    cases iter with
    | none => exact nearer_go (.inr (by rw [hc]; simp [Code.left]))
    | some i =>
      dsimp only
      have him : i ∈ st.mem.list g := hli (i, g) (by code)
      have := after_succ (h.mem.nodup g) him
      split
      · exact nearer_go (.inr (by rw [hc]; simp only [Code.left]; omega))
      · obtain ⟨e2, h2, g2⟩ := next_ok h.mem hh him
        refine nearer_orUb e2 (nearer_go (.inr ?_))
        rw [hc]
        rw [Code.left, Code.left]
        show after (st.mem.list g) (succ (st.mem.list g) i) + 4 < _
        omega
  | disStore s g =>
    rw [hc] at hli hhd
    have hh : st.mem.held g = some t := (hhd g).2 (by code)
    have hs : s ∈ st.mem.list g := hli (s, g) (by code)
    simp only [stepCode, hc]
    obtain ⟨m', e, h1, g1, s1, r1, d1, _⟩ := store_ok (v := none) h.mem (h.mem.toCore.mayList hh hs) (by simp)
    refine nearer_orUb e ?_
    split
    · rename_i h0
      have he : m'.ems g = [] := by
        have := h1.active g
        rw [h0] at this
        exact List.eq_nil_of_length_eq_zero this.symm
      obtain ⟨e3, h3, g3⟩ := removed_ok h1 (by rw [s1.held]; exact hh) (by rw [s1.list]; exact hs) he
      exact nearer_orUb e3 (nearer_go (.inr (by rw [hc]; simp [Code.left])))
    · exact nearer_go (.inr (by rw [hc]; simp [Code.left]))
  | disRel s g =>
    have hr := ht.ref (s := s) (by rw [hc]; code)
    simp only [stepCode, hc]
    obtain ⟨m', bb, e, h1, g1, s1, _⟩ := sub_ok h.mem hr
    refine nearer_orUb e (nearer_go (.inr ?_))
    rw [hc]
    cases bb <;> simp [thenDel, Code.left]
  | disDel s g =>
    have hd := ht.dying s (by rw [hc]; code)
    simp only [stepCode, hc]
    obtain ⟨m', e, h1, g1, s1, _⟩ := del_ok h.mem hd
    exact nearer_orUb e (nearer_go (.inr (by rw [hc]; simp [Code.left])))
  | disUnl s g =>
    simp only [stepCode, hc]
    exact nearer_go (.inl rfl)
  | allLoop g iter =>
    rw [hc] at hli hhd
    have hh : st.mem.held g = some t := (hhd g).2 (by code)
    simp only [stepCode, hc]
    cases iter with
    | none => exact nearer_go (.inr (by rw [hc]; simp [Code.left, after]))
    | some i =>
      have him : i ∈ st.mem.list g := hli (i, g) (by code)
      obtain ⟨m', e, h1, g1, s1, r1, d1, _⟩ := store_ok (v := none) h.mem (h.mem.toCore.mayList hh him) (by simp)
      refine nearer_orUb e ?_
      have hh' : m'.held g = some t := by rw [s1.held]; exact hh
      have hs' : i ∈ m'.list g := by rw [s1.list]; exact him
      obtain ⟨e2, h2, g2⟩ := next_ok h1 hh' hs'
      refine nearer_orUb e2 ?_
      split
      · rename_i h0
        have he : m'.ems g = [] := by
          have := h1.active g
          rw [h0] at this
          exact List.eq_nil_of_length_eq_zero this.symm
        obtain ⟨e3, h3, g3⟩ := removed_ok h2 hh' hs' he
        refine nearer_orUb e3 (nearer_go (.inr ?_))
        rw [hc]
        have h4 := after_erase_succ (h.mem.nodup g) him
        simp only [Code.left, Mem.removed, Mem.ev, upd_same, s1.list]
        omega
      · refine nearer_go (.inr ?_)
        rw [hc]
        have := after_succ (h.mem.nodup g) him
        simp only [Code.left, Mem.defer, Mem.fields, Mem.ev, s1.list]
        omega
  | allRel g s next =>
    have hr := ht.ref (s := s) (by rw [hc]; code)
    simp only [stepCode, hc]
    obtain ⟨m', bb, e, h1, g1, s1, _⟩ := sub_ok h.mem hr
    refine nearer_orUb e (nearer_go (.inr ?_))
    rw [hc]
    have e1 := s1.list
    cases bb <;> simp [thenDel, Code.left, e1]
  | allDel g s next =>
    have hd := ht.dying s (by rw [hc]; code)
    simp only [stepCode, hc]
    obtain ⟨m', e, h1, g1, s1, _⟩ := del_ok h.mem hd
    have e1 := s1.list
    exact nearer_orUb e (nearer_go (.inr (by rw [hc]; simp [Code.left, e1])))
  | numLoop g iter =>
    rw [hc] at hli hhd
    have hh : st.mem.held g = some t := (hhd g).2 (by code)
    simp only [stepCode, hc]
    cases iter with
    | none => exact nearer_go (.inr (by rw [hc]; simp [Code.left, after]))
    | some i =>
      have him : i ∈ st.mem.list g := hli (i, g) (by code)
      obtain ⟨e, h1, g1⟩ := touch_ok h.mem (h.mem.toCore.mayList hh him)
      refine nearer_orUb e ?_
      obtain ⟨e2, h2, g2⟩ := next_ok (m := st.mem.ev t .none [(.obj i, false)]) h1 hh him
      refine nearer_orUb e2 (nearer_go (.inr ?_))
      rw [hc]
      have := after_succ (h.mem.nodup g) him
      rw [Code.left, Code.left]
      show after (st.mem.list g) (succ (st.mem.list g) i) + 2 < _
      omega
  | conRef g s =>
    rw [hc] at hli hhd
    simp only [stepCode, hc]
    obtain ⟨m', e, h1, g1, s1, r1, d1⟩ := addRef_ok h.mem (h.mem.toCore.mayList ((hhd g).2 (by code)) (hli (s, g) (by code)))
    exact nearer_orUb e (nearer_go (.inr (by rw [hc]; simp [Code.left])))
  | mvUnl g g' =>
    simp only [stepCode, hc]
    exact nearer_go (.inl rfl)
  | _ => rw [hc] at hl; exact absurd rfl hl

/-- Nobody else changes how much is left. -/
theorem left_guar {m m' : Mem} {th : Thread} {u : Nat} (h : ThreadOk m t th) (hu : t ≠ u) (hg : GuarT u m m') :
    th.code.left m' = th.code.left m := by
  have hl : ∀ g ∈ th.code.locks, m'.list g = m.list g := fun g hx => (hg.list g t hu ((h.held g).2 hx)).1
  have hw := h.wf
  have hk : ∀ k : K, k.locks = th.code.locks → k.left m' = k.left m := by
    intro k hk
    cases k with
    | sw1 g g' => simp only [K.left]; rw [hl g' (by rw [← hk]; code)]
    | _ => rfl
  cases hc : th.code with
  | cl g iter k =>
    rw [hc] at hl hk hw
    have hw : k.sig = g := hw
    rw [Code.left, Code.left, hk k rfl, hl g (by rw [← hw]; exact k.locks_sig)]
  | clRel g s iter k =>
    rw [hc] at hl hk hw
    have hw : k.sig = g := hw
    rw [Code.left, Code.left, hk k rfl, hl g (by rw [← hw]; exact k.locks_sig)]
  | clDel g s iter k =>
    rw [hc] at hl hk hw
    have hw : k.sig = g := hw
    rw [Code.left, Code.left, hk k rfl, hl g (by rw [← hw]; exact k.locks_sig)]
  | rb g iter k =>
    rw [hc] at hl hk hw
    have hw : k.sig = g := hw
    rw [Code.left, Code.left, hk k rfl, hl g (by rw [← hw]; exact k.locks_sig)]
  | disLoop s g iter => rw [hc] at hl; rw [Code.left, Code.left, hl g (by code)]
  | allLoop g iter => rw [hc] at hl; rw [Code.left, Code.left, hl g (by code)]
  | allRel g s iter => rw [hc] at hl; rw [Code.left, Code.left, hl g (by code)]
  | allDel g s iter => rw [hc] at hl; rw [Code.left, Code.left, hl g (by code)]
  | numLoop g iter => rw [hc] at hl; rw [Code.left, Code.left, hl g (by code)]
  | _ => rfl

/-- What a thread has locked it owns, except for a signal that it constructs. -/
theorem born_owns {th : Thread} {m : Mem} {g : Nat} (h : ThreadOk m t th) (hh : m.held g = some t) (hb : m.born g = true) :
    g ∈ th.code.owns := by
  have hl := (h.held g).1 hh
  have hu := h.unborn
  cases hc : th.code with
  | mvLock a b =>
    rw [hc] at hl hu
    simp only [Code.locks, List.mem_singleton] at hl
    subst hl
    have := hu g (by code)
    rw [hb] at this; cases this
  | mvUnl a b =>
    rw [hc] at hl hu
    simp only [Code.locks, List.mem_cons, List.not_mem_nil, or_false] at hl
    rcases hl with rfl | rfl
    · exact List.mem_singleton.2 rfl
    · have := hu g (by code)
      rw [hb] at this; cases this
  | _ => rw [hc] at hl; exact hl

/-! ### A step changes its own thread only -/

/-- Other threads stay where they are. -/
def Only (st : State) (t : Nat) (o : Out) : Prop := ∀ st', o = .ok st' → ∀ u, u ≠ t → st'.threads u = st.threads u

theorem only_go {m : Mem} {th : Thread} : Only st t (st.go t m th) := by
  intro st' h u hu
  cases h
  exact upd_other _ _ hu

theorem only_ok {m : Mem} {th : Thread} {x y : Nat → List Nat} : Only st t (.ok ⟨m, upd st.threads t th, x, y⟩) := by
  intro st' h u hu
  cases h
  exact upd_other _ _ hu

theorem only_same {m : Mem} {x y : Nat → List Nat} : Only st t (.ok ⟨m, st.threads, x, y⟩) := by
  intro st' h u hu
  cases h
  rfl

theorem only_orUb {α : Type} {x : Option α} {k : α → Out} (h : ∀ a, Only st t (k a)) : Only st t (orUb x k) := by
  cases x with
  | none => intro _ h; cases h
  | some a => exact h a

theorem only_free {m : Mem} {g : Nat} {k : Out} (h : Only st t k) : Only st t (whenFree m g k) := by
  unfold whenFree
  split
  · exact h
  · intro _ h; cases h

theorem only_off : Only st t .off := by intro _ h; cases h
theorem only_ub : Only st t .ub := by intro _ h; cases h
theorem only_term : Only st t .term := by intro _ h; cases h

macro "only" : tactic => `(tactic|
  repeat' (first
    | exact only_go
    | exact only_ok
    | exact only_same
    | exact only_off
    | exact only_ub
    | exact only_term
    | (apply only_free)
    | (refine only_orUb fun _ => ?_)
    | split))

theorem stepCode_only {b : Bool} (th : Thread) : Only st t (stepCode st t th b) := by
  obtain ⟨c, calls, handles, knows, lost⟩ := th
  cases c <;> simp only [stepCode] <;> only

theorem stepUser_only {op : Op} (th : Thread) : Only st t (stepUser st t th op) := by
  cases op <;> simp only [stepUser] <;> only

theorem step_only {op : Op} : Only st t (step st t op) := by
  unfold step
  dsimp only
  split
  · exact stepCode_only _
  · split
    · exact stepUser_only _
    · exact only_off

/-! ### Critical sections end -/

theorem left_pos {m : Mem} {c : Code} (h : c.locks ≠ []) : 0 < c.left m := by
  cases c <;> simp only [Code.left] <;> first | omega | exact absurd rfl h

theorem locks_off {op : Op} (h : (st.threads t).code.locks ≠ []) (ho : ∀ b, op ≠ .cont b) : step st t op = .off := by
  unfold step
  dsimp only
  split
  · exact absurd rfl (ho _)
  · rw [if_neg]
    intro hc
    rw [hc] at h
    exact h rfl

/-- An own step in a critical section leads out of it or on. -/
theorem step_nearer {op : Op} {st' : State} (h : StateOk st) (hl : (st.threads t).code.locks ≠ [])
    (hs : step st t op = .ok st') :
    (st'.threads t).code.locks = [] ∨ (st'.threads t).code.left st'.mem < (st.threads t).code.left st.mem := by
  have hop : ∃ b, op = .cont b := by
    cases op with
    | cont b => exact ⟨b, rfl⟩
    | _ => rw [locks_off hl (by intro b; simp)] at hs; cases hs
  obtain ⟨b, rfl⟩ := hop
  simp only [step] at hs
  by_cases ho : (st.threads t).code.owns = []
  · cases hc : (st.threads t).code with
    | mvLock g g' =>
      simp only [stepCode, hc, whenFree] at hs
      split at hs
      · split at hs
        · cases hs
        · cases hs
          right
          simp [upd, Code.left]
      · cases hs
    | mvUnl g g' => rw [hc] at ho; cases ho
    | _ => rw [hc] at ho hl; exact absurd ho hl
  · obtain ⟨st1, e, h1⟩ := stepCode_nearer (b := b) h ho
    rw [hs] at e
    cases e
    exact h1

theorem released {g : Nat} : ∀ (l : List (Nat × Op)) {st st' : State}, StateOk st → st.mem.held g = some t →
    run st l = .ok st' → (st.threads t).code.left st.mem ≤ (l.filter (·.1 == t)).length →
    ∃ l1 st1, l1 <+: l ∧ run st l1 = .ok st1 ∧ st1.mem.held g ≠ some t
  | [], st, st', h, hh, _, hn => by
    have hl : (st.threads t).code.locks ≠ [] := by
      intro h0
      have := ((h.threads t).held g).1 hh
      rw [h0] at this
      cases this
    have := left_pos (m := st.mem) hl
    simp at hn
    omega
  | (u, op) :: l, st, st', h, hh, hr, hn => by
    simp only [run] at hr
    split at hr
    · rename_i st1 hs
      obtain ⟨h1, g1⟩ : StateOk st1 ∧ GuarT u st.mem st1.mem := by
        have := step_ok (t := u) (op := op) h
        rw [hs] at this
        exact this
      have hl : (st.threads t).code.locks ≠ [] := by
        intro h0
        have := ((h.threads t).held g).1 hh
        rw [h0] at this
        cases this
      by_cases hx : st1.mem.held g = some t
      · have hle : (st1.threads t).code.left st1.mem ≤ (l.filter (·.1 == t)).length := by
          by_cases hu : u = t
          · subst hu
            simp only [List.filter_cons, beq_self_eq_true, if_true, List.length_cons] at hn
            rcases step_nearer h hl hs with h2 | h2
            · have := ((h1.threads u).held g).1 hx
              rw [h2] at this
              cases this
            · omega
          · have e := step_only st1 hs t (Ne.symm hu)
            rw [e, left_guar (h.threads t) (Ne.symm hu) g1]
            simpa [List.filter_cons, hu] using hn
        obtain ⟨l1, st2, p1, p2, p3⟩ := released l h1 hx hr hle
        refine ⟨(u, op) :: l1, st2, ?_, ?_, p3⟩
        · exact List.cons_prefix_cons.2 ⟨rfl, p1⟩
        · simp only [run, hs]; exact p2
      · refine ⟨[(u, op)], st1, ?_, ?_, hx⟩
        · exact List.cons_prefix_cons.2 ⟨rfl, List.nil_prefix⟩
        · simp only [run, hs]
    · rename_i o hne
      exact absurd hr (hne _)

end Verif.Races
