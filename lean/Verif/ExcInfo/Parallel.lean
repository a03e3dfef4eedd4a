import Verif.ExcInfo.Threads
/-
Copies of an `exception_info` in different threads, step by step: reading a pointer, changing a count and destroying a node are separate steps,
and the steps of threads interleave in any order. C146 takes each call as one step.
-/
namespace Verif.ExcInfo

/-! ### Model -/

/-- The state: nodes and objects as in `Owner.lean`; the `shared_ptr`s in local variables and parameters of each thread (exception_info.hpp:137,
147 and temporaries); the nodes whose count a thread has brought to zero and that it is about to destroy, with their `next_` (24, 30); and
where each thread is in the loops of `get` and `diagnostic_info` (191, 211): the object and the node. -/
structure Par where
  cells : Cells
  objs : List (Option (Option Nat))
  refs : List (Nat × Option Nat)
  dying : List (Nat × Nat × Option Nat)
  visit : Nat → Option (Nat × Nat)

/-- A thread goes to another place. (exception_info.hpp:191-196, 211-215) -/
def goTo (f : Nat → Option (Nat × Nat)) (t : Nat) (v : Option (Nat × Nat)) : Nat → Option (Nat × Nat) := fun u => if u = t then v else f u

/-- Which threads may use an object: `reads o t` for const member functions and copies of object `o` in thread `t` (exception_info.hpp:124,
181-217), `changes o t` for construction, destruction, assignment, moving and `set` (116-151). `unset` is left out: see `C146_race_violated`. -/
structure Sharing where
  reads : Nat → Nat → Prop
  changes : Nat → Nat → Prop

/-- A step of a thread, and the node that it accesses without synchronisation (`true`: writes). Accesses to `head_` itself are governed by `own`.
`set` is `alloc`, `acquire`, `link`, `store` and drops (exception_info.hpp:137-139); a copy of an object is `acquire`, `fresh`, `store` and a
drop (124); moving is `nothing` and `store`, then `store` (125, 128); destruction is `leave` and a drop (122); the loops are `look`, `read`, `stop`
(191-196, 211-215). The steps may come in any order, so a thread may do more than the code does. -/
inductive ParStep (own : Sharing) : Par → Nat → Option (Nat × Bool) → Par → Prop
  /-- a new object (116, 117) -/
  | fresh {s : Par} {t : Nat} (ht : own.changes s.objs.length t) : ParStep own s t none { s with objs := s.objs ++ [some none] }
  /-- a null `shared_ptr` (30, 225) -/
  | nothing {s : Par} {t : Nat} : ParStep own s t none { s with refs := (t, none) :: s.refs }
  /-- `std::make_shared` (137, 147) -/
  | alloc {s : Par} {t : Nat} (tag : Tag) (v : Val) :
    ParStep own s t none { s with cells := s.cells ++ [some ⟨tag, v, none, 1⟩], refs := (t, some s.cells.length) :: s.refs }
  /-- a copy of `head_` (124, 127, 138, 148) -/
  | acquire {s : Par} {t o : Nat} {h : Option Nat} {cs : Cells} (ht : own.reads o t) (ho : s.objs[o]? = some (some h))
    (hc : retain s.cells h = .ok cs) : ParStep own s t none { s with cells := cs, refs := (t, h) :: s.refs }
  /-- `node->next_ = ...` (138, 148) by the thread that has the only reference, to an older node -/
  | link {s : Par} {t j : Nat} {p : Option Nat} {c : Counted} (hj : (t, some j) ∈ s.refs) (hp : (t, p) ∈ s.refs)
    (hc : s.cells[j]? = some (some c)) (h1 : c.count = 1) (hlt : ∀ k, p = some k → k < j) :
    ParStep own s t (some (j, true)) { s with cells := s.cells.set j (some { c with next := p }), refs := (t, c.next) :: s.refs.erase (t, p) }
  /-- `head_ = ...` (124-128, 139, 149), not inside a loop -/
  | store {s : Par} {t o : Nat} {h p : Option Nat} (ht : own.changes o t) (ho : s.objs[o]? = some (some h)) (hp : (t, p) ∈ s.refs)
    (hv : s.visit t = none) : ParStep own s t none { s with objs := s.objs.set o (some p), refs := (t, h) :: s.refs.erase (t, p) }
  /-- the object is destroyed, its `head_` still to be released (122) -/
  | leave {s : Par} {t o : Nat} {h : Option Nat} (ht : own.changes o t) (ho : s.objs[o]? = some (some h)) (hv : s.visit t = none) :
    ParStep own s t none { s with objs := s.objs.set o none, refs := (t, h) :: s.refs }
  /-- a null `shared_ptr` is destroyed (225) -/
  | dropNull {s : Par} {t : Nat} (hr : (t, none) ∈ s.refs) : ParStep own s t none { s with refs := s.refs.erase (t, none) }
  /-- the count is lowered, atomically (225) -/
  | drop {s : Par} {t i k : Nat} {c : Counted} (hr : (t, some i) ∈ s.refs) (hc : s.cells[i]? = some (some c)) (hk : c.count = k + 2) :
    ParStep own s t none { s with cells := s.cells.set i (some { c with count := k + 1 }), refs := s.refs.erase (t, some i) }
  /-- the count becomes zero (225) -/
  | last {s : Par} {t i : Nat} {c : Counted} (hr : (t, some i) ∈ s.refs) (hc : s.cells[i]? = some (some c)) (hk : c.count = 1) :
    ParStep own s t none { s with cells := s.cells.set i none, refs := s.refs.erase (t, some i), dying := (t, i, c.next) :: s.dying }
  /-- the node is destroyed; its `next_` is to be released (24, 30) -/
  | destroy {s : Par} {t i : Nat} {p : Option Nat} (hd : (t, i, p) ∈ s.dying) :
    ParStep own s t (some (i, true)) { s with dying := s.dying.erase (t, i, p), refs := (t, p) :: s.refs }
  /-- a loop begins (191, 211) -/
  | look {s : Par} {t o i : Nat} (ht : own.reads o t) (ho : s.objs[o]? = some (some (some i))) (hv : s.visit t = none) :
    ParStep own s t none { s with visit := goTo s.visit t (some (o, i)) }
  /-- the node is read (193, 213) and the loop goes on (195, 214) -/
  | read {s : Par} {t o i : Nat} {c : Counted} (hv : s.visit t = some (o, i)) (hc : s.cells[i]? = some (some c)) :
    ParStep own s t (some (i, false)) { s with visit := goTo s.visit t (c.next.map (o, ·)) }
  /-- the loop ends (194, 198, 216) -/
  | stop {s : Par} {t : Nat} : ParStep own s t none { s with visit := goTo s.visit t none }

/-- One thread has made objects as it liked (C145), then they are handed to threads. (exception_info.hpp:113-226) -/
def Par.start (s : Own) : Par := ⟨s.cells, s.objs, [], [], fun _ => none⟩

/-- States that threads get to. (exception_info.hpp:113-226) -/
inductive ParReach (own : Sharing) : Par → Prop
  | start {ops : List OwnOp} {s : Own} {l : List Nat} (h : ownRun .empty ops = .ok (s, l)) : ParReach own (.start s)
  | step {s s' : Par} {t : Nat} {a : Option (Nat × Bool)} (h : ParReach own s) (hs : ParStep own s t a s') : ParReach own s'

/-! ### Specification -/

/-- The rule of the standard library: an object that a thread changes is used by no other. -/
def Sharing.Proper (own : Sharing) : Prop := ∀ o t u, own.changes o t → own.reads o u → t = u

/-- A thread is about to access a node, `true` for writing, whether or not the node still exists: it is there in a loop, it has the only
reference to it, or it is to destroy it. -/
inductive AboutTo (s : Par) : Nat → Nat → Bool → Prop
  | read {t o i : Nat} (h : s.visit t = some (o, i)) : AboutTo s t i false
  | link {t i : Nat} {c : Counted} (hr : (t, some i) ∈ s.refs) (hc : s.cells[i]? = some (some c)) (hk : c.count = 1) : AboutTo s t i true
  | destroy {t i : Nat} {p : Option Nat} (h : (t, i, p) ∈ s.dying) : AboutTo s t i true

/-- A data race: two threads are about to access a node, and not both reading. -/
def ParRace (s : Par) : Prop := ∃ t u i b b', t ≠ u ∧ AboutTo s t i b ∧ AboutTo s u i b' ∧ (b = true ∨ b' = true)

/-! ### Proofs -/

/-- All references from outside the nodes. -/
def outside (objs : List (Option (Option Nat))) (refs : List (Nat × Option Nat)) (dying : List (Nat × Nat × Option Nat)) : List (Option Nat) :=
  heads objs ++ (refs.map Prod.snd ++ dying.map fun d => d.2.2)

theorem outside_cons (objs : List (Option (Option Nat))) (refs : List (Nat × Option Nat)) (dying : List (Nat × Nat × Option Nat))
    (x : Nat × Option Nat) : (x.2 :: outside objs refs dying).Perm (outside objs (x :: refs) dying) := List.perm_middle.symm

theorem outside_erase (objs : List (Option (Option Nat))) {refs : List (Nat × Option Nat)} (dying : List (Nat × Nat × Option Nat))
    {x : Nat × Option Nat} (hx : x ∈ refs) : (outside objs refs dying).Perm (x.2 :: outside objs (refs.erase x) dying) := by
  have h : (refs.map Prod.snd).Perm (x.2 :: (refs.erase x).map Prod.snd) := (List.perm_cons_erase hx).map Prod.snd
  exact ((h.append_right _).append_left _).trans List.perm_middle

theorem outside_dying (objs : List (Option (Option Nat))) (refs : List (Nat × Option Nat)) {dying : List (Nat × Nat × Option Nat)}
    {x : Nat × Nat × Option Nat} (hx : x ∈ dying) : (outside objs refs dying).Perm (x.2.2 :: outside objs refs (dying.erase x)) := by
  have h : (dying.map fun d => d.2.2).Perm (x.2.2 :: (dying.erase x).map fun d => d.2.2) := (List.perm_cons_erase hx).map _
  exact (((h.append_left _).trans List.perm_middle).append_left _).trans List.perm_middle

theorem outside_die (objs : List (Option (Option Nat))) (refs : List (Nat × Option Nat)) (dying : List (Nat × Nat × Option Nat))
    (x : Nat × Nat × Option Nat) : (x.2.2 :: outside objs refs dying).Perm (outside objs refs (x :: dying)) :=
  List.perm_middle.symm.trans (List.Perm.append_left _ List.perm_middle.symm)

theorem outside_set {objs : List (Option (Option Nat))} {o : Nat} {a : Option (Option Nat)} (h : objs[o]? = some a) (b : Option (Option Nat))
    (refs : List (Nat × Option Nat)) (dying : List (Nat × Nat × Option Nat)) :
    (b.getD none :: outside objs refs dying).Perm (a.getD none :: outside (objs.set o b) refs dying) :=
  (heads_set h b).symm.append_right _

/-- The last reference is given up. -/
theorem Inv.kill {cs : Cells} {hs : List (Option Nat)} {i : Nat} (hi : Inv cs (some i :: hs)) {c : Counted} (hc : cs[i]? = some (some c))
    (hk : c.count = 1) : Inv (cs.set i none) (c.next :: hs) := by
  have hcount := hi.count i c hc
  rw [List.cons_append, List.count_cons_self] at hcount
  have hn := nexts_set hc none
  simp only [Option.bind_some, Option.bind_none] at hn
  have h0 : (hs ++ nexts cs).count (some i) = 0 := by omega
  have hall : ∀ j, (c.next :: hs ++ nexts (cs.set i none)).count (some j) = (hs ++ nexts cs).count (some j) := by
    intro j
    have h1 : (c.next :: hs ++ nexts (cs.set i none)).Perm (none :: (hs ++ nexts cs)) :=
      (List.perm_middle (l₁ := hs)).symm.trans ((hn.append_left hs).trans List.perm_middle)
    rw [h1.count_eq, List.count_cons_of_ne (by simp)]
  refine ⟨?_, ?_, ?_, ?_⟩
  · intro j c' hj
    have hji : j ≠ i := (live_kill.1 ⟨c', hj⟩).2
    rw [List.getElem?_set_ne (Ne.symm hji)] at hj
    rw [hall, hi.count j c' hj, List.cons_append, List.count_cons_of_ne (by simp [Ne.symm hji])]
  · intro j hj
    rw [← List.count_pos_iff, hall] at hj
    have hji : j ≠ i := by rintro rfl; omega
    exact live_kill.2 ⟨hi.live j (List.mem_cons_of_mem _ (List.count_pos_iff.1 hj)), hji⟩
  · intro j c' hj
    have hji : j ≠ i := (live_kill.1 ⟨c', hj⟩).2
    rw [List.getElem?_set_ne (Ne.symm hji)] at hj
    exact hi.pos j c' hj
  · intro j c' m hj
    have hji : j ≠ i := (live_kill.1 ⟨c', hj⟩).2
    rw [List.getElem?_set_ne (Ne.symm hji)] at hj
    exact hi.down j c' m hj

/-- The count is lowered. -/
theorem Inv.lower {cs : Cells} {hs : List (Option Nat)} {i k : Nat} (hi : Inv cs (some i :: hs)) {c : Counted} (hc : cs[i]? = some (some c))
    (hk : c.count = k + 2) : Inv (cs.set i (some { c with count := k + 1 })) hs := by
  have hcount := hi.count i c hc
  rw [List.cons_append, List.count_cons_self, List.count_append] at hcount
  refine hi.recount hc (by omega) (Nat.succ_pos _) fun j hj => ?_
  rw [List.count_cons_of_ne]
  simp [Ne.symm hj]

/-- The invariant. -/
structure Good (own : Sharing) (s : Par) : Prop where
  inv : Inv s.cells (outside s.objs s.refs s.dying)
  dead : ∀ d ∈ s.dying, s.cells[d.2.1]? = some none
  once : (s.dying.map fun d => d.2.1).Nodup
  led : ∀ t o i, s.visit t = some (o, i) → own.reads o t ∧ Leads ⟨s.cells, s.objs⟩ o i

theorem leads_mono {cs cs' : Cells} {objs objs' : List (Option (Option Nat))} {o i : Nat} (h : Leads ⟨cs, objs⟩ o i)
    (ho : ∀ a, objs[o]? = some a → objs'[o]? = some a)
    (hc : ∀ (j : Nat) (c : Counted), Leads ⟨cs, objs⟩ o j → cs[j]? = some (some c) → ∃ c' : Counted, cs'[j]? = some (some c') ∧ c'.next = c.next) :
    Leads ⟨cs', objs'⟩ o i := by
  induction h with
  | head h => exact .head (ho _ h)
  | next hl hk hn ih =>
    obtain ⟨c', h1, h2⟩ := hc _ _ hl hk
    exact .next ih h1 (h2.trans hn)

theorem leads_mem {cs : Cells} {objs : List (Option (Option Nat))} {o i : Nat} (h : Leads ⟨cs, objs⟩ o i) :
    some i ∈ heads objs ∨ some i ∈ nexts cs := by
  cases h with
  | head h => exact .inl (heads_mem h)
  | next _ hc hn => exact .inr (hn ▸ mem_nexts hc)

/-- A node that an object leads to and a local variable refers to has two references. -/
theorem led_count {s : Par} (hi : Inv s.cells (outside s.objs s.refs s.dying)) {t o i : Nat} {c : Counted} (hr : (t, some i) ∈ s.refs)
    (hc : s.cells[i]? = some (some c)) (hl : Leads ⟨s.cells, s.objs⟩ o i) : c.count ≠ 1 := by
  have h := hi.count i c hc
  simp only [outside, List.count_append] at h
  have h1 : 0 < (s.refs.map Prod.snd).count (some i) := List.count_pos_iff.2 (List.mem_map.2 ⟨_, hr, rfl⟩)
  rcases leads_mem hl with h2 | h2
  · have := List.count_pos_iff.2 h2; omega
  · have := List.count_pos_iff.2 h2; omega

/-- A node that local variables of two threads refer to has two references. -/
theorem refs_two {s : Par} (hi : Inv s.cells (outside s.objs s.refs s.dying)) {t u i : Nat} {c : Counted} (htu : t ≠ u)
    (h1 : (t, some i) ∈ s.refs) (h2 : (u, some i) ∈ s.refs) (hc : s.cells[i]? = some (some c)) : c.count ≠ 1 := by
  intro hk
  have hcount := hi.count i c hc
  have e := (List.perm_cons_erase h1).map Prod.snd
  have h2' : (u, some i) ∈ s.refs.erase (t, some i) := (List.mem_erase_of_ne (by simp [Ne.symm htu])).2 h2
  have h3 : 0 < ((s.refs.erase (t, some i)).map Prod.snd).count (some i) := List.count_pos_iff.2 (List.mem_map.2 ⟨_, h2', rfl⟩)
  simp only [outside, List.count_append] at hcount
  rw [e.count_eq, List.map_cons, List.count_cons_self] at hcount
  omega

theorem leads_live {own : Sharing} {s : Par} (h : Good own s) {o i : Nat} (hl : Leads ⟨s.cells, s.objs⟩ o i) : Live s.cells i := by
  refine h.inv.live i ?_
  rcases leads_mem hl with h1 | h1
  · exact List.mem_append.2 (.inl (List.mem_append.2 (.inl h1)))
  · exact List.mem_append.2 (.inr h1)

theorem get_set_none {cs : Cells} {i j : Nat} {b : Option Counted} (h : cs[i]? = some none)  (hj : Live cs j) : (cs.set j b)[i]? = some none := by
  have : j ≠ i := by rintro rfl; obtain ⟨c, hc⟩ := hj; rw [h] at hc; cases hc
  rw [List.getElem?_set_ne this]; exact h

theorem good_start {own : Sharing} {ops : List OwnOp} {s : Own} {l : List Nat} (h : ownRun .empty ops = .ok (s, l)) : Good own (.start s) := by
  obtain ⟨w, -, h1, -⟩ := own_rel h
  exact ⟨by simpa [Par.start, outside] using h1.inv, by simp [Par.start], by simp [Par.start], by simp [Par.start]⟩

theorem good_step {own : Sharing} (hx : own.Proper) {s s' : Par} {t : Nat} {a : Option (Nat × Bool)} (h : Good own s) (hs : ParStep own s t a s') :
    Good own s' := by
  cases hs with
  | fresh ht =>
    refine ⟨?_, h.dead, h.once, fun u o i hu => ⟨(h.led u o i hu).1, leads_mono (h.led u o i hu).2 (fun _ => get_of_add) fun j c _ hc => ⟨c, hc, rfl⟩⟩⟩
    exact h.inv.null.perm ((heads_add s.objs (some none)).append_right _)
  | nothing => exact ⟨h.inv.null.perm (outside_cons _ _ _ (t, none)), h.dead, h.once, h.led⟩
  | alloc tag v =>
    refine ⟨(h.inv.alloc tag v).perm (outside_cons _ _ _ (t, some s.cells.length)), fun d hd => get_of_add (h.dead d hd), h.once, fun u o i hu =>
      ⟨(h.led u o i hu).1, leads_mono (h.led u o i hu).2 (fun _ h => h) fun j c _ hc => ⟨c, get_of_add hc, rfl⟩⟩⟩
  | @acquire o p cs ht ho hc =>
    have hfit : ∀ i, p = some i → Live s.cells i := fun i hi =>
      h.inv.live i (List.mem_append.2 (.inl (List.mem_append.2 (.inl (hi ▸ heads_mem ho)))))
    obtain ⟨cs', h1, h2, h3, h4⟩ := retain_ok h.inv hfit
    rw [hc] at h1; cases h1
    refine ⟨h2.perm (outside_cons _ _ _ (t, p)), fun d hd => ?_, h.once, fun u o' i hu => ⟨(h.led u o' i hu).1, ?_⟩⟩
    · have hd' := h.dead d hd
      have hlt : d.2.1 < cs.length := by rw [h3.len]; exact (List.getElem?_eq_some_iff.1 hd').1
      cases hq : cs[d.2.1]? with
      | none => exact absurd (List.getElem?_eq_none_iff.1 hq) (by omega)
      | some q =>
        cases q with
        | none => rfl
        | some c =>
          obtain ⟨c', hc', -⟩ := h3.same _ c hq
          rw [hd'] at hc'; cases hc'
    · refine leads_mono (h.led u o' i hu).2 (fun _ h => h) fun j c _ hj => ?_
      obtain ⟨c', hc'⟩ := (h4 j).2 ⟨c, hj⟩
      obtain ⟨c'', e1, -, -, e2⟩ := h3.same j c' hc'
      rw [hj] at e1; cases e1
      exact ⟨c', hc', e2⟩
  | @link j p c hj hp hc h1 hlt =>
    have hi := (h.inv.perm (outside_erase s.objs s.dying hp)).relink hc hlt
    refine ⟨hi.perm (outside_cons _ _ _ (t, c.next)), fun d hd => get_set_none (h.dead d hd) ⟨c, hc⟩, h.once,
      fun u o i hu => ⟨(h.led u o i hu).1, leads_mono (h.led u o i hu).2 (fun _ h => h) fun k ck hl hk => ?_⟩⟩
    have : j ≠ k := by
      rintro rfl
      exact led_count h.inv hj hc hl h1
    exact ⟨ck, by rw [List.getElem?_set_ne this]; exact hk, rfl⟩
  | @store o q p ht ho hp hv =>
    refine ⟨?_, h.dead, h.once, fun u o' i hu => ⟨(h.led u o' i hu).1, ?_⟩⟩
    · have e := (outside_erase s.objs s.dying hp).trans (outside_set ho (some p) (s.refs.erase (t, p)) s.dying)
      exact (h.inv.perm e).perm (outside_cons _ _ _ (t, q))
    · have hne : o' ≠ o := by
        rintro rfl
        have := hx o' t u ht (h.led u o' i hu).1
        subst this
        rw [hv] at hu; cases hu
      exact leads_mono (h.led u o' i hu).2 (fun _ ha => get_of_set ha hne) fun j c _ hc => ⟨c, hc, rfl⟩
  | @leave o q ht ho hv =>
    refine ⟨?_, h.dead, h.once, fun u o' i hu => ⟨(h.led u o' i hu).1, ?_⟩⟩
    · exact (h.inv.null.perm (outside_set ho none s.refs s.dying)).perm (outside_cons _ _ _ (t, q))
    · have hne : o' ≠ o := by
        rintro rfl
        have := hx o' t u ht (h.led u o' i hu).1
        subst this
        rw [hv] at hu; cases hu
      exact leads_mono (h.led u o' i hu).2 (fun _ ha => get_of_set ha hne) fun j c _ hc => ⟨c, hc, rfl⟩
  | dropNull hr => exact ⟨(h.inv.perm (outside_erase s.objs s.dying hr)).drop, h.dead, h.once, h.led⟩
  | @drop i k c hr hc hk =>
    refine ⟨(h.inv.perm (outside_erase s.objs s.dying hr)).lower hc hk, fun d hd => get_set_none (h.dead d hd) ⟨c, hc⟩, h.once,
      fun u o j hu => ⟨(h.led u o j hu).1, leads_mono (h.led u o j hu).2 (fun _ h => h) fun m cm _ hm => ?_⟩⟩
    by_cases e : i = m
    · subst e
      rw [hc] at hm; cases hm
      exact ⟨_, set_get hc, rfl⟩
    · exact ⟨cm, by rw [List.getElem?_set_ne e]; exact hm, rfl⟩
  | @last i c hr hc hk =>
    refine ⟨((h.inv.perm (outside_erase s.objs s.dying hr)).kill hc hk).perm (outside_die _ _ _ (t, i, c.next)), fun d hd => ?_, ?_,
      fun u o j hu => ⟨(h.led u o j hu).1, leads_mono (h.led u o j hu).2 (fun _ h => h) fun m cm hl hm => ?_⟩⟩
    · rcases List.mem_cons.1 hd with rfl | hd
      · simp only [List.getElem?_set, if_pos (live_lt ⟨c, hc⟩), if_true]
      · exact get_set_none (h.dead d hd) ⟨c, hc⟩
    · refine List.nodup_cons.2 ⟨fun hm => ?_, h.once⟩
      obtain ⟨d, hd, e⟩ := List.mem_map.1 hm
      have := h.dead d hd
      simp only at e
      rw [e, hc] at this; cases this
    · have : i ≠ m := by
        rintro rfl
        exact led_count h.inv hr hc hl hk
      exact ⟨cm, by rw [List.getElem?_set_ne this]; exact hm, rfl⟩
  | @destroy i p hd =>
    refine ⟨(h.inv.perm (outside_dying s.objs s.refs hd)).perm (outside_cons _ _ _ (t, p)), fun d hd' => h.dead d (List.mem_of_mem_erase hd'), ?_, h.led⟩
    exact h.once.sublist ((List.erase_sublist).map _)
  | @look o i ht ho hv =>
    refine ⟨h.inv, h.dead, h.once, fun u o' j hu => ?_⟩
    simp only [goTo] at hu
    split at hu
    · rename_i e; subst e; cases hu; exact ⟨ht, .head ho⟩
    · exact h.led u o' j hu
  | @read o i c hv hc =>
    refine ⟨h.inv, h.dead, h.once, fun u o' j hu => ?_⟩
    simp only [goTo] at hu
    split at hu
    · rename_i e; subst e
      obtain ⟨k, hk, e⟩ := Option.map_eq_some_iff.1 hu
      cases e
      have := h.led u o i hv
      exact ⟨this.1, .next this.2 hc hk⟩
    · exact h.led u o' j hu
  | stop =>
    refine ⟨h.inv, h.dead, h.once, fun u o' j hu => ?_⟩
    simp only [goTo] at hu
    split at hu
    · cases hu
    · exact h.led u o' j hu

theorem good_reach {own : Sharing} (hx : own.Proper) {s : Par} (h : ParReach own s) : Good own s := by
  induction h with
  | start h => exact good_start h
  | step _ hs ih => exact good_step hx ih hs

/-! ### C149 -/

/-- C149: `AboutTo` covers all accesses that steps make. -/
theorem C149_covers {own : Sharing} {s s' : Par} {t i : Nat} {b : Bool} (hs : ParStep own s t (some (i, b)) s') : AboutTo s t i b := by
  cases hs with
  | link hj hp hc h1 hlt => exact .link hj hc h1
  | destroy hd => exact .destroy hd
  | read hv hc => exact .read hv

/-- C149: threads that change only objects of their own never race, whatever was copied from what before, however their steps interleave: no
node is destroyed or linked by one while another can access it. -/
theorem C149_no_race {own : Sharing} (hx : own.Proper) {s : Par} (h : ParReach own s) : ¬ ParRace s := by
  have hg := good_reach hx h
  have one : ∀ {t u i : Nat} {b b' : Bool}, t ≠ u → AboutTo s t i b → AboutTo s u i b' → b = true → False := by
    intro t u i b b' htu h1 h2 hb
    cases h1 with
    | read h => cases hb
    | link hr hc hk =>
      cases h2 with
      | read hv => exact led_count hg.inv hr hc (hg.led u _ i hv).2 hk
      | link hr' _ _ => exact refs_two hg.inv htu hr hr' hc hk
      | destroy hd => have := hg.dead _ hd; rw [hc] at this; cases this
    | destroy hd =>
      have hdead : s.cells[i]? = some none := hg.dead _ hd
      cases h2 with
      | read hv =>
        obtain ⟨c, hc⟩ := leads_live hg (hg.led u _ i hv).2
        rw [hdead] at hc; cases hc
      | link _ hc' _ => rw [hdead] at hc'; cases hc'
      | @destroy _ q hd' =>
        have hp := List.perm_cons_erase hd
        have hn := (hp.map fun d => d.2.1).nodup_iff.1 hg.once
        rw [List.map_cons, List.nodup_cons] at hn
        exact hn.1 (List.mem_map.2 ⟨(u, i, q), (List.mem_erase_of_ne (by simp [Ne.symm htu])).2 hd', rfl⟩)
  rintro ⟨t, u, i, b, b', htu, h1, h2, hb | hb⟩
  · exact one htu h1 h2 hb
  · exact one (Ne.symm htu) h2 h1 hb

/-- C149: every node that a thread visits or refers to exists, so its next step is defined: it can read the node, and it can lower the
count, to zero exactly if it has the last reference. -/
theorem C149_safe {own : Sharing} (hx : own.Proper) {s : Par} (h : ParReach own s) :
    (∀ t o i, s.visit t = some (o, i) → ∃ s', ParStep own s t (some (i, false)) s') ∧
    (∀ t i, (t, some i) ∈ s.refs → ∃ c, s.cells[i]? = some (some c) ∧ 0 < c.count) ∧
    ∀ (o : Nat) (p : Option Nat), s.objs[o]? = some (some p) → ∃ cs, retain s.cells p = .ok cs := by
  have hg := good_reach hx h
  refine ⟨fun t o i hv => ?_, fun t i hr => ?_, fun o p ho => ?_⟩
  · obtain ⟨c, hc⟩ := leads_live hg (hg.led t o i hv).2
    exact ⟨_, .read hv hc⟩
  · have : Live s.cells i := hg.inv.live i (List.mem_append.2 (.inl (List.mem_append.2 (.inr (List.mem_append.2 (.inl
      (List.mem_map.2 ⟨_, hr, rfl⟩)))))))
    obtain ⟨c, hc⟩ := this
    exact ⟨c, hc, hg.inv.pos i c hc⟩
  · obtain ⟨cs, hc, -⟩ := retain_ok hg.inv (p := p) fun i hi =>
      hg.inv.live i (List.mem_append.2 (.inl (List.mem_append.2 (.inl (hi ▸ heads_mem ho)))))
    exact ⟨cs, hc⟩

/-- C149: a node to which one thread has the only reference, as to the one that `set` has made, stays as it is whatever other threads do: so
`set` finds the count that `link` requires. -/
theorem C149_private {own : Sharing} (hx : own.Proper) {s s' : Par} (h : ParReach own s) {t u j : Nat} {a : Option (Nat × Bool)} {c : Counted}
    (htu : t ≠ u) (hs : ParStep own s u a s') (hr : (t, some j) ∈ s.refs) (hc : s.cells[j]? = some (some c)) (hk : c.count = 1) :
    (t, some j) ∈ s'.refs ∧ s'.cells[j]? = some (some c) := by
  have hi := (good_reach hx h).inv
  have other : ∀ {k : Nat}, (u, some k) ∈ s.refs → k ≠ j := by
    rintro k hu rfl
    exact refs_two hi htu hr hu hc hk
  have keep : ∀ (p : Option Nat), (t, some j) ∈ s.refs.erase (u, p) := fun p => (List.mem_erase_of_ne (by simp [htu])).2 hr
  cases hs with
  | fresh => exact ⟨hr, hc⟩
  | nothing => exact ⟨List.mem_cons_of_mem _ hr, hc⟩
  | alloc => exact ⟨List.mem_cons_of_mem _ hr, get_of_add hc⟩
  | @acquire o p cs ht ho hret =>
    refine ⟨List.mem_cons_of_mem _ hr, ?_⟩
    cases p with
    | none => simp only [retain] at hret; cases hret; exact hc
    | some k =>
      have hkj : k ≠ j := by
        rintro rfl
        exact led_count hi hr hc (.head ho) hk
      simp only [retain] at hret
      cases hd : deref s.cells k with
      | error e => rw [hd] at hret; cases hret
      | ok ck => rw [hd] at hret; cases hret; exact (List.getElem?_set_ne hkj).trans hc
  | link hj hp hc' h1 hlt => exact ⟨List.mem_cons_of_mem _ (keep _), (List.getElem?_set_ne (other hj)).trans hc⟩
  | store => exact ⟨List.mem_cons_of_mem _ (keep _), hc⟩
  | leave => exact ⟨List.mem_cons_of_mem _ hr, hc⟩
  | dropNull => exact ⟨keep _, hc⟩
  | drop hu => exact ⟨keep _, (List.getElem?_set_ne (other hu)).trans hc⟩
  | last hu => exact ⟨keep _, (List.getElem?_set_ne (other hu)).trans hc⟩
  | destroy => exact ⟨List.mem_cons_of_mem _ hr, hc⟩
  | look => exact ⟨hr, hc⟩
  | read => exact ⟨hr, hc⟩
  | stop => exact ⟨hr, hc⟩

/-- C149: a node is destroyed by one thread only. -/
theorem C149_once {own : Sharing} (hx : own.Proper) {s : Par} (h : ParReach own s) : (s.dying.map fun d => d.2.1).Nodup ∧
    ∀ d ∈ s.dying, ¬ Live s.cells d.2.1 := by
  have hg := good_reach hx h
  refine ⟨hg.once, fun d hd => ?_⟩
  rintro ⟨c, hc⟩
  rw [hg.dead d hd] at hc; cases hc

/-- C149: when all objects are destroyed and all threads are done no node is left. -/
theorem C149_nothing_left {own : Sharing} (hx : own.Proper) {s : Par} (h : ParReach own s) (ho : ∀ o ∈ s.objs, o = none) (hr : s.refs = []) (hd : s.dying = []) :
    ∀ c ∈ s.cells, c = none := by
  have hg := good_reach hx h
  have hh : ∀ i, some i ∉ outside s.objs s.refs s.dying := by
    intro i hi
    rw [hr, hd] at hi
    simp only [outside, List.map_nil, List.append_nil, heads, List.mem_map] at hi
    obtain ⟨x, hx, e⟩ := hi
    rw [ho x hx] at e; cases e
  have key : ∀ (n i : Nat), s.cells.length - i = n → ¬ Live s.cells i := by
    intro n
    induction n using Nat.strongRecOn with
    | _ n ih =>
      rintro i hn ⟨c, hc⟩
      have hp := hg.inv.pos i c hc
      rw [hg.inv.count i c hc] at hp
      rcases List.mem_append.1 (List.count_pos_iff.1 hp) with h1 | h1
      · exact hh i h1
      · simp only [nexts, List.mem_map] at h1
        obtain ⟨x, hx, e⟩ := h1
        cases x with
        | none => cases e
        | some cx =>
          obtain ⟨k, hk⟩ := List.mem_iff_getElem?.1 hx
          have h2 := hg.inv.down k cx i hk e
          have h3 := live_lt ⟨cx, hk⟩
          exact ih (s.cells.length - k) (by omega) k rfl ⟨cx, hk⟩
  intro c hc
  cases c with
  | none => rfl
  | some c =>
    obtain ⟨i, hi⟩ := List.mem_iff_getElem?.1 hc
    exact absurd ⟨c, hi⟩ (key _ i rfl)

/-! ### Cases -/

/-- Object 0 for thread 0, object 1 for thread 1. -/
def apart : Sharing := ⟨fun o t => o = t, fun o t => o = t⟩

example : apart.Proper := fun _ _ _ h1 h2 => h1.symm.trans h2

/-- Objects that are only read may be shared. -/
example : (⟨fun _ _ => True, fun _ _ => False⟩ : Sharing).Proper := fun _ _ _ h _ => h.elim

/-- Two objects with the same node. -/
def pairState : Own := ⟨[some ⟨0, 5, none, 2⟩], [some (some 0), some (some 0)]⟩

theorem pair_run : ownRun .empty [.plain .new, .plain (.set 0 0 5), .plain (.copy 0)] = .ok (pairState, []) := rfl

/-- Thread 0 is reading the node, and thread 1 has destroyed its copy meanwhile. -/
example : ∃ s, ParReach apart s ∧ s.visit 0 = some (0, 0) ∧ s.objs = [some (some 0), none] ∧ s.refs = [] ∧
    s.cells = [some ⟨0, 5, none, 1⟩] :=
  ⟨_, .step (.step (.step (.start pair_run) (.look (t := 0) (o := 0) (i := 0) rfl rfl rfl))
    (.leave (t := 1) (o := 1) (h := some 0) rfl rfl rfl))
    (.drop (t := 1) (i := 0) (k := 0) (c := ⟨0, 5, none, 2⟩) (by simp) rfl rfl), rfl, rfl, rfl, rfl⟩

/-- One object with a node. -/
def soloState : Own := ⟨[some ⟨0, 5, none, 1⟩], [some (some 0)]⟩

theorem solo_run : ownRun .empty [.plain .new, .plain (.set 0 0 5)] = .ok (soloState, []) := rfl

/-- C149: without the rule there is a race: thread 0 reads the node of an object that thread 1 is destroying. -/
theorem C149_shared_violated : ∃ s, ParReach ⟨fun _ _ => True, fun _ _ => True⟩ s ∧ ParRace s :=
  ⟨_, .step (.step (.step (.start solo_run) (.look (t := 0) (o := 0) (i := 0) trivial rfl rfl))
    (.leave (t := 1) (o := 0) (h := some 0) trivial rfl rfl))
    (.last (t := 1) (i := 0) (c := ⟨0, 5, none, 1⟩) (by simp) rfl rfl),
    0, 1, 0, false, true, by decide, .read (o := 0) rfl, .destroy (p := none) (by simp), .inr rfl⟩

end Verif.ExcInfo
