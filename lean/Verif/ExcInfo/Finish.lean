import Verif.ExcInfo.Parallel
/-
Threads with copies of an `exception_info` can always finish (C149).
-/
namespace Verif.ExcInfo

/-! ### Specification -/

/-- Any number of steps of any threads. -/
inductive ParSteps (own : Sharing) : Par → Par → Prop
  | refl {s : Par} : ParSteps own s s
  | step {s s' s'' : Par} {t : Nat} {a : Option (Nat × Bool)} (hs : ParStep own s t a s') (h : ParSteps own s' s'') : ParSteps own s s''

/-! ### Proofs -/

theorem ParSteps.trans {own : Sharing} {s s' s'' : Par} (h1 : ParSteps own s s') (h2 : ParSteps own s' s'') : ParSteps own s s'' := by
  induction h1 with
  | refl => exact h2
  | step hs _ ih => exact .step hs (ih h2)

theorem ParSteps.reach {own : Sharing} {s s' : Par} (h : ParReach own s) (hs : ParSteps own s s') : ParReach own s' := by
  induction hs with
  | refl => exact h
  | step h1 _ ih => exact ih (.step h h1)

theorem countP_kill {cs : Cells} {i : Nat} {c : Counted} (h : cs[i]? = some (some c)) (b : Option Counted) :
    (cs.set i b).countP Option.isSome + 1 = cs.countP Option.isSome + if b.isSome then 1 else 0 := by
  have := (perm_set h b).countP_eq Option.isSome
  simp only [List.countP_cons, Option.isSome_some, if_true] at this
  omega

/-- What is still to be released. -/
def Par.work (s : Par) : Nat := s.refs.length + 2 * s.dying.length + 3 * s.cells.countP Option.isSome

/-- C149: from every state the threads can release all that they have in local variables and destroy what is to be destroyed, whatever the
objects are. -/
theorem C149_release {own : Sharing} (hx : own.Proper) {s : Par} (h : ParReach own s) :
    ∃ s', ParSteps own s s' ∧ s'.refs = [] ∧ s'.dying = [] ∧ s'.objs = s.objs ∧ s'.visit = s.visit := by
  generalize hn : s.work = n
  induction n using Nat.strongRecOn generalizing s with
  | _ n ih =>
    have go : ∀ {s1 : Par} {t : Nat} {a : Option (Nat × Bool)}, ParStep own s t a s1 → s1.work < s.work → s1.objs = s.objs → s1.visit = s.visit →
        ∃ s', ParSteps own s s' ∧ s'.refs = [] ∧ s'.dying = [] ∧ s'.objs = s.objs ∧ s'.visit = s.visit := by
      intro s1 t a hs hw ho hv
      obtain ⟨s', h1, h2, h3, h4, h5⟩ := ih s1.work (by omega) (.step h hs) rfl
      exact ⟨s', .step hs h1, h2, h3, h4.trans ho, h5.trans hv⟩
    cases hr : s.refs with
    | cons x l =>
      obtain ⟨t, p⟩ := x
      have hmem : (t, p) ∈ s.refs := by rw [hr]; exact List.mem_cons_self
      have hlen : (s.refs.erase (t, p)).length + 1 = s.refs.length := by
        rw [List.length_erase_of_mem hmem, hr]; simp
      cases p with
      | none => exact go (.dropNull hmem) (by simp only [Par.work]; omega) rfl rfl
      | some i =>
        obtain ⟨c, hc, hpos⟩ := (C149_safe hx h).2.1 t i hmem
        by_cases h1 : c.count = 1
        · have hk := countP_kill hc none
          simp only [Option.isSome_none] at hk
          exact go (.last hmem hc h1) (by simp only [Par.work, List.length_cons]; simp at hk; omega) rfl rfl
        · obtain ⟨k, hk⟩ : ∃ k, c.count = k + 2 := ⟨c.count - 2, by omega⟩
          have hk' := countP_kill hc (some { c with count := k + 1 })
          simp only [Option.isSome_some, if_true] at hk'
          exact go (.drop hmem hc hk) (by simp only [Par.work]; omega) rfl rfl
    | nil =>
      cases hd : s.dying with
      | nil => exact ⟨s, .refl, hr, hd, rfl, rfl⟩
      | cons x l =>
        obtain ⟨t, i, p⟩ := x
        have hmem : (t, i, p) ∈ s.dying := by rw [hd]; exact List.mem_cons_self
        have hlen : (s.dying.erase (t, i, p)).length + 1 = s.dying.length := by
          rw [List.length_erase_of_mem hmem, hd]; simp
        exact go (.destroy hmem) (by simp only [Par.work, List.length_cons]; omega) rfl rfl

theorem leave_all {own : Sharing} (hc : ∀ o, ∃ t, own.changes o t) (n : Nat) : ∀ (s : Par), s.objs.countP Option.isSome = n →
    ∃ s', ParSteps own s s' ∧ ∀ o ∈ s'.objs, o = none := by
  induction n with
  | zero =>
    intro s hn
    refine ⟨s, .refl, fun o ho => ?_⟩
    have := List.countP_eq_zero.1 hn o ho
    cases o with
    | none => rfl
    | some _ => simp at this
  | succ n ih =>
    intro s hn
    obtain ⟨x, hx, hs⟩ := List.countP_pos_iff.1 (show 0 < s.objs.countP Option.isSome by omega)
    obtain ⟨p, rfl⟩ := Option.isSome_iff_exists.1 hs
    obtain ⟨o, ho⟩ := List.mem_iff_getElem?.1 hx
    obtain ⟨t, ht⟩ := hc o
    have hstop : ParStep own s t none { s with visit := goTo s.visit t none } := .stop
    have hleave := ParStep.leave (s := { s with visit := goTo s.visit t none }) ht ho (by simp [goTo])
    have hcnt := (perm_set ho none).countP_eq Option.isSome
    simp only [List.countP_cons, Option.isSome_some, Option.isSome_none, if_true] at hcnt
    obtain ⟨s', h1, h2⟩ := ih { s with objs := s.objs.set o none, refs := (t, p) :: s.refs, visit := goTo s.visit t none } (by simp at hcnt ⊢; omega)
    exact ⟨s', .step hstop (.step hleave h1), h2⟩

/-- C149: from every state, if each object has a thread that may destroy it, the threads can go on to where all objects and all nodes are
destroyed. -/
theorem C149_finish {own : Sharing} (hx : own.Proper) (hc : ∀ o, ∃ t, own.changes o t) {s : Par} (h : ParReach own s) :
    ∃ s', ParSteps own s s' ∧ (∀ o ∈ s'.objs, o = none) ∧ s'.refs = [] ∧ s'.dying = [] ∧ ∀ c ∈ s'.cells, c = none := by
  obtain ⟨s1, h1, h2⟩ := leave_all hc _ s rfl
  obtain ⟨s2, h3, h4, h5, h6, -⟩ := C149_release hx (h1.reach h)
  have ho : ∀ o ∈ s2.objs, o = none := by rw [h6]; exact h2
  exact ⟨s2, h1.trans h3, ho, h4, h5, C149_nothing_left hx (h3.reach (h1.reach h)) ho h4 h5⟩

/-- From two objects with a common node. -/
example : ∃ s', ParSteps apart (.start pairState) s' ∧ (∀ o ∈ s'.objs, o = none) ∧ s'.refs = [] ∧ s'.dying = [] ∧ ∀ c ∈ s'.cells, c = none :=
  C149_finish (own := apart) (fun _ _ _ h1 h2 => h1.symm.trans h2) (fun o => ⟨o, rfl⟩) (.start pair_run)

end Verif.ExcInfo
