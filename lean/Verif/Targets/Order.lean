import Verif.Targets.Exec
import Verif.Targets.Spec
/-
Proofs for the order in which mutexes are locked during destruction.
-/
namespace Verif.Targets

/-! ### The graph only shrinks -/

structure Less (w' w : World) : Prop where
  slots : ∀ (s : SlotId) (x' : Slot), w'.slots[s]? = some x' → ∃ x : Slot, w.slots[s]? = some x ∧
    (∀ o, o ∈ x'.owns → o ∈ x.owns) ∧ (∀ g, x'.sender = some g → x.sender = some g)
  sigs : ∀ (g : SigId) (y' : Sig), w'.sigs[g]? = some y' → ∃ y : Sig, w.sigs[g]? = some y ∧
    (∀ s, s ∈ y'.slots → s ∈ y.slots) ∧ y'.emitting ≤ y.emitting

theorem Less.refl (w : World) : Less w w :=
  ⟨fun _ x' h => ⟨x', h, fun _ h => h, fun _ h => h⟩, fun _ y' h => ⟨y', h, fun _ h => h, Nat.le_refl _⟩⟩

theorem Less.trans {a b c : World} (h1 : Less a b) (h2 : Less b c) : Less a c := by
  refine ⟨fun s x' h => ?_, fun g y' h => ?_⟩
  · obtain ⟨x, hx, ho, hs⟩ := h1.slots s x' h
    obtain ⟨z, hz, ho', hs'⟩ := h2.slots s x hx
    exact ⟨z, hz, fun o h => ho' o (ho o h), fun g h => hs' g (hs g h)⟩
  · obtain ⟨y, hy, ho, he⟩ := h1.sigs g y' h
    obtain ⟨z, hz, ho', he'⟩ := h2.sigs g y hy
    exact ⟨z, hz, fun o h => ho' o (ho o h), Nat.le_trans he he'⟩

theorem less_slot {w : World} {s : SlotId} {x x' : Slot} (h : w.slots[s]? = some x)
    (ho : ∀ o, o ∈ x'.owns → o ∈ x.owns) (hs : ∀ g, x'.sender = some g → x.sender = some g) :
    Less (w.setSlot s x') w := by
  refine ⟨fun t z hz => ?_, (Less.refl w).sigs⟩
  have hz' : (w.slots.set s x')[t]? = some z := hz
  rw [getElem?_set_some h] at hz'
  split at hz'
  · rename_i hst; subst hst; cases hz'; exact ⟨x, h, ho, hs⟩
  · exact (Less.refl w).slots t z hz'

theorem less_sig {w : World} {g : SigId} {y y' : Sig} (h : w.sigs[g]? = some y)
    (ho : ∀ s, s ∈ y'.slots → s ∈ y.slots) (he : y'.emitting ≤ y.emitting) : Less (w.setSig g y') w := by
  refine ⟨(Less.refl w).slots, fun k z hz => ?_⟩
  have hz' : (w.sigs.set g y')[k]? = some z := hz
  rw [getElem?_set_some h] at hz'
  split at hz'
  · rename_i hst; subst hst; cases hz'; exact ⟨y, h, ho, he⟩
  · exact (Less.refl w).sigs k z hz'

/-- A slot loses its sender, then a signal changes. -/
theorem less_both {w : World} {s : SlotId} {x : Slot} {g : SigId} {y y' : Sig} (hx : w.slots[s]? = some x)
    (hy : w.sigs[g]? = some y) (ho : ∀ s, s ∈ y'.slots → s ∈ y.slots) (he : y'.emitting ≤ y.emitting) :
    Less ((w.setSlot s { x with sender := none }).setSig g y') w :=
  (less_sig (w := w.setSlot s { x with sender := none }) hy ho he).trans
    (less_slot hx (fun _ h => h) (fun _ h => by cases h))

theorem step_less {w w' : World} {a : Act} {new : List Act} (h : step w a = .ok (w', new)) : Less w' w := by
  cases a with
  | release s =>
    simp only [step, release] at h
    split at h
    · cases h
    · rename_i x hx
      have ⟨h1, h2⟩ := slot?_some.1 hx
      split at h
      · cases h
        have := less_slot (x' := ⟨0, none, []⟩) h1 (fun _ h => by cases h) (fun _ h => by cases h)
        exact ⟨this.slots, this.sigs⟩
      · cases h
        exact less_slot h1 (fun _ h => h) (fun _ h => h)
  | drop o =>
    cases o with
    | conn s => simp only [step, drop] at h; cases h; exact Less.refl w
    | guard s => simp only [step, drop] at h; cases h; exact Less.refl w
    | sig g =>
      simp only [step, drop] at h
      split at h
      · cases h
      · rename_i y hy
        split at h
        · cases h
        · split at h
          · cases h
          · split at h
            · cases h
            · cases h; exact less_sig hy (fun _ h => h) (Nat.le_refl _)
  | disconnect s =>
    simp only [step, disconnect] at h
    split at h
    · cases h
    · rename_i x hx
      have ⟨h1, h2⟩ := slot?_some.1 hx
      split at h
      · cases h; exact Less.refl w
      · split at h
        · cases h
        · rename_i y hy
          split at h
          · cases h
          · split at h
            · cases h
            · split at h
              · split at h
                · cases h; exact less_both h1 hy (fun _ h => List.mem_of_mem_erase h) (Nat.le_refl _)
                · cases h; exact less_both h1 hy (fun _ h => h) (Nat.le_refl _)
              · cases h; exact less_both h1 hy (fun _ h => h) (Nat.le_refl _)
  | unlock g =>
    simp only [step, unlock] at h
    split at h
    · cases h
    · rename_i y hy
      cases h; exact less_sig hy (fun _ h => h) (Nat.le_refl _)
  | purge g =>
    simp only [step, purge] at h
    split at h
    · cases h
    · rename_i y hy
      split at h
      · cases h; exact less_sig hy (fun _ h => h) (Nat.le_refl _)
      · rename_i s more hs
        split at h
        · cases h
        · rename_i x hx
          have ⟨h1, h2⟩ := slot?_some.1 hx
          cases h
          exact less_both h1 hy (fun _ h => by rw [hs]; exact List.mem_cons_of_mem _ h) (Nat.le_refl _)
  | clean g k =>
    simp only [step, clean] at h
    split at h
    · cases h
    · rename_i y hy
      split at h
      · cases h; exact less_sig hy (fun _ h => h) (Nat.le_refl _)
      · split at h
        · cases h
        · split at h
          · cases h; exact Less.refl w
          · cases h; exact less_sig hy (fun _ h => List.mem_of_mem_eraseIdx h) (Nat.le_refl _)

theorem edge_less {w' w : World} (hl : Less w' w) {a b : Node} (h : Edge w' a b) : Edge w a b := by
  cases h with
  | owns h1 h2 => obtain ⟨x, hx, ho, _⟩ := hl.slots _ _ h1; exact .owns hx (ho _ h2)
  | conn => exact .conn
  | guard => exact .guard
  | leave h1 h2 => obtain ⟨x, hx, _, hs⟩ := hl.slots _ _ h1; exact .leave hx (hs _ h2)
  | sig => exact .sig
  | listed h1 h2 => obtain ⟨y, hy, ho, _⟩ := hl.sigs _ _ h1; exact .listed hy (ho _ h2)

theorem leads_less {w' w : World} (hl : Less w' w) {a b : Node} (h : Leads w' a b) : Leads w a b := by
  induction h with
  | refl a => exact .refl a
  | step h1 _ ih => exact .step (edge_less hl h1) ih

theorem layered_less {w' w : World} (hl : Less w' w) (h : Layered w) : Layered w' := by
  intro g y' s hy hs hlead
  obtain ⟨y, hy2, ho, _⟩ := hl.sigs g y' hy
  exact h g y s hy2 (ho s hs) (leads_less hl hlead)

theorem idle_less {w' w : World} (hl : Less w' w) (h : Idle w) : Idle w' := by
  intro g y' hy
  obtain ⟨y, hy2, _, he⟩ := hl.sigs g y' hy
  have := h g y hy2
  omega

theorem noSigs_less {w' w : World} (hl : Less w' w) (h : NoSigs w) : NoSigs w' := by
  intro s x' hx g hg
  obtain ⟨x, hx2, ho, _⟩ := hl.slots s x' hx
  exact h s x hx2 g (ho _ hg)

/-! ### What an action can lock -/

def Touches (w : World) (g : SigId) : Act → Prop
  | .release s => Leads w (.target s) (.lock g)
  | .drop o => Leads w (.owned o) (.lock g)
  | .disconnect s => Leads w (.owned (.guard s)) (.lock g)
  | .unlock _ => False
  | .purge h | .clean h _ => ∃ (y : Sig) (s : SlotId), w.sigs[h]? = some y ∧ s ∈ y.slots ∧ Leads w (.target s) (.lock g)

theorem touches_less {w' w : World} (hl : Less w' w) {g : SigId} {a : Act} (h : Touches w' g a) : Touches w g a := by
  cases a with
  | release s => exact leads_less hl h
  | drop o => exact leads_less hl h
  | disconnect s => exact leads_less hl h
  | unlock k => exact h
  | purge k =>
    obtain ⟨y, s, hy, hs, hlead⟩ := h
    obtain ⟨z, hz, ho, _⟩ := hl.sigs _ _ hy
    exact ⟨z, s, hz, ho s hs, leads_less hl hlead⟩
  | clean k i =>
    obtain ⟨y, s, hy, hs, hlead⟩ := h
    obtain ⟨z, hz, ho, _⟩ := hl.sigs _ _ hy
    exact ⟨z, s, hz, ho s hs, leads_less hl hlead⟩

/-- Nothing above the end of a critical section locks its mutex. -/
def Ordered (w : World) (acts : List Act) : Prop :=
  acts.Pairwise fun a b => ∀ g, Act.unlocks g b ≠ 0 → ¬ Touches w g a

theorem ordered_less {w' w : World} (hl : Less w' w) {acts : List Act} (h : Ordered w acts) : Ordered w' acts :=
  h.imp fun h g hg ht => h g hg (touches_less hl ht)

/-- What an action entails locks nothing that the action does not, and is in order. -/
theorem step_touches {w w' : World} {a : Act} {new : List Act} (hla : Layered w) (h : step w a = .ok (w', new)) :
    (∀ b, b ∈ new → ∀ g, Touches w g b → Touches w g a) ∧ Ordered w new := by
  cases a with
  | release s =>
    simp only [step, release] at h
    split at h
    · cases h
    · rename_i x hx
      have ⟨h1, h2⟩ := slot?_some.1 hx
      split at h
      · cases h
        refine ⟨?_, ?_⟩
        · intro b hb g ht
          obtain ⟨o, ho, rfl⟩ := List.mem_map.1 hb
          exact .step (.owns h1 ho) ht
        · unfold Ordered
          rw [List.pairwise_map]
          exact List.pairwise_of_forall (fun _ _ _ h => absurd rfl h)
      · cases h; exact ⟨fun _ h => by simp at h, .nil⟩
  | drop o =>
    cases o with
    | conn s =>
      simp only [step, drop] at h
      cases h
      refine ⟨?_, .cons (fun _ h => by simp at h) .nil⟩
      intro b hb g ht
      simp only [List.mem_singleton] at hb
      subst hb
      exact .step .conn ht
    | guard s =>
      simp only [step, drop] at h
      cases h
      refine ⟨?_, .cons (fun b hb g hg => ?_) (.cons (fun _ h => by simp at h) .nil)⟩
      · intro b hb g ht
        simp only [List.mem_cons, List.mem_nil_iff, or_false] at hb
        rcases hb with rfl | rfl
        · exact ht
        · exact .step .guard ht
      · simp only [List.mem_singleton] at hb
        subst hb
        exact absurd rfl hg
    | sig k =>
      simp only [step, drop] at h
      split at h
      · cases h
      · rename_i y hy
        split at h
        · cases h
        · split at h
          · cases h
          · split at h
            · cases h
            · cases h
              refine ⟨?_, .cons (fun _ h => by simp at h) .nil⟩
              intro b hb g ht
              simp only [List.mem_singleton] at hb
              subst hb
              obtain ⟨z, s, hz, hs, hlead⟩ := ht
              exact .step (.listed hz hs) hlead
  | disconnect s =>
    simp only [step, disconnect] at h
    split at h
    · cases h
    · rename_i x hx
      have ⟨h1, h2⟩ := slot?_some.1 hx
      split at h
      · cases h; exact ⟨fun _ h => by simp at h, .nil⟩
      · rename_i k hk
        split at h
        · cases h
        · rename_i y hy
          split at h
          · cases h
          · split at h
            · cases h
            · have hun : (∀ b, b ∈ [Act.unlock k] → ∀ g, Touches w g b → Touches w g (.disconnect s)) ∧
                  Ordered w [Act.unlock k] := by
                refine ⟨?_, .cons (fun _ h => by simp at h) .nil⟩
                intro b hb g ht
                simp only [List.mem_singleton] at hb
                subst hb
                exact ht.elim
              split at h
              · rename_i hm
                split at h
                · cases h
                  refine ⟨?_, .cons (fun b hb g hg => ?_) hun.2⟩
                  · intro b hb g ht
                    rcases List.mem_cons.1 hb with rfl | hb
                    · exact .step .guard ht
                    · exact hun.1 b hb g ht
                  · simp only [List.mem_singleton] at hb
                    subst hb
                    simp only [Act.unlocks] at hg
                    have hkg : k = g := by
                      by_cases h : k = g
                      · exact h
                      · simp [h] at hg
                    subst hkg
                    exact hla k y s hy hm
                · cases h; exact hun
              · cases h; exact hun
  | unlock k =>
    simp only [step, unlock] at h
    split at h
    · cases h
    · cases h; exact ⟨fun _ h => by simp at h, .nil⟩
  | purge k =>
    simp only [step, purge] at h
    split at h
    · cases h
    · rename_i y hy
      split at h
      · cases h; exact ⟨fun _ h => by simp at h, .nil⟩
      · rename_i s more hs
        have hm : s ∈ y.slots := by rw [hs]; exact List.mem_cons_self
        split at h
        · cases h
        · cases h
          refine ⟨?_, .cons (fun b hb g hg => ?_) (.cons (fun _ h => by simp at h) .nil)⟩
          · intro b hb g ht
            simp only [List.mem_cons, List.mem_nil_iff, or_false] at hb
            rcases hb with rfl | rfl
            · exact ⟨y, s, hy, hm, ht⟩
            · exact ht
          · simp only [List.mem_singleton] at hb
            subst hb
            simp only [Act.unlocks] at hg
            have hkg : k = g := by
              by_cases h : k = g
              · exact h
              · simp [h] at hg
            subst hkg
            exact hla k y s hy hm
  | clean k i =>
    simp only [step, clean] at h
    split at h
    · cases h
    · rename_i y hy
      split at h
      · cases h; exact ⟨fun _ h => by simp at h, .nil⟩
      · rename_i s hs
        have hm : s ∈ y.slots := List.mem_of_getElem? hs
        split at h
        · cases h
        · split at h
          · cases h
            refine ⟨?_, .cons (fun _ h => by simp at h) .nil⟩
            intro b hb g ht
            simp only [List.mem_singleton] at hb
            subst hb
            exact ht
          · cases h
            refine ⟨?_, .cons (fun b hb g hg => ?_) (.cons (fun _ h => by simp at h) .nil)⟩
            · intro b hb g ht
              simp only [List.mem_cons, List.mem_nil_iff, or_false] at hb
              rcases hb with rfl | rfl
              · exact ⟨y, s, hy, hm, ht⟩
              · exact ht
            · simp only [List.mem_singleton] at hb
              subst hb
              simp only [Act.unlocks] at hg
              have hkg : k = g := by
                by_cases h : k = g
                · exact h
                · simp [h] at hg
              subst hkg
              exact hla k y s hy hm

theorem step_ordered {w w' : World} {a : Act} {new rest : List Act} (hla : Layered w) (ho : Ordered w (a :: rest))
    (h : step w a = .ok (w', new)) : Ordered w' (new ++ rest) := by
  obtain ⟨h1, h2⟩ := step_touches hla h
  cases ho with
  | cons h3 h4 =>
    refine ordered_less (step_less h) ?_
    refine List.pairwise_append.2 ⟨h2, h4, fun b hb c hc g hg ht => ?_⟩
    exact h3 c hc g hg (h1 b hb g ht)

theorem step_relock {w : World} {a : Act} {g : SigId} (h : step w a = .relock g) :
    Touches w g a ∧ Act.unlocks g a = 0 ∧ ∃ y, w.sigs[g]? = some y ∧ y.locked = true := by
  cases a with
  | release s => simp only [step, release] at h; split at h <;> (try split at h) <;> cases h
  | drop o =>
    cases o with
    | conn s => simp only [step, drop] at h; cases h
    | guard s => simp only [step, drop] at h; cases h
    | sig k =>
      simp only [step, drop] at h
      split at h
      · cases h
      · rename_i y hy
        split at h
        · cases h
        · split at h
          · rename_i hl
            cases h
            exact ⟨.step .sig (.refl _), rfl, y, hy, hl⟩
          · split at h <;> cases h
  | disconnect s =>
    simp only [step, disconnect] at h
    split at h
    · cases h
    · rename_i x hx
      have ⟨h1, h2⟩ := slot?_some.1 hx
      split at h
      · cases h
      · rename_i k hk
        split at h
        · cases h
        · rename_i y hy
          split at h
          · rename_i hl
            cases h
            exact ⟨.step (.leave h1 hk) (.refl _), rfl, y, hy, hl⟩
          · split at h
            · cases h
            · split at h
              · split at h <;> cases h
              · cases h
  | unlock k => simp only [step, unlock] at h; split at h <;> cases h
  | purge k =>
    simp only [step, purge] at h
    split at h
    · cases h
    · split at h
      · cases h
      · split at h <;> cases h
  | clean k i =>
    simp only [step, clean] at h
    split at h
    · cases h
    · split at h
      · cases h
      · split at h
        · cases h
        · split at h <;> cases h

theorem step_misuse {w : World} {a : Act} {g : SigId} (h : step w a = .misuse g) :
    a = .drop (.sig g) ∧ ∃ y, w.sigs[g]? = some y ∧ y.emitting ≠ 0 := by
  cases a with
  | release s => simp only [step, release] at h; split at h <;> (try split at h) <;> cases h
  | drop o =>
    cases o with
    | conn s => simp only [step, drop] at h; cases h
    | guard s => simp only [step, drop] at h; cases h
    | sig k =>
      simp only [step, drop] at h
      split at h
      · cases h
      · rename_i y hy
        split at h
        · cases h
        · split at h
          · cases h
          · split at h
            · rename_i he; cases h; exact ⟨rfl, y, hy, he⟩
            · cases h
  | disconnect s =>
    simp only [step, disconnect] at h
    split at h
    · cases h
    · split at h
      · cases h
      · split at h
        · cases h
        · split at h
          · cases h
          · split at h
            · cases h
            · split at h
              · split at h <;> cases h
              · cases h
  | unlock k => simp only [step, unlock] at h; split at h <;> cases h
  | purge k =>
    simp only [step, purge] at h
    split at h
    · cases h
    · split at h
      · cases h
      · split at h <;> cases h
  | clean k i =>
    simp only [step, clean] at h
    split at h
    · cases h
    · split at h
      · cases h
      · split at h
        · cases h
        · split at h <;> cases h

theorem exec_layered {w : World} {acts : List Act} {r : Outcome World} (h : Exec w acts r) (hi : Inv w acts)
    (hla : Layered w) (ho : Ordered w acts) (g : SigId) : r ≠ .relock g := by
  induction h with
  | done w => simp
  | more h1 _ ih =>
    have := step_inv hi
    rw [h1] at this
    exact ih this (layered_less (step_less h1) hla) (step_ordered hla ho h1)
  | @relock w a rest k h1 =>
    obtain ⟨ht, hu, y, hy, hl⟩ := step_relock h1
    exfalso
    have e := hi.lock k
    rw [lockedOf_some hy, hl, total_cons, hu] at e
    have hz : total (Act.unlocks k) rest = 0 := by
      refine total_eq_zero fun b hb => ?_
      cases ho with
      | cons h3 _ => exact Classical.byContradiction fun hne => h3 b hb k hne ht
    rw [hz] at e
    cases e
  | misuse _ => simp
  | ub _ => simp

/-- When a signal is destroyed while it is emitted, it was being emitted at the start. -/
theorem exec_misuse {w : World} {acts : List Act} {r : Outcome World} (h : Exec w acts r) {g : SigId}
    (hr : r = .misuse g) : ∃ y, w.sigs[g]? = some y ∧ y.emitting ≠ 0 := by
  induction h with
  | done w => cases hr
  | more h1 _ ih =>
    obtain ⟨y', hy', he'⟩ := ih hr
    obtain ⟨y, hy, _, he⟩ := (step_less h1).sigs g y' hy'
    exact ⟨y, hy, by omega⟩
  | relock _ => cases hr
  | misuse h1 => cases hr; exact (step_misuse h1).2
  | ub _ => cases hr

/-! ### Operations that entail something do not add to the graph -/

theorem begin_less {w w' : World} {op : Op} {acts : List Act} (h : begin w op = some (w', acts)) (hne : acts ≠ []) :
    Less w' w ∧ Ordered w' acts := by
  have one : ∀ (v : World) (a : Act), Ordered v [a] := fun v a => .cons (fun _ h => by simp at h) .nil
  cases op with
  | newSig => simp only [begin] at h; cases h; exact absurd rfl hne
  | connect g front => simp only [begin] at h; split at h <;> cases h; exact absurd rfl hne
  | copy s => simp only [begin] at h; split at h <;> cases h; exact absurd rfl hne
  | guard s => simp only [begin] at h; split at h <;> cases h; exact absurd rfl hne
  | unguard s => simp only [begin] at h; split at h <;> cases h; exact absurd rfl hne
  | give s o =>
    simp only [begin] at h
    split at h
    · cases h
    · split at h <;> cases h; exact absurd rfl hne
  | drop o =>
    simp only [begin] at h
    split at h
    · cases h; exact ⟨⟨(Less.refl w).slots, (Less.refl w).sigs⟩, one _ _⟩
    · cases h
  | disconnect s =>
    simp only [begin] at h
    split at h
    · cases h
      refine ⟨⟨(Less.refl w).slots, (Less.refl w).sigs⟩, .cons (fun b hb g hg => ?_) (one _ _)⟩
      simp only [List.mem_singleton] at hb
      subst hb
      exact absurd rfl hg
    · cases h
  | disconnectAll g =>
    simp only [begin] at h
    split at h
    · cases h
    · rename_i y hy
      obtain ⟨hy, hal⟩ := sig?_some.1 hy
      split at h
      · cases h; exact ⟨less_sig hy (fun _ h => h) (Nat.le_refl _), one _ _⟩
      · cases h; exact absurd rfl hne
  | emit g =>
    simp only [begin] at h
    split at h
    · cases h
    · cases h; exact absurd rfl hne
  | finish g =>
    simp only [begin] at h
    split at h
    · cases h
    · rename_i y hy
      obtain ⟨hy, hal⟩ := sig?_some.1 hy
      split at h
      · cases h
      · rename_i n hn
        split at h
        · cases h; exact ⟨less_sig hy (fun _ h => h) (by simp only; omega), one _ _⟩
        · cases h; exact absurd rfl hne

/-! ### Connections, when no emission is in progress and no target owns a signal -/

def Plain : Act → Prop
  | .release _ | .disconnect _ => True
  | .drop (.conn _) | .drop (.guard _) => True
  | _ => False

theorem plain_unlocks {l : List Act} (h : ∀ a ∈ l, Plain a) (g : SigId) : total (Act.unlocks g) l = 0 := by
  refine total_eq_zero fun a ha => ?_
  have := h a ha
  cases a with
  | drop o => rfl
  | release s => rfl
  | disconnect s => rfl
  | unlock _ => exact this.elim
  | purge _ => exact this.elim
  | clean _ _ => exact this.elim

/-- The stacks met while connections are destroyed. -/
inductive Calm : List Act → Prop where
  | plain {l : List Act} : (∀ a ∈ l, Plain a) → Calm l
  | locked {l : List Act} {g : SigId} : (∀ a ∈ l, Plain a) → Calm (.unlock g :: l)
  | leaving {l : List Act} {s : SlotId} {g : SigId} :
    (∀ a ∈ l, Plain a) → .release s ∈ l → Calm (.release s :: .unlock g :: l)

theorem lockedSigs_nil {w : World} {acts : List Act} (hi : Inv w acts) (h : ∀ a ∈ acts, Plain a) : w.lockedSigs = [] := by
  unfold World.lockedSigs
  refine List.filter_eq_nil_iff.2 fun g _ => ?_
  have e := hi.lock g
  rw [plain_unlocks h g] at e
  unfold lockedOf at e
  cases hl : ((w.sigs[g]?).map (·.locked)).getD false
  · simp
  · rw [hl] at e; cases e

theorem exec_calm {w : World} {acts : List Act} {r : Outcome World} (h : Exec w acts r) (hi : Inv w acts)
    (hid : Idle w) (hn : NoSigs w) (hc : Calm acts) :
    ∃ w' log, r = .ok w' ∧ w'.log = log ++ w.log ∧ ∀ e ∈ log, e.2 = [] := by
  induction h with
  | done w => exact ⟨w, [], rfl, rfl, fun _ h => by cases h⟩
  | @more w w' a new rest r h1 h2 ih =>
    have hi' := step_inv hi
    rw [h1] at hi'
    have ih := ih hi' (idle_less (step_less h1) hid) (noSigs_less (step_less h1) hn)
    have same : w'.log = w.log → Calm (new ++ rest) → ∃ w'' log, r = .ok w'' ∧ w''.log = log ++ w.log ∧ ∀ e ∈ log, e.2 = [] := by
      intro h hcn
      obtain ⟨w'', log, ha, hb, hd⟩ := ih hcn
      exact ⟨w'', log, ha, by rw [hb, h], hd⟩
    generalize hacts : a :: rest = acts at hc
    cases hc with
    | plain hp =>
      subst hacts
      have hpa := hp a List.mem_cons_self
      have hpr : ∀ b ∈ rest, Plain b := fun b hb => hp b (List.mem_cons_of_mem _ hb)
      cases a with
      | release s =>
        simp only [step, release] at h1
        split at h1
        · cases h1
        · rename_i x hx
          have ⟨h3, h4⟩ := slot?_some.1 hx
          split at h1
          · cases h1
            have hcn : Calm (x.owns.map .drop ++ rest) := by
              refine .plain fun b hb => ?_
              rcases List.mem_append.1 hb with hb | hb
              · obtain ⟨o, ho, rfl⟩ := List.mem_map.1 hb
                cases o with
                | conn _ => trivial
                | guard _ => trivial
                | sig g => exact absurd ho (hn s x h3 g)
              · exact hpr b hb
            obtain ⟨w'', log, ha, hb, hd⟩ := ih hcn
            refine ⟨w'', log ++ [(s, w.lockedSigs)], ha, ?_, ?_⟩
            · rw [hb]; simp
            · intro e he
              rcases List.mem_append.1 he with he | he
              · exact hd e he
              · simp only [List.mem_singleton] at he
                subst he
                exact lockedSigs_nil hi hp
          · cases h1
            exact same rfl (.plain hpr)
      | drop o =>
        cases o with
        | conn s =>
          simp only [step, drop] at h1
          cases h1
          refine same rfl (.plain fun b hb => ?_)
          rcases List.mem_append.1 hb with hb | hb
          · simp only [List.mem_singleton] at hb; subst hb; trivial
          · exact hpr b hb
        | guard s =>
          simp only [step, drop] at h1
          cases h1
          refine same rfl (.plain fun b hb => ?_)
          rcases List.mem_append.1 hb with hb | hb
          · simp only [List.mem_cons, List.mem_nil_iff, or_false] at hb
            rcases hb with rfl | rfl <;> trivial
          · exact hpr b hb
        | sig g => exact hpa.elim
      | disconnect s =>
        have hpair : .release s ∈ rest := by
          have := hi.paired
          cases rest with
          | nil => cases this.1
          | cons b l =>
            have hb : some b = some (.release s) := this.1
            cases hb; exact List.mem_cons_self
        simp only [step, disconnect] at h1
        split at h1
        · cases h1
        · rename_i x hx
          split at h1
          · cases h1; exact same rfl (.plain hpr)
          · split at h1
            · cases h1
            · rename_i g _ _ y hy
              split at h1
              · cases h1
              · split at h1
                · cases h1
                · split at h1
                  · split at h1
                    · cases h1; exact same rfl (.leaving hpr hpair)
                    · rename_i he; exact absurd (hid g y hy) he
                  · cases h1; exact same rfl (.locked hpr)
      | unlock g => exact hpa.elim
      | purge g => exact hpa.elim
      | clean g k => exact hpa.elim
    | locked hp =>
      cases hacts
      simp only [step, unlock] at h1
      split at h1
      · cases h1
      · cases h1; exact same rfl (.plain hp)
    | @leaving l s g hp hm =>
      cases hacts
      simp only [step, release] at h1
      split at h1
      · cases h1
      · rename_i x hx
        have ⟨h3, h4⟩ := slot?_some.1 hx
        have e := hi.refs s
        rw [refsOf_some h3] at e
        unfold refCount at e
        have hpos : 1 ≤ total (Act.refs s) l := by
          have := total_pos (Act.refs s) hm
          simpa [Act.refs] using this
        simp only [total_cons, Act.refs, if_true] at e
        split at h1
        · omega
        · cases h1; exact same rfl (.locked hp)
  | @relock w a rest k h1 =>
    exfalso
    obtain ⟨ht, hu, y, hy, hl⟩ := step_relock h1
    have e := hi.lock k
    rw [lockedOf_some hy, hl, total_cons, hu] at e
    cases hc with
    | plain hp => rw [plain_unlocks (fun b hb => hp b (List.mem_cons_of_mem _ hb))] at e; simp at e
    | locked hp => exact ht
    | leaving hp hm => simp only [step, release] at h1; split at h1 <;> (try split at h1) <;> cases h1
  | @misuse w a rest k h1 =>
    exfalso
    obtain ⟨_, y, hy, he⟩ := step_misuse h1
    exact he (hid k y hy)
  | ub h1 =>
    have := step_inv hi
    rw [h1] at this
    exact this.elim

/-! ### Destroyed slots own nothing -/

def Hollow (w : World) : Prop := ∀ (s : SlotId) (x : Slot), w.slots[s]? = some x → x.refs = 0 → x.owns = []

theorem hollow_set {w : World} {s : SlotId} {x x' : Slot} (h : Hollow w) (hx : w.slots[s]? = some x)
    (hn : x'.refs = 0 → x'.owns = []) : Hollow (w.setSlot s x') := by
  intro t z hz
  have hz' : (w.slots.set s x')[t]? = some z := hz
  rw [getElem?_set_some hx] at hz'
  split at hz'
  · cases hz'; exact hn
  · exact h t z hz'

theorem step_hollow {w w' : World} {a : Act} {new : List Act} (hh : Hollow w) (h : step w a = .ok (w', new)) :
    Hollow w' := by
  cases a with
  | release s =>
    simp only [step, release] at h
    split at h
    · cases h
    · rename_i x hx
      have ⟨h1, h2⟩ := slot?_some.1 hx
      split at h
      · cases h
        exact hollow_set hh h1 (x' := ⟨0, none, []⟩) (fun _ => rfl)
      · cases h
        exact hollow_set hh h1 (fun h => by simp only at h; omega)
  | drop o =>
    cases o with
    | conn s => simp only [step, drop] at h; cases h; exact hh
    | guard s => simp only [step, drop] at h; cases h; exact hh
    | sig g =>
      simp only [step, drop] at h
      split at h
      · cases h
      · split at h
        · cases h
        · split at h
          · cases h
          · split at h
            · cases h
            · cases h; exact hh
  | disconnect s =>
    simp only [step, disconnect] at h
    split at h
    · cases h
    · rename_i x hx
      have ⟨h1, h2⟩ := slot?_some.1 hx
      have := hollow_set hh h1 (x' := { x with sender := none }) (fun h => absurd h h2)
      split at h
      · cases h; exact hh
      · split at h
        · cases h
        · split at h
          · cases h
          · split at h
            · cases h
            · split at h
              · split at h
                · cases h; exact this
                · cases h; exact this
              · cases h; exact this
  | unlock g =>
    simp only [step, unlock] at h
    split at h
    · cases h
    · cases h; exact hh
  | purge g =>
    simp only [step, purge] at h
    split at h
    · cases h
    · split at h
      · cases h; exact hh
      · split at h
        · cases h
        · rename_i x hx
          have ⟨h1, h2⟩ := slot?_some.1 hx
          cases h
          exact hollow_set hh h1 (x' := { x with sender := none }) (fun h => absurd h h2)
  | clean g k =>
    simp only [step, clean] at h
    split at h
    · cases h
    · split at h
      · cases h; exact hh
      · split at h
        · cases h
        · split at h
          · cases h; exact hh
          · cases h; exact hh

theorem exec_hollow {w : World} {acts : List Act} {r : Outcome World} (h : Exec w acts r) (hh : Hollow w)
    {w' : World} (hr : r = .ok w') : Hollow w' := by
  induction h with
  | done w => cases hr; exact hh
  | more h1 _ ih => exact ih (step_hollow hh h1) hr
  | relock _ => cases hr
  | misuse _ => cases hr
  | ub _ => cases hr

theorem begin_hollow {w w' : World} {op : Op} {acts : List Act} (hh : Hollow w) (h : begin w op = some (w', acts)) :
    Hollow w' := by
  cases op with
  | newSig => simp only [begin] at h; cases h; exact hh
  | connect g front =>
    simp only [begin] at h
    split at h <;> cases h
    intro s x hx h0
    have hx' : (w.slots ++ [⟨2, some g, []⟩])[s]? = some x := hx
    rcases Nat.lt_trichotomy s w.slots.length with h | h | h
    · rw [List.getElem?_append_left h] at hx'; exact hh s x hx' h0
    · subst h; simp at hx'; subst hx'; cases h0
    · rw [List.getElem?_eq_none (by simp; omega)] at hx'; cases hx'
  | copy s =>
    simp only [begin] at h
    split at h
    · cases h
    · rename_i x hx
      have ⟨h1, h2⟩ := slot?_some.1 hx
      cases h
      exact hollow_set hh h1 (x' := { x with refs := x.refs + 1 }) (fun h => by cases h)
  | guard s => simp only [begin] at h; split at h <;> cases h; exact hh
  | unguard s => simp only [begin] at h; split at h <;> cases h; exact hh
  | give s o =>
    simp only [begin] at h
    split at h
    · cases h
    · rename_i x hx
      have ⟨h1, h2⟩ := slot?_some.1 hx
      split at h
      · cases h
        exact hollow_set hh h1 (x' := { x with owns := o :: x.owns }) (fun h => absurd h h2)
      · cases h
  | drop o => simp only [begin] at h; split at h <;> cases h; exact hh
  | disconnect s => simp only [begin] at h; split at h <;> cases h; exact hh
  | disconnectAll g =>
    simp only [begin] at h
    split at h
    · cases h
    · rename_i y hy
      split at h
      · cases h; exact hh
      · cases h
        intro s x hx h0
        simp only [List.getElem?_mapIdx] at hx
        cases hz : w.slots[s]? with
        | none => rw [hz] at hx; cases hx
        | some z =>
          rw [hz] at hx
          by_cases hs : s ∈ y.slots
          · simp [hs] at hx; subst hx; exact hh s z hz h0
          · simp [hs] at hx; subst hx; exact hh s z hz h0
  | emit g => simp only [begin] at h; split at h <;> cases h; exact hh
  | finish g =>
    simp only [begin] at h
    split at h
    · cases h
    · split at h
      · cases h
      · split at h <;> (cases h; exact hh)

theorem reach_hollow {w : World} (h : Reach w) : Hollow w := by
  induction h with
  | empty => intro s x hx; simp [World.empty] at hx
  | op _ h ih =>
    obtain ⟨w', acts, h1, h2⟩ := h
    exact exec_hollow h2 (begin_hollow ih h1) rfl

end Verif.Targets
