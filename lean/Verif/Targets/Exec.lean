import Verif.Targets.Inv
/-
Executions end in one way; operations keep the invariant.
-/
namespace Verif.Targets

/-! ### Every execution ends -/

def slotCount (w : World) (g : SigId) : Nat := ((w.sigs[g]?).map (·.slots.length)).getD 0

def weight (w : World) : Act → Nat
  | .release _ => 1
  | .unlock _ => 1
  | .purge _ => 1
  | .disconnect _ => 2
  | .drop _ => 4
  | .clean g k => 1 + (slotCount w g - k)

def size1 (w : World) : Nat := total (fun x : Slot => x.refs) w.slots
def size2 (w : World) : Nat := total (fun y : Sig => y.alive.toNat) w.sigs
def size3 (w : World) : Nat := total (fun y : Sig => y.slots.length) w.sigs
def size4 (w : World) (acts : List Act) : Nat := total (weight w) acts

def Smaller (w' : World) (acts' : List Act) (w : World) (acts : List Act) : Prop :=
  size1 w' < size1 w ∨ (size1 w' = size1 w ∧ (size2 w' < size2 w ∨ (size2 w' = size2 w ∧
    (size3 w' < size3 w ∨ (size3 w' = size3 w ∧ size4 w' acts' < size4 w acts)))))

theorem weight_pos (w : World) (a : Act) : 0 < weight w a := by cases a <;> simp [weight] <;> omega

theorem size4_cons (w : World) (a : Act) (l : List Act) : size4 w (a :: l) = weight w a + size4 w l := total_cons ..
theorem size4_append (w : World) (a l : List Act) : size4 w (a ++ l) = size4 w a + size4 w l := total_append ..

theorem size1_sender {w : World} {s : SlotId} {x : Slot} (h : w.slots[s]? = some x) :
    size1 (w.setSlot s { x with sender := none }) = size1 w := by
  have := total_set (fun x : Slot => x.refs) h { x with sender := none }
  unfold size1
  show total _ (w.slots.set s _) = _
  simp only at this
  omega

theorem slotCount_set {w : World} {g : SigId} {y y' : Sig} (h : w.sigs[g]? = some y)
    (hl : y'.slots.length = y.slots.length) (k : SigId) : slotCount (w.setSig g y') k = slotCount w k := by
  unfold slotCount
  show ((w.sigs.set g y')[k]?.map _).getD 0 = _
  rw [getElem?_set_some h]
  by_cases hk : g = k
  · subst hk; rw [if_pos rfl, h]; simpa using hl
  · rw [if_neg hk]

theorem size4_eq {w w' : World} (h : ∀ k, slotCount w' k = slotCount w k) (l : List Act) : size4 w' l = size4 w l := by
  unfold size4
  congr 1
  funext a
  cases a <;> simp [weight, h]

theorem size2_set {w : World} {g : SigId} {y : Sig} (h : w.sigs[g]? = some y) (y' : Sig) :
    size2 (w.setSig g y') + y.alive.toNat = size2 w + y'.alive.toNat :=
  total_set (fun y : Sig => y.alive.toNat) h y'

theorem size3_set {w : World} {g : SigId} {y : Sig} (h : w.sigs[g]? = some y) (y' : Sig) :
    size3 (w.setSig g y') + y.slots.length = size3 w + y'.slots.length :=
  total_set (fun y : Sig => y.slots.length) h y'

theorem smaller_same {w : World} {a : Act} {rest : List Act} {g : SigId} {y : Sig} (y' : Sig) (hy : w.sigs[g]? = some y)
    (hs : y'.slots = y.slots) (ha : y'.alive = y.alive) (new : List Act) (hn : size4 w new < weight w a) :
    Smaller (w.setSig g y') (new ++ rest) w (a :: rest) := by
  have e2 := size2_set hy y'
  have e3 := size3_set hy y'
  rw [ha] at e2
  rw [hs] at e3
  have e4 := size4_eq (fun k => slotCount_set hy (y' := y') (by rw [hs]) k) (new ++ rest)
  have e5 := size4_append w new rest
  right
  refine ⟨rfl, .inr ⟨by omega, .inr ⟨by omega, ?_⟩⟩⟩
  rw [e4, e5, size4_cons]
  omega

theorem step_smaller {w w' : World} {a : Act} {new rest : List Act} (h : step w a = .ok (w', new)) :
    Smaller w' (new ++ rest) w (a :: rest) := by
  have hsend : ∀ (s : SlotId) (x : Slot) (l : List Act) (v : World), w.slots[s]? = some x →
      Smaller v l (w.setSlot s { x with sender := none }) (a :: rest) → Smaller v l w (a :: rest) := by
    intro s x l v hx hv
    unfold Smaller at hv ⊢
    rw [size1_sender hx] at hv
    exact hv
  cases a with
  | release s =>
    simp only [step, release] at h
    split at h
    · cases h
    · rename_i x hx
      have ⟨h1, h2⟩ := slot?_some.1 hx
      left
      split at h
      · cases h
        have := total_set (fun x : Slot => x.refs) h1 ⟨0, none, []⟩
        show total _ (w.slots.set s ⟨0, none, []⟩) < total _ w.slots
        simp only at this
        omega
      · cases h
        have := total_set (fun x : Slot => x.refs) h1 { x with refs := x.refs - 1 }
        show total _ (w.slots.set s _) < total _ w.slots
        simp only at this
        omega
  | drop o =>
    cases o with
    | conn s =>
      simp only [step, drop] at h
      cases h
      right; refine ⟨rfl, .inr ⟨rfl, .inr ⟨rfl, ?_⟩⟩⟩
      simp only [List.cons_append, List.nil_append, size4_cons, weight]; omega
    | guard s =>
      simp only [step, drop] at h
      cases h
      right; refine ⟨rfl, .inr ⟨rfl, .inr ⟨rfl, ?_⟩⟩⟩
      simp only [List.cons_append, List.nil_append, size4_cons, weight]; omega
    | sig g =>
      simp only [step, drop] at h
      split at h
      · cases h
      · rename_i y hy
        split at h
        · cases h
        · rename_i ha
          split at h
          · cases h
          · split at h
            · cases h
            · cases h
              right; refine ⟨rfl, .inl ?_⟩
              have := size2_set hy { y with locked := true, alive := false }
              simp at ha
              simp [ha] at this
              omega
  | disconnect s =>
    simp only [step, disconnect] at h
    split at h
    · cases h
    · rename_i x hx
      have ⟨h1, h2⟩ := slot?_some.1 hx
      split at h
      · cases h
        right; refine ⟨rfl, .inr ⟨rfl, .inr ⟨rfl, ?_⟩⟩⟩
        simp only [List.nil_append, size4_cons, weight]; omega
      · rename_i g hg
        split at h
        · cases h
        · rename_i y hy
          split at h
          · cases h
          · split at h
            · cases h
            · split at h
              · rename_i hm
                split at h
                · cases h
                  refine hsend s x _ _ h1 ?_
                  right
                  refine ⟨rfl, .inr ?_⟩
                  have hy' : (w.setSlot s { x with sender := none }).sigs[g]? = some y := hy
                  have e2 := size2_set hy' { y with slots := y.slots.erase s, locked := true }
                  have e3 := size3_set hy' { y with slots := y.slots.erase s, locked := true }
                  have hl := List.length_erase_of_mem hm
                  have hp : 0 < y.slots.length := List.length_pos_of_mem hm
                  simp only at e2 e3
                  exact ⟨by omega, .inl (by omega)⟩
                · cases h
                  refine hsend s x _ _ h1 ?_
                  exact smaller_same { y with deferred := true, locked := true } (w := w.setSlot s { x with sender := none }) hy rfl rfl _ (by simp [size4, total_cons, total_nil, weight])
              · cases h
                refine hsend s x _ _ h1 ?_
                exact smaller_same { y with locked := true } (w := w.setSlot s { x with sender := none }) hy rfl rfl _ (by simp [size4, total_cons, total_nil, weight])
  | unlock g =>
    simp only [step, unlock] at h
    split at h
    · cases h
    · rename_i y hy
      cases h
      exact smaller_same { y with locked := false } hy rfl rfl [] (by simp [size4, total_nil, weight])
  | purge g =>
    simp only [step, purge] at h
    split at h
    · cases h
    · rename_i y hy
      split at h
      · rename_i hs
        cases h
        exact smaller_same { y with locked := false } hy rfl rfl [] (by simp [size4, total_nil, weight])
      · rename_i s more hs
        split at h
        · cases h
        · rename_i x hx
          have ⟨h1, h2⟩ := slot?_some.1 hx
          cases h
          refine hsend s x _ _ h1 ?_
          right
          refine ⟨rfl, .inr ?_⟩
          have e2 := size2_set (w := w.setSlot s { x with sender := none }) hy { y with slots := more }
          have e3 := size3_set (w := w.setSlot s { x with sender := none }) hy { y with slots := more }
          have hl : y.slots.length = more.length + 1 := by rw [hs]; rfl
          simp only at e2 e3
          exact ⟨by omega, .inl (by omega)⟩
  | clean g k =>
    simp only [step, clean] at h
    split at h
    · cases h
    · rename_i y hy
      split at h
      · cases h
        exact smaller_same { y with locked := false, deferred := false } hy rfl rfl [] (by simp [size4, total_nil, weight]; omega)
      · rename_i s hs
        have hk : k < y.slots.length := (List.getElem?_eq_some_iff.1 hs).1
        split at h
        · cases h
        · split at h
          · cases h
            right; refine ⟨rfl, .inr ⟨rfl, .inr ⟨rfl, ?_⟩⟩⟩
            have : slotCount w g = y.slots.length := by simp [slotCount, hy]
            simp only [List.cons_append, List.nil_append, size4_cons, weight]; omega
          · cases h
            right
            refine ⟨rfl, .inr ?_⟩
            have e2 := size2_set hy { y with slots := y.slots.eraseIdx k }
            have e3 := size3_set hy { y with slots := y.slots.eraseIdx k }
            have hl := List.length_eraseIdx_of_lt hk
            simp only at e2 e3
            exact ⟨by omega, .inl (by omega)⟩

theorem exec_total (w : World) (acts : List Act) : ∃ r, Exec w acts r := by
  match acts with
  | [] => exact ⟨_, .done w⟩
  | a :: rest =>
    cases h : step w a with
    | ub => exact ⟨_, .ub h⟩
    | relock g => exact ⟨_, .relock h⟩
    | misuse g => exact ⟨_, .misuse h⟩
    | ok p =>
      obtain ⟨w', new⟩ := p
      obtain ⟨r, hr⟩ := exec_total w' (new ++ rest)
      exact ⟨r, .more h hr⟩
termination_by (size1 w, size2 w, size3 w, size4 w acts)
decreasing_by
  have := step_smaller (rest := rest) h
  rcases this with h1 | ⟨h1, h2 | ⟨h2, h3 | ⟨h3, h4⟩⟩⟩
  · exact Prod.Lex.left _ _ h1
  · rw [h1]; exact Prod.Lex.right _ (Prod.Lex.left _ _ h2)
  · rw [h1, h2]; exact Prod.Lex.right _ (Prod.Lex.right _ (Prod.Lex.left _ _ h3))
  · rw [h1, h2, h3]; exact Prod.Lex.right _ (Prod.Lex.right _ (Prod.Lex.right _ h4))

theorem exec_unique {w : World} {acts : List Act} {r r' : Outcome World} (h : Exec w acts r) (h' : Exec w acts r') :
    r = r' := by
  induction h with
  | done w => cases h'; rfl
  | more h1 _ ih =>
    cases h' with
    | more h2 h3 => rw [h1] at h2; cases h2; exact ih h3
    | relock h2 => rw [h1] at h2; cases h2
    | misuse h2 => rw [h1] at h2; cases h2
    | ub h2 => rw [h1] at h2; cases h2
  | relock h1 =>
    cases h' with
    | more h2 h3 => rw [h1] at h2; cases h2
    | relock h2 => rw [h1] at h2; cases h2; rfl
    | misuse h2 => rw [h1] at h2; cases h2
    | ub h2 => rw [h1] at h2; cases h2
  | misuse h1 =>
    cases h' with
    | more h2 h3 => rw [h1] at h2; cases h2
    | relock h2 => rw [h1] at h2; cases h2
    | misuse h2 => rw [h1] at h2; cases h2; rfl
    | ub h2 => rw [h1] at h2; cases h2
  | ub h1 =>
    cases h' with
    | more h2 h3 => rw [h1] at h2; cases h2
    | relock h2 => rw [h1] at h2; cases h2
    | misuse h2 => rw [h1] at h2; cases h2
    | ub h2 => rfl

/-! ### The invariant -/

theorem exec_inv {w : World} {acts : List Act} {r : Outcome World} (h : Exec w acts r) (hi : Inv w acts) :
    r ≠ .ub ∧ ∀ w', r = .ok w' → Inv w' [] := by
  induction h with
  | done w => exact ⟨by simp, fun w' h => by cases h; exact hi⟩
  | more h1 _ ih =>
    have := step_inv hi
    rw [h1] at this
    exact ih this
  | relock _ => exact ⟨by simp, fun _ h => by cases h⟩
  | misuse _ => exact ⟨by simp, fun _ h => by cases h⟩
  | ub h1 =>
    have := step_inv hi
    rw [h1] at this
    exact this.elim

theorem total_mapIdx {α : Type} (f : α → Nat) {h : Nat → α → α} (hf : ∀ i a, f (h i a) = f a) (l : List α) :
    total f (l.mapIdx h) = total f l := by
  unfold total
  congr 1
  apply List.ext_getElem?
  intro i
  simp [List.getElem?_mapIdx]
  cases l[i]? <;> simp [hf]

theorem unlocked {w : World} (hi : Inv w []) {g : SigId} {y : Sig} (hy : w.sigs[g]? = some y) : y.locked = false := by
  have := hi.lock g
  rw [lockedOf_some hy] at this
  cases h : y.locked
  · rfl
  · rw [h] at this; simp [total_nil] at this

/-- What is held changes hands. -/
theorem inv_held {w : World} {acts acts' : List Act} {held : List Owned} (hi : Inv w acts)
    (href : ∀ s, total (refTo s) held + total (Act.refs s) acts' = total (refTo s) w.held + total (Act.refs s) acts)
    (hown : ∀ g, total (ownTo g) held + total (Act.owns g) acts' = total (ownTo g) w.held + total (Act.owns g) acts)
    (hlock : ∀ g, total (Act.unlocks g) acts' = total (Act.unlocks g) acts)
    (hpu : ∀ k, .purge k ∈ acts → .purge k ∈ acts') (hp : Paired acts') : Inv { w with held := held } acts' := by
  refine ⟨?_, ?_, ?_, hi.member, ?_, hp, hi.logged⟩
  · intro s
    have := hi.refs s
    have := href s
    unfold refCount at *
    show refsOf w s = _
    simp only
    omega
  · intro g
    have := hi.own g
    have := hown g
    unfold ownCount at *
    show _ = (aliveOf w g).toNat
    simp only
    omega
  · intro g; rw [hlock g]; exact hi.lock g
  · intro g y hy ha
    rcases hi.dying g y hy ha with ⟨h3, h4⟩ | h3
    · exact .inl ⟨h3, hpu g h4⟩
    · exact .inr h3

theorem begin_inv {w w' : World} {op : Op} {acts : List Act} (hi : Inv w []) (h : begin w op = some (w', acts)) :
    Inv w' acts := by
  cases op with
  | newSig =>
    simp only [begin] at h
    cases h
    have hn : ∀ g, g ≠ w.sigs.length → (w.sigs ++ [⟨[], 0, false, false, true⟩])[g]? = w.sigs[g]? := by
      intro g hg
      rcases Nat.lt_trichotomy g w.sigs.length with h | h | h
      · rw [List.getElem?_append_left h]
      · exact absurd h hg
      · rw [List.getElem?_eq_none (by simp; omega), List.getElem?_eq_none (by omega)]
    refine ⟨?_, ?_, ?_, ?_, ?_, trivial, hi.logged⟩
    · intro s
      have := hi.refs s
      show refsOf w s = _
      unfold refCount at *
      simp only [total_append, total_cons, total_nil, refTo, List.count_nil] at this ⊢
      omega
    · intro g
      have e := hi.own g
      unfold ownCount aliveOf at *
      simp only [total_cons, total_nil, ownTo] at e ⊢
      by_cases hg : g = w.sigs.length
      · subst hg
        simp at e ⊢
        omega
      · rw [hn g hg, if_neg (Ne.symm hg)]
        omega
    · intro g
      have e := hi.lock g
      unfold lockedOf at *
      by_cases hg : g = w.sigs.length
      · subst hg
        simp [total_nil]
      · simp only
        rw [hn g hg]; exact e
    · intro s x g hx hs
      obtain ⟨y, hy, hm⟩ := hi.member s x g hx hs
      exact ⟨y, by simp only; rw [List.getElem?_append_left (List.getElem?_eq_some_iff.1 hy).1]; exact hy, hm⟩
    · intro g y hy ha
      simp only at hy
      by_cases hg : g = w.sigs.length
      · subst hg
        simp at hy
        subst hy
        cases ha
      · rw [hn g hg] at hy
        exact hi.dying g y hy ha
  | connect g front =>
    simp only [begin] at h
    split at h
    · cases h
    · rename_i y hy
      obtain ⟨hy, hal⟩ := sig?_some.1 hy
      cases h
      have hn : ∀ s, s ≠ w.slots.length → (w.slots ++ [⟨2, some g, []⟩])[s]? = w.slots[s]? := by
        intro s hs
        rcases Nat.lt_trichotomy s w.slots.length with h | h | h
        · rw [List.getElem?_append_left h]
        · exact absurd h hs
        · rw [List.getElem?_eq_none (by simp; omega), List.getElem?_eq_none (by omega)]
      have hc : ∀ s, (if front = true then w.slots.length :: y.slots else y.slots ++ [w.slots.length]).count s =
          y.slots.count s + (if w.slots.length = s then 1 else 0) := by
        intro s
        by_cases hs : w.slots.length = s <;> cases front <;> simp [hs]
      have hm : ∀ s, s ∈ y.slots ∨ s = w.slots.length →
          s ∈ (if front = true then w.slots.length :: y.slots else y.slots ++ [w.slots.length]) := by
        intro s hs
        cases front <;> simp <;> rcases hs with h | h <;> simp [h]
      refine ⟨?_, ?_, ?_, ?_, ?_, trivial, ?_⟩
      · intro s
        have e := hi.refs s
        have e2 := total_set (fun y : Sig => y.slots.count s) hy
          { y with slots := if front = true then w.slots.length :: y.slots else y.slots ++ [w.slots.length] }
        simp only [hc s] at e2
        unfold refCount refsOf at *
        simp only [total_append, total_cons, total_nil, refTo] at e ⊢
        show _ = total _ (w.sigs.set g _) + _ + _ + _
        by_cases hs : s = w.slots.length
        · subst hs
          simp at e e2 ⊢
          omega
        · rw [hn s hs, if_neg (Ne.symm hs)]
          rw [if_neg (Ne.symm hs)] at e2
          omega
      · intro k
        have e := hi.own k
        unfold ownCount at *
        show _ = (aliveOf (w.setSig g _) k).toNat
        rw [aliveOf_set hy]
        simp only [total_append, total_cons, total_nil, ownTo] at e ⊢
        by_cases hk : g = k
        · subst hk
          rw [aliveOf_some hy] at e
          simp only [if_true]
          omega
        · rw [if_neg hk]; omega
      · intro k
        have e := hi.lock k
        show _ = (lockedOf (w.setSig g _) k).toNat
        rw [lockedOf_set hy]
        by_cases hk : g = k
        · subst hk
          rw [lockedOf_some hy] at e
          simpa using e
        · rw [if_neg hk]; exact e
      · intro s x k hx hs
        simp only at hx
        by_cases hsn : s = w.slots.length
        · subst hsn
          simp at hx
          subst hx
          cases hs
          exact ⟨_, by show (w.sigs.set g _)[g]? = _; rw [getElem?_set_some hy, if_pos rfl], hm _ (.inr rfl)⟩
        · rw [hn s hsn] at hx
          obtain ⟨z, h1, h2⟩ := hi.member s x k hx hs
          by_cases hk : g = k
          · subst hk
            rw [hy] at h1; cases h1
            exact ⟨_, by show (w.sigs.set g _)[g]? = _; rw [getElem?_set_some hy, if_pos rfl], hm _ (.inl h2)⟩
          · exact ⟨z, by show (w.sigs.set g _)[k]? = _; rw [getElem?_set_some hy, if_neg hk]; exact h1, h2⟩
      · intro k z hz ha
        have hz' : (w.sigs.set g { y with
          slots := if front = true then w.slots.length :: y.slots else y.slots ++ [w.slots.length] })[k]? = some z := hz
        rw [getElem?_set_some hy] at hz'
        split at hz'
        · cases hz'; simp only at ha; rw [hal] at ha; cases ha
        · exact hi.dying k z hz' ha
      · refine ⟨hi.logged.1, fun s => ?_⟩
        show s ∈ w.log.map (·.1) ↔ _
        rw [hi.logged.2 s]
        unfold refsOf
        simp only [List.length_append, List.length_singleton]
        by_cases hs : s = w.slots.length
        · subst hs; simp
        · rw [hn s hs]
          constructor
          · rintro ⟨a, b⟩; exact ⟨by omega, b⟩
          · rintro ⟨a, b⟩; exact ⟨by omega, b⟩
  | copy s =>
    simp only [begin] at h
    split at h
    · cases h
    · rename_i x hx
      have ⟨h1, h2⟩ := slot?_some.1 hx
      cases h
      refine ⟨?_, ?_, hi.lock, ?_, hi.dying, trivial, ?_⟩
      · intro t
        have e1 : refsOf { w.setSlot s { x with refs := x.refs + 1 } with held := .conn s :: w.held } t =
          if s = t then x.refs + 1 else refsOf w t := refsOf_set h1 { x with refs := x.refs + 1 } t
        have e2 := total_set (fun x : Slot => total (refTo t) x.owns) h1 { x with refs := x.refs + 1 }
        have e3 := hi.refs t
        rw [e1]
        unfold refCount at e3 ⊢
        simp only [total_cons, total_nil, refTo] at e2 e3 ⊢
        show _ = total _ w.sigs + _ + total _ (w.slots.set s _) + _
        by_cases hst : s = t
        · subst hst
          rw [refsOf_some h1] at e3
          simp only [if_true]
          omega
        · simp only [hst, if_false]; omega
      · intro g
        have e2 := total_set (fun x : Slot => total (ownTo g) x.owns) h1 { x with refs := x.refs + 1 }
        have e3 := hi.own g
        show _ = (aliveOf w g).toNat
        unfold ownCount at e3 ⊢
        simp only [total_cons, total_nil, ownTo] at e2 e3 ⊢
        show _ + total _ (w.slots.set s _) + _ = _
        omega
      · intro t z g hz hs
        have hz' : (w.slots.set s { x with refs := x.refs + 1 })[t]? = some z := hz
        rw [getElem?_set_some h1] at hz'
        split at hz'
        · rename_i hst; subst hst; cases hz'; exact hi.member s x g h1 hs
        · exact hi.member t z g hz' hs
      · refine ⟨hi.logged.1, fun t => ?_⟩
        have e1 : refsOf { w.setSlot s { x with refs := x.refs + 1 } with held := .conn s :: w.held } t =
          if s = t then x.refs + 1 else refsOf w t := refsOf_set h1 { x with refs := x.refs + 1 } t
        rw [e1]
        show t ∈ w.log.map (·.1) ↔ t < (w.slots.set s _).length ∧ _
        rw [hi.logged.2 t, List.length_set]
        by_cases hst : s = t
        · subst hst
          rw [refsOf_some h1]
          simp
          intro _; exact h2
        · simp [hst]
  | guard s =>
    simp only [begin] at h
    split at h
    · rename_i hm
      cases h
      refine inv_held hi ?_ ?_ (fun _ => rfl) (fun _ h => h) trivial
      · intro t
        have := total_erase (refTo t) hm
        simp only [total_cons, refTo] at this ⊢
        omega
      · intro t
        have := total_erase (ownTo t) hm
        simp only [total_cons, ownTo] at this ⊢
        omega
    · cases h
  | unguard s =>
    simp only [begin] at h
    split at h
    · rename_i hm
      cases h
      refine inv_held hi ?_ ?_ (fun _ => rfl) (fun _ h => h) trivial
      · intro t
        have := total_erase (refTo t) hm
        simp only [total_cons, refTo] at this ⊢
        omega
      · intro t
        have := total_erase (ownTo t) hm
        simp only [total_cons, ownTo] at this ⊢
        omega
    · cases h
  | give s o =>
    simp only [begin] at h
    split at h
    · cases h
    · rename_i x hx
      have ⟨h1, h2⟩ := slot?_some.1 hx
      split at h
      · rename_i hm
        cases h
        have hrr : ∀ t, refsOf { w.setSlot s { x with owns := o :: x.owns } with held := w.held.erase o } t = refsOf w t := by
          intro t
          have : refsOf { w.setSlot s { x with owns := o :: x.owns } with held := w.held.erase o } t =
            if s = t then x.refs else refsOf w t := refsOf_set h1 { x with owns := o :: x.owns } t
          rw [this]
          by_cases hst : s = t
          · subst hst; rw [if_pos rfl, refsOf_some h1]
          · rw [if_neg hst]
        refine ⟨?_, ?_, hi.lock, ?_, hi.dying, trivial, ?_⟩
        · intro t
          have e2 := total_set (fun x : Slot => total (refTo t) x.owns) h1 { x with owns := o :: x.owns }
          have e3 := hi.refs t
          have e4 := total_erase (refTo t) hm
          rw [hrr t]
          unfold refCount at e3 ⊢
          simp only [total_cons, total_nil] at e2 e3 ⊢
          show _ = total _ w.sigs + _ + total _ (w.slots.set s _) + _
          omega
        · intro g
          have e2 := total_set (fun x : Slot => total (ownTo g) x.owns) h1 { x with owns := o :: x.owns }
          have e3 := hi.own g
          have e4 := total_erase (ownTo g) hm
          show _ = (aliveOf w g).toNat
          unfold ownCount at e3 ⊢
          simp only [total_cons, total_nil] at e2 e3 ⊢
          show _ + total _ (w.slots.set s _) + _ = _
          omega
        · intro t z g hz hs
          have hz' : (w.slots.set s { x with owns := o :: x.owns })[t]? = some z := hz
          rw [getElem?_set_some h1] at hz'
          split at hz'
          · rename_i hst; subst hst; cases hz'; exact hi.member s x g h1 hs
          · exact hi.member t z g hz' hs
        · refine ⟨hi.logged.1, fun t => ?_⟩
          rw [hrr t]
          show t ∈ w.log.map (·.1) ↔ t < (w.slots.set s _).length ∧ _
          rw [hi.logged.2 t, List.length_set]
      · cases h
  | drop o =>
    simp only [begin] at h
    split at h
    · rename_i hm
      cases h
      refine inv_held hi ?_ ?_ (fun _ => rfl) (fun _ h => by cases h) trivial
      · intro t
        have := total_erase (refTo t) hm
        simp only [total_cons, total_nil, Act.refs] at this ⊢
        omega
      · intro t
        have := total_erase (ownTo t) hm
        simp only [total_cons, total_nil, Act.owns] at this ⊢
        omega
    · cases h
  | disconnect s =>
    simp only [begin] at h
    split at h
    · rename_i hm
      cases h
      refine inv_held hi ?_ ?_ (fun _ => rfl) (fun _ h => by cases h) ⟨rfl, trivial⟩
      · intro t
        have := total_erase (refTo t) hm
        simp only [total_cons, total_nil, Act.refs, refTo] at this ⊢
        omega
      · intro t
        have := total_erase (ownTo t) hm
        simp only [total_cons, total_nil, Act.owns, ownTo] at this ⊢
        omega
    · cases h
  | disconnectAll g =>
    simp only [begin] at h
    split at h
    · cases h
    · rename_i y hy
      obtain ⟨hy, hal⟩ := sig?_some.1 hy
      have hl := unlocked hi hy
      split at h
      · cases h
        refine inv_sig hi hy ?_ ?_ ?_ (fun _ _ _ _ h => h) ?_ (fun _ _ h => by cases h) trivial
        · intro s; simp [total_cons, total_nil, Act.refs]
        · intro k; simp [total_cons, total_nil, Act.owns]
        · intro k
          by_cases hk : g = k <;> simp [total_cons, total_nil, Act.unlocks, hl, hk]
        · intro ha; simp only at ha; rw [hal] at ha; cases ha
      · cases h
        have hi2 : Inv (w.setSig g { y with deferred := y.deferred || !y.slots.isEmpty }) [] :=
          inv_sig hi hy (fun _ => rfl) (fun _ => rfl) (fun _ => rfl) (fun _ _ _ _ h => h)
            (fun ha => by simp only at ha; rw [hal] at ha; cases ha) (fun _ _ h => h) trivial
        have hrr : ∀ t, refsOf { w.setSig g { y with deferred := y.deferred || !y.slots.isEmpty } with
            slots := w.slots.mapIdx fun s x => if s ∈ y.slots then { x with sender := none } else x } t = refsOf w t := by
          intro t
          unfold refsOf
          simp only [List.getElem?_mapIdx]
          cases w.slots[t]? with
          | none => rfl
          | some x => by_cases ht : t ∈ y.slots <;> simp [ht]
        have ht : ∀ f : Slot → Nat, (∀ x : Slot, f { x with sender := none } = f x) →
            total f (w.slots.mapIdx fun s x => if s ∈ y.slots then { x with sender := none } else x) = total f w.slots := by
          intro f hf
          refine total_mapIdx f (fun i a => ?_) _
          by_cases hi : i ∈ y.slots
          · rw [if_pos hi]; exact hf a
          · rw [if_neg hi]
        refine ⟨?_, ?_, hi2.lock, ?_, hi2.dying, trivial, ?_⟩
        · intro t
          rw [hrr t]
          have e := hi2.refs t
          unfold refCount at e ⊢
          simp only
          rw [ht _ (fun _ => rfl)]
          exact e
        · intro k
          have e := hi2.own k
          unfold ownCount at e ⊢
          simp only
          rw [ht _ (fun _ => rfl)]
          exact e
        · intro t z k hz hs
          simp only [List.getElem?_mapIdx] at hz
          cases hx : w.slots[t]? with
          | none => rw [hx] at hz; cases hz
          | some x =>
            rw [hx] at hz
            by_cases htm : t ∈ y.slots
            · simp [htm] at hz; subst hz; cases hs
            · simp [htm] at hz; subst hz; exact hi2.member t x k hx hs
        · refine ⟨hi.logged.1, fun t => ?_⟩
          rw [hrr t]
          show t ∈ w.log.map (·.1) ↔ t < (w.slots.mapIdx _).length ∧ _
          rw [hi.logged.2 t, List.length_mapIdx]
  | emit g =>
    simp only [begin] at h
    split at h
    · cases h
    · rename_i y hy
      obtain ⟨hy, hal⟩ := sig?_some.1 hy
      cases h
      exact inv_sig hi hy (fun _ => rfl) (fun _ => rfl) (fun _ => rfl) (fun _ _ _ _ h => h)
        (fun ha => by simp only at ha; rw [hal] at ha; cases ha) (fun _ _ h => h) trivial
  | finish g =>
    simp only [begin] at h
    split at h
    · cases h
    · rename_i y hy
      obtain ⟨hy, hal⟩ := sig?_some.1 hy
      have hl := unlocked hi hy
      split at h
      · cases h
      · split at h
        · cases h
          refine inv_sig hi hy ?_ ?_ ?_ (fun _ _ _ _ h => h) ?_ (fun _ _ h => by cases h) trivial
          · intro s; simp [total_cons, total_nil, Act.refs]
          · intro k; simp [total_cons, total_nil, Act.owns]
          · intro k
            by_cases hk : g = k <;> simp [total_cons, total_nil, Act.unlocks, hl, hk]
          · intro ha; simp only at ha; rw [hal] at ha; cases ha
        · cases h
          exact inv_sig hi hy (fun _ => rfl) (fun _ => rfl) (fun _ => rfl) (fun _ _ _ _ h => h)
            (fun ha => by simp only at ha; rw [hal] at ha; cases ha) (fun _ _ h => h) trivial

theorem reach_inv {w : World} (h : Reach w) : Inv w [] := by
  induction h with
  | empty =>
    refine ⟨fun s => ?_, fun g => ?_, fun g => ?_, ?_, ?_, trivial, ?_⟩
    · simp [refsOf, refCount, World.empty, total_nil]
    · simp [ownCount, aliveOf, World.empty, total_nil]
    · simp [lockedOf, World.empty, total_nil]
    · intro s x g hx; simp [World.empty] at hx
    · intro g y hy; simp [World.empty] at hy
    · simp [World.empty]
  | op _ h ih =>
    obtain ⟨w', acts, h1, h2⟩ := h
    exact (exec_inv h2 (begin_inv ih h1)).2 _ rfl

end Verif.Targets
