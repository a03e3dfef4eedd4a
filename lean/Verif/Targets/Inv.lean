import Verif.Targets.Model
/-
The invariant of `Targets/Model.lean`: reference counts are numbers of references, signals have
one owner, locked mutexes are unlocked by what is still to be done.
-/
namespace Verif.Targets

/-! ### Counting -/

/-- References to slot `s`. -/
def refTo (s : SlotId) : Owned → Nat
  | .conn t => if t = s then 1 else 0
  | .guard t => if t = s then 1 else 0
  | .sig _ => 0

def ownTo (g : SigId) : Owned → Nat
  | .sig h => if h = g then 1 else 0
  | _ => 0

def Act.refs (s : SlotId) : Act → Nat
  | .release t => if t = s then 1 else 0
  | .drop o => refTo s o
  | _ => 0

def Act.owns (g : SigId) : Act → Nat
  | .drop o => ownTo g o
  | _ => 0

/-- Whether the action ends with unlocking `g`. -/
def Act.unlocks (g : SigId) : Act → Nat
  | .unlock h => if h = g then 1 else 0
  | .purge h => if h = g then 1 else 0
  | .clean h _ => if h = g then 1 else 0
  | _ => 0

def total {α : Type} (f : α → Nat) (l : List α) : Nat := (l.map f).sum

theorem total_nil {α : Type} (f : α → Nat) : total f [] = 0 := rfl
theorem total_cons {α : Type} (f : α → Nat) (a : α) (l : List α) : total f (a :: l) = f a + total f l := by
  simp [total]
theorem total_append {α : Type} (f : α → Nat) (a b : List α) : total f (a ++ b) = total f a + total f b := by
  simp [total]
theorem total_map {α β : Type} (f : β → Nat) (h : α → β) (l : List α) :
    total f (l.map h) = total (fun a => f (h a)) l := by
  simp only [total, List.map_map]; rfl

theorem total_set {α : Type} (f : α → Nat) {l : List α} {i : Nat} {a : α} (h : l[i]? = some a) (b : α) :
    total f (l.set i b) + f a = total f l + f b := by
  induction l generalizing i with
  | nil => simp at h
  | cons c l ih =>
    cases i with
    | zero => simp at h; subst h; simp [total]; omega
    | succ i =>
      simp at h
      have := ih h
      simp only [List.set_cons_succ, total_cons]
      omega

theorem total_erase {α : Type} [DecidableEq α] (f : α → Nat) {l : List α} {a : α} (h : a ∈ l) :
    total f (l.erase a) + f a = total f l := by
  induction l with
  | nil => simp at h
  | cons c l ih =>
    by_cases hc : c = a
    · subst hc; simp [total_cons]; omega
    · have hm : a ∈ l := by simpa [Ne.symm hc] using h
      rw [List.erase_cons_tail (by simpa using hc), total_cons, total_cons]
      have := ih hm
      omega

theorem total_pos {α : Type} (f : α → Nat) {l : List α} {a : α} (h : a ∈ l) : f a ≤ total f l := by
  induction l with
  | nil => simp at h
  | cons c l ih =>
    rw [total_cons]
    rcases List.mem_cons.1 h with rfl | h
    · omega
    · have := ih h; omega

theorem total_eq_zero {α : Type} {f : α → Nat} {l : List α} (h : ∀ a ∈ l, f a = 0) : total f l = 0 := by
  induction l with
  | nil => rfl
  | cons c l ih =>
    rw [total_cons, h c (by simp), ih (fun a ha => h a (by simp [ha]))]

/-- The reference count of a slot. -/
def refsOf (w : World) (s : SlotId) : Nat := ((w.slots[s]?).map (·.refs)).getD 0

/-- The references to a slot. -/
def refCount (w : World) (acts : List Act) (s : SlotId) : Nat :=
  total (fun y : Sig => y.slots.count s) w.sigs + total (refTo s) w.held +
  total (fun x : Slot => total (refTo s) x.owns) w.slots + total (Act.refs s) acts

/-- The owners of a signal. -/
def ownCount (w : World) (acts : List Act) (g : SigId) : Nat :=
  total (ownTo g) w.held + total (fun x : Slot => total (ownTo g) x.owns) w.slots + total (Act.owns g) acts

def aliveOf (w : World) (g : SigId) : Bool := ((w.sigs[g]?).map (·.alive)).getD false
def lockedOf (w : World) (g : SigId) : Bool := ((w.sigs[g]?).map (·.locked)).getD false

/-- A slot is disconnected by who has a reference, which is released next. -/
def Paired : List Act → Prop
  | [] => True
  | .disconnect s :: rest => rest.head? = some (.release s) ∧ Paired rest
  | _ :: rest => Paired rest

structure Inv (w : World) (acts : List Act) : Prop where
  refs : ∀ s, refsOf w s = refCount w acts s
  own : ∀ g, ownCount w acts g = (aliveOf w g).toNat
  lock : ∀ g, total (Act.unlocks g) acts = (lockedOf w g).toNat
  member : ∀ (s : SlotId) (x : Slot) (g : SigId), w.slots[s]? = some x → x.sender = some g →
    ∃ y : Sig, w.sigs[g]? = some y ∧ s ∈ y.slots
  dying : ∀ (g : SigId) (y : Sig), w.sigs[g]? = some y → y.alive = false →
    (y.locked = true ∧ .purge g ∈ acts) ∨ y.slots = []
  paired : Paired acts
  logged : (w.log.map (·.1)).Nodup ∧ ∀ s, s ∈ w.log.map (·.1) ↔ s < w.slots.length ∧ refsOf w s = 0

/-! ### Updates -/

theorem slot?_some {w : World} {s : SlotId} {x : Slot} :
    w.slot? s = some x ↔ w.slots[s]? = some x ∧ x.refs ≠ 0 := by
  unfold World.slot?
  cases h : w.slots[s]? with
  | none => simp
  | some y =>
    by_cases hy : y.refs = 0
    · simp only [hy, if_true]
      constructor
      · intro h; cases h
      · rintro ⟨h, h'⟩; cases h; exact absurd hy h'
    · simp only [hy, if_false]
      constructor
      · intro h; cases h; exact ⟨rfl, hy⟩
      · rintro ⟨h, _⟩; exact h

theorem slot?_none {w : World} {s : SlotId} : w.slot? s = none ↔ refsOf w s = 0 := by
  unfold World.slot? refsOf
  cases h : w.slots[s]? with
  | none => simp
  | some y => by_cases hy : y.refs = 0 <;> simp [hy]

theorem sig?_some {w : World} {g : SigId} {y : Sig} :
    w.sig? g = some y ↔ w.sigs[g]? = some y ∧ y.alive = true := by
  unfold World.sig?
  cases h : w.sigs[g]? with
  | none => simp
  | some z =>
    cases hz : z.alive
    · simp only [hz]
      constructor
      · intro h; cases h
      · rintro ⟨h, h'⟩; cases h; rw [hz] at h'; cases h'
    · simp only [hz, if_true]
      constructor
      · intro h; cases h; exact ⟨rfl, hz⟩
      · rintro ⟨h, _⟩; exact h

theorem getElem?_set_some {α : Type} {l : List α} {i : Nat} {a : α} (h : l[i]? = some a) (b : α) (j : Nat) :
    (l.set i b)[j]? = if i = j then some b else l[j]? := by
  have hi : i < l.length := by
    rw [List.getElem?_eq_some_iff] at h; exact h.1
  rw [List.getElem?_set]
  by_cases hij : i = j <;> simp [hij]
  subst hij; simp [hi]

theorem refsOf_set {w : World} {s : SlotId} {x : Slot} (h : w.slots[s]? = some x) (x' : Slot) (t : SlotId) :
    refsOf (w.setSlot s x') t = if s = t then x'.refs else refsOf w t := by
  unfold refsOf World.setSlot
  rw [getElem?_set_some h]
  by_cases hst : s = t <;> simp [hst]

theorem aliveOf_set {w : World} {g : SigId} {y : Sig} (h : w.sigs[g]? = some y) (y' : Sig) (k : SigId) :
    aliveOf (w.setSig g y') k = if g = k then y'.alive else aliveOf w k := by
  unfold aliveOf World.setSig
  rw [getElem?_set_some h]
  by_cases hst : g = k <;> simp [hst]

theorem lockedOf_set {w : World} {g : SigId} {y : Sig} (h : w.sigs[g]? = some y) (y' : Sig) (k : SigId) :
    lockedOf (w.setSig g y') k = if g = k then y'.locked else lockedOf w k := by
  unfold lockedOf World.setSig
  rw [getElem?_set_some h]
  by_cases hst : g = k <;> simp [hst]

theorem Paired.tail {a : Act} {l : List Act} (h : Paired (a :: l)) : Paired l := by
  cases a <;> simp only [Paired] at h
  all_goals first | exact h | exact h.2

theorem Paired.append {l k : List Act} (hl : ∀ s, .disconnect s ∉ l) (h : Paired k) : Paired (l ++ k) := by
  induction l with
  | nil => exact h
  | cons a l ih =>
    have := ih (fun s hs => hl s (by simp [hs]))
    cases a <;> simp only [List.cons_append, Paired]
    all_goals first | exact this | (rename_i s; exact absurd List.mem_cons_self (hl s))

/-! ### Steps -/

theorem refs_pos {w : World} {acts : List Act} (hi : Inv w acts) {s : SlotId} (h : refCount w acts s ≠ 0) :
    ∃ x, w.slot? s = some x := by
  cases hx : w.slot? s with
  | some x => exact ⟨x, rfl⟩
  | none =>
    have := hi.refs s
    rw [slot?_none.1 hx] at this
    exact absurd this.symm h

theorem refsOf_some {w : World} {s : SlotId} {x : Slot} (h : w.slots[s]? = some x) : refsOf w s = x.refs := by
  unfold refsOf; rw [h]; rfl

theorem mem_refCount {w : World} {acts : List Act} {g : SigId} {y : Sig} {s : SlotId}
    (h : w.sigs[g]? = some y) (hs : s ∈ y.slots) : refCount w acts s ≠ 0 := by
  have h1 := total_pos (fun y : Sig => y.slots.count s) (List.mem_of_getElem? h)
  have h2 : 0 < y.slots.count s := List.count_pos_iff.2 hs
  unfold refCount
  have h1 : y.slots.count s ≤ total (fun y : Sig => y.slots.count s) w.sigs := h1
  omega

/-- Only the actions and the part of the world they speak about change. -/
theorem release_inv {w : World} {s : SlotId} {rest : List Act} (hi : Inv w (.release s :: rest)) :
    ∃ w' new, release w s = .ok (w', new) ∧ Inv w' (new ++ rest) := by
  have hr := hi.refs s
  have hc : refCount w (.release s :: rest) s ≠ 0 := by
    unfold refCount; rw [total_cons]; simp only [Act.refs, if_true]; omega
  obtain ⟨x, hx⟩ := refs_pos hi hc
  have ⟨h1, h2⟩ := slot?_some.1 hx
  have hrx := refsOf_some h1
  have hlt : s < w.slots.length := (List.getElem?_eq_some_iff.1 h1).1
  unfold release
  rw [hx]
  dsimp only
  by_cases h : x.refs = 1
  · rw [if_pos h]
    refine ⟨_, _, rfl, ?_, ?_, ?_, ?_, ?_, ?_, ?_⟩
    · intro t
      have e1 := refsOf_set h1 ⟨0, none, []⟩ t
      have e2 := total_set (fun x : Slot => total (refTo t) x.owns) h1 ⟨0, none, []⟩
      have e3 := hi.refs t
      show refsOf (w.setSlot s ⟨0, none, []⟩) t = _
      rw [e1]
      unfold refCount at e3 ⊢
      rw [total_append, total_map]
      rw [total_cons] at e3
      simp only [total_nil, Act.refs] at e2 e3 ⊢
      show _ = total _ w.sigs + total _ w.held + total _ (w.slots.set s ⟨0, none, []⟩) + _
      by_cases hst : s = t
      · subst hst
        rw [if_pos rfl] at e3 ⊢
        have e2' : total (fun x : Slot => total (refTo s) x.owns) (w.slots.set s ⟨0, none, []⟩) + total (refTo s) x.owns =
          total (fun x : Slot => total (refTo s) x.owns) w.slots + 0 := e2
        have : total (fun a => refTo s a) x.owns = total (refTo s) x.owns := rfl
        show 0 = _ + _ + _ + (total (fun a => refTo s a) x.owns + _)
        omega
      · simp only [hst, if_false] at e3 ⊢
        have : total (fun a => refTo t a) x.owns = total (refTo t) x.owns := rfl
        show _ = _ + _ + _ + (total (fun a => refTo t a) x.owns + _)
        omega
    · intro g
      have e2 := total_set (fun x : Slot => total (ownTo g) x.owns) h1 ⟨0, none, []⟩
      have e3 := hi.own g
      unfold ownCount at e3 ⊢
      rw [total_append, total_map]
      rw [total_cons] at e3
      simp only [total_nil, Act.owns] at e2 e3 ⊢
      show _ + total _ (w.slots.set s ⟨0, none, []⟩) + (total (fun a => ownTo g a) x.owns + _) = (aliveOf w g).toNat
      have : total (fun a => ownTo g a) x.owns = total (ownTo g) x.owns := rfl
      show total _ w.held + _ + _ = _
      omega
    · intro g
      have e3 := hi.lock g
      rw [total_append, total_map]
      rw [total_cons] at e3
      have : total (fun a => Act.unlocks g (.drop a)) x.owns = 0 := total_eq_zero (fun _ _ => rfl)
      show _ = (lockedOf w g).toNat
      rw [this]
      simp only [Act.unlocks] at e3
      omega
    · intro t z g hz hs
      have hz' : (w.slots.set s ⟨0, none, []⟩)[t]? = some z := hz
      rw [getElem?_set_some h1] at hz'
      split at hz'
      · cases hz'; cases hs
      · exact hi.member t z g hz' hs
    · intro g y hy ha
      rcases hi.dying g y hy ha with ⟨h3, h4⟩ | h3
      · exact .inl ⟨h3, List.mem_append_right _ (by simpa using h4)⟩
      · exact .inr h3
    · exact Paired.append (by simp) hi.paired.tail
    · obtain ⟨l1, l2⟩ := hi.logged
      have e : ∀ t, refsOf { w.setSlot s ⟨0, none, []⟩ with log := (s, w.lockedSigs) :: w.log } t = if s = t then 0 else refsOf w t :=
        fun t => refsOf_set h1 ⟨0, none, []⟩ t
      have hl : (w.slots.set s ⟨0, none, []⟩).length = w.slots.length := by simp
      refine ⟨?_, fun t => ?_⟩
      · show (s :: w.log.map (·.1)).Nodup
        rw [List.nodup_cons]
        refine ⟨fun hm => ?_, l1⟩
        have := ((l2 s).1 hm).2
        omega
      · rw [e t]
        show t ∈ s :: w.log.map (·.1) ↔ t < (w.slots.set s ⟨0, none, []⟩).length ∧ _
        rw [hl, List.mem_cons, l2 t]
        by_cases hst : s = t
        · subst hst; simp [hlt]
        · simp [hst, Ne.symm hst]
  · rw [if_neg h]
    refine ⟨_, _, rfl, ?_, ?_, ?_, ?_, ?_, ?_, ?_⟩
    · intro t
      have e1 := refsOf_set h1 { x with refs := x.refs - 1 } t
      have e2 := total_set (fun x : Slot => total (refTo t) x.owns) h1 { x with refs := x.refs - 1 }
      have e3 := hi.refs t
      rw [e1]
      unfold refCount at e3 ⊢
      rw [total_cons] at e3
      simp only [Act.refs] at e2 e3 ⊢
      show _ = total _ w.sigs + total _ w.held + total _ (w.slots.set s { x with refs := x.refs - 1 }) + total _ rest
      by_cases hst : s = t
      · subst hst
        simp only [if_true] at e3 ⊢
        omega
      · simp only [hst, if_false] at e3 ⊢
        omega
    · intro g
      have e2 := total_set (fun x : Slot => total (ownTo g) x.owns) h1 { x with refs := x.refs - 1 }
      have e3 := hi.own g
      unfold ownCount at e3 ⊢
      rw [total_cons] at e3
      simp only [Act.owns] at e2 e3 ⊢
      show total _ w.held + total _ (w.slots.set s { x with refs := x.refs - 1 }) + total _ rest = (aliveOf w g).toNat
      omega
    · intro g
      have e3 := hi.lock g
      rw [total_cons] at e3
      simp only [Act.unlocks] at e3
      show total _ rest = (lockedOf w g).toNat
      omega
    · intro t z g hz hs
      have hz' : (w.slots.set s { x with refs := x.refs - 1 })[t]? = some z := hz
      rw [getElem?_set_some h1] at hz'
      split at hz'
      · rename_i hst; subst hst; cases hz'; exact hi.member s x g h1 hs
      · exact hi.member t z g hz' hs
    · intro g y hy ha
      rcases hi.dying g y hy ha with ⟨h3, h4⟩ | h3
      · exact .inl ⟨h3, by simpa using h4⟩
      · exact .inr h3
    · exact hi.paired.tail
    · obtain ⟨l1, l2⟩ := hi.logged
      refine ⟨l1, fun t => ?_⟩
      rw [refsOf_set h1]
      show t ∈ w.log.map (·.1) ↔ t < (w.slots.set s _).length ∧ _
      rw [l2 t, List.length_set]
      by_cases hst : s = t
      · subst hst
        simp only [if_true]
        constructor
        · rintro ⟨_, h⟩; omega
        · rintro ⟨_, h⟩; omega
      · simp [hst]

theorem inv_sender {w : World} {acts : List Act} (hi : Inv w acts) {s : SlotId} {x : Slot}
    (h1 : w.slots[s]? = some x) : Inv (w.setSlot s { x with sender := none }) acts := by
  have hr : ∀ t, refsOf (w.setSlot s { x with sender := none }) t = refsOf w t := by
    intro t
    rw [refsOf_set h1]
    by_cases hst : s = t
    · subst hst; rw [if_pos rfl, refsOf_some h1]
    · rw [if_neg hst]
  have ht : ∀ f : Slot → Nat, f { x with sender := none } = f x →
      total f (w.slots.set s { x with sender := none }) = total f w.slots := by
    intro f hf
    have := total_set f h1 { x with sender := none }
    omega
  refine ⟨?_, ?_, hi.lock, ?_, hi.dying, hi.paired, ?_⟩
  · intro t
    rw [hr t, hi.refs t]
    unfold refCount
    show _ = _ + _ + total _ (w.slots.set s _) + _
    rw [ht _ rfl]
    rfl
  · intro g
    rw [show aliveOf (w.setSlot s { x with sender := none }) g = aliveOf w g from rfl, ← hi.own g]
    unfold ownCount
    show _ + total _ (w.slots.set s _) + _ = _
    rw [ht _ rfl]
    rfl
  · intro t z g hz hs
    have hz' : (w.slots.set s { x with sender := none })[t]? = some z := hz
    rw [getElem?_set_some h1] at hz'
    split at hz'
    · cases hz'; cases hs
    · exact hi.member t z g hz' hs
  · refine ⟨hi.logged.1, fun t => ?_⟩
    rw [hr t]
    show _ ↔ t < (w.slots.set s _).length ∧ _
    rw [List.length_set]
    exact hi.logged.2 t

theorem inv_sig {w : World} {acts acts' : List Act} {g : SigId} {y y' : Sig} (hi : Inv w acts)
    (hy : w.sigs[g]? = some y)
    (href : ∀ s, y'.slots.count s + total (Act.refs s) acts' = y.slots.count s + total (Act.refs s) acts)
    (hown : ∀ k, total (Act.owns k) acts' + (if g = k then y.alive.toNat else 0) =
      total (Act.owns k) acts + (if g = k then y'.alive.toNat else 0))
    (hlock : ∀ k, total (Act.unlocks k) acts' + (if g = k then y.locked.toNat else 0) =
      total (Act.unlocks k) acts + (if g = k then y'.locked.toNat else 0))
    (hmem : ∀ (s : SlotId) (x : Slot), w.slots[s]? = some x → x.sender = some g → s ∈ y.slots → s ∈ y'.slots)
    (hdy : y'.alive = false → (y'.locked = true ∧ .purge g ∈ acts') ∨ y'.slots = [])
    (hpu : ∀ k, g ≠ k → .purge k ∈ acts → .purge k ∈ acts') (hp : Paired acts') :
    Inv (w.setSig g y') acts' := by
  refine ⟨?_, ?_, ?_, ?_, ?_, hp, hi.logged⟩
  · intro t
    have e1 := hi.refs t
    have e2 := total_set (fun y : Sig => y.slots.count t) hy y'
    have e3 := href t
    show refsOf w t = _
    unfold refCount at e1 ⊢
    show _ = total _ (w.sigs.set g y') + total _ w.held + total _ w.slots + _
    have e2 : total (fun y : Sig => y.slots.count t) (w.sigs.set g y') + y.slots.count t =
      total (fun y : Sig => y.slots.count t) w.sigs + y'.slots.count t := e2
    omega
  · intro k
    have e1 := hi.own k
    have e2 := hown k
    rw [aliveOf_set hy]
    unfold ownCount at e1 ⊢
    show total _ w.held + total _ w.slots + _ = _
    by_cases hk : g = k
    · subst hk
      rw [if_pos rfl] at e2 ⊢
      rw [if_pos rfl] at e2
      have : aliveOf w g = y.alive := by unfold aliveOf; rw [hy]; rfl
      rw [this] at e1
      omega
    · rw [if_neg hk] at e2 ⊢
      rw [if_neg hk] at e2
      omega
  · intro k
    have e1 := hi.lock k
    have e2 := hlock k
    rw [lockedOf_set hy]
    by_cases hk : g = k
    · subst hk
      rw [if_pos rfl] at e2 ⊢
      rw [if_pos rfl] at e2
      have : lockedOf w g = y.locked := by unfold lockedOf; rw [hy]; rfl
      rw [this] at e1
      omega
    · rw [if_neg hk] at e2 ⊢
      rw [if_neg hk] at e2
      omega
  · intro s x k hx hs
    obtain ⟨z, h1, h2⟩ := hi.member s x k hx hs
    by_cases hk : g = k
    · subst hk
      rw [hy] at h1; cases h1
      exact ⟨y', by show (w.sigs.set g y')[g]? = _; rw [getElem?_set_some hy]; simp, hmem s x hx hs h2⟩
    · exact ⟨z, by show (w.sigs.set g y')[k]? = _; rw [getElem?_set_some hy, if_neg hk]; exact h1, h2⟩
  · intro k z hz ha
    have hz' : (w.sigs.set g y')[k]? = some z := hz
    rw [getElem?_set_some hy] at hz'
    split at hz'
    · rename_i hk; subst hk; cases hz'
      exact hdy ha
    · rename_i hk
      rcases hi.dying k z hz' ha with ⟨h3, h4⟩ | h3
      · exact .inl ⟨h3, hpu k hk h4⟩
      · exact .inr h3

theorem lockedOf_some {w : World} {g : SigId} {y : Sig} (hy : w.sigs[g]? = some y) : lockedOf w g = y.locked := by
  unfold lockedOf; rw [hy]; rfl

theorem aliveOf_some {w : World} {g : SigId} {y : Sig} (hy : w.sigs[g]? = some y) : aliveOf w g = y.alive := by
  unfold aliveOf; rw [hy]; rfl

/-- An action that unlocks a signal is there only while it is locked. -/
theorem unlocker {w : World} {acts : List Act} (hi : Inv w acts) {a : Act} (ha : a ∈ acts) {g : SigId}
    (h : a.unlocks g = 1) : ∃ y : Sig, w.sigs[g]? = some y ∧ y.locked = true := by
  have h1 := total_pos (Act.unlocks g) ha
  have h2 := hi.lock g
  cases hy : w.sigs[g]? with
  | none => simp [lockedOf, hy] at h2; omega
  | some y =>
    refine ⟨y, rfl, ?_⟩
    rw [lockedOf_some hy] at h2
    cases hl : y.locked
    · rw [hl] at h2; simp at h2; omega
    · rfl

theorem count_erase {l : List Nat} {s : Nat} (h : s ∈ l) (t : Nat) :
    (l.erase s).count t + (if s = t then 1 else 0) = l.count t := by
  have hp := List.perm_cons_erase h
  rw [hp.count_eq t, List.count_cons]
  by_cases hst : s = t <;> simp [hst]

theorem count_eraseIdx {l : List Nat} {k s : Nat} (h : l[k]? = some s) (t : Nat) :
    (l.eraseIdx k).count t + (if s = t then 1 else 0) = l.count t := by
  induction l generalizing k with
  | nil => simp at h
  | cons c l ih =>
    cases k with
    | zero => simp at h; subst h; simp [List.count_cons]
    | succ k =>
      simp at h
      have := ih h
      simp only [List.eraseIdx_cons_succ, List.count_cons]
      omega

theorem mem_eraseIdx {l : List Nat} {k s t : Nat} (h : l[k]? = some s) (ht : t ∈ l) (hst : s ≠ t) : t ∈ l.eraseIdx k := by
  have := count_eraseIdx h t
  rw [if_neg hst] at this
  have h2 := List.count_pos_iff.2 ht
  exact List.count_pos_iff.1 (by omega)

theorem unlock_inv {w : World} {g : SigId} {rest : List Act} (hi : Inv w (.unlock g :: rest)) :
    ∃ w' new, unlock w g = .ok (w', new) ∧ Inv w' (new ++ rest) := by
  obtain ⟨y, hy, hl⟩ := unlocker hi List.mem_cons_self (g := g) (by simp [Act.unlocks])
  unfold unlock
  rw [hy]
  refine ⟨_, _, rfl, inv_sig hi hy ?_ ?_ ?_ (fun _ _ _ _ h => h) ?_ ?_ hi.paired.tail⟩
  · intro s; simp [total_cons, Act.refs]
  · intro k; simp [total_cons, Act.owns]
  · intro k
    rw [List.nil_append, total_cons, hl]
    by_cases hk : g = k <;> simp [hk, Act.unlocks]
    omega
  · intro ha
    rcases hi.dying g y hy ha with ⟨_, h4⟩ | h3
    · have e := hi.lock g
      rw [lockedOf_some hy, hl, total_cons] at e
      have h4 : Act.purge g ∈ rest := by simpa using h4
      have := total_pos (Act.unlocks g) h4
      simp [Act.unlocks] at e this
      omega
    · exact .inr h3
  · intro k _ h; simpa using h

theorem purge_inv {w : World} {g : SigId} {rest : List Act} (hi : Inv w (.purge g :: rest)) :
    ∃ w' new, purge w g = .ok (w', new) ∧ Inv w' (new ++ rest) := by
  obtain ⟨y, hy, hl⟩ := unlocker hi List.mem_cons_self (g := g) (by simp [Act.unlocks])
  unfold purge
  rw [hy]
  dsimp only
  cases hs : y.slots with
  | nil =>
    refine ⟨_, _, rfl, inv_sig hi hy ?_ ?_ ?_ (fun _ _ _ _ h => hs ▸ h) ?_ ?_ hi.paired.tail⟩
    · intro s; simp [total_cons, Act.refs, hs]
    · intro k; simp [total_cons, Act.owns]
    · intro k
      rw [List.nil_append, total_cons, hl]
      by_cases hk : g = k <;> simp [hk, Act.unlocks]
      omega
    · intro _; exact .inr rfl
    · intro k hk h; simpa [Ne.symm hk] using h
  | cons s more =>
    obtain ⟨x, hx⟩ := refs_pos hi (mem_refCount hy (s := s) (by rw [hs]; simp))
    have ⟨h1, h2⟩ := slot?_some.1 hx
    dsimp only
    rw [hx]
    refine ⟨_, _, rfl, inv_sig (inv_sender hi h1) hy ?_ ?_ ?_ ?_ ?_ ?_ ?_⟩
    · intro t
      rw [hs]
      simp only [List.cons_append, List.nil_append, total_cons, Act.refs, List.count_cons]
      by_cases hst : s = t <;> simp [hst]
      omega
    · intro k; simp [total_cons, Act.owns]
    · intro k
      simp only [List.cons_append, List.nil_append, total_cons, hl]
      by_cases hk : g = k <;> simp [hk, Act.unlocks]
    · intro t z hz hzs ht
      rw [hs] at ht
      rcases List.mem_cons.1 ht with rfl | ht
      · have hz' : (w.slots.set t { x with sender := none })[t]? = some z := hz
        rw [getElem?_set_some h1, if_pos rfl] at hz'
        cases hz'; cases hzs
      · exact ht
    · intro _; exact .inl ⟨hl, by simp⟩
    · intro k hk h; simpa using h
    · exact hi.paired.tail

theorem clean_inv {w : World} {g : SigId} {k : Nat} {rest : List Act} (hi : Inv w (.clean g k :: rest)) :
    ∃ w' new, clean w g k = .ok (w', new) ∧ Inv w' (new ++ rest) := by
  obtain ⟨y, hy, hl⟩ := unlocker hi List.mem_cons_self (g := g) (by simp [Act.unlocks])
  have hdead : ∀ (P : Prop), y.alive = false → P ∨ y.slots = [] := by
    intro P ha
    rcases hi.dying g y hy ha with ⟨_, h4⟩ | h3
    · have e := hi.lock g
      rw [lockedOf_some hy, hl, total_cons] at e
      have h4 : Act.purge g ∈ rest := by simpa using h4
      have := total_pos (Act.unlocks g) h4
      simp [Act.unlocks] at e this
      omega
    · exact .inr h3
  unfold clean
  rw [hy]
  dsimp only
  cases hs : y.slots[k]? with
  | none =>
    refine ⟨_, _, rfl, inv_sig hi hy ?_ ?_ ?_ (fun _ _ _ _ h => h) ?_ ?_ hi.paired.tail⟩
    · intro s; simp [total_cons, Act.refs]
    · intro k; simp [total_cons, Act.owns]
    · intro j
      rw [List.nil_append, total_cons, hl]
      by_cases hk : g = j <;> simp [hk, Act.unlocks]
      omega
    · exact hdead _
    · intro k hk h; simpa using h
  | some s =>
    have hm : s ∈ y.slots := List.mem_of_getElem? hs
    obtain ⟨x, hx⟩ := refs_pos hi (mem_refCount hy hm)
    have ⟨h1, h2⟩ := slot?_some.1 hx
    dsimp only
    rw [hx]
    dsimp only
    by_cases hsend : x.sender.isSome = true
    · rw [if_pos hsend]
      refine ⟨_, _, rfl, hi.refs, hi.own, hi.lock, hi.member, ?_, hi.paired, hi.logged⟩
      intro k z hz ha
      rcases hi.dying k z hz ha with ⟨h3, h4⟩ | h3
      · exact .inl ⟨h3, by simpa using h4⟩
      · exact .inr h3
    · rw [if_neg hsend]
      refine ⟨_, _, rfl, inv_sig hi hy ?_ ?_ ?_ ?_ ?_ ?_ ?_⟩
      · intro t
        have := count_eraseIdx hs t
        simp only [List.cons_append, List.nil_append, total_cons, Act.refs]
        omega
      · intro k; simp [total_cons, Act.owns]
      · intro j
        simp only [List.cons_append, List.nil_append, total_cons, hl]
        by_cases hk : g = j <;> simp [hk, Act.unlocks]
      · intro t z hz hzs ht
        refine mem_eraseIdx hs ht ?_
        rintro rfl
        rw [h1] at hz; cases hz
        rw [hzs] at hsend; simp at hsend
      · intro ha
        rcases hdead False ha with h | h
        · exact h.elim
        · rw [h] at hm; cases hm
      · intro j _ h; simpa using h
      · exact hi.paired.tail

/-- The outcome of a step keeps the invariant, or is one of the two failures. -/
def Kept (rest : List Act) : Outcome (World × List Act) → Prop
  | .ok (w', new) => Inv w' (new ++ rest)
  | .relock _ => True
  | .misuse _ => True
  | .ub => False

theorem disconnect_inv {w : World} {s : SlotId} {rest : List Act} (hi : Inv w (.disconnect s :: rest)) :
    Kept rest (disconnect w s) := by
  have hp := hi.paired
  simp only [Paired] at hp
  have hc : refCount w (.disconnect s :: rest) s ≠ 0 := by
    have h1 : Act.release s ∈ rest := List.mem_of_mem_head? hp.1
    have := total_pos (Act.refs s) h1
    unfold refCount; rw [total_cons]; simp only [Act.refs, if_true] at this ⊢; omega
  obtain ⟨x, hx⟩ := refs_pos hi hc
  have ⟨h1, h2⟩ := slot?_some.1 hx
  have hpur : ∀ k, .purge k ∈ Act.disconnect s :: rest → .purge k ∈ rest := by intro k h; simpa using h
  have hi' : Inv w rest := by
    refine ⟨?_, ?_, ?_, hi.member, ?_, hp.2, hi.logged⟩
    · intro t; rw [hi.refs t]; simp [refCount, total_cons, Act.refs]
    · intro g; rw [← hi.own g]; simp [ownCount, total_cons, Act.owns]
    · intro g; rw [← hi.lock g]; simp [total_cons, Act.unlocks]
    · intro k z hz ha
      rcases hi.dying k z hz ha with ⟨h3, h4⟩ | h3
      · exact .inl ⟨h3, hpur k h4⟩
      · exact .inr h3
  unfold disconnect
  rw [hx]
  dsimp only
  cases hg : x.sender with
  | none => exact hi'
  | some g =>
    obtain ⟨y, hy, hm⟩ := hi.member s x g h1 hg
    dsimp only
    rw [hy]
    dsimp only
    cases hl : y.locked
    · have ha : y.alive = true := by
        cases ha : y.alive
        · rcases hi.dying g y hy ha with ⟨h3, _⟩ | h3
          · rw [hl] at h3; cases h3
          · rw [h3] at hm; cases hm
        · rfl
      rw [ha]
      rw [if_neg (by simp), if_neg (by simp), if_pos hm]
      have hs' := inv_sender hi' h1
      by_cases he : y.emitting = 0
      · rw [if_pos he]
        refine inv_sig hs' hy ?_ ?_ ?_ ?_ (fun h => by cases h) (fun _ _ h => by simp [h]) hp.2
        · intro t
          have := count_erase hm t
          simp only [List.cons_append, List.nil_append, total_cons, Act.refs]
          omega
        · intro k; simp [total_cons, Act.owns, ha]
        · intro k
          simp only [List.cons_append, List.nil_append, total_cons, hl]
          by_cases hk : g = k <;> simp [hk, Act.unlocks]
          omega
        · intro t z hz hzs ht
          have hst : t ≠ s := by
            rintro rfl
            have hz' : (w.slots.set t { x with sender := none })[t]? = some z := hz
            rw [getElem?_set_some h1, if_pos rfl] at hz'
            cases hz'; cases hzs
          exact (List.mem_erase_of_ne hst).2 ht
      · rw [if_neg he]
        refine inv_sig hs' hy ?_ ?_ ?_ (fun _ _ _ _ h => h) (fun h => by cases h) (fun _ _ h => by simp [h]) hp.2
        · intro t; simp [total_cons, Act.refs]
        · intro k; simp [total_cons, Act.owns, ha]
        · intro k
          simp only [List.cons_append, List.nil_append, total_cons, hl]
          by_cases hk : g = k <;> simp [hk, Act.unlocks]
          omega
    · rw [if_pos rfl]; trivial

theorem drop_inv {w : World} {o : Owned} {rest : List Act} (hi : Inv w (.drop o :: rest)) :
    Kept rest (drop w o) := by
  have hpur : ∀ k, .purge k ∈ Act.drop o :: rest → .purge k ∈ rest := by intro k h; simpa using h
  have hdy : ∀ (new : List Act) (k : SigId) (z : Sig), w.sigs[k]? = some z → z.alive = false →
      (z.locked = true ∧ .purge k ∈ new ++ rest) ∨ z.slots = [] := by
    intro new k z hz ha
    rcases hi.dying k z hz ha with ⟨h3, h4⟩ | h3
    · exact .inl ⟨h3, List.mem_append_right _ (hpur k h4)⟩
    · exact .inr h3
  cases o with
  | conn s =>
    refine ⟨?_, ?_, ?_, hi.member, hdy _, hi.paired.tail, hi.logged⟩
    · intro t; rw [hi.refs t]; simp [refCount, total_cons, Act.refs, refTo]
    · intro g; rw [← hi.own g]; simp [ownCount, total_cons, Act.owns, ownTo]
    · intro g; rw [← hi.lock g]; simp [total_cons, Act.unlocks]
  | guard s =>
    refine ⟨?_, ?_, ?_, hi.member, hdy _, ⟨rfl, hi.paired.tail⟩, hi.logged⟩
    · intro t; rw [hi.refs t]; simp [refCount, total_cons, Act.refs, refTo]
    · intro g; rw [← hi.own g]; simp [ownCount, total_cons, Act.owns, ownTo]
    · intro g; rw [← hi.lock g]; simp [total_cons, Act.unlocks]
  | sig g =>
    have ho := hi.own g
    have hoc : 0 < ownCount w (.drop (.sig g) :: rest) g := by
      unfold ownCount; rw [total_cons]; simp only [Act.owns, ownTo, if_true]; omega
    unfold drop
    dsimp only
    cases hy : w.sigs[g]? with
    | none => simp [aliveOf, hy] at ho; omega
    | some y =>
      dsimp only
      rw [aliveOf_some hy] at ho
      cases ha : y.alive
      · rw [ha] at ho; simp at ho; omega
      · rw [if_neg (by simp)]
        cases hl : y.locked
        · rw [if_neg (by simp)]
          by_cases he : y.emitting ≠ 0
          · rw [if_pos he]; trivial
          · rw [if_neg he]
            refine inv_sig hi hy ?_ ?_ ?_ (fun _ _ _ _ h => h) (fun _ => .inl ⟨rfl, by simp⟩) ?_ hi.paired.tail
            · intro t; simp [total_cons, Act.refs, refTo]
            · intro k
              simp only [List.cons_append, List.nil_append, total_cons, ha]
              by_cases hk : g = k <;> simp [hk, Act.owns, ownTo]
              omega
            · intro k
              simp only [List.cons_append, List.nil_append, total_cons, hl]
              by_cases hk : g = k <;> simp [hk, Act.unlocks]
              omega
            · intro k _ h; exact List.mem_append_right _ (hpur k h)
        · rw [if_pos rfl]; trivial

/-- The invariant is kept by every step, and no step uses what has been destroyed. -/
theorem step_inv {w : World} {a : Act} {rest : List Act} (hi : Inv w (a :: rest)) : Kept rest (step w a) := by
  cases a with
  | release s => obtain ⟨w', new, h, h'⟩ := release_inv hi; rw [step, h]; exact h'
  | drop o => exact drop_inv hi
  | disconnect s => exact disconnect_inv hi
  | unlock g => obtain ⟨w', new, h, h'⟩ := unlock_inv hi; rw [step, h]; exact h'
  | purge g => obtain ⟨w', new, h, h'⟩ := purge_inv hi; rw [step, h]; exact h'
  | clean g k => obtain ⟨w', new, h, h'⟩ := clean_inv hi; rw [step, h]; exact h'

end Verif.Targets
