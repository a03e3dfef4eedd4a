import Verif.Resource.Values
/-
`visit` finds exactly the node to which the path leads.
-/
namespace Verif.Resource
open Verif.Path Verif.Resource.Spec

/-- The node a step arrives at. -/
def stepNode : Step → Node
  | .field _ a => .field a
  | .child key _ => .elem (some key)
  | _ => .elem none

/-- The access context after a step from `n`. -/
def stepCtx (c : Access) (n : Node) : Step → Access
  | .field i _ => c.updateField n i
  | _ => c.update n

def endNode : Node → List Step → Node
  | n, [] => n
  | _, s :: ss => endNode (stepNode s) ss

def endCtx : Access → Node → List Step → Access
  | c, _, [] => c
  | c, n, s :: ss => endCtx (stepCtx c n s) (stepNode s) ss

/-! ### Indices -/

theorem isDigit_iff (c : Byte) : isDigit c = true ↔ digit c := by
  simp [isDigit, digit]

theorem foldl_decimal (s : Str) (n : Nat) :
    s.foldl (fun n c => n * 10 + (c.toNat - 48)) n = n * 10 ^ s.length + decimal s := by
  induction s generalizing n with
  | nil => simp [decimal]
  | cons c s ih =>
    simp only [List.foldl_cons, ih, decimal, List.length_cons, Nat.pow_succ, Nat.add_mul]
    have : n * 10 * 10 ^ s.length = n * (10 ^ s.length * 10) := by
      rw [Nat.mul_assoc, Nat.mul_comm 10]
    omega

theorem parseIndex_iff (s : Str) (i : Nat) : parseIndex s = some i ↔ IndexText s i := by
  unfold parseIndex IndexText
  have hall : (s.all isDigit = true) ↔ ∀ c ∈ s, digit c := by
    simp only [List.all_eq_true, isDigit_iff]
  have hf := foldl_decimal s 0
  simp only [Nat.zero_mul, Nat.zero_add] at hf
  cases s with
  | nil => simp
  | cons c s =>
    rw [if_neg (by simp)]
    by_cases hd : ∀ x ∈ c :: s, digit x
    · rw [if_pos (hall.2 hd)]
      simp only [hf]
      constructor
      · intro h
        split at h
        · cases h; exact ⟨by simp, hd, rfl, by assumption⟩
        · cases h
      · rintro ⟨_, _, h3, h4⟩
        rw [h3, if_pos h4]
    · rw [if_neg (fun h => hd (hall.1 h))]
      constructor
      · intro h; cases h
      · exact fun h => absurd h.2.1 hd

/-! ### Keyed children -/

theorem member_iff {v : Value} {k : Nat} {key : Value} : member v k = some key ↔ KeyOf k v key := by
  unfold member KeyOf
  cases v <;> simp

theorem matchesAt_iff {β : Type} {E : Env β} {t : Ty} {vs : List Value} {s : Str} {k i : Nat} :
    MatchesAt E t vs s k i ↔ ∃ v, vs[i]? = some v ∧
      ((member v k).any fun key => E.keyMatches t v key s) = true := by
  unfold MatchesAt
  constructor
  · rintro ⟨v, key, h1, h2, h3⟩
    exact ⟨v, h1, by rw [member_iff.2 h2]; simpa using h3⟩
  · rintro ⟨v, h1, h2⟩
    cases hm : member v k with
    | none => rw [hm] at h2; simp at h2
    | some key => rw [hm] at h2; exact ⟨v, key, h1, member_iff.1 hm, by simpa using h2⟩

theorem findIdx?_some_iff {p : Value → Bool} {vs : List Value} {i : Nat} :
    vs.findIdx? p = some i ↔ (∃ v, vs[i]? = some v ∧ p v = true) ∧
      ∀ j < i, ¬ ∃ v, vs[j]? = some v ∧ p v = true := by
  rw [List.findIdx?_eq_some_iff_getElem]
  constructor
  · rintro ⟨h, h1, h2⟩
    refine ⟨⟨vs[i], by simp [h], h1⟩, ?_⟩
    rintro j hj ⟨v, hv, hp⟩
    have hjl : j < vs.length := by omega
    rw [List.getElem?_eq_getElem hjl] at hv
    cases hv
    exact absurd hp (by simpa using h2 j hj)
  · rintro ⟨⟨v, hv, hp⟩, h2⟩
    obtain ⟨hi, he⟩ := List.getElem?_eq_some_iff.1 hv
    refine ⟨hi, by rw [he]; exact hp, ?_⟩
    intro j hj
    have hjl : j < vs.length := by omega
    exact fun h => h2 j hj ⟨vs[j], by simp [hjl], h⟩

theorem findKeyed_some {β : Type} {E : Env β} {t : Ty} {vs : List Value} {s : Str} {ks : List Nat}
    {k i : Nat} (h : findKeyed E t vs s ks = .ok (some (k, i))) : Selects E t vs s ks k i := by
  induction ks with
  | nil => cases h
  | cons k' ks ih =>
    unfold findKeyed at h
    split at h
    · split at h
      · rename_i hf
        cases h
        have := findIdx?_some_iff.1 hf
        refine ⟨[], ks, rfl, by simp, matchesAt_iff.2 this.1, fun j hj hm => this.2 j hj (matchesAt_iff.1 hm)⟩
      · rename_i hf
        obtain ⟨b, a, rfl, h1, h2⟩ := ih h
        refine ⟨k' :: b, a, rfl, ?_, h2⟩
        intro x hx j hm
        rcases List.mem_cons.1 hx with rfl | hx
        · obtain ⟨v, hv, hp⟩ := matchesAt_iff.1 hm
          have := List.findIdx?_eq_none_iff.1 hf v (List.mem_of_getElem? hv)
          simp [hp] at this
        · exact h1 x hx j hm
    · cases h

theorem findKeyed_of {β : Type} {E : Env β} {t : Ty} {vs : List Value} {s : Str} {ks : List Nat}
    (hm : ∀ k ∈ ks, ∀ v ∈ vs, (member v k).isSome = true) :
    (∀ {k i : Nat}, Selects E t vs s ks k i → findKeyed E t vs s ks = .ok (some (k, i))) ∧
    ((∀ k i, ¬ Selects E t vs s ks k i) → findKeyed E t vs s ks = .ok none) := by
  have key : ∃ r, findKeyed E t vs s ks = .ok r ∧ match r with
      | none => ∀ k ∈ ks, ∀ j, ¬ MatchesAt E t vs s k j
      | some (k, i) => Selects E t vs s ks k i := by
    induction ks with
    | nil => exact ⟨none, rfl, by simp⟩
    | cons k' ks ih =>
      obtain ⟨r, h1, h2⟩ := ih (fun k hk => hm k (by simp [hk]))
      have hall : (vs.all fun v => (member v k').isSome) = true := by
        simpa using hm k' (by simp)
      unfold findKeyed
      rw [if_pos hall]
      split
      · rename_i i hf
        refine ⟨_, rfl, ?_⟩
        have := findIdx?_some_iff.1 hf
        exact ⟨[], ks, rfl, by simp, matchesAt_iff.2 this.1, fun j hj hm => this.2 j hj (matchesAt_iff.1 hm)⟩
      · rename_i hf
        have hno : ∀ j, ¬ MatchesAt E t vs s k' j := by
          intro j hm
          obtain ⟨v, hv, hp⟩ := matchesAt_iff.1 hm
          have := List.findIdx?_eq_none_iff.1 hf v (List.mem_of_getElem? hv)
          simp [hp] at this
        refine ⟨r, h1, ?_⟩
        cases r with
        | none =>
          intro k hk
          rcases List.mem_cons.1 hk with rfl | hk
          · exact hno
          · exact h2 k hk
        | some ki =>
          obtain ⟨b, a, rfl, h3, h4⟩ := h2
          refine ⟨k' :: b, a, rfl, ?_, h4⟩
          intro x hx
          rcases List.mem_cons.1 hx with rfl | hx
          · exact hno
          · exact h3 x hx
  obtain ⟨r, h1, h2⟩ := key
  constructor
  · rintro k i ⟨b, a, hks, hb, hmi, hf⟩
    cases r with
    | none => exact absurd hmi (h2 k (by simp [hks]) i)
    | some ki =>
      obtain ⟨k2, i2⟩ := ki
      obtain ⟨b2, a2, hks2, hb2, hmi2, hf2⟩ := h2
      rw [h1]
      have hb' : b = b2 ∧ k = k2 := by
        rw [hks] at hks2
        rcases List.append_eq_append_iff.1 hks2 with ⟨c, e1, e2⟩ | ⟨c, e1, e2⟩
        · cases c with
          | nil => simp at e1 e2; exact ⟨e1.symm, e2.1⟩
          | cons x c =>
            simp at e2
            exact absurd hmi (hb2 k (by rw [e1, e2.1]; simp) i)
        · cases c with
          | nil => simp at e1 e2; exact ⟨e1, e2.1.symm⟩
          | cons x c =>
            simp at e2
            exact absurd hmi2 (hb k2 (by rw [e1, e2.1]; simp) i2)
      obtain ⟨-, rfl⟩ := hb'
      have : i = i2 := by
        rcases Nat.lt_trichotomy i i2 with h | h | h
        · exact absurd hmi (hf2 i h)
        · exact h
        · exact absurd hmi2 (hf i2 h)
      rw [this]
  · intro hn
    cases r with
    | none => exact h1
    | some ki => exact absurd h2 (hn _ _)

/-! ### `visit` is sound -/

theorem map_ok {α γ : Type} {e : Except Err α} {f : α → γ} {x : γ} (h : e.map f = .ok x) :
    ∃ a, e = .ok a ∧ f a = x := by
  cases e with
  | error e => cases h
  | ok a => exact ⟨a, rfl, by cases h; rfl⟩

/-- What a successful visit with `stop = 0` found. -/
structure Found {β : Type} (E : Env β) (t : Ty) (node : Node) (v : Value) (path : List Str) (c : Access)
    (n : Target) (steps : List Step) : Prop where
  leads : Leads E node.childKeys t v path steps n.ty n.val
  addr : n.addr = steps.map Step.pos
  node_ : n.node = endNode node steps
  ctx : n.ctx = endCtx c node steps
  rest : n.rest = []

mutual
theorem visit_found {β : Type} (E : Env β) (t : Ty) (node : Node) (v : Value) (path : List Str)
    (c : Access) (n : Target) (h : visit E 0 t node v path c = .ok n) :
    ∃ steps, Found E t node v path c n steps := by
  match t with
  | .leaf id =>
    unfold visit at h
    split at h
    · rename_i hp
      obtain rfl := List.length_eq_zero_iff.1 hp
      cases h; exact ⟨[], .here, rfl, rfl, rfl, rfl⟩
    · cases h
  | .record id fs =>
    unfold visit at h
    split at h
    · rename_i hp
      obtain rfl := List.length_eq_zero_iff.1 hp
      cases h; exact ⟨[], .here, rfl, rfl, rfl, rfl⟩
    · split at h
      · rename_i vs s rest _
        obtain ⟨j, a, t', v', steps, n', hj, hs, hfirst, hv, e, hf⟩ := visitFields_found E fs 0 vs node s rest c n h
        subst hs
        obtain ⟨h1, h2, h3, h4, h5⟩ := hf
        refine ⟨.field j a :: steps, ?_, ?_, ?_, ?_, ?_⟩
        · rw [e]; exact .field hj hfirst hv h1
        · rw [e]; simp [Target.under, h2, Step.pos]
        · rw [e]; exact h3
        · rw [e]; simpa [Target.under, endCtx, stepCtx, stepNode] using h4
        · rw [e]; exact h5
      · cases h
  | .opt t' =>
    unfold visit at h
    split at h
    · rename_i hp
      obtain rfl := List.length_eq_zero_iff.1 hp
      cases h; exact ⟨[], .here, rfl, rfl, rfl, rfl⟩
    · rename_i hp
      split at h
      · cases h
      · obtain ⟨n', h', rfl⟩ := map_ok h
        obtain ⟨steps, h1, h2, h3, h4, h5⟩ := visit_found E t' _ _ _ _ n' h'
        cases path with
        | nil => simp at hp
        | cons s path =>
          exact ⟨.unwrap :: steps, .unwrap h1, by simp [Target.under, h2, Step.pos], h3, h4, h5⟩
      · cases h
  | .map er t' =>
    unfold visit at h
    split at h
    · rename_i hp
      obtain rfl := List.length_eq_zero_iff.1 hp
      cases h; exact ⟨[], .here, rfl, rfl, rfl, rfl⟩
    · split at h
      · split at h
        · cases h
        · rename_i es s rest _ _ i hi
          split at h
          · cases h
          · rename_i e he
            obtain ⟨n', h', rfl⟩ := map_ok h
            obtain ⟨steps, h1, h2, h3, h4, h5⟩ := visit_found E t' _ _ _ _ n' h'
            unfold findKey at hi
            obtain ⟨hl, hk, -⟩ := List.findIdx?_eq_some_iff_getElem.1 hi
            have : e.1 = s := by
              rw [List.getElem?_eq_getElem hl] at he; cases he; simpa using hk
            refine ⟨.entry i :: steps, .entry (v := e.2) ?_ h1, by simp [Target.under, h2, Step.pos], h3, h4, h5⟩
            rw [he, ← this]
      · cases h
  | .seq k t' =>
    unfold visit at h
    split at h
    · rename_i hp
      obtain rfl := List.length_eq_zero_iff.1 hp
      cases h; exact ⟨[], .here, rfl, rfl, rfl, rfl⟩
    · split at h
      · split at h
        · split at h
          · cases h
          · cases h
          · rename_i key i hf
            split at h
            · cases h
            · rename_i w hw
              obtain ⟨n', h', rfl⟩ := map_ok h
              obtain ⟨steps, h1, h2, h3, h4, h5⟩ := visit_found E t' _ _ _ _ n' h'
              exact ⟨.child key i :: steps, .child (findKeyed_some hf) hw h1, by simp [Target.under, h2, Step.pos], h3, h4, h5⟩
        · rename_i hks
          simp only [ne_eq, Decidable.not_not] at hks
          split at h
          · rename_i hat
            split at h
            · cases h
            · rename_i i hi
              split at h
              · cases h
              · rename_i w hw
                obtain ⟨n', h', rfl⟩ := map_ok h
                obtain ⟨steps, h1, h2, h3, h4, h5⟩ := visit_found E t' _ _ _ _ n' h'
                refine ⟨.item i :: steps, ?_, by simp [Target.under, h2, Step.pos], h3, h4, h5⟩
                rw [hks]
                exact .item hat ((parseIndex_iff _ _).1 hi) hw h1
          · cases h
      · cases h
theorem visitFields_found {β : Type} (E : Env β) (fs : Fields) (i : Nat) (vs : List Value) (node : Node)
    (s : Str) (rest : List Str) (c : Access) (n : Target)
    (h : visitFields E 0 fs i vs node s rest c = .ok n) :
    ∃ j a t v steps n', (fieldList fs)[j]? = some (a, t) ∧ s = a.name ∧
      (∀ j' < j, ∀ b u, (fieldList fs)[j']? = some (b, u) → b.name ≠ a.name) ∧ vs[j]? = some v ∧
      n = Target.under (i + j) n' ∧
      Found E t (.field a) v rest (c.updateField node (i + j)) n' steps := by
  match fs, vs with
  | .nil, _ => unfold visitFields at h; cases h
  | .cons _ _ _, [] => unfold visitFields at h; cases h
  | .cons a t fs, v :: vs =>
    unfold visitFields at h
    split at h
    · rename_i hne
      obtain ⟨j, b, u, w, steps, n', h1, h2, h3, h4, h5, h6⟩ := visitFields_found E fs (i + 1) vs node s rest c n h
      rw [Nat.add_right_comm] at h5 h6
      refine ⟨j + 1, b, u, w, steps, n', h1, h2, ?_, h4, h5, h6⟩
      intro j' hj' b' u' hb'
      cases j' with
      | zero => simp [fieldList] at hb'; obtain ⟨rfl, rfl⟩ := hb'; rw [← h2]; exact fun h => hne h.symm
      | succ j' => exact h3 j' (by omega) b' u' hb'
    · rename_i hne
      simp only [ne_eq, Decidable.not_not] at hne
      obtain ⟨n', h', rfl⟩ := map_ok h
      obtain ⟨steps, hf⟩ := visit_found E t _ _ _ _ n' h'
      exact ⟨0, a, t, v, steps, n', rfl, hne, by omega, rfl, rfl, hf⟩
end

/-! ### `visit` is complete and never stuck on typed values -/

theorem hasTys_length {fs : Fields} {vs : List Value} (h : HasTys fs vs) :
    vs.length = (fieldList fs).length := by
  match fs, vs with
  | .nil, [] => rfl
  | .cons _ _ fs, v :: vs =>
    simp only [HasTys] at h
    simp [fieldList, hasTys_length h.2]
  | .nil, _ :: _ => simp [HasTys] at h
  | .cons _ _ _, [] => simp [HasTys] at h

theorem hasTys_get {fs : Fields} {vs : List Value} (h : HasTys fs vs) {i : Nat} {a : Attrs} {t : Ty}
    {v : Value} (h1 : (fieldList fs)[i]? = some (a, t)) (h2 : vs[i]? = some v) : HasTy t v := by
  match fs, vs, i with
  | .nil, _, _ => simp [fieldList] at h1
  | .cons _ _ _, [], _ => simp at h2
  | .cons b u fs, w :: vs, 0 =>
    simp [fieldList] at h1 h2
    simp only [HasTys] at h
    obtain ⟨rfl, rfl⟩ := h1; subst h2; exact h.1
  | .cons b u fs, w :: vs, i + 1 =>
    simp only [HasTys] at h
    exact hasTys_get h.2 (i := i) (by simpa [fieldList] using h1) (by simpa using h2)

theorem fieldsOk_get {fs : Fields} (h : fieldsOk fs = true) {i : Nat} {a : Attrs} {t : Ty}
    (h1 : (fieldList fs)[i]? = some (a, t)) : keysOk a t = true ∧ tyOk t = true := by
  match fs, i with
  | .nil, _ => simp [fieldList] at h1
  | .cons b u fs, 0 =>
    simp [fieldList] at h1
    simp only [fieldsOk, Bool.and_eq_true] at h
    obtain ⟨rfl, rfl⟩ := h1; exact h.1
  | .cons b u fs, i + 1 =>
    simp only [fieldsOk, Bool.and_eq_true] at h
    exact fieldsOk_get h.2 (i := i) (by simpa [fieldList] using h1)

/-- The child keys of the node fit its type. -/
def nodeOk (node : Node) (t : Ty) : Prop := ∀ a, node = .field a → keysOk a t = true

theorem nodeOk_elem (k : Option Nat) (t : Ty) : nodeOk (.elem k) t := fun _ h => by cases h
theorem nodeOk_root (t : Ty) : nodeOk .root t := fun _ h => by cases h

theorem members_ok {node : Node} {k : SeqKind} {t : Ty} {vs : List Value}
    (hn : nodeOk node (.seq k t)) (hv : ∀ v ∈ vs, HasTy t v) :
    ∀ k ∈ node.childKeys, ∀ v ∈ vs, (member v k).isSome = true := by
  intro j hj v hm
  cases node with
  | root => simp [Node.childKeys] at hj
  | elem _ => simp [Node.childKeys] at hj
  | field a =>
    have hk := hn a rfl
    simp only [Node.childKeys] at hj
    have hty := hv v hm
    cases t with
    | record id gs =>
      simp only [keysOk, List.all_eq_true, decide_eq_true_eq] at hk
      cases v with
      | record ws =>
        simp only [HasTy] at hty
        have := hk j hj
        rw [← hasTys_length hty] at this
        simp [member, this]
      | _ => simp [HasTy] at hty
    | _ => simp only [keysOk, List.isEmpty_iff] at hk; rw [hk] at hj; simp at hj

theorem childKeys_nil {node : Node} {t : Ty} (hn : nodeOk node t) (ht : ∀ k u, t ≠ .seq k u) :
    node.childKeys = [] := by
  cases node with
  | root => rfl
  | elem _ => rfl
  | field a =>
    have := hn a rfl
    cases t with
    | seq k u => exact absurd rfl (ht k u)
    | _ => simpa [keysOk, Node.childKeys] using this

/-- Errors that mean 404. -/
def isMissing : Err → Prop
  | .throws .segmentNotFound => True
  | .throws .notTraversable => True
  | _ => False

/-- The visit either finds a node or reports a missing one. -/
def Proper (r : Except Err Target) : Prop := ∀ e, r = .error e → isMissing e

theorem proper_ok (n : Target) : Proper (.ok n) := fun _ h => by cases h
theorem proper_map {r : Except Err Target} (f : Target → Target) (h : Proper r) : Proper (r.map f) := by
  cases r with
  | ok n => exact proper_ok _
  | error e => exact fun e' h' => h e' (by cases h'; rfl)
theorem proper_missing {e : Err} (h : isMissing e) : Proper (.error e) := fun e' h' => by
  cases h'; exact h

mutual
theorem visit_proper {β : Type} (E : Env β) (t : Ty) (node : Node) (v : Value) (path : List Str)
    (c : Access) (hv : HasTy t v) (ht : tyOk t = true) (hn : nodeOk node t) :
    Proper (visit E 0 t node v path c) := by
  match t with
  | .leaf id =>
    unfold visit
    split
    · exact proper_ok _
    · exact proper_missing trivial
  | .record id fs =>
    unfold visit
    split
    · exact proper_ok _
    · rename_i hp
      cases v with
      | record vs =>
        cases path with
        | nil => exact absurd rfl hp
        | cons s rest =>
          simp only [HasTy] at hv
          simp only [tyOk] at ht
          exact visitFields_proper E fs 0 vs node s rest c hv ht
      | _ => simp [HasTy] at hv
  | .opt t' =>
    unfold visit
    split
    · exact proper_ok _
    · cases v with
      | opt o =>
        cases o with
        | none => exact proper_missing trivial
        | some w =>
          simp only [HasTy] at hv
          simp only [tyOk] at ht
          exact proper_map _ (visit_proper E t' _ w path _ (hv w rfl) ht (nodeOk_elem _ _))
      | _ => simp [HasTy] at hv
  | .map er t' =>
    unfold visit
    split
    · exact proper_ok _
    · rename_i hp
      cases v with
      | map es =>
        cases path with
        | nil => exact absurd rfl hp
        | cons s rest =>
          simp only [HasTy] at hv
          simp only [tyOk] at ht
          simp only
          split
          · exact proper_missing trivial
          · rename_i i hi
            split
            · rename_i hnone
              obtain ⟨hl, -, -⟩ := List.findIdx?_eq_some_iff_getElem.1 hi
              rw [List.getElem?_eq_getElem hl] at hnone
              cases hnone
            · rename_i e he
              exact proper_map _ (visit_proper E t' _ _ rest _ (hv.2 e (List.mem_of_getElem? he)) ht (nodeOk_elem _ _))
      | _ => simp [HasTy] at hv
  | .seq k t' =>
    unfold visit
    split
    · exact proper_ok _
    · rename_i hp
      cases v with
      | seq vs =>
        cases path with
        | nil => exact absurd rfl hp
        | cons s rest =>
          simp only [HasTy] at hv
          simp only [tyOk] at ht
          simp only
          split
          · have hm := members_ok hn hv
            by_cases hs : ∃ k i, Selects E t' vs s node.childKeys k i
            · obtain ⟨key, i, hs⟩ := hs
              rw [(findKeyed_of hm).1 hs]
              obtain ⟨_, _, _, _, ⟨w, _, hw, _, _⟩, _⟩ := hs
              simp only [hw]
              exact proper_map _ (visit_proper E t' _ w rest _ (hv w (List.mem_of_getElem? hw)) ht (nodeOk_elem _ _))
            · rw [(findKeyed_of hm).2 (fun k i h => hs ⟨k, i, h⟩)]
              exact proper_missing trivial
          · split
            · split
              · exact proper_missing trivial
              · split
                · exact proper_missing trivial
                · rename_i w hw
                  exact proper_map _ (visit_proper E t' _ w rest _ (hv w (List.mem_of_getElem? hw)) ht (nodeOk_elem _ _))
            · exact proper_missing trivial
      | _ => simp [HasTy] at hv
theorem visitFields_proper {β : Type} (E : Env β) (fs : Fields) (i : Nat) (vs : List Value) (node : Node)
    (s : Str) (rest : List Str) (c : Access) (hv : HasTys fs vs) (ht : fieldsOk fs = true) :
    Proper (visitFields E 0 fs i vs node s rest c) := by
  match fs, vs with
  | .nil, _ => unfold visitFields; exact proper_missing trivial
  | .cons _ _ _, [] => simp [HasTys] at hv
  | .cons a t fs, v :: vs =>
    simp only [HasTys] at hv
    simp only [fieldsOk, Bool.and_eq_true] at ht
    unfold visitFields
    split
    · exact visitFields_proper E fs (i + 1) vs node s rest c hv.2 ht.2
    · exact proper_map _ (visit_proper E t _ v rest _ hv.1 ht.1.2 (fun b hb => by cases hb; exact ht.1.1))
end

theorem visitFields_of {β : Type} {E : Env β} {stop : Nat} {fs : Fields} {vs : List Value} {node : Node}
    {rest : List Str} {c : Access} {j : Nat} {a : Attrs} {t : Ty} {v : Value}
    (h1 : (fieldList fs)[j]? = some (a, t))
    (h2 : ∀ j' < j, ∀ b u, (fieldList fs)[j']? = some (b, u) → b.name ≠ a.name)
    (h3 : vs[j]? = some v) (i : Nat) :
    visitFields E stop fs i vs node a.name rest c =
      (visit E stop t (.field a) v rest (c.updateField node (i + j))).map (·.under (i + j)) := by
  match fs, vs, j with
  | .nil, _, _ => simp [fieldList] at h1
  | .cons _ _ _, [], _ => simp at h3
  | .cons b u fs, w :: vs, 0 =>
    simp [fieldList] at h1 h3
    obtain ⟨rfl, rfl⟩ := h1; subst h3
    unfold visitFields
    rw [if_neg (by simp)]; rfl
  | .cons b u fs, w :: vs, j + 1 =>
    unfold visitFields
    have hne : a.name ≠ b.name := fun h => h2 0 (by omega) b u (by simp [fieldList]) h.symm
    rw [if_pos hne, visitFields_of (j := j) (a := a) (t := t) (v := v) (by simpa [fieldList] using h1)
      (fun j' hj' b' u' h => h2 (j' + 1) (by omega) b' u' (by simpa [fieldList] using h)) (by simpa using h3) (i + 1)]
    rw [Nat.add_right_comm, Nat.add_assoc]

theorem findKey_of {es : List (Str × Value)} {i : Nat} {s : Str} {v : Value}
    (hn : (es.map (·.1)).Nodup) (h : es[i]? = some (s, v)) : findKey es s = some i := by
  unfold findKey
  rw [List.findIdx?_eq_some_iff_getElem]
  obtain ⟨hi, he⟩ := List.getElem?_eq_some_iff.1 h
  refine ⟨hi, by simp [he], ?_⟩
  intro j hj
  have hjl : j < es.length := by omega
  have hpw := List.pairwise_iff_getElem.1 hn j i (by simpa using hjl) (by simpa using hi) hj
  simp only [List.getElem_map, he] at hpw
  simpa using hpw

/-- Where a path leads there is a node, and the visit finds it. -/
theorem visit_of_leads {β : Type} {E : Env β} {ks : List Nat} {t : Ty} {v : Value} {path : List Str}
    {steps : List Step} {t' : Ty} {v' : Value} (h : Leads E ks t v path steps t' v') :
    HasTy t v → tyOk t = true → ∀ node : Node, nodeOk node t → node.childKeys = ks → ∀ c : Access,
      visit E 0 t node v path c =
        .ok ⟨steps.map Step.pos, endNode node steps, t', v', endCtx c node steps, []⟩ := by
  induction h with
  | @here ks t v =>
    intro _ _ node _ _ c
    cases t <;> (unfold visit; simp [endNode, endCtx])
  | @field ks id fs vs i a t v path steps t' v' h1 h2 h3 h4 ih =>
    intro hv ht node hn hk c
    simp only [HasTy] at hv
    simp only [tyOk] at ht
    obtain ⟨hk1, hk2⟩ := fieldsOk_get ht h1
    unfold visit
    simp only [List.length_cons, Nat.add_one_ne_zero, if_false]
    rw [visitFields_of h1 h2 h3]
    rw [ih (hasTys_get hv h1 h3) hk2 (.field a) (fun b hb => by cases hb; exact hk1) rfl]
    simp [Except.map, Target.under, Step.pos, endNode, endCtx, stepNode, stepCtx]
  | @unwrap ks t v s path steps t' v' h1 ih =>
    intro hv ht node hn hk c
    simp only [HasTy] at hv
    simp only [tyOk] at ht
    unfold visit
    simp only [List.length_cons, Nat.add_one_ne_zero, if_false]
    rw [ih (hv v rfl) ht (.elem none) (nodeOk_elem _ _) rfl]
    simp [Except.map, Target.under, Step.pos, endNode, endCtx, stepNode, stepCtx]
  | @entry ks er t es i s v path steps t' v' h1 h2 ih =>
    intro hv ht node hn hk c
    simp only [HasTy] at hv
    simp only [tyOk] at ht
    unfold visit
    simp only [List.length_cons, Nat.add_one_ne_zero, if_false]
    rw [findKey_of hv.1 h1]
    simp only [h1]
    rw [ih (hv.2 _ (List.mem_of_getElem? h1)) ht (.elem none) (nodeOk_elem _ _) rfl]
    simp [Except.map, Target.under, Step.pos, endNode, endCtx, stepNode, stepCtx]
  | @item k t vs i s v path steps t' v' h1 h2 h3 h4 ih =>
    intro hv ht node hn hk c
    simp only [HasTy] at hv
    simp only [tyOk] at ht
    unfold visit
    simp only [List.length_cons, Nat.add_one_ne_zero, if_false, hk, ne_eq, not_true_eq_false, h1, if_true]
    rw [(parseIndex_iff _ _).2 h2]
    simp only [h3]
    rw [ih (hv _ (List.mem_of_getElem? h3)) ht (.elem none) (nodeOk_elem _ _) rfl]
    simp [Except.map, Target.under, Step.pos, endNode, endCtx, stepNode, stepCtx]
  | @child ks k t vs key i s v path steps t' v' h1 h2 h3 ih =>
    intro hv ht node hn hk c
    simp only [HasTy] at hv
    simp only [tyOk] at ht
    have hne : node.childKeys ≠ [] := by
      obtain ⟨b, a, e, _⟩ := h1
      rw [hk, e]; simp
    have hm := members_ok hn hv
    unfold visit
    simp only [List.length_cons, Nat.add_one_ne_zero, if_false, hne, ne_eq, not_false_eq_true, if_true]
    rw [(findKeyed_of hm).1 (hk ▸ h1)]
    simp only [h2]
    rw [ih (hv _ (List.mem_of_getElem? h2)) ht (.elem (some key)) (nodeOk_elem _ _) rfl]
    simp [Except.map, Target.under, Step.pos, endNode, endCtx, stepNode, stepCtx]

end Verif.Resource
