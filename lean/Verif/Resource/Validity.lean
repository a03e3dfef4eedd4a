import Verif.Resource.Nav
/-
`validateTree` accepts exactly the valid trees.
-/
namespace Verif.Resource
open Verif.Path Verif.Resource.Spec

/-- The condition on one node of a valid tree. -/
def Good {β : Type} (E : Env β) (t : Ty) (ks : List Nat) (u : Value) : Prop :=
  E.validate t u = .ok () ∧
  ∀ k ∈ ks, ∀ vs, u = .seq vs → ∀ (i j : Nat) x y kx ky, i < j → vs[i]? = some x → vs[j]? = some y →
    KeyOf k x kx → KeyOf k y ky → E.keyEq kx ky = false

theorem liftUser_ok {α : Type} {e : Except Exc α} {a : α} : liftUser e = .ok a ↔ e = .ok a := by
  cases e <;> simp [liftUser]

theorem pairsDiffer_iff {β : Type} (E : Env β) (ks : List Value) :
    pairsDiffer E ks = true ↔ ks.Pairwise fun a b => E.keyEq a b = false := by
  induction ks with
  | nil => simp [pairsDiffer]
  | cons k ks ih => simp [pairsDiffer, ih]

theorem mapM_get {α γ : Type} {f : α → Option γ} {l : List α} {r : List γ} (h : l.mapM f = some r) :
    r.length = l.length ∧ ∀ (i : Nat) x, l[i]? = some x → ∃ y, r[i]? = some y ∧ f x = some y := by
  induction l generalizing r with
  | nil => simp at h; subst h; simp
  | cons a l ih =>
    simp only [List.mapM_cons, bind, Option.bind_eq_some_iff, pure, Option.some.injEq] at h
    obtain ⟨y, hy, ys, hys, rfl⟩ := h
    obtain ⟨h1, h2⟩ := ih hys
    refine ⟨by simp [h1], ?_⟩
    intro i x hx
    cases i with
    | zero => simp at hx; subst hx; exact ⟨y, rfl, hy⟩
    | succ i => simpa using h2 i x (by simpa using hx)

theorem mapM_some {α γ : Type} {f : α → Option γ} {l : List α} (h : ∀ x ∈ l, (f x).isSome = true) :
    ∃ r, l.mapM f = some r := by
  induction l with
  | nil => exact ⟨[], rfl⟩
  | cons a l ih =>
    obtain ⟨r, hr⟩ := ih (fun x hx => h x (by simp [hx]))
    obtain ⟨y, hy⟩ := Option.isSome_iff_exists.1 (h a (by simp))
    exact ⟨y :: r, by simp [List.mapM_cons, hr, hy]⟩

/-- Keys differ, as in `Good`. -/
def KeysDiffer {β : Type} (E : Env β) (vs : List Value) (k : Nat) : Prop :=
  ∀ (i j : Nat) x y kx ky, i < j → vs[i]? = some x → vs[j]? = some y →
    KeyOf k x kx → KeyOf k y ky → E.keyEq kx ky = false

theorem differ_iff {β : Type} {E : Env β} {vs : List Value} {k : Nat} {keys : List Value}
    (h : vs.mapM (member · k) = some keys) :
    pairsDiffer E keys = true ↔ KeysDiffer E vs k := by
  obtain ⟨hl, hg⟩ := mapM_get h
  rw [pairsDiffer_iff, List.pairwise_iff_getElem]
  constructor
  · intro hp i j x y kx ky hij hx hy hkx hky
    obtain ⟨kx', e1, e2⟩ := hg i x hx
    obtain ⟨ky', e3, e4⟩ := hg j y hy
    rw [member_iff.2 hkx] at e2; rw [member_iff.2 hky] at e4
    cases e2; cases e4
    obtain ⟨h1, h2⟩ := List.getElem?_eq_some_iff.1 e1
    obtain ⟨h3, h4⟩ := List.getElem?_eq_some_iff.1 e3
    have := hp i j h1 h3 hij
    rwa [h2, h4] at this
  · intro hd i j hi hj hij
    obtain ⟨kx, e1, e2⟩ := hg i vs[i] (by simp)
    obtain ⟨ky, e3, e4⟩ := hg j vs[j] (by simp)
    obtain ⟨h1, h2⟩ := List.getElem?_eq_some_iff.1 e1
    obtain ⟨h3, h4⟩ := List.getElem?_eq_some_iff.1 e3
    rw [h2, h4]
    exact hd i j _ _ kx ky hij (by simp) (by simp) (member_iff.1 e2) (member_iff.1 e4)

theorem unique_sound {β : Type} {E : Env β} {vs : List Value} {ks : List Nat}
    (h : validateUniqueChildKeys E vs ks = .ok ()) : ∀ k ∈ ks, KeysDiffer E vs k := by
  induction ks with
  | nil => simp
  | cons k ks ih =>
    unfold validateUniqueChildKeys at h
    split at h
    · cases h
    · rename_i keys hk
      split at h
      · rename_i hp
        intro k' hk'
        rcases List.mem_cons.1 hk' with rfl | hk'
        · exact (differ_iff hk).1 hp
        · exact ih h k' hk'
      · cases h

theorem forEach_ok {f : Value → Except Err Unit} {vs : List Value} :
    forEach f vs = .ok () ↔ ∀ v ∈ vs, f v = .ok () := by
  induction vs with
  | nil => simp [forEach]
  | cons v vs ih =>
    unfold forEach
    cases hf : f v with
    | error e => simp [hf]
    | ok u => simp [hf, ih]

mutual
theorem validate_sound {β : Type} (E : Env β) (t : Ty) (node : Node) (v : Value)
    (h : validateNodeTree E t node v = .ok ()) :
    ∀ t' ks u, Occurs t node.childKeys v t' ks u → Good E t' ks u := by
  match t with
  | .leaf id =>
    unfold validateNodeTree at h
    split at h
    · cases h
    · rename_i hv
      split at h
      · cases h
      · rename_i hk
        simp only [ne_eq, Decidable.not_not] at hk
        rw [hk]
        intro t' ks u ho
        cases ho
        exact ⟨liftUser_ok.1 hv, by simp⟩
  | .record id fs =>
    unfold validateNodeTree at h
    split at h
    · cases h
    · rename_i hv
      split at h
      · cases h
      · rename_i hk
        simp only [ne_eq, Decidable.not_not] at hk
        rw [hk]
        split at h
        · rename_i vs
          intro t' ks u ho
          cases ho with
          | here => exact ⟨liftUser_ok.1 hv, by simp⟩
          | field h1 h2 h3 => exact validateFields_sound E fs vs h _ _ _ _ h1 h2 t' ks u h3
        · cases h
  | .opt t1 =>
    unfold validateNodeTree at h
    split at h
    · cases h
    · rename_i hv
      split at h
      · cases h
      · rename_i hk
        simp only [ne_eq, Decidable.not_not] at hk
        rw [hk]
        intro t' ks u ho
        cases ho with
        | here => exact ⟨liftUser_ok.1 hv, by simp⟩
        | inner h1 => exact validate_sound E t1 (.elem none) _ h t' ks u h1
  | .map er t1 =>
    unfold validateNodeTree at h
    split at h
    · cases h
    · rename_i hv
      split at h
      · cases h
      · rename_i hk
        simp only [ne_eq, Decidable.not_not] at hk
        rw [hk]
        intro t' ks u ho
        cases ho with
        | here => exact ⟨liftUser_ok.1 hv, by simp⟩
        | entry he h1 =>
          simp only at h
          exact validate_sound E t1 (.elem none) _ (forEach_ok.1 h _ (List.mem_map_of_mem he)) t' ks u h1
  | .seq k t1 =>
    unfold validateNodeTree at h
    split at h
    · cases h
    · rename_i hv
      split at h
      · rename_i vs _
        split at h
        · cases h
        · rename_i hu
          intro t' ks u ho
          cases ho with
          | here =>
            refine ⟨liftUser_ok.1 hv, ?_⟩
            intro k hk ws hw
            cases hw
            exact unique_sound hu k hk
          | elem he h1 =>
            exact validate_sound E t1 (.elem none) _ (forEach_ok.1 h _ he) t' ks u h1
      · cases h
theorem validateFields_sound {β : Type} (E : Env β) (fs : Fields) (vs : List Value)
    (h : validateFields E fs vs = .ok ()) (i : Nat) (a : Attrs) (t : Ty) (v : Value)
    (h1 : (fieldList fs)[i]? = some (a, t)) (h2 : vs[i]? = some v) :
    ∀ t' ks u, Occurs t a.childKeys v t' ks u → Good E t' ks u := by
  match fs, vs, i with
  | .nil, _, _ => simp [fieldList] at h1
  | .cons _ _ _, [], _ => simp at h2
  | .cons b u fs, w :: vs, 0 =>
    simp [fieldList] at h1 h2
    obtain ⟨rfl, rfl⟩ := h1; subst h2
    unfold validateFields at h
    split at h
    · cases h
    · rename_i hb
      exact validate_sound E u (.field b) w hb
  | .cons b u fs, w :: vs, i + 1 =>
    unfold validateFields at h
    split at h
    · cases h
    · exact validateFields_sound E fs vs h i a t v (by simpa [fieldList] using h1) (by simpa using h2)
end

theorem validateTree_sound {β : Type} {E : Env β} {T : Ty} {v : Value} (h : validateTree E T v = .ok ()) :
    Spec.Valid E T v := fun t ks u ho => validate_sound E T .root v h t ks u ho

/-! ### Completeness -/

/-- An error of the validation: not stuck, and thrown by a validator or by the key check. -/
def ValidationErr {β : Type} (E : Env β) (e : Err) : Prop :=
  e = .throws .duplicateKey ∨ ∃ t v x, E.validate t v = .error x ∧ e = .throws x

theorem liftUser_cases {β : Type} (E : Env β) (t : Ty) (v : Value) :
    (liftUser (E.validate t v) = .ok () ∧ E.validate t v = .ok ()) ∨
    ∃ e, liftUser (E.validate t v) = .error e ∧ ValidationErr E e ∧ E.validate t v ≠ .ok () := by
  cases h : E.validate t v with
  | ok u => exact .inl ⟨rfl, rfl⟩
  | error x => exact .inr ⟨.throws x, rfl, .inr ⟨t, v, x, h, rfl⟩, by simp⟩

/-- The result of validating a node: accepted, or an error showing the node is not good. -/
def Judges {β : Type} (E : Env β) (r : Except Err Unit) (bad : Prop) : Prop :=
  r = .ok () ∨ ∃ e, r = .error e ∧ ValidationErr E e ∧ bad

theorem unique_complete {β : Type} {E : Env β} {vs : List Value} {ks : List Nat}
    (hm : ∀ k ∈ ks, ∀ v ∈ vs, (member v k).isSome = true) :
    Judges E (validateUniqueChildKeys E vs ks) (¬ ∀ k ∈ ks, KeysDiffer E vs k) := by
  induction ks with
  | nil => exact .inl rfl
  | cons k ks ih =>
    unfold validateUniqueChildKeys
    obtain ⟨keys, hk⟩ := mapM_some (hm k (by simp))
    rw [hk]
    simp only
    split
    · rcases ih (fun k hk => hm k (by simp [hk])) with h | ⟨e, h1, h2, h3⟩
      · exact .inl h
      · exact .inr ⟨e, h1, h2, fun h => h3 fun k hk => h k (by simp [hk])⟩
    · rename_i hp
      exact .inr ⟨_, rfl, .inl rfl, fun h => hp ((differ_iff hk).2 (h k (by simp)))⟩

theorem forEach_complete {β : Type} {E : Env β} {f : Value → Except Err Unit} {P : Value → Prop}
    {vs : List Value} (h : ∀ v ∈ vs, Judges E (f v) (¬ P v)) :
    Judges E (forEach f vs) (¬ ∀ v ∈ vs, P v) := by
  induction vs with
  | nil => exact .inl rfl
  | cons v vs ih =>
    unfold forEach
    rcases h v (by simp) with h1 | ⟨e, h1, h2, h3⟩
    · rw [h1]
      rcases ih (fun v hv => h v (by simp [hv])) with h' | ⟨e, h1, h2, h3⟩
      · exact .inl h'
      · exact .inr ⟨e, h1, h2, fun h => h3 fun v hv => h v (by simp [hv])⟩
    · rw [h1]
      exact .inr ⟨e, rfl, h2, fun h => h3 (h v (by simp))⟩

theorem judges_mono {β : Type} {E : Env β} {r : Except Err Unit} {P Q : Prop} (h : P → Q)
    (hj : Judges E r P) : Judges E r Q := by
  rcases hj with h' | ⟨e, h1, h2, h3⟩
  · exact .inl h'
  · exact .inr ⟨e, h1, h2, h h3⟩

mutual
theorem validate_complete {β : Type} (E : Env β) (t : Ty) (node : Node) (v : Value)
    (hv : HasTy t v) (ht : tyOk t = true) (hn : nodeOk node t) :
    Judges E (validateNodeTree E t node v)
      (¬ ∀ t' ks u, Occurs t node.childKeys v t' ks u → Good E t' ks u) := by
  match t with
  | .leaf id =>
    unfold validateNodeTree
    rcases liftUser_cases E (.leaf id) v with ⟨h1, _⟩ | ⟨e, h1, h2, h3⟩
    · rw [h1, childKeys_nil hn (by simp)]
      cases v with
      | leaf a => exact .inl rfl
      | _ => simp [HasTy] at hv
    · rw [h1]
      exact .inr ⟨e, rfl, h2, fun h => h3 (h _ _ _ .here).1⟩
  | .record id fs =>
    unfold validateNodeTree
    rcases liftUser_cases E (.record id fs) v with ⟨h1, _⟩ | ⟨e, h1, h2, h3⟩
    · rw [h1, childKeys_nil hn (by simp)]
      cases v with
      | record vs =>
        simp only [HasTy] at hv
        simp only [tyOk] at ht
        exact judges_mono (fun hb h => hb fun i a t v e1 e2 t' ks u ho => h t' ks u (.field e1 e2 ho))
          (validateFields_complete E fs vs hv ht)
      | _ => simp [HasTy] at hv
    · rw [h1]
      exact .inr ⟨e, rfl, h2, fun h => h3 (h _ _ _ .here).1⟩
  | .opt t1 =>
    unfold validateNodeTree
    rcases liftUser_cases E (.opt t1) v with ⟨h1, _⟩ | ⟨e, h1, h2, h3⟩
    · rw [h1, childKeys_nil hn (by simp)]
      cases v with
      | opt o =>
        cases o with
        | none => exact .inl rfl
        | some w =>
          simp only [HasTy] at hv
          simp only [tyOk] at ht
          exact judges_mono (fun hb h => hb fun t' ks u ho => h t' ks u (.inner ho))
            (validate_complete E t1 (.elem none) w (hv w rfl) ht (nodeOk_elem _ _))
      | _ => simp [HasTy] at hv
    · rw [h1]
      exact .inr ⟨e, rfl, h2, fun h => h3 (h _ _ _ .here).1⟩
  | .map er t1 =>
    unfold validateNodeTree
    rcases liftUser_cases E (.map er t1) v with ⟨h1, _⟩ | ⟨e, h1, h2, h3⟩
    · rw [h1, childKeys_nil hn (by simp)]
      cases v with
      | map es =>
        simp only [HasTy] at hv
        simp only [tyOk] at ht
        refine judges_mono ?_ (forEach_complete (P := fun w => ∀ t' ks u, Occurs t1 [] w t' ks u → Good E t' ks u)
          (fun w hw => ?_))
        · intro hb h
          apply hb
          intro w hw t' ks u ho
          obtain ⟨e, he, rfl⟩ := List.mem_map.1 hw
          exact h t' ks u (.entry he ho)
        · obtain ⟨e, he, rfl⟩ := List.mem_map.1 hw
          exact validate_complete E t1 (.elem none) e.2 (hv.2 e he) ht (nodeOk_elem _ _)
      | _ => simp [HasTy] at hv
    · rw [h1]
      exact .inr ⟨e, rfl, h2, fun h => h3 (h _ _ _ .here).1⟩
  | .seq k t1 =>
    unfold validateNodeTree
    rcases liftUser_cases E (.seq k t1) v with ⟨h1, _⟩ | ⟨e, h1, h2, h3⟩
    · rw [h1]
      cases v with
      | seq vs =>
        simp only [HasTy] at hv
        simp only [tyOk] at ht
        simp only
        rcases unique_complete (E := E) (members_ok hn hv) with h4 | ⟨e, h4, h5, h6⟩
        · rw [h4]
          refine judges_mono ?_ (forEach_complete (P := fun w => ∀ t' ks u, Occurs t1 [] w t' ks u → Good E t' ks u)
            (fun w hw => ?_))
          · intro hb h
            exact hb fun w hw t' ks u ho => h t' ks u (.elem hw ho)
          · exact validate_complete E t1 (.elem none) w (hv w hw) ht (nodeOk_elem _ _)
        · rw [h4]
          exact .inr ⟨e, rfl, h5, fun h => h6 fun k hk => (h _ _ _ .here).2 k hk vs rfl⟩
      | _ => simp [HasTy] at hv
    · rw [h1]
      exact .inr ⟨e, rfl, h2, fun h => h3 (h _ _ _ .here).1⟩
theorem validateFields_complete {β : Type} (E : Env β) (fs : Fields) (vs : List Value)
    (hv : HasTys fs vs) (ht : fieldsOk fs = true) :
    Judges E (validateFields E fs vs)
      (¬ ∀ (i : Nat) (a : Attrs) (t : Ty) (v : Value), (fieldList fs)[i]? = some (a, t) → vs[i]? = some v →
        ∀ t' ks u, Occurs t a.childKeys v t' ks u → Good E t' ks u) := by
  match fs, vs with
  | .nil, _ => unfold validateFields; exact .inl rfl
  | .cons _ _ _, [] => simp [HasTys] at hv
  | .cons a t fs, v :: vs =>
    simp only [HasTys] at hv
    simp only [fieldsOk, Bool.and_eq_true] at ht
    unfold validateFields
    rcases validate_complete E t (.field a) v hv.1 ht.1.2 (fun b hb => by cases hb; exact ht.1.1) with h1 | ⟨e, h1, h2, h3⟩
    · rw [h1]
      exact judges_mono (fun hb h => hb fun i b t w e1 e2 => h (i + 1) b t w (by simpa [fieldList] using e1) (by simpa using e2))
        (validateFields_complete E fs vs hv.2 ht.2)
    · rw [h1]
      exact .inr ⟨e, rfl, h2, fun h => h3 (h 0 a t v (by simp [fieldList]) rfl)⟩
end

theorem validateTree_judges {β : Type} {E : Env β} {T : Ty} {v : Value} (hv : HasTy T v)
    (ht : tyOk T = true) : Judges E (validateTree E T v) (¬ Spec.Valid E T v) :=
  validate_complete E T .root v hv ht (nodeOk_root _)

end Verif.Resource
