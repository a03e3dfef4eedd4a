import Verif.Tracker.Props
import Verif.Resource.Nav
/-
Views of parsed paths, and visits that stop one segment early.
-/
namespace Verif.Resource
open Verif.Path Verif.Path.Spec Verif.Tracker Verif.Resource.Spec

/-- The view of a parsed path denoting the location `loc`. -/
def PathTo (w : View) (loc : List Seg) : Prop :=
  ∃ (p q : Path) (v : Str), p.set v = (q, none) ∧ Denotes v loc ∧ w = q.view

theorem readSegs_ok {p q : Path} {v : Str} (h : p.set v = (q, none)) {loc : List Seg}
    (hd : Denotes v loc) (n : Nat) :
    ∀ a w, dropFronts a q.view = some w → a + n = loc.length → readSegs n w = some (loc.drop a) := by
  induction n with
  | zero =>
    intro a w hw ha
    simp only [readSegs]
    rw [List.drop_of_length_le (by omega)]
  | succ n ih =>
    intro a w hw ha
    have hv := C13_views p q v h loc hd a 0
    simp only [hw, Option.bind_some, dropBacks, Option.some.injEq, forall_eq', Nat.sub_zero] at hv
    obtain ⟨_, -, hat, _⟩ := hv
    have hfront : w.front = some (loc[a]'(by omega)) := by
      show w.at 0 = _
      rw [hat, List.getElem?_take, if_pos (by omega), List.getElem?_drop, Nat.add_zero]
      simp
    have hlen : a < q.view.segments.length := by
      have h2 := C13_views p q v h loc hd 0 0
      simp only [dropFronts, dropBacks, Option.bind_some, Option.some.injEq, forall_eq', Nat.sub_zero] at h2
      have : q.view.segments.length = loc.length := h2.2.1
      omega
    have hw2 : dropFronts (a + 1) q.view = some ⟨q.view.value, q.view.segments.drop (a + 1)⟩ := by
      rw [dropFronts_eq, if_pos (by omega)]
    have hdf : w.dropFront = some ⟨q.view.value, q.view.segments.drop (a + 1)⟩ := by
      rw [dropFronts_eq, if_pos (by omega)] at hw
      cases hw
      unfold View.dropFront
      simp only
      cases hc : List.drop a q.view.segments with
      | nil => simp at hc; omega
      | cons x xs =>
        have : List.drop (a + 1) q.view.segments = xs := by
          rw [← List.drop_drop, hc]; rfl
        simp [this]
    simp only [readSegs, hfront, hdf]
    rw [ih (a + 1) _ hw2 (by omega)]
    simp only [Option.map_some, Option.some.injEq]
    exact (List.drop_eq_getElem_cons (by omega)).symm

theorem PathTo.segs {w : View} {loc : List Seg} (h : PathTo w loc) : segs w = some loc := by
  obtain ⟨p, q, v, h1, h2, rfl⟩ := h
  have h3 := C13_views p q v h1 loc h2 0 0
  simp only [dropFronts, dropBacks, Option.bind_some, Option.some.injEq, forall_eq', Nat.sub_zero] at h3
  have := readSegs_ok h1 h2 loc.length 0 q.view rfl (by omega)
  unfold Resource.segs
  rw [h3.2.1, this, List.drop_zero]

theorem PathTo.shows {w : View} {loc : List Seg} (h : PathTo w loc) : Shows w loc := by
  obtain ⟨p, q, v, h1, h2, rfl⟩ := h
  obtain ⟨loc', h3, h4⟩ := shows_of_parsed p q v h1 0 q.view rfl
  have := C11_denotes_unique v loc loc' h2 h3
  subst this
  simpa using h4

theorem PathTo.dropBack {w : View} {loc : List Seg} (h : PathTo w loc) (hne : loc ≠ []) :
    ∃ w', w.dropBack = some w' ∧ Shows w' loc.dropLast := by
  obtain ⟨p, q, v, h1, h2, rfl⟩ := h
  have hl : 0 < loc.length := List.length_pos_iff.2 hne
  have h3 := C13_views p q v h1 loc h2 0 1
  simp only [dropFronts, Option.bind_some] at h3
  cases hb : dropBacks 1 q.view with
  | none => have := h3.1.1 hb; omega
  | some w' =>
    refine ⟨w', ?_, ?_⟩
    · simpa [dropBacks, Option.bind_eq_some_iff] using hb
    · obtain ⟨loc', h4, h5⟩ := shows_of_parsed p q v h1 1 w' hb
      have := C11_denotes_unique v loc loc' h2 h4
      subst this
      rwa [List.dropLast_eq_take]

theorem map_map' {e : Except Err Target} (f g : Target → Target) :
    (e.map f).map g = e.map (g ∘ f) := by
  cases e <;> rfl

def withRest (s : Str) (n : Target) : Target := { n with rest := [s] }

theorem stop_aux {e e' : Except Err Target} {i : Nat} {s : Str} (h : e = e'.map (withRest s)) :
    e.map (·.under i) = (e'.map (·.under i)).map (withRest s) := by
  rw [h, map_map', map_map']; rfl

mutual
/-- Stopping one segment early is visiting the path without its last segment. -/
theorem visit_stop {β : Type} (E : Env β) (t : Ty) (node : Node) (v : Value) (path : List Str) (s : Str)
    (c : Access) : visit E 1 t node v (path ++ [s]) c = (visit E 0 t node v path c).map (withRest s) := by
  match t with
  | .leaf id =>
    cases path with
    | nil => unfold visit; simp [Except.map, withRest]
    | cons p ps => unfold visit; simp [Except.map]
  | .record id fs =>
    cases path with
    | nil => unfold visit; simp [Except.map, withRest]
    | cons p ps =>
      unfold visit
      simp only [List.cons_append, List.length_cons, List.length_append, List.length_nil,
        Nat.add_eq_right, Nat.add_one_ne_zero, if_false]
      cases v with
      | record vs => exact visitFields_stop E fs 0 vs node p ps s c
      | _ => rfl
  | .opt t' =>
    cases path with
    | nil => unfold visit; simp [Except.map, withRest]
    | cons p ps =>
      unfold visit
      simp only [List.cons_append, List.length_cons, List.length_append, List.length_nil,
        Nat.add_eq_right, Nat.add_one_ne_zero, if_false]
      cases v with
      | opt o =>
        cases o with
        | none => rfl
        | some w =>
          exact stop_aux (visit_stop E t' _ w (p :: ps) s _)
      | _ => rfl
  | .map er t' =>
    cases path with
    | nil => unfold visit; simp [Except.map, withRest]
    | cons p ps =>
      unfold visit
      simp only [List.cons_append, List.length_cons, List.length_append, List.length_nil,
        Nat.add_eq_right, Nat.add_one_ne_zero, if_false]
      cases v with
      | map es =>
        simp only
        cases findKey es p with
        | none => rfl
        | some i =>
          simp only
          cases es[i]? with
          | none => rfl
          | some e => exact stop_aux (visit_stop E t' _ _ ps s _)
      | _ => rfl
  | .seq k t' =>
    cases path with
    | nil => unfold visit; simp [Except.map, withRest]
    | cons p ps =>
      unfold visit
      simp only [List.cons_append, List.length_cons, List.length_append, List.length_nil,
        Nat.add_eq_right, Nat.add_one_ne_zero, if_false]
      cases v with
      | seq vs =>
        simp only
        by_cases hk : node.childKeys ≠ []
        · rw [if_pos hk, if_pos hk]
          cases findKeyed E t' vs p node.childKeys with
          | error e => rfl
          | ok r =>
            cases r with
            | none => rfl
            | some ki =>
              obtain ⟨key, i⟩ := ki
              simp only
              cases vs[i]? with
              | none => rfl
              | some w => exact stop_aux (visit_stop E t' _ _ ps s _)
        · rw [if_neg hk, if_neg hk]
          by_cases ha : k.at_ = true
          · rw [if_pos ha, if_pos ha]
            cases parseIndex p with
            | none => rfl
            | some i =>
              simp only
              cases vs[i]? with
              | none => rfl
              | some w => exact stop_aux (visit_stop E t' _ _ ps s _)
          · rw [if_neg ha, if_neg ha]; rfl
      | _ => rfl
theorem visitFields_stop {β : Type} (E : Env β) (fs : Fields) (i : Nat) (vs : List Value) (node : Node)
    (p : Str) (ps : List Str) (s : Str) (c : Access) :
    visitFields E 1 fs i vs node p (ps ++ [s]) c =
      (visitFields E 0 fs i vs node p ps c).map (withRest s) := by
  match fs, vs with
  | .nil, _ => unfold visitFields; rfl
  | .cons _ _ _, [] => unfold visitFields; rfl
  | .cons a t fs, v :: vs =>
    unfold visitFields
    split
    · exact visitFields_stop E fs (i + 1) vs node p ps s c
    · exact stop_aux (visit_stop E t _ v ps s _)
end

/-- A reference to the node reached. -/
theorem leads_get {β : Type} {E : Env β} {ks : List Nat} {t : Ty} {v : Value} {path : List Str}
    {steps : List Step} {t' : Ty} {v' : Value} (h : Leads E ks t v path steps t' v') :
    v.get (steps.map Step.pos) = some v' := by
  induction h with
  | here => rfl
  | field _ _ h3 _ ih => simp [Value.get, Step.pos, Value.kids, h3]; simpa using ih
  | unwrap _ ih => simp [Value.get, Step.pos, Value.kids]; simpa using ih
  | entry h1 _ ih => simp [Value.get, Step.pos, Value.kids, h1]; simpa using ih
  | item _ _ h3 _ ih => simp [Value.get, Step.pos, Value.kids, h3]; simpa using ih
  | child _ h2 _ ih => simp [Value.get, Step.pos, Value.kids, h2]; simpa using ih

/-- The node reached is of its type. -/
theorem leads_typed {β : Type} {E : Env β} {ks : List Nat} {t : Ty} {v : Value} {path : List Str}
    {steps : List Step} {t' : Ty} {v' : Value} (h : Leads E ks t v path steps t' v') :
    HasTy t v → tyOk t = true → HasTy t' v' ∧ tyOk t' = true := by
  induction h with
  | here => exact fun h1 h2 => ⟨h1, h2⟩
  | field h1 _ h3 _ ih =>
    intro hv ht
    simp only [HasTy] at hv; simp only [tyOk] at ht
    exact ih (hasTys_get hv h1 h3) (fieldsOk_get ht h1).2
  | unwrap _ ih =>
    intro hv ht
    simp only [HasTy] at hv; simp only [tyOk] at ht
    exact ih (hv _ rfl) ht
  | entry h1 _ ih =>
    intro hv ht
    simp only [HasTy] at hv; simp only [tyOk] at ht
    exact ih (hv.2 _ (List.mem_of_getElem? h1)) ht
  | item _ _ h3 _ ih =>
    intro hv ht
    simp only [HasTy] at hv; simp only [tyOk] at ht
    exact ih (hv _ (List.mem_of_getElem? h3)) ht
  | child _ h2 _ ih =>
    intro hv ht
    simp only [HasTy] at hv; simp only [tyOk] at ht
    exact ih (hv _ (List.mem_of_getElem? h2)) ht

end Verif.Resource
