import Verif.Resource.Spec
/-
Reading and writing through addresses.
-/
namespace Verif.Resource
open Verif.Path Verif.Resource.Spec

theorem map_modify_snd (es : List (Str × Value)) (i : Nat) (x : Value) :
    (es.modify i fun e => (e.1, x)).map (·.2) = (es.map (·.2)).set i x := by
  induction es generalizing i with
  | nil => cases i <;> rfl
  | cons e es ih =>
    cases i with
    | zero => rfl
    | succ i => simp [List.modify_succ_cons, ih]

theorem kids_setKid (v : Value) (i : Nat) (x : Value) :
    (v.setKid i x).kids = v.kids.set i x := by
  cases v with
  | leaf a => rfl
  | opt o =>
    cases o with
    | none => rfl
    | some y =>
      cases i with
      | zero => rfl
      | succ i => rfl
  | record vs => rfl
  | seq vs => rfl
  | map es => exact map_modify_snd es i x

theorem setKid_setKid (v : Value) (i : Nat) (x y : Value) :
    (v.setKid i x).setKid i y = v.setKid i y := by
  cases v with
  | leaf a => rfl
  | opt o =>
    cases o with
    | none => rfl
    | some z => simp only [Value.setKid]; split <;> rfl
  | record vs => simp [Value.setKid]
  | seq vs => simp [Value.setKid]
  | map es =>
    simp only [Value.setKid, Value.map.injEq]
    induction es generalizing i with
    | nil => cases i <;> rfl
    | cons e es ih => cases i with
      | zero => rfl
      | succ i => simp [List.modify_succ_cons, ih]

theorem setKid_self {v : Value} {i : Nat} {x : Value} (h : v.kids[i]? = some x) :
    v.setKid i x = v := by
  cases v with
  | leaf a => rfl
  | opt o =>
    cases o with
    | none => rfl
    | some z =>
      cases i with
      | zero => simp [Value.kids] at h; simp [Value.setKid, h]
      | succ i => simp [Value.setKid]
  | record vs =>
    simp only [Value.kids] at h
    simp only [Value.setKid, Value.record.injEq]
    exact List.ext_getElem? fun j => by
      rw [List.getElem?_set]; split
      · subst_vars; split
        · exact h.symm
        · rw [List.getElem?_eq_none (by omega)]
      · rfl
  | seq vs =>
    simp only [Value.kids] at h
    simp only [Value.setKid, Value.seq.injEq]
    exact List.ext_getElem? fun j => by
      rw [List.getElem?_set]; split
      · subst_vars; split
        · exact h.symm
        · rw [List.getElem?_eq_none (by omega)]
      · rfl
  | map es =>
    simp only [Value.kids] at h
    simp only [Value.setKid, Value.map.injEq]
    induction es generalizing i with
    | nil => cases i <;> rfl
    | cons e es ih => cases i with
      | zero => simp at h; simp [List.modify_zero_cons, ← h]
      | succ i => simp at h; simp only [List.modify_succ_cons]; rw [ih (by simpa using h)]

/-- A readable place can be written; the new value is read back, and writing the old value
again restores everything. -/
theorem get_set {v : Value} {a : List Nat} {old : Value} (h : v.get a = some old) (x : Value) :
    ∃ v', v.set x a = some v' ∧ v'.get a = some x ∧ v'.set old a = some v := by
  induction a generalizing v with
  | nil =>
    simp only [Value.get, Option.some.injEq] at h
    exact ⟨x, rfl, rfl, by rw [h]; rfl⟩
  | cons i a ih =>
    simp only [Value.get] at h
    cases hk : v.kids[i]? with
    | none => rw [hk] at h; simp at h
    | some w =>
      rw [hk] at h
      obtain ⟨w', h1, h2, h3⟩ := ih h
      have hi : i < v.kids.length := (List.getElem?_eq_some_iff.1 hk).1
      have hk' : (v.setKid i w').kids[i]? = some w' := by
        rw [kids_setKid]; simp [hi]
      refine ⟨v.setKid i w', by simp [Value.set, hk, h1], by simp only [Value.get, hk']; exact h2, ?_⟩
      simp only [Value.set, hk', h3, Option.map_some, setKid_setKid, setKid_self hk]

theorem kidChanged_setKid {v : Value} {i : Nat} {x x' : Value} (h : v.kids[i]? = some x) :
    KidChanged x x' i v (v.setKid i x') := by
  cases v with
  | leaf a => simp [Value.kids] at h
  | opt o =>
    cases o with
    | none => simp [Value.kids] at h
    | some z =>
      cases i with
      | zero => simp [Value.kids] at h; subst h; exact .opt
      | succ i => simp [Value.kids] at h
  | record vs =>
    simp only [Value.kids] at h
    obtain ⟨hi, he⟩ := List.getElem?_eq_some_iff.1 h
    have e1 : vs = vs.take i ++ x :: vs.drop (i + 1) := by
      rw [← he]; simp
    have e2 : vs.set i x' = vs.take i ++ x' :: vs.drop (i + 1) := List.set_eq_take_append_cons_drop .. ▸ by simp [hi]
    have e3 : i = (vs.take i).length := by simp; omega
    have := @KidChanged.record x x' (vs.take i) (vs.drop (i + 1))
    rw [← e1, ← e2, ← e3] at this
    exact this
  | seq vs =>
    simp only [Value.kids] at h
    obtain ⟨hi, he⟩ := List.getElem?_eq_some_iff.1 h
    have e1 : vs = vs.take i ++ x :: vs.drop (i + 1) := by
      rw [← he]; simp
    have e2 : vs.set i x' = vs.take i ++ x' :: vs.drop (i + 1) := List.set_eq_take_append_cons_drop .. ▸ by simp [hi]
    have e3 : i = (vs.take i).length := by simp; omega
    have := @KidChanged.seq x x' (vs.take i) (vs.drop (i + 1))
    rw [← e1, ← e2, ← e3] at this
    exact this
  | map es =>
    simp only [Value.kids] at h
    rw [List.getElem?_map, Option.map_eq_some_iff] at h
    obtain ⟨e, he, hx⟩ := h
    subst hx
    obtain ⟨hi, he'⟩ := List.getElem?_eq_some_iff.1 he
    have e1 : es = es.take i ++ (e.1, e.2) :: es.drop (i + 1) := by
      show es = es.take i ++ e :: es.drop (i + 1)
      rw [← he']; simp
    have e2 : (es.modify i fun e => (e.1, x')) = es.take i ++ (e.1, x') :: es.drop (i + 1) := by
      rw [List.modify_eq_take_cons_drop hi, he']
    have e3 : i = (es.take i).length := by simp; omega
    have := @KidChanged.map e.2 x' (es.take i) e.1 (es.drop (i + 1))
    rw [← e1, ← e2, ← e3] at this
    exact this

theorem changed_of_set {v v' : Value} {a : List Nat} {old new : Value} (h : v.get a = some old)
    (hs : v.set new a = some v') : Changed old new a v v' := by
  induction a generalizing v v' with
  | nil =>
    simp only [Value.get, Value.set, Option.some.injEq] at h hs
    subst h hs; exact .here
  | cons i a ih =>
    simp only [Value.get] at h
    simp only [Value.set] at hs
    cases hk : v.kids[i]? with
    | none => rw [hk] at h; simp at h
    | some w =>
      rw [hk] at h hs
      simp only [Option.map_eq_some_iff] at hs
      obtain ⟨w', h1, rfl⟩ := hs
      exact .kid (kidChanged_setKid hk) (ih h h1)

end Verif.Resource
