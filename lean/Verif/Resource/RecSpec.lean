import Verif.Resource.RecVerbs
/-
Values of declared structs, read off the declarations without codes, and what C++ requires of declarations (C135).
-/
namespace Verif.Resource
open Verif.Path Verif.Path.Spec Verif.Tracker Verif.Tracker.Spec Verif.Resource.Spec

mutual
/-- The value is of the type, in which numbers stand for the structs of `D`. -/
def isOf (D : Decls) : Value → Ty → Bool
  | .leaf _, .leaf _ => true
  | .opt none, .opt _ => true
  | .opt (some v), .opt t => isOf D v t
  | .record vs, .record n .nil => areOf D vs (D n)
  | .record vs, .record _ (.cons a t fs) => areOf D vs (.cons a t fs)
  | .map es, .map _ t => decide (es.map (·.1)).Nodup && entriesOf D es t
  | .seq vs, .seq _ t => allOf D vs t
  | _, _ => false
def areOf (D : Decls) : List Value → Fields → Bool
  | [], .nil => true
  | v :: vs, .cons _ t fs => isOf D v t && areOf D vs fs
  | _, _ => false
def allOf (D : Decls) : List Value → Ty → Bool
  | [], _ => true
  | v :: vs, t => isOf D v t && allOf D vs t
def entriesOf (D : Decls) : List (Str × Value) → Ty → Bool
  | [], _ => true
  | (_, v) :: es, t => isOf D v t && entriesOf D es t
end

/-- A field with `child_key` attributes must be a range of structs having these members. -/
def keysOkD (D : Decls) (a : Attrs) : Ty → Bool
  | .seq _ (.record n .nil) => a.childKeys.all (· < (fieldList (D n)).length)
  | .seq _ (.record _ (.cons b t gs)) => a.childKeys.all (· < (fieldList (.cons b t gs)).length)
  | _ => a.childKeys.isEmpty

mutual
/-- The type compiles. -/
def tyOkD (D : Decls) : Ty → Bool
  | .leaf _ => true
  | .opt t => tyOkD D t
  | .record _ .nil => true
  | .record _ (.cons a t fs) => keysOkD D a t && tyOkD D t && fieldsOkD D fs
  | .map _ t => tyOkD D t
  | .seq _ t => tyOkD D t
def fieldsOkD (D : Decls) : Fields → Bool
  | .nil => true
  | .cons a t fs => keysOkD D a t && tyOkD D t && fieldsOkD D fs
end

/-- The structs compile. -/
def DeclsOk (D : Decls) : Prop := ∀ n, fieldsOkD D (D n) = true

/-! ### Lemmas -/

mutual
theorem hasTy_isOf (D : Decls) (v : Value) (t : Ty) (k : Nat) (hw : Within k v) :
    HasTy (subst (unroll D k) t) v ↔ isOf D v t = true := by
  obtain ⟨k, rfl⟩ : ∃ j, k = j + 1 := by
    cases k with
    | zero => exact absurd hw id
    | succ j => exact ⟨j, rfl⟩
  match v, t with
  | .leaf _, .leaf _ => simp [subst, HasTy, isOf]
  | .leaf _, .opt _ => simp [subst, HasTy, isOf]
  | .leaf _, .record _ .nil => simp [subst, unroll, HasTy, isOf]
  | .leaf _, .record _ (.cons _ _ _) => simp [subst, HasTy, isOf]
  | .leaf _, .map _ _ => simp [subst, HasTy, isOf]
  | .leaf _, .seq _ _ => simp [subst, HasTy, isOf]
  | .opt none, .opt _ => simp [subst, HasTy, isOf]
  | .opt (some v), .opt t =>
    have := hasTy_isOf D v t (k + 1) (within_mono (Nat.le_succ k) (hw v (by simp [Value.kids])))
    simp only [subst, HasTy, isOf, Option.some.injEq, forall_eq']
    exact this
  | .opt none, .leaf _ => simp [subst, HasTy, isOf]
  | .opt none, .record _ .nil => simp [subst, unroll, HasTy, isOf]
  | .opt none, .record _ (.cons _ _ _) => simp [subst, HasTy, isOf]
  | .opt none, .map _ _ => simp [subst, HasTy, isOf]
  | .opt none, .seq _ _ => simp [subst, HasTy, isOf]
  | .opt (some _), .leaf _ => simp [subst, HasTy, isOf]
  | .opt (some _), .record _ .nil => simp [subst, unroll, HasTy, isOf]
  | .opt (some _), .record _ (.cons _ _ _) => simp [subst, HasTy, isOf]
  | .opt (some _), .map _ _ => simp [subst, HasTy, isOf]
  | .opt (some _), .seq _ _ => simp [subst, HasTy, isOf]
  | .record vs, .record n .nil =>
    simp only [subst, unroll, HasTy, isOf]
    exact hasTys_areOf D vs (D n) k hw
  | .record vs, .record n (.cons a t fs) =>
    have := hasTys_areOf D vs (.cons a t fs) (k + 1) fun v hv => within_mono (Nat.le_succ k) (hw v hv)
    simp only [subst, HasTy, isOf]
    simpa only [substFields] using this
  | .record _, .leaf _ => simp [subst, HasTy, isOf]
  | .record _, .opt _ => simp [subst, HasTy, isOf]
  | .record _, .map _ _ => simp [subst, HasTy, isOf]
  | .record _, .seq _ _ => simp [subst, HasTy, isOf]
  | .map es, .map _ t =>
    have := entries_isOf D es t (k + 1) fun e he => within_mono (Nat.le_succ k) (hw e.2 (List.mem_map.2 ⟨e, he, rfl⟩))
    simp only [subst, HasTy, isOf, Bool.and_eq_true, decide_eq_true_eq]
    rw [this]
  | .map _, .leaf _ => simp [subst, HasTy, isOf]
  | .map _, .opt _ => simp [subst, HasTy, isOf]
  | .map _, .record _ .nil => simp [subst, unroll, HasTy, isOf]
  | .map _, .record _ (.cons _ _ _) => simp [subst, HasTy, isOf]
  | .map _, .seq _ _ => simp [subst, HasTy, isOf]
  | .seq vs, .seq _ t =>
    have := all_isOf D vs t (k + 1) fun v hv => within_mono (Nat.le_succ k) (hw v hv)
    simp only [subst, HasTy, isOf]
    exact this
  | .seq _, .leaf _ => simp [subst, HasTy, isOf]
  | .seq _, .opt _ => simp [subst, HasTy, isOf]
  | .seq _, .record _ .nil => simp [subst, unroll, HasTy, isOf]
  | .seq _, .record _ (.cons _ _ _) => simp [subst, HasTy, isOf]
  | .seq _, .map _ _ => simp [subst, HasTy, isOf]
theorem hasTys_areOf (D : Decls) (vs : List Value) (fs : Fields) (k : Nat) (hw : ∀ v ∈ vs, Within k v) :
    HasTys (substFields (unroll D k) fs) vs ↔ areOf D vs fs = true := by
  match vs, fs with
  | [], .nil => simp [substFields, HasTys, areOf]
  | [], .cons _ _ _ => simp [substFields, HasTys, areOf]
  | _ :: _, .nil => simp [substFields, HasTys, areOf]
  | v :: vs, .cons a t fs =>
    have h1 := hasTy_isOf D v t k (hw v (by simp))
    have h2 := hasTys_areOf D vs fs k fun v hv => hw v (by simp [hv])
    simp only [substFields, HasTys, areOf, Bool.and_eq_true, h1, h2]
theorem all_isOf (D : Decls) (vs : List Value) (t : Ty) (k : Nat) (hw : ∀ v ∈ vs, Within k v) :
    (∀ v ∈ vs, HasTy (subst (unroll D k) t) v) ↔ allOf D vs t = true := by
  match vs with
  | [] => simp [allOf]
  | v :: vs =>
    have h1 := hasTy_isOf D v t k (hw v (by simp))
    have h2 := all_isOf D vs t k fun v hv => hw v (by simp [hv])
    simp only [List.forall_mem_cons, allOf, Bool.and_eq_true, h1, h2]
theorem entries_isOf (D : Decls) (es : List (Str × Value)) (t : Ty) (k : Nat) (hw : ∀ e ∈ es, Within k e.2) :
    (∀ e ∈ es, HasTy (subst (unroll D k) t) e.2) ↔ entriesOf D es t = true := by
  match es with
  | [] => simp [entriesOf]
  | (x, v) :: es =>
    have h1 := hasTy_isOf D v t k (hw (x, v) (by simp))
    have h2 := entries_isOf D es t k fun v hv => hw v (by simp [hv])
    simp only [List.forall_mem_cons, entriesOf, Bool.and_eq_true, h1, h2]
end

theorem length_subst (r : Nat → Ty) (fs : Fields) : (fieldList (substFields r fs)).length = (fieldList fs).length := by
  match fs with
  | .nil => rfl
  | .cons a t fs => simp only [substFields, fieldList, List.length_cons, length_subst r fs]

theorem length_cut (fs : Fields) : (fieldList (cutFields fs)).length = (fieldList fs).length := by
  match fs with
  | .nil => rfl
  | .cons a t fs => simp only [cutFields, fieldList, List.length_cons, length_cut fs]

theorem unroll_record (D : Decls) (k n : Nat) : ∃ gs, unroll D k n = .record n gs ∧ (fieldList gs).length = (fieldList (D n)).length := by
  cases k with
  | zero => exact ⟨_, rfl, length_cut _⟩
  | succ k => exact ⟨_, rfl, length_subst _ _⟩

theorem keysOk_subst (D : Decls) (k : Nat) (a : Attrs) (t : Ty) (h : keysOkD D a t = true) : keysOk a (subst (unroll D k) t) = true := by
  match t with
  | .seq kd (.record n .nil) =>
    obtain ⟨gs, e, hl⟩ := unroll_record D k n
    simp only [keysOkD] at h
    simp only [subst, e, keysOk, hl]; exact h
  | .seq kd (.record n (.cons b t gs)) =>
    simp only [keysOkD] at h
    simp only [subst, keysOk, fieldList, List.length_cons, length_subst] at h ⊢
    exact h
  | .seq kd (.leaf _) => simpa [keysOkD, keysOk, subst] using h
  | .seq kd (.opt _) => simpa [keysOkD, keysOk, subst] using h
  | .seq kd (.map _ _) => simpa [keysOkD, keysOk, subst] using h
  | .seq kd (.seq _ _) => simpa [keysOkD, keysOk, subst] using h
  | .leaf _ => simpa [keysOkD, keysOk, subst] using h
  | .opt _ => simpa [keysOkD, keysOk, subst] using h
  | .map _ _ => simpa [keysOkD, keysOk, subst] using h
  | .record n .nil =>
    obtain ⟨gs, e, hl⟩ := unroll_record D k n
    simp only [subst, e, keysOk]; simpa [keysOkD] using h
  | .record _ (.cons _ _ _) => simpa [keysOkD, keysOk, subst] using h

mutual
theorem tyOk_subst (D : Decls) (k : Nat) (hr : ∀ n, tyOk (unroll D k n) = true) (t : Ty) (h : tyOkD D t = true) :
    tyOk (subst (unroll D k) t) = true := by
  match t with
  | .leaf _ => rfl
  | .opt t => simp only [subst, tyOk]; exact tyOk_subst D k hr t (by simpa only [tyOkD] using h)
  | .map _ t => simp only [subst, tyOk]; exact tyOk_subst D k hr t (by simpa only [tyOkD] using h)
  | .seq _ t => simp only [subst, tyOk]; exact tyOk_subst D k hr t (by simpa only [tyOkD] using h)
  | .record n .nil => simp only [subst]; exact hr n
  | .record n (.cons a t fs) =>
    simp only [tyOkD, Bool.and_eq_true] at h
    simp only [subst, tyOk, fieldsOk, Bool.and_eq_true]
    exact ⟨⟨keysOk_subst D k a t h.1.1, tyOk_subst D k hr t h.1.2⟩, fieldsOk_subst D k hr fs h.2⟩
theorem fieldsOk_subst (D : Decls) (k : Nat) (hr : ∀ n, tyOk (unroll D k n) = true) (fs : Fields) (h : fieldsOkD D fs = true) :
    fieldsOk (substFields (unroll D k) fs) = true := by
  match fs with
  | .nil => rfl
  | .cons a t fs =>
    simp only [fieldsOkD, Bool.and_eq_true] at h
    simp only [substFields, fieldsOk, Bool.and_eq_true]
    exact ⟨⟨keysOk_subst D k a t h.1.1, tyOk_subst D k hr t h.1.2⟩, fieldsOk_subst D k hr fs h.2⟩
end

theorem fieldsOk_cut (fs : Fields) : fieldsOk (cutFields fs) = true := by
  match fs with
  | .nil => rfl
  | .cons a t fs => simp [cutFields, fieldsOk, keysOk, tyOk, fieldsOk_cut fs]

theorem tyOk_unroll (D : Decls) (hD : DeclsOk D) : ∀ k n, tyOk (unroll D k n) = true := by
  intro k
  induction k with
  | zero => intro n; simp only [unroll, tyOk]; exact fieldsOk_cut _
  | succ k ih => intro n; simp only [unroll, tyOk]; exact fieldsOk_subst D k ih _ (hD n)

end Verif.Resource
