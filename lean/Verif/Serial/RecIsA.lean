import Verif.Serial.RecOk
/-! Values of a recursive type are those of the type with names replaced often enough. -/
namespace Verif.Serial
open Verif.Path Verif.Enums Spec

theorem hasTy_name {D : Decls} (g : ∀ n, guardedFields (D n) = true) {k : Nat} {n : Str} {vs : List Value}
    (h : depthFields vs ≤ k) :
    hasTy (unroll D k n) (.record vs) = hasFields (substFields (unroll D k) (D n)) vs := by
  rw [hasTy_upto (unroll_upto g k (k + 1) (by omega) n) (by simpa only [Value.depth] using h), unroll, hasTy]

mutual
theorem isA_iff {D : Decls} (g : ∀ n, guardedFields (D n) = true) {k : Nat} :
    ∀ (v : Value) (t : Ty), v.depth ≤ k → isA D v t = hasTy (subst (unroll D k) t) v
  | .atom a, t, _ => by
    cases t <;> simp only [isA, subst, hasTy]
    rename_i n fs
    cases fs with
    | nil => cases k <;> simp only [isA, subst, unroll, hasTy]
    | cons f t fs => simp only [isA, subst, hasTy]
  | .bits n, t, _ => by
    cases t <;> simp only [isA, subst, hasTy]
    rename_i n fs
    cases fs with
    | nil => cases k <;> simp only [isA, subst, unroll, hasTy]
    | cons f t fs => simp only [isA, subst, hasTy]
  | .opt none, t, _ => by
    cases t <;> simp only [isA, subst, hasTy]
    rename_i n fs
    cases fs with
    | nil => cases k <;> simp only [isA, subst, unroll, hasTy]
    | cons f t fs => simp only [isA, subst, hasTy]
  | .opt (some v), t, h => by
    simp only [Value.depth] at h
    cases t <;> simp only [isA, subst, hasTy]
    · exact isA_iff g v _ h
    · rename_i n fs
      cases fs with
      | nil => cases k <;> simp only [subst, unroll, hasTy]
      | cons f t fs => simp only [subst, hasTy]
  | .seq vs, t, h => by
    simp only [Value.depth] at h
    cases t <;> simp only [isA, subst, hasTy]
    · exact allA_iff g vs _ h
    · rw [allA_iff g vs _ h]
    · exact tupleA_iff g vs _ h
    · rename_i n fs
      cases fs with
      | nil => cases k <;> simp only [subst, unroll, hasTy]
      | cons f t fs => simp only [subst, hasTy]
  | .map es, t, h => by
    simp only [Value.depth] at h
    cases t <;> simp only [isA, subst, hasTy]
    · rw [entriesA_iff g es _ h]
    · rename_i n fs
      cases fs with
      | nil => cases k <;> simp only [subst, unroll, hasTy]
      | cons f t fs => simp only [subst, hasTy]
  | .record vs, t, h => by
    simp only [Value.depth] at h
    cases t <;> try simp only [isA, subst, hasTy]
    rename_i n fs
    cases fs with
    | nil =>
      simp only [isA, subst]
      rw [hasTy_name g h]
      exact fieldsA_iff g vs _ h
    | cons f t fs =>
      simp only [isA, subst, hasTy]
      rw [fieldsA_iff g vs _ h, substFields]
theorem allA_iff {D : Decls} (g : ∀ n, guardedFields (D n) = true) {k : Nat} :
    ∀ (vs : List Value) (t : Ty), depths vs ≤ k → allA D vs t = vs.all (hasTy (subst (unroll D k) t))
  | [], _, _ => by simp only [allA, List.all_nil]
  | v :: vs, t, h => by
    rw [depths] at h
    simp only [allA, List.all_cons]
    rw [isA_iff g (k := k) v t (by omega), allA_iff g (k := k) vs t (by omega)]
theorem tupleA_iff {D : Decls} (g : ∀ n, guardedFields (D n) = true) {k : Nat} :
    ∀ (vs : List Value) (ts : Tys), depths vs ≤ k → tupleA D vs ts = hasTys (substs (unroll D k) ts) vs
  | [], ts, _ => by cases ts <;> simp only [tupleA, substs, hasTys]
  | v :: vs, .nil, _ => by simp only [tupleA, substs, hasTys]
  | v :: vs, .cons t ts, h => by
    rw [depths] at h
    simp only [tupleA, substs, hasTys]
    rw [isA_iff g (k := k) v t (by omega), tupleA_iff g (k := k) vs ts (by omega)]
theorem entriesA_iff {D : Decls} (g : ∀ n, guardedFields (D n) = true) {k : Nat} :
    ∀ (es : List (Str × Value)) (t : Ty), depthEntries es ≤ k →
      entriesA D es t = es.all fun e => hasTy (subst (unroll D k) t) e.2
  | [], _, _ => by simp only [entriesA, List.all_nil]
  | (a, v) :: es, t, h => by
    rw [depthEntries] at h
    simp only [entriesA, List.all_cons]
    rw [isA_iff g (k := k) v t (by omega), entriesA_iff g (k := k) es t (by omega)]
theorem fieldsA_iff {D : Decls} (g : ∀ n, guardedFields (D n) = true) {k : Nat} :
    ∀ (vs : List Value) (fs : Fields), depthFields vs ≤ k →
      fieldsA D vs fs = hasFields (substFields (unroll D k) fs) vs
  | [], fs, _ => by cases fs <;> simp only [fieldsA, substFields, hasFields]
  | v :: vs, .nil, _ => by simp only [fieldsA, substFields, hasFields]
  | v :: vs, .cons f t fs, h => by
    rw [depthFields] at h
    simp only [fieldsA, substFields, hasFields]
    rw [isA_iff g (k := k) v t (by omega), fieldsA_iff g (k := k) vs fs (by omega)]
end

theorem isStruct_iff {D : Decls} (g : ∀ n, guardedFields (D n) = true) {k : Nat} {n : Str} {v : Value}
    (h : v.depth ≤ k) : IsStruct D n v ↔ HasTy (unroll D k n) v := by
  unfold IsStruct HasTy
  rw [isA_iff g v _ h, subst]

end Verif.Serial
