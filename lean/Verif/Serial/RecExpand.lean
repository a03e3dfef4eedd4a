import Verif.Serial.RecEasy
/-! The types with names replaced are the declared ones. -/
namespace Verif.Serial
open Verif.Path Verif.Enums Spec

mutual
/-- `u` is the type `t` with each name replaced by the struct declared under it, at least down to `k` nested vectors
and maps. -/
inductive Expands (D : Decls) : Nat → Ty → Ty → Prop
  | leaf {k l} : Expands D k (.leaf l) (.leaf l)
  | enum {k e} : Expands D k (.enum e) (.enum e)
  | rawEnum {k t} : Expands D k (.rawEnum t) (.rawEnum t)
  | enumSet {k e} : Expands D k (.enumSet e) (.enumSet e)
  | opt {k t u} : Expands D k t u → Expands D k (.opt t) (.opt u)
  | arr {k n t u} : Expands D k t u → Expands D k (.arr n t) (.arr n u)
  | vec {k t u} : Expands D k t u → Expands D (k + 1) (.vec t) (.vec u)
  | map {k t u} : Expands D k t u → Expands D (k + 1) (.map t) (.map u)
  | vecEnd {t u} : Expands D 0 (.vec t) (.vec u)
  | mapEnd {t u} : Expands D 0 (.map t) (.map u)
  | tuple {k p ts us} : ExpandsAll D k ts us → Expands D k (.tuple p ts) (.tuple p us)
  | record {k n f t u fs gs} : Expands D k t u → ExpandsFields D k fs gs →
      Expands D k (.record n (.cons f t fs)) (.record n (.cons f u gs))
  | name {k n gs} : ExpandsFields D k (D n) gs → Expands D k (.record n .nil) (.record n gs)
inductive ExpandsAll (D : Decls) : Nat → Tys → Tys → Prop
  | nil {k} : ExpandsAll D k .nil .nil
  | cons {k t u ts us} : Expands D k t u → ExpandsAll D k ts us → ExpandsAll D k (.cons t ts) (.cons u us)
inductive ExpandsFields (D : Decls) : Nat → Fields → Fields → Prop
  | nil {k} : ExpandsFields D k .nil .nil
  | cons {k f t u fs gs} : Expands D k t u → ExpandsFields D k fs gs →
      ExpandsFields D k (.cons f t fs) (.cons f u gs)
end

mutual
theorem expands_mono {D : Decls} : ∀ {k j : Nat} {t u : Ty}, j ≤ k → Expands D k t u → Expands D j t u
  | _, _, _, _, _, .leaf => .leaf
  | _, _, _, _, _, .enum => .enum
  | _, _, _, _, _, .rawEnum => .rawEnum
  | _, _, _, _, _, .enumSet => .enumSet
  | _, _, _, _, hj, .opt h => .opt (expands_mono hj h)
  | _, _, _, _, hj, .arr h => .arr (expands_mono hj h)
  | _, 0, _, _, _, .vec _ => .vecEnd
  | _, _ + 1, _, _, hj, .vec h => .vec (expands_mono (Nat.le_of_succ_le_succ hj) h)
  | _, 0, _, _, _, .map _ => .mapEnd
  | _, _ + 1, _, _, hj, .map h => .map (expands_mono (Nat.le_of_succ_le_succ hj) h)
  | _, j, _, _, hj, .vecEnd => by rw [Nat.le_zero.1 hj]; exact .vecEnd
  | _, j, _, _, hj, .mapEnd => by rw [Nat.le_zero.1 hj]; exact .mapEnd
  | _, _, _, _, hj, .tuple h => .tuple (expandsAll_mono hj h)
  | _, _, _, _, hj, .record h1 h2 => .record (expands_mono hj h1) (expandsFields_mono hj h2)
  | _, _, _, _, hj, .name h => .name (expandsFields_mono hj h)
theorem expandsAll_mono {D : Decls} : ∀ {k j : Nat} {ts us : Tys}, j ≤ k → ExpandsAll D k ts us → ExpandsAll D j ts us
  | _, _, _, _, _, .nil => .nil
  | _, _, _, _, hj, .cons h1 h2 => .cons (expands_mono hj h1) (expandsAll_mono hj h2)
theorem expandsFields_mono {D : Decls} :
    ∀ {k j : Nat} {fs gs : Fields}, j ≤ k → ExpandsFields D k fs gs → ExpandsFields D j fs gs
  | _, _, _, _, _, .nil => .nil
  | _, _, _, _, hj, .cons h1 h2 => .cons (expands_mono hj h1) (expandsFields_mono hj h2)
end

mutual
theorem cut_expands (D : Decls) : ∀ (t : Ty), guarded t = true → Expands D 0 t (cut t)
  | .leaf _, _ => by simp only [cut]; exact .leaf
  | .enum _, _ => by simp only [cut]; exact .enum
  | .rawEnum _, _ => by simp only [cut]; exact .rawEnum
  | .enumSet _, _ => by simp only [cut]; exact .enumSet
  | .opt t, g => by simp only [guarded] at g; simp only [cut]; exact .opt (cut_expands D t g)
  | .arr _ t, g => by simp only [guarded] at g; simp only [cut]; exact .arr (cut_expands D t g)
  | .vec t, _ => by simp only [cut]; exact .vecEnd
  | .map t, _ => by simp only [cut]; exact .mapEnd
  | .tuple _ ts, g => by simp only [guarded] at g; simp only [cut]; exact .tuple (cuts_expands D ts g)
  | .record _ .nil, g => by simp [guarded] at g
  | .record _ (.cons f t fs), g => by
    simp only [guarded, Bool.and_eq_true] at g; simp only [cut, cutFields]
    exact .record (cut_expands D t g.1) (cutFields_expands D fs g.2)
theorem cuts_expands (D : Decls) : ∀ (ts : Tys), guardedAll ts = true → ExpandsAll D 0 ts (cuts ts)
  | .nil, _ => by simp only [cuts]; exact .nil
  | .cons t ts, g => by
    simp only [guardedAll, Bool.and_eq_true] at g; simp only [cuts]
    exact .cons (cut_expands D t g.1) (cuts_expands D ts g.2)
theorem cutFields_expands (D : Decls) : ∀ (fs : Fields), guardedFields fs = true → ExpandsFields D 0 fs (cutFields fs)
  | .nil, _ => by simp only [cutFields]; exact .nil
  | .cons f t fs, g => by
    simp only [guardedFields, Bool.and_eq_true] at g; simp only [cutFields]
    exact .cons (cut_expands D t g.1) (cutFields_expands D fs g.2)
end

mutual
theorem subst_expands {D : Decls} {r : Str → Ty} {k : Nat} (h : ∀ n, Expands D k (.record n .nil) (r n)) :
    ∀ (t : Ty), Expands D k t (subst r t)
  | .leaf _ => by simp only [subst]; exact .leaf
  | .enum _ => by simp only [subst]; exact .enum
  | .rawEnum _ => by simp only [subst]; exact .rawEnum
  | .enumSet _ => by simp only [subst]; exact .enumSet
  | .opt t => by simp only [subst]; exact .opt (subst_expands h t)
  | .arr _ t => by simp only [subst]; exact .arr (subst_expands h t)
  | .vec t => by simp only [subst]; exact expands_mono (Nat.le_succ k) (.vec (subst_expands h t))
  | .map t => by simp only [subst]; exact expands_mono (Nat.le_succ k) (.map (subst_expands h t))
  | .tuple _ ts => by simp only [subst]; exact .tuple (substs_expands h ts)
  | .record n .nil => by simp only [subst]; exact h n
  | .record _ (.cons f t fs) => by simp only [subst]; exact .record (subst_expands h t) (substFields_expands h fs)
theorem substs_expands {D : Decls} {r : Str → Ty} {k : Nat} (h : ∀ n, Expands D k (.record n .nil) (r n)) :
    ∀ (ts : Tys), ExpandsAll D k ts (substs r ts)
  | .nil => by simp only [substs]; exact .nil
  | .cons t ts => by simp only [substs]; exact .cons (subst_expands h t) (substs_expands h ts)
theorem substFields_expands {D : Decls} {r : Str → Ty} {k : Nat} (h : ∀ n, Expands D k (.record n .nil) (r n)) :
    ∀ (fs : Fields), ExpandsFields D k fs (substFields r fs)
  | .nil => by simp only [substFields]; exact .nil
  | .cons f t fs => by simp only [substFields]; exact .cons (subst_expands h t) (substFields_expands h fs)
end

mutual
theorem subst_expands_guarded {D : Decls} {r : Str → Ty} {k : Nat} (h : ∀ n, Expands D k (.record n .nil) (r n)) :
    ∀ (t : Ty), guarded t = true → Expands D (k + 1) t (subst r t)
  | .leaf _, _ => by simp only [subst]; exact .leaf
  | .enum _, _ => by simp only [subst]; exact .enum
  | .rawEnum _, _ => by simp only [subst]; exact .rawEnum
  | .enumSet _, _ => by simp only [subst]; exact .enumSet
  | .opt t, g => by simp only [guarded] at g; simp only [subst]; exact .opt (subst_expands_guarded h t g)
  | .arr _ t, g => by simp only [guarded] at g; simp only [subst]; exact .arr (subst_expands_guarded h t g)
  | .vec t, _ => by simp only [subst]; exact .vec (subst_expands h t)
  | .map t, _ => by simp only [subst]; exact .map (subst_expands h t)
  | .tuple _ ts, g => by simp only [guarded] at g; simp only [subst]; exact .tuple (substs_expands_guarded h ts g)
  | .record n .nil, g => by simp [guarded] at g
  | .record _ (.cons f t fs), g => by
    simp only [guarded, Bool.and_eq_true] at g; simp only [subst]
    exact .record (subst_expands_guarded h t g.1) (substFields_expands_guarded h fs g.2)
theorem substs_expands_guarded {D : Decls} {r : Str → Ty} {k : Nat} (h : ∀ n, Expands D k (.record n .nil) (r n)) :
    ∀ (ts : Tys), guardedAll ts = true → ExpandsAll D (k + 1) ts (substs r ts)
  | .nil, _ => by simp only [substs]; exact .nil
  | .cons t ts, g => by
    simp only [guardedAll, Bool.and_eq_true] at g; simp only [substs]
    exact .cons (subst_expands_guarded h t g.1) (substs_expands_guarded h ts g.2)
theorem substFields_expands_guarded {D : Decls} {r : Str → Ty} {k : Nat}
    (h : ∀ n, Expands D k (.record n .nil) (r n)) :
    ∀ (fs : Fields), guardedFields fs = true → ExpandsFields D (k + 1) fs (substFields r fs)
  | .nil, _ => by simp only [substFields]; exact .nil
  | .cons f t fs, g => by
    simp only [guardedFields, Bool.and_eq_true] at g; simp only [substFields]
    exact .cons (subst_expands_guarded h t g.1) (substFields_expands_guarded h fs g.2)
end

theorem unroll_expands {D : Decls} (g : ∀ n, guardedFields (D n) = true) :
    ∀ (k : Nat) (n : Str), Expands D k (.record n .nil) (unroll D k n)
  | 0, n => by rw [unroll]; exact .name (cutFields_expands D _ (g n))
  | k + 1, n => by rw [unroll]; exact .name (substFields_expands_guarded (unroll_expands g k) _ (g n))

end Verif.Serial
