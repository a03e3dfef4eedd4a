import Verif.Serial.Rec
import Verif.Serial.Props
/-! Types that are the same down to a number of nested vectors and maps are treated the same. -/
namespace Verif.Serial
open Verif.Path Verif.Enums Spec

/-! ### Depths -/

theorem depths_le {k : Nat} : ∀ {vs : List Value}, depths vs ≤ k + 1 → ∀ v ∈ vs, v.depth ≤ k
  | [], _, _, hv => by simp at hv
  | w :: ws, h, v, hv => by
    rw [depths] at h
    rcases List.mem_cons.1 hv with rfl | hv
    · omega
    · exact depths_le (by omega) v hv

theorem depths_zero {vs : List Value} (h : depths vs ≤ 0) : vs = [] := by
  cases vs with
  | nil => rfl
  | cons v vs => rw [depths] at h; omega

theorem depths_mem {k : Nat} {vs : List Value} (h : depths vs ≤ k) {v : Value} (hv : v ∈ vs) : v.depth ≤ k := by
  cases k with
  | zero => rw [depths_zero h] at hv; simp at hv
  | succ k => exact Nat.le_succ_of_le (depths_le h v hv)

theorem depthFields_le {k : Nat} : ∀ {vs : List Value}, depthFields vs ≤ k → ∀ v ∈ vs, v.depth ≤ k
  | [], _, _, hv => by simp at hv
  | w :: ws, h, v, hv => by
    rw [depthFields] at h
    rcases List.mem_cons.1 hv with rfl | hv
    · omega
    · exact depthFields_le (by omega) v hv

theorem depthEntries_le {k : Nat} : ∀ {es : List (Str × Value)}, depthEntries es ≤ k + 1 → ∀ e ∈ es, e.2.depth ≤ k
  | [], _, _, hv => by simp at hv
  | (_, w) :: ws, h, v, hv => by
    rw [depthEntries] at h
    rcases List.mem_cons.1 hv with rfl | hv
    · simp only; omega
    · exact depthEntries_le (by omega) v hv

theorem depthEntries_zero {es : List (Str × Value)} (h : depthEntries es ≤ 0) : es = [] := by
  cases es with
  | nil => rfl
  | cons v vs => obtain ⟨k, v⟩ := v; rw [depthEntries] at h; omega

theorem docDepths_le {σ : Type} {k : Nat} : ∀ {l : List (Doc σ)}, docDepths l ≤ k + 1 → ∀ d ∈ l, d.depth ≤ k
  | [], _, _, hv => by simp at hv
  | w :: ws, h, v, hv => by
    rw [docDepths] at h
    rcases List.mem_cons.1 hv with rfl | hv
    · omega
    · exact docDepths_le (by omega) v hv

theorem docDepths_zero {σ : Type} {l : List (Doc σ)} (h : docDepths l ≤ 0) : l = [] := by
  cases l with
  | nil => rfl
  | cons v vs => rw [docDepths] at h; omega

theorem memberDepths_le {σ : Type} {k : Nat} :
    ∀ {ms : List (Str × Doc σ)}, memberDepths ms ≤ k + 1 → ∀ m ∈ ms, m.2.depth ≤ k
  | [], _, _, hv => by simp at hv
  | (_, w) :: ws, h, v, hv => by
    rw [memberDepths] at h
    rcases List.mem_cons.1 hv with rfl | hv
    · simp only; omega
    · exact memberDepths_le (by omega) v hv

theorem memberDepths_zero {σ : Type} {ms : List (Str × Doc σ)} (h : memberDepths ms ≤ 0) : ms = [] := by
  cases ms with
  | nil => rfl
  | cons v vs => obtain ⟨k, v⟩ := v; rw [memberDepths] at h; omega

/-! ### Types that agree -/

mutual
/-- The types are the same, except below more than `k` nested vectors and maps. -/
def Upto : Ty → Nat → Ty → Prop
  | .leaf l, _, u => u = .leaf l
  | .enum e, _, u => u = .enum e
  | .rawEnum t, _, u => u = .rawEnum t
  | .enumSet e, _, u => u = .enumSet e
  | .opt t, k, u => ∃ t', u = .opt t' ∧ Upto t k t'
  | .vec t, k, u => ∃ t', u = .vec t' ∧ ∀ j, k = j + 1 → Upto t j t'
  | .arr n t, k, u => ∃ t', u = .arr n t' ∧ Upto t k t'
  | .map t, k, u => ∃ t', u = .map t' ∧ ∀ j, k = j + 1 → Upto t j t'
  | .tuple p ts, k, u => ∃ ts', u = .tuple p ts' ∧ Uptos ts k ts'
  | .record n fs, k, u => ∃ fs', u = .record n fs' ∧ UptoFields fs k fs'
def Uptos : Tys → Nat → Tys → Prop
  | .nil, _, us => us = .nil
  | .cons t ts, k, us => ∃ t' ts', us = .cons t' ts' ∧ Upto t k t' ∧ Uptos ts k ts'
def UptoFields : Fields → Nat → Fields → Prop
  | .nil, _, gs => gs = .nil
  | .cons f t fs, k, gs => ∃ t' fs', gs = .cons f t' fs' ∧ Upto t k t' ∧ UptoFields fs k fs'
end

mutual
theorem upto_refl : ∀ (t : Ty) (k : Nat), Upto t k t
  | .leaf _, _ | .enum _, _ | .rawEnum _, _ | .enumSet _, _ => by simp [Upto]
  | .opt t, k => by simp only [Upto]; exact ⟨t, rfl, upto_refl t k⟩
  | .vec t, k => by simp only [Upto]; exact ⟨t, rfl, fun j _ => upto_refl t j⟩
  | .arr n t, k => by simp only [Upto]; exact ⟨t, rfl, upto_refl t k⟩
  | .map t, k => by simp only [Upto]; exact ⟨t, rfl, fun j _ => upto_refl t j⟩
  | .tuple p ts, k => by simp only [Upto]; exact ⟨ts, rfl, uptos_refl ts k⟩
  | .record n fs, k => by simp only [Upto]; exact ⟨fs, rfl, uptoFields_refl fs k⟩
theorem uptos_refl : ∀ (ts : Tys) (k : Nat), Uptos ts k ts
  | .nil, _ => by simp [Uptos]
  | .cons t ts, k => by simp only [Uptos]; exact ⟨t, ts, rfl, upto_refl t k, uptos_refl ts k⟩
theorem uptoFields_refl : ∀ (fs : Fields) (k : Nat), UptoFields fs k fs
  | .nil, _ => by simp [UptoFields]
  | .cons f t fs, k => by simp only [UptoFields]; exact ⟨t, fs, rfl, upto_refl t k, uptoFields_refl fs k⟩
end

mutual
theorem upto_mono : ∀ {t u : Ty} {j k : Nat}, j ≤ k → Upto t k u → Upto t j u
  | .leaf _, _, _, _, _, h | .enum _, _, _, _, _, h | .rawEnum _, _, _, _, _, h | .enumSet _, _, _, _, _, h => by
    simpa only [Upto] using h
  | .opt t, _, _, _, hj, h | .arr _ t, _, _, _, hj, h => by
    simp only [Upto] at h ⊢; obtain ⟨u, rfl, h⟩ := h; exact ⟨u, rfl, upto_mono hj h⟩
  | .vec t, _, j, k, hj, h | .map t, _, j, k, hj, h => by
    simp only [Upto] at h ⊢; obtain ⟨u, rfl, h⟩ := h
    refine ⟨u, rfl, fun i hi => ?_⟩
    exact upto_mono (j := i) (k := k - 1) (by omega) (h (k - 1) (by omega))
  | .tuple p ts, _, _, _, hj, h => by
    simp only [Upto] at h ⊢; obtain ⟨u, rfl, h⟩ := h; exact ⟨u, rfl, uptos_mono hj h⟩
  | .record n fs, _, _, _, hj, h => by
    simp only [Upto] at h ⊢; obtain ⟨u, rfl, h⟩ := h; exact ⟨u, rfl, uptoFields_mono hj h⟩
theorem uptos_mono : ∀ {ts us : Tys} {j k : Nat}, j ≤ k → Uptos ts k us → Uptos ts j us
  | .nil, _, _, _, _, h => by simpa only [Uptos] using h
  | .cons t ts, _, _, _, hj, h => by
    simp only [Uptos] at h ⊢; obtain ⟨u, us, rfl, h1, h2⟩ := h
    exact ⟨u, us, rfl, upto_mono hj h1, uptos_mono hj h2⟩
theorem uptoFields_mono : ∀ {fs gs : Fields} {j k : Nat}, j ≤ k → UptoFields fs k gs → UptoFields fs j gs
  | .nil, _, _, _, _, h => by simpa only [UptoFields] using h
  | .cons f t fs, _, _, _, hj, h => by
    simp only [UptoFields] at h ⊢; obtain ⟨u, us, rfl, h1, h2⟩ := h
    exact ⟨u, us, rfl, upto_mono hj h1, uptoFields_mono hj h2⟩
end

/-! ### Substitution -/

mutual
theorem subst_upto {r r' : Str → Ty} {k : Nat} (h : ∀ m, Upto (r m) k (r' m)) :
    ∀ (t : Ty), Upto (subst r t) k (subst r' t)
  | .leaf _ | .enum _ | .rawEnum _ | .enumSet _ => by simp [subst, Upto]
  | .opt t => by simp only [subst, Upto]; exact ⟨_, rfl, subst_upto h t⟩
  | .vec t => by
    simp only [subst, Upto]
    exact ⟨_, rfl, fun j hj => upto_mono (by omega) (subst_upto h t)⟩
  | .arr _ t => by simp only [subst, Upto]; exact ⟨_, rfl, subst_upto h t⟩
  | .map t => by
    simp only [subst, Upto]
    exact ⟨_, rfl, fun j hj => upto_mono (by omega) (subst_upto h t)⟩
  | .tuple p ts => by simp only [subst, Upto]; exact ⟨_, rfl, substs_upto h ts⟩
  | .record n .nil => by simp only [subst]; exact h n
  | .record n (.cons f t fs) => by
    simp only [subst, Upto, UptoFields]
    exact ⟨_, rfl, _, _, rfl, subst_upto h t, substFields_upto h fs⟩
theorem substs_upto {r r' : Str → Ty} {k : Nat} (h : ∀ m, Upto (r m) k (r' m)) :
    ∀ (ts : Tys), Uptos (substs r ts) k (substs r' ts)
  | .nil => by simp [substs, Uptos]
  | .cons t ts => by simp only [substs, Uptos]; exact ⟨_, _, rfl, subst_upto h t, substs_upto h ts⟩
theorem substFields_upto {r r' : Str → Ty} {k : Nat} (h : ∀ m, Upto (r m) k (r' m)) :
    ∀ (fs : Fields), UptoFields (substFields r fs) k (substFields r' fs)
  | .nil => by simp [substFields, UptoFields]
  | .cons f t fs => by
    simp only [substFields, UptoFields]; exact ⟨_, _, rfl, subst_upto h t, substFields_upto h fs⟩
end

mutual
/-- Below a vector or map one level more agrees. -/
theorem subst_guarded {r r' : Str → Ty} {k : Nat} (h : ∀ j, k = j + 1 → ∀ m, Upto (r m) j (r' m)) :
    ∀ (t : Ty), guarded t = true → Upto (subst r t) k (subst r' t)
  | .leaf _, _ | .enum _, _ | .rawEnum _, _ | .enumSet _, _ => by simp [subst, Upto]
  | .opt t, g => by
    simp only [guarded] at g; simp only [subst, Upto]; exact ⟨_, rfl, subst_guarded h t g⟩
  | .vec t, _ => by simp only [subst, Upto]; exact ⟨_, rfl, fun j hj => subst_upto (h j hj) t⟩
  | .arr _ t, g => by
    simp only [guarded] at g; simp only [subst, Upto]; exact ⟨_, rfl, subst_guarded h t g⟩
  | .map t, _ => by simp only [subst, Upto]; exact ⟨_, rfl, fun j hj => subst_upto (h j hj) t⟩
  | .tuple p ts, g => by
    simp only [guarded] at g; simp only [subst, Upto]; exact ⟨_, rfl, substs_guarded h ts g⟩
  | .record n .nil, g => by simp [guarded] at g
  | .record n (.cons f t fs), g => by
    simp only [guarded, Bool.and_eq_true] at g
    simp only [subst, Upto, UptoFields]
    exact ⟨_, rfl, _, _, rfl, subst_guarded h t g.1, substFields_guarded h fs g.2⟩
theorem substs_guarded {r r' : Str → Ty} {k : Nat} (h : ∀ j, k = j + 1 → ∀ m, Upto (r m) j (r' m)) :
    ∀ (ts : Tys), guardedAll ts = true → Uptos (substs r ts) k (substs r' ts)
  | .nil, _ => by simp [substs, Uptos]
  | .cons t ts, g => by
    simp only [guardedAll, Bool.and_eq_true] at g
    simp only [substs, Uptos]; exact ⟨_, _, rfl, subst_guarded h t g.1, substs_guarded h ts g.2⟩
theorem substFields_guarded {r r' : Str → Ty} {k : Nat} (h : ∀ j, k = j + 1 → ∀ m, Upto (r m) j (r' m)) :
    ∀ (fs : Fields), guardedFields fs = true → UptoFields (substFields r fs) k (substFields r' fs)
  | .nil, _ => by simp [substFields, UptoFields]
  | .cons f t fs, g => by
    simp only [guardedFields, Bool.and_eq_true] at g
    simp only [substFields, UptoFields]
    exact ⟨_, _, rfl, subst_guarded h t g.1, substFields_guarded h fs g.2⟩
end

mutual
theorem cut_upto (r : Str → Ty) : ∀ (t : Ty), guarded t = true → Upto (cut t) 0 (subst r t)
  | .leaf _, _ | .enum _, _ | .rawEnum _, _ | .enumSet _, _ => by simp [subst, cut, Upto]
  | .opt t, g => by
    simp only [guarded] at g; simp only [subst, cut, Upto]; exact ⟨_, rfl, cut_upto r t g⟩
  | .vec t, _ => by simp only [subst, cut, Upto]; exact ⟨_, rfl, by omega⟩
  | .arr _ t, g => by
    simp only [guarded] at g; simp only [subst, cut, Upto]; exact ⟨_, rfl, cut_upto r t g⟩
  | .map t, _ => by simp only [subst, cut, Upto]; exact ⟨_, rfl, by omega⟩
  | .tuple p ts, g => by
    simp only [guarded] at g; simp only [subst, cut, Upto]; exact ⟨_, rfl, cuts_upto r ts g⟩
  | .record n .nil, g => by simp [guarded] at g
  | .record n (.cons f t fs), g => by
    simp only [guarded, Bool.and_eq_true] at g
    simp only [subst, cut, cutFields, Upto, UptoFields]
    exact ⟨_, rfl, _, _, rfl, cut_upto r t g.1, cutFields_upto r fs g.2⟩
theorem cuts_upto (r : Str → Ty) : ∀ (ts : Tys), guardedAll ts = true → Uptos (cuts ts) 0 (substs r ts)
  | .nil, _ => by simp [substs, cuts, Uptos]
  | .cons t ts, g => by
    simp only [guardedAll, Bool.and_eq_true] at g
    simp only [substs, cuts, Uptos]; exact ⟨_, _, rfl, cut_upto r t g.1, cuts_upto r ts g.2⟩
theorem cutFields_upto (r : Str → Ty) :
    ∀ (fs : Fields), guardedFields fs = true → UptoFields (cutFields fs) 0 (substFields r fs)
  | .nil, _ => by simp [substFields, cutFields, UptoFields]
  | .cons f t fs, g => by
    simp only [guardedFields, Bool.and_eq_true] at g
    simp only [substFields, cutFields, UptoFields]
    exact ⟨_, _, rfl, cut_upto r t g.1, cutFields_upto r fs g.2⟩
end

/-- Further replacing does not change the first `k` levels. -/
theorem unroll_upto {D : Decls} (g : ∀ n, guardedFields (D n) = true) :
    ∀ (k i : Nat), k ≤ i → ∀ n, Upto (unroll D k n) k (unroll D i n)
  | 0, 0, _, n => upto_refl _ _
  | 0, i + 1, _, n => by
    simp only [unroll, Upto]
    exact ⟨_, rfl, cutFields_upto _ _ (g n)⟩
  | k + 1, 0, h, n => by omega
  | k + 1, i + 1, h, n => by
    simp only [unroll, Upto]
    refine ⟨_, rfl, substFields_guarded (fun j hj m => ?_) _ (g n)⟩
    have := unroll_upto g k i (by omega) m
    rwa [show j = k by omega]

end Verif.Serial
