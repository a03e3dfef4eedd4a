import Verif.Serial.RecIsA
/-! Types that are read back unchanged, with names replaced. -/
namespace Verif.Serial
open Verif.Path Verif.Enums Spec

mutual
theorem allNames_upto : ∀ {fs : Fields} {k : Nat} {gs : Fields}, UptoFields fs k gs → allNames fs = allNames gs
  | .nil, _, _, h => by simp only [UptoFields] at h; subst h; rfl
  | .cons f t fs, _, _, h => by
    simp only [UptoFields] at h; obtain ⟨u, us, rfl, h1, h2⟩ := h
    simp only [allNames, allNamesTy_upto h1, allNames_upto h2]
theorem allNamesTy_upto : ∀ {t : Ty} {k : Nat} {u : Ty}, Upto t k u → allNamesTy t = allNamesTy u
  | .leaf _, _, _, h | .enum _, _, _, h | .rawEnum _, _, _, h | .enumSet _, _, _, h => by
    simp only [Upto] at h; subst h; rfl
  | .opt t, _, _, h | .vec t, _, _, h | .arr _ t, _, _, h | .map t, _, _, h | .tuple _ t, _, _, h => by
    simp only [Upto] at h; obtain ⟨u, rfl, h⟩ := h; simp only [allNamesTy]
  | .record _ fs, _, _, h => by
    simp only [Upto] at h; obtain ⟨u, rfl, h⟩ := h; simp only [allNamesTy, allNames_upto h]
end

theorem isOpt_upto : ∀ {t : Ty} {k : Nat} {u : Ty}, Upto t k u → isOpt t = isOpt u
  | .leaf _, _, _, h | .enum _, _, _, h | .rawEnum _, _, _, h | .enumSet _, _, _, h => by
    simp only [Upto] at h; subst h; simp
  | .opt t, _, _, h | .vec t, _, _, h | .arr _ t, _, _, h | .map t, _, _, h | .tuple _ t, _, _, h
  | .record _ t, _, _, h => by
    simp only [Upto] at h; obtain ⟨u, rfl, h⟩ := h; simp [isOpt]

mutual
theorem easy_subst {s : Bool} {r r' : Str → Ty} (hU : ∀ m, Upto (r m) 0 (r' m)) (hK : ∀ m, easy s (r' m) = true) :
    ∀ (t : Ty), easy s (subst r t) = true → easy s (subst r' t) = true
  | .leaf _, h | .enum _, h | .rawEnum _, h | .enumSet _, h => by simpa only [subst] using h
  | .vec t, h | .arr _ t, h => by
    simp only [subst, easy] at h ⊢; exact easy_subst hU hK t h
  | .opt t, h | .map t, h => by
    simp only [subst, easy, Bool.and_eq_true] at h ⊢
    rw [← isOpt_upto (subst_upto hU t)]
    exact ⟨h.1, easy_subst hU hK t h.2⟩
  | .tuple _ ts, h => by simp only [subst, easy] at h ⊢; exact easyAll_subst hU hK ts h
  | .record n .nil, _ => by simp only [subst]; exact hK n
  | .record n (.cons f t fs), h => by
    have e : ∀ r : Str → Ty, subst r (.record n (.cons f t fs)) = .record n (substFields r (.cons f t fs)) := by
      intro r; simp only [subst, substFields]
    rw [e] at h ⊢
    have hu := substFields_upto hU (.cons f t fs)
    simp only [easy, Bool.and_eq_true] at h ⊢
    rw [← allNames_upto hu]
    refine ⟨h.1, ?_⟩
    have h := h.2
    simp only [substFields, easyFields, Bool.and_eq_true] at h ⊢
    rw [← isOpt_upto (subst_upto hU t)]
    exact ⟨⟨h.1.1, easy_subst hU hK t h.1.2⟩, easyFields_subst hU hK fs h.2⟩
theorem easyAll_subst {s : Bool} {r r' : Str → Ty} (hU : ∀ m, Upto (r m) 0 (r' m)) (hK : ∀ m, easy s (r' m) = true) :
    ∀ (ts : Tys), easyAll s (substs r ts) = true → easyAll s (substs r' ts) = true
  | .nil, _ => by simp only [substs, easyAll]
  | .cons t ts, h => by
    simp only [substs, easyAll, Bool.and_eq_true] at h ⊢
    exact ⟨easy_subst hU hK t h.1, easyAll_subst hU hK ts h.2⟩
theorem easyFields_subst {s : Bool} {r r' : Str → Ty} (hU : ∀ m, Upto (r m) 0 (r' m))
    (hK : ∀ m, easy s (r' m) = true) :
    ∀ (fs : Fields), easyFields s (substFields r fs) = true → easyFields s (substFields r' fs) = true
  | .nil, _ => by simp only [substFields, easyFields]
  | .cons f t fs, h => by
    simp only [substFields, easyFields, Bool.and_eq_true] at h ⊢
    rw [← isOpt_upto (subst_upto hU t)]
    exact ⟨⟨h.1.1, easy_subst hU hK t h.1.2⟩, easyFields_subst hU hK fs h.2⟩
end

theorem unroll_easy {D : Decls} {s : Bool} (g : ∀ n, guardedFields (D n) = true)
    (hE : ∀ n, easy s (unroll D 1 n) = true) : ∀ (k : Nat) (n : Str), easy s (unroll D (k + 1) n) = true
  | 0, n => hE n
  | k + 1, n => by
    have hU : ∀ m, Upto (unroll D 0 m) 0 (unroll D (k + 1) m) := unroll_upto g 0 (k + 1) (by omega)
    have h := hE n
    simp only [unroll, easy, Bool.and_eq_true] at h
    rw [unroll]
    simp only [easy, Bool.and_eq_true]
    rw [← allNames_upto (substFields_upto hU (D n))]
    exact ⟨h.1, easyFields_subst hU (unroll_easy g hE k) _ h.2⟩

mutual
theorem listed_upto : ∀ {t : Ty} {k : Nat} {u : Ty}, Upto t k u → ∀ {v : Value}, v.depth ≤ k →
    (Listed t v ↔ Listed u v)
  | .leaf _, _, _, h, _, _ | .enum _, _, _, h, _, _ | .rawEnum _, _, _, h, _, _ | .enumSet _, _, _, h, _, _ => by
    simp only [Upto] at h; subst h; rfl
  | .opt t, k, _, h, v, hd => by
    simp only [Upto] at h; obtain ⟨u, rfl, h⟩ := h
    cases v <;> try simp only [Listed]
    rename_i v
    cases v with
    | none => simp only [Listed]
    | some v => simp only [Listed]; exact listed_upto h (by simpa only [Value.depth] using hd)
  | .vec t, k, _, h, v, hd => by
    simp only [Upto] at h; obtain ⟨u, rfl, h⟩ := h
    cases v <;> simp only [Listed]
    rename_i vs
    simp only [Value.depth] at hd
    cases k with
    | zero => rw [depths_zero hd]; simp
    | succ k => exact forall₂_congr fun w hw => listed_upto (h k rfl) (depths_le hd w hw)
  | .arr _ t, k, _, h, v, hd => by
    simp only [Upto] at h; obtain ⟨u, rfl, h⟩ := h
    cases v <;> simp only [Listed]
    rename_i vs
    simp only [Value.depth] at hd
    exact forall₂_congr fun w hw => listed_upto h (depths_mem hd hw)
  | .map t, k, _, h, v, hd => by
    simp only [Upto] at h; obtain ⟨u, rfl, h⟩ := h
    cases v <;> simp only [Listed]
    rename_i vs
    simp only [Value.depth] at hd
    cases k with
    | zero => rw [depthEntries_zero hd]; simp
    | succ k => exact forall₂_congr fun w hw => listed_upto (h k rfl) (depthEntries_le hd w hw)
  | .tuple _ ts, k, _, h, v, hd => by
    simp only [Upto] at h; obtain ⟨u, rfl, h⟩ := h
    cases v <;> simp only [Listed]
    simp only [Value.depth] at hd
    exact listedAll_upto h hd
  | .record _ fs, k, _, h, v, hd => by
    simp only [Upto] at h; obtain ⟨u, rfl, h⟩ := h
    cases v <;> simp only [Listed]
    simp only [Value.depth] at hd
    exact listedFields_upto h hd
theorem listedAll_upto : ∀ {ts : Tys} {k : Nat} {us : Tys}, Uptos ts k us →
    ∀ {vs : List Value}, depths vs ≤ k → (ListedAll ts vs ↔ ListedAll us vs)
  | .nil, _, _, h, _, _ => by simp only [Uptos] at h; subst h; rfl
  | .cons t ts, k, _, h, vs, hd => by
    simp only [Uptos] at h; obtain ⟨u, us, rfl, h1, h2⟩ := h
    cases vs with
    | nil => simp only [ListedAll]
    | cons v vs =>
      rw [depths] at hd
      simp only [ListedAll]
      exact and_congr (listed_upto h1 (by omega)) (listedAll_upto h2 (by omega))
theorem listedFields_upto : ∀ {fs : Fields} {k : Nat} {gs : Fields}, UptoFields fs k gs →
    ∀ {vs : List Value}, depthFields vs ≤ k → (ListedFields fs vs ↔ ListedFields gs vs)
  | .nil, _, _, h, _, _ => by simp only [UptoFields] at h; subst h; rfl
  | .cons f t fs, k, _, h, vs, hd => by
    simp only [UptoFields] at h; obtain ⟨u, us, rfl, h1, h2⟩ := h
    cases vs with
    | nil => simp only [ListedFields]
    | cons v vs =>
      rw [depthFields] at hd
      simp only [ListedFields]
      exact and_congr (listed_upto h1 (by omega)) (listedFields_upto h2 (by omega))
end

end Verif.Serial
