import Verif.Serial.RecAgree
/-! Replacing names keeps a declaration compiling. -/
namespace Verif.Serial
open Verif.Path Verif.Enums Spec

mutual
theorem subst_unmentioned (r r' : Str → Ty) : ∀ (t : Ty), mentions t = false → subst r t = subst r' t
  | .leaf _, _ | .enum _, _ | .rawEnum _, _ | .enumSet _, _ => by simp only [subst]
  | .opt t, h | .vec t, h | .arr _ t, h | .map t, h => by
    simp only [mentions] at h; simp only [subst, subst_unmentioned r r' t h]
  | .tuple _ ts, h => by simp only [mentions] at h; simp only [subst, substs_unmentioned r r' ts h]
  | .record _ .nil, h => by simp [mentions] at h
  | .record _ (.cons f t fs), h => by
    simp only [mentions, Bool.or_eq_false_iff] at h
    simp only [subst, subst_unmentioned r r' t h.1, substFields_unmentioned r r' fs h.2]
theorem substs_unmentioned (r r' : Str → Ty) : ∀ (ts : Tys), mentionsAll ts = false → substs r ts = substs r' ts
  | .nil, _ => by simp only [substs]
  | .cons t ts, h => by
    simp only [mentionsAll, Bool.or_eq_false_iff] at h
    simp only [substs, subst_unmentioned r r' t h.1, substs_unmentioned r r' ts h.2]
theorem substFields_unmentioned (r r' : Str → Ty) :
    ∀ (fs : Fields), mentionsFields fs = false → substFields r fs = substFields r' fs
  | .nil, _ => by simp only [substFields]
  | .cons f t fs, h => by
    simp only [mentionsFields, Bool.or_eq_false_iff] at h
    simp only [substFields, subst_unmentioned r r' t h.1, substFields_unmentioned r r' fs h.2]
end

theorem isRecord_upto : ∀ {t : Ty} {k : Nat} {u : Ty}, Upto t k u → isRecord t = isRecord u ∧ isMap t = isMap u
  | .leaf _, _, _, h | .enum _, _, _, h | .rawEnum _, _, _, h | .enumSet _, _, _, h => by
    simp only [Upto] at h; subst h; simp
  | .opt t, _, _, h | .vec t, _, _, h | .arr _ t, _, _, h | .map t, _, _, h | .tuple _ t, _, _, h
  | .record _ t, _, _, h => by
    simp only [Upto] at h; obtain ⟨u, rfl, h⟩ := h; simp [isRecord, isMap]

theorem fieldOk_subst {r r' : Str → Ty} (hU : ∀ m, Upto (r m) 0 (r' m)) {f : Field} {t : Ty}
    (hp : (!mentions t || (f.init.depth == 0 && f.defaults.all (·.depth == 0))) = true)
    (h : fieldOk f (subst r t) = true) : fieldOk f (subst r' t) = true := by
  cases hm : mentions t with
  | false => rwa [← subst_unmentioned r r' t hm]
  | true =>
    simp only [hm, Bool.not_true, Bool.false_or, Bool.and_eq_true, beq_iff_eq] at hp
    have hu := subst_upto hU t
    obtain ⟨h1, h2⟩ := isRecord_upto hu
    have h3 : f.defaults.all (hasTy (subst r t)) = f.defaults.all (hasTy (subst r' t)) :=
      all_same fun v hv => hasTy_upto hu (Nat.le_of_eq (by
        have := List.all_eq_true.1 hp.2 v hv; simpa using this))
    unfold fieldOk at h ⊢
    rwa [← h1, ← h2, ← h3, ← hasTy_upto hu (Nat.le_of_eq hp.1)]

mutual
theorem tyOk_subst {r r' : Str → Ty} (hU : ∀ m, Upto (r m) 0 (r' m)) (hK : ∀ m, tyOk (r' m) = true) :
    ∀ (t : Ty), plainInits t = true → tyOk (subst r t) = true → tyOk (subst r' t) = true
  | .leaf _, _, h | .enum _, _, h | .rawEnum _, _, h | .enumSet _, _, h => by simpa only [subst] using h
  | .opt t, hp, h | .vec t, hp, h | .arr _ t, hp, h | .map t, hp, h => by
    simp only [plainInits] at hp; simp only [subst, tyOk] at h ⊢; exact tyOk_subst hU hK t hp h
  | .tuple _ ts, hp, h => by
    simp only [plainInits] at hp; simp only [subst, tyOk] at h ⊢; exact tysOk_subst hU hK ts hp h
  | .record n .nil, _, _ => by simp only [subst]; exact hK n
  | .record n (.cons f t fs), hp, h => by
    simp only [plainInits, plainInitsFields, Bool.and_eq_true] at hp
    have e : ∀ r : Str → Ty, subst r (.record n (.cons f t fs)) = .record n (substFields r (.cons f t fs)) := by
      intro r; simp only [subst, substFields]
    rw [e] at h ⊢
    have hu := substFields_upto hU (.cons f t fs)
    simp only [tyOk, serNamesOk, deserNamesOk, Bool.and_eq_true] at h ⊢
    rw [← collectSer_upto hu, ← collectDeser_upto hu]
    refine ⟨⟨?_, h.1.2⟩, h.2⟩
    have h := h.1.1
    simp only [substFields, fieldsOk, Bool.and_eq_true] at h ⊢
    exact ⟨⟨fieldOk_subst hU hp.1.1 h.1.1, tyOk_subst hU hK t hp.1.2 h.1.2⟩, fieldsOk_subst hU hK fs hp.2 h.2⟩
theorem tysOk_subst {r r' : Str → Ty} (hU : ∀ m, Upto (r m) 0 (r' m)) (hK : ∀ m, tyOk (r' m) = true) :
    ∀ (ts : Tys), plainInitsAll ts = true → tysOk (substs r ts) = true → tysOk (substs r' ts) = true
  | .nil, _, _ => by simp only [substs, tysOk]
  | .cons t ts, hp, h => by
    simp only [plainInitsAll, Bool.and_eq_true] at hp
    simp only [substs, tysOk, Bool.and_eq_true] at h ⊢
    exact ⟨tyOk_subst hU hK t hp.1 h.1, tysOk_subst hU hK ts hp.2 h.2⟩
theorem fieldsOk_subst {r r' : Str → Ty} (hU : ∀ m, Upto (r m) 0 (r' m)) (hK : ∀ m, tyOk (r' m) = true) :
    ∀ (fs : Fields), plainInitsFields fs = true → fieldsOk (substFields r fs) = true →
      fieldsOk (substFields r' fs) = true
  | .nil, _, _ => by simp only [substFields, fieldsOk]
  | .cons f t fs, hp, h => by
    simp only [plainInitsFields, Bool.and_eq_true] at hp
    simp only [substFields, fieldsOk, Bool.and_eq_true] at h ⊢
    exact ⟨⟨fieldOk_subst hU hp.1.1 h.1.1, tyOk_subst hU hK t hp.1.2 h.1.2⟩, fieldsOk_subst hU hK fs hp.2 h.2⟩
end

theorem unroll_ok {D : Decls} (hD : DeclsOk D) : ∀ (k : Nat) (n : Str), tyOk (unroll D (k + 1) n) = true
  | 0, n => (hD n).1
  | k + 1, n => by
    have hU : ∀ m, Upto (unroll D 0 m) 0 (unroll D (k + 1) m) :=
      unroll_upto (fun m => (hD m).2.1) 0 (k + 1) (by omega)
    have hK := unroll_ok hD k
    have h := (hD n).1
    simp only [unroll, tyOk, serNamesOk, deserNamesOk, Bool.and_eq_true] at h
    have hu := substFields_upto hU (D n)
    rw [unroll]
    simp only [tyOk, serNamesOk, deserNamesOk, Bool.and_eq_true]
    rw [← collectSer_upto hu, ← collectDeser_upto hu]
    exact ⟨⟨fieldsOk_subst hU hK _ (hD n).2.2 h.1.1, h.1.2⟩, h.2⟩

end Verif.Serial
