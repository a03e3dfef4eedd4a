import Verif.Rest.Model
import Verif.Resource.Spec
import Verif.Serial.Typing
/-
The two views of an object agree.
-/
namespace Verif.Rest
open Verif.Path Verif.Serial.Spec

theorem scalar_cases {t : Serial.Ty} (h : scalar t = true) :
    (∃ l, t = .leaf l) ∨ (∃ e, t = .enum e) ∨ (∃ i, t = .rawEnum i) ∨ ∃ e, t = .enumSet e := by
  cases t <;> simp_all [scalar]

theorem leafIn_out {t : Serial.Ty} (hs : scalar t = true) {w : Serial.Value} (h : hasTy t w = true) :
    leafIn t (leafOut w) = w := by
  rcases scalar_cases hs with ⟨l, rfl⟩ | ⟨e, rfl⟩ | ⟨i, rfl⟩ | ⟨e, rfl⟩
  · cases w <;> simp only [hasTy, Bool.false_eq_true] at h
    rename_i a
    cases l <;> cases a <;> simp only [hasLeaf, Bool.false_eq_true] at h
    · rename_i b; cases b <;> rfl
    · rfl
    · rename_i b
      have h0 : (0 : Int) ≤ b.toNat ∧ (b.toNat : Int) < 2 ^ 64 := by have := b.isLt; omega
      simp only [leafOut, leafIn]
      rw [if_pos h0]
      simp
    · rfl
  · cases w <;> first | (simp [hasTy] at h; done) | skip
    rename_i a
    cases a <;> first | rfl | simp [hasTy] at h
  · cases w <;> first | (simp [hasTy] at h; done) | skip
    rename_i a
    cases a <;> first | rfl | simp [hasTy] at h
  · cases w <;> simp only [hasTy, Bool.false_eq_true] at h
    simp [leafOut, leafIn]

theorem leafOut_in {t : Serial.Ty} (hs : scalar t = true) {a : Resource.Atom}
    (h : hasTy t (leafIn t a) = true) : leafOut (leafIn t a) = a := by
  rcases scalar_cases hs with ⟨l, rfl⟩ | ⟨e, rfl⟩ | ⟨i, rfl⟩ | ⟨e, rfl⟩
  · cases a with
    | str s => cases l <;> rfl
    | num n =>
      cases l with
      | bool =>
        simp only [leafIn] at h ⊢
        by_cases h0 : n = 0
        · subst h0; rfl
        · by_cases h1 : n = 1
          · subst h1; rfl
          · simp [h0, h1, hasTy] at h
      | int => rfl
      | dbl =>
        simp only [leafIn] at h ⊢
        by_cases h0 : 0 ≤ n ∧ n < 2 ^ 64
        · rw [if_pos h0]
          simp only [leafOut, BitVec.toNat_ofInt]
          congr 1
          have : n % (2 ^ 64 : Nat) = n := Int.emod_eq_of_lt h0.1 (by simpa using h0.2)
          rw [this]; omega
        · rw [if_neg h0] at h
          simp [hasTy] at h
      | str => rfl
  · cases a <;> rfl
  · cases a <;> rfl
  · cases a with
    | str s => rfl
    | num n =>
      simp only [leafIn] at h ⊢
      by_cases h0 : 0 ≤ n
      · rw [if_pos h0]; simp only [leafOut]; congr 1; omega
      · simp [h0, hasTy] at h

theorem map_same {α : Type} {f : α → α} {l : List α} (h : ∀ a ∈ l, f a = a) : l.map f = l := by
  induction l with
  | nil => rfl
  | cons a l ih => rw [List.map_cons, h a (by simp), ih fun b hb => h b (by simp [hb])]

mutual
theorem view_back (Γ : Table) : ∀ (t : Resource.Ty), wired Γ t = true → ∀ (w : Serial.Value),
    hasTy (serTy Γ t) w = true → view Γ t (back Γ t w) = w
  | .leaf id, hw, w, h => by
    simp only [wired, serTy] at hw h
    simp only [back, view]
    exact leafIn_out hw h
  | .opt t, hw, w, h => by
    simp only [wired, serTy] at hw h
    rcases Serial.hasTy_opt h with rfl | ⟨u, rfl, hu⟩
    · rfl
    · simp only [back, view]
      rw [view_back Γ t hw u hu]
  | .record id fs, hw, w, h => by
    simp only [wired, serTy] at hw h
    obtain ⟨vs, rfl, hv⟩ := Serial.hasTy_record h
    simp only [back, view]
    rw [viewFields_back Γ id fs 0 hw vs hv]
  | .map _ t, hw, w, h => by
    simp only [wired, serTy] at hw h
    obtain ⟨es, rfl, _, hv⟩ := Serial.hasTy_map h
    simp only [back, view, List.map_map]
    congr 1
    refine map_same fun e he => ?_
    simp only [Function.comp]
    rw [view_back Γ t hw e.2 (hv e he)]
  | .seq k t, hw, w, h => by
    simp only [wired, serTy, Bool.and_eq_true] at hw h
    obtain ⟨vs, rfl, hv⟩ := Serial.hasTy_seq h
    simp only [back, view, List.map_map]
    congr 1
    exact map_same fun u hu => view_back Γ t hw.2 u (hv u hu)
theorem viewFields_back (Γ : Table) (id : Nat) : ∀ (fs : Resource.Fields) (i : Nat),
    wiredFields Γ id i fs = true → ∀ (ws : List Serial.Value), hasFields (serFields Γ id i fs) ws = true →
    viewFields Γ id i fs (backFields Γ id i fs ws) = ws
  | .nil, i, _, ws, h => by
    simp only [serFields] at h
    rw [Serial.hasFields_nil h]
    rfl
  | .cons a t fs, i, hw, ws, h => by
    simp only [wiredFields, Bool.and_eq_true, serFields] at hw h
    obtain ⟨u, us, rfl, hu, hus⟩ := Serial.hasFields_cons h
    simp only [backFields, viewFields]
    rw [view_back Γ t hw.1.2 u hu, viewFields_back Γ id fs (i + 1) hw.2 us hus]
end

mutual
theorem back_view (Γ : Table) : ∀ (t : Resource.Ty), wired Γ t = true → ∀ (v : Resource.Value),
    hasTy (serTy Γ t) (view Γ t v) = true → back Γ t (view Γ t v) = v
  | .leaf id, hw, v, h => by
    simp only [wired, serTy] at hw h
    cases v with
    | leaf a =>
      simp only [view] at h
      simp only [back, view, leafOut_in hw h]
    | _ =>
      simp only [view] at h
      rcases scalar_cases hw with ⟨l, e⟩ | ⟨l, e⟩ | ⟨l, e⟩ | ⟨l, e⟩ <;> rw [e] at h <;> simp [hasTy] at h
  | .opt t, hw, v, h => by
    simp only [wired, serTy] at hw h
    cases v with
    | opt o =>
      cases o with
      | none => rfl
      | some u =>
        simp only [view, hasTy] at h
        simp only [back, view, back_view Γ t hw u h]
    | _ => simp [view, hasTy] at h
  | .record id fs, hw, v, h => by
    simp only [wired, serTy] at hw h
    cases v with
    | record vs =>
      simp only [view, hasTy] at h
      simp only [back, view, backFields_view Γ id fs 0 hw vs h]
    | _ => simp [view, hasTy] at h
  | .map er t, hw, v, h => by
    simp only [wired, serTy] at hw h
    cases v with
    | map es =>
      simp only [view, hasTy, Bool.and_eq_true, List.all_eq_true, List.mem_map] at h
      simp only [back, view, List.map_map]
      congr 1
      refine map_same fun e he => ?_
      simp only [Function.comp]
      rw [back_view Γ t hw e.2 (h.2 _ ⟨e, he, rfl⟩)]
    | _ => simp [view, hasTy] at h
  | .seq k t, hw, v, h => by
    simp only [wired, serTy, Bool.and_eq_true] at hw h
    cases v with
    | seq vs =>
      simp only [view, hasTy, List.all_eq_true, List.mem_map] at h
      simp only [back, view, List.map_map]
      congr 1
      exact map_same fun u hu => back_view Γ t hw.2 u (h _ ⟨u, hu, rfl⟩)
    | _ => simp [view, hasTy] at h
theorem backFields_view (Γ : Table) (id : Nat) : ∀ (fs : Resource.Fields) (i : Nat),
    wiredFields Γ id i fs = true → ∀ (vs : List Resource.Value),
    hasFields (serFields Γ id i fs) (viewFields Γ id i fs vs) = true →
    backFields Γ id i fs (viewFields Γ id i fs vs) = vs
  | .nil, i, _, vs, h => by
    cases vs with
    | nil => rfl
    | cons _ _ => simp [serFields, viewFields, hasFields] at h
  | .cons a t fs, i, hw, vs, h => by
    simp only [wiredFields, Bool.and_eq_true] at hw
    cases vs with
    | nil => simp [serFields, viewFields, hasFields] at h
    | cons v vs =>
      simp only [serFields, viewFields, hasFields, Bool.and_eq_true] at h
      simp only [viewFields, backFields]
      rw [back_view Γ t hw.1.2 v h.1, backFields_view Γ id fs (i + 1) hw.2 vs h.2]
end

theorem sorted_nodup {α : Type} {es : List (Str × α)} (h : sorted es = true) : (es.map (·.1)).Nodup := by
  simp only [sorted, decide_eq_true_eq] at h
  rw [List.Nodup, List.pairwise_map]
  exact h.imp fun hab he => by
    rw [he] at hab
    exact absurd hab (List.lt_irrefl _)

mutual
/-- What serialization takes for a value of the type is one for the resource. -/
theorem view_typed (Γ : Table) : ∀ (t : Resource.Ty), wired Γ t = true → ∀ (v : Resource.Value),
    hasTy (serTy Γ t) (view Γ t v) = true → Resource.Spec.HasTy t v
  | .leaf id, hw, v, h => by
    simp only [wired, serTy] at hw h
    cases v with
    | leaf a => exact trivial
    | _ =>
      simp only [view] at h
      rcases scalar_cases hw with ⟨l, e⟩ | ⟨l, e⟩ | ⟨l, e⟩ | ⟨l, e⟩ <;> rw [e] at h <;> simp [hasTy] at h
  | .opt t, hw, v, h => by
    simp only [wired, serTy] at hw h
    cases v with
    | opt o =>
      cases o with
      | none => intro w hw'; cases hw'
      | some u =>
        simp only [view, hasTy] at h
        intro w hw'
        cases hw'
        exact view_typed Γ t hw u h
    | _ => simp [view, hasTy] at h
  | .record id fs, hw, v, h => by
    simp only [wired, serTy] at hw h
    cases v with
    | record vs =>
      simp only [view, hasTy] at h
      exact viewFields_typed Γ id fs 0 hw vs h
    | _ => simp [view, hasTy] at h
  | .map er t, hw, v, h => by
    simp only [wired, serTy] at hw h
    cases v with
    | map es =>
      simp only [view, hasTy, Bool.and_eq_true, List.all_eq_true, List.mem_map] at h
      refine ⟨?_, fun e he => view_typed Γ t hw e.2 (h.2 _ ⟨e, he, rfl⟩)⟩
      have := sorted_nodup h.1
      simpa [List.map_map, Function.comp_def] using this
    | _ => simp [view, hasTy] at h
  | .seq k t, hw, v, h => by
    simp only [wired, serTy, Bool.and_eq_true] at hw h
    cases v with
    | seq vs =>
      simp only [view, hasTy, List.all_eq_true, List.mem_map] at h
      exact fun u hu => view_typed Γ t hw.2 u (h _ ⟨u, hu, rfl⟩)
    | _ => simp [view, hasTy] at h
theorem viewFields_typed (Γ : Table) (id : Nat) : ∀ (fs : Resource.Fields) (i : Nat),
    wiredFields Γ id i fs = true → ∀ (vs : List Resource.Value),
    hasFields (serFields Γ id i fs) (viewFields Γ id i fs vs) = true → Resource.Spec.HasTys fs vs
  | .nil, i, _, vs, h => by
    cases vs with
    | nil => exact trivial
    | cons _ _ => simp [serFields, viewFields, hasFields] at h
  | .cons a t fs, i, hw, vs, h => by
    simp only [wiredFields, Bool.and_eq_true] at hw
    cases vs with
    | nil => simp [serFields, viewFields, hasFields] at h
    | cons v vs =>
      simp only [serFields, viewFields, hasFields, Bool.and_eq_true] at h
      exact ⟨view_typed Γ t hw.1.2 v h.1, viewFields_typed Γ id fs (i + 1) hw.2 vs h.2⟩
end

mutual
theorem blank_typed : ∀ t : Resource.Ty, Resource.Spec.HasTy t (blank t)
  | .leaf _ => trivial
  | .opt _ => fun _ h => by cases h
  | .record _ fs => blanks_typed fs
  | .map _ _ => ⟨List.nodup_nil, fun _ h => by cases h⟩
  | .seq _ _ => fun _ h => by cases h
theorem blanks_typed : ∀ fs : Resource.Fields, Resource.Spec.HasTys fs (blanks fs)
  | .nil => trivial
  | .cons _ t fs => ⟨blank_typed t, blanks_typed fs⟩
end

variable {σ : Type}

theorem holds_iff {Γ : Table} {t : Resource.Ty} {v : Resource.Value} : holds Γ t v = true ↔
    tyOk (serTy Γ t) = true ∧ wired Γ t = true ∧ hasTy (serTy Γ t) (view Γ t v) = true := by
  simp only [holds, good, Bool.and_eq_true, and_assoc]

theorem holds_back {Γ : Table} {t : Resource.Ty} {w : Serial.Value} (h1 : tyOk (serTy Γ t) = true)
    (h2 : wired Γ t = true) (h3 : hasTy (serTy Γ t) w = true) : holds Γ t (back Γ t w) = true :=
  holds_iff.2 ⟨h1, h2, by rw [view_back Γ t h2 w h3]; exact h3⟩

theorem holds_typed {Γ : Table} {t : Resource.Ty} {v : Resource.Value} (h : holds Γ t v = true) :
    Resource.Spec.HasTy t v :=
  view_typed Γ t (holds_iff.1 h).2.1 v (holds_iff.1 h).2.2

/-- A call that succeeds. -/
theorem lift_ok {Γ : Table} {thrown : Nat → Resource.Exc} {t : Resource.Ty} {v v' : Resource.Value}
    {r : Serial.Value → Serial.Res Serial.Value} : lift Γ thrown t v r = .ok v' ↔
      holds Γ t v = true ∧ ∃ w, r (view Γ t v) = .ok w ∧ v' = back Γ t w := by
  unfold lift
  by_cases h : holds Γ t v = true
  · rw [if_pos h]
    cases r (view Γ t v) with
    | ok w => simp [h, eq_comm]
    | error e => simp
  · rw [if_neg h]; simp [h]

/-- The typing of a resource with serialization: `Resource.Typed` is a theorem here. -/
theorem env_typed (Γ : Table) {B : Serial.Backend σ} (hB : Lawful B) (E : Serial.Env) (U : User) :
    Resource.Spec.Typed (env Γ B E U) where
  deser t v b v' _ h := by
    simp only [env] at h
    obtain ⟨hh, w, hw, rfl⟩ := lift_ok.1 h
    obtain ⟨h1, h2, h3⟩ := holds_iff.1 hh
    exact holds_typed (holds_back h1 h2 (Serial.deser_typed hB _ h1 _ _ _ h3 hw))
  patch t v b v' _ h := by
    simp only [env] at h
    obtain ⟨hh, w, hw, rfl⟩ := lift_ok.1 h
    obtain ⟨h1, h2, h3⟩ := holds_iff.1 hh
    exact holds_typed (holds_back h1 h2 (Serial.patch_typed hB _ h1 _ _ _ h3 hw))
  fresh t := by
    simp only [env]
    by_cases h : good Γ t = true
    · rw [if_pos h]
      simp only [good, Bool.and_eq_true] at h
      exact holds_typed (holds_back h.1 h.2 (Serial.fresh_typed _ h.1))
    · rw [if_neg h]; exact blank_typed t

end Verif.Rest
