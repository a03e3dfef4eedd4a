import Verif.Rest.Link
import Verif.Resource.More
/-
Nodes of a resource are objects of the types serialization sees, and stay so.
-/
namespace Verif.Rest
open Verif.Path Verif.Path.Spec Verif.Serial.Spec

variable {σ : Type}

theorem tyOk_record {n : Str} {fs : Serial.Fields} (h : tyOk (.record n fs) = true) : fieldsOk fs = true := by
  simp only [tyOk, Bool.and_eq_true] at h
  exact h.1.1

/-- The `j`-th field. -/
theorem fields_get {Γ : Table} {id : Nat} : ∀ {fs : Resource.Fields} {i j : Nat} {vs : List Resource.Value}
    {a : Resource.Attrs} {t : Resource.Ty} {v : Resource.Value}, fieldsOk (serFields Γ id i fs) = true →
    wiredFields Γ id i fs = true → hasFields (serFields Γ id i fs) (viewFields Γ id i fs vs) = true →
    (Resource.Spec.fieldList fs)[j]? = some (a, t) → vs[j]? = some v →
    holds Γ t v = true ∧ (Γ.field id (i + j)).key = a.name
  | .nil, _, _, _, _, _, _, _, _, _, h, _ => by simp [Resource.Spec.fieldList] at h
  | .cons b u fs, i, j, [], _, _, _, _, _, _, _, h => by simp at h
  | .cons b u fs, i, 0, w :: vs, a, t, v, h1, h2, h3, h4, h5 => by
    simp only [serFields, fieldsOk, wiredFields, viewFields, hasFields, Bool.and_eq_true,
      decide_eq_true_eq] at h1 h2 h3
    simp only [Resource.Spec.fieldList, List.getElem?_cons_zero, Option.some.injEq, Prod.mk.injEq] at h4 h5
    obtain ⟨rfl, rfl⟩ := h4
    subst h5
    exact ⟨holds_iff.2 ⟨h1.1.2, h2.1.2, h3.1⟩, h2.1.1⟩
  | .cons b u fs, i, j + 1, w :: vs, a, t, v, h1, h2, h3, h4, h5 => by
    simp only [serFields, fieldsOk, wiredFields, viewFields, hasFields, Bool.and_eq_true] at h1 h2 h3
    simp only [Resource.Spec.fieldList, List.getElem?_cons_succ] at h4 h5
    have := fields_get h1.2 h2.2 h3.2 h4 h5
    rw [show i + 1 + j = i + (j + 1) by omega] at this
    exact this

theorem holds_field {Γ : Table} {id : Nat} {fs : Resource.Fields} {vs : List Resource.Value} {j : Nat}
    {a : Resource.Attrs} {t : Resource.Ty} {v : Resource.Value}
    (h : holds Γ (.record id fs) (.record vs) = true) (h4 : (Resource.Spec.fieldList fs)[j]? = some (a, t))
    (h5 : vs[j]? = some v) : holds Γ t v = true ∧ (Γ.field id j).key = a.name := by
  obtain ⟨h1, h2, h3⟩ := holds_iff.1 h
  simp only [serTy] at h1
  simp only [wired] at h2
  simp only [serTy, view, hasTy] at h3
  have := fields_get (tyOk_record h1) h2 h3 h4 h5
  simpa using this

theorem holds_some {Γ : Table} {t : Resource.Ty} {v : Resource.Value} :
    holds Γ (.opt t) (.opt (some v)) = holds Γ t v := by
  simp only [holds, good, serTy, tyOk, wired, view, hasTy]

theorem holds_none {Γ : Table} {t : Resource.Ty} : holds Γ (.opt t) (.opt none) = good Γ t := by
  simp only [holds, good, serTy, tyOk, wired, view, hasTy, Bool.and_true]

theorem holds_map {Γ : Table} {er : Bool} {t : Resource.Ty} {es : List (Str × Resource.Value)} :
    holds Γ (.map er t) (.map es) = true ↔ good Γ t = true ∧ sorted es = true ∧
      ∀ e ∈ es, holds Γ t e.2 = true := by
  simp only [holds, good, serTy, tyOk, wired, view, hasTy, Bool.and_eq_true, List.all_eq_true, List.mem_map]
  have hs : sorted (es.map fun e => (e.1, view Γ t e.2)) = sorted es := by
    simp only [sorted, List.pairwise_map]
  rw [hs]
  constructor
  · rintro ⟨hg, h1, h2⟩
    exact ⟨hg, h1, fun e he => ⟨hg, h2 _ ⟨e, he, rfl⟩⟩⟩
  · rintro ⟨hg, h1, h2⟩
    refine ⟨hg, h1, ?_⟩
    rintro _ ⟨e, he, rfl⟩
    exact (h2 e he).2

theorem holds_seq {Γ : Table} {k : Resource.SeqKind} {t : Resource.Ty} {vs : List Resource.Value} :
    holds Γ (.seq k t) (.seq vs) = true ↔ good Γ t = true ∧ k.push = true ∧ ∀ v ∈ vs, holds Γ t v = true := by
  simp only [holds, good, serTy, tyOk, wired, view, hasTy, Bool.and_eq_true, List.all_eq_true, List.mem_map]
  constructor
  · rintro ⟨⟨h1, h2, h3⟩, h4⟩
    exact ⟨⟨h1, h3⟩, h2, fun v hv => ⟨⟨h1, h3⟩, h4 _ ⟨v, hv, rfl⟩⟩⟩
  · rintro ⟨⟨h1, h3⟩, h2, h4⟩
    refine ⟨⟨h1, h2, h3⟩, ?_⟩
    rintro _ ⟨v, hv, rfl⟩
    exact (h4 v hv).2

/-- Whatever a path leads to is an object of its type. -/
theorem leads_holds {Γ : Table} {β : Type} {E : Resource.Env β} {ks : List Nat} {t : Resource.Ty}
    {v : Resource.Value} {path : List Str} {steps : List Resource.Spec.Step} {t' : Resource.Ty}
    {v' : Resource.Value} (h : Resource.Spec.Leads E ks t v path steps t' v') :
    holds Γ t v = true → holds Γ t' v' = true := by
  induction h with
  | here => exact id
  | field h1 _ h3 _ ih => exact fun hv => ih (holds_field hv h1 h3).1
  | unwrap _ ih => exact fun hv => ih (by rw [← holds_some]; exact hv)
  | entry h1 _ ih => exact fun hv => ih ((holds_map.1 hv).2.2 _ (List.mem_of_getElem? h1))
  | item _ _ h3 _ ih => exact fun hv => ih ((holds_seq.1 hv).2.2 _ (List.mem_of_getElem? h3))
  | child _ h2 _ ih => exact fun hv => ih ((holds_seq.1 hv).2.2 _ (List.mem_of_getElem? h2))

theorem fields_set {Γ : Table} {id : Nat} {x x' : Resource.Value} {post : List Resource.Value}
    {a : Resource.Attrs} {t : Resource.Ty} (hx : hasTy (serTy Γ t) (view Γ t x') = true) :
    ∀ {fs : Resource.Fields} {i : Nat} {pre : List Resource.Value},
    hasFields (serFields Γ id i fs) (viewFields Γ id i fs (pre ++ x :: post)) = true →
    (Resource.Spec.fieldList fs)[pre.length]? = some (a, t) →
    hasFields (serFields Γ id i fs) (viewFields Γ id i fs (pre ++ x' :: post)) = true
  | .nil, _, _, _, h => by simp [Resource.Spec.fieldList] at h
  | .cons b u fs, i, [], h, h4 => by
    simp only [List.length_nil, Resource.Spec.fieldList, List.getElem?_cons_zero, Option.some.injEq,
      Prod.mk.injEq] at h4
    obtain ⟨rfl, rfl⟩ := h4
    simp only [List.nil_append, serFields, viewFields, hasFields, Bool.and_eq_true] at h ⊢
    exact ⟨hx, h.2⟩
  | .cons b u fs, i, p :: pre, h, h4 => by
    simp only [List.length_cons, Resource.Spec.fieldList, List.getElem?_cons_succ] at h4
    simp only [List.cons_append, serFields, viewFields, hasFields, Bool.and_eq_true] at h ⊢
    exact ⟨h.1, fields_set hx h.2 h4⟩

theorem holds_good {Γ : Table} {t : Resource.Ty} {v : Resource.Value} (h : holds Γ t v = true) :
    good Γ t = true := by
  simp only [holds, Bool.and_eq_true] at h
  exact h.1

theorem all_set {α : Type} {p : α → Prop} {pre post : List α} {x x' : α} (h : ∀ y ∈ pre ++ x :: post, p y)
    (hx : p x') : ∀ y ∈ pre ++ x' :: post, p y := by
  intro y hy
  rcases List.mem_append.1 hy with hy | hy
  · exact h y (by simp [hy])
  · rcases List.mem_cons.1 hy with rfl | hy
    · exact hx
    · exact h y (by simp [hy])

/-- Replacing a node by an object of its type keeps the whole an object of its type. -/
theorem changed_holds {Γ : Table} {β : Type} {E : Resource.Env β} {ks : List Nat} {t : Resource.Ty}
    {v : Resource.Value} {path : List Str} {steps : List Resource.Spec.Step} {tp : Resource.Ty}
    {old : Resource.Value} (h : Resource.Spec.Leads E ks t v path steps tp old) :
    ∀ {new v' : Resource.Value}, holds Γ t v = true → holds Γ tp new = true →
      Resource.Spec.Changed old new (steps.map Resource.Spec.Step.pos) v v' → holds Γ t v' = true := by
  induction h with
  | here => intro new v' _ hn hc; cases hc; exact hn
  | @field ks id fs vs i a t v path steps tp old h1 h2 h3 h4 ih =>
    intro new v' hv hn hc
    simp only [List.map_cons, Resource.Spec.Step.pos] at hc
    cases hc with
    | kid hk hc =>
      cases hk with
      | record =>
        have := Resource.kid_of h3; subst this
        have hx := ih (holds_field hv h1 h3).1 hn hc
        obtain ⟨g1, g2, g3⟩ := holds_iff.1 hv
        refine holds_iff.2 ⟨g1, g2, ?_⟩
        simp only [serTy, view, hasTy] at g3 ⊢
        exact fields_set (holds_iff.1 hx).2.2 g3 h1
  | @unwrap ks t v s path steps tp old h1 ih =>
    intro new v' hv hn hc
    simp only [List.map_cons, Resource.Spec.Step.pos] at hc
    cases hc with
    | kid hk hc =>
      obtain ⟨rfl, rfl⟩ := Resource.kidChanged_opt hk
      rw [holds_some] at hv ⊢
      exact ih hv hn hc
  | @entry ks er t es i s v path steps tp old h1 h2 ih =>
    intro new v' hv hn hc
    simp only [List.map_cons, Resource.Spec.Step.pos] at hc
    cases hc with
    | kid hk hc =>
      cases hk with
      | map =>
        have := Resource.kid_of h1; cases this
        obtain ⟨g1, g2, g3⟩ := holds_map.1 hv
        refine holds_map.2 ⟨g1, ?_, all_set g3 (ih (g3 _ (List.mem_of_getElem? h1)) hn hc)⟩
        simp only [sorted, decide_eq_true_eq] at g2 ⊢
        rw [← List.pairwise_map (f := Prod.fst) (R := (· < ·))] at g2 ⊢
        simpa using g2
  | @item k t vs i s v path steps tp old h1 h2 h3 h4 ih =>
    intro new v' hv hn hc
    simp only [List.map_cons, Resource.Spec.Step.pos] at hc
    cases hc with
    | kid hk hc =>
      cases hk with
      | seq =>
        have := Resource.kid_of h3; subst this
        obtain ⟨g1, g2, g3⟩ := holds_seq.1 hv
        exact holds_seq.2 ⟨g1, g2, all_set g3 (ih (g3 _ (List.mem_of_getElem? h3)) hn hc)⟩
  | @child ks k t vs key i s v path steps tp old h1 h2 h3 ih =>
    intro new v' hv hn hc
    simp only [List.map_cons, Resource.Spec.Step.pos] at hc
    cases hc with
    | kid hk hc =>
      cases hk with
      | seq =>
        have := Resource.kid_of h2; subst this
        obtain ⟨g1, g2, g3⟩ := holds_seq.1 hv
        exact holds_seq.2 ⟨g1, g2, all_set g3 (ih (g3 _ (List.mem_of_getElem? h2)) hn hc)⟩

/-- What a call of serialization leaves is an object of the type. -/
theorem lift_holds {Γ : Table} {thrown : Nat → Resource.Exc} {t : Resource.Ty} {v v' : Resource.Value}
    {r : Serial.Value → Serial.Res Serial.Value}
    (hr : ∀ w, tyOk (serTy Γ t) = true → hasTy (serTy Γ t) (view Γ t v) = true → r (view Γ t v) = .ok w →
      hasTy (serTy Γ t) w = true)
    (h : lift Γ thrown t v r = .ok v') : holds Γ t v' = true ∧ r (view Γ t v) = .ok (view Γ t v') := by
  obtain ⟨hh, w, hw, rfl⟩ := lift_ok.1 h
  obtain ⟨h1, h2, h3⟩ := holds_iff.1 hh
  have ht := hr w h1 h3 hw
  exact ⟨holds_back h1 h2 ht, by rw [view_back Γ t h2 w ht]; exact hw⟩

theorem deser_holds {Γ : Table} {B : Serial.Backend σ} (hB : Lawful B) {E : Serial.Env} {U : User}
    {t : Resource.Ty} {v v' : Resource.Value} {d : Serial.Doc σ} (h : (env Γ B E U).deser t v d = .ok v') :
    holds Γ t v' = true ∧ Serial.deser B E (serTy Γ t) (view Γ t v) d = .ok (view Γ t v') := by
  simp only [env] at h
  exact lift_holds (fun w h1 h3 hw => Serial.deser_typed hB _ h1 _ _ _ h3 hw) h

theorem patch_holds {Γ : Table} {B : Serial.Backend σ} (hB : Lawful B) {E : Serial.Env} {U : User}
    {t : Resource.Ty} {v v' : Resource.Value} {d : Serial.Doc σ} (h : (env Γ B E U).patch t v d = .ok v') :
    holds Γ t v' = true ∧ Serial.patch B E (serTy Γ t) (view Γ t v) d = .ok (view Γ t v') := by
  simp only [env] at h
  exact lift_holds (fun w h1 h3 hw => Serial.patch_typed hB _ h1 _ _ _ h3 hw) h

theorem without_holds {Γ : Table} {t : Resource.Ty} {u : Resource.Value} (i : Nat)
    (hc : Resource.Spec.isCollection t = true) (h : holds Γ t u = true) :
    holds Γ t (Resource.Spec.without u i) = true := by
  cases t with
  | map er t =>
    cases u with
    | map es =>
      obtain ⟨g1, g2, g3⟩ := holds_map.1 h
      refine holds_map.2 ⟨g1, ?_, fun e he => g3 e (List.mem_of_mem_eraseIdx he)⟩
      simp only [sorted, decide_eq_true_eq] at g2 ⊢
      exact g2.sublist (List.eraseIdx_sublist _ _)
    | _ => exact h
  | seq k t =>
    cases u with
    | seq vs =>
      obtain ⟨g1, g2, g3⟩ := holds_seq.1 h
      exact holds_seq.2 ⟨g1, g2, fun e he => g3 e (List.mem_of_mem_eraseIdx he)⟩
    | _ => exact h
  | _ => simp [Resource.Spec.isCollection] at hc

end Verif.Rest
