import Verif.Rest.Props3
/-
Property C97: what a PATCH leaves as it was.
-/
namespace Verif.Rest
open Verif.Path Verif.Path.Spec Verif.Serial.Spec Verif.Rest.Spec
open Verif.Resource (Tracked PathTo Request)
open Verif.Resource.Spec (Leads LeadsTo Resolves Step Changed Success)

section
variable {σ : Type} {Γ : Table}

theorem kept_field {id : Nat} {ms : List (Str × Serial.Doc σ)} : ∀ {fs : Resource.Fields} {i j : Nat}
    {os vs : List Resource.Value} {a : Resource.Attrs} {t : Resource.Ty} {o : Resource.Value},
    hasFields (serFields Γ id i fs) (viewFields Γ id i fs vs) = true →
    KeptFields (serFields Γ id i fs) ms (viewFields Γ id i fs os) (viewFields Γ id i fs vs) →
    (Resource.Spec.fieldList fs)[j]? = some (a, t) → os[j]? = some o →
    ∃ v, vs[j]? = some v ∧
      ((Γ.field id (i + j)).skipDeser = true → view Γ t v = view Γ t o) ∧
      ((Γ.field id (i + j)).skipDeser = false → (Γ.field id (i + j)).extra = true →
        ∀ es es', view Γ t o = .map es → view Γ t v = .map es' →
          ∀ k w, NoMember ms k → ((k, w) ∈ es' ↔ (k, w) ∈ es)) ∧
      ((Γ.field id (i + j)).skipDeser = false → (Γ.field id (i + j)).extra = false →
        (Γ.field id (i + j)).flatten = true → Kept (serTy Γ t) (.obj ms) (view Γ t o) (view Γ t v)) ∧
      (plain (Γ.field id (i + j)) = true → (Missing ms (Γ.field id (i + j)) → view Γ t v = view Γ t o) ∧
        ∀ d, ReadFrom ms (Γ.field id (i + j)) d → Kept (serTy Γ t) d (view Γ t o) (view Γ t v))
  | .nil, _, _, _, _, _, _, _, _, _, h, _ => by simp [Resource.Spec.fieldList] at h
  | .cons b u fs, i, 0, o' :: os, [], _, _, _, hv, _, _, _ => by simp [serFields, viewFields, hasFields] at hv
  | .cons b u fs, i, j + 1, o' :: os, [], _, _, _, hv, _, _, _ => by simp [serFields, viewFields, hasFields] at hv
  | .cons b u fs, i, 0, [], _, _, _, _, _, _, _, ho => by simp at ho
  | .cons b u fs, i, j + 1, [], _, _, _, _, _, _, _, ho => by simp at ho
  | .cons b u fs, i, 0, o' :: os, v :: vs, a, t, o, hv, hk, hf, ho => by
    simp only [Resource.Spec.fieldList, List.getElem?_cons_zero, Option.some.injEq, Prod.mk.injEq] at hf ho
    obtain ⟨rfl, rfl⟩ := hf
    subst ho
    simp only [serFields, viewFields, KeptFields] at hk
    exact ⟨v, rfl, hk.1, hk.2.1, hk.2.2.1, hk.2.2.2.1⟩
  | .cons b u fs, i, j + 1, o' :: os, v :: vs, a, t, o, hv, hk, hf, ho => by
    simp only [Resource.Spec.fieldList, List.getElem?_cons_succ] at hf ho
    simp only [serFields, viewFields, KeptFields, hasFields, Bool.and_eq_true] at hk hv
    have := kept_field hv.2 hk.2.2.2.2 hf ho
    rw [Nat.add_right_comm, Nat.add_assoc] at this
    simpa only [List.getElem?_cons_succ] using this

theorem fieldsOk_at {id : Nat} : ∀ {fs : Resource.Fields} {i j : Nat} {a : Resource.Attrs} {t : Resource.Ty},
    fieldsOk (serFields Γ id i fs) = true → (Resource.Spec.fieldList fs)[j]? = some (a, t) →
    fieldOk (Γ.field id (i + j)) (serTy Γ t) = true
  | .nil, _, _, _, _, _, h => by simp [Resource.Spec.fieldList] at h
  | .cons b u fs, i, 0, a, t, h, h1 => by
    simp only [Resource.Spec.fieldList, List.getElem?_cons_zero, Option.some.injEq, Prod.mk.injEq] at h1
    obtain ⟨rfl, rfl⟩ := h1
    simp only [serFields, fieldsOk, Bool.and_eq_true] at h
    exact h.1.1
  | .cons b u fs, i, j + 1, a, t, h, h1 => by
    simp only [Resource.Spec.fieldList, List.getElem?_cons_succ] at h1
    simp only [serFields, fieldsOk, Bool.and_eq_true] at h
    have := fieldsOk_at h.2 h1
    rwa [Nat.add_right_comm, Nat.add_assoc] at this

theorem leads_unnamed {β : Type} {Ev : Resource.Env β} {ks : List Nat} {t : Resource.Ty} {v : Resource.Value}
    {path : List Str} {steps : List Step} {t' : Resource.Ty} {v' : Resource.Value}
    (h : Leads Ev ks t v path steps t' v') : ∀ {v2 : Resource.Value} {d : Serial.Doc σ},
    Unnamed Γ t d path steps → holds Γ t v = true → holds Γ t v2 = true →
    Kept (serTy Γ t) d (view Γ t v) (view Γ t v2) → ∀ ks', ∃ steps', Leads Ev ks' t v2 path steps' t' v' := by
  induction h with
  | here => intro v2 d hu; cases hu
  | @field ks id fs vs i a t v path steps t' v' h1 h2 h3 h4 ih =>
    intro v2 d hu hv hv2 hk ks'
    obtain ⟨g1, g2, g3⟩ := holds_iff.1 hv2
    match v2, g3 with
    | .record ws, g3 =>
      have hkind : ∃ ms, d = .obj ms := by cases hu <;> exact ⟨_, rfl⟩
      obtain ⟨ms, rfl⟩ := hkind
      simp only [serTy, view, hasTy] at g3
      simp only [serTy, view, Kept] at hk
      obtain ⟨w, hw, k1, k2, k3, k4⟩ := kept_field g3 hk h1 h3
      rw [Nat.zero_add] at k1 k2 k3 k4
      obtain ⟨ho, -⟩ := holds_field hv h1 h3
      obtain ⟨hn, -⟩ := holds_field hv2 h1 hw
      have same : view Γ t w = view Γ t v → ∃ steps', Leads Ev ks' (.record id fs) (.record ws) (a.name :: path) steps' t' v' := by
        intro e
        have := view_inj hn ho e
        subst this
        exact ⟨_, .field h1 h2 hw h4⟩
      cases hu with
      | ignored hs => exact same (k1 hs)
      | missing hp hm => exact same ((k4 hp).1 hm)
      | inside hp hf hr hu =>
        rw [h1] at hf; cases hf
        obtain ⟨st, hl⟩ := ih hu ho hn ((k4 hp).2 _ hr) a.childKeys
        exact ⟨_, .field h1 h2 hw hl⟩
      | flat c1 c2 c3 hf hu =>
        rw [h1] at hf; cases hf
        obtain ⟨st, hl⟩ := ih hu ho hn (k3 c1 c2 c3) a.childKeys
        exact ⟨_, .field h1 h2 hw hl⟩
      | @extra _ _ _ _ _ _ s path _ c1 c2 hno =>
        have hm := (Serial.fieldOk_iff.1 (fieldsOk_at (tyOk_record g1) h1)).2.2.2
        rw [Nat.zero_add] at hm
        obtain ⟨u, hu⟩ := Serial.isMap_iff.1 (hm c2)
        generalize a.childKeys = cks at h4
        cases h4 with
        | @entry _ er u' es j _ x _ _ _ _ he hl =>
          cases w with
          | map es' =>
            have hmem : (s, view Γ u' x) ∈ es.map fun e => (e.1, view Γ u' e.2) :=
              List.mem_map.2 ⟨(s, x), List.mem_of_getElem? he, rfl⟩
            have := (k2 c1 c2 _ _ rfl rfl s (view Γ u' x) hno).2 hmem
            obtain ⟨⟨s', x'⟩, hx', e⟩ := List.mem_map.1 this
            simp only [Prod.mk.injEq] at e
            obtain ⟨rfl, e⟩ := e
            have := view_inj ((holds_map.1 hn).2.2 _ hx') ((holds_map.1 ho).2.2 _ (List.mem_of_getElem? he)) e
            subst this
            obtain ⟨j', hj'⟩ := List.mem_iff_getElem?.1 hx'
            exact ⟨_, .field h1 h2 hw (.entry hj' hl)⟩
          | _ => simp [holds, view, serTy, hasTy] at hn
        | unwrap => simp [serTy] at hu
        | field => simp [serTy] at hu
        | item => simp [serTy] at hu
        | child => simp [serTy] at hu
  | unwrap h1 ih =>
    intro v2 d hu hv hv2 hk ks'
    cases hu with
    | unwrap hu =>
      rw [holds_some] at hv
      simp only [serTy, view, Kept] at hk
      obtain ⟨w, e, hk⟩ := hk
      match v2, e with
      | .opt (some x), e =>
        simp only [view, Serial.Value.opt.injEq, Option.some.injEq] at e
        subst e
        rw [holds_some] at hv2
        obtain ⟨st, hl⟩ := ih hu hv hv2 hk []
        exact ⟨_, .unwrap hl⟩
  | entry => intro v2 d hu; cases hu
  | item => intro v2 d hu; cases hu
  | child => intro v2 d hu; cases hu

end

section
variable {σ : Type} {Γ : Table} {B : Serial.Backend σ} {E : Serial.Env} {U : User}
variable {T : Resource.Ty} {r : Resource.Resource} {hist : List Tracker.Spec.Note}

/-! ### C97 What a PATCH keeps -/

/-- C97: a successful `patch` keeps in its node, at any depth, what the document does not
name. -/
theorem C97_kept (hB : Lawful B) (hk : Resource.Spec.Lawful (env Γ B E U)) (h : Service Γ T r hist) (w : View)
    (p : List Seg) (hp : PathTo w p) (d : Serial.Doc σ) (hs : Success (Resource.patch (env Γ B E U) T r w d).2) :
    ∃ steps steps' t old new, LeadsTo (env Γ B E U) T r.value p steps t old ∧
      LeadsTo (env Γ B E U) T (Resource.patch (env Γ B E U) T r w d).1.value p steps' t new ∧
      Changed old new (steps.map Step.pos) r.value (Resource.patch (env Γ B E U) T r w d).1.value ∧
      Kept (serTy Γ t) d (view Γ t old) (view Γ t new) := by
  have hset := h.setup hB (E := E) (U := U)
  obtain ⟨st, t, old, new, he, hf, _⟩ := Resource.put_edit hset.typed.patch hset.wt (hset.patch hp d) hs
  obtain ⟨st', hl', -, -⟩ := he.new hk hset.wt
  obtain ⟨g1, g2⟩ := patch_holds hB hf
  exact ⟨st, st', t, old, new, he.leads, hl', he.changed,
    Serial.C45_kept hB (holds_iff.1 g1).1 (holds_iff.1 (h.at he.leads)).2.2 g2⟩

/-- C97: after a successful `patch`, a path that leads to something the document does not name
leads to the same value, and `get` there answers as before. -/
theorem C97_unnamed (hB : Lawful B) (hk : Resource.Spec.Lawful (env Γ B E U)) (h : Service Γ T r hist) (w : View)
    (p : List Seg) (hp : PathTo w p) (d : Serial.Doc σ) (hs : Success (Resource.patch (env Γ B E U) T r w d).2)
    {steps : List Step} {t : Resource.Ty} {u : Resource.Value} (hl : LeadsTo (env Γ B E U) T r.value p steps t u)
    {q : List Seg} {steps2 : List Step} {t2 : Resource.Ty} {u2 : Resource.Value}
    (hl2 : LeadsTo (env Γ B E U) T r.value (p ++ q) (steps ++ steps2) t2 u2) (hu : Unnamed Γ t d q steps2) :
    (∃ steps', LeadsTo (env Γ B E U) T (Resource.patch (env Γ B E U) T r w d).1.value (p ++ q) steps' t2 u2) ∧
    ∀ (wq : View), PathTo wq (p ++ q) → ∀ s print,
      Resource.get (env Γ B E U) T (dumper Γ B U s print) (Resource.patch (env Γ B E U) T r w d).1 wq =
        Resource.get (env Γ B E U) T (dumper Γ B U s print) r wq := by
  have hset := h.setup hB (E := E) (U := U)
  obtain ⟨st, t', old, new, he, hf, _⟩ := Resource.put_edit hset.typed.patch hset.wt (hset.patch hp d) hs
  obtain ⟨rfl, rfl, rfl⟩ := Resource.steps_unique he.leads hset.wt.ty hl
  obtain ⟨st', hl', -, -⟩ := he.new hk hset.wt
  obtain ⟨g1, g2⟩ := patch_holds hB hf
  have hkept := Serial.C45_kept hB (holds_iff.1 g1).1 (holds_iff.1 (h.at he.leads)).2.2 g2
  obtain ⟨st1, st2, t1, v1, e, l1, l2⟩ := Resource.leads_split hl2 rfl
  obtain ⟨rfl, rfl, rfl⟩ := Resource.steps_unique l1 hset.wt.ty hl
  have e := List.append_cancel_left e
  subst e
  obtain ⟨st3, l3⟩ := leads_unnamed l2 hu (h.at hl) g1 hkept (Resource.endKeys [] st')
  have hnew := Resource.leads_append hl' l3
  refine ⟨⟨_, hnew⟩, fun wq hq s print => ?_⟩
  rw [Resource.get_leads (he.setup hset).wt hq hnew, Resource.get_leads hset.wt hq hl2]

end

section
open Demo (account r0 num text)
open Serial (txt)
open Serial.Sample (J E jint jstr obj)

example : Success (Demo.patch account r0 "/" (obj [("age", jint 31), ("version", jint 9)])).2 ∧
    Unnamed Demo.Γ account (obj [("age", jint 31), ("version", jint 9)]) [txt "limits", txt "low"]
      ([] ++ [.field 5 Demo.limitsAttrs, .entry 1]) :=
  ⟨Demo.success (by decide +kernel), .missing rfl (by unfold Missing NoMember; decide +kernel)⟩

example : Demo.get account (Demo.patch account r0 "/" (obj [("age", jint 31)])).1 "/limits/low" =
    Demo.get account r0 "/limits/low" :=
  (C97_unnamed Demo.lawful Demo.plain.toLawful Demo.r0_service _ _ Demo.to_root _
    (Demo.success (by decide +kernel)) .here Demo.leads_low (.missing rfl (by unfold Missing NoMember; decide +kernel))).2 _ Demo.to_low true Demo.print

/-- A map is replaced, not merged: what its document does not name is gone. -/
theorem C97_map_violated : ∃ d, (∃ ms, d = .obj [(txt "limits", .obj ms)] ∧ NoMember ms (txt "low")) ∧
    Demo.get account r0 "/limits/low" = .resp .ok (txt "1") ∧
    (Demo.patch account r0 "/" d).2 = .resp .ok [] ∧
    Demo.get account (Demo.patch account r0 "/" d).1 "/limits/low" = .resp .notFound [] :=
  ⟨obj [("limits", obj [("top", jint 7)])], ⟨_, rfl, by unfold NoMember; decide +kernel⟩, by decide +kernel, by decide +kernel,
    by decide +kernel⟩

end
end Verif.Rest
