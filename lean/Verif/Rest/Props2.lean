import Verif.Rest.Props
/-
Property C98: which answer a request with a document gets.
-/
namespace Verif.Rest
open Verif.Path Verif.Path.Spec Verif.Serial.Spec Verif.Rest.Spec
open Verif.Resource (Tracked PathTo Request)
open Verif.Resource.Spec (Leads LeadsTo Resolves Step Changed Success Protected ChildrenProtected SameKey Valid
  PoliteValidators)

section
variable {σ : Type} {Γ : Table} {B : Serial.Backend σ} {E : Serial.Env} {U : User}
variable {T : Resource.Ty} {r : Resource.Resource} {hist : List Tracker.Spec.Note}

theorem checked_field {id : Nat} : ∀ {fs : Resource.Fields} {i j : Nat} {a : Resource.Attrs} {t : Resource.Ty},
    AllCheckedFields (serFields Γ id i fs) → (Resource.Spec.fieldList fs)[j]? = some (a, t) →
    AllChecked (serTy Γ t)
  | .nil, _, _, _, _, _, h => by simp [Resource.Spec.fieldList] at h
  | .cons b u fs, i, 0, a, t, h, h1 => by
    simp only [Resource.Spec.fieldList, List.getElem?_cons_zero, Option.some.injEq, Prod.mk.injEq] at h1
    obtain ⟨rfl, rfl⟩ := h1
    simp only [serFields, AllCheckedFields] at h
    exact h.1
  | .cons b u fs, i, j + 1, a, t, h, h1 => by
    simp only [Resource.Spec.fieldList, List.getElem?_cons_succ] at h1
    simp only [serFields, AllCheckedFields] at h
    exact checked_field h.2 h1

theorem leads_checked {β : Type} {Ev : Resource.Env β} {ks : List Nat} {t : Resource.Ty} {v : Resource.Value}
    {path : List Str} {steps : List Step} {t' : Resource.Ty} {v' : Resource.Value}
    (h : Leads Ev ks t v path steps t' v') : AllChecked (serTy Γ t) → AllChecked (serTy Γ t') := by
  induction h with
  | here => exact id
  | field h1 _ _ _ ih =>
    intro h
    simp only [serTy, AllChecked] at h
    exact ih (checked_field h.2 h1)
  | unwrap _ ih => intro h; exact ih (by simpa only [serTy, AllChecked] using h)
  | entry _ _ ih => intro h; exact ih (by simpa only [serTy, AllChecked] using h)
  | item _ _ _ _ ih => intro h; exact ih (by simpa only [serTy, AllChecked] using h)
  | child _ _ _ ih => intro h; exact ih (by simpa only [serTy, AllChecked] using h)

/-- The validators of fields throw `deserialize_error` only. -/
def PoliteFields (E : Serial.Env) : Prop := ∀ id v x, E.validator id v = .error x → ∃ w, x = .deser w

theorem thrown_deser (hE : PoliteFields E) {c : Prop} (hc : c) {x : Serial.Exc} (h : Throwable E c x) :
    exc U.thrown x = .deserialize := by
  rcases h with ⟨w, rfl⟩ | ⟨-, hn⟩ | ⟨id, v, hv⟩
  · rfl
  · exact absurd hc hn
  · obtain ⟨w, rfl⟩ := hE id v x hv
    rfl

theorem lift_err {thrown : Nat → Resource.Exc} {t : Resource.Ty} {u : Resource.Value} {e : Resource.Exc}
    {f : Serial.Value → Serial.Res Serial.Value} (hu : holds Γ t u = true) (h : lift Γ thrown t u f = .error e) :
    ∃ x, f (view Γ t u) = .error x ∧ e = exc thrown x := by
  unfold lift at h
  rw [if_pos hu] at h
  cases hf : f (view Γ t u) with
  | ok w => rw [hf] at h; cases h
  | error x => rw [hf] at h; cases h; exact ⟨x, rfl, rfl⟩

/-! ### C98 Decision tables -/

/-- What `put` (with `read` = `deserialize`) and `patch` should answer: the rows are exclusive
and cover everything. -/
def DocTable (Γ : Table) (B : Serial.Backend σ) (E : Serial.Env) (U : User)
    (read : Serial.Ty → Serial.Value → Serial.Doc σ → Serial.Res Serial.Value) (T : Resource.Ty)
    (r : Resource.Resource) (p : List Seg) (d : Serial.Doc σ) (o : Resource.Outcome) : Prop :=
  (¬ Resolves (env Γ B E U) T r.value p → o = .resp .notFound []) ∧
  ∀ steps t old, LeadsTo (env Γ B E U) T r.value p steps t old →
    (Protected steps → o = .resp .methodNotAllowed []) ∧
    (¬ Protected steps →
      ((∀ w, read (serTy Γ t) (view Γ t old) d ≠ .ok w) → o = .resp .badRequest []) ∧
      ∀ w, read (serTy Γ t) (view Γ t old) d = .ok w → ∃ new, holds Γ t new = true ∧ view Γ t new = w ∧
        (¬ SameKey (env Γ B E U) steps old new → o = .resp .methodNotAllowed []) ∧
        (SameKey (env Γ B E U) steps old new → ∃ v', Changed old new (steps.map Step.pos) r.value v' ∧
          (¬ Valid (env Γ B E U) T v' → ∃ msg, o = .resp .conflict msg) ∧
          (Valid (env Γ B E U) T v' → o = .resp .ok [])))

theorem doc_table {read : Serial.Ty → Serial.Value → Serial.Doc σ → Serial.Res Serial.Value}
    (hty : ∀ t, tyOk t = true → ∀ o v d, HasTy t o → read t o d = .ok v → HasTy t v)
    (h : Service Γ T r hist) {p : List Seg} {d : Serial.Doc σ} {o : Resource.Outcome}
    (ht : Resource.Table (env Γ B E U) (fun t v d => lift Γ U.thrown t v fun w => read (serTy Γ t) w d) T r p d o) :
    DocTable Γ B E U read T r p d o := by
  refine ⟨ht.1, fun steps t old hl => ⟨(ht.2 steps t old hl).1, fun hn => ?_⟩⟩
  obtain ⟨h1, h2⟩ := (ht.2 steps t old hl).2 hn
  have hh := h.at hl
  obtain ⟨k1, k2, k3⟩ := holds_iff.1 hh
  refine ⟨fun hno => ?_, fun w hw => ?_⟩
  · cases hr : read (serTy Γ t) (view Γ t old) d with
    | ok w => exact absurd hr (hno w)
    | error x => exact h1 (exc U.thrown x) (by simp only [lift, if_pos hh, hr])
  · have hw3 := hty _ k1 _ _ _ k3 hw
    refine ⟨back Γ t w, holds_back k1 k2 hw3, view_back Γ t k2 w hw3, ?_⟩
    exact h2 (back Γ t w) (lift_ok.2 ⟨hh, w, hw, rfl⟩)

/-- C98: `put` answers 404 if the path names no node, else 405 if it is protected, else 400
if the document cannot be read into the node, else 405 if the key would change, else 409 if
the new tree is not valid, else 200. -/
theorem C98_put (hB : Lawful B) (hV : PoliteValidators (env Γ B E U)) (hE : PoliteFields E)
    (hT : AllChecked (serTy Γ T)) (h : Service Γ T r hist) (w : View) (p : List Seg) (hp : PathTo w p)
    (d : Serial.Doc σ) :
    DocTable Γ B E U (Serial.deser B E) T r p d (Resource.put (env Γ B E U) T r w d).2 := by
  have hs := h.setup hB (E := E) (U := U)
  refine doc_table (fun t ht o v d => Serial.deser_typed hB t ht o v d) h
    (Resource.table_of hV (fun st t u e hl he => ?_) hs.wt (hs.put hp d))
  obtain ⟨x, hx, rfl⟩ := lift_err (h.at hl) he
  obtain ⟨k1, _, k3⟩ := holds_iff.1 (h.at hl)
  exact thrown_deser hE (leads_checked hl hT) (Serial.C75_deserialize hB k1 k3 hx)

/-- C98: `patch` follows the same table, with `patch` for `deserialize`. -/
theorem C98_patch (hB : Lawful B) (hV : PoliteValidators (env Γ B E U)) (hE : PoliteFields E)
    (hT : AllChecked (serTy Γ T)) (h : Service Γ T r hist) (w : View) (p : List Seg) (hp : PathTo w p)
    (d : Serial.Doc σ) :
    DocTable Γ B E U (Serial.patch B E) T r p d (Resource.patch (env Γ B E U) T r w d).2 := by
  have hs := h.setup hB (E := E) (U := U)
  refine doc_table (fun t ht o v d => Serial.patch_typed hB t ht o v d) h
    (Resource.table_of hV (fun st t u e hl he => ?_) hs.wt (hs.patch hp d))
  obtain ⟨x, hx, rfl⟩ := lift_err (h.at hl) he
  obtain ⟨k1, _, k3⟩ := holds_iff.1 (h.at hl)
  exact thrown_deser hE (leads_checked hl hT) (Serial.C75_patch hB k1 k3 hx)

theorem fresh_holds {t : Resource.Ty} (h : good Γ t = true) :
    holds Γ t ((env Γ B E U).fresh t) = true ∧ view Γ t ((env Γ B E U).fresh t) = Serial.fresh (serTy Γ t) := by
  have h' := h
  simp only [good, Bool.and_eq_true] at h'
  have hf := Serial.fresh_typed _ h'.1
  simp only [env, if_pos h]
  exact ⟨holds_back h'.1 h'.2 hf, view_back Γ t h'.2 _ hf⟩

/-- C98: `post` answers 404 if the path names no node, else 405 if its children are protected
or it is no range, else 400 if the document cannot be read into a new element, else 409 if the
tree with the element is not valid, else 201. -/
theorem C98_post (hB : Lawful B) (hV : PoliteValidators (env Γ B E U)) (hE : PoliteFields E)
    (hT : AllChecked (serTy Γ T)) (h : Service Γ T r hist) (w : View) (p : List Seg) (hp : PathTo w p)
    (d : Serial.Doc σ) :
    (¬ Resolves (env Γ B E U) T r.value p → (Resource.post (env Γ B E U) T r w d).2 = .resp .notFound []) ∧
    ∀ steps t u, LeadsTo (env Γ B E U) T r.value p steps t u →
      (ChildrenProtected steps → (Resource.post (env Γ B E U) T r w d).2 = .resp .methodNotAllowed []) ∧
      ((∀ k t', t ≠ .seq k t') → (Resource.post (env Γ B E U) T r w d).2 = .resp .methodNotAllowed []) ∧
      (¬ ChildrenProtected steps → ∀ k t' vs, t = .seq k t' → u = .seq vs →
        ((∀ x, Serial.deser B E (serTy Γ t') (Serial.fresh (serTy Γ t')) d ≠ .ok x) →
          (Resource.post (env Γ B E U) T r w d).2 = .resp .badRequest []) ∧
        ∀ x, Serial.deser B E (serTy Γ t') (Serial.fresh (serTy Γ t')) d = .ok x →
          ∃ new v', holds Γ t' new = true ∧ view Γ t' new = x ∧
            Changed u (.seq (vs ++ [new])) (steps.map Step.pos) r.value v' ∧
            (¬ Valid (env Γ B E U) T v' → ∃ msg, (Resource.post (env Γ B E U) T r w d).2 = .resp .conflict msg) ∧
            (Valid (env Γ B E U) T v' → (Resource.post (env Γ B E U) T r w d).2 = .resp .created [])) := by
  have hs := h.setup hB (E := E) (U := U)
  have hseq : ∀ {steps k t vs}, LeadsTo (env Γ B E U) T r.value p steps (.seq k t) (.seq vs) →
      good Γ t = true ∧ k.push = true ∧ AllChecked (serTy Γ t) := fun hl =>
    ⟨(holds_seq.1 (h.at hl)).1, (holds_seq.1 (h.at hl)).2.1,
      by simpa only [serTy, AllChecked] using leads_checked hl hT⟩
  have ht := Resource.post_table hV hs w p hp d (fun st k t vs e hl he => by
    obtain ⟨hg, -, hc⟩ := hseq hl
    obtain ⟨f1, f2⟩ := fresh_holds (B := B) (E := E) (U := U) hg
    have he' : lift Γ U.thrown t ((env Γ B E U).fresh t) (fun w => Serial.deser B E (serTy Γ t) w d) = .error e := he
    obtain ⟨x, hx, rfl⟩ := lift_err f1 he'
    obtain ⟨k1, _, k3⟩ := holds_iff.1 f1
    exact thrown_deser hE hc (Serial.C75_deserialize hB k1 k3 hx))
  refine ⟨ht.1, fun steps t u hl => ?_⟩
  obtain ⟨h1, h2, h3⟩ := ht.2 steps t u hl
  refine ⟨h1, fun hn => h2 fun k t' e => absurd e (hn k t'), fun hn k t' vs e1 e2 => ?_⟩
  subst e1 e2
  obtain ⟨hg, hpush, hc⟩ := hseq hl
  obtain ⟨f1, f2⟩ := fresh_holds (B := B) (E := E) (U := U) hg
  obtain ⟨k1, k2, k3⟩ := holds_iff.1 f1
  obtain ⟨h4, h5⟩ := h3 hn k t' vs rfl rfl hpush
  refine ⟨fun hno => ?_, fun x hx => ?_⟩
  · cases hr : Serial.deser B E (serTy Γ t') (Serial.fresh (serTy Γ t')) d with
    | ok x => exact absurd hr (hno x)
    | error x =>
      refine h4 (exc U.thrown x) ?_
      show lift Γ U.thrown t' ((env Γ B E U).fresh t') (fun w => Serial.deser B E (serTy Γ t') w d) = _
      simp only [lift, if_pos f1, f2, hr]
  · rw [f2] at k3
    have hx3 := Serial.deser_typed hB _ k1 _ _ _ k3 hx
    obtain ⟨v', h6, h7, h8⟩ := h5 (back Γ t' x) (by
      show lift Γ U.thrown t' ((env Γ B E U).fresh t') (fun w => Serial.deser B E (serTy Γ t') w d) = _
      exact lift_ok.2 ⟨f1, x, by rw [f2]; exact hx, rfl⟩)
    exact ⟨back Γ t' x, v', holds_back k1 k2 hx3, view_back Γ t' k2 x hx3, h6, h7, h8⟩

end

/-! One case for each row. -/

section
open Demo (guarded r3 R3)
open Serial (txt)
open Serial.Sample (J E jint jstr obj)

example : Lawful J ∧ PoliteValidators R3 ∧ Service Demo.Γ guarded r3 [] ∧ AllChecked (serTy Demo.Γ guarded) :=
  ⟨Demo.lawful, Demo.polite3, Demo.r3_service, by
    simp [guarded, Demo.user, serTy, serFields, Demo.Γ, AllChecked, AllCheckedFields, NamesChecked,
      Serial.hasExtraOrFlatten]⟩

def Demo.putAt (path : String) (d : Serial.JDoc) : Resource.Outcome :=
  (Resource.put R3 guarded r3 (Resource.Demo.view path) d).2
def Demo.patchAt (path : String) (d : Serial.JDoc) : Resource.Outcome :=
  (Resource.patch R3 guarded r3 (Resource.Demo.view path) d).2
def Demo.postAt (path : String) (d : Serial.JDoc) : Resource.Outcome :=
  (Resource.post R3 guarded r3 (Resource.Demo.view path) d).2

example : Demo.putAt "/users/eve" (jint 1) = .resp .notFound [] := by decide +kernel
example : Demo.putAt "/id" (jint 2) = .resp .methodNotAllowed [] := by decide +kernel
example : Demo.putAt "/users/bob/name" (jstr "eve") = .resp .methodNotAllowed [] := by decide +kernel
example : Demo.putAt "/age" (jstr "x") = .resp .badRequest [] := by decide +kernel
example : Demo.putAt "/users/bob" (obj [("name", jstr "eve"), ("mail", jstr "e")]) =
    .resp .methodNotAllowed [] := by decide +kernel
example : Demo.putAt "/age" (jint 77) = .resp .conflict (txt "age") := by decide +kernel
example : Demo.putAt "/age" (jint 78) = .resp .ok [] := by decide +kernel
example : Demo.patchAt "/users/bob" (obj [("mail", jstr "")]) = .resp .conflict (txt "mail") := by decide +kernel
example : Demo.patchAt "/users/bob" (obj [("mail", jint 3)]) = .resp .badRequest [] := by decide +kernel
example : Demo.patchAt "/users/bob" (obj [("mail", jstr "e")]) = .resp .ok [] := by decide +kernel
example : Demo.postAt "/emails" (jint 1) = .resp .notFound [] := by decide +kernel
example : Demo.postAt "/age" (jint 1) = .resp .methodNotAllowed [] := by decide +kernel
example : Demo.postAt "/users" (jint 1) = .resp .badRequest [] := by decide +kernel
example : Demo.postAt "/users" (obj [("name", jstr "bob"), ("mail", jstr "e")]) =
    .resp .conflict Resource.duplicateText := by decide +kernel
example : Demo.postAt "/users" (obj [("name", jstr "eve"), ("mail", jstr "")]) =
    .resp .conflict (txt "mail") := by decide +kernel
example : Demo.postAt "/users" (obj [("name", jstr "eve"), ("mail", jstr "e")]) = .resp .created [] := by
  decide +kernel

end
end Verif.Rest
