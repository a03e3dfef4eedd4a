import Verif.Rest.Props2
import Verif.Serial.Props5
/-
Properties C99 (reading and writing at a path without a resource) and C100 (what a request at
a path sees of the fields above it).
-/
namespace Verif.Rest
open Verif.Path Verif.Path.Spec Verif.Serial.Spec Verif.Rest.Spec
open Verif.Resource (Tracked PathTo Request)
open Verif.Resource.Spec (Leads LeadsTo Resolves Step Changed Success)

section
variable {σ : Type} {Γ : Table} {B : Serial.Backend σ} {E : Serial.Env} {U : User}
variable {T : Resource.Ty}

/-! ### C99 `serialize_at_path` and `deserialize_at_path` -/

theorem wt_of {v : Resource.Value} (hT : Resource.Spec.tyOk T = true) (hv : holds Γ T v = true) : Resource.WT T v :=
  ⟨hT, holds_typed hv⟩

/-- C99: `serialize_at_path` makes the document of the node that the path names, and throws
what `serialize` throws. -/
theorem C99_serialize {v : Resource.Value} (hT : Resource.Spec.tyOk T = true) (hv : holds Γ T v = true)
    {p : List Seg} {steps : List Step} {t : Resource.Ty} {u : Resource.Value}
    (hl : LeadsTo (env Γ B E U) T v p steps t u) (s : Bool) :
    (∀ d, serializeAt Γ B E U s T v p = .ok d ↔ Serial.ser B s (serTy Γ t) (view Γ t u) = .ok d) ∧
    ∀ e, serializeAt Γ B E U s T v p = .error e ↔
      ∃ x, Serial.ser B s (serTy Γ t) (view Γ t u) = .error x ∧ e = .throws (exc U.thrown x) := by
  unfold serializeAt
  rw [Resource.visit_leads (wt_of hT hv) hl]
  dsimp only
  cases Serial.ser B s (serTy Γ t) (view Γ t u) with
  | ok d => simp
  | error x => simp [eq_comm]

/-- C99: `get` answers with the text of what `serialize_at_path` makes. -/
theorem C99_get (hB : Lawful B) {r : Resource.Resource} {hist : List Tracker.Spec.Note} (h : Service Γ T r hist)
    (w : View) (p : List Seg) (hp : PathTo w p) {s : Bool} {d : Serial.Doc σ}
    (hd : serializeAt Γ B E U s T r.value p = .ok d) (print : Serial.Doc σ → Str) :
    Resource.get (env Γ B E U) T (dumper Γ B U s print) r w = .resp .ok (print d) := by
  have hw := (h.setup hB (E := E) (U := U)).wt
  rcases Resource.visit_cases hw (E := env Γ B E U) p with ⟨_, e, he, _⟩ | ⟨st, t, u, hl⟩
  · unfold serializeAt at hd
    rw [he] at hd
    cases hd
  · rw [Resource.get_leads hw hp hl]
    have := ((C99_serialize h.ok h.val hl s).1 d).1 hd
    simp only [dumper, this]
    rfl

/-- C99: both report a path that names no node, and nothing changes. -/
theorem C99_missing {v : Resource.Value} (hT : Resource.Spec.tyOk T = true) (hv : holds Γ T v = true)
    {p : List Seg} (hn : ¬ Resolves (env Γ B E U) T v p) (s : Bool) (d : Serial.Doc σ) :
    ∃ e, (e = .throws .segmentNotFound ∨ e = .throws .notTraversable) ∧
      serializeAt Γ B E U s T v p = .error e ∧ deserializeAt Γ B E U T v p d = (v, some e) := by
  rcases Resource.visit_cases (wt_of hT hv) (E := env Γ B E U) p with ⟨_, e, he, hm⟩ | ⟨st, t, u, hl⟩
  · refine ⟨e, ?_, by unfold serializeAt; rw [he], by unfold deserializeAt; rw [he]⟩
    unfold Resource.isMissing at hm
    split at hm
    · exact .inl rfl
    · exact .inr rfl
    · exact absurd hm id
  · exact absurd ⟨st, t, u, hl⟩ hn

/-- C99: `deserialize_at_path` changes the node that the path names and nothing else.  If it
returns, the node is what the document reads to over the old value; if it throws, it throws
what `deserialize` throws.  In both cases the whole object is of its type. -/
theorem C99_deserialize (hB : Lawful B) {v : Resource.Value} (hT : Resource.Spec.tyOk T = true)
    (hv : holds Γ T v = true) {p : List Seg} {steps : List Step} {t : Resource.Ty} {u : Resource.Value}
    (hl : LeadsTo (env Γ B E U) T v p steps t u) (d : Serial.Doc σ) :
    ∃ u', Changed u u' (steps.map Step.pos) v (deserializeAt Γ B E U T v p d).1 ∧ holds Γ t u' = true ∧
      holds Γ T (deserializeAt Γ B E U T v p d).1 = true ∧
      ((deserializeAt Γ B E U T v p d).2 = none ↔
        Serial.deser B E (serTy Γ t) (view Γ t u) d = .ok (view Γ t u')) ∧
      ∀ e, (deserializeAt Γ B E U T v p d).2 = some e ↔
        ∃ x, Serial.deser B E (serTy Γ t) (view Γ t u) d = .error x ∧ e = .throws (exc U.thrown x) := by
  have hu := leads_holds hl hv
  obtain ⟨k1, k2, k3⟩ := holds_iff.1 hu
  have hty := Serial.deserRun_typed hB (E := E) _ k1 (view Γ t u) d k3
  have hu' := holds_back k1 k2 hty
  have hview := view_back Γ t k2 _ hty
  obtain ⟨v', hs, -, -⟩ := Resource.get_set (Resource.leads_get hl)
    (back Γ t (Serial.deserRun B E (serTy Γ t) (view Γ t u) d).1)
  have hc := Resource.changed_of_set (Resource.leads_get hl) hs
  have heq : deserializeAt Γ B E U T v p d =
      (v', (Serial.deserRun B E (serTy Γ t) (view Γ t u) d).2.map fun e => .throws (exc U.thrown e)) := by
    unfold deserializeAt
    rw [Resource.visit_leads (wt_of hT hv) hl]
    dsimp only
    rw [hs]
  obtain ⟨c1, c2, -, -⟩ := Serial.C91_same (B := B) (E := E) (t := serTy Γ t) (old := view Γ t u) (d := d)
  rw [heq]
  refine ⟨_, hc, hu', changed_holds hl hv hu' hc, ?_, fun e => ?_⟩
  · rw [hview, ← c1]
    cases hr : Serial.deserRun B E (serTy Γ t) (view Γ t u) d with
    | mk w o => cases o <;> simp
  · constructor
    · intro h
      cases hr : Serial.deserRun B E (serTy Γ t) (view Γ t u) d with
      | mk w o =>
        cases o with
        | none => simp [hr] at h
        | some x =>
          simp only [hr, Option.map_some, Option.some.injEq] at h
          exact ⟨x, (c2 x).1 ⟨w, hr⟩, h.symm⟩
    · rintro ⟨x, hx, rfl⟩
      obtain ⟨w, hr⟩ := (c2 x).2 hx
      simp only [hr, Option.map_some]

/-- C99: what a successful `put` leaves is what `deserialize_at_path` leaves. -/
theorem C99_put (hB : Lawful B) {r : Resource.Resource} {hist : List Tracker.Spec.Note} (h : Service Γ T r hist)
    (w : View) (p : List Seg) (hp : PathTo w p) (d : Serial.Doc σ)
    (hs : Success (Resource.put (env Γ B E U) T r w d).2) :
    deserializeAt Γ B E U T r.value p d = ((Resource.put (env Γ B E U) T r w d).1.value, none) := by
  have hset := h.setup hB (E := E) (U := U)
  obtain ⟨st, t, old, new, he, hf, _⟩ := Resource.put_edit hset.typed.deser hset.wt (hset.put hp d) hs
  obtain ⟨g1, g2⟩ := deser_holds hB hf
  obtain ⟨u', c1, c2, -, c3, c4⟩ := C99_deserialize hB h.ok h.val he.leads d
  have hnone : (deserializeAt Γ B E U T r.value p d).2 = none := by
    cases hx : (deserializeAt Γ B E U T r.value p d).2 with
    | none => rfl
    | some e =>
      obtain ⟨x, hx, _⟩ := (c4 e).1 hx
      rw [hx] at g2
      cases g2
  have hd := c3.1 hnone
  rw [hd, Except.ok.injEq] at g2
  have := view_inj c2 g1 g2
  subst this
  exact Prod.ext (Resource.changed_unique c1 he.changed) hnone

end

section
open Demo (guarded r3 R3 U3 num text)
open Serial (txt)
open Serial.Sample (J E jint jstr obj)
open Verif.Resource.Demo (same same_eq)

def Demo.readAt (path : List String) (d : Serial.JDoc) : Resource.Value × Option Resource.Err :=
  deserializeAt Demo.Γ J E U3 guarded r3.value (path.map txt) d

example : Resource.Spec.tyOk guarded = true ∧ holds Demo.Γ guarded r3.value = true := by decide +kernel
example : serializeAt Demo.Γ J E U3 true guarded r3.value [txt "users", txt "bob"] =
    .ok (obj [("name", jstr "bob"), ("mail", jstr "b@c")]) := rfl
example : (Demo.readAt ["users", "eve"] (jint 1)).2 = some (.throws .segmentNotFound) := by decide +kernel
example : (Demo.readAt ["age", "x"] (jint 1)).2 = some (.throws .notTraversable) := by decide +kernel
example : (Demo.readAt ["users", "bob", "mail"] (jstr "e")) =
    (.record [num 30, num 1, .seq [.record [text "ann", text "a@b"], .record [text "bob", text "e"]]], none) := rfl
example : Demo.putAt "/users/bob/mail" (jstr "e") = .resp .ok [] := by decide +kernel

/-- `deserialize_at_path` does none of what `put` does besides: it writes a `read_only` field,
changes the key of a child, leaves a tree that is not valid, and leaves a part of the document
behind when it throws. -/
theorem C99_unchecked_violated :
    (Demo.putAt "/id" (jint 2) = .resp .methodNotAllowed [] ∧ (Demo.readAt ["id"] (jint 2)).2 = none ∧
      (Demo.readAt ["id"] (jint 2)).1.get [1] = some (num 2)) ∧
    (Demo.putAt "/users/bob/name" (jstr "ann") = .resp .methodNotAllowed [] ∧
      (Demo.readAt ["users", "bob", "name"] (jstr "ann")).2 = none ∧
      (Demo.readAt ["users", "bob", "name"] (jstr "ann")).1.get [2, 1, 0] = some (text "ann")) ∧
    (Demo.putAt "/age" (jint 77) = .resp .conflict (txt "age") ∧ (Demo.readAt ["age"] (jint 77)).2 = none ∧
      Resource.validateTree R3 guarded (Demo.readAt ["age"] (jint 77)).1 = .error (.throws (.validation (txt "age")))) ∧
    ((Resource.put R3 guarded r3 (Resource.Demo.view "/") (obj [("age", jint 31), ("id", jstr "x")])).1.value.get [0] =
        some (num 30) ∧
      (Demo.readAt [] (obj [("age", jint 31), ("id", jstr "x")])).2 = some (.throws .deserialize) ∧
      (Demo.readAt [] (obj [("age", jint 31), ("id", jstr "x")])).1.get [0] = some (num 31)) :=
  ⟨⟨by decide +kernel, by decide +kernel, rfl⟩, ⟨by decide +kernel, by decide +kernel, rfl⟩,
    ⟨by decide +kernel, by decide +kernel, rfl⟩, ⟨rfl, by decide +kernel, rfl⟩⟩

end

/-! ### C100 What a request at a path sees -/

section
variable {β : Type} {F F' : Resource.Env β}

theorem findKeyed_env (h : F.keyMatches = F'.keyMatches) (t : Resource.Ty) (vs : List Resource.Value) (s : Str) :
    ∀ ks, Resource.findKeyed F t vs s ks = Resource.findKeyed F' t vs s ks
  | [] => rfl
  | k :: ks => by
    unfold Resource.findKeyed
    rw [h, findKeyed_env h t vs s ks]

mutual
theorem visit_env (h : F.keyMatches = F'.keyMatches) (stop : Nat) :
    ∀ (t : Resource.Ty) n v p c, Resource.visit F stop t n v p c = Resource.visit F' stop t n v p c
  | .leaf _, _, _, _, _ => by simp only [Resource.visit]
  | .opt t, _, v, p, c => by
    cases v <;> simp only [Resource.visit]
    rename_i o
    cases o <;> simp only [visit_env h stop t]
  | .record _ fs, n, v, p, c => by simp only [Resource.visit, visitFields_env h stop fs]
  | .map _ t, _, _, _, _ => by simp only [Resource.visit, visit_env h stop t]
  | .seq _ t, _, _, _, _ => by simp only [Resource.visit, visit_env h stop t, findKeyed_env h]
theorem visitFields_env (h : F.keyMatches = F'.keyMatches) (stop : Nat) :
    ∀ (fs : Resource.Fields) i vs n s p c, Resource.visitFields F stop fs i vs n s p c =
      Resource.visitFields F' stop fs i vs n s p c
  | .nil, _, _, _, _, _, _ => by simp only [Resource.visitFields]
  | .cons a t fs, i, [], n, s, p, c => by simp only [Resource.visitFields]
  | .cons a t fs, i, v :: vs, n, s, p, c => by
    simp only [Resource.visitFields, visit_env h stop t, visitFields_env h stop fs]
end

theorem pairsDiffer_env (h : F.keyEq = F'.keyEq) : ∀ vs, Resource.pairsDiffer F vs = Resource.pairsDiffer F' vs
  | [] => rfl
  | v :: vs => by simp only [Resource.pairsDiffer, h, pairsDiffer_env h vs]

theorem uniqueKeys_env (h : F.keyEq = F'.keyEq) (vs : List Resource.Value) :
    ∀ ks, Resource.validateUniqueChildKeys F vs ks = Resource.validateUniqueChildKeys F' vs ks
  | [] => rfl
  | k :: ks => by simp only [Resource.validateUniqueChildKeys, pairsDiffer_env h, uniqueKeys_env h vs ks]

mutual
theorem validate_env (h : F.keyEq = F'.keyEq) (h' : F.validate = F'.validate) :
    ∀ (t : Resource.Ty) n, Resource.validateNodeTree F t n = Resource.validateNodeTree F' t n
  | .leaf _, _ => by funext v; simp only [Resource.validateNodeTree, h']
  | .opt t, _ => by
    funext v
    cases v <;> simp only [Resource.validateNodeTree, h']
    rename_i o
    cases o <;> simp only [validate_env h h' t]
  | .record _ fs, n => by funext v; simp only [Resource.validateNodeTree, h', validateFields_env h h' fs]
  | .map _ t, _ => by funext v; simp only [Resource.validateNodeTree, h', validate_env h h' t]
  | .seq _ t, _ => by
    funext v; simp only [Resource.validateNodeTree, h', validate_env h h' t, uniqueKeys_env h]
theorem validateFields_env (h : F.keyEq = F'.keyEq) (h' : F.validate = F'.validate) :
    ∀ (fs : Resource.Fields) vs, Resource.validateFields F fs vs = Resource.validateFields F' fs vs
  | .nil, _ => by simp only [Resource.validateFields]
  | .cons a t fs, [] => by simp only [Resource.validateFields]
  | .cons a t fs, v :: vs => by
    simp only [Resource.validateFields, validate_env h h' t, validateFields_env h h' fs]
end

end

mutual
theorem same_view {Γ Γ' : Table} : ∀ (t : Resource.Ty), serTy Γ t = serTy Γ' t →
    wired Γ t = wired Γ' t ∧ (∀ v, view Γ t v = view Γ' t v) ∧ ∀ v, back Γ t v = back Γ' t v
  | .leaf id, h => by
    simp only [serTy] at h
    refine ⟨by simp only [wired, h], fun v => ?_, fun v => by simp only [back]⟩
    cases v <;> simp only [view, h]
  | .opt t, h => by
    simp only [serTy, Serial.Ty.opt.injEq] at h
    obtain ⟨h1, h2, h3⟩ := same_view t h
    refine ⟨by simp only [wired, h1], fun v => ?_, fun v => ?_⟩
    · cases v <;> simp only [view]
      rename_i o
      cases o <;> simp only [h2]
    · cases v <;> simp only [back]
      rename_i o
      cases o <;> simp only [h3]
  | .record id fs, h => by
    simp only [serTy, Serial.Ty.record.injEq] at h
    obtain ⟨h1, h2, h3⟩ := same_viewFields id 0 fs h.2
    refine ⟨by simp only [wired, h1], fun v => ?_, fun v => ?_⟩
    · cases v <;> simp only [view, h2]
    · cases v <;> simp only [back, h3]
  | .map _ t, h => by
    simp only [serTy, Serial.Ty.map.injEq] at h
    obtain ⟨h1, h2, h3⟩ := same_view t h
    refine ⟨by simp only [wired, h1], fun v => ?_, fun v => ?_⟩
    · cases v <;> simp only [view, h2]
    · cases v <;> simp only [back, h3]
  | .seq _ t, h => by
    simp only [serTy, Serial.Ty.vec.injEq] at h
    obtain ⟨h1, h2, h3⟩ := same_view t h
    refine ⟨by simp only [wired, h1], fun v => ?_, fun v => ?_⟩
    · cases v <;> simp only [view, List.map_inj_left.2 fun v _ => h2 v]
    · cases v <;> simp only [back, List.map_inj_left.2 fun v _ => h3 v]
theorem same_viewFields {Γ Γ' : Table} (id : Nat) : ∀ (i : Nat) (fs : Resource.Fields),
    serFields Γ id i fs = serFields Γ' id i fs →
    wiredFields Γ id i fs = wiredFields Γ' id i fs ∧ (∀ vs, viewFields Γ id i fs vs = viewFields Γ' id i fs vs) ∧
      ∀ vs, backFields Γ id i fs vs = backFields Γ' id i fs vs
  | _, .nil, _ => ⟨by simp only [wiredFields], fun vs => by cases vs <;> simp only [viewFields],
      fun vs => by cases vs <;> simp only [backFields]⟩
  | i, .cons a t fs, h => by
    simp only [serFields, Serial.Fields.cons.injEq] at h
    obtain ⟨h0, ht, hf⟩ := h
    obtain ⟨h1, h2, h3⟩ := same_view t ht
    obtain ⟨g1, g2, g3⟩ := same_viewFields id (i + 1) fs hf
    refine ⟨by simp only [wiredFields, h0, h1, g1], fun vs => ?_, fun vs => ?_⟩
    · cases vs <;> simp only [viewFields, h2, g2]
    · cases vs <;> simp only [backFields, h3, g3]
end

section
variable {σ : Type} {Γ Γ' : Table} {B : Serial.Backend σ} {E : Serial.Env} {U : User}
variable {T : Resource.Ty} {r : Resource.Resource} {hist : List Tracker.Spec.Note}

theorem same_lift {t : Resource.Ty} (h : serTy Γ t = serTy Γ' t) (thrown : Nat → Resource.Exc) (v : Resource.Value)
    (f : Serial.Value → Serial.Res Serial.Value) : lift Γ thrown t v f = lift Γ' thrown t v f := by
  obtain ⟨h1, h2, h3⟩ := same_view t h
  have hh : holds Γ t v = holds Γ' t v := by simp only [holds, good, h, h1, h2]
  unfold lift
  rw [hh, h2]
  simp only [h3]

theorem same_fresh {t : Resource.Ty} (h : serTy Γ t = serTy Γ' t) :
    (env Γ B E U).fresh t = (env Γ' B E U).fresh t := by
  obtain ⟨h1, h2, h3⟩ := same_view t h
  have hh : good Γ t = good Γ' t := by simp only [good, h, h1]
  simp only [env]
  rw [hh, h3, h]

/-- C100: the answer of `get` depends on the path to a node only through the node: two
descriptions of the fields that agree on the type of the node give the same answer, whatever
attributes (`skip_serializing`, `flatten`, ...) the fields above it have. -/
theorem C100_get (h : Service Γ T r hist) (w : View) (p : List Seg) (hp : PathTo w p) {steps : List Step}
    {t : Resource.Ty} {u : Resource.Value} (hl : LeadsTo (env Γ B E U) T r.value p steps t u)
    (ht : serTy Γ t = serTy Γ' t) (s : Bool) (print : Serial.Doc σ → Str) :
    Resource.get (env Γ B E U) T (dumper Γ B U s print) r w =
      Resource.get (env Γ' B E U) T (dumper Γ' B U s print) r w := by
  have hw := wt_of h.ok h.val
  unfold Resource.get Resource.visitAtPath
  rw [hp.segs]
  dsimp only
  rw [visit_env (F' := env Γ B E U) (F := env Γ' B E U) rfl]
  have := Resource.visit_leads hw hl
  unfold Resource.visitAtPath at this
  rw [this]
  simp only [dumper, ht, (same_view t ht).2.1]

theorem same_replace {f f' : Resource.Ty → Resource.Value → Serial.Doc σ → Except Resource.Exc Resource.Value}
    (hw : Resource.WT T r.value) {w : View} {p : List Seg} (hp : PathTo w p) {steps : List Step}
    {t : Resource.Ty} {u : Resource.Value} (hl : LeadsTo (env Γ B E U) T r.value p steps t u) {d : Serial.Doc σ}
    (hf : f t u d = f' t u d) :
    Resource.replaceNode (env Γ B E U) f T r w d = Resource.replaceNode (env Γ' B E U) f' T r w d := by
  have := Resource.visit_leads hw hl
  unfold Resource.visitAtPath at this
  unfold Resource.replaceNode Resource.visitAtPath
  rw [hp.segs]
  dsimp only
  rw [visit_env (F' := env Γ B E U) (F := env Γ' B E U) rfl, this]
  dsimp only
  rw [hf]
  have hi : ∀ (n : Resource.Node) a b, n.preservesIdentity (env Γ B E U) a b = n.preservesIdentity (env Γ' B E U) a b :=
    fun n a b => rfl
  have ha : ∀ a o n, Resource.assignChecked (env Γ B E U) T r.value a o n =
      Resource.assignChecked (env Γ' B E U) T r.value a o n := by
    intro a o n
    unfold Resource.assignChecked Resource.validateTree
    rw [validate_env (F := env Γ B E U) (F' := env Γ' B E U) rfl rfl]
  simp only [hi, ha]

/-- C100: so does what `put` answers and leaves, whatever attributes (`skip_deserializing`,
validators, defaults, ...) the fields above it have. -/
theorem C100_put (h : Service Γ T r hist) (w : View) (p : List Seg) (hp : PathTo w p) {steps : List Step}
    {t : Resource.Ty} {u : Resource.Value} (hl : LeadsTo (env Γ B E U) T r.value p steps t u)
    (ht : serTy Γ t = serTy Γ' t) (d : Serial.Doc σ) :
    Resource.put (env Γ B E U) T r w d = Resource.put (env Γ' B E U) T r w d := by
  refine same_replace (wt_of h.ok h.val) hp hl ?_
  simp only [env, ht, same_lift ht]

/-- C100: `patch` likewise. -/
theorem C100_patch (h : Service Γ T r hist) (w : View) (p : List Seg) (hp : PathTo w p) {steps : List Step}
    {t : Resource.Ty} {u : Resource.Value} (hl : LeadsTo (env Γ B E U) T r.value p steps t u)
    (ht : serTy Γ t = serTy Γ' t) (d : Serial.Doc σ) :
    Resource.patch (env Γ B E U) T r w d = Resource.patch (env Γ' B E U) T r w d := by
  refine same_replace (wt_of h.ok h.val) hp hl ?_
  simp only [env, ht, same_lift ht]

/-- C100: `post` likewise. -/
theorem C100_post (h : Service Γ T r hist) (w : View) (p : List Seg) (hp : PathTo w p) {steps : List Step}
    {t : Resource.Ty} {u : Resource.Value} (hl : LeadsTo (env Γ B E U) T r.value p steps t u)
    (ht : serTy Γ t = serTy Γ' t) (d : Serial.Doc σ) :
    Resource.post (env Γ B E U) T r w d = Resource.post (env Γ' B E U) T r w d := by
  have := Resource.visit_leads (wt_of h.ok h.val) hl
  unfold Resource.visitAtPath at this
  unfold Resource.post Resource.visitAtPath
  rw [hp.segs]
  dsimp only
  rw [visit_env (F' := env Γ B E U) (F := env Γ' B E U) rfl, this]
  dsimp only
  have hpush : ∀ a vs x, Resource.pushChecked (env Γ B E U) T r.value a vs x =
      Resource.pushChecked (env Γ' B E U) T r.value a vs x := by
    intro a vs x
    unfold Resource.pushChecked Resource.validateTree
    rw [validate_env (F := env Γ B E U) (F' := env Γ' B E U) rfl rfl]
  have hdup : ∀ vs x ks, Resource.checkDuplicateChildKey (env Γ B E U) vs x ks =
      Resource.checkDuplicateChildKey (env Γ' B E U) vs x ks := by
    intro vs x ks
    induction ks with
    | nil => rfl
    | cons k ks ih => unfold Resource.checkDuplicateChildKey; rw [ih]; rfl
  have hval : ∀ t v, Resource.validateCandidate (env Γ B E U) t v =
      Resource.validateCandidate (env Γ' B E U) t v := by
    intro t v
    fun_induction Resource.validateCandidate (env Γ B E U) t v <;> simp_all [Resource.validateCandidate, env]
  cases t with
  | seq k t' =>
    cases u with
    | seq vs =>
      simp only [serTy, Serial.Ty.vec.injEq] at ht
      have hd : (env Γ B E U).deser t' ((env Γ B E U).fresh t') d =
          (env Γ' B E U).deser t' ((env Γ' B E U).fresh t') d := by
        rw [same_fresh ht]
        simp only [env, ht, same_lift ht]
      simp only [hd, hpush, hdup, hval]
    | _ => rfl
  | _ => rfl

end

section
open Demo (account r0 U num text)
open Serial (txt)
open Serial.Sample (J E jint jstr obj)

/-- The description of `Demo.Γ` without attributes. -/
def Demo.bare : Table := { Demo.Γ with field := fun id i => { name := (Demo.Γ.field id i).name, init := .bits 0 } }

example : serTy Demo.Γ (.map true (.leaf 0)) = serTy Demo.bare (.map true (.leaf 0)) ∧
    (Demo.bare.field 0 5).allowMissing = false := ⟨rfl, rfl⟩
example : Resource.get Demo.R account (dumper Demo.Γ J U true Demo.print) r0 (Resource.Demo.view "/limits") =
    Resource.get (env Demo.bare J E U) account (dumper Demo.bare J U true Demo.print) r0 (Resource.Demo.view "/limits") :=
  C100_get (Γ' := Demo.bare) Demo.r0_service _ _ Demo.to_limits Demo.leads_limits rfl true Demo.print
example : (Demo.put account r0 "/limits" (obj [("top", jint 7)])).2 = .resp .ok [] := by decide +kernel

theorem got {o : Option Resource.Value} {v : Resource.Value}
    (h : (match o with | some x => Resource.Demo.same x v | none => false) = true) : o = some v := by
  split at h
  · rw [Resource.Demo.same_eq _ _ h]
  · cases h

/-- What `skip_serializing` hides in every document of the record, `get` shows at the path of
the field. -/
theorem C100_skip_serializing_violated : (Demo.Γ.field 0 1).skipSer = true ∧
    (∀ (s : Bool) v (ms : List (Str × Serial.JDoc)),
      Serial.ser J s (serTy Demo.Γ account) (view Demo.Γ account v) = .ok (.obj ms) →
      txt "secret" ∉ ms.map (·.1)) ∧
    Demo.get account r0 "/secret" = .resp .ok (txt "'pw'") := by
  refine ⟨rfl, fun s v ms h => ?_, by decide +kernel⟩
  obtain ⟨vs, out, -, h2, h⟩ := Serial.C76_members Demo.lawful h
  cases h2
  simp only [serFields, WritesFields, Demo.Γ] at h
  obtain ⟨v0, _, o0, _, rfl, rfl, a0, -, -, b0, h⟩ := h
  obtain ⟨v1, _, o1, _, rfl, rfl, a1, -, -, -, h⟩ := h
  obtain ⟨v2, _, o2, _, rfl, rfl, a2, -, -, b2, h⟩ := h
  obtain ⟨v3, _, o3, _, rfl, rfl, a3, -, c3, -, h⟩ := h
  obtain ⟨v4, _, o4, _, rfl, rfl, a4, -, -, b4, h⟩ := h
  obtain ⟨v5, _, o5, _, rfl, rfl, a5, -, -, b5, h⟩ := h
  obtain ⟨v6, _, o6, _, rfl, rfl, a6, -, -, b6, -, rfl⟩ := h
  have field : ∀ {f : Serial.Field} {t : Serial.Ty} {v : Serial.Value} {o : List (Str × Serial.JDoc)},
      (omitted s f v = true → o = []) → (omitted s f v = false → ∃ d, Serial.ser J s t v = .ok d ∧ o = [(f.key, d)]) →
      f.key ≠ txt "secret" → txt "secret" ∉ o.map (·.1) := by
    intro f t v o h1 h2 hk hm
    cases ho : omitted s f v with
    | true => rw [h1 ho] at hm; cases hm
    | false =>
      obtain ⟨d, -, rfl⟩ := h2 ho
      simp only [List.map_cons, List.map_nil, List.mem_singleton] at hm
      exact hk hm.symm
  simp only [List.map_append, List.mem_append, not_or]
  refine ⟨field a0 (fun h => b0 h trivial trivial) (by decide +kernel), ?_, field a2 (fun h => b2 h trivial trivial) (by decide +kernel), ?_,
    field a4 (fun h => b4 h trivial trivial) (by decide +kernel), field a5 (fun h => b5 h trivial trivial) (by decide +kernel),
    field a6 (fun h => b6 h trivial trivial) (by decide +kernel), by simp⟩
  · rw [a1 (by simp [omitted])]
    simp
  · cases ho : omitted s (Demo.Γ.field 0 3) v3 with
    | true => rw [a3 ho]; simp
    | false =>
      have h3 := c3 ho trivial trivial
      cases v3 with
      | record vs =>
        simp only [Demo.geo, serTy, serFields, WritesFlat, WritesFields, Demo.Γ] at h3
        obtain ⟨w, _, p0, _, -, rfl, e0, -, -, f0, -, rfl⟩ := h3
        simp only [List.append_nil]
        exact field e0 (fun h => f0 h trivial trivial) (by decide +kernel)
      | _ => simp only [Demo.geo, serTy, WritesFlat] at h3

/-- What `skip_deserializing` keeps from every document of the record, `put` writes at the
path of the field. -/
theorem C100_skip_deserializing_violated : (Demo.Γ.field 0 2).skipDeser = true ∧
    (∀ d, (Demo.put account r0 "/" d).1.value.get [2] = some (num 3)) ∧
    (Demo.put account r0 "/version" (jint 4)).2 = .resp .ok [] ∧
    (Demo.put account r0 "/version" (jint 4)).1.value.get [2] = some (num 4) := by
  refine ⟨rfl, fun d => ?_, by decide +kernel, got (by decide +kernel)⟩
  have hset := Demo.r0_service.setup Demo.lawful (E := E) (U := U)
  by_cases hs : Success (Demo.put account r0 "/" d).2
  · obtain ⟨st, t, old, new, he, hf, _⟩ := Resource.put_edit hset.typed.deser hset.wt (hset.put Demo.to_root d) hs
    obtain ⟨g1, g2⟩ := deser_holds Demo.lawful hf
    have hl := he.leads
    cases hl
    have hc : (Demo.put account r0 "/" d).1.value = new :=
      Resource.changed_unique he.changed .here
    rw [hc]
    clear hc he hf
    have hlegit := Serial.C47_legit Demo.lawful (by decide +kernel) (by decide +kernel) g2
    have hty := holds_typed g1
    match new, hty with
    | .record [], h => simp [account, Resource.Spec.HasTy, Resource.Spec.HasTys] at h
    | .record [_], h => simp [account, Resource.Spec.HasTy, Resource.Spec.HasTys] at h
    | .record [_, _], h => simp [account, Resource.Spec.HasTy, Resource.Spec.HasTys] at h
    | .record (a :: b :: c :: ws), _ =>
      simp only [account, serTy, serFields, view, viewFields, r0, Legit, LegitFields] at hlegit
      have := hlegit.2.2.2.2.2.2.2.2.1 rfl
      match c, this with
      | .leaf (.num n), h =>
        have h : Serial.Value.atom (.int n) = .atom (.int 3) := h
        cases h
        rfl
  · have : (Demo.put account r0 "/" d).1 = r0 := Resource.C30_put hset _ _ Demo.to_root d hs
    rw [this]
    rfl

/-- The validator of a field is not asked at the path of the field: `put` there leaves a
resource whose own document `put` then refuses. -/
theorem C100_validator_violated : (Demo.Γ.field 0 0).validators = [.range 0 99] ∧
    (∀ d n vs, Serial.deser J E (serTy Demo.Γ account) (view Demo.Γ account r0.value) d =
      .ok (.record (.atom (.int n) :: vs)) → 0 ≤ n ∧ n ≤ 99) ∧
    (Demo.put account r0 "/age" (jint 100)).2 = .resp .ok [] ∧
    ∃ d, Demo.get account (Demo.put account r0 "/age" (jint 100)).1 "/" = .resp .ok (Demo.print d) ∧
      (Demo.put account (Demo.put account r0 "/age" (jint 100)).1 "/" d).2 = .resp .badRequest [] := by
  refine ⟨rfl, fun d n vs h => ?_, by decide +kernel,
    obj [("age", jint 100), ("version", jint 3), ("x", jint 5),
      ("users", .arr [obj [("name", jstr "ann"), ("mail", jstr "a@b")], obj [("name", jstr "bob"), ("mail", jstr "b@c")]]),
      ("limits", obj [("high", jint 9), ("low", jint 1)])], by decide +kernel, by decide +kernel⟩
  have := Serial.C47_legit Demo.lawful (by decide +kernel) (by decide +kernel) h
  simp only [account, serTy, serFields, view, viewFields, r0, Legit, LegitFields] at this
  rcases this.2.2.2.1 rfl with h | ⟨h, -⟩ | ⟨h, -⟩
  · cases h
  · cases h
  · simpa [MeetsAll, Demo.Γ, Meets, AtLeast, AtMost] using h

end

end Verif.Rest
