import Verif.Rest.Demo
/-
Properties C94-C96: resources whose bodies are documents.
-/
namespace Verif.Rest
open Verif.Path Verif.Path.Spec Verif.Serial.Spec Verif.Rest.Spec
open Verif.Resource (Tracked PathTo Request)
open Verif.Resource.Spec (LeadsTo Resolves Step Changed Success Protected)

section
variable {σ : Type} {Γ : Table} {B : Serial.Backend σ} {E : Serial.Env} {U : User}
variable {T : Resource.Ty} {r : Resource.Resource} {hist : List Tracker.Spec.Note}

/-! ### C94 The object stays of its type -/

/-- C94: no request, whatever its document, makes the object leave its type (integers in
range, maps sorted, ranges of one type) or takes a step that C++ could not take.  Nothing is
assumed of the serialization of the types of the resource. -/
theorem C94_request (hB : Lawful B) (h : Service Γ T r hist) (q : Request (Serial.Doc σ)) (p : List Seg)
    (hp : q.At p) : (Resource.serve (env Γ B E U) T r q).2 ≠ .stuck ∧
      ∃ notes, Service Γ T (Resource.serve (env Γ B E U) T r q).1 (hist ++ notes) := h.serve hB q p hp

/-- C94: nor does any sequence of requests. -/
theorem C94_any_sequence (hB : Lawful B) (h : Service Γ T r hist) (qs : List (Request (Serial.Doc σ)))
    (hq : ∀ q ∈ qs, ∃ p, q.At p) : (∀ o ∈ (Resource.serveAll (env Γ B E U) T r qs).2, o ≠ .stuck) ∧
      ∃ notes, Service Γ T (Resource.serveAll (env Γ B E U) T r qs).1 (hist ++ notes) := h.serveAll hB qs hq

/-- C94: `get` answers 404 if the path names no node, 200 with the document of the node if
it can be written, and lets a `logic_error` escape otherwise. -/
theorem C94_get (hB : Lawful B) (h : Service Γ T r hist) (w : View) (p : List Seg) (hp : PathTo w p) (s : Bool)
    (print : Serial.Doc σ → Str) :
    (¬ Resolves (env Γ B E U) T r.value p →
      Resource.get (env Γ B E U) T (dumper Γ B U s print) r w = .resp .notFound []) ∧
    ∀ steps t u, LeadsTo (env Γ B E U) T r.value p steps t u → holds Γ t u = true ∧
      (Writable s (serTy Γ t) (Rest.view Γ t u) → ∃ d, Serial.ser B s (serTy Γ t) (Rest.view Γ t u) = .ok d ∧
        Resource.get (env Γ B E U) T (dumper Γ B U s print) r w = .resp .ok (print d)) ∧
      (¬ Writable s (serTy Γ t) (Rest.view Γ t u) →
        Resource.get (env Γ B E U) T (dumper Γ B U s print) r w = .thrown (.other 1)) := by
  have hs := h.setup hB (E := E) (U := U)
  refine ⟨fun hn => Resource.get_missing hs.wt hp hn _, fun steps t u hl => ?_⟩
  have hh := h.at hl
  obtain ⟨g1, g2, g3⟩ := holds_iff.1 hh
  rw [Resource.get_leads hs.wt hp hl]
  refine ⟨hh, fun hw => ?_, fun hw => ?_⟩
  · rcases Serial.C75_serialize hB g1 g3 (s := s) with ⟨-, d, hd⟩ | ⟨hn, -⟩
    · exact ⟨d, hd, by simp only [dumper, hd]; rfl⟩
    · exact absurd hw hn
  · rcases Serial.C75_serialize hB g1 g3 (s := s) with ⟨hn, -⟩ | ⟨-, e, he⟩
    · exact absurd hn hw
    · simp only [dumper, he]; rfl

end

example : Service Demo.Γ Demo.account Demo.r0 [] := Demo.r0_service
example : (Demo.put Demo.account Demo.r0 "/limits/low" (Serial.Sample.jint 200)).2 = .resp .badRequest [] ∧
    (Demo.put Demo.account Demo.r0 "/limits/low" (Serial.Sample.jint 100)).2 = .resp .ok [] := by decide +kernel

section
variable {σ : Type} {Γ : Table} {B : Serial.Backend σ} {E : Serial.Env} {U : User}
variable {T : Resource.Ty} {r : Resource.Resource} {hist : List Tracker.Spec.Note}

/-! ### C95 Put, then get -/

/-- C95: after a successful `put` the node is what its document reads to over the old value,
and `get` answers with the document of that. -/
theorem C95_put_get (hB : Lawful B) (hk : Resource.Spec.Lawful (env Γ B E U)) (h : Service Γ T r hist) (w : View)
    (p : List Seg) (hp : PathTo w p) (d : Serial.Doc σ) (hs : Success (Resource.put (env Γ B E U) T r w d).2) :
    ∃ steps t old new, LeadsTo (env Γ B E U) T r.value p steps t old ∧ holds Γ t new = true ∧
      Serial.deser B E (serTy Γ t) (view Γ t old) d = .ok (view Γ t new) ∧
      (∃ steps', LeadsTo (env Γ B E U) T (Resource.put (env Γ B E U) T r w d).1.value p steps' t new) ∧
      ∀ s print, Writable s (serTy Γ t) (view Γ t new) → ∃ d', Serial.ser B s (serTy Γ t) (view Γ t new) = .ok d' ∧
        Resource.get (env Γ B E U) T (dumper Γ B U s print) (Resource.put (env Γ B E U) T r w d).1 w =
          .resp .ok (print d') := by
  obtain ⟨st, t, old, new, h1, h2, h3, h4⟩ := Resource.C36_put_get hk (h.setup hB) w p hp d hs
  obtain ⟨g1, g2⟩ := deser_holds hB h2
  refine ⟨st, t, old, new, h1, g1, g2, h3, fun s print hw => ?_⟩
  obtain ⟨k1, k2, k3⟩ := holds_iff.1 g1
  rcases Serial.C75_serialize hB k1 k3 (s := s) with ⟨-, d', hd⟩ | ⟨hn, -⟩
  · exact ⟨d', hd, h4 _ _ (by simp only [dumper, hd])⟩
  · exact absurd hw hn

/-- C95: `patch` likewise. -/
theorem C95_patch_get (hB : Lawful B) (hk : Resource.Spec.Lawful (env Γ B E U)) (h : Service Γ T r hist) (w : View)
    (p : List Seg) (hp : PathTo w p) (d : Serial.Doc σ) (hs : Success (Resource.patch (env Γ B E U) T r w d).2) :
    ∃ steps t old new, LeadsTo (env Γ B E U) T r.value p steps t old ∧ holds Γ t new = true ∧
      Serial.patch B E (serTy Γ t) (view Γ t old) d = .ok (view Γ t new) ∧
      (∃ steps', LeadsTo (env Γ B E U) T (Resource.patch (env Γ B E U) T r w d).1.value p steps' t new) ∧
      ∀ s print, Writable s (serTy Γ t) (view Γ t new) → ∃ d', Serial.ser B s (serTy Γ t) (view Γ t new) = .ok d' ∧
        Resource.get (env Γ B E U) T (dumper Γ B U s print) (Resource.patch (env Γ B E U) T r w d).1 w =
          .resp .ok (print d') := by
  obtain ⟨st, t, old, new, h1, h2, h3, h4⟩ := Resource.C36_patch_get hk (h.setup hB) w p hp d hs
  obtain ⟨g1, g2⟩ := patch_holds hB h2
  refine ⟨st, t, old, new, h1, g1, g2, h3, fun s print hw => ?_⟩
  obtain ⟨k1, k2, k3⟩ := holds_iff.1 g1
  rcases Serial.C75_serialize hB k1 k3 (s := s) with ⟨-, d', hd⟩ | ⟨hn, -⟩
  · exact ⟨d', hd, h4 _ _ (by simp only [dumper, hd])⟩
  · exact absurd hw hn

theorem view_inj {t : Resource.Ty} {v w : Resource.Value} (hv : holds Γ t v = true) (hw : holds Γ t w = true)
    (h : view Γ t v = view Γ t w) : v = w := by
  obtain ⟨_, h1, h2⟩ := holds_iff.1 hv
  obtain ⟨_, _, h4⟩ := holds_iff.1 hw
  rw [← back_view Γ t h1 v h2, ← back_view Γ t h1 w h4, h]

theorem lift_view {thrown : Nat → Resource.Exc} {t : Resource.Ty} {u v : Resource.Value}
    {f : Serial.Value → Serial.Res Serial.Value} (hu : holds Γ t u = true) (hv : holds Γ t v = true)
    (h : f (view Γ t u) = .ok (view Γ t v)) : lift Γ thrown t u f = .ok v := by
  refine lift_ok.2 ⟨hu, _, h, ?_⟩
  obtain ⟨_, h1, h2⟩ := holds_iff.1 hv
  exact (back_view Γ t h1 v h2).symm

theorem env_deser {t : Resource.Ty} {u v : Resource.Value} {d : Serial.Doc σ} (hu : holds Γ t u = true)
    (hv : holds Γ t v = true) (h : Serial.deser B E (serTy Γ t) (view Γ t u) d = .ok (view Γ t v)) :
    (env Γ B E U).deser t u d = .ok v := by
  simp only [env]
  exact lift_view hu hv h

theorem env_patch {t : Resource.Ty} {u v : Resource.Value} {d : Serial.Doc σ} (hu : holds Γ t u = true)
    (hv : holds Γ t v = true) (h : Serial.patch B E (serTy Γ t) (view Γ t u) d = .ok (view Γ t v)) :
    (env Γ B E U).patch t u d = .ok v := by
  simp only [env]
  exact lift_view hu hv h

/-- C95: a successful `put` of the document of a value that survives writing and reading
leaves exactly that value, and `get` answers with exactly that document. -/
theorem C95_echo (hB : Lawful B) (hk : Resource.Spec.Lawful (env Γ B E U)) (h : Service Γ T r hist) (w : View)
    (p : List Seg) (hp : PathTo w p) {steps : List Step} {t : Resource.Ty} {old v : Resource.Value}
    (hl : LeadsTo (env Γ B E U) T r.value p steps t old) (hv : holds Γ t v = true) {s : Bool}
    (hkeep : Keeps E s (serTy Γ t) (view Γ t old) (view Γ t v)) {d : Serial.Doc σ}
    (hd : Serial.ser B s (serTy Γ t) (view Γ t v) = .ok d) (print : Serial.Doc σ → Str)
    (hs : Success (Resource.put (env Γ B E U) T r w d).2) :
    (∃ steps', LeadsTo (env Γ B E U) T (Resource.put (env Γ B E U) T r w d).1.value p steps' t v) ∧
    Resource.get (env Γ B E U) T (dumper Γ B U s print) (Resource.put (env Γ B E U) T r w d).1 w =
      .resp .ok (print d) := by
  obtain ⟨st, t', old', new, h1, h2, h3, h4⟩ := Resource.C36_put_get hk (h.setup hB) w p hp d hs
  obtain ⟨rfl, rfl, rfl⟩ := Resource.steps_unique h1 (h.setup hB (E := E) (U := U)).wt.ty hl
  obtain ⟨g1, g2⟩ := deser_holds hB h2
  obtain ⟨k1, _, k3⟩ := holds_iff.1 hv
  obtain ⟨_, _, k4⟩ := holds_iff.1 (h.at hl)
  rw [Serial.C41_kept hB k1 k4 k3 hkeep hd, Except.ok.injEq] at g2
  have := view_inj hv g1 g2
  subst this
  exact ⟨h3, h4 _ _ (by simp only [dumper, hd])⟩

theorem changed_refl {old new : Resource.Value} {a : List Nat} {v v' : Resource.Value}
    (h : Changed old new a v v') : Changed old old a v v := by
  induction h with
  | here => exact .here
  | kid hk _ ih => exact .kid (by cases hk <;> constructor) ih

theorem keyOf_fun {k : Nat} {v a b : Resource.Value} (h1 : Resource.Spec.KeyOf k v a)
    (h2 : Resource.Spec.KeyOf k v b) : a = b := by
  obtain ⟨vs, rfl, g1⟩ := h1
  obtain ⟨_, e, g2⟩ := h2
  cases e
  rw [g1] at g2
  exact Option.some.inj g2

/-- A body that reads to the value of the node: the request succeeds and changes nothing. -/
theorem put_same {f : Resource.Ty → Resource.Value → Serial.Doc σ → Except Resource.Exc Resource.Value}
    (hw : Resource.WT T r.value) (hvalid : Resource.Spec.Valid (env Γ B E U) T r.value) {p : List Seg}
    {steps : List Step} {t : Resource.Ty} {u : Resource.Value}
    (hl : LeadsTo (env Γ B E U) T r.value p steps t u) (hfree : ¬ Protected steps) {d : Serial.Doc σ}
    (hsame : Resource.Spec.SameKey (env Γ B E U) steps u u) (hf : f t u d = .ok u) {r' : Resource.Resource}
    {o : Resource.Outcome} (hrow : Resource.PutRow (env Γ B E U) f T r hist p d r' o) :
    o = .resp .ok [] ∧ r'.value = r.value := by
  cases hrow with
  | missing hn => exact absurd ⟨_, _, _, hl⟩ hn
  | readOnly l hr =>
    obtain ⟨rfl, rfl, rfl⟩ := Resource.steps_unique l hw.ty hl
    exact absurd hr hfree
  | rejected l hr he =>
    obtain ⟨rfl, rfl, rfl⟩ := Resource.steps_unique l hw.ty hl
    rw [hf] at he; cases he
  | identity l hr he hk =>
    obtain ⟨rfl, rfl, rfl⟩ := Resource.steps_unique l hw.ty hl
    rw [hf] at he; cases he
    exact absurd hsame hk
  | invalid l hr he hk hc _ hv hverr =>
    obtain ⟨rfl, rfl, rfl⟩ := Resource.steps_unique l hw.ty hl
    rw [hf] at he; cases he
    rw [Resource.changed_unique hc (changed_refl hc)] at hv
    exact absurd hvalid hv
  | done l hr he hk hc _ hv _ =>
    obtain ⟨rfl, rfl, rfl⟩ := Resource.steps_unique l hw.ty hl
    rw [hf] at he; cases he
    exact ⟨rfl, Resource.changed_unique hc (changed_refl hc)⟩

/-- C95: a `put` of the document that `get` has just answered with succeeds and changes
nothing, if the resource is valid, the node writable and survives writing and reading. -/
theorem C95_get_put (hB : Lawful B) (hkey : ∀ a, U.keyEq a a = true) (h : Service Γ T r hist)
    (hvalid : Resource.Spec.Valid (env Γ B E U) T r.value) (w : View) (p : List Seg) (hp : PathTo w p)
    {steps : List Step} {t : Resource.Ty} {u : Resource.Value}
    (hl : LeadsTo (env Γ B E U) T r.value p steps t u) (hfree : ¬ Protected steps) {s : Bool}
    (hkeep : Keeps E s (serTy Γ t) (view Γ t u) (view Γ t u)) {d : Serial.Doc σ}
    (hd : Serial.ser B s (serTy Γ t) (view Γ t u) = .ok d) :
    (Resource.put (env Γ B E U) T r w d).2 = .resp .ok [] ∧
    (Resource.put (env Γ B E U) T r w d).1.value = r.value := by
  have hs := h.setup hB (E := E) (U := U)
  obtain ⟨k1, _, k3⟩ := holds_iff.1 (h.at hl)
  refine put_same hs.wt hvalid hl hfree (fun key i _ a b ha hb => ?_) (f := (env Γ B E U).deser) ?_ (hs.put hp d)
  · rw [keyOf_fun ha hb]; exact hkey b
  · exact env_deser (h.at hl) (h.at hl) (Serial.C41_kept hB k1 k3 k3 hkeep hd)

/-- What a request that succeeded did: repeated, it succeeds and changes nothing. -/
theorem put_twice {f : Resource.Ty → Resource.Value → Serial.Doc σ → Except Resource.Exc Resource.Value}
    (hk : Resource.Spec.Lawful (env Γ B E U)) (ho : Resource.Spec.oneKey T = true)
    (hw : Resource.WT T r.value) {r' : Resource.Resource} {p : List Seg} {steps : List Step} {t : Resource.Ty}
    {old new : Resource.Value} {sub : Bool}
    (he : Resource.Edit (env Γ B E U) T r r' hist p steps t old new sub) {d : Serial.Doc σ}
    (hf : f t new d = .ok new) {hist' : List Tracker.Spec.Note} {r'' : Resource.Resource} {o : Resource.Outcome}
    (hrow : Resource.PutRow (env Γ B E U) f T r' hist' p d r'' o) :
    o = .resp .ok [] ∧ r''.value = r'.value := by
  obtain ⟨st, l, -, h3⟩ := he.new hk hw
  have h3 := h3 ho
  subst h3
  refine put_same he.typed he.valid l he.free (fun key i hlast a b ha hb => ?_) hf hrow
  obtain ⟨k0, hk0⟩ := Resource.child_keyOf he.leads hlast
  have h1 := he.same key i hlast k0 b hk0 hb
  have h2 := he.same key i hlast k0 a hk0 ha
  rw [← hk.eq _ _ h2]
  exact h1

/-- C95: `put` is idempotent: repeating a successful one succeeds and changes nothing more. -/
theorem C95_put_twice (hB : Lawful B) (hk : Resource.Spec.Lawful (env Γ B E U)) (ho : Resource.Spec.oneKey T = true)
    (h : Service Γ T r hist) (w : View) (p : List Seg) (hp : PathTo w p) (d : Serial.Doc σ)
    (hs : Success (Resource.put (env Γ B E U) T r w d).2) :
    (Resource.put (env Γ B E U) T (Resource.put (env Γ B E U) T r w d).1 w d).2 = .resp .ok [] ∧
    (Resource.put (env Γ B E U) T (Resource.put (env Γ B E U) T r w d).1 w d).1.value =
      (Resource.put (env Γ B E U) T r w d).1.value := by
  have hset := h.setup hB (E := E) (U := U)
  obtain ⟨st, t, old, new, he, hf, _⟩ := Resource.put_edit hset.typed.deser hset.wt (hset.put hp d) hs
  obtain ⟨g1, g2⟩ := deser_holds hB hf
  exact put_twice hk ho hset.wt he (f := (env Γ B E U).deser)
    (env_deser g1 g1 (Serial.C77_again (holds_iff.1 g1).1 g2)) ((he.setup hset).put hp d)

/-- C95: so is `patch` with a document that names nothing twice. -/
theorem C95_patch_twice (hB : Lawful B) (hk : Resource.Spec.Lawful (env Γ B E U)) (ho : Resource.Spec.oneKey T = true)
    (h : Service Γ T r hist) (w : View) (p : List Seg) (hp : PathTo w p) (d : Serial.Doc σ)
    (hd : uniqueNames d = true) (hs : Success (Resource.patch (env Γ B E U) T r w d).2) :
    (Resource.patch (env Γ B E U) T (Resource.patch (env Γ B E U) T r w d).1 w d).2 = .resp .ok [] ∧
    (Resource.patch (env Γ B E U) T (Resource.patch (env Γ B E U) T r w d).1 w d).1.value =
      (Resource.patch (env Γ B E U) T r w d).1.value := by
  have hset := h.setup hB (E := E) (U := U)
  obtain ⟨st, t, old, new, he, hf, _⟩ := Resource.put_edit hset.typed.patch hset.wt (hset.patch hp d) hs
  obtain ⟨g1, g2⟩ := patch_holds hB hf
  exact put_twice hk ho hset.wt he (f := (env Γ B E U).patch)
    (env_patch g1 g1 (Serial.C45_twice hB (holds_iff.1 g1).1 (holds_iff.1 (h.at he.leads)).2.2 hd g2))
    ((he.setup hset).patch hp d)

end

/- The hypotheses of the theorems above are met by the user bob. -/
example : Demo.get Demo.account (Demo.put Demo.account Demo.r0 "/users/bob"
    (Serial.Sample.obj [("name", Serial.Sample.jstr "bob"), ("mail", Serial.Sample.jstr "x")])).1 "/users/bob" =
    .resp .ok (Serial.txt "{name:'bob',mail:'x'}") :=
  (C95_echo Demo.lawful Demo.plain.toLawful Demo.r0_service _ _ Demo.to_bob Demo.leads_bob
    (v := .record [Demo.text "bob", Demo.text "x"]) (by decide +kernel) (s := true)
    (by simp [Keeps, KeepsFields, serTy, serFields, view, viewFields, Demo.user, Demo.Γ, allNames, plain, omitted,
          Serial.isNullValue, MeetsAll, Demo.text, leafIn, Serial.Field.key, Serial.txt])
    rfl Demo.print (Demo.success (by decide +kernel))).2

example : Resource.Spec.oneKey Demo.account = true ∧
    (Demo.patch Demo.account Demo.r0 "/" (Serial.Sample.obj [("age", Serial.Sample.jint 31)])).2 = .resp .ok [] := by
  decide +kernel

/-- C95 does not hold for children with two keys: a `put` to one key can make the path lead
to the other, and the same request then answers 405. -/
theorem C95_two_keys_violated :
    (Demo.put Demo.twoKeys Demo.r2 "/users/ann/name" (Serial.Sample.jstr "ann")).2 = .resp .ok [] ∧
    (Demo.put Demo.twoKeys (Demo.put Demo.twoKeys Demo.r2 "/users/ann/name" (Serial.Sample.jstr "ann")).1
      "/users/ann/name" (Serial.Sample.jstr "ann")).2 = .resp .methodNotAllowed [] := by decide +kernel

section
variable {σ : Type} {Γ : Table} {B : Serial.Backend σ} {E : Serial.Env} {U : User}
variable {T : Resource.Ty} {r : Resource.Resource} {hist : List Tracker.Spec.Note}

/-! ### C96 Documents of nodes are parts of documents of nodes above -/

/-- C96: if `get` at `p` answers with a document, `get` at a path below answers with the part
of that document the rest of the path names, as long as nothing on the way is flattened,
kept with extra fields or left out. -/
theorem C96_part (hB : Lawful B) (h : Service Γ T r hist) (w w' : View) (p q : List Seg) (hp : PathTo w p)
    (hq : PathTo w' (p ++ q)) {st st2 : List Step} {t t2 : Resource.Ty} {u u2 : Resource.Value}
    (hl : LeadsTo (env Γ B E U) T r.value p st t u)
    (hl2 : LeadsTo (env Γ B E U) T r.value (p ++ q) (st ++ st2) t2 u2) {s : Bool}
    (hshow : Shown Γ s t u st2) (print : Serial.Doc σ → Str) {d : Serial.Doc σ}
    (hd : Serial.ser B s (serTy Γ t) (view Γ t u) = .ok d) :
    ∃ d', Part q st2 d d' ∧
      Resource.get (env Γ B E U) T (dumper Γ B U s print) r w = .resp .ok (print d) ∧
      Resource.get (env Γ B E U) T (dumper Γ B U s print) r w' = .resp .ok (print d') := by
  have hset := h.setup hB (E := E) (U := U)
  obtain ⟨st1, st3, t1, v1, e, l1, l2⟩ := Resource.leads_split hl2 rfl
  obtain ⟨rfl, rfl, rfl⟩ := Resource.steps_unique l1 hset.wt.ty hl
  have e := List.append_cancel_left e
  subst e
  obtain ⟨d', hpart, hd'⟩ := leads_part hB l2 (h.at hl) hshow hd
  refine ⟨d', hpart, ?_, ?_⟩
  · rw [Resource.get_leads hset.wt hp hl]; simp only [dumper, hd]; rfl
  · rw [Resource.get_leads hset.wt hq hl2]; simp only [dumper, hd']; rfl

end

example : ∃ d', Part [Serial.txt "low"] [.entry 1]
      (Serial.Sample.obj [("high", Serial.Sample.jint 9), ("low", Serial.Sample.jint 1)]) d' ∧
    Demo.get Demo.account Demo.r0 "/limits" = .resp .ok (Serial.txt "{high:9,low:1}") ∧
    Demo.get Demo.account Demo.r0 "/limits/low" = .resp .ok (Demo.print d') :=
  C96_part Demo.lawful Demo.r0_service _ _ _ _ Demo.to_limits Demo.to_low Demo.leads_limits Demo.leads_low
    (s := true) (.entry rfl rfl .here) Demo.print rfl

/-- C96 does not hold for what is flattened: the document of the struct around has the
members of the flattened struct, but `get` does not find them there; and `get` finds the
flattened struct, which is no member. -/
theorem C96_flattened_violated : Demo.get Demo.account Demo.r0 "/" = .resp .ok (Serial.txt
      "{age:30,version:3,x:5,users:[{name:'ann',mail:'a@b'},{name:'bob',mail:'b@c'}],limits:{high:9,low:1}}") ∧
    Demo.get Demo.account Demo.r0 "/x" = .resp .notFound [] ∧
    Demo.get Demo.account Demo.r0 "/at" = .resp .ok (Serial.txt "{x:5}") := by decide +kernel

end Verif.Rest
