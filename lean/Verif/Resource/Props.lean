import Verif.Resource.Effects
import Verif.Resource.Demo
/-
Properties C30-C40 and C70-C73 of the resource verbs.
-/
namespace Verif.Resource
open Verif.Path Verif.Path.Spec Verif.Tracker Verif.Tracker.Spec Verif.Resource.Spec

/-- What C++ guarantees about a resource of type `T`: the type compiles, user functions and
the value respect types, and the tracker got the notifications `hist` since construction. -/
structure Setup {β : Type} (E : Env β) (T : Ty) (r : Resource) (hist : List Note) : Prop where
  typed : Typed E
  wt : WT T r.value
  told : Tracked r.tracker hist

theorem Demo.setup : Setup Demo.env Demo.T Demo.r0 [] := ⟨Demo.env_typed, Demo.wt, Demo.tracked⟩

section
variable {β : Type} {E : Env β} {T : Ty} {r : Resource} {hist : List Note}

theorem Setup.put (h : Setup E T r hist) {w : View} {loc : List Seg} (hp : PathTo w loc) (b : β) :
    PutRow E E.deser T r hist loc b (put E T r w b).1 (put E T r w b).2 :=
  put_row E E.deser h.typed.deser h.wt h.told hp b

theorem Setup.patch (h : Setup E T r hist) {w : View} {loc : List Seg} (hp : PathTo w loc) (b : β) :
    PutRow E E.patch T r hist loc b (patch E T r w b).1 (patch E T r w b).2 :=
  put_row E E.patch h.typed.patch h.wt h.told hp b

theorem Setup.post (h : Setup E T r hist) {w : View} {loc : List Seg} (hp : PathTo w loc) (b : β) :
    PostRow E T r hist loc b (post E T r w b).1 (post E T r w b).2 :=
  post_row E h.typed h.wt h.told hp b

theorem Setup.del (h : Setup E T r hist) {w : View} {loc : List Seg} (hp : PathTo w loc) :
    DelRow E T r hist loc (del E T r w).1 (del E T r w).2 :=
  del_row E h.wt h.told hp

theorem deep_or_shallow (t : Ty) : addressableDescendants t = true ∨ shallow t = true := by
  match t with
  | .leaf _ => exact .inr rfl
  | .record _ _ => exact .inl rfl
  | .map _ _ => exact .inl rfl
  | .seq _ _ => exact .inl rfl
  | .opt t =>
    rcases deep_or_shallow t with h | h
    · exact .inl (by simpa [addressableDescendants] using h)
    · exact .inr (by simpa [shallow] using h)

theorem emptyable_or {t : Ty} (h : emptyable t = true) : isReflectable t = true ∨ shallow (.opt t) = true := by
  cases t with
  | record _ _ => exact .inl rfl
  | _ => exact .inr (by simpa [emptyable, shallow] using h)

/-! ### C30 Failed operations change nothing -/

/-- C30: a `put` that does not answer 2xx (or throws) leaves value and tracker as they were. -/
theorem C30_put (h : Setup E T r hist) (w : View) (loc : List Seg) (hp : PathTo w loc) (b : β)
    (hf : ¬ Success (put E T r w b).2) : (put E T r w b).1 = r := by
  have hr := h.put hp b
  generalize put E T r w b = res at *
  obtain ⟨r', o⟩ := res
  cases hr with
  | done => exact absurd trivial hf
  | _ => rfl

/-- C30 for `patch`. -/
theorem C30_patch (h : Setup E T r hist) (w : View) (loc : List Seg) (hp : PathTo w loc) (b : β)
    (hf : ¬ Success (patch E T r w b).2) : (patch E T r w b).1 = r := by
  have hr := h.patch hp b
  generalize patch E T r w b = res at *
  obtain ⟨r', o⟩ := res
  cases hr with
  | done => exact absurd trivial hf
  | _ => rfl

/-- C30 for `post`. -/
theorem C30_post (h : Setup E T r hist) (w : View) (loc : List Seg) (hp : PathTo w loc) (b : β)
    (hf : ¬ Success (post E T r w b).2) : (post E T r w b).1 = r := by
  have hr := h.post hp b
  generalize post E T r w b = res at *
  obtain ⟨r', o⟩ := res
  cases hr with
  | done => exact absurd trivial hf
  | _ => rfl

/-- C30 for `del`. -/
theorem C30_del (h : Setup E T r hist) (w : View) (loc : List Seg) (hp : PathTo w loc)
    (hf : ¬ Success (del E T r w).2) : (del E T r w).1 = r := by
  have hr := h.del hp
  generalize del E T r w = res at *
  obtain ⟨r', o⟩ := res
  cases hr with
  | childDone => exact absurd trivial hf
  | done => exact absurd trivial hf
  | _ => rfl

end

-- an invalid value deep in the tree: 409
example : (put Demo.env Demo.T Demo.r0 (Demo.view "/tags/1") (Demo.num 100)).2 =
    .resp .conflict (str "too big") := by decide +kernel
example : (post Demo.env Demo.T Demo.r0 (Demo.view "/users") (.record [Demo.text "bob", Demo.num 1])).2 =
    .resp .conflict duplicateText := by decide +kernel
example : (del Demo.env Demo.T Demo.r0 (Demo.view "/frozen/a")).2 = .resp .methodNotAllowed [] := by
  decide +kernel

section
variable {β : Type} {E : Env β} {T : Ty} {r : Resource} {hist : List Note}

/-! ### C31 Successful operations leave a valid resource -/

/-- C31: after a 2xx answer every validator in the tree accepts the new value and keyed
children have different keys (whether or not the resource was valid before). -/
theorem C31_put (h : Setup E T r hist) (w : View) (loc : List Seg) (hp : PathTo w loc) (b : β)
    (hs : Success (put E T r w b).2) : Spec.Valid E T (put E T r w b).1.value := by
  obtain ⟨_, _, _, _, he, _⟩ := put_edit h.typed.deser h.wt (h.put hp b) hs
  exact he.valid

theorem C31_patch (h : Setup E T r hist) (w : View) (loc : List Seg) (hp : PathTo w loc) (b : β)
    (hs : Success (patch E T r w b).2) : Spec.Valid E T (patch E T r w b).1.value := by
  obtain ⟨_, _, _, _, he, _⟩ := put_edit h.typed.patch h.wt (h.patch hp b) hs
  exact he.valid

theorem C31_post (h : Setup E T r hist) (w : View) (loc : List Seg) (hp : PathTo w loc) (b : β)
    (hs : Success (post E T r w b).2) : Spec.Valid E T (post E T r w b).1.value := by
  obtain ⟨_, _, _, _, _, he, _⟩ := post_edit h.typed h.wt (h.post hp b) hs
  exact he.valid

theorem C31_del (h : Setup E T r hist) (w : View) (loc : List Seg) (hp : PathTo w loc)
    (hs : Success (del E T r w).2) : Spec.Valid E T (del E T r w).1.value := by
  rcases (del_edit h.wt (h.del hp) hs).2 with ⟨_, _, _, _, _, _, _, _, _, _, _, _, _, he⟩ | ⟨_, _, _, _, he⟩
  · exact he.valid
  · exact he.valid

end

example : (put Demo.env Demo.T Demo.r0 (Demo.view "/limit/high") (Demo.num 9)).2 = .resp .ok [] := by
  decide +kernel
example : (post Demo.env Demo.T Demo.r0 (Demo.view "/users") (.record [Demo.text "eve", Demo.num 1])).2 =
    .resp .created [] := by decide +kernel
example : (del Demo.env Demo.T Demo.r0 (Demo.view "/users/ann")).2 = .resp .noContent [] := by
  decide +kernel
/-- Validity says something about the demo resource: two users called ann are not valid. -/
example : ¬ Spec.Valid Demo.env Demo.T (.record
    [.seq [.record [Demo.text "ann", Demo.num 1], .record [Demo.text "ann", Demo.num 2]], .seq [], .opt none,
     Demo.num 3, .map [], .opt none]) := by
  intro h
  have := (h _ _ _ (.field (i := 0) (a := { name := str "users", childKeys := [0] }) rfl rfl .here)).2 0 (by simp) _ rfl 0 1 _ _
    (Demo.text "ann") (Demo.text "ann") (by decide) rfl rfl ⟨_, rfl, rfl⟩ ⟨_, rfl, rfl⟩
  revert this
  decide +kernel

section
variable {β : Type} {E : Env β} {T : Ty} {r : Resource} {hist : List Note}

/-! ### C32 Change tracking is complete -/

/-- C32: if `get` at `q` answers differently after a `put`, then `changed_since(q, g)` is true
for every generation `g` observed before.

Assumes canonical indices, keys that match one segment, one `child_key` per field; without
any of these it is false (`C32_index_violated`, `C32_two_segments_violated`,
`C32_two_keys_violated`). -/
theorem C32_put_partial (hE : Plain E) (ho : oneKey T = true) (h : Setup E T r hist) (w : View)
    (p : List Seg) (hp : PathTo w p) (b : β) (wq : View) (q : List Seg) (hq : PathTo wq q)
    (hcp : ∀ s ∈ p, Canonical s) (hcq : ∀ s ∈ q, Canonical s) (dump : Ty → Value → Except Exc Str)
    (hne : get E T dump (put E T r w b).1 wq ≠ get E T dump r wq) (g : Nat) (hg : g ≤ r.tracker.current) :
    (put E T r w b).1.tracker.changedSince wq g = some true := by
  by_cases hs : Success (put E T r w b).2
  · obtain ⟨st, t, old, new, he, _⟩ := put_edit h.typed.deser h.wt (h.put hp b) hs
    exact he.tracked hE h.wt h.told ho hcp (deep_or_shallow t) hq hcq hne g hg
  · rw [C30_put h w _ hp b hs] at hne
    exact absurd rfl hne

/-- C32 for `patch`. -/
theorem C32_patch_partial (hE : Plain E) (ho : oneKey T = true) (h : Setup E T r hist) (w : View)
    (p : List Seg) (hp : PathTo w p) (b : β) (wq : View) (q : List Seg) (hq : PathTo wq q)
    (hcp : ∀ s ∈ p, Canonical s) (hcq : ∀ s ∈ q, Canonical s) (dump : Ty → Value → Except Exc Str)
    (hne : get E T dump (patch E T r w b).1 wq ≠ get E T dump r wq) (g : Nat) (hg : g ≤ r.tracker.current) :
    (patch E T r w b).1.tracker.changedSince wq g = some true := by
  by_cases hs : Success (patch E T r w b).2
  · obtain ⟨st, t, old, new, he, _⟩ := put_edit h.typed.patch h.wt (h.patch hp b) hs
    exact he.tracked hE h.wt h.told ho hcp (deep_or_shallow t) hq hcq hne g hg
  · rw [C30_patch h w _ hp b hs] at hne
    exact absurd rfl hne

/-- C32 for `post`. -/
theorem C32_post_partial (hE : Plain E) (ho : oneKey T = true) (h : Setup E T r hist) (w : View)
    (p : List Seg) (hp : PathTo w p) (b : β) (wq : View) (q : List Seg) (hq : PathTo wq q)
    (hcp : ∀ s ∈ p, Canonical s) (hcq : ∀ s ∈ q, Canonical s) (dump : Ty → Value → Except Exc Str)
    (hne : get E T dump (post E T r w b).1 wq ≠ get E T dump r wq) (g : Nat) (hg : g ≤ r.tracker.current) :
    (post E T r w b).1.tracker.changedSince wq g = some true := by
  by_cases hs : Success (post E T r w b).2
  · obtain ⟨st, k, t, vs, x, he, _⟩ := post_edit h.typed h.wt (h.post hp b) hs
    exact he.tracked hE h.wt h.told ho hcp (.inl rfl) hq hcq hne g hg
  · rw [C30_post h w _ hp b hs] at hne
    exact absurd rfl hne

/-- C32 for `del`.  If the path names an optional, this must hold a struct or have nothing
addressable below it; otherwise it is false (`C32_optional_violated`). -/
theorem C32_del_partial (hE : Plain E) (ho : oneKey T = true) (h : Setup E T r hist) (w : View)
    (p : List Seg) (hp : PathTo w p) (wq : View) (q : List Seg) (hq : PathTo wq q)
    (hcp : ∀ s ∈ p, Canonical s) (hcq : ∀ s ∈ q, Canonical s)
    (hopt : ∀ steps t u, LeadsTo E T r.value p steps (.opt t) u → emptyable t = true)
    (dump : Ty → Value → Except Exc Str)
    (hne : get E T dump (del E T r w).1 wq ≠ get E T dump r wq) (g : Nat) (hg : g ≤ r.tracker.current) :
    (del E T r w).1.tracker.changedSince wq g = some true := by
  by_cases hs : Success (del E T r w).2
  · rcases (del_edit h.wt (h.del hp) hs).2 with
      ⟨c, s, st, t, u, x, t1, u1, rfl, ht, l1, _, _, he⟩ | ⟨st, t, u, hn, he⟩
    · exact he.tracked hE h.wt h.told ho (fun s hs => hcp s (by simp [hs])) (.inl rfl) hq hcq hne g hg
    · exact he.tracked hE h.wt h.told ho hcp (emptyable_or (hopt _ _ _ he.leads)) hq hcq hne g hg
  · rw [C30_del h w _ hp hs] at hne
    exact absurd rfl hne

/-! ### C33 Read-only is enforced -/

/-- C33: `put` on a protected node answers 405 and changes nothing. -/
theorem C33_put (h : Setup E T r hist) (w : View) (loc : List Seg) (hp : PathTo w loc) (b : β)
    (steps : List Step) (t : Ty) (u : Value) (hl : LeadsTo E T r.value loc steps t u) (hr : Protected steps) :
    put E T r w b = (r, .resp .methodNotAllowed []) := by
  have hrow := h.put hp b
  generalize put E T r w b = res at *
  obtain ⟨r', o⟩ := res
  cases hrow with
  | missing hn => exact absurd ⟨_, _, _, hl⟩ hn
  | readOnly => rfl
  | rejected l hn => obtain ⟨rfl, -⟩ := steps_unique l h.wt.ty hl; exact absurd hr hn
  | identity => rfl
  | invalid l hn => obtain ⟨rfl, -⟩ := steps_unique l h.wt.ty hl; exact absurd hr hn
  | done l hn => obtain ⟨rfl, -⟩ := steps_unique l h.wt.ty hl; exact absurd hr hn

/-- C33 for `patch`. -/
theorem C33_patch (h : Setup E T r hist) (w : View) (loc : List Seg) (hp : PathTo w loc) (b : β)
    (steps : List Step) (t : Ty) (u : Value) (hl : LeadsTo E T r.value loc steps t u) (hr : Protected steps) :
    patch E T r w b = (r, .resp .methodNotAllowed []) := by
  have hrow := h.patch hp b
  generalize patch E T r w b = res at *
  obtain ⟨r', o⟩ := res
  cases hrow with
  | missing hn => exact absurd ⟨_, _, _, hl⟩ hn
  | readOnly => rfl
  | rejected l hn => obtain ⟨rfl, -⟩ := steps_unique l h.wt.ty hl; exact absurd hr hn
  | identity => rfl
  | invalid l hn => obtain ⟨rfl, -⟩ := steps_unique l h.wt.ty hl; exact absurd hr hn
  | done l hn => obtain ⟨rfl, -⟩ := steps_unique l h.wt.ty hl; exact absurd hr hn

/-- C33: `post` to a collection whose children are protected answers 405 and changes
nothing. -/
theorem C33_post (h : Setup E T r hist) (w : View) (loc : List Seg) (hp : PathTo w loc) (b : β)
    (steps : List Step) (t : Ty) (u : Value) (hl : LeadsTo E T r.value loc steps t u)
    (hr : ChildrenProtected steps) : post E T r w b = (r, .resp .methodNotAllowed []) := by
  have hrow := h.post hp b
  generalize post E T r w b = res at *
  obtain ⟨r', o⟩ := res
  cases hrow with
  | missing hn => exact absurd ⟨_, _, _, hl⟩ hn
  | readOnly => rfl
  | notCollection => rfl
  | rejected l hn => obtain ⟨rfl, -⟩ := steps_unique l h.wt.ty hl; exact absurd hr hn
  | duplicate l hn => obtain ⟨rfl, -⟩ := steps_unique l h.wt.ty hl; exact absurd hr hn
  | candidate l hn => obtain ⟨rfl, -⟩ := steps_unique l h.wt.ty hl; exact absurd hr hn
  | invalid l hn => obtain ⟨rfl, -⟩ := steps_unique l h.wt.ty hl; exact absurd hr hn
  | done l hn => obtain ⟨rfl, -⟩ := steps_unique l h.wt.ty hl; exact absurd hr hn

/-- C33: `del` of an element of a collection whose children are protected answers 405 and
changes nothing. -/
theorem C33_del_child (h : Setup E T r hist) (w : View) (c : List Seg) (s : Seg) (hp : PathTo w (c ++ [s]))
    (steps st : List Step) (t t1 : Ty) (u u1 : Value) (hl : LeadsTo E T r.value c steps t u)
    (ht : isCollection t = true) (hl1 : LeadsTo E T r.value (c ++ [s]) st t1 u1)
    (hr : ChildrenProtected steps) : del E T r w = (r, .resp .methodNotAllowed []) := by
  have hrow := h.del hp
  generalize del E T r w = res at *
  obtain ⟨r', o⟩ := res
  have hin : InCollection E T r.value (c ++ [s]) := ⟨c, s, steps, t, u, rfl, hl, ht⟩
  cases hrow with
  | missing hn => exact absurd ⟨_, _, _, hl1⟩ hn
  | noIndex => rfl
  | childReadOnly => rfl
  | notErasable => rfl
  | childInvalid e l _ _ hn =>
    obtain ⟨rfl, -⟩ := List.append_inj' e rfl
    obtain ⟨rfl, -⟩ := steps_unique l h.wt.ty hl; exact absurd hr hn
  | childDone e l _ _ hn =>
    obtain ⟨rfl, -⟩ := List.append_inj' e rfl
    obtain ⟨rfl, -⟩ := steps_unique l h.wt.ty hl; exact absurd hr hn
  | readOnly => rfl
  | notOptional => rfl
  | candidate _ hn => exact absurd hin hn
  | invalid _ hn => exact absurd hin hn
  | done _ hn => exact absurd hin hn

/-- C33: `del` of a protected node answers 405 and changes nothing. -/
theorem C33_del (h : Setup E T r hist) (w : View) (loc : List Seg) (hp : PathTo w loc)
    (steps : List Step) (t : Ty) (u : Value) (hl : LeadsTo E T r.value loc steps t u) (hr : Protected steps) :
    del E T r w = (r, .resp .methodNotAllowed []) := by
  by_cases hin : InCollection E T r.value loc
  · obtain ⟨c, s, st, tc, uc, rfl, lc, ht⟩ := hin
    obtain ⟨x, rfl, hx⟩ := last_step h.wt lc ht hl
    exact C33_del_child h w c s hp st _ tc t uc u lc ht hl (protected_child hx hr)
  · have hrow := h.del hp
    generalize del E T r w = res at *
    obtain ⟨r', o⟩ := res
    cases hrow with
    | missing hn => exact absurd ⟨_, _, _, hl⟩ hn
    | noIndex => rfl
    | childReadOnly => rfl
    | notErasable => rfl
    | childInvalid e l _ ht => exact absurd ⟨_, _, _, _, _, e, l, ht⟩ hin
    | childDone e l _ ht => exact absurd ⟨_, _, _, _, _, e, l, ht⟩ hin
    | readOnly => rfl
    | notOptional => rfl
    | candidate l _ hn => obtain ⟨rfl, -⟩ := steps_unique l h.wt.ty hl; exact absurd hr hn
    | invalid l _ hn => obtain ⟨rfl, -⟩ := steps_unique l h.wt.ty hl; exact absurd hr hn
    | done l _ hn => obtain ⟨rfl, -⟩ := steps_unique l h.wt.ty hl; exact absurd hr hn

end

/-- The key member of a keyed child is protected. -/
example : ∃ steps t u, LeadsTo Demo.env Demo.T Demo.v0 [str "users", str "bob", str "name"] steps t u ∧
    Protected steps := by
  have hsel : Selects Demo.env Demo.user
      [.record [Demo.text "ann", Demo.num 30], .record [Demo.text "bob", Demo.num 40]] (str "bob") [0] 0 1 := by
    refine ⟨[], [], rfl, by simp, ⟨_, _, rfl, ⟨_, rfl, rfl⟩, by decide⟩, ?_⟩
    intro j hj
    obtain rfl : j = 0 := by omega
    rintro ⟨_, _, h1, ⟨_, h2, h3⟩, h4⟩
    cases h1
    cases h2
    cases h3
    revert h4
    decide
  have l1 : Leads Demo.env [0] (.seq Demo.vec Demo.user)
      (.seq [.record [Demo.text "ann", Demo.num 30], .record [Demo.text "bob", Demo.num 40]])
      [str "bob", str "name"] [.child 0 1, .field 0 { name := str "name" }] (.leaf 1) (Demo.text "bob") :=
    .child hsel rfl (.field (i := 0) (a := { name := str "name" }) rfl (by simp) rfl .here)
  exact ⟨_, _, _, .field (i := 0) (a := { name := str "users", childKeys := [0] }) rfl (by simp) rfl l1,
    .inr (.inr ⟨[.field 0 _], 0, 1, _, [], rfl⟩)⟩
/-- So are entries below a `subtree_read_only` field. -/
example : ∃ steps t u, LeadsTo Demo.env Demo.T Demo.v0 [str "frozen", str "a"] steps t u ∧ Protected steps := by
  have l1 : Leads Demo.env [] (.map true (.leaf 0)) (.map [(str "a", Demo.num 1)]) [str "a"] [.entry 0] (.leaf 0)
      (Demo.num 1) := .entry rfl .here
  refine ⟨_, _, _, .field (i := 4) (a := { name := str "frozen", subtreeReadOnly := true }) rfl ?_ rfl l1,
    .inr (.inl ⟨[], 4, _, _, [], rfl, rfl⟩)⟩
  intro j hj b u h
  match j, hj with
  | 0, _ => cases h; decide
  | 1, _ => cases h; decide
  | 2, _ => cases h; decide
  | 3, _ => cases h; decide
example : (put Demo.env Demo.T Demo.r0 (Demo.view "/users/bob/name") (Demo.text "rob")).2 =
    .resp .methodNotAllowed [] := by decide +kernel
example : (post Demo.env Demo.T Demo.r0 (Demo.view "/frozen") (Demo.num 1)).2 = .resp .methodNotAllowed [] := by
  decide +kernel

section
variable {β : Type} {E : Env β} {T : Ty} {r : Resource} {hist : List Note}

/-! ### C34 Child keys are immutable -/

/-- The elements of the two sequences have the same keys `key`. -/
def SameKeys (key : Nat) (vs vs' : List Value) : Prop :=
  vs'.length = vs.length ∧
  ∀ (j : Nat) k, (∃ x, vs[j]? = some x ∧ KeyOf key x k) ↔ ∃ x, vs'[j]? = some x ∧ KeyOf key x k

theorem edit_keys (hE : Lawful E) (hw : WT T r.value) {r' : Resource} {loc : List Seg} {steps : List Step}
    {t : Ty} {old new : Value} {sub : Bool} (he : Edit E T r r' hist loc steps t old new sub)
    {c : List Seg} {s : Seg} {rest : List Seg} (hloc : loc = c ++ s :: rest) {pre post : List Step} {key i : Nat}
    (hst : steps = pre ++ .child key i :: post) {k : SeqKind} {tc : Ty} {vs : List Value}
    (hc : LeadsTo E T r.value c pre (.seq k tc) (.seq vs)) :
    ∃ pre' vs', LeadsTo E T r'.value c pre' (.seq k tc) (.seq vs') ∧ SameKeys key vs vs' := by
  have hkeep := keepsKeys hE hw he.leads he.newTy he.free he.same
  have hleads := he.leads
  have hchg := he.changed
  rw [hst] at hchg hkeep
  rw [hloc] at hleads
  obtain ⟨st1, st2, t1, v1, e, l1, l2⟩ := leads_split hleads rfl
  obtain ⟨rfl, rfl, rfl⟩ := steps_unique l1 hw.ty hc
  rw [hst] at e
  have e := List.append_cancel_left e
  subst e
  rw [List.map_append] at hchg
  obtain ⟨u, u', c1, c2⟩ := changed_eq hchg
  have hu : u = .seq vs := by
    have := (changed_get c1).1
    rw [leads_get hc] at this
    cases this; rfl
  subst hu
  simp only [List.map_cons, Step.pos] at c2
  generalize endKeys [] st1 = ks at l2
  cases l2 with
  | @child _ _ _ _ _ _ _ x _ _ _ _ hsel hx l3 =>
    cases c2 with
    | @kid _ _ _ _ _ y hk c2 =>
      cases hk with
      | @seq pre0 post0 =>
        have := (kid_of hx).symm; subst this
        have hktail : ∀ l : List Step, KeepsKeys (l ++ .child key pre0.length :: post) old new →
            KeepsKeys (.child key pre0.length :: post) old new := by
          intro l
          induction l with
          | nil => exact id
          | cons a l ih => exact fun h => ih h.tail
        have hkept := key_kept l3 (hktail _ hkeep) c2
        have hseq : KeepsKeys st1 (.seq (pre0 ++ x :: post0)) (.seq (pre0 ++ y :: post0)) := by
          refine ⟨?_, ?_⟩
          · rintro ⟨a, key', i', a', b, rfl⟩
            exact hkeep.1 ⟨a, key', i', a', b ++ .child key pre0.length :: post, by simp⟩
          · intro key' i' _ k'
            simp [KeyOf]
        obtain ⟨st', l4, -⟩ := leads_new hE hc hseq c1
        refine ⟨st', _, l4, by simp, ?_⟩
        intro j k'
        by_cases hj : j = pre0.length
        · subst hj
          simp only [same_kid, Option.some.injEq, exists_eq_left']
          exact hkept k'
        · rw [other_kid hj]

theorem same_self (key : Nat) (vs : List Value) : SameKeys key vs vs := ⟨rfl, fun _ _ => Iff.rfl⟩

/-- C34: a `put` whose path passes through a child selected by `key` leaves the sequence of
these keys in that collection as it was, whatever the outcome.

Missing: if the field has several `child_key` attributes, the members named by the others
are not protected (see `C34_other_key_violated`). -/
theorem C34_put_partial (hE : Lawful E) (h : Setup E T r hist) (w : View) (c : List Seg) (s : Seg)
    (rest : List Seg) (hp : PathTo w (c ++ s :: rest)) (b : β) (pre post : List Step) (key i : Nat) (t : Ty)
    (u : Value) (hl : LeadsTo E T r.value (c ++ s :: rest) (pre ++ .child key i :: post) t u)
    (k : SeqKind) (tc : Ty) (vs : List Value) (hc : LeadsTo E T r.value c pre (.seq k tc) (.seq vs)) :
    ∃ pre' vs', LeadsTo E T (put E T r w b).1.value c pre' (.seq k tc) (.seq vs') ∧ SameKeys key vs vs' := by
  by_cases hs : Success (put E T r w b).2
  · obtain ⟨st, t', old, new, he, _⟩ := put_edit h.typed.deser h.wt (h.put hp b) hs
    obtain ⟨rfl, -⟩ := steps_unique he.leads h.wt.ty hl
    exact edit_keys hE h.wt he rfl rfl hc
  · rw [C30_put h w _ hp b hs]
    exact ⟨pre, vs, hc, same_self key vs⟩

/-- C34 for `patch`. -/
theorem C34_patch_partial (hE : Lawful E) (h : Setup E T r hist) (w : View) (c : List Seg) (s : Seg)
    (rest : List Seg) (hp : PathTo w (c ++ s :: rest)) (b : β) (pre post : List Step) (key i : Nat) (t : Ty)
    (u : Value) (hl : LeadsTo E T r.value (c ++ s :: rest) (pre ++ .child key i :: post) t u)
    (k : SeqKind) (tc : Ty) (vs : List Value) (hc : LeadsTo E T r.value c pre (.seq k tc) (.seq vs)) :
    ∃ pre' vs', LeadsTo E T (patch E T r w b).1.value c pre' (.seq k tc) (.seq vs') ∧ SameKeys key vs vs' := by
  by_cases hs : Success (patch E T r w b).2
  · obtain ⟨st, t', old, new, he, _⟩ := put_edit h.typed.patch h.wt (h.patch hp b) hs
    obtain ⟨rfl, -⟩ := steps_unique he.leads h.wt.ty hl
    exact edit_keys hE h.wt he rfl rfl hc
  · rw [C30_patch h w _ hp b hs]
    exact ⟨pre, vs, hc, same_self key vs⟩

/-! ### C35 Frame property -/

/-- C35: after a `put` at `p`, `get` at a path that is neither a prefix nor an extension of
`p` answers as before.

Assumes that a child key matches one segment only and that no field has two `child_key`
attributes; without the latter it is false (`C35_two_keys_violated`).  `Canonical` excludes
alternative spellings of an index. -/
theorem C35_put_partial (hE : Plain E) (ho : oneKey T = true) (h : Setup E T r hist) (w : View)
    (p : List Seg) (hp : PathTo w p) (b : β) (wq : View) (q : List Seg) (hq : PathTo wq q)
    (hcp : ∀ s ∈ p, Canonical s) (hcq : ∀ s ∈ q, Canonical s) (h1 : ¬ p <+: q) (h2 : ¬ q <+: p)
    (dump : Ty → Value → Except Exc Str) :
    get E T dump (put E T r w b).1 wq = get E T dump r wq := by
  by_cases hs : Success (put E T r w b).2
  · obtain ⟨st, t', old, new, he, _⟩ := put_edit h.typed.deser h.wt (h.put hp b) hs
    exact he.other hE h.wt ho hcp hq hcq h1 h2 dump
  · rw [C30_put h w _ hp b hs]

/-- C35 for `patch`. -/
theorem C35_patch_partial (hE : Plain E) (ho : oneKey T = true) (h : Setup E T r hist) (w : View)
    (p : List Seg) (hp : PathTo w p) (b : β) (wq : View) (q : List Seg) (hq : PathTo wq q)
    (hcp : ∀ s ∈ p, Canonical s) (hcq : ∀ s ∈ q, Canonical s) (h1 : ¬ p <+: q) (h2 : ¬ q <+: p)
    (dump : Ty → Value → Except Exc Str) :
    get E T dump (patch E T r w b).1 wq = get E T dump r wq := by
  by_cases hs : Success (patch E T r w b).2
  · obtain ⟨st, t', old, new, he, _⟩ := put_edit h.typed.patch h.wt (h.patch hp b) hs
    exact he.other hE h.wt ho hcp hq hcq h1 h2 dump
  · rw [C30_patch h w _ hp b hs]

/-- C35: more than `get` can see, a `put` replaces the addressed sub-object and nothing else
(no assumption on keys or spellings). -/
theorem C35_put_only_there (h : Setup E T r hist) (w : View) (p : List Seg) (hp : PathTo w p) (b : β)
    (hs : Success (put E T r w b).2) : ∃ steps t old new, LeadsTo E T r.value p steps t old ∧
      E.deser t old b = .ok new ∧
      Changed old new (steps.map Step.pos) r.value (put E T r w b).1.value := by
  obtain ⟨st, t', old, new, he, hf, _⟩ := put_edit h.typed.deser h.wt (h.put hp b) hs
  exact ⟨st, t', old, new, he.leads, hf, he.changed⟩

theorem C35_patch_only_there (h : Setup E T r hist) (w : View) (p : List Seg) (hp : PathTo w p) (b : β)
    (hs : Success (patch E T r w b).2) : ∃ steps t old new, LeadsTo E T r.value p steps t old ∧
      E.patch t old b = .ok new ∧
      Changed old new (steps.map Step.pos) r.value (patch E T r w b).1.value := by
  obtain ⟨st, t', old, new, he, hf, _⟩ := put_edit h.typed.patch h.wt (h.patch hp b) hs
  exact ⟨st, t', old, new, he.leads, hf, he.changed⟩

/-! ### C36 Put then get -/

/-- C36: after a successful `put` at `p`, `get` at `p` answers 200 with the serialisation of
the value obtained by deserialising the body over the old value. -/
theorem C36_put_get (hE : Lawful E) (h : Setup E T r hist) (w : View) (p : List Seg) (hp : PathTo w p) (b : β)
    (hs : Success (put E T r w b).2) : ∃ steps t old new, LeadsTo E T r.value p steps t old ∧
      E.deser t old b = .ok new ∧ (∃ steps', LeadsTo E T (put E T r w b).1.value p steps' t new) ∧
      ∀ (dump : Ty → Value → Except Exc Str) text, dump t new = .ok text →
        get E T dump (put E T r w b).1 w = .resp .ok text := by
  obtain ⟨st, t', old, new, he, hf, _⟩ := put_edit h.typed.deser h.wt (h.put hp b) hs
  obtain ⟨st', l, -⟩ := he.new hE h.wt
  refine ⟨st, t', old, new, he.leads, hf, ⟨st', l⟩, ?_⟩
  intro dump text hd
  rw [get_leads he.typed hp l, hd]
  rfl

/-- C36 for `patch`. -/
theorem C36_patch_get (hE : Lawful E) (h : Setup E T r hist) (w : View) (p : List Seg) (hp : PathTo w p) (b : β)
    (hs : Success (patch E T r w b).2) : ∃ steps t old new, LeadsTo E T r.value p steps t old ∧
      E.patch t old b = .ok new ∧ (∃ steps', LeadsTo E T (patch E T r w b).1.value p steps' t new) ∧
      ∀ (dump : Ty → Value → Except Exc Str) text, dump t new = .ok text →
        get E T dump (patch E T r w b).1 w = .resp .ok text := by
  obtain ⟨st, t', old, new, he, hf, _⟩ := put_edit h.typed.patch h.wt (h.patch hp b) hs
  obtain ⟨st', l, -⟩ := he.new hE h.wt
  refine ⟨st, t', old, new, he.leads, hf, ⟨st', l⟩, ?_⟩
  intro dump text hd
  rw [get_leads he.typed hp l, hd]
  rfl

end

example : get Demo.env Demo.T Demo.dump
    (put Demo.env Demo.T Demo.r0 (Demo.view "/users/bob/age") (Demo.num 41)).1 (Demo.view "/users/bob/age") =
    .resp .ok (str "41") := by decide +kernel
example : Canonical (str "0") ∧ Canonical (str "10") ∧ Canonical (str "users") ∧ ¬ Canonical (str "00") := by
  refine ⟨?_, ?_, ?_, ?_⟩
  · intro c cs h; simp [str] at h
  · intro c cs h; simp [str] at h
  · intro c cs h; simp [str] at h
  · intro h
    exact h _ _ rfl (by simp [str, digit])

section
variable {β : Type} {E : Env β} {T : Ty} {r : Resource} {hist : List Note}

/-! ### C37 Decision tables -/

/-- C37: `get` answers 404 if the path names no node, and otherwise 200 with the
serialisation of the node. -/
theorem C37_get (hw : WT T r.value) (w : View) (loc : List Seg) (hp : PathTo w loc)
    (dump : Ty → Value → Except Exc Str) :
    (¬ Resolves E T r.value loc → get E T dump r w = .resp .notFound []) ∧
    ∀ steps t u text, LeadsTo E T r.value loc steps t u → dump t u = .ok text →
      get E T dump r w = .resp .ok text := by
  refine ⟨fun hn => get_missing hw hp hn dump, ?_⟩
  intro steps t u text hl hd
  rw [get_leads hw hp hl, hd]
  rfl

/-- What `put` or `patch` should answer: the rows are exclusive and cover everything. -/
def Table (E : Env β) (f : Ty → Value → β → Except Exc Value) (T : Ty) (r : Resource) (loc : List Seg)
    (b : β) (o : Outcome) : Prop :=
  (¬ Resolves E T r.value loc → o = .resp .notFound []) ∧
  ∀ steps t old, LeadsTo E T r.value loc steps t old →
    (Protected steps → o = .resp .methodNotAllowed []) ∧
    (¬ Protected steps →
      (∀ e, f t old b = .error e → o = .resp .badRequest []) ∧
      ∀ new, f t old b = .ok new →
        (¬ SameKey E steps old new → o = .resp .methodNotAllowed []) ∧
        (SameKey E steps old new → ∃ v', Changed old new (steps.map Step.pos) r.value v' ∧
          (¬ Spec.Valid E T v' → ∃ msg, o = .resp .conflict msg) ∧
          (Spec.Valid E T v' → o = .resp .ok [])))

theorem conflict_of (hE : PoliteValidators E) {e : Err} (h : ValidationErr E e) : ∃ msg, catchPut e = .resp .conflict msg := by
  rcases h with rfl | ⟨t, v, x, hx, rfl⟩
  · exact ⟨_, rfl⟩
  · obtain ⟨m, rfl⟩ := hE t v x hx
    exact ⟨m, rfl⟩

theorem table_of (hE : PoliteValidators E) {f : Ty → Value → β → Except Exc Value} {loc : List Seg} {b : β}
    (hf : ∀ steps t u e, LeadsTo E T r.value loc steps t u → f t u b = .error e → e = .deserialize)
    (hw : WT T r.value) {r' : Resource} {o : Outcome} (h : PutRow E f T r hist loc b r' o) : Table E f T r loc b o := by
  cases h with
  | missing hn => exact ⟨fun _ => rfl, fun st t old hl => absurd ⟨st, t, old, hl⟩ hn⟩
  | readOnly l hr =>
    refine ⟨fun hn => absurd ⟨_, _, _, l⟩ hn, fun st t old hl => ?_⟩
    obtain ⟨rfl, rfl, rfl⟩ := steps_unique l hw.ty hl
    exact ⟨fun _ => rfl, fun hn => absurd hr hn⟩
  | rejected l hr he =>
    refine ⟨fun hn => absurd ⟨_, _, _, l⟩ hn, fun st t old hl => ?_⟩
    obtain ⟨rfl, rfl, rfl⟩ := steps_unique l hw.ty hl
    have := hf _ _ _ _ hl he
    subst this
    exact ⟨fun h => absurd h hr, fun _ => ⟨fun _ _ => rfl, fun new hn => by rw [he] at hn; cases hn⟩⟩
  | identity l hr he hk =>
    refine ⟨fun hn => absurd ⟨_, _, _, l⟩ hn, fun st t old hl => ?_⟩
    obtain ⟨rfl, rfl, rfl⟩ := steps_unique l hw.ty hl
    refine ⟨fun h => absurd h hr, fun _ => ⟨fun e hn => (by rw [he] at hn; cases hn), fun new hn => ?_⟩⟩
    rw [he] at hn; cases hn
    exact ⟨fun _ => rfl, fun h => absurd h hk⟩
  | invalid l hr he hk hc _ hv hverr =>
    refine ⟨fun hn => absurd ⟨_, _, _, l⟩ hn, fun st t old hl => ?_⟩
    obtain ⟨rfl, rfl, rfl⟩ := steps_unique l hw.ty hl
    refine ⟨fun h => absurd h hr, fun _ => ⟨fun e hn => (by rw [he] at hn; cases hn), fun new hn => ?_⟩⟩
    rw [he] at hn; cases hn
    exact ⟨fun h => absurd hk h, fun _ => ⟨_, hc, fun _ => conflict_of hE hverr, fun h => absurd h hv⟩⟩
  | done l hr he hk hc _ hv _ =>
    refine ⟨fun hn => absurd ⟨_, _, _, l⟩ hn, fun st t old hl => ?_⟩
    obtain ⟨rfl, rfl, rfl⟩ := steps_unique l hw.ty hl
    refine ⟨fun h => absurd h hr, fun _ => ⟨fun e hn => (by rw [he] at hn; cases hn), fun new hn => ?_⟩⟩
    rw [he] at hn; cases hn
    exact ⟨fun h => absurd hk h, fun _ => ⟨_, hc, fun h => absurd hv h, fun _ => rfl⟩⟩

/-- C37: `put` follows the table: 404 if the path names no node, else 405 if it is protected,
else 400 if the body does not deserialise, else 405 if the key would change, else 409 if the
new tree is not valid, else 200. -/
theorem C37_put (hE : Polite E) (h : Setup E T r hist) (w : View) (loc : List Seg) (hp : PathTo w loc) (b : β) :
    Table E E.deser T r loc b (put E T r w b).2 :=
  table_of hE.validate (fun _ _ _ _ _ => hE.deser _ _ _ _) h.wt (h.put hp b)

/-- C37: `patch` follows the same table. -/
theorem C37_patch (hE : Polite E) (h : Setup E T r hist) (w : View) (loc : List Seg) (hp : PathTo w loc) (b : β) :
    Table E E.patch T r loc b (patch E T r w b).2 :=
  table_of hE.validate (fun _ _ _ _ _ => hE.patch _ _ _ _) h.wt (h.patch hp b)

end

example : (put Demo.env Demo.T Demo.r0 (Demo.view "/tags/3") (Demo.num 1)).2 = .resp .notFound [] := by
  decide +kernel
example : (put Demo.env Demo.T Demo.r0 (Demo.view "/version") (Demo.num 1)).2 = .resp .methodNotAllowed [] := by
  decide +kernel
example : (put Demo.env Demo.T Demo.r0 (Demo.view "/tags") (Demo.num 1)).2 = .resp .badRequest [] := by
  decide +kernel
example : (put Demo.env Demo.T Demo.r0 (Demo.view "/users/ann") (.record [Demo.text "eve", Demo.num 1])).2 =
    .resp .methodNotAllowed [] := by decide +kernel
example : PathTo (Demo.view "/users/ann") [str "users", str "ann"] :=
  Demo.view_to (by decide +kernel) (by decide +kernel)

section
variable {β : Type} {E : Env β} {T : Ty} {r : Resource} {hist : List Note}

/-! ### C38 Post appends exactly one element -/

/-- C38: a successful `post` answers 201; the body, deserialised into a fresh element, is
appended to the addressed collection and nothing else changes; every path from the
collection downwards counts as changed. -/
theorem C38_post (h : Setup E T r hist) (w : View) (p : List Seg) (hp : PathTo w p) (b : β)
    (hs : Success (post E T r w b).2) : (post E T r w b).2 = .resp .created [] ∧
      ∃ steps k t vs x, LeadsTo E T r.value p steps (.seq k t) (.seq vs) ∧ E.deser t (E.fresh t) b = .ok x ∧
        Changed (.seq vs) (.seq (vs ++ [x])) (steps.map Step.pos) r.value (post E T r w b).1.value ∧
        ∀ wq q, PathTo wq (p ++ q) → ∀ g ≤ r.tracker.current,
          (post E T r w b).1.tracker.changedSince wq g = some true := by
  obtain ⟨st, k, t, vs, x, he, hf, _, _, ho⟩ := post_edit h.typed h.wt (h.post hp b) hs
  refine ⟨ho, st, k, t, vs, x, he.leads, hf, he.changed, ?_⟩
  intro wq q hq g hg
  exact (told_since h.told he.told hq.shows).1 (.inr ⟨rfl, ⟨q, rfl⟩⟩) hg

/-- C38: afterwards the same path leads to the longer collection. -/
theorem C38_post_get (hE : Lawful E) (h : Setup E T r hist) (w : View) (p : List Seg) (hp : PathTo w p) (b : β)
    (hs : Success (post E T r w b).2) :
      ∃ steps k t vs x steps', LeadsTo E T r.value p steps (.seq k t) (.seq vs) ∧
        E.deser t (E.fresh t) b = .ok x ∧
        LeadsTo E T (post E T r w b).1.value p steps' (.seq k t) (.seq (vs ++ [x])) := by
  obtain ⟨st, k, t, vs, x, he, hf, _, _, ho⟩ := post_edit h.typed h.wt (h.post hp b) hs
  obtain ⟨st', l, -⟩ := he.new hE h.wt
  exact ⟨st, k, t, vs, x, st', he.leads, hf, l⟩

end

example : get Demo.env Demo.T Demo.dump
    (post Demo.env Demo.T Demo.r0 (Demo.view "/tags") (Demo.num 10)).1 (Demo.view "/tags/3") =
    .resp .ok (str "10") := by decide +kernel

section
variable {β : Type} {E : Env β} {T : Ty} {r : Resource} {hist : List Note}

/-! ### C39 Delete removes exactly one element -/

/-- C39: a successful `del` answers 204.  If the path without its last segment names a
collection, exactly the addressed element is removed from it; otherwise the path names an
optional, which is emptied.  Nothing else changes. -/
theorem C39_del (h : Setup E T r hist) (w : View) (p : List Seg) (hp : PathTo w p)
    (hs : Success (del E T r w).2) : (del E T r w).2 = .resp .noContent [] ∧
      ((∃ c s steps t u x t1 u1, p = c ++ [s] ∧ isCollection t = true ∧ LeadsTo E T r.value c steps t u ∧
          LeadsTo E T r.value p (steps ++ [x]) t1 u1 ∧
          Changed u (without u x.pos) (steps.map Step.pos) r.value (del E T r w).1.value) ∨
       (¬ InCollection E T r.value p ∧ ∃ steps t u, LeadsTo E T r.value p steps (.opt t) (.opt u) ∧
          Changed (.opt u) (.opt none) (steps.map Step.pos) r.value (del E T r w).1.value)) := by
  obtain ⟨ho, ⟨c, s, st, t, u, x, t1, u1, e, ht, l1, _, _, he⟩ | ⟨st, t, u, hn, he⟩⟩ :=
    del_edit h.wt (h.del hp) hs
  · exact ⟨ho, .inl ⟨c, s, st, t, u, x, t1, u1, e, ht, he.leads, l1, he.changed⟩⟩
  · exact ⟨ho, .inr ⟨hn, st, t, u, he.leads, he.changed⟩⟩

/-- C39: the removed element is the one the path named. -/
theorem C39_removed (hw : WT T r.value) (c : List Seg) (s : Seg) (steps : List Step) (x : Step) (t t1 : Ty)
    (u u1 : Value) (hl : LeadsTo E T r.value c steps t u) (ht : isCollection t = true)
    (h1 : LeadsTo E T r.value (c ++ [s]) (steps ++ [x]) t1 u1) :
    (∃ vs, u = .seq vs ∧ vs[x.pos]? = some u1 ∧ without u x.pos = .seq (vs.eraseIdx x.pos)) ∨
    (∃ es, u = .map es ∧ es[x.pos]? = some (s, u1) ∧ without u x.pos = .map (es.eraseIdx x.pos)) := by
  obtain ⟨st1, st2, t2, v2, e, l1, l2⟩ := leads_split h1 rfl
  obtain ⟨rfl, rfl, rfl⟩ := steps_unique l1 hw.ty hl
  have e := List.append_cancel_left e
  subst e
  generalize endKeys [] st1 = ks at l2
  cases l2 with
  | field _ _ _ _ => cases ht
  | unwrap _ => cases ht
  | entry h2 h => cases h; exact .inr ⟨_, rfl, h2, rfl⟩
  | item _ _ h2 h => cases h; exact .inl ⟨_, rfl, h2, rfl⟩
  | child _ h2 h => cases h; exact .inl ⟨_, rfl, h2, rfl⟩

end

example : get Demo.env Demo.T Demo.dump
    (del Demo.env Demo.T Demo.r0 (Demo.view "/tags/0")).1 (Demo.view "/tags/0") =
    .resp .ok (str "8") := by decide +kernel
example : (del Demo.env Demo.T Demo.r0 (Demo.view "/limit")).2 = .resp .noContent [] := by decide +kernel

section
variable {β : Type} {E : Env β} {T : Ty} {r : Resource} {hist : List Note}

/-! ### C40 Resolution is deterministic -/

/-- C40: a path leads to at most one node, in one way.  (`get` returns only an outcome in the
model: the C++ function takes the resource by const reference.) -/
theorem C40_deterministic (hw : WT T r.value) (p : List Seg) (st1 st2 : List Step) (t1 t2 : Ty) (u1 u2 : Value)
    (h1 : LeadsTo E T r.value p st1 t1 u1) (h2 : LeadsTo E T r.value p st2 t2 u2) :
    st1 = st2 ∧ t1 = t2 ∧ u1 = u2 := steps_unique h1 hw.ty h2

/-- C40: below a struct a segment selects the first field of that name, and nothing if there
is none. -/
theorem C40_field (hw : WT T r.value) (c : List Seg) (s : Seg) (w : View) (hp : PathTo w (c ++ [s]))
    (steps : List Step) (id : Nat) (fs : Fields) (vs : List Value)
    (hl : LeadsTo E T r.value c steps (.record id fs) (.record vs)) (dump : Ty → Value → Except Exc Str) :
    ((∀ (i : Nat) a t, (fieldList fs)[i]? = some (a, t) → a.name ≠ s) → get E T dump r w = .resp .notFound []) ∧
    ∀ (i : Nat) a t, (fieldList fs)[i]? = some (a, t) → a.name = s →
      (∀ j < i, ∀ b u, (fieldList fs)[j]? = some (b, u) → b.name ≠ s) →
      ∃ v, vs[i]? = some v ∧ ∀ text, dump t v = .ok text → get E T dump r w = .resp .ok text := by
  refine ⟨?_, ?_⟩
  · intro hn
    refine get_missing hw hp ?_ dump
    rintro ⟨st, t, u, h⟩
    obtain ⟨st1, st2, t2, v2, e, l1, l2⟩ := leads_split h rfl
    obtain ⟨rfl, rfl, rfl⟩ := steps_unique l1 hw.ty hl
    generalize hg : [s] = p at l2
    generalize endKeys [] st1 = ks at l2
    cases l2 with
    | here => cases hg
    | field g1 _ _ _ =>
      simp only [List.cons.injEq] at hg
      exact hn _ _ _ g1 hg.1.symm
  · intro i a t hi hname hfirst
    subst hname
    have hty := (leads_typed hl hw.ty hw.ok).1
    simp only [HasTy] at hty
    have hlen := hasTys_length hty
    have hlt : i < vs.length := by
      have := (List.getElem?_eq_some_iff.1 hi).1
      omega
    refine ⟨vs[i], by simp [hlt], ?_⟩
    intro text hd
    have l : LeadsTo E T r.value (c ++ [a.name]) (steps ++ [.field i a]) t vs[i] :=
      leads_append hl (.field hi hfirst (by simp [hlt]) .here)
    rw [get_leads hw hp l, hd]
    rfl

/-- C40: a collection with child keys is never addressed by index: if no element has a key
matching the segment the answer is 404, whatever the segment looks like. -/
theorem C40_keyed (hw : WT T r.value) (c : List Seg) (s : Seg) (q : List Seg) (w : View)
    (hp : PathTo w (c ++ s :: q)) (steps : List Step) (i : Nat) (a : Attrs)
    (hlast : steps.getLast? = some (.field i a)) (hk : a.childKeys ≠ []) (k : SeqKind) (t : Ty) (vs : List Value)
    (hl : LeadsTo E T r.value c steps (.seq k t) (.seq vs))
    (hm : ∀ key ∈ a.childKeys, ∀ j, ¬ MatchesAt E t vs s key j) (dump : Ty → Value → Except Exc Str) :
    get E T dump r w = .resp .notFound [] := by
  refine get_missing hw hp ?_ dump
  rintro ⟨st, t', u, h⟩
  obtain ⟨st1, st2, t2, v2, e, l1, l2⟩ := leads_split h rfl
  obtain ⟨rfl, rfl, rfl⟩ := steps_unique l1 hw.ty hl
  have hks : endKeys [] st1 = a.childKeys := by
    have h1 := endKeys_root st1
    obtain ⟨x, g1, g2⟩ := endNode_last .root st1 (by rintro rfl; simp at hlast)
    rw [hlast] at g1; cases g1
    rw [← h1, g2]; rfl
  rw [hks] at l2
  generalize a.childKeys = ks at *
  cases l2 with
  | item _ _ _ _ => exact hk rfl
  | child hsel _ _ =>
    obtain ⟨b, a', rfl, _, h4, _⟩ := hsel
    exact hm _ (by simp) _ h4

end

example : get Demo.env Demo.T Demo.dump Demo.r0 (Demo.view "/users/0") = .resp .notFound [] := by decide +kernel
example : get Demo.env Demo.T Demo.dump Demo.r0 (Demo.view "/users/bob/age") = .resp .ok (str "40") := by
  decide +kernel

/-! ### Violations -/

/-- C32 fails for DELETE of an optional holding a collection: afterwards `/spare/0` is gone,
but `changed_since("/spare/0", g)` is false for the generation `g` before the request. -/
theorem C32_optional_violated :
    ∃ (E : Env Value) (T : Ty) (r : Resource) (w wq : View) (p q : List Seg)
      (dump : Ty → Value → Except Exc Str),
      Plain E ∧ oneKey T = true ∧ Setup E T r [] ∧ PathTo w p ∧ PathTo wq q ∧
      (∀ s ∈ p, Canonical s) ∧ (∀ s ∈ q, Canonical s) ∧
      get E T dump (del E T r w).1 wq ≠ get E T dump r wq ∧
      (del E T r w).1.tracker.changedSince wq r.tracker.current = some false := by
  refine ⟨Demo.env, Demo.T, Demo.r0, Demo.view "/spare", Demo.view "/spare/0", [str "spare"],
    [str "spare", str "0"], Demo.dump, Demo.env_plain, Demo.oneKey_T, Demo.setup,
    Demo.view_to (by decide +kernel) (by decide +kernel), Demo.view_to (by decide +kernel) (by decide +kernel),
    ?_, ?_, by decide +kernel, by decide +kernel⟩
  · intro s hs c cs h
    simp only [List.mem_singleton] at hs
    subst hs
    simp [str] at h
  · intro s hs c cs h
    simp only [List.mem_cons, List.not_mem_nil, or_false] at hs
    rcases hs with rfl | rfl <;> simp [str] at h

/-- C32 fails for a second spelling of an index: `/tags/00` names the same element as
`/tags/0`, but is not considered changed by a `put` to the latter. -/
theorem C32_index_violated :
    ∃ (E : Env Value) (T : Ty) (r : Resource) (w wq : View) (p q : List Seg) (b : Value)
      (dump : Ty → Value → Except Exc Str),
      Plain E ∧ oneKey T = true ∧ Setup E T r [] ∧ PathTo w p ∧ PathTo wq q ∧
      get E T dump (put E T r w b).1 wq ≠ get E T dump r wq ∧
      (put E T r w b).1.tracker.changedSince wq r.tracker.current = some false :=
  ⟨Demo.env, Demo.T, Demo.r0, Demo.view "/tags/0", Demo.view "/tags/00", [str "tags", str "0"],
    [str "tags", str "00"], Demo.num 5, Demo.dump, Demo.env_plain, Demo.oneKey_T, Demo.setup,
    Demo.view_to (by decide +kernel) (by decide +kernel), Demo.view_to (by decide +kernel) (by decide +kernel),
    by decide +kernel, by decide +kernel⟩

namespace Demo

/-- `struct account { std::string name; std::string mail; };` -/
def account : Ty := .record 1 (.cons { name := str "name" } (.leaf 1) (.cons { name := str "mail" } (.leaf 1) .nil))

/-- `accounts` has the attributes `child_key(&account::name)` and `child_key(&account::mail)`. -/
def T2 : Ty := .record 0 (.cons { name := str "accounts", childKeys := [0, 1] } (.seq vec account) .nil)

def r2 : Resource := ⟨.record [.seq [.record [text "ann", text "a@b"], .record [text "bob", text "b@c"]]], {}⟩

theorem setup2 : Setup env T2 r2 [] :=
  ⟨env_typed, ⟨by decide +kernel, check_sound _ _ (by decide +kernel)⟩, ⟨[], .nil, rfl⟩⟩

theorem canonical2 (a b : Seg) (h : ∀ cs, a ≠ 0x30#8 :: cs) (h' : ∀ cs, b ≠ 0x30#8 :: cs) :
    ∀ s ∈ [str "accounts", a, b], Canonical s := by
  intro s hs c cs e
  simp only [List.mem_cons, List.not_mem_nil, or_false] at hs
  rcases hs with rfl | rfl | rfl
  · simp [str] at e
  · exact absurd e (h _)
  · exact absurd e (h' _)

end Demo

/-- C32 and C35 fail if a field has two `child_key` attributes: `/accounts/ann` and
`/accounts/a@b` name the same account; changing its mail through the first makes the second
disappear, and the tracker does not report it. -/
theorem C32_two_keys_violated :
    ∃ (E : Env Value) (T : Ty) (r : Resource) (w wq : View) (p q : List Seg) (b : Value)
      (dump : Ty → Value → Except Exc Str),
      Plain E ∧ Setup E T r [] ∧ PathTo w p ∧ PathTo wq q ∧
      (∀ s ∈ p, Canonical s) ∧ (∀ s ∈ q, Canonical s) ∧
      get E T dump (put E T r w b).1 wq ≠ get E T dump r wq ∧
      (put E T r w b).1.tracker.changedSince wq r.tracker.current = some false :=
  ⟨Demo.env, Demo.T2, Demo.r2, Demo.view "/accounts/ann/mail", Demo.view "/accounts/a@b/name",
    [str "accounts", str "ann", str "mail"], [str "accounts", str "a@b", str "name"], Demo.text "x@y", Demo.dump,
    Demo.env_plain, Demo.setup2, Demo.view_to (by decide +kernel) (by decide +kernel),
    Demo.view_to (by decide +kernel) (by decide +kernel),
    Demo.canonical2 _ _ (by simp [str]) (by simp [str]), Demo.canonical2 _ _ (by simp [str]) (by simp [str]),
    by decide +kernel, by decide +kernel⟩

theorem C35_two_keys_violated :
    ∃ (E : Env Value) (T : Ty) (r : Resource) (w wq : View) (p q : List Seg) (b : Value)
      (dump : Ty → Value → Except Exc Str),
      Plain E ∧ Setup E T r [] ∧ PathTo w p ∧ PathTo wq q ∧
      (∀ s ∈ p, Canonical s) ∧ (∀ s ∈ q, Canonical s) ∧ ¬ p <+: q ∧ ¬ q <+: p ∧
      get E T dump (put E T r w b).1 wq ≠ get E T dump r wq :=
  ⟨Demo.env, Demo.T2, Demo.r2, Demo.view "/accounts/ann/mail", Demo.view "/accounts/a@b/name",
    [str "accounts", str "ann", str "mail"], [str "accounts", str "a@b", str "name"], Demo.text "x@y", Demo.dump,
    Demo.env_plain, Demo.setup2, Demo.view_to (by decide +kernel) (by decide +kernel),
    Demo.view_to (by decide +kernel) (by decide +kernel),
    Demo.canonical2 _ _ (by simp [str]) (by simp [str]), Demo.canonical2 _ _ (by simp [str]) (by simp [str]),
    by decide +kernel, by decide +kernel, by decide +kernel⟩

namespace Demo

/-- ASCII letters in lower case. -/
def lower (c : BitVec 8) : BitVec 8 := if 65 ≤ c.toNat ∧ c.toNat ≤ 90 then c + 32#8 else c

/-- The keys are matched regardless of case (`key_matches` supplied by the user). -/
def env3 : Env Value := { env with
  keyMatches := fun _ _ key s => match key with
    | .leaf (.str k) => k.map lower == s.map lower
    | _ => false }

theorem env3_lawful : Lawful env3 := ⟨env_plain.eq, by intros; rfl⟩

theorem setup3 : Setup env3 T r0 [] := ⟨⟨env_typed.deser, env_typed.patch, env_typed.fresh⟩, wt, tracked⟩

theorem canonical3 (a b : Seg) (h : ∀ cs, a ≠ 0x30#8 :: cs) (h' : ∀ cs, b ≠ 0x30#8 :: cs) :
    ∀ s ∈ [str "users", a, b], Canonical s := by
  intro s hs c cs e
  simp only [List.mem_cons, List.not_mem_nil, or_false] at hs
  rcases hs with rfl | rfl | rfl
  · simp [str] at e
  · exact absurd e (h _)
  · exact absurd e (h' _)

end Demo

/-- C32 and C35 fail if a key matches two segments: with keys matched regardless of case,
`/users/Ann/age` is not considered changed by a `put` to `/users/ann/age`. -/
theorem C32_two_segments_violated :
    ∃ (E : Env Value) (T : Ty) (r : Resource) (w wq : View) (p q : List Seg) (b : Value)
      (dump : Ty → Value → Except Exc Str),
      Lawful E ∧ oneKey T = true ∧ Setup E T r [] ∧ PathTo w p ∧ PathTo wq q ∧
      (∀ s ∈ p, Canonical s) ∧ (∀ s ∈ q, Canonical s) ∧ ¬ p <+: q ∧ ¬ q <+: p ∧
      get E T dump (put E T r w b).1 wq ≠ get E T dump r wq ∧
      (put E T r w b).1.tracker.changedSince wq r.tracker.current = some false :=
  ⟨Demo.env3, Demo.T, Demo.r0, Demo.view "/users/ann/age", Demo.view "/users/Ann/age",
    [str "users", str "ann", str "age"], [str "users", str "Ann", str "age"], Demo.num 5, Demo.dump,
    Demo.env3_lawful, Demo.oneKey_T, Demo.setup3, Demo.view_to (by decide +kernel) (by decide +kernel),
    Demo.view_to (by decide +kernel) (by decide +kernel),
    Demo.canonical3 _ _ (by simp [str]) (by simp [str]), Demo.canonical3 _ _ (by simp [str]) (by simp [str]),
    by decide +kernel, by decide +kernel, by decide +kernel, by decide +kernel⟩

/-- C34 fails for the other key: a `put` to `/accounts/ann` succeeds and changes the key
`mail` of that account. -/
theorem C34_other_key_violated :
    ∃ (E : Env Value) (T : Ty) (r : Resource) (w : View) (p : List Seg) (b : Value),
      Plain E ∧ Setup E T r [] ∧ PathTo w p ∧
      (∃ k t vs, T = .record 0 (.cons { name := str "accounts", childKeys := [0, 1] } (.seq k t) .nil) ∧
        r.value = .record [.seq vs] ∧ ∃ vs', (put E T r w b).1.value = .record [.seq vs'] ∧
        ¬ SameKeys 1 vs vs') ∧ (put E T r w b).2 = .resp .ok [] := by
  refine ⟨Demo.env, Demo.T2, Demo.r2, Demo.view "/accounts/ann", [str "accounts", str "ann"],
    .record [Demo.text "ann", Demo.text "x@y"],
    Demo.env_plain, Demo.setup2, Demo.view_to (by decide +kernel) (by decide +kernel),
    ⟨_, _, _, rfl, rfl, [.record [Demo.text "ann", Demo.text "x@y"], .record [Demo.text "bob", Demo.text "b@c"]],
      Demo.same_eq _ _ (by decide +kernel), ?_⟩, by decide +kernel⟩
  intro h
  obtain ⟨x, h1, _, rfl, h3⟩ := (h.2 0 (Demo.text "a@b")).1 ⟨_, rfl, _, rfl, rfl⟩
  cases h1
  simp [Demo.text, str] at h3

end Verif.Resource
