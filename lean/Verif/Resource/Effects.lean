import Verif.Resource.Ops
/-
Consequences of one node being replaced: what GET answers elsewhere and what the tracker
reports.
-/
namespace Verif.Resource
open Verif.Path Verif.Path.Spec Verif.Tracker Verif.Tracker.Spec Verif.Resource.Spec

/-! ### get -/

/-- The answer of `get` at a node. -/
def answer (d : Except Exc Str) : Outcome :=
  match d with
  | .ok body => .resp .ok body
  | .error e => catchGet (.throws e)

theorem get_leads {β : Type} {E : Env β} {T : Ty} {r : Resource} (hw : WT T r.value) {w : View}
    {loc : List Seg} (hp : PathTo w loc) {steps : List Step} {t : Ty} {u : Value}
    (h : LeadsTo E T r.value loc steps t u) (dump : Ty → Value → Except Exc Str) :
    get E T dump r w = answer (dump t u) := by
  unfold get
  rw [hp.segs]
  simp only [visit_leads hw h]
  cases dump t u <;> rfl

theorem get_missing {β : Type} {E : Env β} {T : Ty} {r : Resource} (hw : WT T r.value) {w : View}
    {loc : List Seg} (hp : PathTo w loc) (h : ¬ Resolves E T r.value loc)
    (dump : Ty → Value → Except Exc Str) : get E T dump r w = .resp .notFound [] := by
  unfold get
  rw [hp.segs]
  rcases visit_cases hw (E := E) loc with ⟨_, e, he, hm⟩ | ⟨st, t, u, hl⟩
  · simp only [he]
    unfold isMissing at hm
    split at hm <;> first | rfl | exact absurd hm id
  · exact absurd ⟨st, t, u, hl⟩ h

theorem get_same {β : Type} {E : Env β} {T : Ty} {r r' : Resource} (hw : WT T r.value) (hw' : WT T r'.value)
    {w : View} {loc : List Seg} (hp : PathTo w loc) (h : ∀ steps t u, LeadsTo E T r.value loc steps t u →
      ∃ steps', LeadsTo E T r'.value loc steps' t u)
    (h' : Resolves E T r'.value loc → Resolves E T r.value loc) (dump : Ty → Value → Except Exc Str) :
    get E T dump r' w = get E T dump r w := by
  by_cases hr : Resolves E T r.value loc
  · obtain ⟨st, t, u, hl⟩ := hr
    obtain ⟨st', hl'⟩ := h st t u hl
    rw [get_leads hw hp hl, get_leads hw' hp hl']
  · rw [get_missing hw hp hr, get_missing hw' hp (fun h => hr (h' h))]

/-! ### Edits -/

theorem changed_symm {old new : Value} {addr : List Nat} {v v' : Value} (h : Changed old new addr v v') :
    Changed new old addr v' v := by
  induction h with
  | here => exact .here
  | kid hk _ ih =>
    refine .kid ?_ ih
    cases hk
    · exact .opt
    · exact .record
    · exact .map
    · exact .seq

theorem keepsKeys {β : Type} {E : Env β} (hE : Lawful E) {T : Ty} {v : Value} (hw : WT T v) {path : List Seg}
    {steps : List Step} {t : Ty} {old new : Value} (h : LeadsTo E T v path steps t old) (hn : HasTy t new)
    (hp : ¬ Protected steps) (hs : SameKey E steps old new) : KeepsKeys steps old new := by
  refine ⟨fun ⟨pre, key, i, a, post, e⟩ => hp (.inr (.inr ⟨pre, key, i, a, post, e⟩)), ?_⟩
  intro key i hl k
  obtain ⟨k1, hk1⟩ := child_keyOf h hl
  obtain ⟨k2, hk2⟩ := keyOf_typed (leads_typed h hw.ty hw.ok).1 hn hk1
  have he := hE.eq _ _ (hs key i hl k1 k2 hk1 hk2)
  subst he
  obtain ⟨vs1, rfl, g1⟩ := hk1
  obtain ⟨vs2, rfl, g2⟩ := hk2
  constructor
  · rintro ⟨_, e, g3⟩
    cases e
    exact ⟨vs2, rfl, by rw [g2, ← g3, g1]⟩
  · rintro ⟨_, e, g3⟩
    cases e
    exact ⟨vs1, rfl, by rw [g1, ← g3, g2]⟩

/-- `r'` is `r` with the node at `c` replaced; the tracker was told. -/
structure Edit {β : Type} (E : Env β) (T : Ty) (r r' : Resource) (hist : List Note) (c : List Seg)
    (steps : List Step) (t : Ty) (old new : Value) (sub : Bool) : Prop where
  leads : LeadsTo E T r.value c steps t old
  free : ¬ Protected steps
  same : SameKey E steps old new
  newTy : HasTy t new
  changed : Changed old new (steps.map Step.pos) r.value r'.value
  typed : WT T r'.value
  valid : Spec.Valid E T r'.value
  told : Tracked r'.tracker (hist ++ [(c, sub)])

theorem Edit.new {β : Type} {E : Env β} (hE : Lawful E) {T : Ty} {r r' : Resource} {hist : List Note}
    {c : List Seg} {steps : List Step} {t : Ty} {old new : Value} {sub : Bool} (hw : WT T r.value)
    (h : Edit E T r r' hist c steps t old new sub) : ∃ steps', LeadsTo E T r'.value c steps' t new ∧
      steps'.map Step.pos = steps.map Step.pos ∧ (oneKey T = true → steps' = steps) := by
  obtain ⟨st, h1, h2, h3⟩ := leads_new hE h.leads (keepsKeys hE hw h.leads h.newTy h.free h.same) h.changed
  exact ⟨st, h1, h2, fun ho => h3 ho (by simp)⟩

theorem KeepsKeys.symm {steps : List Step} {old new : Value} (h : KeepsKeys steps old new) :
    KeepsKeys steps new old := ⟨h.1, fun key i hl k => (h.2 key i hl k).symm⟩

/-- Elsewhere `get` answers as before. -/
theorem Edit.other {β : Type} {E : Env β} (hE : Plain E) {T : Ty} {r r' : Resource} {hist : List Note}
    {c : List Seg} {steps : List Step} {t : Ty} {old new : Value} {sub : Bool} (hw : WT T r.value)
    (h : Edit E T r r' hist c steps t old new sub) (ho : oneKey T = true) (hcc : ∀ s ∈ c, Canonical s)
    {w : View} {q : List Seg} (hp : PathTo w q) (hcq : ∀ s ∈ q, Canonical s) (h1 : ¬ c <+: q) (h2 : ¬ q <+: c)
    (dump : Ty → Value → Except Exc Str) : get E T dump r' w = get E T dump r w := by
  have hk := keepsKeys hE.toLawful hw h.leads h.newTy h.free h.same
  obtain ⟨st', g1, g2, g3⟩ := h.new hE.toLawful hw
  have g3 := g3 ho
  subst g3
  refine get_same hw h.typed hp ?_ ?_ dump
  · intro st tq uq hl
    exact ⟨st, leads_other hE h.leads hw.ty ho (by simp) hk h.changed hcc hcq h1 h2 hl⟩
  · rintro ⟨st, tq, uq, hl⟩
    exact ⟨st, tq, uq, leads_other hE g1 h.typed.ty ho (by simp) hk.symm (changed_symm h.changed) hcc hcq h1 h2 hl⟩

theorem shallow_leads {β : Type} {E : Env β} {ks : List Nat} {t : Ty} {v : Value} {path : List Seg}
    {steps : List Step} {t' : Ty} {v' : Value} (h : Leads E ks t v path steps t' v') (ht : shallow t = true) :
    path = [] := by
  induction h with
  | here => rfl
  | unwrap _ ih => exact ih ht
  | _ => simp [shallow] at ht

theorem told_since {t t' : Tracker} {hist : List Note} {n : Note} (h : Tracked t hist)
    (h' : Tracked t' (hist ++ [n])) {w : View} {q : List Seg} (hs : Shows w q) {g : Nat} :
    (Concerns n q → g ≤ t.current → t'.changedSince w g = some true) ∧
    (¬ Concerns n q → g = t.current → t'.changedSince w g = some false) := by
  obtain ⟨g', e, hl⟩ := changedAt_ok h'.inv hs
  have hcur := h.inv.cur
  refine ⟨fun hc hg => ?_, fun hc hg => ?_⟩
  · have := latest_unique hl (latest_snoc_pos hc)
    simp only [Tracker.changedSince, e, Option.map_some, Option.some.injEq, decide_eq_true_eq]
    omega
  · have hle : g' ≤ hist.length + 1 := by
      rcases hl with ⟨h0, _⟩ | ⟨m, x, hx, hg', hP, _⟩
      · omega
      · rcases Nat.lt_trichotomy m hist.length with hlt | heq | hgt
        · omega
        · subst heq; simp at hx; subst hx; exact absurd hP hc
        · rw [List.getElem?_eq_none (by simp; omega)] at hx; cases hx
    simp only [Tracker.changedSince, e, Option.map_some, Option.some.injEq, decide_eq_false_iff_not]
    omega

/-- If `get` answers differently, the tracker says so. -/
theorem Edit.tracked {β : Type} {E : Env β} (hE : Plain E) {T : Ty} {r r' : Resource} {hist : List Note}
    {c : List Seg} {steps : List Step} {t : Ty} {old new : Value} {sub : Bool} (hw : WT T r.value)
    (ht : Tracked r.tracker hist)
    (h : Edit E T r r' hist c steps t old new sub) (ho : oneKey T = true) (hcc : ∀ s ∈ c, Canonical s)
    (hsub : sub = true ∨ shallow t = true)
    {w : View} {q : List Seg} (hp : PathTo w q) (hcq : ∀ s ∈ q, Canonical s)
    {dump : Ty → Value → Except Exc Str} (hne : get E T dump r' w ≠ get E T dump r w) (g : Nat)
    (hg : g ≤ r.tracker.current) : r'.tracker.changedSince w g = some true := by
  refine (told_since ht h.told hp.shows).1 ?_ hg
  by_cases h1 : q <+: c
  · exact .inl h1
  by_cases h2 : c <+: q
  · rcases hsub with hs | hs
    · exact .inr ⟨hs, h2⟩
    · exfalso
      obtain ⟨q', rfl⟩ := h2
      have hq' : q' ≠ [] := by
        rintro rfl
        exact h1 (by simp)
      obtain ⟨st', g1, -⟩ := h.new hE.toLawful hw
      refine hne (get_same hw h.typed hp ?_ ?_ dump)
      · intro st tq uq hl
        obtain ⟨st1, st2, t1, v1, _, l1, l2⟩ := leads_split hl rfl
        obtain ⟨-, rfl, rfl⟩ := leads_unique hw l1 h.leads
        exact absurd (shallow_leads l2 hs) hq'
      · rintro ⟨st, tq, uq, hl⟩
        obtain ⟨st1, st2, t1, v1, _, l1, l2⟩ := leads_split hl rfl
        obtain ⟨-, rfl, rfl⟩ := leads_unique h.typed l1 g1
        exact absurd (shallow_leads l2 hs) hq'
  · exact absurd (h.other hE hw ho hcc hp hcq h2 h1 dump) hne

theorem emptyablesF_get {fs : Fields} (h : emptyablesF fs = true) {i : Nat} {a : Attrs} {t : Ty}
    (h1 : (fieldList fs)[i]? = some (a, t)) : emptyables t = true := by
  match fs, i with
  | .nil, _ => simp [fieldList] at h1
  | .cons b u fs, 0 =>
    simp [fieldList] at h1
    simp only [emptyablesF, Bool.and_eq_true] at h
    obtain ⟨rfl, rfl⟩ := h1; exact h.1
  | .cons b u fs, i + 1 =>
    simp only [emptyablesF, Bool.and_eq_true] at h
    exact emptyablesF_get h.2 (i := i) (by simpa [fieldList] using h1)

theorem leads_emptyables {β : Type} {E : Env β} {ks : List Nat} {t : Ty} {v : Value} {path : List Seg}
    {steps : List Step} {t' : Ty} {v' : Value} (h : Leads E ks t v path steps t' v')
    (ht : emptyables t = true) : emptyables t' = true := by
  induction h with
  | here => exact ht
  | field h1 _ _ _ ih => exact ih (emptyablesF_get (by simpa [emptyables] using ht) h1)
  | unwrap _ ih => simp only [emptyables, Bool.and_eq_true] at ht; exact ih ht.2
  | entry _ _ ih => exact ih (by simpa [emptyables] using ht)
  | item _ _ _ _ ih => exact ih (by simpa [emptyables] using ht)
  | child _ _ _ ih => exact ih (by simpa [emptyables] using ht)

/-- A path determines the steps. -/
theorem steps_unique {β : Type} {E : Env β} {ks : List Nat} {t : Ty} {v : Value} {path : List Seg}
    {st1 : List Step} {t1 : Ty} {v1 : Value} (h1 : Leads E ks t v path st1 t1 v1) :
    ∀ {st2 : List Step} {t2 : Ty} {v2 : Value}, HasTy t v → Leads E ks t v path st2 t2 v2 →
      st1 = st2 ∧ t1 = t2 ∧ v1 = v2 := by
  induction h1 with
  | here => intro st2 t2 v2 _ h2; cases h2; exact ⟨rfl, rfl, rfl⟩
  | @field ks id fs vs i a t v path steps t' v' g1 g2 g3 g4 ih =>
    intro st2 t2 v2 hv h2
    generalize hp : a.name :: path = p at h2
    cases h2 with
    | @field _ _ _ _ j b u w path2 steps2 _ _ k1 k2 k3 k4 =>
      simp only [List.cons.injEq] at hp
      obtain ⟨hn, rfl⟩ := hp
      have := field_unique g1 g2 k1 k2 hn.symm
      subst this
      rw [g1] at k1; cases k1
      rw [g3] at k3; cases k3
      simp only [HasTy] at hv
      obtain ⟨rfl, h⟩ := ih (hasTys_get hv g1 g3) k4
      exact ⟨rfl, h⟩
    | here => cases hp
  | unwrap g ih =>
    intro st2 t2 v2 hv h2
    cases h2 with
    | unwrap k =>
      simp only [HasTy] at hv
      obtain ⟨rfl, h⟩ := ih (hv _ rfl) k
      exact ⟨rfl, h⟩
  | entry g1 g2 ih =>
    intro st2 t2 v2 hv h2
    cases h2 with
    | entry k1 k2 =>
      simp only [HasTy] at hv
      have := entry_unique hv.1 g1 k1
      subst this
      rw [g1] at k1; cases k1
      obtain ⟨rfl, h⟩ := ih (hv.2 _ (List.mem_of_getElem? g1)) k2
      exact ⟨rfl, h⟩
  | @item k t vs i s v path steps t' v' g1 g2 g3 g4 ih =>
    intro st2 t2 v2 hv h2
    cases h2 with
    | @item _ _ _ j _ w _ _ _ _ k1 k2 k3 k4 =>
      simp only [HasTy] at hv
      have : i = j := g2.2.2.1.symm.trans k2.2.2.1
      subst this
      rw [g3] at k3; cases k3
      obtain ⟨rfl, h⟩ := ih (hv _ (List.mem_of_getElem? g3)) k4
      exact ⟨rfl, h⟩
    | child k1 _ _ => obtain ⟨b, a, e, _⟩ := k1; simp at e
  | @child ks k t vs key i s v path steps t' v' g1 g2 g3 ih =>
    intro st2 t2 v2 hv h2
    cases h2 with
    | item _ _ _ _ => obtain ⟨b, a, e, _⟩ := g1; simp at e
    | child k1 k2 k3 =>
      simp only [HasTy] at hv
      obtain ⟨rfl, rfl⟩ := selects_unique g1 k1
      rw [g2] at k2; cases k2
      obtain ⟨rfl, h⟩ := ih (hv _ (List.mem_of_getElem? g2)) k3
      exact ⟨rfl, h⟩

/-- The last step into a collection element is no field step. -/
theorem last_step {β : Type} {E : Env β} {T : Ty} {v : Value} (hw : WT T v) {c : List Seg} {s : Seg}
    {steps st : List Step} {t t1 : Ty} {u u1 : Value} (h : LeadsTo E T v c steps t u)
    (hc : isCollection t = true) (h1 : LeadsTo E T v (c ++ [s]) st t1 u1) :
    ∃ x, st = steps ++ [x] ∧ ∀ i a, x ≠ .field i a := by
  obtain ⟨st1, st2, t2, v2, rfl, l1, l2⟩ := leads_split h1 rfl
  obtain ⟨rfl, rfl, rfl⟩ := steps_unique l1 hw.ty h
  generalize endKeys [] st1 = ks at l2
  cases l2 with
  | field _ _ _ _ => cases hc
  | unwrap _ => cases hc
  | entry _ h => cases h; exact ⟨_, rfl, by simp⟩
  | item _ _ _ h => cases h; exact ⟨_, rfl, by simp⟩
  | child _ _ h => cases h; exact ⟨_, rfl, by simp⟩

theorem append_two {α : Type} {l : List α} {x a b : α} {pre post : List α}
    (h : l ++ [x] = pre ++ a :: b :: post) :
    (post = [] ∧ b = x ∧ l = pre ++ [a]) ∨ ∃ post', post = post' ++ [x] ∧ l = pre ++ a :: b :: post' := by
  rcases List.eq_nil_or_concat post with rfl | ⟨post', y, rfl⟩
  · left
    have : pre ++ [a, b] = (pre ++ [a]) ++ [b] := by simp
    rw [this] at h
    obtain ⟨h1, h2⟩ := List.append_inj' h rfl
    simp at h2
    exact ⟨rfl, h2.symm, h1⟩
  · right
    have : pre ++ a :: b :: post'.concat y = (pre ++ a :: b :: post') ++ [y] := by simp
    rw [this] at h
    obtain ⟨h1, h2⟩ := List.append_inj' h rfl
    simp at h2
    exact ⟨post', by simp [h2], h1⟩

theorem protected_child {steps : List Step} {x : Step} (hx : ∀ i a, x ≠ .field i a)
    (h : Protected (steps ++ [x])) : ChildrenProtected steps := by
  rcases h with ⟨i, a, hl, _⟩ | ⟨pre, i, a, s, post, e, ha⟩ | ⟨pre, key, i, a, post, e⟩
  · simp at hl
    exact absurd hl (hx i a)
  · rcases append_two e with ⟨-, -, rfl⟩ | ⟨post', -, rfl⟩
    · exact .inr ⟨i, a, by simp, ha⟩
    · exact .inl (.inr (.inl ⟨pre, i, a, s, post', rfl, ha⟩))
  · rcases append_two e with ⟨-, rfl, rfl⟩ | ⟨post', -, rfl⟩
    · exact absurd rfl (hx _ _)
    · exact .inl (.inr (.inr ⟨pre, key, i, a, post', rfl⟩))

/-! ### Which edit the verbs make -/

theorem put_edit {β : Type} {E : Env β} {f : Ty → Value → β → Except Exc Value} {T : Ty} {r r' : Resource}
    {hist : List Note} {loc : List Seg} {body : β} {o : Outcome}
    (hf : ∀ t v b v', HasTy t v → f t v b = .ok v' → HasTy t v') (hw : WT T r.value)
    (h : PutRow E f T r hist loc body r' o) (hs : Success o) :
    ∃ steps t old new, Edit E T r r' hist loc steps t old new (addressableDescendants t) ∧
      f t old body = .ok new ∧ o = .resp .ok [] := by
  cases h with
  | missing _ => exact absurd hs id
  | readOnly _ _ => exact absurd hs id
  | @rejected _ _ _ e _ _ _ => cases e <;> exact absurd hs id
  | identity _ _ _ _ => exact absurd hs id
  | @invalid _ _ _ _ _ e _ _ _ _ _ _ _ _ =>
    cases e with
    | stuck => exact absurd hs id
    | throws e => cases e <;> exact absurd hs id
  | done h1 h2 h3 h4 h5 h6 h7 h8 =>
    exact ⟨_, _, _, _, ⟨h1, h2, h4, hf _ _ _ _ (leads_typed h1 hw.ty hw.ok).1 h3, h5, h6, h7, h8⟩, h3, rfl⟩

theorem seq_sameKey {β : Type} {E : Env β} {T : Ty} {v : Value} (hw : WT T v) {path : List Seg}
    {steps : List Step} {t : Ty} {old new : Value} (h : LeadsTo E T v path steps t old)
    (ht : ∀ id fs, t ≠ .record id fs) : SameKey E steps old new := by
  intro key i hl a b ha _
  obtain ⟨k, vs, rfl, _⟩ := child_keyOf h hl
  have := (leads_typed h hw.ty hw.ok).1
  cases t with
  | record id fs => exact absurd rfl (ht id fs)
  | _ => simp [HasTy] at this

theorem post_edit {β : Type} {E : Env β} {T : Ty} {r r' : Resource} {hist : List Note} {loc : List Seg}
    {body : β} {o : Outcome} (hE : Typed E) (hw : WT T r.value) (h : PostRow E T r hist loc body r' o)
    (hs : Success o) :
    ∃ steps k t vs x, Edit E T r r' hist loc steps (.seq k t) (.seq vs) (.seq (vs ++ [x])) true ∧
      E.deser t (E.fresh t) body = .ok x ∧ ¬ ChildrenProtected steps ∧ k.push = true ∧
      o = .resp .created [] := by
  cases h with
  | missing _ => exact absurd hs id
  | readOnly _ _ => exact absurd hs id
  | notCollection _ _ _ => exact absurd hs id
  | @rejected _ _ _ _ e _ _ _ _ => cases e <;> exact absurd hs id
  | duplicate _ _ _ _ _ => exact absurd hs id
  | @candidate _ _ _ _ _ e _ _ _ _ _ _ _ =>
    cases e with
    | stuck => exact absurd hs id
    | throws e => cases e <;> exact absurd hs id
  | @invalid _ _ _ _ _ _ e _ _ _ _ _ _ _ _ _ _ =>
    cases e with
    | stuck => exact absurd hs id
    | throws e => cases e <;> exact absurd hs id
  | done h1 h2 h3 h4 h5 h6 h7 h8 h9 h10 =>
    refine ⟨_, _, _, _, _, ⟨h1, fun hp => h2 (.inl hp), seq_sameKey hw h1 (by intro _ _ e; cases e), ?_, h7, h8,
      h9, h10⟩, h4, h2, h3, rfl⟩
    have := (leads_typed h1 hw.ty hw.ok).1
    simp only [HasTy] at this ⊢
    intro v hv
    rcases List.mem_append.1 hv with hv | hv
    · exact this v hv
    · rw [List.mem_singleton.1 hv]
      exact hE.deser _ _ _ _ (hE.fresh _) h4

theorem del_edit {β : Type} {E : Env β} {T : Ty} {r r' : Resource} {hist : List Note} {loc : List Seg}
    {o : Outcome} (hw : WT T r.value) (h : DelRow E T r hist loc r' o) (hs : Success o) :
    o = .resp .noContent [] ∧
    ((∃ c s steps t u st t1 u1, loc = c ++ [s] ∧ isCollection t = true ∧
        LeadsTo E T r.value loc (steps ++ [st]) t1 u1 ∧ ¬ ChildrenProtected steps ∧ erasable t = true ∧
        Edit E T r r' hist c steps t u (without u st.pos) true) ∨
     (∃ steps t u, ¬ InCollection E T r.value loc ∧
        Edit E T r r' hist loc steps (.opt t) (.opt u) (.opt none) (isReflectable t))) := by
  cases h with
  | missing _ => exact absurd hs id
  | noIndex _ _ _ _ => exact absurd hs id
  | childReadOnly _ _ _ _ _ => exact absurd hs id
  | notErasable _ _ _ _ _ _ => exact absurd hs id
  | @childInvalid _ _ _ _ _ _ _ _ _ e _ _ _ _ _ _ _ _ _ _ =>
    cases e with
    | stuck => exact absurd hs id
    | throws e => cases e <;> exact absurd hs id
  | childDone h1 h2 h3 h4 h5 h6 h7 h8 h9 h10 =>
    refine ⟨rfl, .inl ⟨_, _, _, _, _, _, _, _, h1, h4, h3, h5, h6, ⟨h2, fun hp => h5 (.inl hp),
      seq_sameKey hw h2 ?_, hasTy_without (leads_typed h2 hw.ty hw.ok).1 _, h7, h8, h9, h10⟩⟩⟩
    intro id fs e
    subst e
    cases h4
  | readOnly _ _ _ => exact absurd hs id
  | notOptional _ _ _ _ => exact absurd hs id
  | @candidate _ _ _ e _ _ _ _ _ =>
    cases e with
    | stuck => exact absurd hs id
    | throws e => cases e <;> exact absurd hs id
  | @invalid _ _ _ _ e _ _ _ _ _ _ _ _ =>
    cases e with
    | stuck => exact absurd hs id
    | throws e => cases e <;> exact absurd hs id
  | done h1 h2 h3 h4 h5 h6 h7 h8 =>
    refine ⟨rfl, .inr ⟨_, _, _, h2, ⟨h1, h3, seq_sameKey hw h1 (by intro _ _ e; cases e), ?_, h5, h6, h7, h8⟩⟩⟩
    simp [HasTy]

theorem changed_eq {old new : Value} {a b : List Nat} {v v' : Value} (h : Changed old new (a ++ b) v v') :
    ∃ u u', Changed u u' a v v' ∧ Changed old new b u u' := by
  induction a generalizing v v' with
  | nil => exact ⟨v, v', .here, h⟩
  | cons i a ih =>
    cases h with
    | kid hk hc =>
      obtain ⟨u, u', h1, h2⟩ := ih hc
      exact ⟨u, u', .kid hk h1, h2⟩

theorem changed_get {old new : Value} {a : List Nat} {v v' : Value} (h : Changed old new a v v') :
    v.get a = some old ∧ v'.get a = some new := by
  induction h with
  | here => exact ⟨rfl, rfl⟩
  | kid hk _ ih => cases hk <;> simpa [Value.get, Value.kids] using ih

end Verif.Resource
