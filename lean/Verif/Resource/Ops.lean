import Verif.Resource.Validity
import Verif.Resource.Frame
/-
What the verbs do, case by case, on well-typed resources.
-/
namespace Verif.Resource
open Verif.Path Verif.Path.Spec Verif.Tracker Verif.Tracker.Spec Verif.Resource.Spec

/-! ### Composing paths -/

/-- The child keys of the field that holds the node reached. -/
def endKeys : List Nat → List Step → List Nat
  | ks, [] => ks
  | _, s :: ss => endKeys (stepNode s).childKeys ss

theorem endNode_keys (node : Node) (steps : List Step) :
    (endNode node steps).childKeys = endKeys node.childKeys steps := by
  induction steps generalizing node with
  | nil => rfl
  | cons s ss ih => exact ih _

theorem leads_append {β : Type} {E : Env β} {ks : List Nat} {t : Ty} {v : Value} {p : List Seg}
    {st : List Step} {t1 : Ty} {v1 : Value} (h : Leads E ks t v p st t1 v1) :
    ∀ {q : List Seg} {st2 : List Step} {t2 : Ty} {v2 : Value}, Leads E (endKeys ks st) t1 v1 q st2 t2 v2 →
      Leads E ks t v (p ++ q) (st ++ st2) t2 v2 := by
  induction h with
  | here => exact fun h => h
  | field h1 h2 h3 h4 ih => exact fun h => .field h1 h2 h3 (ih h)
  | unwrap h1 ih => exact fun h => .unwrap (ih h)
  | entry h1 h2 ih => exact fun h => .entry h1 (ih h)
  | item h1 h2 h3 h4 ih => exact fun h => .item h1 h2 h3 (ih h)
  | child h1 h2 h3 ih => exact fun h => .child h1 h2 (ih h)

theorem leads_split {β : Type} {E : Env β} {ks : List Nat} {t : Ty} {v : Value} {r : List Seg}
    {st : List Step} {t2 : Ty} {v2 : Value} (h : Leads E ks t v r st t2 v2) :
    ∀ {p q : List Seg}, r = p ++ q → ∃ st1 st2 t1 v1, st = st1 ++ st2 ∧ Leads E ks t v p st1 t1 v1 ∧
      Leads E (endKeys ks st1) t1 v1 q st2 t2 v2 := by
  induction h with
  | @here ks t v =>
    intro p q he
    have := List.nil_eq_append_iff.1 he
    obtain ⟨rfl, rfl⟩ := this
    exact ⟨[], [], t, v, rfl, .here, .here⟩
  | @field ks id fs vs i a t v path steps t' v' h1 h2 h3 h4 ih =>
    intro p q he
    cases p with
    | nil => exact ⟨[], _, _, _, rfl, .here, by rw [← (show _ = q from he)]; exact .field h1 h2 h3 h4⟩
    | cons x p =>
      simp only [List.cons_append, List.cons.injEq] at he
      obtain ⟨rfl, he⟩ := he
      obtain ⟨st1, st2, t1, v1, e, g1, g2⟩ := ih he
      exact ⟨_ :: st1, st2, t1, v1, by rw [e]; rfl, .field h1 h2 h3 g1, g2⟩
  | unwrap h1 ih =>
    intro p q he
    cases p with
    | nil => exact ⟨[], _, _, _, rfl, .here, by rw [← (show _ = q from he)]; exact .unwrap h1⟩
    | cons x p =>
      obtain ⟨st1, st2, t1, v1, e, g1, g2⟩ := ih he
      exact ⟨_ :: st1, st2, t1, v1, by rw [e]; rfl, .unwrap g1, g2⟩
  | entry h1 h2 ih =>
    intro p q he
    cases p with
    | nil => exact ⟨[], _, _, _, rfl, .here, by rw [← (show _ = q from he)]; exact .entry h1 h2⟩
    | cons x p =>
      simp only [List.cons_append, List.cons.injEq] at he
      obtain ⟨rfl, he⟩ := he
      obtain ⟨st1, st2, t1, v1, e, g1, g2⟩ := ih he
      exact ⟨_ :: st1, st2, t1, v1, by rw [e]; rfl, .entry h1 g1, g2⟩
  | item h1 h2 h3 h4 ih =>
    intro p q he
    cases p with
    | nil => exact ⟨[], _, _, _, rfl, .here, by rw [← (show _ = q from he)]; exact .item h1 h2 h3 h4⟩
    | cons x p =>
      simp only [List.cons_append, List.cons.injEq] at he
      obtain ⟨rfl, he⟩ := he
      obtain ⟨st1, st2, t1, v1, e, g1, g2⟩ := ih he
      exact ⟨_ :: st1, st2, t1, v1, by rw [e]; rfl, .item h1 h2 h3 g1, g2⟩
  | child h1 h2 h3 ih =>
    intro p q he
    cases p with
    | nil => exact ⟨[], _, _, _, rfl, .here, by rw [← (show _ = q from he)]; exact .child h1 h2 h3⟩
    | cons x p =>
      simp only [List.cons_append, List.cons.injEq] at he
      obtain ⟨rfl, he⟩ := he
      obtain ⟨st1, st2, t1, v1, e, g1, g2⟩ := ih he
      exact ⟨_ :: st1, st2, t1, v1, by rw [e]; rfl, .child h1 h2 g1, g2⟩

theorem leads_nodeOk {β : Type} {E : Env β} {ks : List Nat} {t : Ty} {v : Value} {path : List Str}
    {steps : List Step} {t' : Ty} {v' : Value} (h : Leads E ks t v path steps t' v') :
    ∀ {node : Node}, tyOk t = true → nodeOk node t → nodeOk (endNode node steps) t' := by
  induction h with
  | here => exact fun _ h => h
  | field h1 _ _ _ ih =>
    intro node ht hn
    simp only [tyOk] at ht
    refine ih (fieldsOk_get ht h1).2 ?_
    intro a ha
    cases ha
    exact (fieldsOk_get ht h1).1
  | unwrap _ ih => intro node ht hn; simp only [tyOk] at ht; exact ih ht (nodeOk_elem _ _)
  | entry _ _ ih => intro node ht hn; simp only [tyOk] at ht; exact ih ht (nodeOk_elem _ _)
  | item _ _ _ _ ih => intro node ht hn; simp only [tyOk] at ht; exact ih ht (nodeOk_elem _ _)
  | child _ _ _ ih => intro node ht hn; simp only [tyOk] at ht; exact ih ht (nodeOk_elem _ _)

/-! ### Visits from the root -/

/-- A well-typed resource value. -/
structure WT (T : Ty) (v : Value) : Prop where
  ok : tyOk T = true
  ty : HasTy T v

theorem visit_leads {β : Type} {E : Env β} {T : Ty} {v : Value} (hw : WT T v) {path : List Seg}
    {steps : List Step} {t : Ty} {u : Value} (h : LeadsTo E T v path steps t u) :
    visitAtPath E T v path 0 = .ok ⟨steps.map Step.pos, endNode .root steps, t, u, endCtx {} .root steps, []⟩ :=
  visit_of_leads h hw.ty hw.ok .root (nodeOk_root _) rfl {}

theorem visit_cases {β : Type} {E : Env β} {T : Ty} {v : Value} (hw : WT T v) (path : List Seg) :
    (¬ Resolves E T v path ∧ ∃ e, visitAtPath E T v path 0 = .error e ∧ isMissing e) ∨
    ∃ steps t u, LeadsTo E T v path steps t u := by
  cases h : visitAtPath E T v path 0 with
  | error e =>
    left
    refine ⟨?_, e, rfl, visit_proper E T .root v path {} hw.ty hw.ok (nodeOk_root _) e h⟩
    rintro ⟨steps, t, u, hl⟩
    rw [visit_leads hw hl] at h
    cases h
  | ok n =>
    right
    obtain ⟨steps, hf⟩ := visit_found E T .root v path {} n h
    exact ⟨steps, _, _, hf.leads⟩

/-- A path leads to at most one node. -/
theorem leads_unique {β : Type} {E : Env β} {T : Ty} {v : Value} (hw : WT T v) {path : List Seg}
    {s1 s2 : List Step} {t1 t2 : Ty} {u1 u2 : Value} (h1 : LeadsTo E T v path s1 t1 u1)
    (h2 : LeadsTo E T v path s2 t2 u2) : s1.map Step.pos = s2.map Step.pos ∧ t1 = t2 ∧ u1 = u2 := by
  have e1 := visit_leads hw h1
  have e2 := visit_leads hw h2
  rw [e1] at e2
  simp only [Except.ok.injEq, Target.mk.injEq] at e2
  exact ⟨e2.1, e2.2.2.1, e2.2.2.2.1⟩

theorem protected_unique {β : Type} {E : Env β} {T : Ty} {v : Value} (hw : WT T v) {path : List Seg}
    {s1 s2 : List Step} {t1 t2 : Ty} {u1 u2 : Value} (h1 : LeadsTo E T v path s1 t1 u1)
    (h2 : LeadsTo E T v path s2 t2 u2) : (Protected s1 ↔ Protected s2) ∧
      (ChildrenProtected s1 ↔ ChildrenProtected s2) := by
  have e1 := visit_leads hw h1
  have e2 := visit_leads hw h2
  rw [e1] at e2
  simp only [Except.ok.injEq, Target.mk.injEq] at e2
  rw [← readOnly_iff, ← readOnly_iff, ← childReadOnly_iff, ← childReadOnly_iff, e2.2.1, e2.2.2.2.2.1]
  exact ⟨Iff.rfl, Iff.rfl⟩

/-! ### Checked assignment and notification -/

theorem assign_cases {β : Type} (E : Env β) {T : Ty} {root : Value} {addr : List Nat} {old : Value}
    (h : root.get addr = some old) (new : Value) : ∃ v', Changed old new addr root v' ∧
      ((validateTree E T v' = .ok () ∧ assignChecked E T root addr old new = (v', .ok ())) ∨
       ∃ e, validateTree E T v' = .error e ∧ assignChecked E T root addr old new = (root, .error e)) := by
  obtain ⟨v', h1, h2, h3⟩ := get_set h new
  refine ⟨v', changed_of_set h h1, ?_⟩
  unfold assignChecked
  rw [h1]
  cases hv : validateTree E T v' with
  | ok u => left; simp [hv]
  | error e => right; exact ⟨e, rfl, by simp [hv, h3]⟩

theorem push_cases {β : Type} (E : Env β) {T : Ty} {root : Value} {addr : List Nat} {vs : List Value}
    (h : root.get addr = some (.seq vs)) (x : Value) : ∃ v', Changed (.seq vs) (.seq (vs ++ [x])) addr root v' ∧
      ((validateTree E T v' = .ok () ∧ pushChecked E T root addr vs x = (v', .ok ())) ∨
       ∃ e, validateTree E T v' = .error e ∧ pushChecked E T root addr vs x = (root, .error e)) := by
  obtain ⟨v', h1, h2, h3⟩ := get_set h (.seq (vs ++ [x]))
  refine ⟨v', changed_of_set h h1, ?_⟩
  unfold pushChecked
  rw [h1]
  cases hv : validateTree E T v' with
  | ok u => left; simp [hv]
  | error e => right; exact ⟨e, rfl, by simp [hv, h2, h3]⟩

/-- The tracker got these notifications since it was constructed. -/
def Tracked (t : Tracker) (hist : List Note) : Prop :=
  ∃ vs, Names vs hist ∧ runFrom {} vs = some t

theorem Tracked.inv {t : Tracker} {hist : List Note} (h : Tracked t hist) : Inv t hist := by
  obtain ⟨vs, h1, h2⟩ := h
  obtain ⟨t', e, hi⟩ := run_inv inv_init h1
  rw [h2] at e; cases e
  simpa using hi

theorem names_snoc {vs : List (View × Bool)} {ns : List Note} (h : Names vs ns) {w : View} {s : Bool}
    {loc : List Seg} (hs : Shows w loc) : Names (vs ++ [(w, s)]) (ns ++ [(loc, s)]) := by
  induction h with
  | nil => exact .cons hs .nil
  | cons h1 _ ih => exact .cons h1 ih

theorem notified_ok {t : Tracker} {hist : List Note} (h : Tracked t hist) {w : View} {loc : List Seg}
    (hs : Shows w loc) (root : Value) (sub : Bool) (s : Status) :
    ∃ t', notified root t (some w) sub s = (⟨root, t'⟩, .resp s []) ∧ Tracked t' (hist ++ [(loc, sub)]) := by
  obtain ⟨t', e, _⟩ := notify_inv h.inv hs sub
  refine ⟨t', by simp only [notified, e], ?_⟩
  obtain ⟨vs, h1, h2⟩ := h
  exact ⟨vs ++ [(w, sub)], names_snoc h1 hs, by rw [run_split _ _ h2]; simp [runFrom, e]⟩

theorem validity {β : Type} {E : Env β} {T : Ty} {v : Value} (hw : WT T v) :
    (validateTree E T v = .ok () → Spec.Valid E T v) ∧
    (∀ e, validateTree E T v = .error e → ¬ Spec.Valid E T v ∧ ValidationErr E e) := by
  refine ⟨validateTree_sound, ?_⟩
  intro e he
  rcases validateTree_judges (E := E) hw.ty hw.ok with h | ⟨e', h1, h2, h3⟩
  · rw [h] at he; cases he
  · rw [h1] at he; cases he
    exact ⟨h3, h2⟩

/-! ### put and patch -/

/-- A keyed element has its key members. -/
theorem child_keyOf {β : Type} {E : Env β} {T : Ty} {v : Value} {path : List Seg}
    {steps : List Step} {t : Ty} {u : Value} {ks : List Nat} (h : Leads E ks T v path steps t u) {key i : Nat}
    (hl : steps.getLast? = some (.child key i)) : ∃ k, KeyOf key u k := by
  induction h with
  | here => simp at hl
  | child h1 h2 h3 ih =>
    rename_i steps _ _
    cases steps with
    | nil =>
      simp at hl
      obtain ⟨rfl, rfl⟩ := hl
      cases h3
      obtain ⟨_, _, _, _, ⟨x, k, e1, e2, _⟩, _⟩ := h1
      rw [h2] at e1; cases e1
      exact ⟨k, e2⟩
    | cons s ss => exact ih (by simpa using hl)
  | field _ _ _ h4 ih =>
    rename_i steps _ _ _ _ _
    cases steps with
    | nil => simp at hl
    | cons s ss => exact ih (by simpa using hl)
  | unwrap h4 ih =>
    rename_i steps _ _
    cases steps with
    | nil => simp at hl
    | cons s ss => exact ih (by simpa using hl)
  | entry _ h4 ih =>
    rename_i steps _ _ _
    cases steps with
    | nil => simp at hl
    | cons s ss => exact ih (by simpa using hl)
  | item _ _ _ h4 ih =>
    rename_i steps _ _ _ _ _
    cases steps with
    | nil => simp at hl
    | cons s ss => exact ih (by simpa using hl)

theorem keyOf_typed {t : Ty} {u u' : Value} {key : Nat} {k : Value} (h : HasTy t u) (h' : HasTy t u')
    (hk : KeyOf key u k) : ∃ k', KeyOf key u' k' := by
  obtain ⟨vs, rfl, hk⟩ := hk
  cases t with
  | record id fs =>
    cases u' with
    | record vs' =>
      simp only [HasTy] at h h'
      have h1 := hasTys_length h
      have h2 := hasTys_length h'
      have hlt : key < vs'.length := by
        have := (List.getElem?_eq_some_iff.1 hk).1
        omega
      exact ⟨vs'[key], vs', rfl, by simp [hlt]⟩
    | _ => simp [HasTy] at h'
  | _ => simp [HasTy] at h

theorem endNode_last (node : Node) (steps : List Step) (h : steps ≠ []) :
    ∃ s, steps.getLast? = some s ∧ endNode node steps = stepNode s := by
  induction steps generalizing node with
  | nil => exact absurd rfl h
  | cons s ss ih =>
    cases ss with
    | nil => exact ⟨s, rfl, rfl⟩
    | cons s' ss =>
      obtain ⟨x, h1, h2⟩ := ih (stepNode s) (by simp)
      exact ⟨x, by rw [List.getLast?_cons_cons]; exact h1, h2⟩

theorem preserves_iff {β : Type} {E : Env β} {T : Ty} {v : Value} (hw : WT T v) {path : List Seg}
    {steps : List Step} {t : Ty} {old new : Value} (h : LeadsTo E T v path steps t old) (hn : HasTy t new) :
    ∃ b, (endNode .root steps).preservesIdentity E old new = .ok b ∧ (b = true ↔ SameKey E steps old new) := by
  have ht := (leads_typed h hw.ty hw.ok).1
  by_cases hs : steps = []
  · subst hs
    exact ⟨true, rfl, by simp [SameKey]⟩
  · obtain ⟨s, hl, he⟩ := endNode_last .root steps hs
    rw [he]
    cases s with
    | child key i =>
      obtain ⟨k, hk⟩ := child_keyOf h hl
      obtain ⟨k', hk'⟩ := keyOf_typed ht hn hk
      refine ⟨E.keyEq k k', by simp [stepNode, Node.preservesIdentity, member_iff.2 hk, member_iff.2 hk'], ?_⟩
      unfold SameKey
      constructor
      · intro hb key' i' hl' a b ha hb'
        rw [hl] at hl'; cases hl'
        obtain ⟨_, rfl, g1⟩ := hk
        obtain ⟨_, e, g2⟩ := ha
        cases e; rw [g1] at g2; cases g2
        obtain ⟨_, rfl, g3⟩ := hk'
        obtain ⟨_, e, g4⟩ := hb'
        cases e; rw [g3] at g4; cases g4
        exact hb
      · intro hsk
        exact hsk key i hl k k' hk hk'
    | _ => exact ⟨true, rfl, by simp [SameKey, hl]⟩

/-- The rows of the decision table of `put` and `patch`. -/
inductive PutRow {β : Type} (E : Env β) (f : Ty → Value → β → Except Exc Value) (T : Ty) (r : Resource)
    (hist : List Note) (loc : List Seg) (body : β) : Resource → Outcome → Prop
  | missing : ¬ Resolves E T r.value loc → PutRow E f T r hist loc body r (.resp .notFound [])
  | readOnly {steps t old} : LeadsTo E T r.value loc steps t old → Protected steps →
      PutRow E f T r hist loc body r (.resp .methodNotAllowed [])
  | rejected {steps t old e} : LeadsTo E T r.value loc steps t old → ¬ Protected steps →
      f t old body = .error e → PutRow E f T r hist loc body r (catchPut (.throws e))
  | identity {steps t old new} : LeadsTo E T r.value loc steps t old → ¬ Protected steps →
      f t old body = .ok new → ¬ SameKey E steps old new →
      PutRow E f T r hist loc body r (.resp .methodNotAllowed [])
  | invalid {steps t old new v' e} : LeadsTo E T r.value loc steps t old → ¬ Protected steps →
      f t old body = .ok new → SameKey E steps old new →
      Changed old new (steps.map Step.pos) r.value v' → WT T v' → ¬ Spec.Valid E T v' → ValidationErr E e →
      PutRow E f T r hist loc body r (catchPut e)
  | done {steps t old new v' t'} : LeadsTo E T r.value loc steps t old → ¬ Protected steps →
      f t old body = .ok new → SameKey E steps old new →
      Changed old new (steps.map Step.pos) r.value v' → WT T v' → Spec.Valid E T v' →
      Tracked t' (hist ++ [(loc, addressableDescendants t)]) →
      PutRow E f T r hist loc body ⟨v', t'⟩ (.resp .ok [])

theorem put_row {β : Type} (E : Env β) (f : Ty → Value → β → Except Exc Value)
    (hf : ∀ t v b v', HasTy t v → f t v b = .ok v' → HasTy t v') {T : Ty} {r : Resource} (hw : WT T r.value)
    {hist : List Note} (ht : Tracked r.tracker hist) {w : View} {loc : List Seg} (hp : PathTo w loc) (body : β) :
    PutRow E f T r hist loc body (replaceNode E f T r w body).1 (replaceNode E f T r w body).2 := by
  unfold replaceNode
  rw [hp.segs]
  rcases visit_cases hw (E := E) loc with ⟨hn, e, he, hm⟩ | ⟨steps, t, old, hl⟩
  · simp only [he]
    have : catchPut e = .resp .notFound [] := by
      unfold isMissing at hm
      split at hm <;> first | rfl | exact absurd hm id
    rw [this]
    exact .missing hn
  · simp only [visit_leads hw hl]
    by_cases hro : Protected steps
    · rw [if_pos ((readOnly_iff steps).2 hro)]
      exact .readOnly hl hro
    · rw [if_neg (fun h => hro ((readOnly_iff steps).1 h))]
      cases hfo : f t old body with
      | error e => exact .rejected hl hro hfo
      | ok new =>
        have hty := leads_typed hl hw.ty hw.ok
        have hnew := hf t old body new hty.1 hfo
        obtain ⟨b, hb, hbi⟩ := preserves_iff hw hl hnew
        simp only [liftUser, hb]
        cases b with
        | false => exact .identity hl hro hfo (fun h => by simpa using hbi.2 h)
        | true =>
          have hsk := hbi.1 rfl
          obtain ⟨v', hc, hv | ⟨e, he, ha⟩⟩ := assign_cases E (T := T) (leads_get hl) new
          · have hwv : WT T v' := ⟨hw.ok, changed_typed hl hw.ty hnew hc⟩
            simp only [hv.2]
            obtain ⟨t', e1, e2⟩ := notified_ok ht hp.shows v' (addressableDescendants t) .ok
            rw [e1]
            exact .done hl hro hfo hsk hc hwv ((validity hwv).1 hv.1) e2
          · have hwv : WT T v' := ⟨hw.ok, changed_typed hl hw.ty hnew hc⟩
            simp only [ha]
            obtain ⟨g1, g2⟩ := (validity hwv).2 e he
            exact .invalid hl hro hfo hsk hc hwv g1 g2

/-! ### post -/

theorem endKeys_root (steps : List Step) : (endNode .root steps).childKeys = endKeys [] steps :=
  endNode_keys .root steps

theorem mapM_member {vs : List Value} {k : Nat} {keys : List Value} (h : vs.mapM (member · k) = some keys) :
    ∀ x, x ∈ keys ↔ ∃ v ∈ vs, KeyOf k v x := by
  induction vs generalizing keys with
  | nil => simp at h; subst h; simp
  | cons v vs ih =>
    rw [List.mapM_cons] at h
    simp only [Option.bind_eq_bind, Option.bind_eq_some_iff, Option.pure_def, Option.some.injEq] at h
    obtain ⟨a, ha, b, hb, rfl⟩ := h
    intro x
    rw [List.mem_cons, ih hb]
    constructor
    · rintro (rfl | ⟨u, h1, h2⟩)
      · exact ⟨v, by simp, member_iff.1 ha⟩
      · exact ⟨u, by simp [h1], h2⟩
    · rintro ⟨u, h1, h2⟩
      rcases List.mem_cons.1 h1 with rfl | h1
      · left
        have := member_iff.2 h2
        rw [ha] at this; cases this; rfl
      · exact .inr ⟨u, h1, h2⟩

theorem mapM_total {vs : List Value} {k : Nat} (h : ∀ v ∈ vs, (member v k).isSome = true) :
    ∃ keys, vs.mapM (member · k) = some keys := by
  induction vs with
  | nil => exact ⟨[], rfl⟩
  | cons v vs ih =>
    obtain ⟨keys, hk⟩ := ih (fun v hv => h v (by simp [hv]))
    obtain ⟨a, ha⟩ := Option.isSome_iff_exists.1 (h v (by simp))
    exact ⟨a :: keys, by rw [List.mapM_cons]; simp [ha, hk]⟩

/-- The candidate has the key of an element. -/
def Duplicate {β : Type} (E : Env β) (ks : List Nat) (vs : List Value) (x : Value) : Prop :=
  ∃ k ∈ ks, ∃ v ∈ vs, ∃ a b, KeyOf k v a ∧ KeyOf k x b ∧ E.keyEq a b = true

theorem duplicate_cases {β : Type} (E : Env β) {ks : List Nat} {vs : List Value} {x : Value}
    (hm : ∀ k ∈ ks, ∀ v ∈ vs ++ [x], (member v k).isSome = true) :
    (checkDuplicateChildKey E vs x ks = .ok () ∧ ¬ Duplicate E ks vs x) ∨
    (checkDuplicateChildKey E vs x ks = .error (.throws .duplicateKey) ∧ Duplicate E ks vs x) := by
  induction ks with
  | nil => left; exact ⟨rfl, by simp [Duplicate]⟩
  | cons k ks ih =>
    obtain ⟨keys, hk⟩ := mapM_total (vs := vs) (k := k) (fun v hv => hm k (by simp) v (by simp [hv]))
    obtain ⟨b, hb⟩ := Option.isSome_iff_exists.1 (hm k (by simp) x (by simp))
    unfold checkDuplicateChildKey
    simp only [hk, hb]
    have hmem := mapM_member hk
    by_cases hany : keys.any (E.keyEq · b) = true
    · rw [if_pos hany]
      right
      refine ⟨rfl, ?_⟩
      obtain ⟨a, ha, he⟩ := List.any_eq_true.1 hany
      obtain ⟨v, hv, hkv⟩ := (hmem a).1 ha
      exact ⟨k, by simp, v, hv, a, b, hkv, member_iff.1 hb, he⟩
    · rw [if_neg hany]
      rcases ih (fun k' hk' => hm k' (by simp [hk'])) with ⟨h1, h2⟩ | ⟨h1, h2⟩
      · left
        refine ⟨h1, ?_⟩
        rintro ⟨k', hk', v, hv, a, b', h3, h4, h5⟩
        rcases List.mem_cons.1 hk' with rfl | hk'
        · have := member_iff.2 h4
          rw [hb] at this; cases this
          exact hany (List.any_eq_true.2 ⟨a, (hmem a).2 ⟨v, hv, h3⟩, h5⟩)
        · exact h2 ⟨k', hk', v, hv, a, b', h3, h4, h5⟩
      · right
        obtain ⟨k', hk', h3⟩ := h2
        exact ⟨h1, k', by simp [hk'], h3⟩

theorem validateCandidate_cases {β : Type} (E : Env β) (t : Ty) (v : Value) (hv : HasTy t v) :
    validateCandidate E t v = .ok () ∨ ∃ e, validateCandidate E t v = .error e ∧ ValidationErr E e := by
  match t with
  | .opt t =>
    unfold validateCandidate
    rcases liftUser_cases E (.opt t) v with ⟨h, _⟩ | ⟨e, h, h2, _⟩
    · simp only [h]
      cases v with
      | opt o =>
        cases o with
        | none => exact .inl rfl
        | some w =>
          simp only [HasTy] at hv
          exact validateCandidate_cases E t w (hv w rfl)
      | _ => simp [HasTy] at hv
    · simp only [h]; exact .inr ⟨e, rfl, h2⟩
  | .leaf id =>
    unfold validateCandidate
    rcases liftUser_cases E (.leaf id) v with ⟨h, _⟩ | ⟨e, h, h2, _⟩
    · exact .inl h
    · exact .inr ⟨e, h, h2⟩
  | .record id fs =>
    unfold validateCandidate
    rcases liftUser_cases E (.record id fs) v with ⟨h, _⟩ | ⟨e, h, h2, _⟩
    · exact .inl h
    · exact .inr ⟨e, h, h2⟩
  | .map er t =>
    unfold validateCandidate
    rcases liftUser_cases E (.map er t) v with ⟨h, _⟩ | ⟨e, h, h2, _⟩
    · exact .inl h
    · exact .inr ⟨e, h, h2⟩
  | .seq k t =>
    unfold validateCandidate
    rcases liftUser_cases E (.seq k t) v with ⟨h, _⟩ | ⟨e, h, h2, _⟩
    · exact .inl h
    · exact .inr ⟨e, h, h2⟩

/-- The rows of the decision table of `post`. -/
inductive PostRow {β : Type} (E : Env β) (T : Ty) (r : Resource)
    (hist : List Note) (loc : List Seg) (body : β) : Resource → Outcome → Prop
  | missing : ¬ Resolves E T r.value loc → PostRow E T r hist loc body r (.resp .notFound [])
  | readOnly {steps t old} : LeadsTo E T r.value loc steps t old → ChildrenProtected steps →
      PostRow E T r hist loc body r (.resp .methodNotAllowed [])
  | notCollection {steps t old} : LeadsTo E T r.value loc steps t old → ¬ ChildrenProtected steps →
      (∀ k u, t = .seq k u → k.push = false) →
      PostRow E T r hist loc body r (.resp .methodNotAllowed [])
  | rejected {steps k t vs e} : LeadsTo E T r.value loc steps (.seq k t) (.seq vs) → ¬ ChildrenProtected steps →
      k.push = true → E.deser t (E.fresh t) body = .error e → PostRow E T r hist loc body r (catchPut (.throws e))
  | duplicate {steps k t vs x} : LeadsTo E T r.value loc steps (.seq k t) (.seq vs) → ¬ ChildrenProtected steps →
      k.push = true → E.deser t (E.fresh t) body = .ok x → Duplicate E (endKeys [] steps) vs x →
      PostRow E T r hist loc body r (.resp .conflict duplicateText)
  | candidate {steps k t vs x e} : LeadsTo E T r.value loc steps (.seq k t) (.seq vs) → ¬ ChildrenProtected steps →
      k.push = true → E.deser t (E.fresh t) body = .ok x → ¬ Duplicate E (endKeys [] steps) vs x →
      validateCandidate E t x = .error e → ValidationErr E e → PostRow E T r hist loc body r (catchPut e)
  | invalid {steps k t vs x v' e} : LeadsTo E T r.value loc steps (.seq k t) (.seq vs) → ¬ ChildrenProtected steps →
      k.push = true → E.deser t (E.fresh t) body = .ok x → ¬ Duplicate E (endKeys [] steps) vs x →
      validateCandidate E t x = .ok () →
      Changed (.seq vs) (.seq (vs ++ [x])) (steps.map Step.pos) r.value v' → WT T v' → ¬ Spec.Valid E T v' →
      ValidationErr E e → PostRow E T r hist loc body r (catchPut e)
  | done {steps k t vs x v' t'} : LeadsTo E T r.value loc steps (.seq k t) (.seq vs) → ¬ ChildrenProtected steps →
      k.push = true → E.deser t (E.fresh t) body = .ok x → ¬ Duplicate E (endKeys [] steps) vs x →
      validateCandidate E t x = .ok () →
      Changed (.seq vs) (.seq (vs ++ [x])) (steps.map Step.pos) r.value v' → WT T v' → Spec.Valid E T v' →
      Tracked t' (hist ++ [(loc, true)]) →
      PostRow E T r hist loc body ⟨v', t'⟩ (.resp .created [])

theorem post_row {β : Type} (E : Env β) (hE : Typed E) {T : Ty} {r : Resource} (hw : WT T r.value)
    {hist : List Note} (ht : Tracked r.tracker hist) {w : View} {loc : List Seg} (hp : PathTo w loc) (body : β) :
    PostRow E T r hist loc body (post E T r w body).1 (post E T r w body).2 := by
  unfold post
  rw [hp.segs]
  rcases visit_cases hw (E := E) loc with ⟨hn, e, he, hm⟩ | ⟨steps, t, old, hl⟩
  · simp only [he]
    have : catchPut e = .resp .notFound [] := by
      unfold isMissing at hm
      split at hm <;> first | rfl | exact absurd hm id
    rw [this]
    exact .missing hn
  · simp only [visit_leads hw hl]
    by_cases hro : ChildrenProtected steps
    · rw [if_pos ((childReadOnly_iff steps).2 hro)]
      exact .readOnly hl hro
    · rw [if_neg (fun h => hro ((childReadOnly_iff steps).1 h))]
      have hty := leads_typed hl hw.ty hw.ok
      cases t with
      | seq k t =>
        cases old with
        | seq vs =>
          dsimp only
          by_cases hk : k.push = true
          · rw [if_pos hk]
            cases hd : E.deser t (E.fresh t) body with
            | error e => exact .rejected hl hro hk hd
            | ok x =>
              have hx := hE.deser t _ body x (hE.fresh t) hd
              have hnok := leads_nodeOk hl hw.ok (nodeOk_root T)
              have hsv : ∀ v ∈ vs ++ [x], HasTy t v := by
                intro v hv
                simp only [HasTy] at hty
                rcases List.mem_append.1 hv with hv | hv
                · exact hty.1 v hv
                · rw [List.mem_singleton.1 hv]; exact hx
              have hmem := members_ok hnok hsv
              simp only [liftUser, endKeys_root] at hmem ⊢
              rcases duplicate_cases E hmem with ⟨h1, h2⟩ | ⟨h1, h2⟩
              · simp only [h1]
                rcases validateCandidate_cases E t x hx with h3 | ⟨e, h3, h4⟩
                · simp only [h3]
                  have hnew : HasTy (.seq k t) (.seq (vs ++ [x])) := by simp only [HasTy]; exact hsv
                  obtain ⟨v', hc, hv | ⟨e, he, ha⟩⟩ := push_cases E (T := T) (leads_get hl) x
                  · have hwv : WT T v' := ⟨hw.ok, changed_typed hl hw.ty hnew hc⟩
                    simp only [hv.2]
                    obtain ⟨t', e1, e2⟩ := notified_ok ht hp.shows v' true .created
                    rw [e1]
                    exact .done hl hro hk hd h2 h3 hc hwv ((validity hwv).1 hv.1) e2
                  · have hwv : WT T v' := ⟨hw.ok, changed_typed hl hw.ty hnew hc⟩
                    simp only [ha]
                    obtain ⟨g1, g2⟩ := (validity hwv).2 e he
                    exact .invalid hl hro hk hd h2 h3 hc hwv g1 g2
                · simp only [h3]
                  exact .candidate hl hro hk hd h2 h3 h4
              · simp only [h1]
                exact .duplicate hl hro hk hd h2
          · rw [if_neg hk]
            exact .notCollection hl hro (fun k' u e => by cases e; simpa using hk)
        | _ => simp [HasTy] at hty
      | _ => exact .notCollection hl hro (fun _ _ e => by cases e)

/-! ### del -/

/-- The rows of the decision table of `del`. -/
inductive DelRow {β : Type} (E : Env β) (T : Ty) (r : Resource)
    (hist : List Note) (loc : List Seg) : Resource → Outcome → Prop
  | missing : ¬ Resolves E T r.value loc → DelRow E T r hist loc r (.resp .notFound [])
  /-- an index at or behind the end of a sequence from which nothing can be deleted -/
  | noIndex {c s steps k t vs} : loc = c ++ [s] → LeadsTo E T r.value c steps (.seq k t) (.seq vs) →
      ¬ Resolves E T r.value loc → (ChildrenProtected steps ∨ k.erase = false) →
      DelRow E T r hist loc r (.resp .methodNotAllowed [])
  | childReadOnly {c s steps t u st t1 u1} : loc = c ++ [s] → LeadsTo E T r.value c steps t u →
      LeadsTo E T r.value loc (steps ++ [st]) t1 u1 → isCollection t = true → ChildrenProtected steps →
      DelRow E T r hist loc r (.resp .methodNotAllowed [])
  | notErasable {c s steps t u st t1 u1} : loc = c ++ [s] → LeadsTo E T r.value c steps t u →
      LeadsTo E T r.value loc (steps ++ [st]) t1 u1 → isCollection t = true → ¬ ChildrenProtected steps →
      erasable t = false → DelRow E T r hist loc r (.resp .methodNotAllowed [])
  | childInvalid {c s steps t u st t1 u1 v' e} : loc = c ++ [s] → LeadsTo E T r.value c steps t u →
      LeadsTo E T r.value loc (steps ++ [st]) t1 u1 → isCollection t = true → ¬ ChildrenProtected steps →
      erasable t = true → Changed u (without u st.pos) (steps.map Step.pos) r.value v' → WT T v' →
      ¬ Spec.Valid E T v' → ValidationErr E e → DelRow E T r hist loc r (catchDel e)
  | childDone {c s steps t u st t1 u1 v' t'} : loc = c ++ [s] → LeadsTo E T r.value c steps t u →
      LeadsTo E T r.value loc (steps ++ [st]) t1 u1 → isCollection t = true → ¬ ChildrenProtected steps →
      erasable t = true → Changed u (without u st.pos) (steps.map Step.pos) r.value v' → WT T v' →
      Spec.Valid E T v' → Tracked t' (hist ++ [(c, true)]) →
      DelRow E T r hist loc ⟨v', t'⟩ (.resp .noContent [])
  | readOnly {steps t u} : LeadsTo E T r.value loc steps t u →
      ¬ InCollection E T r.value loc → Protected steps →
      DelRow E T r hist loc r (.resp .methodNotAllowed [])
  | notOptional {steps t u} : LeadsTo E T r.value loc steps t u →
      ¬ InCollection E T r.value loc → ¬ Protected steps →
      (∀ t', t ≠ .opt t') → DelRow E T r hist loc r (.resp .methodNotAllowed [])
  | candidate {steps t u e} : LeadsTo E T r.value loc steps (.opt t) (.opt u) →
      ¬ InCollection E T r.value loc → ¬ Protected steps →
      ((∃ x, u = some x ∧ validateCandidate E t x = .error e) ∨ E.validate (.opt t) (.opt none) ≠ .ok ()) →
      ValidationErr E e → DelRow E T r hist loc r (catchDel e)
  | invalid {steps t u v' e} : LeadsTo E T r.value loc steps (.opt t) (.opt u) →
      ¬ InCollection E T r.value loc → ¬ Protected steps →
      (∀ x, u = some x → validateCandidate E t x = .ok ()) →
      Changed (.opt u) (.opt none) (steps.map Step.pos) r.value v' → WT T v' →
      ¬ Spec.Valid E T v' → ValidationErr E e → DelRow E T r hist loc r (catchDel e)
  | done {steps t u v' t'} : LeadsTo E T r.value loc steps (.opt t) (.opt u) →
      ¬ InCollection E T r.value loc → ¬ Protected steps →
      (∀ x, u = some x → validateCandidate E t x = .ok ()) →
      Changed (.opt u) (.opt none) (steps.map Step.pos) r.value v' → WT T v' →
      Spec.Valid E T v' → Tracked t' (hist ++ [(loc, isReflectable t)]) →
      DelRow E T r hist loc ⟨v', t'⟩ (.resp .noContent [])

theorem catchDel_missing {e : Err} (hm : isMissing e) : catchDel e = .resp .notFound [] := by
  unfold isMissing at hm
  split at hm <;> first | rfl | exact absurd hm id

theorem deleteOptional_row {β : Type} (E : Env β) {T : Ty} {r : Resource} (hw : WT T r.value)
    {hist : List Note} (ht : Tracked r.tracker hist) {w : View} {loc : List Seg} (hp : PathTo w loc)
    (hcs : ¬ InCollection E T r.value loc) :
    DelRow E T r hist loc (deleteOptional E T r w loc).1 (deleteOptional E T r w loc).2 := by
  unfold deleteOptional
  rcases visit_cases hw (E := E) loc with ⟨hn, e, he, hm⟩ | ⟨steps, t, old, hl⟩
  · simp only [he, catchDel_missing hm]
    exact .missing hn
  · simp only [visit_leads hw hl]
    by_cases hro : Protected steps
    · rw [if_pos ((readOnly_iff steps).2 hro)]
      exact .readOnly hl hcs hro
    · rw [if_neg (fun h => hro ((readOnly_iff steps).1 h))]
      have hty := leads_typed hl hw.ty hw.ok
      cases t with
      | opt t =>
        cases old with
        | opt u =>
          dsimp only
          have hcand : (validateHeld E t u = .ok () ∧ ∀ x, u = some x → validateCandidate E t x = .ok ()) ∨
               ∃ e x, validateHeld E t u = .error e ∧ u = some x ∧ validateCandidate E t x = .error e ∧
                 ValidationErr E e := by
            cases u with
            | none => exact .inl ⟨rfl, by simp⟩
            | some x =>
              simp only [HasTy] at hty
              rcases validateCandidate_cases E t x (hty.1 x rfl) with h | ⟨e, h, h2⟩
              · exact .inl ⟨h, by simpa using h⟩
              · exact .inr ⟨e, x, h, rfl, h, h2⟩
          rcases hcand with ⟨h, hx⟩ | ⟨e, x, h, h2, h3, h4⟩ <;> rw [h]
          · dsimp only
            have hnone : validateCandidate E (.opt t) (.opt none) =
                liftUser (E.validate (.opt t) (.opt none)) := by
              unfold validateCandidate
              cases liftUser (E.validate (.opt t) (.opt none)) <;> rfl
            rw [hnone]
            rcases liftUser_cases E (.opt t) (.opt none) with ⟨h1, _⟩ | ⟨e, h1, h2, h3⟩
            · simp only [h1]
              have hnew : HasTy (.opt t) (.opt none) := by simp [HasTy]
              obtain ⟨v', hc, hv | ⟨e, he, ha⟩⟩ := assign_cases E (T := T) (leads_get hl) (.opt none)
              · have hwv : WT T v' := ⟨hw.ok, changed_typed hl hw.ty hnew hc⟩
                simp only [hv.2]
                obtain ⟨t', e1, e2⟩ := notified_ok ht hp.shows v' (isReflectable t) .noContent
                rw [e1]
                exact .done hl hcs hro hx hc hwv ((validity hwv).1 hv.1) e2
              · have hwv : WT T v' := ⟨hw.ok, changed_typed hl hw.ty hnew hc⟩
                simp only [ha]
                obtain ⟨g1, g2⟩ := (validity hwv).2 e he
                exact .invalid hl hcs hro hx hc hwv g1 g2
            · simp only [h1]
              exact .candidate hl hcs hro (.inr h3) h2
          · exact .candidate hl hcs hro (.inl ⟨x, h2, h3⟩) h4
        | _ => simp [HasTy] at hty
      | _ => exact .notOptional hl hcs hro (fun _ e => by cases e)

theorem hasTy_without {t : Ty} {u : Value} (h : HasTy t u) (i : Nat) : HasTy t (without u i) := by
  cases u with
  | map es =>
    cases t with
    | map er t =>
      simp only [HasTy, without] at h ⊢
      refine ⟨?_, fun e he => h.2 e (List.mem_of_mem_eraseIdx he)⟩
      have hs : ((es.eraseIdx i).map (·.1)).Sublist (es.map (·.1)) :=
        (List.eraseIdx_sublist es i).map _
      exact hs.nodup h.1
    | _ => simp [HasTy] at h
  | seq vs =>
    cases t with
    | seq k t =>
      simp only [HasTy, without] at h ⊢
      exact fun e he => h e (List.mem_of_mem_eraseIdx he)
    | _ => simp [HasTy] at h
  | _ => exact h

theorem erase_row {β : Type} (E : Env β) {T : Ty} {r : Resource} (hw : WT T r.value)
    {hist : List Note} (ht : Tracked r.tracker hist) {w : View} {c : List Seg} {s : Seg} (hp : PathTo w (c ++ [s]))
    {steps : List Step} {t : Ty} {u : Value} {st : Step} {t1 : Ty} {u1 : Value} {rest : List Seg}
    (hl : LeadsTo E T r.value c steps t u) (hl1 : LeadsTo E T r.value (c ++ [s]) (steps ++ [st]) t1 u1)
    (hst : isCollection t = true) (hro : ¬ ChildrenProtected steps) (her : erasable t = true) :
    ∃ x, eraseChecked E T r w ⟨steps.map Step.pos, endNode .root steps, t, u, endCtx {} .root steps, rest⟩
      (without u st.pos) = x ∧ DelRow E T r hist (c ++ [s]) x.1 x.2 := by
  refine ⟨_, rfl, ?_⟩
  unfold eraseChecked
  have hnew := hasTy_without (leads_typed hl hw.ty hw.ok).1 st.pos
  obtain ⟨w', hw', hs'⟩ := hp.dropBack (by simp)
  rw [List.dropLast_concat] at hs'
  obtain ⟨v', hc, hv | ⟨e, he, ha⟩⟩ := assign_cases E (T := T) (leads_get hl) (without u st.pos)
  · have hwv : WT T v' := ⟨hw.ok, changed_typed hl hw.ty hnew hc⟩
    simp only [hv.2, hw']
    obtain ⟨t', e1, e2⟩ := notified_ok ht hs' v' true .noContent
    rw [e1]
    exact .childDone rfl hl hl1 hst hro her hc hwv ((validity hwv).1 hv.1) e2
  · have hwv : WT T v' := ⟨hw.ok, changed_typed hl hw.ty hnew hc⟩
    simp only [ha]
    obtain ⟨g1, g2⟩ := (validity hwv).2 e he
    exact .childInvalid rfl hl hl1 hst hro her hc hwv g1 g2

theorem leads_last {β : Type} {E : Env β} {T : Ty} {v : Value} (hw : WT T v) {c : List Seg} {s : Seg}
    {steps stc : List Step} {t tc : Ty} {u uc : Value} (h : LeadsTo E T v (c ++ [s]) steps t u)
    (hc : LeadsTo E T v c stc tc uc) :
    ∃ st1 st2, steps = st1 ++ st2 ∧ LeadsTo E T v c st1 tc uc ∧ Leads E (endKeys [] st1) tc uc [s] st2 t u ∧
      endKeys [] st1 = endKeys [] stc := by
  obtain ⟨st1, st2, t1, v1, e, h1, h2⟩ := leads_split h rfl
  have hv1 := visit_leads hw h1
  have hv2 := visit_leads hw hc
  rw [hv1] at hv2
  simp only [Except.ok.injEq, Target.mk.injEq] at hv2
  obtain ⟨-, hn, rfl, rfl, -⟩ := hv2
  exact ⟨st1, st2, e, h1, h2, by rw [← endKeys_root, ← endKeys_root, hn]⟩

theorem not_inCollection {β : Type} {E : Env β} {T : Ty} {v : Value} (hw : WT T v) {c : List Seg} {s : Seg}
    {steps : List Step} {t : Ty} {u : Value} (h : LeadsTo E T v c steps t u) (ht : isCollection t = false) :
    ¬ InCollection E T v (c ++ [s]) := by
  rintro ⟨c', s', st', t', u', e, h', ht'⟩
  have := List.append_inj' e rfl
  obtain ⟨rfl, -⟩ := this
  obtain ⟨-, rfl, -⟩ := leads_unique hw h h'
  rw [ht] at ht'; cases ht'

theorem del_row {β : Type} (E : Env β) {T : Ty} {r : Resource} (hw : WT T r.value)
    {hist : List Note} (ht : Tracked r.tracker hist) {w : View} {loc : List Seg} (hp : PathTo w loc) :
    DelRow E T r hist loc (del E T r w).1 (del E T r w).2 := by
  unfold del
  rw [hp.segs]
  dsimp only
  by_cases hne : loc = []
  · subst hne
    rw [if_neg (by simp)]
    refine deleteOptional_row E hw ht hp ?_
    rintro ⟨c, s, _, _, _, e, _⟩
    simp at e
  · rw [if_pos hne]
    obtain ⟨c, s, rfl⟩ : ∃ c s, loc = c ++ [s] := ⟨loc.dropLast, loc.getLast hne, (List.dropLast_concat_getLast hne).symm⟩
    have hstop : visitAtPath E T r.value (c ++ [s]) 1 = (visitAtPath E T r.value c 0).map (withRest s) :=
      visit_stop E T .root r.value c s {}
    rw [hstop]
    rcases visit_cases hw (E := E) c with ⟨hn, e, he, hm⟩ | ⟨steps, t, u, hl⟩
    · simp only [he, Except.map, catchDel_missing hm]
      refine .missing ?_
      rintro ⟨st, t', u', h⟩
      obtain ⟨st1, _, t1, v1, _, h1, _⟩ := leads_split h rfl
      exact hn ⟨st1, t1, v1, h1⟩
    · simp only [visit_leads hw hl, Except.map, withRest]
      have hty := leads_typed hl hw.ty hw.ok
      have hnok := leads_nodeOk hl hw.ok (nodeOk_root T)
      have hnone : ∀ {st : List Step} {t' : Ty} {u' : Value}, LeadsTo E T r.value (c ++ [s]) st t' u' →
          ∃ st2, Leads E (endKeys [] steps) t u [s] st2 t' u' := by
        intro st t' u' h
        obtain ⟨st1, st2, _, _, h2, h3⟩ := leads_last hw h hl
        exact ⟨st2, by rw [← h3]; exact h2⟩
      unfold deleteDirectChild
      cases t with
      | map er t =>
        cases u with
        | map es =>
          dsimp only
          simp only [HasTy] at hty
          cases hk : findKey es s with
          | none =>
            refine .missing ?_
            rintro ⟨st, t', u', h⟩
            obtain ⟨st2, h2⟩ := hnone h
            generalize endKeys [] steps = ks at h2
            cases h2 with
            | entry h3 _ => rw [findKey_of hty.1.1 h3] at hk; cases hk
          | some i =>
            have hg : ∃ v, es[i]? = some (s, v) := by
              unfold findKey at hk
              obtain ⟨hi, h1, _⟩ := List.findIdx?_eq_some_iff_getElem.1 hk
              exact ⟨es[i].2, by rw [List.getElem?_eq_getElem hi, ← (by simpa using h1 : es[i].1 = s)]⟩
            obtain ⟨v, hv⟩ := hg
            have hl1 : LeadsTo E T r.value (c ++ [s]) (steps ++ [.entry i]) t v :=
              leads_append hl (.entry hv .here)
            dsimp only
            by_cases hro : ChildrenProtected steps
            · rw [if_pos ((childReadOnly_iff steps).2 hro)]
              exact .childReadOnly rfl hl hl1 rfl hro
            · rw [if_neg (fun h => hro ((childReadOnly_iff steps).1 h))]
              cases er with
              | false => exact .notErasable rfl hl hl1 rfl hro rfl
              | true =>
                obtain ⟨x, e, hx⟩ := erase_row E hw ht hp hl hl1 rfl hro rfl (rest := [s])
                simp only [without, Step.pos] at e
                rw [if_pos rfl, e]
                exact hx
        | _ => simp [HasTy] at hty
      | seq k t =>
        cases u with
        | seq vs =>
          dsimp only
          simp only [HasTy] at hty
          have hkeys := endKeys_root steps
          by_cases hks : endKeys [] steps = []
          · rw [if_neg (by rw [hkeys]; simpa using hks)]
            by_cases hat : k.at_ = true
            · rw [if_pos hat]
              dsimp only
              cases hpi : parseIndex s with
              | none =>
                refine .missing ?_
                rintro ⟨st, t', u', h⟩
                obtain ⟨st2, h2⟩ := hnone h
                rw [hks] at h2
                cases h2 with
                | item _ h3 _ _ => rw [(parseIndex_iff s _).2 h3] at hpi; cases hpi
                | child hsel _ _ => obtain ⟨b, a, e, _⟩ := hsel; simp at e
              | some i =>
                have hit := (parseIndex_iff s i).1 hpi
                have hl1 : ∀ v, vs[i]? = some v →
                    LeadsTo E T r.value (c ++ [s]) (steps ++ [.item i]) t v := fun v hv =>
                  leads_append hl (by rw [hks]; exact .item hat hit hv .here)
                have hno : vs[i]? = none → ¬ Resolves E T r.value (c ++ [s]) := by
                  rintro hv ⟨st, t', u', h⟩
                  obtain ⟨st2, h2⟩ := hnone h
                  rw [hks] at h2
                  cases h2 with
                  | item _ h3 h4 _ =>
                    have := (parseIndex_iff s _).2 h3
                    rw [hpi] at this; cases this
                    rw [hv] at h4; cases h4
                  | child hsel _ _ => obtain ⟨b, a, e, _⟩ := hsel; simp at e
                dsimp only
                by_cases hro : ChildrenProtected steps
                · rw [if_pos ((childReadOnly_iff steps).2 hro)]
                  cases hv : vs[i]? with
                  | none => exact .noIndex rfl hl (hno hv) (.inl hro)
                  | some v => exact .childReadOnly rfl hl (hl1 v hv) rfl hro
                · rw [if_neg (fun h => hro ((childReadOnly_iff steps).1 h))]
                  by_cases her : k.erase = true
                  · rw [if_pos her]
                    cases hv : vs[i]? with
                    | none => exact .missing (hno hv)
                    | some v =>
                      obtain ⟨x, e, hx⟩ := erase_row E hw ht hp hl (hl1 v hv) rfl hro her (rest := [s])
                      simp only [without, Step.pos] at e
                      simp only [e]
                      exact hx
                  · rw [if_neg her]
                    cases hv : vs[i]? with
                    | none => exact .noIndex rfl hl (hno hv) (.inr (by simpa using her))
                    | some v => exact .notErasable rfl hl (hl1 v hv) rfl hro (by simpa [erasable] using her)
            · rw [if_neg hat]
              dsimp only
              have hn : ¬ Resolves E T r.value (c ++ [s]) := by
                rintro ⟨st, t', u', h⟩
                obtain ⟨st2, h2⟩ := hnone h
                rw [hks] at h2
                cases h2 with
                | item h1 _ _ _ => exact hat h1
                | child hsel _ _ => obtain ⟨b, a, e, _⟩ := hsel; simp at e
              unfold deleteOptional
              rcases visit_cases hw (E := E) (c ++ [s]) with ⟨_, e, he, hm⟩ | ⟨st, t', u', h⟩
              · simp only [he, catchDel_missing hm]
                exact .missing hn
              · exact absurd ⟨st, t', u', h⟩ hn
          · rw [if_pos (by rw [hkeys]; exact hks)]
            have hmem := members_ok hnok hty.1
            have hfk := findKeyed_of (E := E) (t := t) (s := s) hmem
            rw [hkeys] at hfk ⊢
            dsimp only
            by_cases hsel : ∃ k i, Selects E t vs s (endKeys [] steps) k i
            · obtain ⟨key, i, hsel⟩ := hsel
              rw [hfk.1 hsel]
              have hg : ∃ v, vs[i]? = some v := by
                obtain ⟨_, _, _, _, ⟨v, _, e, _⟩, _⟩ := hsel
                exact ⟨v, e⟩
              obtain ⟨v, hv⟩ := hg
              have hl1 : LeadsTo E T r.value (c ++ [s]) (steps ++ [.child key i]) t v :=
                leads_append hl (.child hsel hv .here)
              dsimp only
              by_cases hro : ChildrenProtected steps
              · rw [if_pos ((childReadOnly_iff steps).2 hro)]
                exact .childReadOnly rfl hl hl1 rfl hro
              · rw [if_neg (fun h => hro ((childReadOnly_iff steps).1 h))]
                by_cases her : k.erase = true
                · rw [if_pos her]
                  obtain ⟨x, e, hx⟩ := erase_row E hw ht hp hl hl1 rfl hro her (rest := [s])
                  simp only [without, Step.pos] at e
                  rw [e]
                  exact hx
                · rw [if_neg her]
                  exact .notErasable rfl hl hl1 rfl hro (by simpa [erasable] using her)
            · rw [hfk.2 (fun k i h => hsel ⟨k, i, h⟩)]
              refine .missing ?_
              rintro ⟨st, t', u', h⟩
              obtain ⟨st2, h2⟩ := hnone h
              generalize hgk : endKeys [] steps = ks at *
              cases h2 with
              | item _ _ _ _ => exact hks rfl
              | child h3 _ _ => exact hsel ⟨_, _, h3⟩
        | _ => simp [HasTy] at hty
      | leaf id => exact deleteOptional_row E hw ht hp (not_inCollection hw hl rfl)
      | opt t => exact deleteOptional_row E hw ht hp (not_inCollection hw hl rfl)
      | record id fs => exact deleteOptional_row E hw ht hp (not_inCollection hw hl rfl)

end Verif.Resource
