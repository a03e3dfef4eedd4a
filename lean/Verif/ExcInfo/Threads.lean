import Verif.ExcInfo.OwnerProps
/-
Copies of an `exception_info` in different threads: which memory the functions access without synchronisation. The counts of `shared_ptr`
are atomic and do not appear. Each call is one step; memory that a call allocates is its own.
-/
namespace Verif.ExcInfo

/-- Memory: an object (its `head_`, exception_info.hpp:225) or a node (its `next_` and `value_`, 30, 105).
Simplified: one location for both members of a node, so more counts as a race; those in `C146_race_violated` are at one member. -/
inductive Loc where
  | obj (o : Nat)
  | node (i : Nat)
  deriving DecidableEq

/-- An access that is not atomic. (exception_info.hpp:134-217) -/
structure Access where
  loc : Loc
  write : Bool
  deriving DecidableEq

/-- exception_info.hpp:190-196, 163-176 the nodes visited in search of a tag. -/
def visited (cs : Cells) (tag : Tag) : Nat → Option Nat → List Nat
  | _, none => []
  | 0, some _ => []
  | fuel + 1, some i =>
    match cs[i]? with
    | some (some c) => i :: if c.tag = tag then [] else visited cs tag fuel c.next
    | _ => []

/-- exception_info.hpp:211-215 the nodes visited by `diagnostic_info`. -/
def printed (cs : Cells) : Nat → Option Nat → List Nat
  | _, none => []
  | 0, some _ => []
  | fuel + 1, some i =>
    match cs[i]? with
    | some (some c) => i :: printed cs fuel c.next
    | _ => []

/-- What a thread calls. (exception_info.hpp:111-217) -/
inductive Act where
  | op (x : OwnOp)
  /-- 181-199 -/
  | get (o : Nat) (tag : Tag)
  /-- 201-217 -/
  | print (o : Nat)

/-- The objects whose members are accessed. (exception_info.hpp:116-217) -/
def Act.uses : Act → List Nat
  | .op x => ExcInfo.uses x
  | .get o _ => [o]
  | .print o => [o]

/-- The objects whose `head_` is assigned. (exception_info.hpp:122-128, 139, 149, 171) -/
def Act.changes : Act → List Nat
  | .op (.plain (.set o _ _)) => [o]
  | .op (.plain (.unset o _)) => [o]
  | .op (.plain (.assign o _)) => [o]
  | .op (.plain (.move o)) => [o]
  | .op (.moveAssign o p) => [o, p]
  | .op (.destroy o) => [o]
  | _ => []

/-- `head_` of an object, null if there is none. (exception_info.hpp:225) -/
def headOf (s : Own) (o : Nat) : Option Nat :=
  match s.objs[o]? with
  | some (some h) => h
  | _ => none

/-- The nodes read. (exception_info.hpp:163-176, 190-196, 211-215) -/
def Act.reads (s : Own) : Act → List Nat
  | .op (.plain (.unset o tag)) => visited s.cells tag s.cells.length (headOf s o)
  | .op (.plain (.modify o tag _)) => visited s.cells tag s.cells.length (headOf s o)
  | .get o tag => visited s.cells tag s.cells.length (headOf s o)
  | .print o => printed s.cells s.cells.length (headOf s o)
  | _ => []

/-- The nodes written: by `unset` the one before (exception_info.hpp:169), through the pointer of `get` the one found (187). -/
def Act.writes (s : Own) : Act → List Nat
  | .op (.plain (.unset o tag)) =>
    match seekPrev s.cells tag s.cells.length none (headOf s o) with
    | .ok (some (some k, _)) => [k]
    | _ => []
  | .op (.plain (.modify o tag _)) =>
    match seek s.cells tag s.cells.length (headOf s o) with
    | .ok (some i) => [i]
    | _ => []
  | _ => []

/-- The nodes destroyed. (exception_info.hpp:24, 30) -/
def Act.destroys (s : Own) : Act → List Nat
  | .op x =>
    match ownStep s x with
    | .ok (_, l) => l
    | .error _ => []
  | _ => []

/-- All accesses to memory that existed before the call. (exception_info.hpp:111-217) -/
def Act.footprint (s : Own) (a : Act) : List Access :=
  a.uses.map (fun o => ⟨.obj o, false⟩) ++ a.changes.map (fun o => ⟨.obj o, true⟩) ++
    (a.reads s).map (fun i => ⟨.node i, false⟩) ++ ((a.writes s) ++ (a.destroys s)).map (fun i => ⟨.node i, true⟩)

/-! ### Specification -/

/-- `unset`, and writing through the pointer of `get`. -/
def Act.edits : Act → Bool
  | .op (.plain (.unset _ _)) => true
  | .op (.plain (.modify _ _ _)) => true
  | _ => false

/-- The rule for all types: an object that one thread changes is not used by the other. -/
def Apart (a b : Act) : Prop := (∀ o ∈ a.changes, o ∉ b.uses) ∧ ∀ o ∈ b.changes, o ∉ a.uses

/-- A data race: the same memory, not both reading. -/
def Race (s : Own) (a b : Act) : Prop :=
  ∃ x ∈ a.footprint s, ∃ y ∈ b.footprint s, x.loc = y.loc ∧ (x.write = true ∨ y.write = true)

/-- The object leads to the node. -/
inductive Leads (s : Own) (q : Nat) : Nat → Prop
  | head {i : Nat} (h : s.objs[q]? = some (some (some i))) : Leads s q i
  | next {i j : Nat} {c : Counted} (h : Leads s q i) (hc : s.cells[i]? = some (some c)) (hn : c.next = some j) : Leads s q j

/-! ### Proofs -/

theorem Leads.held {s : Own} {q i : Nat} (h : Leads s q i) : Held s i := by
  induction h with
  | head h => exact .head h
  | next _ hc hn ih => exact .next ih hc hn

theorem Held.leads {s : Own} {i : Nat} (h : Held s i) : ∃ q, Leads s q i := by
  induction h with
  | @head o i h => exact ⟨o, .head h⟩
  | next _ hc hn ih => obtain ⟨q, hq⟩ := ih; exact ⟨q, .next hq hc hn⟩

theorem visited_leads {s : Own} {q : Nat} {tag : Tag} : ∀ (fuel : Nat) {p : Option Nat}, (∀ i, p = some i → Leads s q i) →
    ∀ i ∈ visited s.cells tag fuel p, Leads s q i
  | fuel, none, _, i, hi => by cases fuel <;> simp [visited] at hi
  | 0, some _, _, i, hi => by simp [visited] at hi
  | fuel + 1, some k, hp, i, hi => by
    simp only [visited] at hi
    split at hi
    · rename_i c hc
      rcases List.mem_cons.1 hi with rfl | hi
      · exact hp i rfl
      · split at hi
        · cases hi
        · exact visited_leads fuel (fun j hj => .next (hp k rfl) hc hj) i hi
    · cases hi

theorem printed_leads {s : Own} {q : Nat} : ∀ (fuel : Nat) {p : Option Nat}, (∀ i, p = some i → Leads s q i) →
    ∀ i ∈ printed s.cells fuel p, Leads s q i
  | fuel, none, _, i, hi => by cases fuel <;> simp [printed] at hi
  | 0, some _, _, i, hi => by simp [printed] at hi
  | fuel + 1, some k, hp, i, hi => by
    simp only [printed] at hi
    split at hi
    · rename_i c hc
      rcases List.mem_cons.1 hi with rfl | hi
      · exact hp i rfl
      · exact printed_leads fuel (fun j hj => .next (hp k rfl) hc hj) i hi
    · cases hi

theorem headOf_leads {s : Own} {o : Nat} : ∀ i, headOf s o = some i → Leads s o i := by
  intro i h
  simp only [headOf] at h
  split at h
  · rename_i p hp; subst h; exact .head hp
  · cases h

theorem reads_leads {s : Own} (a : Act) {i : Nat} (h : i ∈ a.reads s) : ∃ q ∈ a.uses, Leads s q i := by
  cases a with
  | op x =>
    cases x with
    | plain x =>
      cases x with
      | unset o tag => exact ⟨o, by simp [Act.uses, uses], visited_leads _ headOf_leads i h⟩
      | modify o tag v => exact ⟨o, by simp [Act.uses, uses], visited_leads _ headOf_leads i h⟩
      | _ => cases h
    | _ => cases h
  | get o tag => exact ⟨o, by simp [Act.uses], visited_leads _ headOf_leads i h⟩
  | print o => exact ⟨o, by simp [Act.uses], printed_leads _ headOf_leads i h⟩

theorem get_of_set {α : Type} {l : List α} {o q : Nat} {a b : α} (h : l[q]? = some a) (hq : q ≠ o) : (l.set o b)[q]? = some a := by
  rw [List.getElem?_set_ne (Ne.symm hq)]; exact h

theorem get_of_add {α : Type} {l : List α} {q : Nat} {a b : α} (h : l[q]? = some a) : (l ++ [b])[q]? = some a := by
  rw [List.getElem?_append_left (List.getElem?_eq_some_iff.1 h).1]; exact h

theorem except_bind {α β : Type} {x : Except Fault α} {f : α → Except Fault β} {r : β} (h : (x >>= f) = .ok r) :
    ∃ a, x = .ok a ∧ f a = .ok r := by
  cases x with
  | error e => cases h
  | ok a => exact ⟨a, rfl, h⟩

/-- Objects that are not changed stay as they are. -/
theorem objs_kept {s s' : Own} {x : OwnOp} {l : List Nat} (hs : ownStep s x = .ok (s', l)) {q : Nat} {a : Option (Option Nat)}
    (hq : q ∉ (Act.op x).changes) (h : s.objs[q]? = some a) : s'.objs[q]? = some a := by
  cases x with
  | plain x =>
    cases x with
    | new => cases hs; exact get_of_add h
    | set o tag v =>
      simp only [ownStep, setStep] at hs
      obtain ⟨p, -, hs⟩ := except_bind hs
      obtain ⟨c1, -, hs⟩ := except_bind hs
      obtain ⟨c2, -, hs⟩ := except_bind hs
      obtain ⟨c3, -, hs⟩ := except_bind hs
      obtain ⟨c4, -, hs⟩ := except_bind hs
      obtain ⟨c5, -, hs⟩ := except_bind hs
      cases hs
      exact get_of_set h (by simpa [Act.changes] using hq)
    | unset o tag =>
      simp only [ownStep, unsetStep] at hs
      obtain ⟨p, -, hs⟩ := except_bind hs
      obtain ⟨r, -, hs⟩ := except_bind hs
      cases r with
      | none => cases hs; exact h
      | some r =>
        obtain ⟨prev, i⟩ := r
        obtain ⟨c1, -, hs⟩ := except_bind hs
        obtain ⟨c2, -, hs⟩ := except_bind hs
        cases prev with
        | some k =>
          obtain ⟨c3, -, hs⟩ := except_bind hs
          obtain ⟨c4, -, hs⟩ := except_bind hs
          cases hs; exact h
        | none =>
          obtain ⟨c3, -, hs⟩ := except_bind hs
          cases hs
          exact get_of_set h (by simpa [Act.changes] using hq)
    | copy o =>
      simp only [ownStep] at hs
      obtain ⟨p, -, hs⟩ := except_bind hs
      obtain ⟨c1, -, hs⟩ := except_bind hs
      cases hs; exact get_of_add h
    | assign o p =>
      simp only [ownStep] at hs
      obtain ⟨p, -, hs⟩ := except_bind hs
      obtain ⟨c1, -, hs⟩ := except_bind hs
      obtain ⟨c2, -, hs⟩ := except_bind hs
      obtain ⟨c3, -, hs⟩ := except_bind hs
      cases hs
      exact get_of_set h (by simpa [Act.changes] using hq)
    | move o =>
      simp only [ownStep] at hs
      obtain ⟨p, -, hs⟩ := except_bind hs
      cases hs
      exact get_of_add (get_of_set h (by simpa [Act.changes] using hq))
    | modify o tag v =>
      simp only [ownStep] at hs
      obtain ⟨p, -, hs⟩ := except_bind hs
      obtain ⟨r, -, hs⟩ := except_bind hs
      cases r with
      | none => cases hs; exact h
      | some i =>
        obtain ⟨c1, -, hs⟩ := except_bind hs
        cases hs; exact h
  | setFails o =>
    simp only [ownStep] at hs
    obtain ⟨p, -, hs⟩ := except_bind hs
    cases hs; exact h
  | moveAssign o p =>
    simp only [ownStep] at hs
    obtain ⟨c0, -, hs⟩ := except_bind hs
    obtain ⟨c1, -, hs⟩ := except_bind hs
    obtain ⟨c2, -, hs⟩ := except_bind hs
    cases hs
    simp only [Act.changes, List.mem_cons, List.not_mem_nil, or_false, not_or] at hq
    exact get_of_set (get_of_set h hq.2) hq.1
  | destroy o =>
    simp only [ownStep] at hs
    obtain ⟨p, -, hs⟩ := except_bind hs
    obtain ⟨c1, -, hs⟩ := except_bind hs
    cases hs
    exact get_of_set h (by simpa [Act.changes] using hq)

/-- Without edits the nodes that were there keep what they show. -/
theorem heap_kept {w w' : World} {x : OwnOp} (h : forget w x = some w') (he : (Act.op x).edits = false) {i : Nat} {n : Node}
    (hi : w.heap[i]? = some n) : w'.heap[i]? = some n := by
  cases x with
  | plain x =>
    cases x with
    | new => cases h; exact hi
    | set o tag v =>
      simp only [forget, step] at h
      split at h
      · cases h
      · cases h; exact get_of_add hi
    | unset => cases he
    | copy o =>
      simp only [forget, step] at h
      split at h
      · cases h
      · cases h; exact hi
    | assign o p =>
      simp only [forget, step] at h
      split at h
      · cases h; exact hi
      · cases h
    | move o =>
      simp only [forget, step] at h
      split at h
      · cases h
      · cases h; exact hi
    | modify => cases he
  | setFails => cases h; exact hi
  | moveAssign o p =>
    simp only [forget] at h
    split at h
    · cases h
    · cases h; exact hi
  | destroy => cases h; exact hi

/-- What an object leads to that is not changed, it leads to afterwards. -/
theorem leads_kept {ops : List OwnOp} {s s' : Own} {l l' : List Nat} (h : ownRun .empty ops = .ok (s, l)) {x : OwnOp}
    (hs : ownStep s x = .ok (s', l')) (he : (Act.op x).edits = false) {q i : Nat} (hq : q ∉ (Act.op x).changes) (hl : Leads s q i) :
    Leads s' q i := by
  obtain ⟨w, -, h1, -⟩ := own_rel h
  obtain ⟨s2, l2, h2, ⟨w', h3, h4⟩, -⟩ := own_step h1 x ((C145_defined h x).1 ⟨s', l', hs⟩)
  rw [hs] at h2; cases h2
  induction hl with
  | head ho => exact .head (objs_kept hs hq ho)
  | @next i j c _ hc hn ih =>
    have hlive : Live s'.cells i := by
      have := ih.held
      cases this with
      | head ho => exact h4.inv.live _ (List.mem_append.2 (.inl (heads_mem ho)))
      | next _ hk hkn => exact h4.inv.fit_next hk _ hkn
    obtain ⟨c', hc'⟩ := hlive
    have e1 := heap_kept h3 he (h1.node i c hc)
    have e2 := h4.node i c' hc'
    rw [e1] at e2
    have e3 : c.next = c'.next := congrArg Node.next (Option.some.inj e2)
    exact .next ih hc' (e3 ▸ hn)

/-- What is destroyed only objects lead to that are changed. -/
theorem destroys_leads {ops : List OwnOp} {s : Own} {l : List Nat} (h : ownRun .empty ops = .ok (s, l)) {a : Act} (he : a.edits = false)
    {i : Nat} (hi : i ∈ a.destroys s) : Held s i ∧ ∀ q, Leads s q i → q ∈ a.changes := by
  cases a with
  | get => cases hi
  | print => cases hi
  | op x =>
    simp only [Act.destroys] at hi
    split at hi
    · rename_i s' l' hs
      have h1 := ((C145_when h hs).2 i).1 hi
      refine ⟨h1.1, fun q hq => ?_⟩
      exact Classical.byContradiction fun hn => h1.2 (leads_kept h hs he hn hq).held
    · cases hi

theorem changes_uses (a : Act) : ∀ o ∈ a.changes, o ∈ a.uses := by
  intro o ho
  cases a with
  | op x =>
    cases x with
    | plain x => cases x <;> simp [Act.changes, Act.uses, uses] at ho ⊢ <;> first | exact ho | exact .inl ho
    | moveAssign p q => simp only [Act.changes, Act.uses, uses, List.mem_cons, List.not_mem_nil, or_false] at ho ⊢; exact ho.symm
    | setFails => cases ho
    | destroy => simpa [Act.changes, Act.uses, uses] using ho
  | get => cases ho
  | print => cases ho

theorem writes_edits {s : Own} {a : Act} (he : a.edits = false) : a.writes s = [] := by
  cases a with
  | op x =>
    cases x with
    | plain x => cases x <;> first | rfl | cases he
    | _ => rfl
  | _ => rfl

/-- An access: an object used, or a node an object used leads to; a write: an object changed, or a node only objects changed lead to. -/
theorem footprint_cases {ops : List OwnOp} {s : Own} {l : List Nat} (h : ownRun .empty ops = .ok (s, l)) {a : Act} (he : a.edits = false)
    {x : Access} (hx : x ∈ a.footprint s) :
    (∃ o, x.loc = .obj o ∧ o ∈ a.uses ∧ (x.write = true → o ∈ a.changes)) ∨
    (∃ i, x.loc = .node i ∧ (∃ q ∈ a.uses, Leads s q i) ∧ (x.write = true → ∀ q, Leads s q i → q ∈ a.changes)) := by
  simp only [Act.footprint, writes_edits he, List.nil_append, List.mem_append, List.mem_map] at hx
  rcases hx with ((⟨o, ho, rfl⟩ | ⟨o, ho, rfl⟩) | ⟨i, hi, rfl⟩) | ⟨i, hi, rfl⟩
  · exact .inl ⟨o, rfl, ho, by simp⟩
  · exact .inl ⟨o, rfl, changes_uses a o ho, fun _ => ho⟩
  · exact .inr ⟨i, rfl, reads_leads a hi, by simp⟩
  · obtain ⟨h1, h2⟩ := destroys_leads h he hi
    obtain ⟨q, hq⟩ := h1.leads
    exact .inr ⟨i, rfl, ⟨q, changes_uses a q (h2 q hq), hq⟩, fun _ => h2⟩

theorem deref_get {cs : Cells} {i : Nat} {c : Counted} (h : deref cs i = .ok c) : cs[i]? = some (some c) := by
  simp only [deref] at h
  split at h
  · cases h; assumption
  · cases h

theorem seek_leads {s : Own} {q : Nat} {tag : Tag} {i : Nat} : ∀ (fuel : Nat) {p : Option Nat}, (∀ j, p = some j → Leads s q j) →
    seek s.cells tag fuel p = .ok (some i) → Leads s q i
  | fuel, none, _, h => by cases fuel <;> cases h
  | 0, some _, _, h => by cases h
  | fuel + 1, some k, hp, h => by
    simp only [seek] at h
    split at h
    · cases h
    · rename_i c hc
      split at h
      · cases h; exact hp _ rfl
      · exact seek_leads fuel (fun j hj => .next (hp k rfl) (deref_get hc) hj) h

theorem seekPrev_leads {s : Own} {q : Nat} {tag : Tag} {r : Option Nat} {i : Nat} : ∀ (fuel : Nat) {prev p : Option Nat},
    (∀ j, prev = some j → Leads s q j) → (∀ j, p = some j → Leads s q j) →
    seekPrev s.cells tag fuel prev p = .ok (some (r, i)) → Leads s q i ∧ ∀ j, r = some j → Leads s q j
  | fuel, _, none, _, _, h => by cases fuel <;> cases h
  | 0, _, some _, _, _, h => by cases h
  | fuel + 1, prev, some k, hv, hp, h => by
    simp only [seekPrev] at h
    split at h
    · cases h
    · rename_i c hc
      split at h
      · cases h; exact ⟨hp _ rfl, hv⟩
      · exact seekPrev_leads fuel (fun j hj => by cases hj; exact hp k rfl) (fun j hj => .next (hp k rfl) (deref_get hc) hj) h

/-- What `release` destroys is on the way from where it starts. -/
theorem release_way {P : Nat → Prop} : ∀ (fuel : Nat) {cs cs' : Cells} {p : Option Nat} {l : List Nat},
    (∀ (i : Nat) (c : Counted) (j : Nat), cs[i]? = some (some c) → P i → c.next = some j → P j) → (∀ i, p = some i → P i) →
    release cs fuel p = .ok (cs', l) → ∀ j ∈ l, P j
  | fuel, cs, _, none, l, _, _, h => by cases fuel <;> cases h <;> simp
  | 0, _, _, some _, _, _, _, h => by cases h
  | fuel + 1, cs, cs', some k, l, hc, hp, h => by
    simp only [release] at h
    split at h
    · cases h
    · rename_i c hk
      split at h
      · cases h
      · split at h
        · cases h
        · rename_i cs2 l2 h2
          cases h
          have := release_way fuel (P := P) (fun i c' j hi => hc i c' j (by
            rw [List.getElem?_set] at hi
            split at hi
            · split at hi <;> cases hi
            · exact hi)) (fun i hi => hc k c i (deref_get hk) (hp k rfl) hi) h2
          intro j hj
          rcases List.mem_cons.1 hj with rfl | hj
          · exact hp j rfl
          · exact this j hj
      · cases h; simp

theorem retain_next {cs cs' : Cells} {p : Option Nat} (h : retain cs p = .ok cs') {i : Nat} {c' : Counted} (hi : cs'[i]? = some (some c')) :
    ∃ c, cs[i]? = some (some c) ∧ c'.next = c.next := by
  cases p with
  | none => cases h; exact ⟨c', hi, rfl⟩
  | some k =>
    simp only [retain] at h
    obtain ⟨c, hc, h⟩ := except_bind h
    cases h
    rw [List.getElem?_set] at hi
    split at hi
    · rename_i e
      subst e
      split at hi
      · cases hi; exact ⟨c, deref_get hc, rfl⟩
      · cases hi
    · exact ⟨c', hi, rfl⟩

theorem unset_leads {s : Own} {o : Nat} {tag : Tag} {i : Nat} (hi : i ∈ (Act.op (.plain (.unset o tag))).destroys s) : Leads s o i := by
  simp only [Act.destroys] at hi
  split at hi
  · rename_i s' l hs
    simp only [ownStep, unsetStep] at hs
    obtain ⟨p, hp, hs⟩ := except_bind hs
    have hpl : ∀ j, p = some j → Leads s o j := by
      intro j hj
      subst hj
      simp only [obj] at hp
      split at hp <;> cases hp
      exact .head (by assumption)
    obtain ⟨r, hr, hs⟩ := except_bind hs
    cases r with
    | none => cases hs; cases hi
    | some r =>
      obtain ⟨prev, k⟩ := r
      obtain ⟨hk, -⟩ := seekPrev_leads _ (fun _ h => by cases h) hpl hr
      obtain ⟨c, hc, hs⟩ := except_bind hs
      obtain ⟨c2, h2, hs⟩ := except_bind hs
      have hclosed : ∀ (i : Nat) (c : Counted) (j : Nat), c2[i]? = some (some c) → Leads s o i → c.next = some j → Leads s o j := by
        intro i c' j h3 h4 h5
        obtain ⟨c'', h6, h7⟩ := retain_next h2 h3
        exact .next h4 h6 (h7 ▸ h5)
      cases prev with
      | some v =>
        obtain ⟨c3, h3, hs⟩ := except_bind hs
        obtain ⟨⟨c4, l4⟩, h4, hs⟩ := except_bind hs
        cases hs
        refine release_way (P := Leads s o) _ ?_ (fun j hj => by cases hj; exact hk) h4 i hi
        intro i c' j h5 h6 h7
        rw [List.getElem?_set] at h5
        split at h5
        · split at h5
          · cases h5; exact .next hk (deref_get hc) h7
          · cases h5
        · exact hclosed i c' j h5 h6 h7
      | none =>
        obtain ⟨⟨c4, l4⟩, h4, hs⟩ := except_bind hs
        cases hs
        exact release_way (P := Leads s o) _ hclosed (fun j hj => by cases hj; exact hk) h4 i hi
  · cases hi

theorem modify_destroys (s : Own) (o : Nat) (tag : Tag) (v : Val) : (Act.op (.plain (.modify o tag v))).destroys s = [] := by
  simp only [Act.destroys]
  split
  · rename_i s' l' hs
    simp only [ownStep] at hs
    obtain ⟨p, -, hs⟩ := except_bind hs
    obtain ⟨r, -, hs⟩ := except_bind hs
    cases r with
    | none => cases hs; rfl
    | some i =>
      obtain ⟨c1, -, hs⟩ := except_bind hs
      cases hs; rfl
  · rfl

theorem writes_leads {s : Own} (a : Act) {i : Nat} (h : i ∈ a.writes s) : ∃ q ∈ a.uses, Leads s q i := by
  cases a with
  | op x =>
    cases x with
    | plain x =>
      cases x with
      | unset o tag =>
        simp only [Act.writes] at h
        split at h
        · rename_i k _ hk
          rw [List.mem_singleton] at h
          subst h
          exact ⟨o, by simp [Act.uses, uses], (seekPrev_leads _ (fun _ h => by cases h) headOf_leads hk).2 _ rfl⟩
        · cases h
      | modify o tag v =>
        simp only [Act.writes] at h
        split at h
        · rename_i k hk
          rw [List.mem_singleton] at h
          subst h
          exact ⟨o, by simp [Act.uses, uses], seek_leads _ headOf_leads hk⟩
        · cases h
      | _ => cases h
    | _ => cases h
  | _ => cases h

/-- An access: an object used, or a node an object used leads to. -/
theorem footprint_leads {ops : List OwnOp} {s : Own} {l : List Nat} (h : ownRun .empty ops = .ok (s, l)) {a : Act} {x : Access}
    (hx : x ∈ a.footprint s) :
    (∃ o, x.loc = .obj o ∧ o ∈ a.uses ∧ (x.write = true → o ∈ a.changes)) ∨ ∃ i, x.loc = .node i ∧ ∃ q ∈ a.uses, Leads s q i := by
  cases he : a.edits with
  | false =>
    rcases footprint_cases h he hx with h1 | ⟨i, h1, h2, -⟩
    · exact .inl h1
    · exact .inr ⟨i, h1, h2⟩
  | true =>
    simp only [Act.footprint, List.mem_append, List.mem_map] at hx
    rcases hx with ((⟨o, ho, rfl⟩ | ⟨o, ho, rfl⟩) | ⟨i, hi, rfl⟩) | ⟨i, hi | hi, rfl⟩
    · exact .inl ⟨o, rfl, ho, by simp⟩
    · exact .inl ⟨o, rfl, changes_uses a o ho, fun _ => ho⟩
    · exact .inr ⟨i, rfl, reads_leads a hi⟩
    · exact .inr ⟨i, rfl, writes_leads a hi⟩
    · refine .inr ⟨i, rfl, ?_⟩
      cases a with
      | op x =>
        cases x with
        | plain x =>
          cases x with
          | unset o tag => exact ⟨o, by simp [Act.uses, uses], unset_leads hi⟩
          | modify o tag v => rw [modify_destroys] at hi; cases hi
          | _ => cases he
        | _ => cases he
      | _ => cases he

/-! ### C146 -/

/-- C146: threads that follow the rule for objects and neither remove values nor write through `get` do not race, whatever was copied from
what before: they may set, get, print, copy, move, assign and destroy. -/
theorem C146_free {ops : List OwnOp} {s : Own} {l : List Nat} (h : ownRun .empty ops = .ok (s, l)) {a b : Act} (hab : Apart a b)
    (ha : a.edits = false) (hb : b.edits = false) : ¬ Race s a b := by
  rintro ⟨x, hx, y, hy, hl, hw⟩
  rcases footprint_cases h ha hx with ⟨o, h1, h2, h3⟩ | ⟨i, h1, ⟨q, hq, hqi⟩, h3⟩ <;>
    rcases footprint_cases h hb hy with ⟨p, g1, g2, g3⟩ | ⟨j, g1, ⟨r, hr, hrj⟩, g3⟩ <;> rw [h1, g1] at hl <;> cases hl
  · rcases hw with hw | hw
    · exact hab.1 _ (h3 hw) g2
    · exact hab.2 _ (g3 hw) h2
  · rcases hw with hw | hw
    · exact hab.1 _ (h3 hw _ hrj) hr
    · exact hab.2 _ (g3 hw _ hqi) hq

namespace Sample
/-- Objects 1 and 2 are copies of object 0; object 2 has one value more. -/
def copies : List OwnOp := [.plain .new, .plain (.set 0 1 10), .plain (.set 0 2 20), .plain (.copy 0), .plain (.copy 0), .plain (.set 2 3 30)]
end Sample

example : Apart (.op (.destroy 0)) (.op (.plain (.assign 1 2))) ∧ ∃ s, ownRun .empty Sample.copies = .ok (s, []) ∧
    (Act.print 2).footprint s = [⟨.obj 2, false⟩, ⟨.node 2, false⟩, ⟨.node 1, false⟩, ⟨.node 0, false⟩] ∧
    (Act.op (.destroy 2)).footprint s = [⟨.obj 2, false⟩, ⟨.obj 2, true⟩, ⟨.node 2, true⟩] := by
  refine ⟨?_, _, rfl, rfl, rfl⟩
  simp [Apart, Act.changes, Act.uses, uses]

/-- C146: whatever the threads call, a race is at a node that an object of each leads to, and one of them removes a value or writes through
the pointer of `get`. So objects that share no node, not being copies, are independent. -/
theorem C146_where {ops : List OwnOp} {s : Own} {l : List Nat} (h : ownRun .empty ops = .ok (s, l)) {a b : Act} (hab : Apart a b)
    (hr : Race s a b) : (a.edits = true ∨ b.edits = true) ∧ ∃ i, ∃ o ∈ a.uses, ∃ q ∈ b.uses, Leads s o i ∧ Leads s q i := by
  refine ⟨?_, ?_⟩
  · cases ha : a.edits
    · cases hb : b.edits
      · exact absurd hr (C146_free h hab ha hb)
      · exact .inr rfl
    · exact .inl rfl
  · obtain ⟨x, hx, y, hy, hl, hw⟩ := hr
    rcases footprint_leads h hx with ⟨o, h1, h2, h3⟩ | ⟨i, h1, o, ho, hoi⟩ <;>
      rcases footprint_leads h hy with ⟨p, g1, g2, g3⟩ | ⟨j, g1, q, hq, hqj⟩ <;> rw [h1, g1] at hl <;> cases hl
    · rcases hw with hw | hw
      · exact absurd g2 (hab.1 _ (h3 hw))
      · exact absurd h2 (hab.2 _ (g3 hw))
    · exact ⟨_, o, ho, q, hq, hoi, hqj⟩

/-- C146: copies are not independent (at `next_` of node 1, in the last case at `value_` of node 0): `unset` on one object races with `get`,
printing and `unset` on a copy of it in another thread, and so does a write through the pointer of `get`. The hypotheses of `C146_where`
are met. -/
theorem C146_race_violated :
    ∃ s, ownRun .empty Sample.copies = .ok (s, []) ∧
      (Apart (.op (.plain (.unset 0 1))) (.get 1 1) ∧ Race s (.op (.plain (.unset 0 1))) (.get 1 1)) ∧
      (Apart (.op (.plain (.unset 0 1))) (.print 1) ∧ Race s (.op (.plain (.unset 0 1))) (.print 1)) ∧
      (Apart (.op (.plain (.unset 0 1))) (.op (.plain (.unset 1 1))) ∧ Race s (.op (.plain (.unset 0 1))) (.op (.plain (.unset 1 1)))) ∧
      Apart (.op (.plain (.modify 0 1 11))) (.print 1) ∧ Race s (.op (.plain (.modify 0 1 11))) (.print 1) := by
  refine ⟨_, rfl, ⟨by simp [Apart, Act.changes, Act.uses, uses], ?_⟩, ⟨by simp [Apart, Act.changes, Act.uses, uses], ?_⟩,
    ⟨by simp [Apart, Act.changes, Act.uses, uses], ?_⟩, by simp [Apart, Act.changes, Act.uses, uses], ?_⟩
  · exact ⟨⟨.node 1, true⟩, by decide +kernel, ⟨.node 1, false⟩, by decide +kernel, rfl, .inl rfl⟩
  · exact ⟨⟨.node 1, true⟩, by decide +kernel, ⟨.node 1, false⟩, by decide +kernel, rfl, .inl rfl⟩
  · exact ⟨⟨.node 1, true⟩, by decide +kernel, ⟨.node 1, true⟩, by decide +kernel, rfl, .inl rfl⟩
  · exact ⟨⟨.node 0, true⟩, by decide +kernel, ⟨.node 0, false⟩, by decide +kernel, rfl, .inl rfl⟩

end Verif.ExcInfo
