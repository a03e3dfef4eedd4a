import Verif.Resource.AllocLemmas
/-
C139: the verbs with an allocator, compared with the verbs without.
-/
namespace Verif.Resource
open Verif.Path Verif.Path.Spec Verif.Tracker Verif.Tracker.Spec Verif.Tracker.Alloc Verif.Resource.Spec

/-- What is shown of a request `a` that would end as `full`; `N`: its location is known to the tracker. -/
structure Fine {σ : Type} (M : Memory σ) (N : Prop) (r : Resource) (full : Resource × Outcome) (a : Resource × End × σ) : Prop where
  ends : (a.2.1 = .terminated ∧ ∃ t, M.costly t = true) ∨ Ends r full a.1 a.2.1
  reached : Reached a.1.tracker
  noted : N → a.2.1 = .badAlloc → a.1 = r

variable {σ β : Type} {M : Memory σ} {N : Prop} {r : Resource} {E : Env β} {T : Ty}

theorem fine_noMemory (hr : Reached r.tracker) {full : Resource × Outcome} {s : σ} : Fine M N r full (r, .badAlloc, s) :=
  ⟨.inr .before, hr, fun _ _ => rfl⟩

theorem fine_same (hr : Reached r.tracker) {o : Outcome} {e : End} (he : e = .of o) {s : σ} : Fine M N r (r, o) (r, e, s) := by
  subst he
  refine ⟨.inr .same, hr, fun _ _ => rfl⟩

theorem fine_answer (hr : Reached r.tracker) (o : Outcome) (s : σ) : Fine M N r (r, o) (answerA M r o s) := by
  unfold answerA
  split
  · exact asking_ind (P := fun a => Fine M N r (r, _) a) (fun _ s => fine_noMemory hr) (fun s => fine_same hr rfl) s
  · exact fine_same hr rfl

theorem fine_notified (hr : Reached r.tracker) {w : View} {loc : List Seg} (hs : Shows w loc) (hN : N → Noted loc r.tracker) (root : Value)
    (sub : Bool) (st : Status) (hst : Success (.resp st [])) (s : σ) :
    Fine M N r (notified root r.tracker (some w) sub st) (notifiedA M root r.tracker (some w) sub st s) := by
  obtain ⟨es, hi⟩ := reached_inv hr
  obtain ⟨t', ok, s', e, h1, h2, h3⟩ := notifyA_inv M.next hi hs sub s
  obtain ⟨tf, hf⟩ := notify_some (t := r.tracker) hs sub
  unfold notifiedA notified
  simp only [h1, hf]
  cases ok with
  | true =>
    have := notifyA_true hs h1
    rw [hf] at this
    cases this
    refine ⟨.inr .same, hr.call hs h1, fun _ h => by cases h⟩
  | false =>
    refine ⟨.inr (.after hst rfl (notifyA_false hr hs h1 hf)), hr.call hs h1, fun hn _ => ?_⟩
    obtain ⟨t2, h4⟩ := notifyA_noted M.next (hN hn) hs sub s
    rw [h1] at h4
    cases h4

/-- What follows a checked change. -/
def settled (r : Resource) (handler : Err → Outcome) (w : Option View) (subtree : Bool) (st : Status) :
    Value × Except Err Unit → Resource × Outcome
  | (root, .error e) => ({ r with value := root }, handler e)
  | (root, .ok ()) => notified root r.tracker w subtree st

/-- A checked change `x` that would end as `y`. -/
def FineChange (M : Memory σ) (root : Value) (y : Value × Except Err Unit) (x : Value × Change × σ) : Prop :=
  (x.2.1 = .terminated ∧ ∃ t, M.costly t = true) ∨ (x.1 = root ∧ x.2.1 = .noMemory) ∨
  (∃ v', y = (v', .ok ()) ∧ x.1 = v' ∧ x.2.1 = .done) ∨ (∃ e, y = (root, .error e) ∧ x.1 = root ∧ x.2.1 = .failed e)

theorem restore_fine {root root1 : Value} {t : Ty} {addr : List Nat} {old : Value} (h : root1.set old addr = some root) {c : Change}
    {y : Value × Except Err Unit} (hc : ∀ s : σ, FineChange M root y (root, c, s)) (s : σ) :
    FineChange M root y (restoreA M t addr old root1 c s) := by
  unfold restoreA
  refine asking_ind (P := FineChange M root y) (fun ht s => .inl ⟨rfl, t, ht⟩) (fun s => ?_) s
  rw [h]
  exact hc s

theorem assign_fine {root : Value} {addr : List Nat} {t : Ty} {old : Value} (h : root.get addr = some old) (new : Value)
    (copy moves : Bool) (s : σ) :
    FineChange M root (assignChecked E T root addr old new) (assignCheckedA M E T root addr t old new copy moves s) := by
  unfold assignCheckedA
  refine asking_ind (P := FineChange M root _) (fun _ s => .inr (.inl ⟨rfl, rfl⟩)) (fun s => ?_) s
  refine asking_ind (P := FineChange M root _) (fun _ s => ?_) (fun s => ?_) s
  · obtain ⟨v1, h1, _, h3⟩ := get_set h (M.torn t old new)
    rw [h1]
    exact restore_fine h3 (fun s => .inr (.inl ⟨rfl, rfl⟩)) s
  · obtain ⟨v1, h1, _, h3⟩ := get_set h new
    unfold assignChecked
    simp only [h1]
    cases hv : validateTree E T v1 with
    | ok u => exact .inr (.inr (.inl ⟨v1, rfl, rfl, rfl⟩))
    | error e =>
      simp only [h3]
      exact restore_fine h3 (fun s => .inr (.inr (.inr ⟨e, rfl, rfl, rfl⟩))) s

theorem push_fine {root : Value} {addr : List Nat} {vs : List Value} (h : root.get addr = some (.seq vs)) (x : Value) (s : σ) :
    FineChange M root (pushChecked E T root addr vs x) (pushCheckedA M E T root addr vs x s) := by
  unfold pushCheckedA
  refine asking_ind (P := FineChange M root _) (fun _ s => .inr (.inl ⟨rfl, rfl⟩)) (fun s => ?_) s
  obtain ⟨v', _, ⟨_, h2⟩ | ⟨e, _, h2⟩⟩ := push_cases E (T := T) h x
  · rw [h2]; exact .inr (.inr (.inl ⟨v', rfl, rfl, rfl⟩))
  · rw [h2]; exact .inr (.inr (.inr ⟨e, rfl, rfl, rfl⟩))

theorem fine_settle (hr : Reached r.tracker) {w : View} {loc : List Seg} (hs : Shows w loc) (hN : N → Noted loc r.tracker)
    (handler : Err → Outcome) (sub : Bool) (st : Status) (hst : Success (.resp st [])) {y : Value × Except Err Unit}
    {x : Value × Change × σ} (h : FineChange M r.value y x) :
    Fine M N r (settled r handler (some w) sub st y) (settleA M r handler (some w) sub st x) := by
  obtain ⟨v, c, s⟩ := x
  rcases h with ⟨rfl, ht⟩ | ⟨rfl, rfl⟩ | ⟨v', rfl, rfl, rfl⟩ | ⟨e, rfl, rfl, rfl⟩
  · exact ⟨.inl ⟨rfl, ht⟩, hr, fun _ h => by cases h⟩
  · exact fine_noMemory hr
  · exact fine_notified hr hs hN _ sub st hst s
  · exact fine_answer hr (handler e) s

theorem fine_replace (hr : Reached r.tracker) (hw : WT T r.value) (f : Ty → Value → β → Except Exc Value) {w : View} {loc : List Seg}
    (hp : PathTo w loc) (hN : N → Noted loc r.tracker) (b : β) (s : σ) :
    Fine M N r (replaceNode E f T r w b) (replaceNodeA M E f T r w b s) := by
  unfold replaceNodeA replaceNode
  rw [hp.segs]
  refine asking_ind (P := Fine M N r _) (fun _ s => fine_noMemory hr) (fun s => ?_) s
  rcases visit_cases hw (E := E) loc with ⟨hn, e, he, hm⟩ | ⟨steps, t, old, hl⟩
  · simp only [he]
    exact fine_answer hr _ s
  · simp only [visit_leads hw hl]
    split
    · exact fine_same hr rfl
    · refine asking_ind (P := Fine M N r _) (fun _ s => fine_noMemory hr) (fun s => ?_) s
      cases liftUser (f t old b) with
      | error e => exact fine_answer hr _ s
      | ok new =>
        simp only
        cases (endNode .root steps).preservesIdentity E old new with
        | error e => exact fine_answer hr _ s
        | ok same =>
          cases same with
          | false => exact fine_same hr rfl
          | true =>
            exact fine_settle hr hp.shows hN catchPut _ .ok trivial (assign_fine (leads_get hl) new false (M.costly t) s)

theorem fine_post (hr : Reached r.tracker) (hw : WT T r.value) {w : View} {loc : List Seg} (hp : PathTo w loc)
    (hN : N → Noted loc r.tracker) (b : β) (s : σ) : Fine M N r (post E T r w b) (postA M E T r w b s) := by
  unfold postA post
  rw [hp.segs]
  refine asking_ind (P := Fine M N r _) (fun _ s => fine_noMemory hr) (fun s => ?_) s
  rcases visit_cases hw (E := E) loc with ⟨hn, e, he, hm⟩ | ⟨steps, t, old, hl⟩
  · simp only [he]
    exact fine_answer hr _ s
  · simp only [visit_leads hw hl]
    split
    · exact fine_same hr rfl
    · cases t with
      | seq k t =>
        cases old with
        | seq vs =>
          dsimp only
          split
          · refine asking_ind (P := Fine M N r _) (fun _ s => fine_noMemory hr) (fun s => ?_) s
            cases liftUser (E.deser t (E.fresh t) b) with
            | error e => exact fine_answer hr _ s
            | ok new =>
              simp only
              cases checkDuplicateChildKey E vs new (endNode .root steps).childKeys with
              | error e => exact fine_answer hr _ s
              | ok u =>
                simp only
                cases validateCandidate E t new with
                | error e => exact fine_answer hr _ s
                | ok u => exact fine_settle hr hp.shows hN catchPut _ .created trivial (push_fine (leads_get hl) new s)
          · exact fine_same hr rfl
        | _ => exact fine_same hr rfl
      | _ => exact fine_same hr rfl

theorem fine_deleteOptional (hr : Reached r.tracker) (hw : WT T r.value) {w : View} {loc : List Seg} (hp : PathTo w loc)
    (hN : N → Noted loc r.tracker) (s : σ) : Fine M N r (deleteOptional E T r w loc) (deleteOptionalA M E T r w loc s) := by
  unfold deleteOptionalA deleteOptional
  refine asking_ind (P := Fine M N r _) (fun _ s => fine_noMemory hr) (fun s => ?_) s
  rcases visit_cases hw (E := E) loc with ⟨hn, e, he, hm⟩ | ⟨steps, t, old, hl⟩
  · simp only [he]
    exact fine_answer hr _ s
  · simp only [visit_leads hw hl]
    split
    · exact fine_same hr rfl
    · cases t with
      | opt t =>
        cases old with
        | opt v =>
          dsimp only
          refine asking_ind (P := Fine M N r _) (fun _ s => fine_noMemory hr) (fun s => ?_) s
          cases validateHeld E t v with
          | error e => exact fine_answer hr _ s
          | ok u =>
            simp only
            cases validateCandidate E (.opt t) (.opt none) with
            | error e => exact fine_answer hr _ s
            | ok u =>
              exact fine_settle hr hp.shows hN catchDel _ .noContent trivial (assign_fine (leads_get hl) _ false (M.costly (.opt t)) s)
        | _ => exact fine_same hr rfl
      | _ => exact fine_same hr rfl

theorem fine_erase (hr : Reached r.tracker) {w w' : View} {loc : List Seg} (hd : w.dropBack = some w') (hs : Shows w' loc)
    (hN : N → Noted loc r.tracker) (n : Target) (hg : r.value.get n.addr = some n.val) (smaller : Value) (moves : Bool) (s : σ) :
    Fine M N r (eraseChecked E T r w n smaller) (eraseCheckedA M E T r w n smaller moves s) := by
  unfold eraseCheckedA eraseChecked
  rw [hd]
  exact fine_settle hr hs hN catchDel true .noContent trivial (assign_fine hg smaller true moves s)

theorem fine_child (hr : Reached r.tracker) {w w' : View} {loc : List Seg} (hd : w.dropBack = some w') (hs : Shows w' loc)
    (hN : N → Noted loc r.tracker) (n : Target) (hg : r.value.get n.addr = some n.val) (s : σ) :
    (deleteDirectChildA M E T r w n s = none ∧ deleteDirectChild E T r w n = none) ∨
    ∃ x y, deleteDirectChildA M E T r w n s = some x ∧ deleteDirectChild E T r w n = some y ∧ Fine M N r y x := by
  obtain ⟨addr, node, ty, val, ctx, rest⟩ := n
  unfold deleteDirectChildA deleteDirectChild
  have stuck : ∀ s : σ, Fine M N r (r, .stuck) (r, .stuck, s) := fun s => fine_same hr rfl
  cases ty with
  | map er t =>
    cases val with
    | map es =>
      match rest with
      | [x] =>
        dsimp only
        refine .inr ⟨_, _, rfl, rfl, ?_⟩
        cases findKey es x with
        | none => exact fine_answer hr _ s
        | some i =>
          dsimp only
          split
          · exact fine_same hr rfl
          · split
            · exact fine_erase hr hd hs hN _ hg _ _ s
            · exact fine_same hr rfl
      | [] => exact .inr ⟨_, _, rfl, rfl, stuck s⟩
      | _ :: _ :: _ => exact .inr ⟨_, _, rfl, rfl, stuck s⟩
    | _ => exact .inr ⟨_, _, rfl, rfl, stuck s⟩
  | seq k t =>
    cases val with
    | seq vs =>
      match rest with
      | [x] =>
        dsimp only
        split
        · refine .inr ⟨_, _, rfl, rfl, ?_⟩
          cases findKeyed E t vs x node.childKeys with
          | error e => exact fine_answer hr _ s
          | ok o =>
            cases o with
            | none => exact fine_answer hr _ s
            | some ki =>
              obtain ⟨k', i⟩ := ki
              dsimp only
              split
              · exact fine_same hr rfl
              · split
                · exact fine_erase hr hd hs hN _ hg _ _ s
                · exact fine_same hr rfl
        · split
          · refine .inr ⟨_, _, rfl, rfl, ?_⟩
            cases parseIndex x with
            | none => exact fine_answer hr _ s
            | some i =>
              dsimp only
              split
              · exact fine_same hr rfl
              · split
                · cases vs[i]? with
                  | none => exact fine_answer hr _ s
                  | some v => exact fine_erase hr hd hs hN _ hg _ _ s
                · exact fine_same hr rfl
          · exact .inl ⟨rfl, rfl⟩
      | [] => exact .inr ⟨_, _, rfl, rfl, stuck s⟩
      | _ :: _ :: _ => exact .inr ⟨_, _, rfl, rfl, stuck s⟩
    | _ => exact .inr ⟨_, _, rfl, rfl, stuck s⟩
  | _ => exact .inl ⟨rfl, rfl⟩

theorem fine_del (hr : Reached r.tracker) (hw : WT T r.value) {w : View} {loc : List Seg} (hp : PathTo w loc)
    (hN : N → Noted loc r.tracker) (hN' : N → Noted loc.dropLast r.tracker) (s : σ) : Fine M N r (del E T r w) (delA M E T r w s) := by
  unfold delA del
  rw [hp.segs]
  dsimp only
  by_cases hne : loc = []
  · subst hne
    rw [if_neg (by simp), if_neg (by simp)]
    exact fine_deleteOptional hr hw hp hN s
  · rw [if_pos hne, if_pos hne]
    refine asking_ind (P := Fine M N r _) (fun _ s => fine_noMemory hr) (fun s => ?_) s
    obtain ⟨w', hd, hs⟩ := hp.dropBack hne
    obtain ⟨c, x, rfl⟩ : ∃ c x, loc = c ++ [x] := ⟨loc.dropLast, loc.getLast hne, (List.dropLast_concat_getLast hne).symm⟩
    have hstop : visitAtPath E T r.value (c ++ [x]) 1 = (visitAtPath E T r.value c 0).map (withRest x) :=
      visit_stop E T .root r.value c x {}
    rw [hstop]
    rcases visit_cases hw (E := E) c with ⟨hn, e, he, hm⟩ | ⟨steps, t, u, hl⟩
    · simp only [he, Except.map]
      exact fine_answer hr _ s
    · simp only [visit_leads hw hl, Except.map, withRest]
      rcases fine_child (M := M) (E := E) (T := T) hr hd hs hN'
        ⟨steps.map Step.pos, endNode .root steps, t, u, endCtx {} .root steps, [x]⟩ (leads_get hl) s with ⟨h1, h2⟩ | ⟨a, y, h1, h2, h3⟩
      · rw [h1, h2]
        exact fine_deleteOptional hr hw hp hN s
      · rw [h1, h2]
        exact h3

/-- Every request. -/
theorem fine_perform (hr : Reached r.tracker) (hw : WT T r.value) (q : Asked β) {loc : List Seg} (hp : PathTo q.view loc)
    (hN : N → Noted loc r.tracker) (hN' : N → Noted loc.dropLast r.tracker) (s : σ) :
    Fine M N r (perform E T r q) (performA M E T r s q) := by
  cases q with
  | put w b => exact fine_replace hr hw _ hp hN b s
  | patch w b => exact fine_replace hr hw _ hp hN b s
  | post w b => exact fine_post hr hw hp hN b s
  | del w => exact fine_del hr hw hp hN hN' s

end Verif.Resource
