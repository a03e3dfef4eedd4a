import Verif.Resource.AllocVerbs
/-
C139: a resource when memory runs out.
-/
namespace Verif.Resource
open Verif.Path Verif.Path.Spec Verif.Tracker Verif.Tracker.Spec Verif.Tracker.Alloc Verif.Resource.Spec

variable {σ β : Type} {M : Memory σ} {r : Resource} {E : Env β} {T : Ty}

/-- Whatever the allocator does, a request ends as it would with memory, or throws `std::bad_alloc` and has taken effect entirely or not
at all; or the program is terminated, which happens only if there are types whose moves ask for memory. -/
theorem C139_ends (hr : Reached r.tracker) (hw : WT T r.value) (q : Asked β) (loc : List Seg) (hp : PathTo q.view loc) (s : σ) :
    (((performA M E T r s q).2.1 = .terminated ∧ ∃ t, M.costly t = true) ∨
      Ends r (perform E T r q) (performA M E T r s q).1 (performA M E T r s q).2.1) ∧ Reached (performA M E T r s q).1.tracker := by
  have h := fine_perform (M := M) (E := E) (N := False) hr hw q hp False.elim False.elim s
  exact ⟨h.ends, h.reached⟩

/-- If the tracker knows the location and the one above it, a request that throws `std::bad_alloc` has changed nothing. -/
theorem C139_noted (hr : Reached r.tracker) (hw : WT T r.value) (q : Asked β) (loc : List Seg) (hp : PathTo q.view loc)
    (hn : Noted loc r.tracker) (hn' : Noted loc.dropLast r.tracker) (s : σ) (hb : (performA M E T r s q).2.1 = .badAlloc) :
    (performA M E T r s q).1 = r :=
  (fine_perform (M := M) (E := E) (N := True) hr hw q hp (fun _ => hn) (fun _ => hn') s).noted trivial hb

/-! ### Values do not depend on the tracker -/

/-- The same answer and the same value. -/
def Alike (x y : Resource × Outcome) : Prop := x.2 = y.2 ∧ x.1.value = y.1.value

theorem alike_settled {r1 r2 : Resource} {w : View} {loc : List Seg} (hs : Shows w loc) (handler : Err → Outcome) (sub : Bool)
    (st : Status) (y : Value × Except Err Unit) : Alike (settled r1 handler (some w) sub st y) (settled r2 handler (some w) sub st y) := by
  obtain ⟨v, x⟩ := y
  cases x with
  | error e => exact ⟨rfl, rfl⟩
  | ok u =>
    obtain ⟨t1, h1⟩ := notify_some (t := r1.tracker) hs sub
    obtain ⟨t2, h2⟩ := notify_some (t := r2.tracker) hs sub
    simp only [settled, notified, h1, h2]
    exact ⟨rfl, rfl⟩

theorem alike_replace (v : Value) (t1 t2 : Tracker) (f : Ty → Value → β → Except Exc Value) {w : View} {loc : List Seg}
    (hp : PathTo w loc) (b : β) : Alike (replaceNode E f T ⟨v, t1⟩ w b) (replaceNode E f T ⟨v, t2⟩ w b) := by
  unfold replaceNode
  rw [hp.segs]
  dsimp only
  cases visitAtPath E T v loc 0 with
  | error e => exact ⟨rfl, rfl⟩
  | ok n =>
    dsimp only
    split
    · exact ⟨rfl, rfl⟩
    · cases liftUser (f n.ty n.val b) with
      | error e => exact ⟨rfl, rfl⟩
      | ok new =>
        dsimp only
        cases n.node.preservesIdentity E n.val new with
        | error e => exact ⟨rfl, rfl⟩
        | ok same =>
          cases same with
          | false => exact ⟨rfl, rfl⟩
          | true => exact alike_settled (r1 := ⟨v, t1⟩) (r2 := ⟨v, t2⟩) hp.shows catchPut _ .ok (assignChecked E T v n.addr n.val new)

theorem alike_post (v : Value) (t1 t2 : Tracker) {w : View} {loc : List Seg} (hp : PathTo w loc) (b : β) :
    Alike (post E T ⟨v, t1⟩ w b) (post E T ⟨v, t2⟩ w b) := by
  unfold post
  rw [hp.segs]
  dsimp only
  cases visitAtPath E T v loc 0 with
  | error e => exact ⟨rfl, rfl⟩
  | ok n =>
    obtain ⟨addr, node, ty, val, ctx, rest⟩ := n
    dsimp only
    split
    · exact ⟨rfl, rfl⟩
    · cases ty with
      | seq k t =>
        cases val with
        | seq vs =>
          dsimp only
          split
          · cases liftUser (E.deser t (E.fresh t) b) with
            | error e => exact ⟨rfl, rfl⟩
            | ok new =>
              dsimp only
              cases checkDuplicateChildKey E vs new node.childKeys with
              | error e => exact ⟨rfl, rfl⟩
              | ok u =>
                dsimp only
                cases validateCandidate E t new with
                | error e => exact ⟨rfl, rfl⟩
                | ok u => exact alike_settled (r1 := ⟨v, t1⟩) (r2 := ⟨v, t2⟩) hp.shows catchPut true .created (pushChecked E T v addr vs new)
          · exact ⟨rfl, rfl⟩
        | _ => exact ⟨rfl, rfl⟩
      | _ => exact ⟨rfl, rfl⟩

theorem alike_deleteOptional (v : Value) (t1 t2 : Tracker) {w : View} {loc : List Seg} (hp : PathTo w loc) :
    Alike (deleteOptional E T ⟨v, t1⟩ w loc) (deleteOptional E T ⟨v, t2⟩ w loc) := by
  unfold deleteOptional
  dsimp only
  cases visitAtPath E T v loc 0 with
  | error e => exact ⟨rfl, rfl⟩
  | ok n =>
    obtain ⟨addr, node, ty, val, ctx, rest⟩ := n
    dsimp only
    split
    · exact ⟨rfl, rfl⟩
    · cases ty with
      | opt t =>
        cases val with
        | opt o =>
          dsimp only
          cases validateHeld E t o with
          | error e => exact ⟨rfl, rfl⟩
          | ok u =>
            dsimp only
            cases validateCandidate E (.opt t) (.opt none) with
            | error e => exact ⟨rfl, rfl⟩
            | ok u =>
              exact alike_settled (r1 := ⟨v, t1⟩) (r2 := ⟨v, t2⟩) hp.shows catchDel _ .noContent (assignChecked E T v addr (.opt o) (.opt none))
        | _ => exact ⟨rfl, rfl⟩
      | _ => exact ⟨rfl, rfl⟩

theorem alike_erase (v : Value) (t1 t2 : Tracker) {w w' : View} {loc : List Seg} (hd : w.dropBack = some w') (hs : Shows w' loc)
    (n : Target) (smaller : Value) : Alike (eraseChecked E T ⟨v, t1⟩ w n smaller) (eraseChecked E T ⟨v, t2⟩ w n smaller) := by
  unfold eraseChecked
  rw [hd]
  exact alike_settled (r1 := ⟨v, t1⟩) (r2 := ⟨v, t2⟩) hs catchDel true .noContent (assignChecked E T v n.addr n.val smaller)

theorem alike_child (v : Value) (t1 t2 : Tracker) {w w' : View} {loc : List Seg} (hd : w.dropBack = some w') (hs : Shows w' loc)
    (n : Target) : (deleteDirectChild E T ⟨v, t1⟩ w n = none ∧ deleteDirectChild E T ⟨v, t2⟩ w n = none) ∨
      ∃ x y, deleteDirectChild E T ⟨v, t1⟩ w n = some x ∧ deleteDirectChild E T ⟨v, t2⟩ w n = some y ∧ Alike x y := by
  obtain ⟨addr, node, ty, val, ctx, rest⟩ := n
  unfold deleteDirectChild
  cases ty with
  | map er t =>
    cases val with
    | map es =>
      match rest with
      | [x] =>
        dsimp only
        refine .inr ⟨_, _, rfl, rfl, ?_⟩
        cases findKey es x with
        | none => exact ⟨rfl, rfl⟩
        | some i =>
          dsimp only
          split
          · exact ⟨rfl, rfl⟩
          · split
            · exact alike_erase v t1 t2 hd hs _ _
            · exact ⟨rfl, rfl⟩
      | [] => exact .inr ⟨_, _, rfl, rfl, rfl, rfl⟩
      | _ :: _ :: _ => exact .inr ⟨_, _, rfl, rfl, rfl, rfl⟩
    | _ => exact .inr ⟨_, _, rfl, rfl, rfl, rfl⟩
  | seq k t =>
    cases val with
    | seq vs =>
      match rest with
      | [x] =>
        dsimp only
        split
        · refine .inr ⟨_, _, rfl, rfl, ?_⟩
          cases findKeyed E t vs x node.childKeys with
          | error e => exact ⟨rfl, rfl⟩
          | ok o =>
            cases o with
            | none => exact ⟨rfl, rfl⟩
            | some ki =>
              obtain ⟨k', i⟩ := ki
              dsimp only
              split
              · exact ⟨rfl, rfl⟩
              · split
                · exact alike_erase v t1 t2 hd hs _ _
                · exact ⟨rfl, rfl⟩
        · split
          · refine .inr ⟨_, _, rfl, rfl, ?_⟩
            cases parseIndex x with
            | none => exact ⟨rfl, rfl⟩
            | some i =>
              dsimp only
              split
              · exact ⟨rfl, rfl⟩
              · split
                · cases vs[i]? with
                  | none => exact ⟨rfl, rfl⟩
                  | some _ => exact alike_erase v t1 t2 hd hs _ _
                · exact ⟨rfl, rfl⟩
          · exact .inl ⟨rfl, rfl⟩
      | [] => exact .inr ⟨_, _, rfl, rfl, rfl, rfl⟩
      | _ :: _ :: _ => exact .inr ⟨_, _, rfl, rfl, rfl, rfl⟩
    | _ => exact .inr ⟨_, _, rfl, rfl, rfl, rfl⟩
  | _ => exact .inl ⟨rfl, rfl⟩

theorem alike_del (v : Value) (t1 t2 : Tracker) {w : View} {loc : List Seg} (hp : PathTo w loc) :
    Alike (del E T ⟨v, t1⟩ w) (del E T ⟨v, t2⟩ w) := by
  unfold del
  rw [hp.segs]
  dsimp only
  by_cases hne : loc = []
  · subst hne
    rw [if_neg (by simp), if_neg (by simp)]
    exact alike_deleteOptional v t1 t2 hp
  · rw [if_pos hne, if_pos hne]
    obtain ⟨w', hd, hs⟩ := hp.dropBack hne
    cases visitAtPath E T v loc 1 with
    | error e => exact ⟨rfl, rfl⟩
    | ok n =>
      dsimp only
      rcases alike_child (E := E) (T := T) v t1 t2 hd hs n with ⟨h1, h2⟩ | ⟨x, y, h1, h2, h3⟩
      · rw [h1, h2]
        exact alike_deleteOptional v t1 t2 hp
      · rw [h1, h2]
        exact h3

/-- Answer and value of a request do not depend on the tracker. -/
theorem C139_tracker (v : Value) (t1 t2 : Tracker) (q : Asked β) (loc : List Seg) (hp : PathTo q.view loc) :
    (perform E T ⟨v, t1⟩ q).2 = (perform E T ⟨v, t2⟩ q).2 ∧ (perform E T ⟨v, t1⟩ q).1.value = (perform E T ⟨v, t2⟩ q).1.value := by
  cases q with
  | put w b => exact alike_replace v t1 t2 _ hp b
  | patch w b => exact alike_replace v t1 t2 _ hp b
  | post w b => exact alike_post v t1 t2 hp b
  | del w => exact alike_del v t1 t2 hp

/-! ### Histories -/

theorem setup_new (hE : Typed E) {v : Value} (hw : WT T v) : Setup E T ⟨v, {}⟩ [] := ⟨hE, hw, ⟨[], .nil, rfl⟩⟩

theorem perform_failed (hE : Typed E) {v : Value} (hw : WT T v) (q : Asked β) {loc : List Seg} (hp : PathTo q.view loc)
    (h : ¬ Success (perform E T ⟨v, {}⟩ q).2) : (perform E T ⟨v, {}⟩ q).1.value = v := by
  have hs := setup_new hE hw
  cases q with
  | put w b => rw [perform, C30_put hs w loc hp b h]
  | patch w b => rw [perform, C30_patch hs w loc hp b h]
  | post w b => rw [perform, C30_post hs w loc hp b h]
  | del w => rw [perform, C30_del hs w loc hp h]

theorem perform_wt (hE : Typed E) {v : Value} (hw : WT T v) (q : Asked β) {loc : List Seg} (hp : PathTo q.view loc) :
    WT T (perform E T ⟨v, {}⟩ q).1.value := by
  have hs := setup_new hE hw
  cases q with
  | put w b =>
    have h := hs.put (w := w) hp b
    change WT T (put E T ⟨v, {}⟩ w b).1.value
    generalize put E T ⟨v, {}⟩ w b = x at h
    obtain ⟨r', o⟩ := x
    cases h <;> assumption
  | patch w b =>
    have h := hs.patch (w := w) hp b
    change WT T (patch E T ⟨v, {}⟩ w b).1.value
    generalize patch E T ⟨v, {}⟩ w b = x at h
    obtain ⟨r', o⟩ := x
    cases h <;> assumption
  | post w b =>
    have h := hs.post (w := w) hp b
    change WT T (post E T ⟨v, {}⟩ w b).1.value
    generalize post E T ⟨v, {}⟩ w b = x at h
    obtain ⟨r', o⟩ := x
    cases h <;> assumption
  | del w =>
    have h := hs.del (w := w) hp
    change WT T (del E T ⟨v, {}⟩ w).1.value
    generalize del E T ⟨v, {}⟩ w = x at h
    obtain ⟨r', o⟩ := x
    cases h <;> assumption

theorem perform_valid (hE : Typed E) {v : Value} (hw : WT T v) (q : Asked β) {loc : List Seg} (hp : PathTo q.view loc)
    (h : Success (perform E T ⟨v, {}⟩ q).2) : Spec.Valid E T (perform E T ⟨v, {}⟩ q).1.value := by
  have hs := setup_new hE hw
  cases q with
  | put w b => exact C31_put hs w loc hp b h
  | patch w b => exact C31_patch hs w loc hp b h
  | post w b => exact C31_post hs w loc hp b h
  | del w => exact C31_del hs w loc hp h

/-- One request in a history. -/
theorem step_effect (hE : Typed E) (hr : Reached r.tracker) (hw : WT T r.value) (q : Asked β) {loc : List Seg}
    (hp : PathTo q.view loc) (s : σ) (ht : (performA M E T r s q).2.1 ≠ .terminated) :
    let a := performA M E T r s q
    let full := perform E T ⟨r.value, {}⟩ q
    (Success full.2 ∧ (a.2.1 = .of full.2 ∨ a.2.1 = .badAlloc) ∧ a.1.value = full.1.value) ∨
    ((a.2.1 = .of full.2 ∧ ¬ Success full.2 ∨ a.2.1 = .badAlloc) ∧ a.1.value = r.value) := by
  intro a full
  obtain ⟨h1, h2⟩ := C139_tracker (E := E) (T := T) r.value r.tracker {} q loc hp
  obtain ⟨⟨h, -⟩ | h, -⟩ := C139_ends (M := M) (E := E) hr hw q loc hp s
  · exact absurd h ht
  · change Ends r (perform E T r q) a.1 a.2.1 at h
    generalize ha : a.1 = r' at h
    generalize he : a.2.1 = e at h
    change (perform E T r q).2 = full.2 at h1
    change (perform E T r q).1.value = full.1.value at h2
    cases h with
    | same =>
      by_cases hs : Success full.2
      · exact .inl ⟨hs, .inl (by rw [h1]), h2⟩
      · refine .inr ⟨.inl ⟨by rw [h1], hs⟩, ?_⟩
        rw [h2]
        exact perform_failed hE hw q hp hs
    | before => exact .inr ⟨.inr rfl, rfl⟩
    | after g1 g2 g3 => exact .inl ⟨by rw [← h1]; exact g1, .inr rfl, by rw [g2, h2]⟩

/-- Any requests one after the other, whatever the allocator does, as long as the program is not terminated: the value is what the
requests that took effect make of the first one; these are all that succeeded, and some of those that threw `std::bad_alloc`. A valid
value stays valid. -/
theorem C139_history (hE : Typed E) (qs : List (Asked β)) (hr : Reached r.tracker) (hw : WT T r.value)
    (hp : ∀ q ∈ qs, ∃ loc, PathTo q.view loc) (s : σ) (ht : .terminated ∉ (serveA M E T r s qs).2.1) :
    Effects E T r.value qs (serveA M E T r s qs).2.1 (serveA M E T r s qs).1.value ∧ WT T (serveA M E T r s qs).1.value ∧
      (Spec.Valid E T r.value → Spec.Valid E T (serveA M E T r s qs).1.value) ∧ Reached (serveA M E T r s qs).1.tracker := by
  induction qs generalizing r s with
  | nil => exact ⟨.nil, hw, id, hr⟩
  | cons q qs ih =>
    obtain ⟨loc, hq⟩ := hp q (by simp)
    simp only [serveA, List.mem_cons, not_or] at ht ⊢
    have hstep := step_effect (M := M) hE hr hw q hq s (fun h => ht.1 h.symm)
    have hreach := (C139_ends (M := M) (E := E) hr hw q loc hq s).2
    simp only at hstep
    rcases hstep with ⟨h1, h2, h3⟩ | ⟨h2, h3⟩
    · have hw' : WT T (performA M E T r s q).1.value := by rw [h3]; exact perform_wt hE hw q hq
      obtain ⟨g1, g2, g3, g4⟩ := ih hreach hw' (fun q hq => hp q (by simp [hq])) _ ht.2
      refine ⟨.done h1 h2 (by rw [← h3]; exact g1), g2, fun _ => g3 ?_, g4⟩
      rw [h3]
      exact perform_valid hE hw q hq h1
    · have hw' : WT T (performA M E T r s q).1.value := by rw [h3]; exact hw
      obtain ⟨g1, g2, g3, g4⟩ := ih hreach hw' (fun q hq => hp q (by simp [hq])) _ ht.2
      exact ⟨.skipped h2 (by rw [← h3]; exact g1), g2, fun hv => g3 (by rw [h3]; exact hv), g4⟩

/-- If no type asks for memory when it is moved, the program is not terminated. -/
theorem C139_no_terminate (hE : Typed E) (hc : ∀ t, M.costly t = false) (qs : List (Asked β)) (hr : Reached r.tracker)
    (hw : WT T r.value) (hp : ∀ q ∈ qs, ∃ loc, PathTo q.view loc) (s : σ) : .terminated ∉ (serveA M E T r s qs).2.1 := by
  induction qs generalizing r s with
  | nil => simp [serveA]
  | cons q qs ih =>
    obtain ⟨loc, hq⟩ := hp q (by simp)
    have hne : (performA M E T r s q).2.1 ≠ .terminated := by
      intro h
      obtain ⟨⟨-, t, ht⟩ | h', -⟩ := C139_ends (M := M) (E := E) hr hw q loc hq s
      · rw [hc t] at ht; cases ht
      · rw [h] at h'
        generalize hg : End.terminated = e at h'
        generalize (performA M E T r s q).1 = r' at h'
        cases h' with
        | same =>
          cases ho : (perform E T r q).2 <;> rw [ho] at hg <;> cases hg
        | before => cases hg
        | after => cases hg
    have hstep := step_effect (M := M) hE hr hw q hq s hne
    have hreach := (C139_ends (M := M) (E := E) hr hw q loc hq s).2
    simp only [serveA, List.mem_cons, not_or]
    refine ⟨fun h => hne h.symm, ih hreach ?_ (fun q hq => hp q (by simp [hq])) _⟩
    simp only at hstep
    rcases hstep with ⟨-, -, h3⟩ | ⟨-, h3⟩
    · rw [h3]; exact perform_wt hE hw q hq
    · rw [h3]; exact hw

/-! ### Cases, and what is not so -/

/-- Memory for so many steps; moves are free. -/
def Demo.few : Memory Nat := ⟨budget, fun _ => false, fun _ old _ => old⟩

/-- The same if moving a number asks for memory. -/
def Demo.heavy : Memory Nat := ⟨budget, fun t => match t with | .leaf _ => true | _ => false, fun _ old _ => old⟩

/-- `PUT /users/bob/age` and `DELETE /users/ann` with memory for 2, 3, ... steps. -/
def Demo.putAge : Asked Value := .put (Demo.view "/users/bob/age") (Demo.num 41)
def Demo.delAnn : Asked Value := .del (Demo.view "/users/ann")

example : PathTo Demo.putAge.view [str "users", str "bob", str "age"] ∧ PathTo Demo.delAnn.view [str "users", str "ann"] :=
  ⟨Demo.view_to (by decide +kernel) (by decide +kernel), Demo.view_to (by decide +kernel) (by decide +kernel)⟩

/-- With 9 steps both requests succeed; with 6 the second one throws before anything is changed, with fewer the first one throws: with
memory for 1 step before the change, with 2 to 5 after it. -/
example : (serveA Demo.few Demo.env Demo.T Demo.r0 9 [Demo.putAge, Demo.delAnn]).2.1 = [.resp .ok [], .resp .noContent []] ∧
    (serveA Demo.few Demo.env Demo.T Demo.r0 6 [Demo.putAge, Demo.delAnn]).2.1 = [.resp .ok [], .badAlloc] ∧
    (serveA Demo.few Demo.env Demo.T Demo.r0 1 [Demo.putAge]).2.1 = [.badAlloc] ∧
    get Demo.env Demo.T Demo.dump (performA Demo.few Demo.env Demo.T Demo.r0 1 Demo.putAge).1 (Demo.view "/users/bob/age") =
      .resp .ok (str "40") ∧
    get Demo.env Demo.T Demo.dump (performA Demo.few Demo.env Demo.T Demo.r0 5 Demo.putAge).1 (Demo.view "/users/bob/age") =
      .resp .ok (str "41") := by decide +kernel

/-- A tracker that knows a location. -/
example : Noted [str "a", str "b"] ⟨2, [([], 2), (str "a", 2), (str "a/b", 2)], [(str "a/b", 2)]⟩ :=
  .told (M := budget) (s := 9) (s' := 5) (w := viewAB) .new viewAB_shows rfl

/-- A request throws `std::bad_alloc`, the resource has changed, and the tracker says of every location that it has not: who polls it
never learns of the change. -/
theorem C139_unnoticed_violated : ∃ (E : Env Value) (T : Ty) (r : Resource) (w : View) (loc : List Seg) (b : Value) (s : Nat),
    Typed E ∧ WT T r.value ∧ Reached r.tracker ∧ PathTo w loc ∧
    (performA Demo.few E T r s (.put w b)).2.1 = .badAlloc ∧
    get E T Demo.dump r w ≠ get E T Demo.dump (performA Demo.few E T r s (.put w b)).1 w ∧
    ∀ wq q, Shows wq q → (performA Demo.few E T r s (.put w b)).1.tracker.changedSince wq r.tracker.current = some false := by
  refine ⟨Demo.env, Demo.T, Demo.r0, Demo.view "/users/bob/age", [str "users", str "bob", str "age"], Demo.num 41, 2,
    Demo.env_typed, Demo.wt, .new, Demo.view_to (by decide +kernel) (by decide +kernel), by decide +kernel, by decide +kernel, ?_⟩
  have ht : (performA Demo.few Demo.env Demo.T Demo.r0 2 (.put (Demo.view "/users/bob/age") (Demo.num 41))).1.tracker = ⟨2, [], []⟩ := by
    have hc : ∀ t : Tracker, t.current = 2 ∧ t.node = [] ∧ t.subtree = [] → t = ⟨2, [], []⟩ := by
      rintro ⟨c, n, m⟩ ⟨rfl, rfl, rfl⟩
      rfl
    exact hc _ (by decide +kernel)
  rw [ht]
  intro wq q hq
  obtain ⟨es, hi⟩ : ∃ es, Alloc.Inv ⟨2, [], []⟩ es :=
    ⟨[none], ⟨rfl, fun _ _ => .inl ⟨rfl, by simp [Is]⟩, fun _ _ => .inl ⟨rfl, by simp [Is]⟩⟩⟩
  have hz : ∀ is r, Tracker.changedAtLoop ⟨2, [], []⟩ wq r is = none ∨ Tracker.changedAtLoop ⟨2, [], []⟩ wq r is = some r := by
    intro is
    induction is with
    | nil => intro r; exact .inr rfl
    | cons i is ih =>
      intro r
      unfold Tracker.changedAtLoop
      cases wq.prefix i with
      | none => exact .inl rfl
      | some key =>
        simp only [lookup, List.find?_nil, Nat.not_lt_zero, gt_iff_lt, if_false, ite_self]
        exact ih r
  obtain ⟨g, hg, _⟩ := changedAt_ok hi hq
  have h0 : g = 0 := by
    unfold Tracker.changedAt at hg
    rcases hz (List.range (wq.size + 1)) 0 with h | h <;> rw [h] at hg <;> cases hg
    rfl
  subst h0
  simp [Tracker.changedSince, hg, Demo.r0]

/-- A value that is refused ends the program instead of the request: the old value cannot be put back, because moving it needs memory. -/
theorem C139_terminate_violated : ∃ (E : Env Value) (T : Ty) (r : Resource) (w : View) (loc : List Seg) (b : Value) (s : Nat),
    Typed E ∧ WT T r.value ∧ Reached r.tracker ∧ PathTo w loc ∧ (∃ msg, (put E T r w b).2 = .resp .conflict msg) ∧
    (performA Demo.heavy E T r s (.put w b)).2.1 = .terminated :=
  ⟨Demo.env, Demo.T, Demo.r0, Demo.view "/tags/1", [str "tags", str "1"], Demo.num 100, 4, Demo.env_typed, Demo.wt, .new,
    Demo.view_to (by decide +kernel) (by decide +kernel), ⟨str "too big", by decide +kernel⟩, by decide +kernel⟩

end Verif.Resource
