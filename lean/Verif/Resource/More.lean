import Verif.Resource.Props
/-
Properties C70-C74: what the tracker is told, sequences of requests, polling, and the
decision tables of post and del.
-/
namespace Verif.Resource
open Verif.Path Verif.Path.Spec Verif.Tracker Verif.Tracker.Spec Verif.Resource.Spec

/-! ### Requests -/

/-- A modifying request. -/
inductive Request (β : Type) where
  | put (w : View) (body : β)
  | patch (w : View) (body : β)
  | post (w : View) (body : β)
  | del (w : View)

def Request.view {β : Type} : Request β → View
  | put w _ | patch w _ | post w _ | del w => w

/-- Serves one request. -/
def serve {β : Type} (E : Env β) (T : Ty) (r : Resource) : Request β → Resource × Outcome
  | .put w b => put E T r w b
  | .patch w b => patch E T r w b
  | .post w b => post E T r w b
  | .del w => del E T r w

/-- Serves requests one after the other, collecting the answers. -/
def serveAll {β : Type} (E : Env β) (T : Ty) : Resource → List (Request β) → Resource × List Outcome
  | r, [] => (r, [])
  | r, q :: qs =>
    let (r1, o) := serve E T r q
    let (r2, os) := serveAll E T r1 qs
    (r2, o :: os)

/-- The path of the request comes from a parsed string and is `p`. -/
def Request.At {β : Type} (q : Request β) (p : List Seg) : Prop := PathTo q.view p

section
variable {β : Type} {E : Env β} {T : Ty} {r : Resource} {hist : List Note}

/-- A request changes nothing or edits the node at the path (or, `del`, the collection above). -/
inductive Served (E : Env β) (T : Ty) (r : Resource) (hist : List Note) (p : List Seg) :
    Resource → Outcome → Prop
  | failed {o} : ¬ Success o → o ≠ .stuck → Served E T r hist p r o
  | edited {r' o c steps t old new sub} : Success o → Edit E T r r' hist c steps t old new sub →
      (sub = true ∨ shallow t = true ∨ (∃ u, t = .opt u ∧ emptyable u = false)) →
      (c = p ∨ ∃ s, p = c ++ [s]) → Served E T r hist p r' o

theorem row_not_stuck {e : Err} (h : ValidationErr E e) : catchPut e ≠ .stuck ∧ catchDel e ≠ .stuck := by
  rcases h with rfl | ⟨t, v, x, hx, rfl⟩
  · exact ⟨by decide, by decide⟩
  · cases x <;> exact ⟨by simp [catchPut], by simp [catchDel]⟩

theorem user_not_stuck (e : Exc) : catchPut (.throws e) ≠ .stuck := by
  cases e <;> simp [catchPut]

theorem putRow_not_stuck {f : Ty → Value → β → Except Exc Value} {loc : List Seg} {b : β} {r' : Resource}
    {o : Outcome} (h : PutRow E f T r hist loc b r' o) : o ≠ .stuck := by
  cases h with
  | rejected _ _ _ => exact user_not_stuck _
  | invalid _ _ _ _ _ _ _ h => exact (row_not_stuck h).1
  | _ => simp

theorem postRow_not_stuck {loc : List Seg} {b : β} {r' : Resource}
    {o : Outcome} (h : PostRow E T r hist loc b r' o) : o ≠ .stuck := by
  cases h with
  | rejected _ _ _ _ => exact user_not_stuck _
  | candidate _ _ _ _ _ _ h => exact (row_not_stuck h).1
  | invalid _ _ _ _ _ _ _ _ _ h => exact (row_not_stuck h).1
  | _ => simp

theorem delRow_not_stuck {loc : List Seg} {r' : Resource}
    {o : Outcome} (h : DelRow E T r hist loc r' o) : o ≠ .stuck := by
  cases h with
  | childInvalid _ _ _ _ _ _ _ _ _ h => exact (row_not_stuck h).2
  | candidate _ _ _ _ h => exact (row_not_stuck h).2
  | invalid _ _ _ _ _ _ _ h => exact (row_not_stuck h).2
  | _ => simp

theorem served (h : Setup E T r hist) (q : Request β) (p : List Seg) (hp : q.At p) :
    Served E T r hist p (serve E T r q).1 (serve E T r q).2 := by
  by_cases hs : Success (serve E T r q).2
  · cases q with
    | put w b =>
      obtain ⟨st, t, old, new, he, _⟩ := put_edit h.typed.deser h.wt (h.put hp b) hs
      exact .edited hs he ((deep_or_shallow t).elim .inl fun h => .inr (.inl h)) (.inl rfl)
    | patch w b =>
      obtain ⟨st, t, old, new, he, _⟩ := put_edit h.typed.patch h.wt (h.patch hp b) hs
      exact .edited hs he ((deep_or_shallow t).elim .inl fun h => .inr (.inl h)) (.inl rfl)
    | post w b =>
      obtain ⟨st, k, t, vs, x, he, _⟩ := post_edit h.typed h.wt (h.post hp b) hs
      exact .edited hs he (.inl rfl) (.inl rfl)
    | del w =>
      rcases (del_edit h.wt (h.del hp) hs).2 with
        ⟨c, s, st, t, u, x, t1, u1, e, ht, l1, _, _, he⟩ | ⟨st, t, u, hn, he⟩
      · exact .edited hs he (.inl rfl) (.inr ⟨s, e⟩)
      · refine .edited hs he ?_ (.inl rfl)
        cases hm : emptyable t with
        | false => exact .inr (.inr ⟨_, rfl, hm⟩)
        | true => rcases emptyable_or hm with h | h
                  · exact .inl h
                  · exact .inr (.inl h)
  · cases q with
    | put w b =>
      have := C30_put h w p hp b hs
      have hst := putRow_not_stuck (h.put hp b)
      simp only [serve] at hs ⊢
      rw [this]; exact .failed hs hst
    | patch w b =>
      have := C30_patch h w p hp b hs
      have hst := putRow_not_stuck (h.patch hp b)
      simp only [serve] at hs ⊢
      rw [this]; exact .failed hs hst
    | post w b =>
      have := C30_post h w p hp b hs
      have hst := postRow_not_stuck (h.post hp b)
      simp only [serve] at hs ⊢
      rw [this]; exact .failed hs hst
    | del w =>
      have := C30_del h w p hp hs
      have hst := delRow_not_stuck (h.del hp)
      simp only [serve] at hs ⊢
      rw [this]; exact .failed hs hst

theorem Edit.setup (h : Setup E T r hist) {r' : Resource} {c : List Seg} {steps : List Step} {t : Ty}
    {old new : Value} {sub : Bool} (he : Edit E T r r' hist c steps t old new sub) :
    Setup E T r' (hist ++ [(c, sub)]) := ⟨h.typed, he.typed, he.told⟩

/-! ### C70 What the tracker is told -/

/-- C70: after a successful `put` the generation has grown by one, and compared to the
generation before exactly these paths count as changed: the prefixes of `p`, and the
extensions of `p` unless `p` names a scalar. -/
theorem C70_put (h : Setup E T r hist) (w : View) (p : List Seg) (hp : PathTo w p) (b : β)
    (hs : Success (put E T r w b).2) :
    (put E T r w b).1.tracker.current = r.tracker.current + 1 ∧
    ∃ steps t u, LeadsTo E T r.value p steps t u ∧ ∀ wq q, PathTo wq q →
      ((q <+: p ∨ (p <+: q ∧ ∀ id, t ≠ .leaf id) →
        (put E T r w b).1.tracker.changedSince wq r.tracker.current = some true) ∧
       (¬ (q <+: p ∨ (p <+: q ∧ ∀ id, t ≠ .leaf id)) →
        (put E T r w b).1.tracker.changedSince wq r.tracker.current = some false)) := by
  obtain ⟨st, t, old, new, he, _⟩ := put_edit h.typed.deser h.wt (h.put hp b) hs
  refine ⟨?_, st, t, old, he.leads, ?_⟩
  · rw [he.told.inv.cur, h.told.inv.cur]; simp
  intro wq q hq
  have hc : Concerns (p, addressableDescendants t) q ↔ (q <+: p ∨ (p <+: q ∧ ∀ id, t ≠ .leaf id)) := by
    unfold Concerns
    cases t <;> simp [addressableDescendants]
  have := told_since h.told he.told hq.shows (g := r.tracker.current)
  rw [hc] at this
  exact ⟨fun hc => this.1 hc (Nat.le_refl _), fun hc => this.2 hc rfl⟩

/-- C70 for `patch`. -/
theorem C70_patch (h : Setup E T r hist) (w : View) (p : List Seg) (hp : PathTo w p) (b : β)
    (hs : Success (patch E T r w b).2) :
    (patch E T r w b).1.tracker.current = r.tracker.current + 1 ∧
    ∃ steps t u, LeadsTo E T r.value p steps t u ∧ ∀ wq q, PathTo wq q →
      ((q <+: p ∨ (p <+: q ∧ ∀ id, t ≠ .leaf id) →
        (patch E T r w b).1.tracker.changedSince wq r.tracker.current = some true) ∧
       (¬ (q <+: p ∨ (p <+: q ∧ ∀ id, t ≠ .leaf id)) →
        (patch E T r w b).1.tracker.changedSince wq r.tracker.current = some false)) := by
  obtain ⟨st, t, old, new, he, _⟩ := put_edit h.typed.patch h.wt (h.patch hp b) hs
  refine ⟨?_, st, t, old, he.leads, ?_⟩
  · rw [he.told.inv.cur, h.told.inv.cur]; simp
  intro wq q hq
  have hc : Concerns (p, addressableDescendants t) q ↔ (q <+: p ∨ (p <+: q ∧ ∀ id, t ≠ .leaf id)) := by
    unfold Concerns
    cases t <;> simp [addressableDescendants]
  have := told_since h.told he.told hq.shows (g := r.tracker.current)
  rw [hc] at this
  exact ⟨fun hc => this.1 hc (Nat.le_refl _), fun hc => this.2 hc rfl⟩

/-- C70: a successful `post` marks the prefixes and the extensions of the path of the
collection, and nothing else. -/
theorem C70_post (h : Setup E T r hist) (w : View) (p : List Seg) (hp : PathTo w p) (b : β)
    (hs : Success (post E T r w b).2) :
    (post E T r w b).1.tracker.current = r.tracker.current + 1 ∧ ∀ wq q, PathTo wq q →
      ((q <+: p ∨ p <+: q → (post E T r w b).1.tracker.changedSince wq r.tracker.current = some true) ∧
       (¬ (q <+: p ∨ p <+: q) → (post E T r w b).1.tracker.changedSince wq r.tracker.current = some false)) := by
  obtain ⟨st, k, t, vs, x, he, _⟩ := post_edit h.typed h.wt (h.post hp b) hs
  refine ⟨?_, ?_⟩
  · rw [he.told.inv.cur, h.told.inv.cur]; simp
  intro wq q hq
  have hc : Concerns (p, true) q ↔ (q <+: p ∨ p <+: q) := by simp [Concerns]
  have := told_since h.told he.told hq.shows (g := r.tracker.current)
  rw [hc] at this
  exact ⟨fun hc => this.1 hc (Nat.le_refl _), fun hc => this.2 hc rfl⟩

/-- C70: a successful `del` of an element marks the prefixes and extensions of the path of
the collection; emptying an optional marks the prefixes of its path, and the extensions if
it can hold a struct. -/
theorem C70_del (h : Setup E T r hist) (w : View) (p : List Seg) (hp : PathTo w p)
    (hs : Success (del E T r w).2) :
    (del E T r w).1.tracker.current = r.tracker.current + 1 ∧
    ((InCollection E T r.value p ∧ ∃ c s, p = c ++ [s] ∧ ∀ wq q, PathTo wq q →
      ((q <+: c ∨ c <+: q → (del E T r w).1.tracker.changedSince wq r.tracker.current = some true) ∧
       (¬ (q <+: c ∨ c <+: q) → (del E T r w).1.tracker.changedSince wq r.tracker.current = some false))) ∨
     (¬ InCollection E T r.value p ∧ ∃ steps t u, LeadsTo E T r.value p steps (.opt t) u ∧
      ∀ wq q, PathTo wq q →
      ((q <+: p ∨ (p <+: q ∧ ∃ id fs, t = .record id fs) →
        (del E T r w).1.tracker.changedSince wq r.tracker.current = some true) ∧
       (¬ (q <+: p ∨ (p <+: q ∧ ∃ id fs, t = .record id fs)) →
        (del E T r w).1.tracker.changedSince wq r.tracker.current = some false)))) := by
  rcases (del_edit h.wt (h.del hp) hs).2 with
    ⟨c, s, st, t, u, x, t1, u1, e, ht, l1, _, _, he⟩ | ⟨st, t, u, hn, he⟩
  · refine ⟨?_, .inl ⟨⟨c, s, st, t, u, e, he.leads, ht⟩, c, s, e, ?_⟩⟩
    · rw [he.told.inv.cur, h.told.inv.cur]; simp
    intro wq q hq
    have hc : Concerns (c, true) q ↔ (q <+: c ∨ c <+: q) := by simp [Concerns]
    have := told_since h.told he.told hq.shows (g := r.tracker.current)
    rw [hc] at this
    exact ⟨fun hc => this.1 hc (Nat.le_refl _), fun hc => this.2 hc rfl⟩
  · refine ⟨?_, .inr ⟨hn, st, t, _, he.leads, ?_⟩⟩
    · rw [he.told.inv.cur, h.told.inv.cur]; simp
    intro wq q hq
    have hc : Concerns (p, isReflectable t) q ↔ (q <+: p ∨ (p <+: q ∧ ∃ id fs, t = .record id fs)) := by
      unfold Concerns
      cases t <;> simp [isReflectable]
    have := told_since h.told he.told hq.shows (g := r.tracker.current)
    rw [hc] at this
    exact ⟨fun hc => this.1 hc (Nat.le_refl _), fun hc => this.2 hc rfl⟩

end

example : (put Demo.env Demo.T Demo.r0 (Demo.view "/users/bob") (.record [Demo.text "bob", Demo.num 3])).1.tracker.changedSince
    (Demo.view "/users/bob/age") 1 = some true := by decide +kernel
example : (put Demo.env Demo.T Demo.r0 (Demo.view "/users/bob") (.record [Demo.text "bob", Demo.num 3])).1.tracker.changedSince
    (Demo.view "/users/ann/age") 1 = some false := by decide +kernel
example : Demo.r0.tracker.current = 1 := by decide +kernel

section
variable {β : Type} {E : Env β} {T : Ty} {r : Resource} {hist : List Note}

/-! ### C71 No undefined behaviour -/

/-- C71: on a resource whose value has its type the verbs never take a step that C++ could
not take (`stuck`: reading a member that is not there, an iterator past the end, ...), and
the value has its type afterwards. -/
theorem C71_served (h : Setup E T r hist) (q : Request β) (p : List Seg) (hp : q.At p) :
    (serve E T r q).2 ≠ .stuck ∧ ∃ hist', Setup E T (serve E T r q).1 (hist ++ hist') := by
  have hr := served h q p hp
  generalize serve E T r q = res at *
  obtain ⟨r', o⟩ := res
  cases hr with
  | failed _ h2 => exact ⟨h2, [], by simpa using h⟩
  | edited h1 h2 =>
    refine ⟨?_, _, h2.setup h⟩
    rintro rfl
    exact h1

/-- C71 for `get`. -/
theorem C71_get (hw : WT T r.value) (w : View) (p : List Seg) (hp : PathTo w p)
    (dump : Ty → Value → Except Exc Str) : get E T dump r w ≠ .stuck := by
  by_cases hr : Resolves E T r.value p
  · obtain ⟨st, t, u, hl⟩ := hr
    rw [get_leads hw hp hl]
    cases dump t u with
    | ok _ => simp [answer]
    | error e => cases e <;> simp [answer, catchGet]
  · rw [get_missing hw hp hr]; simp

end

/-- The hypothesis is needed: on an ill-typed value the model does get stuck. -/
example : (put Demo.env Demo.T ⟨.record [], {}⟩ (Demo.view "/users") (Demo.num 1)).2 = .stuck := by
  decide +kernel

section
variable {β : Type} {E : Env β} {T : Ty} {r : Resource} {hist : List Note}

/-! ### C72 Any sequence of requests -/

/-- The number of successful answers. -/
def successes : List Outcome → Nat
  | [] => 0
  | .resp .ok _ :: os => successes os + 1
  | .resp .created _ :: os => successes os + 1
  | .resp .noContent _ :: os => successes os + 1
  | _ :: os => successes os

theorem successes_pos {o : Outcome} {os : List Outcome} (h : Success o) : successes (o :: os) = successes os + 1 := by
  unfold Success at h
  split at h <;> first | rfl | exact absurd h id

theorem successes_neg {o : Outcome} {os : List Outcome} (h : ¬ Success o) : successes (o :: os) = successes os := by
  match o, h with
  | .thrown _, _ => rfl
  | .stuck, _ => rfl
  | .resp s _, h => cases s <;> first | rfl | exact absurd trivial h

/-- C72: after any sequence of requests the value has its type, no request got stuck, the
tracker knows one more generation for each success, and if the resource was valid before,
or one request succeeded, it is valid. -/
theorem C72_any_sequence (qs : List (Request β)) (hq : ∀ q ∈ qs, ∃ p, q.At p) (h : Setup E T r hist) :
    (∃ notes, Setup E T (serveAll E T r qs).1 (hist ++ notes) ∧ notes.length = successes (serveAll E T r qs).2) ∧
    (∀ o ∈ (serveAll E T r qs).2, o ≠ .stuck) ∧
    (serveAll E T r qs).1.tracker.current = r.tracker.current + successes (serveAll E T r qs).2 ∧
    (Spec.Valid E T r.value ∨ 0 < successes (serveAll E T r qs).2 →
      Spec.Valid E T (serveAll E T r qs).1.value) ∧
    (successes (serveAll E T r qs).2 = 0 → (serveAll E T r qs).1 = r) := by
  induction qs generalizing r hist with
  | nil =>
    refine ⟨⟨[], by simpa [serveAll] using h, rfl⟩, by simp [serveAll], rfl, ?_, fun _ => rfl⟩
    rintro (hv | hv)
    · exact hv
    · simp [serveAll, successes] at hv
  | cons q qs ih =>
    obtain ⟨p, hp⟩ := hq q (by simp)
    have hr := served h q p hp
    simp only [serveAll]
    generalize serve E T r q = res at *
    obtain ⟨r', o⟩ := res
    cases hr with
    | failed h1 h2 =>
      obtain ⟨⟨ns, i1, i2⟩, i3, i4, i5, i6⟩ := ih (fun q hq' => hq q (by simp [hq'])) h
      simp only [successes_neg h1]
      refine ⟨⟨ns, i1, i2⟩, ?_, i4, i5, i6⟩
      intro o' ho'
      rcases List.mem_cons.1 ho' with rfl | ho'
      · exact h2
      · exact i3 o' ho'
    | @edited _ _ c st t old new sub h1 he h3 h4 =>
      obtain ⟨⟨ns, i1, i2⟩, i3, i4, i5, i6⟩ := ih (fun q hq' => hq q (by simp [hq'])) (he.setup h)
      simp only [successes_pos h1]
      refine ⟨⟨(c, sub) :: ns, by simpa using i1, by simp [i2]⟩, ?_, ?_, fun _ => i5 (.inl he.valid), by omega⟩
      · intro o' ho'
        rcases List.mem_cons.1 ho' with rfl | ho'
        · rintro rfl; exact h1
        · exact i3 o' ho'
      · rw [i4, he.told.inv.cur, h.told.inv.cur]; simp; omega

/-! ### C73 Polling -/

theorem since_of_note {t : Tracker} {hist : List Note} (h : Tracked t hist) {w : View} {q : List Seg}
    (hs : Shows w q) {m : Nat} {n : Note} (hm : hist[m]? = some n) (hc : Concerns n q) {g : Nat} (hg : g ≤ m + 1) :
    t.changedSince w g = some true := by
  obtain ⟨g', e, hl⟩ := changedAt_ok h.inv hs
  simp only [Tracker.changedSince, e, Option.map_some, Option.some.injEq, decide_eq_true_eq]
  rcases hl with ⟨_, hn⟩ | ⟨k, x, hx, hg', _, hlast⟩
  · exact absurd hc (hn n (List.mem_of_getElem? hm))
  · have : m ≤ k := by
      rcases Nat.lt_or_ge k m with hlt | hge
      · exact absurd hc (hlast m n hlt hm)
      · exact hge
    omega

/-- If a request changes what `get` answers at `q`, its note concerns `q`. -/
theorem Edit.concerns {β : Type} {E : Env β} (hE : Plain E) {T : Ty} {r r' : Resource} {hist : List Note}
    {c : List Seg} {steps : List Step} {t : Ty} {old new : Value} {sub : Bool} (hw : WT T r.value)
    (h : Edit E T r r' hist c steps t old new sub) (ho : oneKey T = true) (hcc : ∀ s ∈ c, Canonical s)
    (hsub : sub = true ∨ shallow t = true) (ht : Tracked r.tracker hist)
    {w : View} {q : List Seg} (hp : PathTo w q) (hcq : ∀ s ∈ q, Canonical s)
    {dump : Ty → Value → Except Exc Str} (hne : get E T dump r' w ≠ get E T dump r w) : Concerns (c, sub) q := by
  have h1 := h.tracked hE hw ht ho hcc hsub hp hcq hne r.tracker.current (Nat.le_refl _)
  refine Classical.byContradiction fun hn => ?_
  have h2 := (told_since ht h.told hp.shows (g := r.tracker.current)).2 hn rfl
  rw [h2] at h1
  simp at h1

/-- The notes of later requests are appended. -/
theorem poll_notes (hE : Plain E) (ho : oneKey T = true) (hem : emptyables T = true) (qs : List (Request β))
    (hq : ∀ q ∈ qs, ∃ p, q.At p ∧ ∀ s ∈ p, Canonical s) (h : Setup E T r hist) (wq : View) (loc : List Seg)
    (hp : PathTo wq loc) (hcq : ∀ s ∈ loc, Canonical s) (dump : Ty → Value → Except Exc Str) :
    ∃ notes, Setup E T (serveAll E T r qs).1 (hist ++ notes) ∧
      (get E T dump (serveAll E T r qs).1 wq ≠ get E T dump r wq → ∃ n ∈ notes, Concerns n loc) := by
  induction qs generalizing r hist with
  | nil => exact ⟨[], by simpa [serveAll] using h, fun h => absurd rfl h⟩
  | cons q qs ih =>
    obtain ⟨p, hqp, hqc⟩ := hq q (by simp)
    have hr := served h q p hqp
    simp only [serveAll]
    generalize serve E T r q = res at *
    obtain ⟨r', o⟩ := res
    cases hr with
    | failed h1 h2 => exact ih (fun q hq' => hq q (by simp [hq'])) h
    | @edited _ _ c st t old new sub h1 he h3 h4 =>
      obtain ⟨ns, i1, i2⟩ := ih (fun q hq' => hq q (by simp [hq'])) (he.setup h)
      refine ⟨(c, sub) :: ns, by simpa using i1, fun hne => ?_⟩
      by_cases hg : get E T dump (serveAll E T r' qs).1 wq = get E T dump r' wq
      · refine ⟨_, by simp, he.concerns hE h.wt ho ?_ ?_ h.told hp hcq (dump := dump) (by rw [← hg]; exact hne)⟩
        · rcases h4 with rfl | ⟨s, rfl⟩
          · exact hqc
          · exact fun s hs => hqc s (by simp [hs])
        · rcases h3 with h3 | h3 | ⟨u, rfl, hu⟩
          · exact .inl h3
          · exact .inr h3
          · have := leads_emptyables he.leads hem
            simp [emptyables, hu] at this
      · obtain ⟨n, hn, hc⟩ := i2 hg
        exact ⟨n, by simp [hn], hc⟩

/-- C73: a client may rely on `changed_since`: it notes the generation and what `get` answers
at `q`; after any sequence of requests, if `changed_since(q, g)` is false, `get` at `q`
answers the same. -/
theorem C73_polling (hE : Plain E) (ho : oneKey T = true) (hem : emptyables T = true)
    (qs : List (Request β)) (hq : ∀ q ∈ qs, ∃ p, q.At p ∧ ∀ s ∈ p, Canonical s) (h : Setup E T r hist)
    (wq : View) (loc : List Seg) (hp : PathTo wq loc) (hcq : ∀ s ∈ loc, Canonical s)
    (hs : (serveAll E T r qs).1.tracker.changedSince wq r.tracker.current = some false)
    (dump : Ty → Value → Except Exc Str) :
    get E T dump (serveAll E T r qs).1 wq = get E T dump r wq := by
  obtain ⟨ns, h1, h2⟩ := poll_notes hE ho hem qs hq h wq loc hp hcq dump
  refine Classical.byContradiction fun hne => ?_
  obtain ⟨n, hn, hc⟩ := h2 hne
  obtain ⟨m, hm⟩ := List.mem_iff_getElem?.1 hn
  have := since_of_note h1.told hp.shows (m := hist.length + m) (n := n) (by
      rw [List.getElem?_append_right (by omega), Nat.add_sub_cancel_left]; exact hm) hc
    (g := r.tracker.current) (by rw [h.told.inv.cur]; omega)
  rw [this] at hs
  simp at hs

end

/-- The demo type without `spare` meets the hypotheses of C73. -/
example : emptyables (.record 0 (.cons { name := str "users", childKeys := [0] } (.seq Demo.vec Demo.user)
    (.cons { name := str "limit" } (.opt Demo.limits) .nil))) = true := by decide +kernel
example : (serveAll Demo.env Demo.T Demo.r0
    [.put (Demo.view "/users/bob/age") (Demo.num 41), .post (Demo.view "/tags") (Demo.num 1000),
     .del (Demo.view "/users/ann"), .patch (Demo.view "/limit/low") (Demo.num 2)]).2 =
    [.resp .ok [], .resp .conflict (str "too big"), .resp .noContent [], .resp .ok []] := by decide +kernel
example : (serveAll Demo.env Demo.T Demo.r0
    [.put (Demo.view "/users/bob/age") (Demo.num 41), .post (Demo.view "/tags") (Demo.num 1000),
     .del (Demo.view "/users/ann"), .patch (Demo.view "/limit/low") (Demo.num 2)]).1.tracker.changedSince
    (Demo.view "/limit/high") 1 = some false := by decide +kernel

section
variable {β : Type} {E : Env β} {T : Ty} {r : Resource} {hist : List Note}

/-! ### C74 Decision tables of post and del -/

/-- What is reached from a value by looking into optionals. -/
inductive Held : Ty → Value → Ty → Value → Prop
  | self {t v} : Held t v t v
  | inner {t v t' v'} : Held t v t' v' → Held (.opt t) (.opt (some v)) t' v'

/-- The validators of the value and of what it holds accept. -/
def Accepted (E : Env β) (t : Ty) (v : Value) : Prop := ∀ t' v', Held t v t' v' → E.validate t' v' = .ok ()

theorem accepted_iff (t : Ty) (v : Value) (hv : HasTy t v) : validateCandidate E t v = .ok () ↔ Accepted E t v := by
  match t with
  | .opt t =>
    cases v with
    | opt o =>
      cases o with
      | none =>
        unfold validateCandidate
        constructor
        · intro h t' v' hh
          cases hh
          revert h
          cases E.validate (.opt t) (.opt none) <;> simp [liftUser]
        · intro h
          rw [h _ _ .self]; rfl
      | some w =>
        simp only [HasTy] at hv
        have ih := accepted_iff t w (hv w rfl)
        unfold validateCandidate
        constructor
        · intro h
          cases hx : E.validate (.opt t) (.opt (some w)) with
          | error e => simp [hx, liftUser] at h
          | ok u =>
            simp only [hx, liftUser] at h
            intro t' v' hh
            cases hh with
            | self => rw [hx]
            | inner hh => exact ih.1 h _ _ hh
        · intro h
          rw [h _ _ .self]
          simp only [liftUser]
          exact ih.2 fun _ _ hh => h _ _ (.inner hh)
    | _ => simp [HasTy] at hv
  | .leaf id | .record id fs | .map id fs | .seq k t =>
    unfold validateCandidate
    constructor
    · intro h t' v' hh
      cases hh
      exact liftUser_ok.1 h
    · intro h
      rw [h _ _ .self]; rfl

/-- The new sub-object occurs in the changed tree. -/
theorem occurs_new {ks : List Nat} {t : Ty} {v : Value} {path : List Seg} {steps : List Step} {t' : Ty}
    {old new : Value} (h : Leads E ks t v path steps t' old) :
    ∀ {v'}, Changed old new (steps.map Step.pos) v v' → Occurs t ks v' t' (endKeys ks steps) new := by
  induction h with
  | here => intro v' hc; cases hc; exact .here
  | field h1 _ h3 _ ih =>
    intro v' hc
    simp only [List.map_cons, Step.pos] at hc
    cases hc with
    | kid hk hc =>
      cases hk
      have := kid_of h3; subst this
      exact .field h1 same_kid (ih hc)
  | unwrap _ ih =>
    intro v' hc
    simp only [List.map_cons, Step.pos] at hc
    cases hc with
    | kid hk hc =>
      obtain ⟨rfl, rfl⟩ := kidChanged_opt hk
      exact .inner (ih hc)
  | entry h2 _ ih =>
    intro v' hc
    simp only [List.map_cons, Step.pos] at hc
    cases hc with
    | kid hk hc =>
      cases hk
      have := kid_of h2
      simp only [Prod.mk.injEq] at this
      obtain ⟨rfl, rfl⟩ := this
      exact .entry (List.mem_append_right _ List.mem_cons_self) (ih hc)
  | item _ _ h2 _ ih =>
    intro v' hc
    simp only [List.map_cons, Step.pos] at hc
    cases hc with
    | kid hk hc =>
      cases hk
      have := kid_of h2; subst this
      exact .elem (by simp) (ih hc)
  | child _ h2 _ ih =>
    intro v' hc
    simp only [List.map_cons, Step.pos] at hc
    cases hc with
    | kid hk hc =>
      cases hk
      have := kid_of h2; subst this
      exact .elem (by simp) (ih hc)

theorem occurs_trans {t : Ty} {ks : List Nat} {v : Value} {t1 : Ty} {ks1 : List Nat} {v1 : Value} {t2 : Ty}
    {ks2 : List Nat} {v2 : Value} (h : Occurs t ks v t1 ks1 v1) (h2 : Occurs t1 ks1 v1 t2 ks2 v2) :
    Occurs t ks v t2 ks2 v2 := by
  induction h with
  | here => exact h2
  | inner _ ih => exact .inner (ih h2)
  | field g1 g2 _ ih => exact .field g1 g2 (ih h2)
  | entry g1 _ ih => exact .entry g1 (ih h2)
  | elem g1 _ ih => exact .elem g1 (ih h2)

theorem held_occurs {t : Ty} {v : Value} {t' : Ty} {v' : Value} (h : Held t v t' v') : Occurs t [] v t' [] v' := by
  induction h with
  | self => exact .here
  | inner _ ih => exact .inner ih

theorem exists_changed {ks : List Nat} {t : Ty} {v : Value} {path : List Seg} {steps : List Step} {t' : Ty}
    {old : Value} (h : Leads E ks t v path steps t' old) (new : Value) :
    ∃ v', Changed old new (steps.map Step.pos) v v' := by
  obtain ⟨v', h1, _⟩ := get_set (leads_get h) new
  exact ⟨v', changed_of_set (leads_get h) h1⟩

theorem changed_unique {old new : Value} {a : List Nat} {v v1 v2 : Value} (h1 : Changed old new a v v1)
    (h2 : Changed old new a v v2) : v1 = v2 := by
  have g1 := changed_symm h1
  induction h1 generalizing v2 with
  | here => cases h2; rfl
  | @kid i addr v v' x x' hk hc ih =>
    cases h2 with
    | @kid _ _ _ _ y y' hk2 hc2 =>
      have hxy : x = y ∧ (x' = y' → v' = v2) := by
        cases hk with
        | opt =>
          obtain ⟨rfl, rfl⟩ := kidChanged_opt hk2
          exact ⟨rfl, fun h => by rw [h]⟩
        | @record pre post =>
          generalize hv : Value.record (pre ++ x :: post) = w at hk2
          generalize hn : pre.length = n at hk2
          cases hk2 with
          | record =>
            simp only [Value.record.injEq] at hv
            obtain ⟨rfl, e⟩ := List.append_inj hv hn
            simp only [List.cons.injEq] at e
            obtain ⟨rfl, rfl⟩ := e
            exact ⟨rfl, fun h => by rw [h]⟩
          | _ => cases hv
        | @seq pre post =>
          generalize hv : Value.seq (pre ++ x :: post) = w at hk2
          generalize hn : pre.length = n at hk2
          cases hk2 with
          | seq =>
            simp only [Value.seq.injEq] at hv
            obtain ⟨rfl, e⟩ := List.append_inj hv hn
            simp only [List.cons.injEq] at e
            obtain ⟨rfl, rfl⟩ := e
            exact ⟨rfl, fun h => by rw [h]⟩
          | _ => cases hv
        | @map pre k post =>
          generalize hv : Value.map (pre ++ (k, x) :: post) = w at hk2
          generalize hn : pre.length = n at hk2
          cases hk2 with
          | map =>
            simp only [Value.map.injEq] at hv
            obtain ⟨rfl, e⟩ := List.append_inj hv hn
            simp only [List.cons.injEq, Prod.mk.injEq] at e
            obtain ⟨⟨rfl, rfl⟩, rfl⟩ := e
            exact ⟨rfl, fun h => by rw [h]⟩
          | _ => cases hv
      obtain ⟨rfl, h⟩ := hxy
      exact h (ih hc2 (changed_symm hc))

theorem put_conflict (hE : PoliteValidators E) {e : Err} (h : ValidationErr E e) :
    (∃ msg, catchPut e = .resp .conflict msg) ∧ ∃ msg, catchDel e = .resp .conflict msg := by
  rcases h with rfl | ⟨t, v, x, hx, rfl⟩
  · exact ⟨⟨_, rfl⟩, _, rfl⟩
  · obtain ⟨m, rfl⟩ := hE t v x hx
    exact ⟨⟨m, rfl⟩, m, rfl⟩

/-- The decision table of `post`. -/
def PostTable (E : Env β) (T : Ty) (r : Resource) (loc : List Seg) (b : β) (o : Outcome) : Prop :=
  (¬ Resolves E T r.value loc → o = .resp .notFound []) ∧
  ∀ steps t u, LeadsTo E T r.value loc steps t u →
    (ChildrenProtected steps → o = .resp .methodNotAllowed []) ∧
    ((∀ k t', t = .seq k t' → k.push = false) → o = .resp .methodNotAllowed []) ∧
    (¬ ChildrenProtected steps → ∀ k t' vs, t = .seq k t' → u = .seq vs → k.push = true →
      (∀ e, E.deser t' (E.fresh t') b = .error e → o = .resp .badRequest []) ∧
      ∀ x, E.deser t' (E.fresh t') b = .ok x →
        ∃ v', Changed u (.seq (vs ++ [x])) (steps.map Step.pos) r.value v' ∧
          (¬ Spec.Valid E T v' → ∃ msg, o = .resp .conflict msg) ∧
          (Spec.Valid E T v' → o = .resp .created []))

theorem post_table (hE : PoliteValidators E) (h : Setup E T r hist) (w : View) (loc : List Seg) (hp : PathTo w loc)
    (b : β) (hf : ∀ steps k t vs e, LeadsTo E T r.value loc steps (.seq k t) (.seq vs) →
      E.deser t (E.fresh t) b = .error e → e = .deserialize) : PostTable E T r loc b (post E T r w b).2 := by
  have hrow := h.post hp b
  generalize post E T r w b = res at *
  obtain ⟨r', o⟩ := res
  cases hrow with
  | missing hn => exact ⟨fun _ => rfl, fun st t u hl => absurd ⟨st, t, u, hl⟩ hn⟩
  | readOnly l hr =>
    refine ⟨fun hn => absurd ⟨_, _, _, l⟩ hn, fun st t u hl => ?_⟩
    obtain ⟨rfl, rfl, rfl⟩ := steps_unique l h.wt.ty hl
    exact ⟨fun _ => rfl, fun _ => rfl, fun hn => absurd hr hn⟩
  | notCollection l hr hc =>
    refine ⟨fun hn => absurd ⟨_, _, _, l⟩ hn, fun st t u hl => ?_⟩
    obtain ⟨rfl, rfl, rfl⟩ := steps_unique l h.wt.ty hl
    refine ⟨fun _ => rfl, fun _ => rfl, fun _ k t' vs e _ hk => ?_⟩
    rw [hc k t' e] at hk; cases hk
  | rejected l hr hk he =>
    refine ⟨fun hn => absurd ⟨_, _, _, l⟩ hn, fun st t u hl => ?_⟩
    obtain ⟨rfl, rfl, rfl⟩ := steps_unique l h.wt.ty hl
    have := hf _ _ _ _ _ l he
    subst this
    refine ⟨fun hn => absurd hn hr, fun hn => ?_, fun _ k t' vs e _ hk => ?_⟩
    · rw [hn _ _ rfl] at hk; cases hk
    · cases e
      exact ⟨fun _ _ => rfl, fun x hx => by rw [he] at hx; cases hx⟩
  | @duplicate st k t vs x l hr hk he hd =>
    refine ⟨fun hn => absurd ⟨_, _, _, l⟩ hn, fun st t u hl => ?_⟩
    obtain ⟨rfl, rfl, rfl⟩ := steps_unique l h.wt.ty hl
    refine ⟨fun hn => absurd hn hr, fun hn => ?_, fun _ k t' vs' e e2 hk => ?_⟩
    · rw [hn _ _ rfl] at hk; cases hk
    · cases e; cases e2
      refine ⟨fun e hx => (by rw [he] at hx; cases hx), fun x hx => ?_⟩
      rw [he] at hx; cases hx
      obtain ⟨v', hc⟩ := exists_changed l (.seq (vs ++ [x]))
      refine ⟨v', hc, fun _ => ⟨_, rfl⟩, fun hv => ?_⟩
      obtain ⟨k, hk, v, hv1, a, b, ha, hb, hab⟩ := hd
      obtain ⟨i, hi⟩ := List.mem_iff_getElem?.1 hv1
      have hlt := (List.getElem?_eq_some_iff.1 hi).1
      have := (hv _ _ _ (occurs_new l hc)).2 k hk _ rfl i vs.length v x a b hlt
        (by rw [List.getElem?_append_left hlt]; exact hi) (by simp) ha hb
      rw [this] at hab; cases hab
  | @candidate st k t vs x e l hr hk he hd hv hverr =>
    refine ⟨fun hn => absurd ⟨_, _, _, l⟩ hn, fun st t u hl => ?_⟩
    obtain ⟨rfl, rfl, rfl⟩ := steps_unique l h.wt.ty hl
    refine ⟨fun hn => absurd hn hr, fun hn => ?_, fun _ k t' vs' e e2 hk => ?_⟩
    · rw [hn _ _ rfl] at hk; cases hk
    · cases e; cases e2
      refine ⟨fun e hx => (by rw [he] at hx; cases hx), fun x hx => ?_⟩
      rw [he] at hx; cases hx
      obtain ⟨v', hc⟩ := exists_changed l (.seq (vs ++ [x]))
      refine ⟨v', hc, fun _ => (put_conflict hE hverr).1, fun hvalid => ?_⟩
      have hacc : Accepted E _ x := fun t' u hh =>
        (hvalid _ _ _ (occurs_trans (occurs_new l hc) (.elem (by simp) (held_occurs hh)))).1
      have hty := h.typed.deser _ _ _ _ (h.typed.fresh _) he
      rw [(accepted_iff _ _ hty).2 hacc] at hv
      cases hv
  | invalid l hr hk he hd hv hc hw' hn hverr =>
    refine ⟨fun hn => absurd ⟨_, _, _, l⟩ hn, fun st t u hl => ?_⟩
    obtain ⟨rfl, rfl, rfl⟩ := steps_unique l h.wt.ty hl
    refine ⟨fun hn => absurd hn hr, fun hn => ?_, fun _ k t' vs' e e2 hk => ?_⟩
    · rw [hn _ _ rfl] at hk; cases hk
    · cases e; cases e2
      refine ⟨fun e hx => (by rw [he] at hx; cases hx), fun x hx => ?_⟩
      rw [he] at hx; cases hx
      exact ⟨_, hc, fun _ => (put_conflict hE hverr).1, fun h => absurd h hn⟩
  | done l hr hk he hd hv hc hw' hn ht =>
    refine ⟨fun hn => absurd ⟨_, _, _, l⟩ hn, fun st t u hl => ?_⟩
    obtain ⟨rfl, rfl, rfl⟩ := steps_unique l h.wt.ty hl
    refine ⟨fun hn => absurd hn hr, fun hn => ?_, fun _ k t' vs' e e2 hk => ?_⟩
    · rw [hn _ _ rfl] at hk; cases hk
    · cases e; cases e2
      refine ⟨fun e hx => (by rw [he] at hx; cases hx), fun x hx => ?_⟩
      rw [he] at hx; cases hx
      exact ⟨_, hc, fun h => absurd hn h, fun _ => rfl⟩

/-- C74: `post` answers 404 if the path names no node, else 405 if its children are protected
or it is not a sequence one can append to, else 400 if the body does not deserialise, else
409 if the tree with the new element is not valid, else 201. -/
theorem C74_post (hE : Polite E) (h : Setup E T r hist) (w : View) (loc : List Seg) (hp : PathTo w loc) (b : β) :
    PostTable E T r loc b (post E T r w b).2 :=
  post_table hE.validate h w loc hp b fun _ _ _ _ _ _ => hE.deser _ _ _ _

/-- C74: `del` of a node that is not an element of a collection answers 404 if there is no
such node, else 405 if it is protected or not optional, else 409 if the held value vetoes or
the tree with the optional emptied is not valid, else 204. -/
theorem C74_del_optional (hE : PoliteValidators E) (h : Setup E T r hist) (w : View) (loc : List Seg) (hp : PathTo w loc)
    (hin : ¬ InCollection E T r.value loc) :
    (¬ Resolves E T r.value loc → (del E T r w).2 = .resp .notFound []) ∧
    ∀ steps t u, LeadsTo E T r.value loc steps t u →
      (Protected steps ∨ (∀ t', t ≠ .opt t') → (del E T r w).2 = .resp .methodNotAllowed []) ∧
      (¬ Protected steps → ∀ t' v, t = .opt t' → u = .opt v →
        ((∃ x, v = some x ∧ ¬ Accepted E t' x) → ∃ msg, (del E T r w).2 = .resp .conflict msg) ∧
        ((∀ x, v = some x → Accepted E t' x) →
          ∃ v', Changed u (.opt none) (steps.map Step.pos) r.value v' ∧
            (¬ Spec.Valid E T v' → ∃ msg, (del E T r w).2 = .resp .conflict msg) ∧
            (Spec.Valid E T v' → (del E T r w).2 = .resp .noContent []))) := by
  have hrow := h.del hp
  generalize del E T r w = res at *
  obtain ⟨r', o⟩ := res
  cases hrow with
  | missing hn => exact ⟨fun _ => rfl, fun st t u hl => absurd ⟨st, t, u, hl⟩ hn⟩
  | noIndex e l => exact absurd ⟨_, _, _, _, _, e, l, rfl⟩ hin
  | childReadOnly e l _ ht => exact absurd ⟨_, _, _, _, _, e, l, ht⟩ hin
  | notErasable e l _ ht => exact absurd ⟨_, _, _, _, _, e, l, ht⟩ hin
  | childInvalid e l _ ht => exact absurd ⟨_, _, _, _, _, e, l, ht⟩ hin
  | childDone e l _ ht => exact absurd ⟨_, _, _, _, _, e, l, ht⟩ hin
  | readOnly l _ hr =>
    refine ⟨fun hn => absurd ⟨_, _, _, l⟩ hn, fun st t u hl => ?_⟩
    obtain ⟨rfl, rfl, rfl⟩ := steps_unique l h.wt.ty hl
    exact ⟨fun _ => rfl, fun hn => absurd hr hn⟩
  | notOptional l _ hr hno =>
    refine ⟨fun hn => absurd ⟨_, _, _, l⟩ hn, fun st t u hl => ?_⟩
    obtain ⟨rfl, rfl, rfl⟩ := steps_unique l h.wt.ty hl
    exact ⟨fun _ => rfl, fun _ t' v e _ => absurd e (hno t')⟩
  | @candidate st t u e l _ hr hc hverr =>
    refine ⟨fun hn => absurd ⟨_, _, _, l⟩ hn, fun st t u hl => ?_⟩
    obtain ⟨rfl, rfl, rfl⟩ := steps_unique l h.wt.ty hl
    refine ⟨?_, fun _ t' v e1 e2 => ?_⟩
    · rintro (hn | hn)
      · exact absurd hn hr
      · exact absurd rfl (hn _)
    · cases e1; cases e2
      refine ⟨fun _ => (put_conflict hE hverr).2, fun hacc => ?_⟩
      obtain ⟨v', hch⟩ := exists_changed l (.opt none)
      refine ⟨v', hch, fun _ => (put_conflict hE hverr).2, fun hv => ?_⟩
      rcases hc with ⟨x, rfl, hx⟩ | hx
      · have hty := (leads_typed l h.wt.ty h.wt.ok).1
        simp only [HasTy] at hty
        rw [(accepted_iff _ _ (hty x rfl)).2 (hacc x rfl)] at hx
        cases hx
      · exact absurd (hv _ _ _ (occurs_new l hch)).1 hx
  | @invalid st t u v' e l _ hr hh hc _ hv hverr =>
    refine ⟨fun hn => absurd ⟨_, _, _, l⟩ hn, fun st t u hl => ?_⟩
    obtain ⟨rfl, rfl, rfl⟩ := steps_unique l h.wt.ty hl
    refine ⟨?_, fun _ t' v e1 e2 => ?_⟩
    · rintro (hn | hn)
      · exact absurd hn hr
      · exact absurd rfl (hn _)
    · cases e1; cases e2
      exact ⟨fun _ => (put_conflict hE hverr).2, fun _ => ⟨v', hc, fun _ => (put_conflict hE hverr).2,
        fun h => absurd h hv⟩⟩
  | @done st t u v' t' l _ hr hh hc _ hv ht =>
    refine ⟨fun hn => absurd ⟨_, _, _, l⟩ hn, fun st t u hl => ?_⟩
    obtain ⟨rfl, rfl, rfl⟩ := steps_unique l h.wt.ty hl
    refine ⟨?_, fun _ t' v e1 e2 => ?_⟩
    · rintro (hn | hn)
      · exact absurd hn hr
      · exact absurd rfl (hn _)
    · cases e1; cases e2
      refine ⟨?_, fun _ => ⟨v', hc, fun h => absurd hv h, fun _ => rfl⟩⟩
      rintro ⟨x, rfl, hx⟩
      have hty := (leads_typed l h.wt.ty h.wt.ok).1
      simp only [HasTy] at hty
      exact absurd ((accepted_iff _ _ (hty x rfl)).1 (hh x rfl)) hx

/-- C74: `del` of an element of a collection answers 405 if the children of the collection
are protected or it has no `erase`, else 409 if the tree without the element is not valid,
else 204. -/
theorem C74_del_element (hE : PoliteValidators E) (h : Setup E T r hist) (w : View) (c : List Seg) (s : Seg)
    (hp : PathTo w (c ++ [s])) (steps : List Step) (t : Ty) (u : Value)
    (hl : LeadsTo E T r.value c steps t u) (ht : isCollection t = true) :
    (¬ Resolves E T r.value (c ++ [s]) → ¬ ChildrenProtected steps → erasable t = true →
      (del E T r w).2 = .resp .notFound []) ∧
    ∀ st t1 u1, LeadsTo E T r.value (c ++ [s]) (steps ++ [st]) t1 u1 →
      (ChildrenProtected steps ∨ erasable t = false → (del E T r w).2 = .resp .methodNotAllowed []) ∧
      (¬ ChildrenProtected steps → erasable t = true →
        ∃ v', Changed u (without u st.pos) (steps.map Step.pos) r.value v' ∧
          (¬ Spec.Valid E T v' → ∃ msg, (del E T r w).2 = .resp .conflict msg) ∧
          (Spec.Valid E T v' → (del E T r w).2 = .resp .noContent [])) := by
  have hrow := h.del hp
  generalize del E T r w = res at *
  obtain ⟨r', o⟩ := res
  have hin : InCollection E T r.value (c ++ [s]) := ⟨_, _, _, _, _, rfl, hl, ht⟩
  cases hrow with
  | missing hn => exact ⟨fun _ _ _ => rfl, fun st t u hl => absurd ⟨_, t, u, hl⟩ hn⟩
  | noIndex e l hn hx =>
    obtain ⟨rfl, -⟩ := List.append_inj' e rfl
    obtain ⟨rfl, rfl, rfl⟩ := steps_unique l h.wt.ty hl
    refine ⟨fun _ h1 h2 => ?_, fun st t1 u1 h1 => absurd ⟨_, _, _, h1⟩ hn⟩
    rcases hx with hx | hx
    · exact absurd hx h1
    · simp [erasable, hx] at h2
  | childReadOnly e l l1 _ hr =>
    obtain ⟨rfl, -⟩ := List.append_inj' e rfl
    obtain ⟨rfl, rfl, rfl⟩ := steps_unique l h.wt.ty hl
    exact ⟨fun hn => absurd ⟨_, _, _, l1⟩ hn, fun st t1 u1 _ => ⟨fun _ => rfl, fun hn => absurd hr hn⟩⟩
  | notErasable e l l1 _ hr he =>
    obtain ⟨rfl, -⟩ := List.append_inj' e rfl
    obtain ⟨rfl, rfl, rfl⟩ := steps_unique l h.wt.ty hl
    exact ⟨fun hn => absurd ⟨_, _, _, l1⟩ hn, fun st t1 u1 _ => ⟨fun _ => rfl,
      fun _ h2 => by rw [he] at h2; cases h2⟩⟩
  | childInvalid e l l1 _ hr he hc _ hv hverr =>
    obtain ⟨rfl, -⟩ := List.append_inj' e rfl
    obtain ⟨rfl, rfl, rfl⟩ := steps_unique l h.wt.ty hl
    refine ⟨fun hn => absurd ⟨_, _, _, l1⟩ hn, fun st t1 u1 l2 => ⟨?_, fun _ _ => ?_⟩⟩
    · rintro (hn | hn)
      · exact absurd hn hr
      · rw [he] at hn; cases hn
    · obtain ⟨e2, -, -⟩ := steps_unique l1 h.wt.ty l2
      have := List.append_cancel_left e2
      cases this
      exact ⟨_, hc, fun _ => (put_conflict hE hverr).2, fun h => absurd h hv⟩
  | childDone e l l1 _ hr he hc _ hv _ =>
    obtain ⟨rfl, -⟩ := List.append_inj' e rfl
    obtain ⟨rfl, rfl, rfl⟩ := steps_unique l h.wt.ty hl
    refine ⟨fun hn => absurd ⟨_, _, _, l1⟩ hn, fun st t1 u1 l2 => ⟨?_, fun _ _ => ?_⟩⟩
    · rintro (hn | hn)
      · exact absurd hn hr
      · rw [he] at hn; cases hn
    · obtain ⟨e2, -, -⟩ := steps_unique l1 h.wt.ty l2
      have := List.append_cancel_left e2
      cases this
      exact ⟨_, hc, fun h => absurd hv h, fun _ => rfl⟩
  | readOnly _ hn => exact absurd hin hn
  | notOptional _ hn => exact absurd hin hn
  | candidate _ hn => exact absurd hin hn
  | invalid _ hn => exact absurd hin hn
  | done _ hn => exact absurd hin hn

end

/-- C74: the `v'` in the tables is unique. -/
theorem C74_changed_unique (old new : Value) (a : List Nat) (v v1 v2 : Value) (h1 : Changed old new a v v1)
    (h2 : Changed old new a v v2) : v1 = v2 := changed_unique h1 h2

example : (del Demo.env Demo.T Demo.r0 (Demo.view "/version")).2 = .resp .methodNotAllowed [] := by
  decide +kernel
example : (del Demo.env Demo.T Demo.r0 (Demo.view "/tags/7")).2 = .resp .notFound [] := by decide +kernel
example : (post Demo.env Demo.T Demo.r0 (Demo.view "/limit") (Demo.num 1)).2 = .resp .methodNotAllowed [] := by
  decide +kernel

/-- A path that names nothing is not always answered by 404: an index past the end of a
sequence from which nothing can be deleted (here below a `subtree_read_only` field) gives 405. -/
theorem C74_del_missing_violated :
    ∃ (E : Env Value) (T : Ty) (r : Resource) (w : View) (p : List Seg) (dump : Ty → Value → Except Exc Str),
      Setup E T r [] ∧ PathTo w p ∧ ¬ Resolves E T r.value p ∧ get E T dump r w = .resp .notFound [] ∧
      (del E T r w).2 = .resp .methodNotAllowed [] := by
  have hs : Setup Demo.env (.record 0 (.cons { name := str "log", subtreeReadOnly := true } (.seq Demo.vec (.leaf 0)) .nil))
      ⟨.record [.seq [Demo.num 1]], {}⟩ [] :=
    ⟨Demo.env_typed, ⟨by decide +kernel, Demo.check_sound _ _ (by decide +kernel)⟩, ⟨[], .nil, rfl⟩⟩
  have hp : PathTo (Demo.view "/log/1") [str "log", str "1"] :=
    Demo.view_to (by decide +kernel) (by decide +kernel)
  have hg : get Demo.env (.record 0 (.cons { name := str "log", subtreeReadOnly := true } (.seq Demo.vec (.leaf 0)) .nil))
      Demo.dump ⟨.record [.seq [Demo.num 1]], {}⟩ (Demo.view "/log/1") = .resp .notFound [] := by decide +kernel
  refine ⟨_, _, _, _, _, Demo.dump, hs, hp, ?_, hg, by decide +kernel⟩
  rintro ⟨st, t, u, hl⟩
  have h2 := get_leads hs.wt hp hl (fun _ _ => .ok [])
  revert h2
  simp only [answer]
  decide +kernel

theorem ok_of {x : Except Err Unit} (h : x.isOk = true) : x = .ok () := by
  cases x with
  | ok _ => rfl
  | error _ => cases h

/-- An element of a collection held in an optional cannot be deleted: `/spare/0` names an
element of a `std::vector`, nothing is read only, and deleting it would leave a valid
resource, but `del` answers 405. -/
theorem C39_in_optional_violated :
    ∃ (E : Env Value) (T : Ty) (r : Resource) (w : View) (c : List Seg) (s : Seg) (steps : List Step) (t : Ty)
      (vs : List Value) (v' : Value),
      Setup E T r [] ∧ PathTo w (c ++ [s]) ∧ LeadsTo E T r.value c steps (.opt t) (.opt (some (.seq vs))) ∧
      isCollection t = true ∧ erasable t = true ∧ (∃ st x, LeadsTo E T r.value (c ++ [s]) (steps ++ [.unwrap, st]) x (vs.headD v')) ∧
      ¬ Protected steps ∧ Changed (.opt (some (.seq vs))) (.opt (some (.seq vs.tail))) (steps.map Step.pos) r.value v' ∧
      Spec.Valid E T v' ∧ (del E T r w).2 = .resp .methodNotAllowed [] := by
  have hl : LeadsTo Demo.env Demo.T Demo.v0 [str "spare"] [.field 5 { name := str "spare" }]
      (.opt (.seq Demo.vec (.leaf 0))) (.opt (some (.seq [Demo.num 6]))) := by
    refine .field (i := 5) (a := { name := str "spare" }) rfl ?_ rfl .here
    intro j hj b u h
    match j, hj with
    | 0, _ => cases h; decide
    | 1, _ => cases h; decide
    | 2, _ => cases h; decide
    | 3, _ => cases h; decide
    | 4, _ => cases h; decide
  refine ⟨Demo.env, Demo.T, Demo.r0, Demo.view "/spare/0", [str "spare"], str "0", [.field 5 { name := str "spare" }],
    .seq Demo.vec (.leaf 0), [Demo.num 6], _, Demo.setup,
    Demo.view_to (by decide +kernel) (by decide +kernel), hl, rfl, rfl, ⟨.item 0, .leaf 0, ?_⟩, ?_,
    .kid (.record (pre := [_, _, _, _, _]) (post := [])) .here, validateTree_sound (ok_of (by decide +kernel)), by decide +kernel⟩
  · exact leads_append hl (.unwrap (.item rfl ⟨by simp [str], by simp [str, digit], by decide⟩ rfl .here))
  · rintro (⟨i, a, h, h2⟩ | ⟨pre, i, a, s, post, h, _⟩ | ⟨pre, key, i, a, post, h⟩)
    · cases h; cases h2
    · have := congrArg List.length h; simp at this; omega
    · have := congrArg List.length h; simp at this; omega

end Verif.Resource
