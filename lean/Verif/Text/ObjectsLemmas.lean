import Verif.Text.ObjectsSpec
/-
The objects agree with what has happened.
-/
namespace Verif.Text
open Spec

/-- The members of all objects are what the past says. -/
structure Agrees (past : List Act) (w : World) : Prop where
  conts : ∀ c, w.conts c = contents c past
  bufs : ∀ b, w.bufs b = characters b past
  streams : ∀ s, w.streams s = if open' s past then some (text s past) else none
  views : ∀ j, w.views j = (about j past).map fun c => ⟨c, between j past, instead j past⟩
  iters : ∀ i, w.iters i = (target i past).map fun s => ⟨s, separator i past, decide (lineage i past = 0)⟩

theorem agrees_init : Agrees [] World.init := ⟨fun _ => rfl, fun _ => rfl, fun _ => rfl, fun _ => rfl, fun _ => rfl⟩

theorem read_shows {past w} (h : Agrees past w) (p : Ptr) : w.read p = shows p past := by
  cases p with
  | lit t => rfl
  | buf b => exact h.bufs b

theorem held_separates {past w} (h : Agrees past w) (p : Held) : w.held p = separates p past := by
  cases p with
  | text t => rfl
  | ptr p => exact read_shows h p

theorem intersperse_cons_cons (d x y : String) (l : List String) : (x :: y :: l).intersperse d = x :: d :: (y :: l).intersperse d := by
  simp

theorem tail_some (w : World) (p : Ptr) (d : String) (hd : w.read p = some d) (x : String) (xs : List String) :
    (w.tail p xs).map (fun out => x :: out) = some ((x :: xs).intersperse d) := by
  induction xs generalizing x with
  | nil => rfl
  | cons y ys ih =>
    have := ih y
    cases ht : w.tail p ys with
    | none => simp [ht] at this
    | some out =>
      simp only [ht, Option.map_some, Option.some.injEq] at this
      simp only [World.tail, hd, ht, Option.map_some, intersperse_cons_cons, ← this]

theorem tail_none (w : World) (p : Ptr) (hd : w.read p = none) (y : String) (ys : List String) : w.tail p (y :: ys) = none := by
  simp [World.tail, hd]

/-- What is printed, if everything is there. -/
theorem items_some {past w} (h : Agrees past w) (c : Nat) (p q : Ptr) (xs : List String) (hc : contents c past = some xs)
    (h1 : xs = [] → shows q past ≠ none) (h2 : 2 ≤ xs.length → shows p past ≠ none) :
    w.items ⟨c, p, q⟩ = some (if xs = [] then [(shows q past).getD ""] else xs.intersperse ((shows p past).getD "")) := by
  unfold World.items
  simp only [h.conts, hc]
  match xs, h1, h2 with
  | [], h1, _ =>
    simp only [read_shows h]
    cases hs : shows q past with
    | none => exact absurd hs (h1 rfl)
    | some e => simp
  | [x], _, _ => simp [World.tail]
  | x :: y :: ys, _, h2 =>
    cases hs : shows p past with
    | none => exact absurd hs (h2 (by simp))
    | some d =>
      rw [if_neg (by simp)]
      exact tail_some w p d (by rw [read_shows h, hs]) x (y :: ys)

theorem items_none {past w} (h : Agrees past w) (c : Nat) (p q : Ptr)
    (hn : ¬ ∃ xs, contents c past = some xs ∧ (xs = [] → shows q past ≠ none) ∧ (2 ≤ xs.length → shows p past ≠ none)) :
    w.items ⟨c, p, q⟩ = none := by
  unfold World.items
  simp only [h.conts]
  cases hc : contents c past with
  | none => rfl
  | some xs =>
    match xs, hc with
    | [], hc =>
      simp only [read_shows h]
      cases hs : shows q past with
      | none => rfl
      | some e => exact absurd ⟨[], hc, by simp [hs], by simp⟩ hn
    | [x], hc => exact absurd ⟨[x], hc, by simp, by simp⟩ hn
    | x :: y :: ys, hc =>
      cases hs : shows p past with
      | none => simp [tail_none w p (by rw [read_shows h, hs])]
      | some d => exact absurd ⟨x :: y :: ys, hc, by simp, by simp [hs]⟩ hn

theorem upd_eq {α} (f : Nat → Option α) (k i : Nat) (o : Option α) : upd f k o i = if i = k then o else f i := rfl

/-- A safe action is defined and the objects agree afterwards. -/
theorem act_safe {past w} (h : Agrees past w) (a : Act) (hs : Safe past a) : ∃ w', w.act a = some w' ∧ Agrees (a :: past) w' := by
  cases a with
  | cont c o =>
    refine ⟨_, rfl, ⟨fun k => ?_, h.bufs, h.streams, h.views, h.iters⟩⟩
    simp only [upd_eq, contents, eq_comm (a := c), h.conts]
  | buf b o =>
    refine ⟨_, rfl, ⟨h.conts, fun k => ?_, h.streams, h.views, h.iters⟩⟩
    simp only [upd_eq, characters, eq_comm (a := b), h.bufs]
  | stream s on =>
    refine ⟨_, rfl, ⟨h.conts, h.bufs, fun k => ?_, h.views, h.iters⟩⟩
    simp only [upd_eq, open', text, eq_comm (a := s), h.streams]
    by_cases e : k = s
    · simp [e]
    · simp [e]
  | join j c =>
    obtain ⟨xs, hx⟩ := hs
    have hw : w.act (.join j c) = some { w with views := upd w.views j (some ⟨c, .lit ", ", .lit "."⟩) } := by
      simp only [World.act, h.conts, hx]
    refine ⟨_, hw, ⟨h.conts, h.bufs, h.streams, fun k => ?_, h.iters⟩⟩
    simp only [upd_eq, about, between, instead, eq_comm (a := j), h.views]
    by_cases e : k = j
    · simp [e]
    · simp [e]
  | delim j p =>
    obtain ⟨c, hc⟩ := hs
    have hw : w.act (.delim j p) = some { w with views := upd w.views j (some ⟨c, p, instead j past⟩) } := by
      simp only [World.act, h.views, hc, Option.map_some]
    refine ⟨_, hw, ⟨h.conts, h.bufs, h.streams, fun k => ?_, h.iters⟩⟩
    simp only [upd_eq, about, between, instead, eq_comm (a := j), h.views]
    by_cases e : k = j
    · simp [e, hc]
    · simp [e]
  | empty j p =>
    obtain ⟨c, hc⟩ := hs
    have hw : w.act (.empty j p) = some { w with views := upd w.views j (some ⟨c, between j past, p⟩) } := by
      simp only [World.act, h.views, hc, Option.map_some]
    refine ⟨_, hw, ⟨h.conts, h.bufs, h.streams, fun k => ?_, h.iters⟩⟩
    simp only [upd_eq, about, between, instead, eq_comm (a := j), h.views]
    by_cases e : k = j
    · simp [e, hc]
    · simp [e]
  | copyView d j =>
    obtain ⟨c, hc⟩ := hs
    have hw : w.act (.copyView d j) = some { w with views := upd w.views d (some ⟨c, between j past, instead j past⟩) } := by
      simp only [World.act, h.views, hc, Option.map_some]
    refine ⟨_, hw, ⟨h.conts, h.bufs, h.streams, fun k => ?_, h.iters⟩⟩
    simp only [upd_eq, about, between, instead, eq_comm (a := d), h.views]
    by_cases e : k = d
    · simp [e, hc]
    · simp [e]
  | endView j =>
    obtain ⟨c, hc⟩ := hs
    have hw : w.act (.endView j) = some { w with views := upd w.views j none } := by
      simp only [World.act, h.views, hc, Option.map_some]
    refine ⟨_, hw, ⟨h.conts, h.bufs, h.streams, fun k => ?_, h.iters⟩⟩
    simp only [upd_eq, about, between, instead, eq_comm (a := j), h.views]
    by_cases e : k = j
    · simp [e]
    · simp [e]
  | print s j =>
    obtain ⟨ho, c, xs, hc, hx, h1, h2⟩ := hs
    have hw : w.act (.print s j) = some ⟨w.conts, w.bufs, upd w.streams s (some (text s past ++
        if xs = [] then [(shows (instead j past) past).getD ""] else xs.intersperse ((shows (between j past) past).getD ""))),
        w.views, w.iters⟩ := by
      simp only [World.act, h.views, hc, Option.map_some, h.streams, ho, if_true, items_some h c _ _ xs hx h1 h2]
    refine ⟨_, hw, ⟨h.conts, h.bufs, fun k => ?_, h.views, h.iters⟩⟩
    simp only [upd_eq, open', text, eq_comm (a := s), h.streams]
    by_cases e : k = s
    · simp [e, ho, hc, hx]
    · simp [e]
  | iter i s hh =>
    have ho : open' s past = true := hs
    have hw : w.act (.iter i s hh) = some { w with iters := upd w.iters i (some ⟨s, hh, true⟩) } := by
      simp only [World.act, h.streams, ho, if_true]
    refine ⟨_, hw, ⟨h.conts, h.bufs, h.streams, h.views, fun k => ?_⟩⟩
    simp only [upd_eq, target, separator, lineage, eq_comm (a := i), h.iters]
    by_cases e : k = i
    · simp [e]
    · simp [e]
  | copyIter d i =>
    obtain ⟨s, ht⟩ := hs
    have hw : w.act (.copyIter d i) = some { w with iters := upd w.iters d (some ⟨s, separator i past, decide (lineage i past = 0)⟩) } := by
      simp only [World.act, h.iters, ht, Option.map_some]
    refine ⟨_, hw, ⟨h.conts, h.bufs, h.streams, h.views, fun k => ?_⟩⟩
    simp only [upd_eq, target, separator, lineage, eq_comm (a := d), h.iters]
    by_cases e : k = d
    · simp [e, ht]
    · simp [e]
  | moveIter d i =>
    obtain ⟨hne, s, ht⟩ := hs
    have hw : w.act (.moveIter d i) = some ⟨w.conts, w.bufs, w.streams, w.views,
        upd (upd w.iters i (some ⟨s, (separator i past).moved, decide (lineage i past = 0)⟩)) d
          (some ⟨s, separator i past, decide (lineage i past = 0)⟩)⟩ := by
      simp only [World.act, h.iters, ht, Option.map_some, if_neg hne]
    refine ⟨_, hw, ⟨h.conts, h.bufs, h.streams, h.views, fun k => ?_⟩⟩
    simp only [upd_eq, target, separator, lineage, eq_comm (a := d), eq_comm (a := i), h.iters]
    by_cases e : k = d
    · simp [e, ht]
    · by_cases e' : k = i
      · subst e'
        simp only [e, if_false, if_true, ht, Option.map_some]
        cases separator k past <;> rfl
      · simp [e, e']
  | endIter i =>
    obtain ⟨s, ht⟩ := hs
    have hw : w.act (.endIter i) = some { w with iters := upd w.iters i none } := by
      simp only [World.act, h.iters, ht, Option.map_some]
    refine ⟨_, hw, ⟨h.conts, h.bufs, h.streams, h.views, fun k => ?_⟩⟩
    simp only [upd_eq, target, separator, lineage, eq_comm (a := i), h.iters]
    by_cases e : k = i
    · simp [e]
    · rw [if_neg e, if_neg e]
      rfl
  | write i v =>
    obtain ⟨s, ht, ho, hd⟩ := hs
    have hv : w.value ⟨s, separator i past, decide (lineage i past = 0)⟩ v =
        some (if 0 < lineage i past then [(separates (separator i past) past).getD "", v] else [v]) := by
      unfold World.value
      by_cases hl : 0 < lineage i past
      · have hl' : lineage i past ≠ 0 := by omega
        simp only [hl', decide_false, Bool.not_false, if_true, held_separates h, hl]
        cases hsep : separates (separator i past) past with
        | none => exact absurd hsep (hd hl)
        | some d => simp
      · have hl' : lineage i past = 0 := by omega
        simp [hl']
    have hw : w.act (.write i v) = some ⟨w.conts, w.bufs,
        upd w.streams s (some (text s past ++
          if 0 < lineage i past then [(separates (separator i past) past).getD "", v] else [v])),
        w.views, upd w.iters i (some ⟨s, separator i past, false⟩)⟩ := by
      simp only [World.act, h.iters, ht, Option.map_some, h.streams, ho, if_true, hv]
    refine ⟨_, hw, ⟨h.conts, h.bufs, fun k => ?_, h.views, fun k => ?_⟩⟩
    · simp only [upd_eq, open', text, ht, Option.some.injEq, eq_comm (a := s), h.streams]
      by_cases e : k = s
      · simp [e, ho]
      · simp [e]
    · simp only [upd_eq, target, separator, lineage, eq_comm (a := i), h.iters]
      by_cases e : k = i
      · simp [e, ht]
      · simp [e]

/-- An unsafe action is undefined. -/
theorem act_unsafe {past w} (h : Agrees past w) (a : Act) (hs : ¬ Safe past a) : w.act a = none := by
  have hview : ∀ j, (¬ ∃ c, about j past = some c) → w.views j = none := by
    intro j hj
    rw [h.views]
    cases ha : about j past with
    | none => rfl
    | some c => exact absurd ⟨c, ha⟩ hj
  have hiter : ∀ i, (¬ ∃ s, target i past = some s) → w.iters i = none := by
    intro j hj
    rw [h.iters]
    cases ha : target j past with
    | none => rfl
    | some c => exact absurd ⟨c, ha⟩ hj
  cases a with
  | cont c o => exact absurd trivial hs
  | buf b o => exact absurd trivial hs
  | stream s on => exact absurd trivial hs
  | join j c =>
    simp only [World.act, h.conts]
    cases hc : contents c past with
    | none => rfl
    | some xs => exact absurd ⟨xs, hc⟩ hs
  | delim j p => simp only [World.act, hview j hs]
  | empty j p => simp only [World.act, hview j hs]
  | copyView d j => simp only [World.act, hview j hs]
  | endView j => simp only [World.act, hview j hs]
  | print s j =>
    simp only [World.act, h.streams, h.views]
    by_cases ho : open' s past = true
    · cases hc : about j past with
      | none => simp [ho]
      | some c =>
        simp only [ho, if_true, Option.map_some]
        rw [items_none h]
        · rfl
        · rintro ⟨xs, hx, h1, h2⟩
          exact hs ⟨ho, c, xs, hc, hx, h1, h2⟩
    · simp [ho]
  | iter i s hh =>
    have ho : ¬ open' s past = true := hs
    simp only [World.act, h.streams, if_neg ho]
  | copyIter d i => simp only [World.act, hiter i hs]
  | moveIter d i =>
    simp only [World.act, h.iters]
    cases ht : target i past with
    | none => rfl
    | some s =>
      by_cases e : d = i
      · simp [e]
      · exact absurd ⟨e, s, ht⟩ hs
  | endIter i => simp only [World.act, hiter i hs]
  | write i v =>
    simp only [World.act, h.iters]
    cases ht : target i past with
    | none => rfl
    | some s =>
      simp only [Option.map_some, h.streams]
      by_cases ho : open' s past = true
      · simp only [ho, if_true]
        by_cases hl : 0 < lineage i past
        · cases hsep : separates (separator i past) past with
          | none =>
            have hl' : lineage i past ≠ 0 := by omega
            simp only [World.value, hl', decide_false, Bool.not_false, if_true, held_separates h, hsep, Option.map_none]
          | some d => exact absurd ⟨s, ht, ho, by simp [hsep]⟩ hs
        · exact absurd ⟨s, ht, ho, fun hp => absurd hp hl⟩ hs
      · simp [ho]

/-- A run is defined exactly if everything is safe, and then the objects agree. -/
theorem run_agrees {past w} (h : Agrees past w) (as : List Act) :
    (AllSafe past as → ∃ w', w.run as = some w' ∧ Agrees (as.reverse ++ past) w') ∧ (¬ AllSafe past as → w.run as = none) := by
  induction as generalizing past w with
  | nil => exact ⟨fun _ => ⟨w, rfl, h⟩, fun hn => absurd trivial hn⟩
  | cons a as ih =>
    by_cases hs : Safe past a
    · obtain ⟨w', hw, h'⟩ := act_safe h a hs
      obtain ⟨i1, i2⟩ := ih h'
      constructor
      · intro hall
        obtain ⟨w'', hr, h''⟩ := i1 hall.2
        refine ⟨w'', by simp only [World.run, hw]; exact hr, ?_⟩
        simpa using h''
      · intro hn
        have : ¬ AllSafe (a :: past) as := fun hx => hn ⟨hs, hx⟩
        simp only [World.run, hw]
        exact i2 this
    · constructor
      · intro hall; exact absurd hall.1 hs
      · intro _
        simp only [World.run, act_unsafe h a hs]

theorem run_append (w : World) (as bs : List Act) : w.run (as ++ bs) = (w.run as).bind fun w' => w'.run bs := by
  induction as generalizing w with
  | nil => rfl
  | cons a as ih =>
    simp only [List.cons_append, World.run]
    cases w.act a with
    | none => rfl
    | some w' => exact ih w'

end Verif.Text
