import Verif.Path.ObjectsLemmas
/-
C141: objects of type `path` and the views of them.
-/
namespace Verif.Path
open Spec

/-- The values of the objects. -/
def World.values (w : World) : Values := ⟨w.objs.length, w.value⟩

theorem values_ext {V W : Values} (h1 : V.count = W.count) (h2 : ∀ k, V.at' k = W.at' k) : V = W := by
  obtain ⟨a, f⟩ := V
  obtain ⟨b, g⟩ := W
  simp only at h1
  subst h1
  rw [show f = g from funext h2]

theorem values_put {w w' : World} {o : Nat} {p : Option Path} (h : Changes w w' o p) : w'.values = w.values.put o p := by
  refine values_ext h.count fun k => ?_
  simp only [World.values, Values.put]
  by_cases hk : k = o
  · rw [if_pos hk, hk]; exact h.value
  · rw [if_neg hk]; exact (h.others k hk).value

theorem value_lt {w : World} {o : Nat} (h : w.value o ≠ none) : o < w.objs.length := by
  cases hv : w.value o with
  | none => exact absurd hv h
  | some p =>
    obtain ⟨x, b, h1, -⟩ := value_some hv
    exact obj_lt h1

theorem step_all (L : Lib) {w : World} (hi : Inv w) (op : Op) :
    (Allowed w.values op → ∃ w', w.step L op = some w' ∧ Inv w' ∧ Turns L.empties w.values op w'.values ∧
      ∀ k, k < w.objs.length → k ∉ touches op → Same w w' k) ∧
    (¬ Allowed w.values op → w.step L op = none) := by
  have hdead : ∀ {o : Nat}, ¬ w.value o ≠ none → w.value o = none := fun h => Classical.not_not.1 h
  have halive : ∀ {o : Nat}, w.value o ≠ none → ∃ p, w.value o = some p := by
    intro o h
    cases hv : w.value o with
    | none => exact absurd hv h
    | some p => exact ⟨p, rfl⟩
  obtain ⟨ci, cl, cv, cs⟩ := create_change hi
  have hnew : w.value w.objs.length = none := by
    cases hv : w.value w.objs.length with
    | none => rfl
    | some p => exact absurd (value_lt (w := w) (o := w.objs.length) (by rw [hv]; nofun)) (Nat.lt_irrefl _)
  cases op with
  | create =>
    refine ⟨fun _ => ⟨_, rfl, ci, ?_, fun k hk _ => cs k (by omega)⟩, fun h => absurd trivial h⟩
    have : w.create.values = w.values.add ⟨[], []⟩ := by
      refine values_ext cl fun k => ?_
      show w.create.value k = if k = w.objs.length then some ⟨[], []⟩ else w.value k
      by_cases hk : k = w.objs.length
      · rw [if_pos hk, hk]; exact cv
      · rw [if_neg hk]; exact (cs k hk).value
    rw [this]; exact .create
  | destroy o =>
    refine ⟨fun h => ?_, fun h => ?_⟩
    · obtain ⟨p, hp⟩ := halive (o := o) h
      obtain ⟨x, b, hx, -⟩ := value_some hp
      have hd : ∃ w', w.destroy o = some w' := by unfold World.destroy; rw [hx]; exact ⟨_, rfl⟩
      obtain ⟨w', hw⟩ := hd
      have ch := destroy_change hi hw
      exact ⟨w', hw, ch.inv, by rw [values_put ch]; exact .destroy hp,
        fun k _ hk => ch.others k (by simpa [touches] using hk)⟩
    · have := hdead (o := o) h
      show w.destroy o = none
      unfold World.destroy
      cases hx : w.obj o with
      | none => rfl
      | some x =>
        obtain ⟨b, -, hv, -⟩ := alive_obj hi hx
        rw [hv] at this; cases this
  | clear o =>
    refine ⟨fun h => ?_, fun h => (clear_change hi o).2 (hdead h)⟩
    obtain ⟨p, hp⟩ := halive (o := o) h
    obtain ⟨w', hw, ch⟩ := (clear_change hi o).1 h
    exact ⟨w', hw, ch.inv, by rw [values_put ch]; exact .clear hp, fun k _ hk => ch.others k (by simpa [touches] using hk)⟩
  | set o v =>
    refine ⟨fun h => ?_, fun h => (set_change L hi o v).2 (hdead h)⟩
    obtain ⟨p, hp⟩ := halive (o := o) h
    obtain ⟨w', hw, ch⟩ := (set_change L hi o v).1 h
    exact ⟨w', hw, ch.inv, by rw [values_put ch]; exact .set hp, fun k _ hk => ch.others k (by simpa [touches] using hk)⟩
  | copyNew s =>
    refine ⟨fun h => ?_, fun h => ?_⟩
    · have hlt := value_lt (w := w) (o := s) h
      have hs := (cs s (by omega)).value
      obtain ⟨p, hp⟩ := halive (o := s) h
      obtain ⟨w', hw, ch⟩ := (copy_change L ci w.objs.length s).1 p (hs.trans hp) (by rw [cv]; nofun)
      refine ⟨w', ?_, ch.inv, ?_, fun k hk _ => (cs k (by omega)).trans (ch.others k (by omega))⟩
      · show (if s = w.objs.length then none else w.create.copy L w.objs.length s) = _
        rw [if_neg (by omega)]; exact hw
      · have : w'.values = w.values.add p := by
          refine values_ext (ch.count.trans cl) fun k => ?_
          show w'.value k = if k = w.objs.length then some p else w.value k
          by_cases hk : k = w.objs.length
          · rw [if_pos hk, hk]; exact ch.value
          · rw [if_neg hk, (ch.others k hk).value]; exact (cs k hk).value
        rw [this]; exact .copyNew hp
    · show (if s = w.objs.length then none else w.create.copy L w.objs.length s) = _
      split
      · rfl
      · rename_i hsl
        exact (copy_change L ci w.objs.length s).2 (.inl ((cs s hsl).value.trans (hdead h)))
  | moveNew s =>
    refine ⟨fun h => ?_, fun h => ?_⟩
    · have hlt := value_lt (w := w) (o := s) h
      have hs := (cs s (by omega)).value
      obtain ⟨p, hp⟩ := halive (o := s) h
      obtain ⟨w', q, hw, h1, h2, h3, h4, h5, h6⟩ := (move_change L ci w.objs.length s).1 p (hs.trans hp) (by rw [cv]; nofun) (by omega)
      refine ⟨w', hw, h1, ?_, fun k hk ht => (cs k (by omega)).trans (h6 k (by omega) (by simpa [touches] using ht))⟩
      have : w'.values = (w.values.add p).put s (some q) := by
        refine values_ext (h2.trans cl) fun k => ?_
        show w'.value k = if k = s then some q else if k = w.objs.length then some p else w.value k
        by_cases hks : k = s
        · rw [if_pos hks, hks]; exact h4
        · rw [if_neg hks]
          by_cases hk : k = w.objs.length
          · rw [if_pos hk, hk]; exact h3
          · rw [if_neg hk, (h6 k hk hks).value]; exact (cs k hk).value
      rw [this]; exact .moveNew hp h5
    · refine (move_change L ci w.objs.length s).2 ?_
      by_cases hsl : s = w.objs.length
      · exact .inr (.inr hsl.symm)
      · exact .inl ((cs s hsl).value.trans (hdead h))
  | copy d s =>
    refine ⟨fun h => ?_, fun h => ?_⟩
    · obtain ⟨p, hp⟩ := halive (o := s) h.2
      obtain ⟨p', hp'⟩ := halive (o := d) h.1
      obtain ⟨w', hw, ch⟩ := (copy_change L hi d s).1 p hp h.1
      exact ⟨w', hw, ch.inv, by rw [values_put ch]; exact .copy hp hp', fun k _ hk => ch.others k (by simpa [touches] using hk)⟩
    · refine (copy_change L hi d s).2 ?_
      by_cases h1 : w.value s = none
      · exact .inl h1
      · by_cases h2 : w.value d = none
        · exact .inr h2
        · exact absurd ⟨h2, h1⟩ h
  | move d s =>
    refine ⟨fun h => ?_, fun h => ?_⟩
    · obtain ⟨p, hp⟩ := halive (o := s) h.2.1
      obtain ⟨p', hp'⟩ := halive (o := d) h.1
      obtain ⟨w', q, hw, h1, h2, h3, h4, h5, h6⟩ := (move_change L hi d s).1 p hp h.1 h.2.2
      refine ⟨w', hw, h1, ?_, fun k _ ht => ?_⟩
      · have : w'.values = (w.values.put d (some p)).put s (some q) := by
          refine values_ext h2 fun k => ?_
          simp only [World.values, Values.put]
          by_cases hks : k = s
          · rw [if_pos hks, hks]; exact h4
          · rw [if_neg hks]
            by_cases hk : k = d
            · rw [if_pos hk, hk]; exact h3
            · rw [if_neg hk]; exact (h6 k hk hks).value
        rw [this]; exact .move h.2.2 hp hp' h5
      · simp only [touches, List.mem_cons, List.not_mem_nil, or_false, not_or] at ht
        exact h6 k ht.1 ht.2
    · refine (move_change L hi d s).2 ?_
      by_cases h1 : w.value s = none
      · exact .inl h1
      · by_cases h2 : w.value d = none
        · exact .inr (.inl h2)
        · by_cases h3 : d = s
          · exact .inr (.inr h3)
          · exact absurd ⟨h2, h1, h3⟩ h
  | setSegment d s i =>
    refine ⟨fun h => ?_, fun h => ?_⟩
    · obtain ⟨hd, p, t, hp, ht, hdt⟩ := h
      have hp : w.value s = some p := hp
      obtain ⟨p', hp'⟩ := halive (o := d) hd
      obtain ⟨w', hw, ch⟩ := (set_change L hi d t).1 hd
      refine ⟨w', ?_, ch.inv, by rw [values_put ch]; exact .setSegment hp hp' ht hdt,
        fun k _ hk => ch.others k (by simpa [touches] using hk)⟩
      show (match w.segment s i with | none => none | some v => if d = s ∧ v ≠ [] then none else w.set L d v) = _
      rw [show w.segment s i = some t by unfold World.segment; rw [hp]; exact ht]
      simp only
      rw [if_neg (fun hc => hc.2 (hdt hc.1))]
      exact hw
    · show (match w.segment s i with | none => none | some v => if d = s ∧ v ≠ [] then none else w.set L d v) = _
      cases ht : w.segment s i with
      | none => rfl
      | some t =>
        simp only
        unfold World.segment at ht
        cases hp : w.value s with
        | none => rw [hp] at ht; cases ht
        | some p =>
          rw [hp] at ht
          split
          · rfl
          · rename_i hc
            refine (set_change L hi d t).2 ?_
            by_cases hd : w.value d = none
            · exact hd
            · exact absurd ⟨hd, p, t, hp, ht, fun he => by
                apply Classical.byContradiction; intro hn; exact hc ⟨he, hn⟩⟩ h

theorem inv_step {L : Lib} {w w' : World} {op : Op} (hi : Inv w) (h : w.step L op = some w') :
    Inv w' ∧ Turns L.empties w.values op w'.values ∧ ∀ k, k < w.objs.length → k ∉ touches op → Same w w' k := by
  by_cases ha : Allowed w.values op
  · obtain ⟨w1, h1, h2⟩ := (step_all L hi op).1 ha
    rw [h] at h1
    cases h1
    exact h2
  · rw [(step_all L hi op).2 ha] at h; cases h

theorem run_inv {L : Lib} : ∀ (ops : List Op) {w w' : World}, Inv w → w.run L ops = some w' → Inv w'
  | [], _, _, hi, h => by cases h; exact hi
  | op :: ops, w, w', hi, h => by
    unfold World.run at h
    cases hs : w.step L op with
    | none => rw [hs] at h; cases h
    | some w1 => rw [hs] at h; exact run_inv ops (inv_step hi hs).1 h

/-- A library that doubles; `e`: whether it empties what it moves elements from. -/
def lib (e : Bool) : Lib := ⟨fun old _ => 2 * old, e⟩

/-- C141: an operation is undefined exactly if it names an object that does not live, moves an object to itself, or sets a path to one of
its own segments. -/
theorem C141_defined (L : Lib) (ops : List Op) (w : World) (h : World.empty.run L ops = some w) (op : Op) :
    w.step L op = none ↔ ¬ Allowed w.values op := by
  have hi := run_inv ops inv_empty h
  constructor
  · intro hn ha
    obtain ⟨w', h1, -⟩ := (step_all L hi op).1 ha
    rw [hn] at h1; cases h1
  · exact (step_all L hi op).2

example : ([.move 0 0, .move 0 1, .copy 0 0, .copy 0 1, .destroy 1, .setSegment 0 0 0, .setSegment 0 0 5, .setSegment 2 0 0, .copyNew 3,
    .moveNew 3].map fun op => ((World.empty.run (lib true) [.create, .set 0 (str "/a"), .create, .destroy 1, .create]).bind
      (·.step (lib true) op)).isSome) = [false, false, true, false, false, false, false, true, false, false] := by decide +kernel

/-- C141: paths are values: what an operation does to one is not seen in another. -/
theorem C141_values (L : Lib) (ops : List Op) (w : World) (h : World.empty.run L ops = some w) :
    Happens L.empties ⟨0, fun _ => none⟩ ops w.values := by
  suffices ∀ (ops : List Op) (w0 : World), Inv w0 → w0.run L ops = some w → Happens L.empties w0.values ops w.values by
    have h0 : World.empty.values = ⟨0, fun _ => none⟩ := by
      refine values_ext rfl fun k => ?_
      simp [World.values, World.value, World.empty, World.obj]
    rw [← h0]
    exact this ops _ inv_empty h
  intro ops
  induction ops with
  | nil => intro w0 _ h; cases h; exact .nil
  | cons op ops ih =>
    intro w0 hi h
    unfold World.run at h
    cases hs : w0.step L op with
    | none => rw [hs] at h; cases h
    | some w1 =>
      rw [hs] at h
      obtain ⟨h1, h2, -⟩ := inv_step hi hs
      exact .cons h2 (ih w1 h1 h)

example : ((World.empty.run (lib true) [.create, .set 0 deep, .copyNew 0, .moveNew 1, .set 0 (str "/x")]).map fun w =>
    ((w.value 0).map (·.joined 0), (w.value 1).map (·.size), (w.value 2).map (·.joined 14))) =
    some (some (str "x"), some 0, some (str "o/pq")) := by decide +kernel

/-- C141: memory belongs to objects that live; when there are none left, there is no memory left. -/
theorem C141_no_leak (L : Lib) (ops : List Op) (w : World) (h : World.empty.run L ops = some w) (hall : ∀ o, w.value o = none) (b : Nat) :
    w.block b = none := by
  have hi := run_inv ops inv_empty h
  apply Classical.byContradiction
  intro hb
  obtain ⟨o, x, hx, -⟩ := hi.owned hb
  obtain ⟨c, -, hv, -⟩ := alive_obj hi hx
  rw [hall] at hv
  cases hv

example : ((World.empty.run (lib true) [.create, .set 0 deep, .copyNew 0, .moveNew 0, .set 0 (str "/x"), .copy 0 1, .destroy 1, .move 2 0,
    .destroy 0, .destroy 2]).map fun w => (w.objs.all (· == none), w.blocks.length, w.blocks.all (· == none))) = some (true, 6, true) := by
  decide +kernel

/-- `a` times `drop_front` and `b` times `drop_back`. -/
def dropped (a b : Nat) (v : PView) : PView := Nat.repeat PView.dropBack b (Nat.repeat PView.dropFront a v)

theorem dropped_eq (a b : Nat) (v : PView) : dropped a b v = ⟨v.value, v.arr, v.first + a, v.size - a - b⟩ := by
  have h1 : Nat.repeat PView.dropFront a v = ⟨v.value, v.arr, v.first + a, v.size - a⟩ := by
    induction a with
    | zero => rfl
    | succ a ih => rw [Nat.repeat, ih]; simp [PView.dropFront]; omega
  unfold dropped
  rw [h1]
  induction b with
  | zero => rfl
  | succ b ih => rw [Nat.repeat, ih]; simp [PView.dropBack]; omega

theorem turns_count {e : Bool} {V V' : Values} {op : Op} (h : Turns e V op V') : V.count ≤ V'.count := by
  cases h <;> simp [Values.add, Values.put]

theorem run_same {L : Lib} {o : Nat} : ∀ (ops : List Op) {w w' : World}, Inv w → o < w.objs.length →
    (∀ op ∈ ops, o ∉ touches op) → w.run L ops = some w' → Same w w' o
  | [], w, _, _, _, _, h => by cases h; exact Same.refl w o
  | op :: ops, w, w', hi, hl, ht, h => by
    unfold World.run at h
    cases hs : w.step L op with
    | none => rw [hs] at h; cases h
    | some w1 =>
      rw [hs] at h
      obtain ⟨h1, h2, h3⟩ := inv_step hi hs
      have hsame := h3 o hl (ht op (List.mem_cons_self ..))
      have hl1 : o < w1.objs.length := Nat.lt_of_lt_of_le hl (turns_count h2)
      exact hsame.trans (run_same ops h1 hl1 (fun x hx => ht x (List.mem_cons_of_mem _ hx)) h)

/-- C141: a view of a path, and what is made of it by dropping segments, keeps showing what it showed when it was taken, while the path is
not changed: whatever happens to other paths, copies of this one included. -/
theorem C141_views (L : Lib) (ops : List Op) (w : World) (h : World.empty.run L ops = some w) (o : Nat) (p : Path)
    (hp : w.value o = some p) (a b : Nat) (u : View) (hu : (dropFronts a p.view).bind (dropBacks b) = some u) :
    ∃ v, w.view o = some v ∧ (dropped a b v).size = u.size ∧
      ∀ (later : List Op) (w' : World), (∀ op ∈ later, o ∉ touches op) → w.run L later = some w' →
        (∀ i, i < u.size → w'.read (dropped a b v) i = match u.at i with | some s => .text s | none => .terminated) ∧
        (∀ k, w'.readPrefix (dropped a b v) k = match u.prefix k with | some s => .text s | none => .undefined) := by
  have hi := run_inv ops inv_empty h
  obtain ⟨x, blk, hx, hb, rfl⟩ := value_some hp
  refine ⟨⟨o, x.arr, 0, blk.elems.length⟩, by unfold World.view; rw [hx]; simp [hb], ?_⟩
  rw [show (⟨x.text, blk.elems⟩ : Path).view = ⟨x.text, blk.elems⟩ from rfl, dropFronts_eq] at hu
  by_cases ha : a ≤ blk.elems.length
  · rw [if_pos (show a ≤ (⟨x.text, blk.elems⟩ : View).segments.length from ha)] at hu
    simp only [Option.bind_some] at hu
    rw [dropBacks_eq] at hu
    by_cases hbb : b ≤ blk.elems.length - a
    · rw [if_pos (show b ≤ (blk.elems.drop a).length by rw [List.length_drop]; exact hbb)] at hu
      simp only [List.length_drop] at hu
      cases hu
      have hsz : ((blk.elems.drop a).take (blk.elems.length - a - b)).length = blk.elems.length - a - b := by
        rw [List.length_take, List.length_drop]; omega
      rw [dropped_eq]
      refine ⟨by simp only [View.size]; exact hsz.symm, fun later w' ht hr => ?_⟩
      have hsame := run_same later hi (obj_lt hx) ht hr
      have hx' := hsame.obj.trans hx
      have hb' := (hsame.arr x hx).trans hb
      have hel : ∀ i, i < blk.elems.length - a - b →
          ((blk.elems.drop a).take (blk.elems.length - a - b))[i]? = blk.elems[0 + a + i]? := by
        intro i hlt
        rw [List.getElem?_take, if_pos hlt, List.getElem?_drop, Nat.zero_add]
      refine ⟨fun i hlt => ?_, fun k => ?_⟩
      · simp only [View.size, hsz] at hlt
        unfold World.read View.at segmentAt
        simp only [hx', hb', hel i hlt]
        have hlt' : 0 + a + i < blk.elems.length := by omega
        rw [List.getElem?_eq_getElem hlt']
        simp only
        by_cases hoff : blk.elems[0 + a + i].offset ≤ x.text.length
        · rw [if_pos hoff, if_pos hoff]
        · rw [if_neg hoff, if_neg hoff]
      · unfold World.readPrefix View.prefix
        simp only [hsz]
        by_cases hk : k > blk.elems.length - a - b
        · rw [if_pos hk, if_pos hk]
        · rw [if_neg hk, if_neg hk]
          by_cases hk0 : k = 0
          · rw [if_pos hk0, if_pos hk0]
          · rw [if_neg hk0, if_neg hk0]
            simp only [hx', hb']
            rw [hel (k - 1) (by omega)]
            have hlt' : 0 + a + (k - 1) < blk.elems.length := by omega
            rw [List.getElem?_eq_getElem hlt']
    · rw [if_neg (show ¬ b ≤ (blk.elems.drop a).length by rw [List.length_drop]; exact hbb)] at hu; cases hu
  · rw [if_neg (show ¬ a ≤ (⟨x.text, blk.elems⟩ : View).segments.length from ha)] at hu; cases hu

/-- Reading segment `i` of the view of the first path, taken after `ops`, after `later`. -/
def lateRead (L : Lib) (ops later : List Op) (i : Nat) : Option Seen :=
  match World.empty.run L ops with
  | none => none
  | some w =>
    match w.view 0, w.run L later with
    | some v, some w' => some (w'.read v i)
    | _, _ => none

example : lateRead (lib false) [.create, .set 0 deep] [.copyNew 0, .moveNew 1, .set 1 (str "/x"), .copy 2 1, .destroy 1] 15 =
    some (.text (str "pq")) := by decide +kernel

/-- C141, violated: a view does not survive a change of its path. It then shows another text, ends the program, or reads what is gone:
after `set`, after a move, after the end of the path. -/
theorem C141_stale_violated (e : Bool) :
    lateRead (lib e) [.create, .set 0 (str "/ab/cd")] [.set 0 (str "/xyz/w")] 1 = some (.text (str "w")) ∧
    lateRead (lib e) [.create, .set 0 (str "/ab/cd")] [.set 0 (str "/x")] 1 = some .undefined ∧
    lateRead (lib e) [.create, .set 0 (str "/ab/cd")] [.set 0 deep] 1 = some .undefined ∧
    lateRead (lib e) [.create, .set 0 deep] [.moveNew 0] 1 = some .terminated ∧
    lateRead (lib e) [.create, .set 0 deep] [.destroy 0] 1 = some .undefined ∧
    lateRead (lib e) [.create, .set 0 deep] [.moveNew 0, .destroy 1] 1 = some .undefined := by
  cases e <;> decide +kernel

/-- C141, violated: with a library that leaves the elements in place, a path that was moved from has segments, and reading the second ends
the program. -/
theorem C141_moved_violated :
    ((World.empty.run (lib false) [.create, .set 0 (str "/ab/cd"), .moveNew 0]).bind (·.value 0)).map
      (fun p => (p.size, p.empty, p.at 0, p.at 1)) = some (2, false, some [], none) := by
  decide +kernel

/-- C141, violated: a path cannot be set to one of its own segments. -/
theorem C141_own_violated :
    ((World.empty.run (lib true) [.create, .set 0 (str "/ab/cd")]).bind (·.segment 0 1)) = some (str "cd") ∧
    World.empty.run (lib true) [.create, .set 0 (str "/ab/cd"), .setSegment 0 0 1] = none := by
  decide +kernel

end Verif.Path
