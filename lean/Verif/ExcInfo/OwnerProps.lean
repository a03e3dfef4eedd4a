import Verif.ExcInfo.OwnerProof
/-
The property C145: the nodes of `exception_info` live exactly as long as an object shows them.
-/
namespace Verif.ExcInfo

/-- An object leads to the node. -/
inductive Held (s : Own) : Nat → Prop
  | head {o i : Nat} (h : s.objs[o]? = some (some (some i))) : Held s i
  | next {i j : Nat} {c : Counted} (h : Held s i) (hc : s.cells[i]? = some (some c)) (hn : c.next = some j) : Held s j

/-- The history where nothing is ever destroyed. -/
def forgetRun : World → List OwnOp → Option World
  | w, [] => some w
  | w, op :: ops => (forget w op).bind (forgetRun · ops)

theorem rel_empty : Rel Own.empty World.empty :=
  ⟨⟨by simp [Own.empty], by simp [Own.empty, heads, nexts], by simp [Own.empty], by simp [Own.empty]⟩, rfl, by simp [Own.empty], rfl,
    by simp [Own.empty]⟩

theorem own_run {ops : List OwnOp} : ∀ {s : Own} {w : World}, Rel s w →
    ownRun s ops = .error .noObject ∨ ∃ s' l w', ownRun s ops = .ok (s', l) ∧ forgetRun w ops = some w' ∧ Rel s' w' ∧
      s.cells.length ≤ s'.cells.length ∧ l.Nodup ∧ (∀ j ∈ l, Live s.cells j ∨ s.cells.length ≤ j ∧ j < s'.cells.length) ∧
      ∀ j, Live s'.cells j ↔ (Live s.cells j ∨ s.cells.length ≤ j ∧ j < s'.cells.length) ∧ j ∉ l := by
  induction ops with
  | nil =>
    intro s w h
    refine .inr ⟨s, [], w, rfl, rfl, h, Nat.le_refl _, .nil, by simp, live_nil rfl (by simp)⟩
  | cons op ops ih =>
    intro s w h
    by_cases hu : ∀ o ∈ uses op, ∃ p, s.objs[o]? = some (some p)
    · obtain ⟨s1, l1, h1, ⟨w1, h2, h3⟩, h4, h5, h6⟩ := own_step h op hu
      have hle : s.cells.length ≤ s1.cells.length := by
        have h7 := h.len
        have h8 := h3.len
        have : w.heap.length ≤ w1.heap.length := by
          cases op with
          | plain op =>
            cases op <;> simp only [forget, step] at h2
            all_goals repeat' split at h2
            all_goals first | cases h2 | skip
            all_goals simp
          | setFails => cases h2; simp
          | moveAssign => simp only [forget] at h2; split at h2 <;> cases h2; simp
          | destroy => cases h2; simp
        omega
      rcases ih h3 with h7 | ⟨s2, l2, w2, h7, h8, h9, h10, h11, h12, h13⟩
      · left; simp only [ownRun, h1, h7]
      · refine .inr ⟨s2, l1 ++ l2, w2, by simp only [ownRun, h1, h7], by simp [forgetRun, h2, h8], h9, by omega, ?_, ?_, ?_⟩
        · refine List.nodup_append.2 ⟨h6.imp (fun h => Nat.ne_of_gt h), h11, ?_⟩
          rintro a ha b hb rfl
          rcases h12 a hb with h14 | h14
          · exact ((h4 a).1 h14).2 ha
          · have := live_lt (h5 a ha); omega
        · intro j hj
          rcases List.mem_append.1 hj with hj | hj
          · exact .inl (h5 j hj)
          · rcases h12 j hj with h14 | h14
            · rcases ((h4 j).1 h14).1 with h15 | h15
              · exact .inl h15
              · exact .inr ⟨h15.1, by omega⟩
            · exact .inr (by omega)
        · intro j
          rw [h13, h4, List.mem_append, not_or]
          constructor
          · rintro ⟨(⟨h14 | h14, h15⟩ | h14), h16⟩
            · exact ⟨.inl h14, h15, h16⟩
            · exact ⟨.inr (by omega), h15, h16⟩
            · refine ⟨.inr (by omega), fun hj => ?_, h16⟩
              have := live_lt (h5 j hj); omega
          · rintro ⟨h14, h15, h16⟩
            refine ⟨?_, h16⟩
            rcases h14 with h14 | h14
            · exact .inl ⟨.inl h14, h15⟩
            · by_cases hj : j < s1.cells.length
              · exact .inl ⟨.inr ⟨h14.1, hj⟩, h15⟩
              · exact .inr ⟨by omega, h14.2⟩
    · left; simp only [ownRun, own_missing hu]

theorem own_rel {ops : List OwnOp} {s : Own} {l : List Nat} (h : ownRun .empty ops = .ok (s, l)) :
    ∃ w, forgetRun .empty ops = some w ∧ Rel s w ∧ l.Nodup ∧ (∀ j ∈ l, j < s.cells.length) ∧
      ∀ j, Live s.cells j ↔ j < s.cells.length ∧ j ∉ l := by
  rcases own_run (ops := ops) rel_empty with h1 | ⟨s', l', w, h1, h2, h3, -, h5, h6, h7⟩
  · rw [h1] at h; cases h
  · rw [h1] at h; cases h
    refine ⟨w, h2, h3, h5, fun j hj => ?_, fun j => (h7 j).trans ?_⟩
    · simpa [Own.empty, Live] using h6 j hj
    · simp [Own.empty, Live]

theorem seek_tag {cs : Cells} {tag : Tag} : ∀ {fuel : Nat} {p : Option Nat} {i : Nat} {c : Counted}, cs[i]? = some (some c) →
    seek cs tag fuel p = .ok (some i) → c.tag = tag
  | fuel, none, i, c, _, h => by cases fuel <;> cases h
  | 0, some _, i, c, _, h => by cases h
  | fuel + 1, some k, i, c, hc, h => by
    simp only [seek] at h
    split at h
    · cases h
    · rename_i ck hk
      split at h
      · rename_i ht
        cases h
        rw [deref_ok hc] at hk; cases hk; exact ht
      · exact seek_tag hc h

/-! ### C145 -/

/-- C145: whatever a program does with the objects it has, no node is used that does not exist, and no count is wrong. -/
theorem C145_safe (ops : List OwnOp) : ownRun .empty ops ≠ .error .ub := by
  rcases own_run (ops := ops) rel_empty with h | ⟨s', l, w, h, -⟩ <;> rw [h] <;> simp

/-- C145: every operation on objects the program has succeeds. -/
theorem C145_defined {ops : List OwnOp} {s : Own} {l : List Nat} (h : ownRun .empty ops = .ok (s, l)) (op : OwnOp) :
    (∃ s' l', ownStep s op = .ok (s', l')) ↔ ∀ o ∈ uses op, ∃ p, s.objs[o]? = some (some p) := by
  obtain ⟨w, -, h1, -⟩ := own_rel h
  constructor
  · rintro ⟨s', l', h2⟩
    apply Classical.byContradiction
    intro hu
    rw [own_missing hu] at h2; cases h2
  · intro hu
    obtain ⟨s', l', h2, -⟩ := own_step h1 op hu
    exact ⟨s', l', h2⟩

namespace Sample
/-- Two copies, a node removed from one of them, the other one destroyed. -/
def shareThenDrop : List OwnOp :=
  [.plain .new, .plain (.set 0 1 10), .plain (.set 0 2 20), .plain (.copy 0), .plain (.set 1 3 30), .plain (.unset 1 1), .destroy 0]
end Sample

example : ownRun .empty Sample.shareThenDrop =
    .ok (⟨[none, some ⟨2, 20, none, 1⟩, some ⟨3, 30, some 1, 1⟩], [none, some (some 2)]⟩, [0]) := rfl

/-- C145: a node exists iff an object leads to it. -/
theorem C145_alive {ops : List OwnOp} {s : Own} {l : List Nat} (h : ownRun .empty ops = .ok (s, l)) (i : Nat) :
    Live s.cells i ↔ Held s i := by
  obtain ⟨w, -, h1, -⟩ := own_rel h
  have hi := h1.inv
  constructor
  · suffices key : ∀ n i, s.cells.length - i ≤ n → Live s.cells i → Held s i from key _ i (Nat.le_refl _)
    intro n
    induction n with
    | zero => intro i hn hl; have := live_lt hl; omega
    | succ n ih =>
      rintro i hn ⟨c, hc⟩
      have hpos := hi.pos i c hc
      rw [hi.count i c hc, List.count_pos_iff, List.mem_append] at hpos
      rcases hpos with hm | hm
      · obtain ⟨x, hx, hxi⟩ := List.mem_map.1 hm
        cases x with
        | none => cases hxi
        | some p =>
          cases hxi
          obtain ⟨o, ho⟩ := List.mem_iff_getElem?.1 hx
          exact .head ho
      · obtain ⟨x, hx, hxi⟩ := List.mem_map.1 hm
        cases x with
        | none => cases hxi
        | some ck =>
          obtain ⟨k, hk⟩ := List.mem_iff_getElem?.1 hx
          have hki : ck.next = some i := hxi
          have := hi.down k ck i hk hki
          have := live_lt ⟨ck, hk⟩
          exact .next (ih k (by omega) ⟨ck, hk⟩) hk hki
  · intro hh
    induction hh with
    | head ho => exact hi.live _ (List.mem_append.2 (.inl (heads_mem ho)))
    | next _ hc hn _ => exact hi.fit_next hc _ hn

/-- C145: its count is the number of objects and nodes that refer to it. -/
theorem C145_count {ops : List OwnOp} {s : Own} {l : List Nat} (h : ownRun .empty ops = .ok (s, l)) {i : Nat} {c : Counted}
    (hc : s.cells[i]? = some (some c)) :
    c.count = (s.objs.filter fun o => o == some (some i)).length +
      (s.cells.filter fun k => match k with | some k => k.next == some i | none => false).length := by
  obtain ⟨w, -, h1, -⟩ := own_rel h
  rw [h1.inv.count i c hc, List.count_append, heads, nexts, List.count_eq_countP, List.count_eq_countP, List.countP_map, List.countP_map,
    ← List.countP_eq_length_filter, ← List.countP_eq_length_filter]
  congr 1
  · apply List.countP_congr
    intro x _
    cases x with
    | none => simp
    | some x => simp
  · apply List.countP_congr
    intro x _
    cases x <;> simp

example : ∃ s l c, ownRun .empty [.plain .new, .plain (.set 0 1 10), .plain (.copy 0), .plain (.set 1 2 20)] = .ok (s, l) ∧
    s.cells[0]? = some (some c) ∧ c.count = 2 := ⟨_, _, _, rfl, rfl, rfl⟩

/-- C145: when all objects are destroyed no node is left. -/
theorem C145_nothing_left {ops : List OwnOp} {s : Own} {l : List Nat} (h : ownRun .empty ops = .ok (s, l))
    (hs : ∀ o ∈ s.objs, o = none) : ∀ c ∈ s.cells, c = none := by
  intro c hc
  cases c with
  | none => rfl
  | some c =>
    obtain ⟨i, hi⟩ := List.mem_iff_getElem?.1 hc
    have := (C145_alive h i).1 ⟨c, hi⟩
    exfalso
    clear hi hc
    induction this with
    | head ho => cases hs _ (List.mem_of_getElem? ho)
    | next _ _ _ ih => exact ih

example : ∃ s l, ownRun .empty (Sample.shareThenDrop ++ [.destroy 1]) = .ok (s, l) ∧ (∀ o ∈ s.objs, o = none) ∧ l = [0, 2, 1] :=
  ⟨_, _, rfl, by decide +kernel, rfl⟩

/-- C145: every node is destroyed once, or exists. -/
theorem C145_once {ops : List OwnOp} {s : Own} {l : List Nat} (h : ownRun .empty ops = .ok (s, l)) :
    l.Nodup ∧ ∀ i, i ∈ l ↔ i < s.cells.length ∧ ¬ Held s i := by
  obtain ⟨w, -, h1, h2, h4, h3⟩ := own_rel h
  refine ⟨h2, fun i => ?_⟩
  rw [← C145_alive h]
  by_cases hi : i ∈ l
  · exact ⟨fun _ => ⟨h4 i hi, fun hl => ((h3 i).1 hl).2 hi⟩, fun _ => hi⟩
  · refine ⟨fun hh => absurd hh hi, fun ⟨hl, hn⟩ => absurd ((h3 i).2 ⟨hl, hi⟩) hn⟩

/-- C145: an operation destroys the nodes no object leads to afterwards, the newest first. -/
theorem C145_when {ops : List OwnOp} {s s' : Own} {l l' : List Nat} (h : ownRun .empty ops = .ok (s, l)) {op : OwnOp}
    (hs : ownStep s op = .ok (s', l')) : l'.Pairwise (· > ·) ∧ ∀ i, i ∈ l' ↔ Held s i ∧ ¬ Held s' i := by
  obtain ⟨w, -, h1, -⟩ := own_rel h
  have hu : ∀ o ∈ uses op, ∃ p, s.objs[o]? = some (some p) := (C145_defined h op).1 ⟨s', l', hs⟩
  obtain ⟨s2, l2, h2, h3⟩ := own_step h1 op hu
  rw [hs] at h2; cases h2
  have hrun : ownRun .empty (ops ++ [op]) = .ok (s', l ++ l') := by
    have key : ∀ (ops : List OwnOp) (a : Own) (k : List Nat), ownRun a ops = .ok (s, k) → ownRun a (ops ++ [op]) = .ok (s', k ++ l') := by
      intro ops
      induction ops with
      | nil => intro a k hk; cases hk; simp [ownRun, hs]
      | cons x ops ih =>
        intro a k hk
        simp only [List.cons_append, ownRun] at hk ⊢
        cases hx : ownStep a x with
        | error e => rw [hx] at hk; cases hk
        | ok r =>
          rw [hx] at hk
          simp only at hk ⊢
          cases hr : ownRun r.1 ops with
          | error e => rw [hr] at hk; cases hk
          | ok q =>
            rw [hr] at hk
            cases hk
            rw [ih r.1 q.2 hr]
            simp
    exact key ops _ _ h
  refine ⟨h3.order, fun i => ?_⟩
  rw [← C145_alive h, ← C145_alive hrun, h3.live]
  constructor
  · exact fun hi => ⟨h3.was i hi, fun hh => hh.2 hi⟩
  · rintro ⟨h4, h5⟩
    exact Classical.byContradiction fun hi => h5 ⟨.inl h4, hi⟩

example : ∃ s l s', ownRun .empty [.plain .new, .plain (.set 0 1 10), .plain (.set 0 2 20), .plain (.set 0 3 30), .plain (.unset 0 2)] =
    .ok (s, l) ∧ l = [1] ∧ ownStep s (.destroy 0) = .ok (s', [2, 0]) := ⟨_, _, _, rfl, rfl, rfl⟩

/-- C145: the objects the program has show what they would if nothing was ever destroyed. -/
theorem C145_same {ops : List OwnOp} {s : Own} {l : List Nat} (h : ownRun .empty ops = .ok (s, l)) :
    ∃ w, forgetRun .empty ops = some w ∧ ∀ o p, s.objs[o]? = some (some p) →
      (∃ x, shownBy s o = .ok x ∧ diagnostic w o = some x) ∧
      ∀ tag, (getNode s o tag = .ok none ∧ get w o tag = some none) ∨
        ∃ i c, getNode s o tag = .ok (some i) ∧ s.cells[i]? = some (some c) ∧ c.tag = tag ∧ get w o tag = some (some c.val) := by
  obtain ⟨w, hw, h1, -⟩ := own_rel h
  refine ⟨w, hw, fun o p ho => ?_⟩
  have hf := h1.inv.fit (heads_mem ho)
  refine ⟨?_, fun tag => ?_⟩
  · obtain ⟨x, h2, h3⟩ := listing_ok h1.inv h1.node s.cells.length hf hf.lt
    refine ⟨x, ?_, ?_⟩
    · simp only [shownBy, obj_ok ho, bind, Except.bind, h2]
    · simp only [diagnostic, h1.head o p ho, h1.len, h3]
  · obtain ⟨r, h2, h3, h4⟩ := seek_ok h1.inv h1.node tag s.cells.length hf hf.lt
    cases r with
    | none =>
      left
      exact ⟨by simp only [getNode, obj_ok ho, bind, Except.bind, h2], by simp only [get, h1.head o p ho, h1.len, h3]⟩
    | some i =>
      right
      obtain ⟨c, hc⟩ := h4 i rfl
      refine ⟨i, c, by simp only [getNode, obj_ok ho, bind, Except.bind, h2], hc, ?_, ?_⟩
      · exact seek_tag hc h2
      · simp only [get, h1.head o p ho, h1.len, h3, h1.node i c hc, Option.map_some]

example : ∃ s l, ownRun .empty Sample.shareThenDrop = .ok (s, l) ∧ shownBy s 1 = .ok [(3, 30), (2, 20)] ∧
    getNode s 1 2 = .ok (some 1) ∧ getNode s 1 1 = .ok none := ⟨_, _, rfl, rfl, rfl, rfl⟩

/-- C145: memory that runs out in `set` changes nothing. -/
theorem C145_no_memory {s s' : Own} {o : Nat} {l : List Nat} (h : ownStep s (.setFails o) = .ok (s', l)) : s' = s ∧ l = [] := by
  simp only [ownStep, bind, Except.bind] at h
  split at h
  · cases h
  · cases h; exact ⟨rfl, rfl⟩

example : ∃ s', ownStep ⟨[], [some none]⟩ (.setFails 0) = .ok (s', []) := ⟨_, rfl⟩

/-- C145: a pointer from `get` is good only as long as an object leads to its node: `unset` on a copy, as well as on the object itself, makes
it dangle. -/
theorem C145_dangling_violated :
    ∃ s s' l, ownRun .empty [.plain .new, .plain (.set 0 1 10), .plain (.set 0 2 20), .plain (.copy 0)] = .ok (s, []) ∧
      getNode s 0 1 = .ok (some 0) ∧ ownStep s (.plain (.unset 1 1)) = .ok (s', l) ∧ deref s'.cells 0 = .error .ub :=
  ⟨_, _, _, rfl, rfl, rfl, rfl⟩

theorem many_sets (n : Nat) : ∃ s w p, ownRun .empty (.plain .new :: List.replicate n (.plain (.set 0 0 0))) = .ok (s, []) ∧ Rel s w ∧
    s.cells.length = n ∧ s.objs = [some p] := by
  suffices key : ∀ (n : Nat) (a : Own) (w : World) (p : Option Nat), Rel a w → a.objs = [some p] →
      ∃ s w p, ownRun a (List.replicate n (.plain (.set 0 0 0))) = .ok (s, []) ∧ Rel s w ∧ s.cells.length = a.cells.length + n ∧
        s.objs = [some p] by
    obtain ⟨s', l, h1, ⟨w', -, h2⟩, -⟩ := step_new rel_empty
    cases h1
    obtain ⟨s, w, p, h3, h4, h5, h6⟩ := key n _ w' none h2 rfl
    refine ⟨s, w, p, ?_, h4, by simpa [Own.empty] using h5, h6⟩
    have : ownStep .empty (.plain .new) = .ok (({ Own.empty with objs := Own.empty.objs ++ [some none] } : Own), []) := rfl
    simp only [ownRun, this, h3]
    rfl
  intro n
  induction n with
  | zero => intro a w p h1 h2; exact ⟨a, w, p, rfl, h1, rfl, h2⟩
  | succ n ih =>
    intro a w p h1 h2
    obtain ⟨s1, h3, ⟨⟨w1, -, h4⟩, -⟩, h5, h6⟩ := step_set h1 (o := 0) (p := p) (by simp [h2]) 0 0
    obtain ⟨s, w2, q, h7, h8, h9, h10⟩ := ih s1 w1 (some a.cells.length) h4 (by simp [h6, h2])
    refine ⟨s, w2, q, ?_, h8, by omega, h10⟩
    simp only [List.replicate_succ, ownRun, h3, h7]
    rfl

theorem length_of_range : ∀ (n : Nat) (l : List Nat), l.Pairwise (· > ·) → (∀ j, j ∈ l ↔ j < n) → l.length = n
  | 0, l, _, h => by
    cases l with
    | nil => rfl
    | cons x l => exact absurd ((h x).1 (by simp)) (Nat.not_lt_zero _)
  | n + 1, l, hp, h => by
    cases l with
    | nil => exact absurd ((h n).2 (Nat.lt_succ_self n)) (by simp)
    | cons x l =>
      obtain ⟨h1, h2⟩ := List.pairwise_cons.1 hp
      have hx : x = n := by
        have h3 := (h x).1 (by simp)
        rcases List.mem_cons.1 ((h n).2 (Nat.lt_succ_self n)) with h4 | h4
        · exact h4.symm
        · have := h1 n h4; omega
      subst hx
      rw [List.length_cons, length_of_range x l h2]
      intro j
      constructor
      · exact fun hj => h1 j hj
      · intro hj
        rcases List.mem_cons.1 ((h j).2 (Nat.lt_succ_of_lt hj)) with h4 | h4
        · omega
        · exact h4

/-- C145: the destructor of an object calls itself for one node inside the other, without bound: `n` calls deep after `n` values were set,
also for the same tag. -/
theorem C145_deep_violated (n : Nat) :
    ∃ s s' l, ownRun .empty (.plain .new :: List.replicate n (.plain (.set 0 0 0))) = .ok (s, []) ∧
      ownStep s (.destroy 0) = .ok (s', l) ∧ l.length = n := by
  obtain ⟨s, w, p, h1, h2, h3, h4⟩ := many_sets n
  have ho : s.objs[0]? = some (some p) := by simp [h4]
  obtain ⟨s', l, h5, h6⟩ := step_destroy h2 ho
  refine ⟨s, s', l, h1, h5, length_of_range n l h6.order fun j => ?_⟩
  have h7 := C145_when h1 h5
  rw [h7.2, ← C145_alive h1]
  obtain ⟨-, -, -, -, -, h8⟩ := own_rel h1
  rw [h8, h3]
  have hno : ¬ Held s' j := by
    have hobj : s'.objs = [none] := by
      simp only [ownStep, obj_ok ho, bind, Except.bind] at h5
      split at h5
      · cases h5
      · cases h5; simp [h4]
    intro hh
    induction hh with
    | @head o i h => rw [hobj] at h; cases o <;> simp at h
    | next _ _ _ ih => exact ih
  simp [hno]

end Verif.ExcInfo
