import Verif.ExcInfo.OwnerLemmas
namespace Verif.ExcInfo

/-- A reference to a node that exists, or to none. -/
def Fit (cs : Cells) (p : Option Nat) : Prop := ∀ i, p = some i → Live cs i

theorem Inv.fit_next {cs : Cells} {hs : List (Option Nat)} (hi : Inv cs hs) {i : Nat} {c : Counted} (h : cs[i]? = some (some c)) :
    Fit cs c.next := fun j hj => hi.live j (List.mem_append.2 (.inr (hj ▸ mem_nexts h)))

theorem Inv.fit {cs : Cells} {hs : List (Option Nat)} (hi : Inv cs hs) {p : Option Nat} (h : p ∈ hs) : Fit cs p :=
  fun _ hj => hi.live _ (List.mem_append.2 (.inl (hj ▸ h)))

/-- Another `next_` for a node. -/
theorem Inv.relink {cs : Cells} {hs : List (Option Nat)} {b : Option Nat} (hi : Inv cs (b :: hs)) {k : Nat} {c : Counted}
    (h : cs[k]? = some (some c)) (hb : ∀ j, b = some j → j < k) : Inv (cs.set k (some { c with next := b })) (c.next :: hs) := by
  have hn := nexts_set h (some { c with next := b })
  simp only [Option.bind_some] at hn
  have hp : (c.next :: hs ++ nexts (cs.set k (some { c with next := b }))).Perm (b :: hs ++ nexts cs) :=
    ((List.perm_middle (l₁ := hs)).symm.trans (hn.append_left hs)).trans List.perm_middle
  refine ⟨?_, ?_, ?_, ?_⟩
  · intro j c' hj
    rw [hp.count_eq]
    rw [List.getElem?_set] at hj
    split at hj
    · rename_i e; subst e
      split at hj
      · cases hj; exact hi.count k c h
      · cases hj
    · exact hi.count j c' hj
  · intro j hj
    rw [live_set h]
    exact hi.live j (hp.mem_iff.1 hj)
  · intro j c' hj
    rw [List.getElem?_set] at hj
    split at hj
    · split at hj
      · cases hj; exact hi.pos k c h
      · cases hj
    · exact hi.pos j c' hj
  · intro j c' m hj hm
    rw [List.getElem?_set] at hj
    split at hj
    · rename_i e; subst e
      split at hj
      · cases hj; exact hb m hm
      · cases hj
    · exact hi.down j c' m hj hm

theorem getElem?_snoc {α : Type} {l : List α} {x y : α} {j : Nat} (h : (l ++ [x])[j]? = some y) :
    l[j]? = some y ∨ j = l.length ∧ x = y := by
  by_cases hlt : j < l.length
  · rw [List.getElem?_append_left hlt] at h; exact .inl h
  · rw [List.getElem?_append_right (by omega)] at h
    have hj : j - l.length = 0 := by
      by_cases h0 : j - l.length = 0
      · exact h0
      · rw [List.getElem?_eq_none (by simp; omega)] at h; cases h
    rw [hj] at h
    exact .inr ⟨by omega, by simpa using h⟩

/-- A new node with one reference. -/
theorem Inv.alloc {cs : Cells} {hs : List (Option Nat)} (hi : Inv cs hs) (tag : Tag) (v : Val) :
    Inv (cs ++ [some ⟨tag, v, none, 1⟩]) (some cs.length :: hs) := by
  have hn : nexts (cs ++ [some ⟨tag, v, none, 1⟩]) = nexts cs ++ [none] := by simp [nexts]
  have hfree : some cs.length ∉ hs ++ nexts cs := fun h => Nat.lt_irrefl _ (live_lt (hi.live _ h))
  have hcount : ∀ j, (some cs.length :: hs ++ (nexts cs ++ [none])).count (some j) =
      (if j = cs.length then 1 else 0) + (hs ++ nexts cs).count (some j) := by
    intro j
    rw [List.cons_append, List.count_cons, ← List.append_assoc, List.count_append (l₁ := hs ++ nexts cs)]
    by_cases e : j = cs.length
    · subst e; simp; omega
    · simp [e, Ne.symm e]
  refine ⟨?_, ?_, ?_, ?_⟩
  · intro j c hj
    rw [hn, hcount]
    rcases getElem?_snoc hj with h | ⟨rfl, h⟩
    · rw [if_neg (Nat.ne_of_lt (live_lt ⟨c, h⟩)), hi.count j c h, Nat.zero_add]
    · cases h
      rw [if_pos rfl, List.count_eq_zero.2 hfree]
  · intro j hj
    rw [← List.count_pos_iff, hn, hcount] at hj
    by_cases e : j = cs.length
    · subst e; exact ⟨⟨tag, v, none, 1⟩, by simp⟩
    · rw [if_neg e, Nat.zero_add, List.count_pos_iff] at hj
      obtain ⟨c, hc⟩ := hi.live j hj
      exact ⟨c, by rw [List.getElem?_append_left (live_lt ⟨c, hc⟩)]; exact hc⟩
  · intro j c hj
    rcases getElem?_snoc hj with h | ⟨rfl, h⟩
    · exact hi.pos j c h
    · cases h; exact Nat.one_pos
  · intro j c m hj hm
    rcases getElem?_snoc hj with h | ⟨rfl, h⟩
    · exact hi.down j c m h hm
    · cases h; cases hm

/-- The model that destroys nothing shows the same. -/
structure Rel (s : Own) (w : World) : Prop where
  inv : Inv s.cells (heads s.objs)
  len : w.heap.length = s.cells.length
  node : ∀ (i : Nat) (c : Counted), s.cells[i]? = some (some c) → w.heap[i]? = some ⟨c.tag, c.val, c.next⟩
  objs : w.objs.length = s.objs.length
  head : ∀ (o : Nat) (h : Option Nat), s.objs[o]? = some (some h) → w.objs[o]? = some h

theorem seek_ok {cs : Cells} {hs : List (Option Nat)} (hi : Inv cs hs) {h : Heap}
    (hn : ∀ (i : Nat) (c : Counted), cs[i]? = some (some c) → h[i]? = some ⟨c.tag, c.val, c.next⟩) (tag : Tag) :
    ∀ (fuel : Nat) {p : Option Nat}, Fit cs p → (∀ i, p = some i → i < fuel) →
    ∃ r, seek cs tag fuel p = .ok r ∧ find h tag fuel p = some r ∧ Fit cs r
  | fuel, none, _, _ => ⟨none, by cases fuel <;> rfl, by cases fuel <;> rfl, fun _ h => by cases h⟩
  | 0, some i, _, hf => absurd (hf i rfl) (Nat.not_lt_zero _)
  | fuel + 1, some i, hp, hf => by
    obtain ⟨c, hc⟩ := hp i rfl
    simp only [seek, find, deref_ok hc, hn i c hc]
    by_cases ht : c.tag = tag
    · exact ⟨some i, by simp [ht], by simp [ht], fun j hj => by cases hj; exact ⟨c, hc⟩⟩
    · simp only [ht, if_false]
      exact seek_ok hi hn tag fuel (hi.fit_next hc) (fun j hj => by
        have := hi.down i c j hc hj
        have := hf i rfl
        omega)

theorem listing_ok {cs : Cells} {hs : List (Option Nat)} (hi : Inv cs hs) {h : Heap}
    (hn : ∀ (i : Nat) (c : Counted), cs[i]? = some (some c) → h[i]? = some ⟨c.tag, c.val, c.next⟩) :
    ∀ (fuel : Nat) {p : Option Nat}, Fit cs p → (∀ i, p = some i → i < fuel) →
    ∃ r, listing cs fuel p = .ok r ∧ entries h fuel p = some r
  | fuel, none, _, _ => ⟨[], by cases fuel <;> rfl, by cases fuel <;> rfl⟩
  | 0, some i, _, hf => absurd (hf i rfl) (Nat.not_lt_zero _)
  | fuel + 1, some i, hp, hf => by
    obtain ⟨c, hc⟩ := hp i rfl
    simp only [listing, entries, deref_ok hc, hn i c hc]
    obtain ⟨r, h1, h2⟩ := listing_ok hi hn fuel (hi.fit_next hc) (fun j hj => by
        have := hi.down i c j hc hj
        have := hf i rfl
        omega)
    exact ⟨(c.tag, c.val) :: r, by rw [h1]; rfl, by rw [h2]; rfl⟩

theorem seekPrev_ok {cs : Cells} {hs : List (Option Nat)} (hi : Inv cs hs) {h : Heap}
    (hn : ∀ (i : Nat) (c : Counted), cs[i]? = some (some c) → h[i]? = some ⟨c.tag, c.val, c.next⟩) (tag : Tag) :
    ∀ (fuel : Nat) {q p : Option Nat}, Fit cs p → (∀ i, p = some i → i < fuel) →
    ∃ r, seekPrev cs tag fuel q p = .ok r ∧ findPrev h tag fuel q p = some r ∧
      ∀ prev i, r = some (prev, i) → Live cs i ∧ ((prev = q ∧ p = some i) ∨
        ∃ k ck, prev = some k ∧ cs[k]? = some (some ck) ∧ ck.next = some i)
  | fuel, q, none, _, _ => ⟨none, by cases fuel <;> rfl, by cases fuel <;> rfl, fun _ _ h => by cases h⟩
  | 0, _, some i, _, hf => absurd (hf i rfl) (Nat.not_lt_zero _)
  | fuel + 1, q, some i, hp, hf => by
    obtain ⟨c, hc⟩ := hp i rfl
    simp only [seekPrev, findPrev, deref_ok hc, hn i c hc]
    by_cases ht : c.tag = tag
    · refine ⟨some (q, i), by simp [ht], by simp [ht], fun prev j hj => ?_⟩
      cases hj
      exact ⟨⟨c, hc⟩, .inl ⟨rfl, rfl⟩⟩
    · simp only [ht, if_false]
      obtain ⟨r, h1, h2, h3⟩ := seekPrev_ok hi hn tag fuel (q := some i) (hi.fit_next hc) (fun j hj => by
        have := hi.down i c j hc hj
        have := hf i rfl
        omega)
      refine ⟨r, h1, h2, fun prev j hj => ?_⟩
      obtain ⟨h4, h5⟩ := h3 prev j hj
      refine ⟨h4, .inr ?_⟩
      rcases h5 with ⟨h5, h6⟩ | h5
      · exact ⟨i, c, h5, hc, h6⟩
      · exact h5

theorem Fit.lt {cs : Cells} {p : Option Nat} (h : Fit cs p) : ∀ i, p = some i → i < cs.length := fun i hi => live_lt (h i hi)

/-! ### Operations -/

/-- The objects an operation is applied to. -/
def uses : OwnOp → List Nat
  | .plain .new => []
  | .plain (.set o _ _) => [o]
  | .plain (.unset o _) => [o]
  | .plain (.copy o) => [o]
  | .plain (.assign o p) => [o, p]
  | .plain (.move o) => [o]
  | .plain (.modify o _ _) => [o]
  | .setFails o => [o]
  | .moveAssign o p => [p, o]
  | .destroy o => [o]

/-- The operations where nothing is ever destroyed. -/
def forget (w : World) : OwnOp → Option World
  | .plain op => step w op
  | .setFails _ => some w
  | .moveAssign o p =>
    match w.objs[p]? with
    | none => none
    | some head => some { w with objs := (w.objs.set p none).set o head }
  | .destroy _ => some w

/-- What an operation does if the objects exist. -/
structure Stepped (s : Own) (w : World) (op : OwnOp) (s' : Own) (l : List Nat) : Prop where
  rel : ∃ w', forget w op = some w' ∧ Rel s' w'
  live : ∀ j, Live s'.cells j ↔ (Live s.cells j ∨ s.cells.length ≤ j ∧ j < s'.cells.length) ∧ j ∉ l
  was : ∀ j ∈ l, Live s.cells j
  order : l.Pairwise (· > ·)

theorem rel_heads {l : List (Option (Option Nat))} {m : List (Option Nat)} (hl : m.length = l.length)
    (h : ∀ (o : Nat) (p : Option Nat), l[o]? = some (some p) → m[o]? = some p) {o : Nat} {b : Option Nat} :
    ∀ (q : Nat) (p : Option Nat), (l.set o (some b))[q]? = some (some p) → (m.set o b)[q]? = some p := by
  intro q p hq
  rw [List.getElem?_set] at hq ⊢
  split at hq
  · rename_i e
    split at hq
    · cases hq; rw [if_pos e, if_pos (by omega)]
    · cases hq
  · rename_i e
    rw [if_neg e]; exact h q p hq

theorem rel_heads_add {l : List (Option (Option Nat))} {m : List (Option Nat)} (hl : m.length = l.length)
    (h : ∀ (o : Nat) (p : Option Nat), l[o]? = some (some p) → m[o]? = some p) {b : Option Nat} :
    ∀ (q : Nat) (p : Option Nat), (l ++ [some b])[q]? = some (some p) → (m ++ [b])[q]? = some p := by
  intro q p hq
  rcases getElem?_snoc hq with h1 | ⟨rfl, h1⟩
  · have := h q p h1
    rw [List.getElem?_append_left (List.getElem?_eq_some_iff.1 this).1]; exact this
  · cases h1; rw [← hl]; simp

theorem rel_kill {l : List (Option (Option Nat))} {m : List (Option Nat)}
    (h : ∀ (o : Nat) (p : Option Nat), l[o]? = some (some p) → m[o]? = some p) {o : Nat} :
    ∀ (q : Nat) (p : Option Nat), (l.set o none)[q]? = some (some p) → m[q]? = some p := by
  intro q p hq
  rw [List.getElem?_set] at hq
  split at hq
  · split at hq <;> cases hq
  · exact h q p hq

theorem obj_ok {s : Own} {o : Nat} {h : Option Nat} (ho : s.objs[o]? = some (some h)) : obj s o = .ok h := by simp [obj, ho]

theorem Rel.sub {s : Own} {w : World} (h : Rel s w) {cs : Cells} (hs : Within cs s.cells) :
    ∀ (i : Nat) (c : Counted), cs[i]? = some (some c) → w.heap[i]? = some ⟨c.tag, c.val, c.next⟩ := by
  intro i c hc
  obtain ⟨c', h1, h2, h3, h4⟩ := hs.same i c hc
  rw [h2, h3, h4]; exact h.node i c' h1

theorem live_nil {cs cs' : Cells} (hl : cs'.length = cs.length) {l : List Nat} (h : ∀ j, Live cs' j ↔ Live cs j ∧ j ∉ l) :
    ∀ j, Live cs' j ↔ (Live cs j ∨ cs.length ≤ j ∧ j < cs'.length) ∧ j ∉ l := by
  intro j
  rw [h j]
  constructor
  · exact fun h => ⟨.inl h.1, h.2⟩
  · rintro ⟨h1 | h1, h2⟩
    · exact ⟨h1, h2⟩
    · omega

theorem step_new {s : Own} {w : World} (h : Rel s w) :
    ∃ s' l, ownStep s (.plain .new) = .ok (s', l) ∧ Stepped s w (.plain .new) s' l := by
  refine ⟨_, [], rfl, ⟨_, rfl, ?_⟩, live_nil rfl (by simp), by simp, .nil⟩
  exact ⟨h.inv.null.perm (heads_add s.objs (some none)), h.len, h.node, by simp [h.objs], rel_heads_add h.objs h.head⟩

theorem step_copy {s : Own} {w : World} (h : Rel s w) {o : Nat} {p : Option Nat} (ho : s.objs[o]? = some (some p)) :
    ∃ s' l, ownStep s (.plain (.copy o)) = .ok (s', l) ∧ Stepped s w (.plain (.copy o)) s' l := by
  obtain ⟨cs, h1, h2, h3, h4⟩ := retain_ok h.inv (h.inv.fit (heads_mem ho))
  refine ⟨⟨cs, s.objs ++ [some p]⟩, [], ?_, ⟨⟨w.heap, w.objs ++ [p]⟩, ?_, ?_⟩, live_nil h3.len (by simpa using h4), by simp, .nil⟩
  · simp only [ownStep, obj_ok ho, bind, Except.bind, h1]; rfl
  · simp [forget, step, h.head o p ho]
  · exact ⟨h2.perm (heads_add s.objs (some p)), h.len.trans h3.len.symm, h.sub h3, by simp [h.objs], rel_heads_add h.objs h.head⟩

theorem step_move {s : Own} {w : World} (h : Rel s w) {o : Nat} {p : Option Nat} (ho : s.objs[o]? = some (some p)) :
    ∃ s' l, ownStep s (.plain (.move o)) = .ok (s', l) ∧ Stepped s w (.plain (.move o)) s' l := by
  refine ⟨⟨s.cells, s.objs.set o (some none) ++ [some p]⟩, [], ?_, ⟨⟨w.heap, w.objs.set o none ++ [p]⟩, ?_, ?_⟩,
    live_nil rfl (by simp), by simp, .nil⟩
  · simp only [ownStep, obj_ok ho, bind, Except.bind]; rfl
  · simp [forget, step, h.head o p ho]
  · have h1 := heads_set ho (some none)
    exact ⟨(h.inv.null.perm h1.symm).perm (heads_add _ (some p)), h.len, h.node, by simp [h.objs],
      rel_heads_add (by simp [h.objs]) (rel_heads h.objs h.head)⟩

theorem step_assign {s : Own} {w : World} (h : Rel s w) {o q : Nat} {p old : Option Nat} (ho : s.objs[o]? = some (some old))
    (hq : s.objs[q]? = some (some p)) :
    ∃ s' l, ownStep s (.plain (.assign o q)) = .ok (s', l) ∧ Stepped s w (.plain (.assign o q)) s' l := by
  obtain ⟨cs, h1, h2, h3, h4⟩ := retain_ok h.inv (h.inv.fit (heads_mem hq))
  have h5 : Inv cs (old :: heads (s.objs.set o (some p))) := h2.perm (heads_set ho (some p)).symm
  obtain ⟨cs', l, g1, g2, g3, g4, g5, g6, -⟩ := release_ok cs.length h5 (h5.fit (by simp)).lt
  refine ⟨⟨cs', s.objs.set o (some p)⟩, l, ?_, ⟨⟨w.heap, w.objs.set o p⟩, ?_, ?_⟩,
    live_nil (g3.len.trans h3.len) (fun j => by rw [g4, h4]), fun j hj => (h4 j).1 (g5 j hj), g6⟩
  · simp only [ownStep, obj_ok ho, obj_ok hq, bind, Except.bind, h1, g1]; rfl
  · simp [forget, step, h.head o _ ho, h.head q _ hq]
  · exact ⟨g2, h.len.trans (g3.len.trans h3.len).symm, h.sub (g3.trans h3), by simp [h.objs], rel_heads h.objs h.head⟩

theorem step_moveAssign {s : Own} {w : World} (h : Rel s w) {o q : Nat} {p old : Option Nat} (ho : s.objs[o]? = some (some old))
    (hq : s.objs[q]? = some (some p)) :
    ∃ s' l, ownStep s (.moveAssign o q) = .ok (s', l) ∧ Stepped s w (.moveAssign o q) s' l := by
  have ho2 : ∃ old', (s.objs.set q (some none))[o]? = some (some old') := by
    rw [List.getElem?_set]
    split
    · rename_i e; subst e
      exact ⟨none, by rw [if_pos (List.getElem?_eq_some_iff.1 ho).1]⟩
    · exact ⟨old, ho⟩
  obtain ⟨old', ho'⟩ := ho2
  have h2 : Inv s.cells (p :: heads (s.objs.set q (some none))) := h.inv.null.perm (heads_set hq (some none)).symm
  have h5 : Inv s.cells (old' :: heads ((s.objs.set q (some none)).set o (some p))) := h2.perm (heads_set ho' (some p)).symm
  obtain ⟨cs', l, g1, g2, g3, g4, g5, g6, -⟩ := release_ok s.cells.length h5 (h5.fit (by simp)).lt
  refine ⟨⟨cs', (s.objs.set q (some none)).set o (some p)⟩, l, ?_, ⟨⟨w.heap, (w.objs.set q none).set o p⟩, ?_, ?_⟩,
    live_nil g3.len g4, g5, g6⟩
  · have : obj { s with objs := s.objs.set q (some none) } o = .ok old' := obj_ok ho'
    simp only [ownStep, obj_ok hq, bind, Except.bind, this, g1]; rfl
  · simp [forget, h.head q _ hq]
  · exact ⟨g2, h.len.trans g3.len.symm, h.sub g3, by simp [h.objs], rel_heads (by simp [h.objs]) (rel_heads h.objs h.head)⟩

theorem step_destroy {s : Own} {w : World} (h : Rel s w) {o : Nat} {p : Option Nat} (ho : s.objs[o]? = some (some p)) :
    ∃ s' l, ownStep s (.destroy o) = .ok (s', l) ∧ Stepped s w (.destroy o) s' l := by
  have h5 : Inv s.cells (p :: heads (s.objs.set o none)) := h.inv.null.perm (heads_set ho none).symm
  obtain ⟨cs', l, g1, g2, g3, g4, g5, g6, -⟩ := release_ok s.cells.length h5 (h5.fit (by simp)).lt
  refine ⟨⟨cs', s.objs.set o none⟩, l, ?_, ⟨w, rfl, ?_⟩, live_nil g3.len g4, g5, g6⟩
  · simp only [ownStep, obj_ok ho, bind, Except.bind, g1]; rfl
  · exact ⟨g2, h.len.trans g3.len.symm, h.sub g3, by simp [h.objs], rel_kill h.head⟩

theorem step_setFails {s : Own} {w : World} (h : Rel s w) {o : Nat} {p : Option Nat} (ho : s.objs[o]? = some (some p)) :
    ∃ s' l, ownStep s (.setFails o) = .ok (s', l) ∧ Stepped s w (.setFails o) s' l :=
  ⟨s, [], by simp only [ownStep, obj_ok ho, bind, Except.bind]; rfl, ⟨w, rfl, h⟩, live_nil rfl (by simp), by simp, .nil⟩

theorem step_modify {s : Own} {w : World} (h : Rel s w) {o : Nat} {p : Option Nat} (ho : s.objs[o]? = some (some p)) (tag : Tag)
    (v : Val) :
    ∃ s' l, ownStep s (.plain (.modify o tag v)) = .ok (s', l) ∧ Stepped s w (.plain (.modify o tag v)) s' l := by
  have hf := h.inv.fit (heads_mem ho)
  obtain ⟨r, h1, h2, h3⟩ := seek_ok h.inv h.node tag s.cells.length hf hf.lt
  rw [← h.len] at h2
  cases r with
  | none =>
    refine ⟨s, [], by simp only [ownStep, obj_ok ho, bind, Except.bind, h1]; rfl, ⟨w, ?_, h⟩, live_nil rfl (by simp), by simp, .nil⟩
    simp [forget, step, h.head o p ho, h2]
  | some i =>
    obtain ⟨c, hc⟩ := h3 i rfl
    have hn := nexts_same (c' := { c with val := v }) hc rfl
    have hi : Inv (s.cells.set i (some { c with val := v })) (heads s.objs) := by
      have hp : ∀ j, (heads s.objs ++ nexts (s.cells.set i (some { c with val := v }))).count (some j) =
          (heads s.objs ++ nexts s.cells).count (some j) := fun j => (hn.append_left _).count_eq _
      refine ⟨?_, ?_, ?_, ?_⟩
      · intro j c' hj
        rw [hp]
        rw [List.getElem?_set] at hj
        split at hj
        · rename_i e; subst e
          split at hj
          · cases hj; exact h.inv.count i c hc
          · cases hj
        · exact h.inv.count j c' hj
      · intro j hj
        rw [live_set hc]
        apply h.inv.live
        rw [← List.count_pos_iff] at hj ⊢
        rwa [hp] at hj
      · intro j c' hj
        rw [List.getElem?_set] at hj
        split at hj
        · split at hj
          · cases hj; exact h.inv.pos i c hc
          · cases hj
        · exact h.inv.pos j c' hj
      · intro j c' m hj hm
        rw [List.getElem?_set] at hj
        split at hj
        · rename_i e; subst e
          split at hj
          · cases hj; exact h.inv.down i c m hc hm
          · cases hj
        · exact h.inv.down j c' m hj hm
    refine ⟨⟨s.cells.set i (some { c with val := v }), s.objs⟩, [], ?_,
      ⟨⟨w.heap.set i ⟨c.tag, v, c.next⟩, w.objs⟩, ?_, ?_⟩, live_nil (by simp) (fun j => by rw [live_set hc]; simp), by simp, .nil⟩
    · simp only [ownStep, obj_ok ho, bind, Except.bind, h1, deref_ok hc]; rfl
    · simp [forget, step, h.head o p ho, h2, h.node i c hc]
    · refine ⟨hi, by simp [h.len], ?_, h.objs, h.head⟩
      intro j c' hj
      simp only [List.getElem?_set] at hj ⊢
      split at hj
      · rename_i e
        split at hj
        · rename_i hl
          cases hj; rw [if_pos e, if_pos (by rw [h.len]; exact hl)]
        · cases hj
      · rename_i e
        rw [if_neg e]; exact h.node j c' hj

theorem step_set {s : Own} {w : World} (h : Rel s w) {o : Nat} {p : Option Nat} (ho : s.objs[o]? = some (some p)) (tag : Tag)
    (v : Val) :
    ∃ s', ownStep s (.plain (.set o tag v)) = .ok (s', []) ∧ Stepped s w (.plain (.set o tag v)) s' [] ∧
      s'.cells.length = s.cells.length + 1 ∧ s'.objs = s.objs.set o (some (some s.cells.length)) := by
  have hf := h.inv.fit (heads_mem ho)
  have i0 := h.inv.alloc tag v
  obtain ⟨cs1, a1, a2, a3, a4⟩ := retain_ok (p := p) i0 (i0.fit (List.mem_cons_of_mem _ (heads_mem ho)))
  obtain ⟨c, hc⟩ : Live cs1 s.cells.length := (a4 _).2 ⟨⟨tag, v, none, 1⟩, by simp⟩
  have hcn : c.tag = tag ∧ c.val = v ∧ c.next = none := by
    obtain ⟨c', h1, h2, h3, h4⟩ := a3.same _ c hc
    rw [List.getElem?_append_right (Nat.le_refl _), Nat.sub_self] at h1
    cases h1
    exact ⟨h2, h3, h4⟩
  have i2 : Inv (cs1.set s.cells.length (some { c with next := p })) (some s.cells.length :: heads s.objs) := by
    have := Inv.relink a2 hc (fun j hj => live_lt (hf j hj))
    rw [hcn.2.2] at this
    exact this.drop
  obtain ⟨cs3, b1, b2, b3, b4⟩ := retain_ok (p := some s.cells.length) i2 (i2.fit (by simp))
  have i3 : Inv cs3 (p :: some s.cells.length :: heads (s.objs.set o (some (some s.cells.length)))) := by
    refine b2.perm ?_
    exact ((heads_set ho (some (some s.cells.length))).symm.cons _).trans (List.Perm.swap ..)
  obtain ⟨cs4, l, d1, d2, d3, d4, -, -, -, d8⟩ := release_ok cs3.length i3 (i3.fit (by simp)).lt
  have hl : l = [] := by
    cases p with
    | none =>
      have : release cs3 cs3.length none = .ok (cs3, []) := by cases cs3.length <;> rfl
      rw [this] at d1; cases d1; rfl
    | some j =>
      refine d8 j rfl (List.mem_append.2 (.inr ?_))
      obtain ⟨c3, hc3⟩ : Live cs3 s.cells.length := i3.live _ (by simp)
      obtain ⟨c2, e1, -, -, e4⟩ := b3.same _ c3 hc3
      rw [set_get hc] at e1
      cases e1
      have := mem_nexts hc3
      rwa [e4] at this
  subst hl
  obtain ⟨cs5, l', f1, f2, f3, f4, -, -, -, f8⟩ := release_ok cs4.length d2 (d2.fit (by simp)).lt
  have hl' : l' = [] := by
    refine f8 _ rfl (List.mem_append.2 (.inl (heads_mem (o := o) ?_)))
    rw [List.getElem?_set, if_pos rfl, if_pos (List.getElem?_eq_some_iff.1 ho).1]
  subst hl'
  have hlen : cs5.length = s.cells.length + 1 := by
    rw [f3.len, d3.len, b3.len, List.length_set, a3.len]; simp
  have hlive : ∀ j, Live cs5 j ↔ Live (s.cells ++ [some ⟨tag, v, none, 1⟩]) j := by
    intro j
    rw [f4, d4, b4, live_set hc, a4]; simp
  have hnew : ∀ j, Live (s.cells ++ [some ⟨tag, v, none, 1⟩]) j ↔ Live s.cells j ∨ j = s.cells.length := by
    intro j
    constructor
    · rintro ⟨c', h1⟩
      rcases getElem?_snoc h1 with h1 | ⟨h1, -⟩
      · exact .inl ⟨c', h1⟩
      · exact .inr h1
    · rintro (⟨c', h1⟩ | rfl)
      · exact ⟨c', by rw [List.getElem?_append_left (live_lt ⟨c', h1⟩)]; exact h1⟩
      · exact ⟨⟨tag, v, none, 1⟩, by simp⟩
  refine ⟨⟨cs5, s.objs.set o (some (some s.cells.length))⟩, ?_,
    ⟨⟨⟨w.heap ++ [⟨tag, v, p⟩], w.objs.set o (some w.heap.length)⟩, ?_, ?_⟩, ?_, by simp, .nil⟩, hlen, rfl⟩
  · simp only [ownStep, setStep, obj_ok ho, bind, Except.bind, a1, deref_ok hc, b1, d1, f1]; rfl
  · simp [forget, step, h.head o p ho]
  · refine ⟨f2, by simp [h.len, hlen], ?_, by simp [h.objs], ?_⟩
    · intro j c5 hj
      obtain ⟨c2, e1, e2, e3, e4⟩ := ((f3.trans d3).trans b3).same j c5 hj
      rw [e2, e3, e4]
      rw [List.getElem?_set] at e1
      split at e1
      · rename_i e; subst e
        split at e1
        · cases e1
          rw [← h.len]
          simp [hcn.1, hcn.2.1]
        · cases e1
      · rename_i e
        obtain ⟨c1, g1, g2, g3, g4⟩ := a3.same j c2 e1
        rcases getElem?_snoc g1 with g1 | ⟨g1, -⟩
        · rw [g2, g3, g4]
          have := h.node j c1 g1
          rw [List.getElem?_append_left (List.getElem?_eq_some_iff.1 this).1]; exact this
        · exact absurd g1.symm e
    · rw [h.len]; exact rel_heads h.objs h.head
  · intro j
    rw [hlive, hnew]
    simp only [hlen, List.not_mem_nil, not_false_eq_true, and_true]
    constructor
    · rintro (h1 | rfl)
      · exact .inl h1
      · exact .inr (by omega)
    · rintro (h1 | h1)
      · exact .inl h1
      · exact .inr (by omega)

theorem step_unset {s : Own} {w : World} (h : Rel s w) {o : Nat} {p : Option Nat} (ho : s.objs[o]? = some (some p)) (tag : Tag) :
    ∃ s' l, ownStep s (.plain (.unset o tag)) = .ok (s', l) ∧ Stepped s w (.plain (.unset o tag)) s' l := by
  have hf := h.inv.fit (heads_mem ho)
  obtain ⟨r, h1, h2, h3⟩ := seekPrev_ok h.inv h.node tag s.cells.length (q := none) hf hf.lt
  rw [← h.len] at h2
  cases r with
  | none =>
    refine ⟨s, [], by simp only [ownStep, unsetStep, obj_ok ho, bind, Except.bind, h1]; rfl, ⟨w, ?_, h⟩, live_nil rfl (by simp), by simp, .nil⟩
    simp [forget, step, h.head o p ho, h2]
  | some r =>
    obtain ⟨prev, i⟩ := r
    obtain ⟨⟨c, hc⟩, h4⟩ := h3 prev i rfl
    obtain ⟨cs1, a1, a2, a3, a4⟩ := retain_ok h.inv (h.inv.fit_next hc)
    rcases h4 with ⟨rfl, rfl⟩ | ⟨k, ck, rfl, hk, hki⟩
    · have i2 : Inv cs1 (some i :: heads (s.objs.set o (some c.next))) := a2.perm (heads_set ho (some c.next)).symm
      obtain ⟨cs2, l, g1, g2, g3, g4, g5, g6, -⟩ := release_ok cs1.length i2 (i2.fit (by simp)).lt
      refine ⟨⟨cs2, s.objs.set o (some c.next)⟩, l, ?_, ⟨⟨w.heap, w.objs.set o c.next⟩, ?_, ?_⟩,
        live_nil (g3.len.trans a3.len) (fun j => by rw [g4, a4]), fun j hj => (a4 j).1 (g5 j hj), g6⟩
      · simp only [ownStep, unsetStep, obj_ok ho, bind, Except.bind, h1, deref_ok hc, a1, g1]; rfl
      · simp [forget, step, h.head o _ ho, h2, h.node i c hc]
      · exact ⟨g2, h.len.trans (g3.len.trans a3.len).symm, h.sub (g3.trans a3), by simp [h.objs], rel_heads h.objs h.head⟩
    · obtain ⟨cp, hcp⟩ : Live cs1 k := (a4 k).2 ⟨ck, hk⟩
      have hcpn : cp.tag = ck.tag ∧ cp.val = ck.val ∧ cp.next = some i := by
        obtain ⟨c', e1, e2, e3, e4⟩ := a3.same k cp hcp
        rw [hk] at e1; cases e1
        exact ⟨e2, e3, e4.trans hki⟩
      have i2 : Inv (cs1.set k (some { cp with next := c.next })) (some i :: heads s.objs) := by
        have := Inv.relink a2 hcp (fun j hj => by
          have := h.inv.down i c j hc hj
          have := h.inv.down k ck i hk hki
          omega)
        rwa [hcpn.2.2] at this
      have hlen1 : (cs1.set k (some { cp with next := c.next })).length = cs1.length := by simp
      obtain ⟨cs2, l, g1, g2, g3, g4, g5, g6, -⟩ := release_ok (cs1.set k (some { cp with next := c.next })).length i2 (i2.fit (by simp)).lt
      rw [hlen1] at g1
      have hl2 : cs2.length = s.cells.length := g3.len.trans (hlen1.trans a3.len)
      refine ⟨⟨cs2, s.objs⟩, l, ?_, ⟨⟨w.heap.set k ⟨ck.tag, ck.val, c.next⟩, w.objs⟩, ?_, ?_⟩,
        live_nil hl2 (fun j => by rw [g4, live_set hcp, a4]),
        fun j hj => (a4 j).1 ((live_set hcp).1 (g5 j hj)), g6⟩
      · simp only [ownStep, unsetStep, obj_ok ho, bind, Except.bind, h1, deref_ok hc, a1, deref_ok hcp, g1]; rfl
      · simp [forget, step, h.head o _ ho, h2, h.node i c hc, h.node k ck hk]
      · refine ⟨g2, by simp [h.len, hl2], ?_, h.objs, h.head⟩
        intro j c2 hj
        obtain ⟨c1, e1, e2, e3, e4⟩ := g3.same j c2 hj
        rw [e2, e3, e4]
        simp only [List.getElem?_set] at e1 ⊢
        split at e1
        · rename_i e; subst e
          split at e1
          · cases e1
            rw [if_pos rfl, if_pos (by rw [h.len]; exact live_lt ⟨ck, hk⟩)]
            simp [hcpn.1, hcpn.2.1]
          · cases e1
        · rename_i e
          rw [if_neg e]
          exact h.sub a3 j c1 e1

theorem own_step {s : Own} {w : World} (h : Rel s w) (op : OwnOp) (hu : ∀ o ∈ uses op, ∃ p, s.objs[o]? = some (some p)) :
    ∃ s' l, ownStep s op = .ok (s', l) ∧ Stepped s w op s' l := by
  match op with
  | .plain .new => exact step_new h
  | .plain (.set o tag v) =>
    obtain ⟨p, hp⟩ := hu o (by simp [uses])
    obtain ⟨s', h1, h2, -⟩ := step_set h hp tag v
    exact ⟨s', [], h1, h2⟩
  | .plain (.unset o tag) => obtain ⟨p, hp⟩ := hu o (by simp [uses]); exact step_unset h hp tag
  | .plain (.copy o) => obtain ⟨p, hp⟩ := hu o (by simp [uses]); exact step_copy h hp
  | .plain (.assign o q) =>
    obtain ⟨p, hp⟩ := hu o (by simp [uses])
    obtain ⟨r, hr⟩ := hu q (by simp [uses])
    exact step_assign h hp hr
  | .plain (.move o) => obtain ⟨p, hp⟩ := hu o (by simp [uses]); exact step_move h hp
  | .plain (.modify o tag v) => obtain ⟨p, hp⟩ := hu o (by simp [uses]); exact step_modify h hp tag v
  | .setFails o => obtain ⟨p, hp⟩ := hu o (by simp [uses]); exact step_setFails h hp
  | .moveAssign o q =>
    obtain ⟨p, hp⟩ := hu o (by simp [uses])
    obtain ⟨r, hr⟩ := hu q (by simp [uses])
    exact step_moveAssign h hp hr
  | .destroy o => obtain ⟨p, hp⟩ := hu o (by simp [uses]); exact step_destroy h hp

theorem obj_error {s : Own} {o : Nat} (h : ¬ ∃ p, s.objs[o]? = some (some p)) : obj s o = .error .noObject := by
  simp only [obj]
  split
  · rename_i p hp; exact absurd ⟨p, hp⟩ h
  · rfl

theorem own_missing {s : Own} {op : OwnOp} (hu : ¬ ∀ o ∈ uses op, ∃ p, s.objs[o]? = some (some p)) :
    ownStep s op = .error .noObject := by
  match op with
  | .plain .new => simp [uses] at hu
  | .plain (.set o tag v) => simp only [ownStep, setStep, obj_error (by simpa [uses] using hu)]; rfl
  | .plain (.unset o tag) => simp only [ownStep, unsetStep, obj_error (by simpa [uses] using hu)]; rfl
  | .plain (.copy o) => simp only [ownStep, obj_error (by simpa [uses] using hu)]; rfl
  | .plain (.assign o q) =>
    by_cases ho : ∃ p, s.objs[o]? = some (some p)
    · obtain ⟨p, hp⟩ := ho
      have hq : ¬ ∃ p, s.objs[q]? = some (some p) := fun hq => hu (by simpa [uses] using ⟨⟨p, hp⟩, hq⟩)
      simp only [ownStep, obj_ok hp, obj_error hq]; rfl
    · simp only [ownStep, obj_error ho]; rfl
  | .plain (.move o) => simp only [ownStep, obj_error (by simpa [uses] using hu)]; rfl
  | .plain (.modify o tag v) => simp only [ownStep, obj_error (by simpa [uses] using hu)]; rfl
  | .setFails o => simp only [ownStep, obj_error (by simpa [uses] using hu)]; rfl
  | .moveAssign o q =>
    by_cases hq : ∃ p, s.objs[q]? = some (some p)
    · obtain ⟨p, hp⟩ := hq
      have ho : ¬ ∃ p, s.objs[o]? = some (some p) := fun ho => hu (by simpa [uses] using ⟨⟨p, hp⟩, ho⟩)
      have ho' : ¬ ∃ p, (s.objs.set q (some none))[o]? = some (some p) := by
        rintro ⟨r, hr⟩
        rw [List.getElem?_set] at hr
        split at hr
        · rename_i e; subst e; exact ho ⟨p, hp⟩
        · exact ho ⟨r, hr⟩
      have : obj { s with objs := s.objs.set q (some none) } o = .error .noObject := obj_error ho'
      simp only [ownStep, obj_ok hp, bind, Except.bind, this]
    · simp only [ownStep, obj_error hq]; rfl
  | .destroy o => simp only [ownStep, obj_error (by simpa [uses] using hu)]; rfl

end Verif.ExcInfo
