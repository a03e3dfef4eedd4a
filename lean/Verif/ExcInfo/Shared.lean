import Verif.ExcInfo.Props

/-! C64 for all histories: what copies of an `exception_info` share. -/

namespace Verif.ExcInfo

/-! ### Specification

An object is a stack of cells.  A copy has the same cells as the original, so that what is
done to a cell is seen by all objects that have it. -/

/-- A value with the tag, made by the `id`-th `set` of the history. -/
structure Cell where
  id : Nat
  tag : Tag
  val : Val
  deriving DecidableEq

/-- The number of values set so far, and the stacks of the objects, newest value first. -/
structure Sheet where
  made : Nat
  stacks : List (List Cell)

/-- The stack without the value below cell `k`; the stack itself if it does not have `k`. -/
def dropBelow (k : Nat) : List Cell → List Cell
  | [] => []
  | c :: l => if c.id = k then c :: l.tail else c :: dropBelow k l

/-- Cell `k` gets the value. -/
def write (k : Nat) (v : Val) (c : Cell) : Cell := if c.id = k then { c with val := v } else c

/-- The cells above the newest value with the tag, and that value with what is below. -/
def above (tag : Tag) (l : List Cell) : List Cell × List Cell :=
  (l.takeWhile fun c => c.tag ≠ tag, l.dropWhile fun c => c.tag ≠ tag)

/-- What an operation does to the stacks.  `none`: no such object. -/
def sharedStep (s : Sheet) : Op → Option Sheet
  | .new => some { s with stacks := s.stacks ++ [[]] }
  | .set o tag v => (s.stacks[o]?).map fun l =>
      ⟨s.made + 1, s.stacks.set o (⟨s.made, tag, v⟩ :: l)⟩
  | .unset o tag => (s.stacks[o]?).map fun l =>
      match above tag l with
      | (_, []) => s
      | (a, _ :: rest) =>
        match a.getLast? with
        | none => { s with stacks := s.stacks.set o rest }
        | some k => { s with stacks := s.stacks.map (dropBelow k.id) }
  | .copy o => (s.stacks[o]?).map fun l => { s with stacks := s.stacks ++ [l] }
  | .assign o p => (s.stacks[o]?).bind fun _ => (s.stacks[p]?).map fun l =>
      { s with stacks := s.stacks.set o l }
  | .move o => (s.stacks[o]?).map fun l => { s with stacks := s.stacks.set o [] ++ [l] }
  | .modify o tag v => (s.stacks[o]?).map fun l =>
      match above tag l with
      | (_, []) => s
      | (_, c :: _) => { s with stacks := s.stacks.map (·.map (write c.id v)) }

def sharedRun : Sheet → List Op → Option Sheet
  | s, [] => some s
  | s, op :: ops => (sharedStep s op).bind (sharedRun · ops)

/-- The entries of a stack. -/
def shown (l : List Cell) : Stack := l.map fun c => (c.tag, c.val)

/-! ### Chains of nodes are stacks of cells -/

inductive Chain (h : Heap) : Option Nat → List Cell → Prop
  | nil : Chain h none []
  | cons {i n l} : h[i]? = some n → Chain h n.next l → Chain h (some i) (⟨i, n.tag, n.val⟩ :: l)

theorem chain_lt {h : Heap} (ho : Ordered h) {p : Option Nat} {l : List Cell} (a : Chain h p l) :
    (∀ i, p = some i → ∀ c ∈ l, c.id ≤ i) ∧ (∀ c ∈ l, c.id < h.length) ∧ (l.length ≤ h.length) ∧
    ∀ i, p = some i → l.length ≤ i + 1 := by
  induction a with
  | nil => simp
  | @cons i n l hn hr ih =>
    obtain ⟨h1, h2, h3, h4⟩ := ih
    have hi : i < h.length := by rw [List.getElem?_eq_some_iff] at hn; exact hn.1
    have hlen : l.length ≤ i := by
      cases hnx : n.next with
      | none => rw [hnx] at hr; cases hr; simp
      | some k => have := h4 k hnx; have := ho i n hn k hnx; omega
    refine ⟨?_, ?_, by simp; omega, ?_⟩
    · rintro j hj c hc
      cases hj
      rcases List.mem_cons.mp hc with rfl | hc
      · simp
      · cases hnx : n.next with
        | none => rw [hnx] at hr; cases hr; simp at hc
        | some k => have := h1 k hnx c hc; have := ho i n hn k hnx; omega
    · intro c hc
      rcases List.mem_cons.mp hc with rfl | hc
      · exact hi
      · exact h2 c hc
    · rintro j hj; cases hj; simp; omega

theorem chain_below {h : Heap} (ho : Ordered h) {i : Nat} {n : Node} {l : List Cell} (hn : h[i]? = some n)
    (a : Chain h n.next l) : ∀ c ∈ l, c.id < i := by
  intro c hc
  cases hnx : n.next with
  | none => rw [hnx] at a; cases a; simp at hc
  | some k =>
    have := (chain_lt ho a).1 k hnx c hc
    have := ho i n hn k hnx
    omega

theorem chain_append {h : Heap} {p : Option Nat} {l : List Cell} (a : Chain h p l) (n : Node) :
    Chain (h ++ [n]) p l := by
  induction a with
  | nil => exact .nil
  | @cons i m l hn hr ih =>
    refine .cons ?_ ih
    have hi : i < h.length := by rw [List.getElem?_eq_some_iff] at hn; exact hn.1
    rw [List.getElem?_append_left hi, hn]

/-- Writing a node that is not on the chain. -/
theorem chain_other {h : Heap} {p : Option Nat} {l : List Cell} (a : Chain h p l) {k : Nat}
    (hk : ∀ c ∈ l, c.id ≠ k) (n : Node) : Chain (h.set k n) p l := by
  induction a with
  | nil => exact .nil
  | @cons i m l hn hr ih =>
    refine .cons ?_ (ih fun c hc => hk c (by simp [hc]))
    have := hk _ (List.mem_cons_self ..)
    rw [List.getElem?_set_ne (by simp at this; omega), hn]

/-- Unlinking the node after `k`, as seen along any chain. -/
theorem chain_unlink {h : Heap} (ho : Ordered h) {k i : Nat} {nk n : Node} (hk : h[k]? = some nk)
    (hki : nk.next = some i) (hn : h[i]? = some n) {p : Option Nat} {l : List Cell} (a : Chain h p l) :
    Chain (h.set k { nk with next := n.next }) p (dropBelow k l) := by
  induction a with
  | nil => exact .nil
  | @cons j m l hm hr ih =>
    by_cases hj : j = k
    · subst hj
      rw [hk] at hm
      cases hm
      have hb := chain_below ho hk hr
      simp only [dropBelow, if_true]
      rw [hki] at hr
      cases hr with
      | @cons _ n' l hn' hr' =>
        rw [hn] at hn'
        cases hn'
        have hlt : j < h.length := by rw [List.getElem?_eq_some_iff] at hk; exact hk.1
        refine Chain.cons (n := { nk with next := n.next }) (by rw [List.getElem?_set_self hlt]) ?_
        exact chain_other hr' (fun c hc => by have := hb c (by simp [hc]); omega) _
    · simp only [dropBelow, if_neg hj]
      exact .cons (by rw [List.getElem?_set_ne (fun h => hj h.symm), hm]) ih

/-- Writing the value of node `k`, as seen along any chain. -/
theorem chain_write {h : Heap} {k : Nat} {nk : Node} (hk : h[k]? = some nk)
    (v : Val) {p : Option Nat} {l : List Cell} (a : Chain h p l) :
    Chain (h.set k { nk with val := v }) p (l.map (write k v)) := by
  induction a with
  | nil => exact .nil
  | @cons j m l hm hr ih =>
    by_cases hj : j = k
    · subst hj
      rw [hk] at hm
      cases hm
      have hlt : j < h.length := by rw [List.getElem?_eq_some_iff] at hk; exact hk.1
      simp only [List.map_cons, write, if_true]
      exact Chain.cons (n := { nk with val := v }) (by rw [List.getElem?_set_self hlt]) ih
    · simp only [List.map_cons, write, if_neg hj]
      exact .cons (by rw [List.getElem?_set_ne (fun h => hj h.symm), hm]) ih

theorem above_nil (tag : Tag) : above tag [] = ([], []) := rfl

theorem above_cons (tag : Tag) (c : Cell) (l : List Cell) : above tag (c :: l) =
    if c.tag = tag then ([], c :: l) else (c :: (above tag l).1, (above tag l).2) := by
  simp only [above, List.takeWhile_cons, List.dropWhile_cons]
  split <;> simp_all

/-- What `get` finds. -/
theorem find_chain {h : Heap} (tag : Tag) {p : Option Nat} {l : List Cell} (a : Chain h p l) :
    ∀ fuel, l.length ≤ fuel → find h tag fuel p = some ((above tag l).2.head?.map Cell.id) := by
  induction a with
  | nil => intro fuel _; cases fuel <;> rfl
  | @cons i n l hn hr ih =>
    intro fuel hf
    cases fuel with
    | zero => simp at hf
    | succ f =>
      simp only [find, hn, above_cons]
      split
      · rfl
      · rw [ih f (by simpa using hf)]

/-- What `unset` finds: the previous node is that of the last cell above. -/
theorem findPrev_chain {h : Heap} (tag : Tag) {p : Option Nat} {l : List Cell} (a : Chain h p l) :
    ∀ fuel prev, l.length ≤ fuel → findPrev h tag fuel prev p =
      some ((above tag l).2.head?.map fun c => (((above tag l).1.getLast?.map Cell.id).or prev, c.id)) := by
  induction a with
  | nil => intro fuel prev _; cases fuel <;> rfl
  | @cons i n l hn hr ih =>
    intro fuel prev hf
    cases fuel with
    | zero => simp at hf
    | succ f =>
      simp only [findPrev, hn, above_cons]
      split
      · rfl
      · rw [ih f (some i) (by simpa using hf)]
        cases hl : (above tag l).1 with
        | nil => simp
        | cons c l' => simp [List.getLast?_cons]

theorem above_append (tag : Tag) (l : List Cell) : (above tag l).1 ++ (above tag l).2 = l := by
  simp [above]

/-- The rest of the chain behind a cell. -/
theorem chain_cut {h : Heap} {l1 : List Cell} {c : Cell} {l2 : List Cell} {p : Option Nat}
    (a : Chain h p (l1 ++ c :: l2)) : ∃ n, h[c.id]? = some n ∧ n.tag = c.tag ∧ n.val = c.val ∧ Chain h n.next l2 := by
  induction l1 generalizing p with
  | nil => cases a with | cons hn hr => exact ⟨_, hn, rfl, rfl, hr⟩
  | cons d l1 ih => cases a with | cons hn hr => exact ih hr

/-- The state represents the sheet. -/
structure Shows (w : World) (s : Sheet) : Prop where
  ordered : Ordered w.heap
  made : s.made = w.heap.length
  len : w.objs.length = s.stacks.length
  chain : ∀ (o : Nat) p, w.objs[o]? = some p → ∃ l, s.stacks[o]? = some l ∧ Chain w.heap p l

theorem Shows.none {w : World} {s : Sheet} (h : Shows w s) {o : Nat} (ho : w.objs[o]? = none) : s.stacks[o]? = none := by
  rw [List.getElem?_eq_none_iff] at ho ⊢
  have := h.len
  omega

theorem Shows.lt {w : World} {o : Nat} {p : Option Nat} (hp : w.objs[o]? = some p) :
    o < w.objs.length := by
  rw [List.getElem?_eq_some_iff] at hp
  exact hp.1

/-- The head of one object changes. -/
theorem Shows.set {w : World} {s : Sheet} (h : Shows w s) {o : Nat} {h' : Heap} {m : Nat} {p : Option Nat} {l : List Cell}
    (hm : m = h'.length) (hord : Ordered h') (hold : ∀ p l, Chain w.heap p l → Chain h' p l) (hnew : Chain h' p l) :
    Shows ⟨h', w.objs.set o p⟩ ⟨m, s.stacks.set o l⟩ := by
  refine ⟨hord, hm, by simp [h.len], fun q p' hq => ?_⟩
  have hl := h.len
  simp only [List.getElem?_set] at hq ⊢
  by_cases hqo : o = q
  · subst hqo
    rw [if_pos rfl] at hq
    split at hq
    · rename_i hlt
      cases hq
      exact ⟨l, by rw [if_pos rfl, if_pos (by omega)], hnew⟩
    · cases hq
  · rw [if_neg hqo] at hq
    obtain ⟨l', e, hc⟩ := h.chain q p' hq
    exact ⟨l', by rw [if_neg hqo]; exact e, hold _ _ hc⟩

/-- A new object. -/
theorem Shows.add {w : World} {s : Sheet} (h : Shows w s) {p : Option Nat} {l : List Cell} (hnew : Chain w.heap p l) :
    Shows ⟨w.heap, w.objs ++ [p]⟩ ⟨s.made, s.stacks ++ [l]⟩ := by
  refine ⟨h.ordered, h.made, by simp [h.len], fun q p' hq => ?_⟩
  have hl := h.len
  rcases getElem?_append_one hq with ⟨hlt, hq⟩ | ⟨rfl, rfl⟩
  · obtain ⟨l', e, hc⟩ := h.chain q p' hq
    exact ⟨l', by rw [List.getElem?_append_left (by omega)]; exact e, hc⟩
  · exact ⟨l, by simp [hl], hnew⟩

/-- Nodes change, as seen along every chain. -/
theorem Shows.heap {w : World} {s : Sheet} (h : Shows w s) {h' : Heap} {f : List Cell → List Cell}
    (hl : h'.length = w.heap.length) (hord : Ordered h') (hf : ∀ p l, Chain w.heap p l → Chain h' p (f l)) :
    Shows ⟨h', w.objs⟩ ⟨s.made, s.stacks.map f⟩ := by
  refine ⟨hord, by rw [hl, h.made], by simp [h.len], fun q p' hq => ?_⟩
  obtain ⟨l', e, hc⟩ := h.chain q p' hq
  exact ⟨f l', by simp [e], hf _ _ hc⟩

theorem step_shared {w : World} {s : Sheet} (h : Shows w s) (op : Op) :
    (step w op = none ∧ sharedStep s op = none) ∨
    ∃ w' s', step w op = some w' ∧ sharedStep s op = some s' ∧ Shows w' s' := by
  cases op with
  | new => exact .inr ⟨_, _, rfl, rfl, h.add .nil⟩
  | set o tag v =>
    cases hp : w.objs[o]? with
    | none => left; simp [step, sharedStep, hp, h.none hp]
    | some p =>
      right
      obtain ⟨l, hs, hc⟩ := h.chain o p hp
      have hnext : ∀ j, p = some j → j < w.heap.length := by
        rintro j rfl
        cases hc with
        | cons hn _ => rw [List.getElem?_eq_some_iff] at hn; exact hn.1
      refine ⟨⟨w.heap ++ [⟨tag, v, p⟩], w.objs.set o (some w.heap.length)⟩, _, by simp only [step, hp], by simp only [sharedStep, hs]; rfl, ?_⟩
      refine h.set (by simp [h.made]) (ordered_append h.ordered hnext) (fun p l hc => chain_append hc _) ?_
      rw [h.made]
      exact Chain.cons (n := ⟨tag, v, p⟩) (by simp) (chain_append hc _)
  | unset o tag =>
    cases hp : w.objs[o]? with
    | none => left; simp [step, sharedStep, hp, h.none hp]
    | some p =>
      right
      obtain ⟨l, hs, hc⟩ := h.chain o p hp
      have hf := findPrev_chain tag hc w.heap.length none (chain_lt h.ordered hc).2.2.1
      have hap := above_append tag l
      rcases hab : above tag l with ⟨a, b⟩
      rw [hab] at hf hap
      simp only at hf hap
      cases b with
      | nil => exact ⟨w, s, by simp [step, hp, hf], by simp [sharedStep, hs, hab], h⟩
      | cons c rest =>
        obtain ⟨n, hn, -, -, hr⟩ := chain_cut (hap.symm ▸ hc)
        simp only [List.head?_cons, Option.map_some, Option.or_none] at hf
        cases hl : a.getLast? with
        | none =>
          rw [hl] at hf
          refine ⟨⟨w.heap, w.objs.set o n.next⟩, ⟨s.made, s.stacks.set o rest⟩, by simp only [step, hp, hf, hn, Option.map_none],
            by simp only [sharedStep, hs, Option.map_some, hab, hl], ?_⟩
          exact h.set h.made h.ordered (fun _ _ h => h) hr
        | some k =>
          obtain ⟨a', rfl⟩ : ∃ a', a = a' ++ [k] := by
            rcases list_snoc a with rfl | ⟨a', b, rfl⟩
            · simp at hl
            · simp at hl; exact ⟨a', by rw [hl]⟩
          rw [hl] at hf
          have hc' : Chain w.heap p (a' ++ k :: c :: rest) := by
            rw [← hap] at hc
            simpa using hc
          obtain ⟨nk, hnk, -, -, hrk⟩ := chain_cut hc'
          have hnext : nk.next = some c.id := by
            generalize nk.next = x at hrk
            cases hrk with
            | cons _ _ => rfl
          have hlt : c.id < k.id := h.ordered k.id nk hnk c.id hnext
          refine ⟨⟨w.heap.set k.id { nk with next := n.next }, w.objs⟩, ⟨s.made, s.stacks.map (dropBelow k.id)⟩,
            by simp only [step, hp, hf, hn, Option.map_some, hnk], by simp only [sharedStep, hs, Option.map_some, hab, hl], ?_⟩
          exact h.heap (by simp) (ordered_set h.ordered fun j hj => by have := h.ordered c.id n hn j hj; omega)
            fun p l hc => chain_unlink h.ordered hnk hnext hn hc
  | copy o =>
    cases hp : w.objs[o]? with
    | none => left; simp [step, sharedStep, hp, h.none hp]
    | some p =>
      right
      obtain ⟨l, hs, hc⟩ := h.chain o p hp
      exact ⟨⟨w.heap, w.objs ++ [p]⟩, _, by simp only [step, hp], by simp only [sharedStep, hs]; rfl, h.add hc⟩
  | assign o q =>
    cases hp : w.objs[o]? with
    | none => left; simp [step, sharedStep, hp, h.none hp]
    | some p =>
      cases hq : w.objs[q]? with
      | none => left; simp [step, sharedStep, hp, hq, h.none hq]
      | some p' =>
        right
        obtain ⟨l, hs, hc⟩ := h.chain o p hp
        obtain ⟨l', hs', hc'⟩ := h.chain q p' hq
        exact ⟨⟨w.heap, w.objs.set o p'⟩, ⟨s.made, s.stacks.set o l'⟩, by simp only [step, hp, hq], by simp [sharedStep, hs, hs'],
          h.set h.made h.ordered (fun _ _ h => h) hc'⟩
  | move o =>
    cases hp : w.objs[o]? with
    | none => left; simp [step, sharedStep, hp, h.none hp]
    | some p =>
      right
      obtain ⟨l, hs, hc⟩ := h.chain o p hp
      exact ⟨⟨w.heap, w.objs.set o none ++ [p]⟩, ⟨s.made, s.stacks.set o [] ++ [l]⟩, by simp only [step, hp], by simp [sharedStep, hs],
        (h.set (o := o) h.made h.ordered (fun _ _ h => h) .nil).add hc⟩
  | modify o tag v =>
    cases hp : w.objs[o]? with
    | none => left; simp [step, sharedStep, hp, h.none hp]
    | some p =>
      right
      obtain ⟨l, hs, hc⟩ := h.chain o p hp
      have hf := find_chain tag hc w.heap.length (chain_lt h.ordered hc).2.2.1
      have hap := above_append tag l
      rcases hab : above tag l with ⟨a, b⟩
      rw [hab] at hf hap
      simp only at hf hap
      cases b with
      | nil => exact ⟨w, s, by simp [step, hp, hf], by simp [sharedStep, hs, hab], h⟩
      | cons c rest =>
        obtain ⟨n, hn, -, -, hr⟩ := chain_cut (hap.symm ▸ hc)
        simp only [List.head?_cons, Option.map_some] at hf
        refine ⟨⟨w.heap.set c.id { n with val := v }, w.objs⟩, ⟨s.made, s.stacks.map (·.map (write c.id v))⟩,
          by simp only [step, hp, hf, hn], by simp only [sharedStep, hs, Option.map_some, hab], ?_⟩
        exact h.heap (by simp) (ordered_set h.ordered fun j hj => h.ordered c.id n hn j hj)
          fun p l hc => chain_write hn v hc

theorem run_shared {ops : List Op} : ∀ {w : World} {s : Sheet}, Shows w s →
    (run w ops = none ∧ sharedRun s ops = none) ∨
    ∃ w' s', run w ops = some w' ∧ sharedRun s ops = some s' ∧ Shows w' s' := by
  induction ops with
  | nil => intro w s h; exact .inr ⟨w, s, rfl, rfl, h⟩
  | cons op ops ih =>
    intro w s h
    rcases step_shared h op with ⟨h1, h2⟩ | ⟨w', s', h1, h2, h3⟩
    · left; simp [run, sharedRun, h1, h2]
    · have := ih h3
      simpa [run, sharedRun, h1, h2] using this

theorem lookup_above (tag : Tag) (l : List Cell) :
    lookup tag (shown l) = (above tag l).2.head?.map Cell.val := by
  induction l with
  | nil => rfl
  | cons c l ih =>
    rw [above_cons]
    unfold lookup shown at ih ⊢
    simp only [List.map_cons, List.find?_cons]
    by_cases hc : c.tag = tag
    · simp [hc]
    · simp only [hc, decide_false, if_false]
      exact ih

theorem entries_chain {h : Heap} {p : Option Nat} {l : List Cell} (a : Chain h p l) :
    ∀ fuel, l.length ≤ fuel → entries h fuel p = some (shown l) := by
  induction a with
  | nil => intro fuel _; cases fuel <;> rfl
  | cons hn _ ih =>
    intro fuel hf
    cases fuel with
    | zero => simp at hf
    | succ f =>
      simp only [entries, hn]
      rw [ih f (by simpa using hf)]
      rfl

theorem shows_observe {w : World} {s : Sheet} (h : Shows w s) (o : Nat) :
    (∀ tag, get w o tag = (s.stacks[o]?).map fun l => lookup tag (shown l)) ∧
    diagnostic w o = (s.stacks[o]?).map shown := by
  cases hp : w.objs[o]? with
  | none => simp [get, diagnostic, hp, h.none hp]
  | some p =>
    obtain ⟨l, hs, hc⟩ := h.chain o p hp
    have hfuel := (chain_lt h.ordered hc).2.2.1
    refine ⟨fun tag => ?_, by simp [diagnostic, hp, hs, entries_chain hc _ hfuel]⟩
    simp only [get, hp, hs, Option.map_some, lookup_above]
    rw [find_chain tag hc _ hfuel]
    have hap := above_append tag l
    cases hb : (above tag l).2 with
    | nil => simp
    | cons c rest =>
      rw [hb] at hap
      obtain ⟨n, hn, -, hv, -⟩ := chain_cut (hap.symm ▸ hc)
      simp [hn, hv]

theorem shows_empty : Shows World.empty ⟨0, []⟩ :=
  ⟨by intro i n h; simp [World.empty] at h, rfl, rfl, by intro o p h; simp [World.empty] at h⟩

/-! ### C64 -/

/-- C64: every history, with any copies, does to the objects what the specification of
shared cells says.  In particular no walk diverges. -/
theorem C64_shared (ops : List Op) :
    (run World.empty ops = none ↔ sharedRun ⟨0, []⟩ ops = none) ∧
    ∀ w, run World.empty ops = some w → ∃ s, sharedRun ⟨0, []⟩ ops = some s ∧
      ∀ o, (∀ tag, get w o tag = (s.stacks[o]?).map fun l => lookup tag (shown l)) ∧
        diagnostic w o = (s.stacks[o]?).map shown := by
  rcases run_shared (ops := ops) shows_empty with ⟨h1, h2⟩ | ⟨w, s, h1, h2, h3⟩
  · refine ⟨by simp [h1, h2], ?_⟩
    intro w hw; rw [h1] at hw; cases hw
  · refine ⟨by simp [h1, h2], ?_⟩
    intro w' hw
    rw [h1] at hw; cases hw
    exact ⟨s, h2, fun o => shows_observe h3 o⟩

/-- Object 1 is a copy of object 0; removing the older value from it removes it from both, but
not from object 2, which was copied when the newer value was not there. -/
example : sharedRun ⟨0, []⟩ [.new, .set 0 1 10, .copy 0, .set 0 2 20, .copy 0, .unset 2 1] =
      some ⟨2, [[⟨1, 2, 20⟩], [⟨0, 1, 10⟩], [⟨1, 2, 20⟩]]⟩ ∧
    (run World.empty [.new, .set 0 1 10, .copy 0, .set 0 2 20, .copy 0, .unset 2 1]).map
      (fun w => (diagnostic w 0, diagnostic w 1, diagnostic w 2)) =
      some (some [(2, 20)], some [(1, 10)], some [(2, 20)]) := by
  refine ⟨?_, rfl⟩
  simp [sharedRun, sharedStep, above, dropBelow]

/-- The object an operation is called on, and the one it makes. -/
def Touches (w : World) : Op → Nat → Prop
  | .new, q => q = w.objs.length
  | .set o _ _, q => q = o
  | .unset o _, q => q = o
  | .copy _, q => q = w.objs.length
  | .assign o _, q => q = o
  | .move o, q => q = o ∨ q = w.objs.length
  | .modify o _ _, q => q = o

/-- Operations that write to existing nodes. -/
def Writes : Op → Prop
  | .unset _ _ => True
  | .modify _ _ _ => True
  | _ => False

/-- C64: whatever was copied before, only `unset` and writing through `get` can be noticed
at another object. -/
theorem C64_others (ops : List Op) (op : Op) (hop : ¬ Writes op) {w w' : World}
    (hw : run World.empty ops = some w) (hs : step w op = some w') (q : Nat) (hq : ¬ Touches w op q) :
    (∀ tag, get w' q tag = get w q tag) ∧ diagnostic w' q = diagnostic w q := by
  rcases run_shared (ops := ops) shows_empty with ⟨h1, -⟩ | ⟨w1, s, h1, h2, h3⟩
  · rw [h1] at hw; cases hw
  · rw [h1] at hw; cases hw
    rcases step_shared h3 op with ⟨h4, -⟩ | ⟨w2, s', h4, h5, h6⟩
    · rw [h4] at hs; cases hs
    · rw [h4] at hs; cases hs
      have hsame : s'.stacks[q]? = s.stacks[q]? := by
        have hlen := h3.len
        have hadd : ∀ (l : List (List Cell)) x, l.length = s.stacks.length → q ≠ w.objs.length → (l ++ [x])[q]? = l[q]? := by
          intro l x hl hne
          by_cases hlt : q < l.length
          · rw [List.getElem?_append_left hlt]
          · rw [List.getElem?_eq_none (by simp; omega), List.getElem?_eq_none (by omega)]
        cases op with
        | new =>
          cases h5
          exact hadd _ _ rfl hq
        | set o t v =>
          simp only [sharedStep, Option.map_eq_some_iff] at h5
          obtain ⟨l, -, rfl⟩ := h5
          exact List.getElem?_set_ne (fun h => hq h.symm)
        | copy o =>
          simp only [sharedStep, Option.map_eq_some_iff] at h5
          obtain ⟨l, -, rfl⟩ := h5
          exact hadd _ _ rfl hq
        | assign o p =>
          simp only [sharedStep, Option.bind_eq_some_iff, Option.map_eq_some_iff] at h5
          obtain ⟨l, -, l', -, rfl⟩ := h5
          exact List.getElem?_set_ne (fun h => hq h.symm)
        | move o =>
          simp only [sharedStep, Option.map_eq_some_iff] at h5
          obtain ⟨l, -, rfl⟩ := h5
          simp only [Touches, not_or] at hq
          rw [← List.getElem?_set_ne (l := s.stacks) (i := o) (a := []) (fun h => hq.1 h.symm)]
          exact hadd _ _ (by simp) hq.2
        | unset => exact absurd trivial hop
        | modify => exact absurd trivial hop
      obtain ⟨a1, a2⟩ := shows_observe h3 q
      obtain ⟨b1, b2⟩ := shows_observe h6 q
      exact ⟨fun tag => by rw [a1, b1, hsame], by rw [a2, b2, hsame]⟩

example : ¬ Writes (.set 0 3 30) ∧ (∃ w, run World.empty [.new, .set 0 1 10, .copy 0] = some w ∧
    ¬ Touches w (.set 0 3 30) 1 ∧ ∃ w', step w (.set 0 3 30) = some w' ∧ diagnostic w' 1 = some [(1, 10)] ∧
    diagnostic w' 0 = some [(3, 30), (1, 10)]) :=
  ⟨id, _, rfl, by simp [Touches], _, rfl, rfl, rfl⟩

end Verif.ExcInfo
