import Verif.ExcInfo.Model

/-! Specification of `exception_info` and the refinement proof. -/

namespace Verif.ExcInfo

/-! ### Specification: every object is an independent stack of tagged values -/

abbrev Stack := List (Tag × Val)

/-- Removes the first entry with the tag. -/
def removeFirst (tag : Tag) : Stack → Stack
  | [] => []
  | e :: l => if e.1 = tag then l else e :: removeFirst tag l

/-- Replaces the value of the first entry with the tag. -/
def replaceFirst (tag : Tag) (v : Val) : Stack → Stack
  | [] => []
  | e :: l => if e.1 = tag then (tag, v) :: l else e :: replaceFirst tag v l

/-- The value of the first entry with the tag. -/
def lookup (tag : Tag) (l : Stack) : Option Val := (l.find? fun e => e.1 = tag).map Prod.snd

def specStep (s : List Stack) : Op → Option (List Stack)
  | .new => some (s ++ [[]])
  | .set o tag v => (s[o]?).map fun l => s.set o ((tag, v) :: l)
  | .unset o tag => (s[o]?).map fun l => s.set o (removeFirst tag l)
  | .copy o => (s[o]?).map fun l => s ++ [l]
  | .assign o p => (s[o]?).bind fun _ => (s[p]?).map fun l => s.set o l
  | .move o => (s[o]?).map fun l => s.set o [] ++ [l]
  | .modify o tag v => (s[o]?).map fun l => s.set o (replaceFirst tag v l)

def specRun : List Stack → List Op → Option (List Stack)
  | s, [] => some s
  | s, op :: ops => (specStep s op).bind (specRun · ops)

/-! ### Chains -/

/-- `Rep h p is l`: from the pointer `p` the chain of nodes `is` is reached, which holds `l`. -/
inductive Rep (h : Heap) : Option Nat → List Nat → Stack → Prop
  | nil : Rep h none [] []
  | cons {i n is l} : h[i]? = some n → Rep h n.next is l → Rep h (some i) (i :: is) ((n.tag, n.val) :: l)

/-- Older nodes have smaller addresses. -/
def Ordered (h : Heap) : Prop := ∀ (i : Nat) (n : Node), h[i]? = some n → ∀ j, n.next = some j → j < i

theorem rep_det {h : Heap} {p : Option Nat} {is is' : List Nat} {l l' : Stack}
    (a : Rep h p is l) (b : Rep h p is' l') : is = is' ∧ l = l' := by
  induction a generalizing is' l' with
  | nil => cases b; exact ⟨rfl, rfl⟩
  | cons hn _ ih =>
    cases b with
    | cons hn' hr =>
      rw [hn] at hn'; cases hn'
      obtain ⟨rfl, rfl⟩ := ih hr
      exact ⟨rfl, rfl⟩

theorem rep_length {h : Heap} {p : Option Nat} {is : List Nat} {l : Stack} (a : Rep h p is l) :
    is.length = l.length := by
  induction a with
  | nil => rfl
  | cons _ _ ih => simp [ih]

theorem rep_bound {h : Heap} (ho : Ordered h) {p : Option Nat} {is : List Nat} {l : Stack}
    (a : Rep h p is l) : (∀ i, p = some i → (∀ j ∈ is, j ≤ i) ∧ is.length ≤ i + 1) ∧
      (∀ j ∈ is, j < h.length) ∧ is.Pairwise (· > ·) ∧ is.length ≤ h.length := by
  induction a with
  | nil => simp
  | @cons i n is l hn hr ih =>
    obtain ⟨h1, h2, h3, -⟩ := ih
    have hi : i < h.length := by
      rw [List.getElem?_eq_some_iff] at hn; exact hn.1
    have hlt : ∀ j ∈ is, j < i := by
      intro j hj
      cases hnx : n.next with
      | none => rw [hnx] at hr; cases hr; simp at hj
      | some k =>
        have := (h1 k hnx).1 j hj
        have := ho i n hn k hnx
        omega
    have hlen : is.length ≤ i := by
      cases hnx : n.next with
      | none => rw [hnx] at hr; cases hr; simp
      | some k =>
        have := (h1 k hnx).2
        have := ho i n hn k hnx
        omega
    refine ⟨?_, ?_, ?_, by simp; omega⟩
    · rintro i' hi'
      cases hi'
      refine ⟨?_, by simp; omega⟩
      intro j hj
      rcases List.mem_cons.mp hj with rfl | hj
      · omega
      · exact Nat.le_of_lt (hlt j hj)
    · intro j hj
      rcases List.mem_cons.mp hj with rfl | hj
      · exact hi
      · exact h2 j hj
    · exact List.pairwise_cons.mpr ⟨fun j hj => hlt j hj, h3⟩

theorem rep_set {h : Heap} {p : Option Nat} {is : List Nat} {l : Stack} (a : Rep h p is l)
    {k : Nat} (hk : k ∉ is) (n : Node) : Rep (h.set k n) p is l := by
  induction a with
  | nil => exact .nil
  | @cons i m is l hn hr ih =>
    simp only [List.mem_cons, not_or] at hk
    refine .cons ?_ (ih hk.2)
    rw [List.getElem?_set_ne (by omega), hn]

theorem rep_append {h : Heap} {p : Option Nat} {is : List Nat} {l : Stack} (a : Rep h p is l)
    (n : Node) : Rep (h ++ [n]) p is l := by
  induction a with
  | nil => exact .nil
  | @cons i m is l hn hr ih =>
    refine .cons ?_ ih
    have hi : i < h.length := by
      rw [List.getElem?_eq_some_iff] at hn; exact hn.1
    rw [List.getElem?_append_left hi, hn]

theorem rep_exists {h : Heap} (ho : Ordered h) : ∀ i, i < h.length → ∃ is l, Rep h (some i) is l := by
  intro i
  induction i using Nat.strongRecOn with
  | ind i ih =>
    intro hi
    have hn : h[i]? = some h[i] := by simp [hi]
    cases hnx : h[i].next with
    | none => exact ⟨_, _, .cons hn (by rw [hnx]; exact .nil)⟩
    | some j =>
      have hj := ho i _ hn j hnx
      obtain ⟨is, l, hr⟩ := ih j hj (by omega)
      exact ⟨_, _, .cons hn (by rw [hnx]; exact hr)⟩

/-! ### The walks -/

theorem entries_rep {h : Heap} {p : Option Nat} {is : List Nat} {l : Stack} (a : Rep h p is l) :
    ∀ fuel, is.length ≤ fuel → entries h fuel p = some l := by
  induction a with
  | nil => intro fuel _; cases fuel <;> rfl
  | cons hn _ ih =>
    intro fuel hf
    cases fuel with
    | zero => simp at hf
    | succ f =>
      simp only [entries, hn]
      rw [ih f (by simpa using hf)]
      rfl

/-- What the walks find: the first entry with the tag, with its position in the chain. -/
theorem find_rep {h : Heap} (tag : Tag) {p : Option Nat} {is : List Nat} {l : Stack}
    (a : Rep h p is l) : ∀ fuel, is.length ≤ fuel →
    ((∀ e ∈ l, e.1 ≠ tag) → find h tag fuel p = some none) ∧
    (∀ is1 i is2, is = is1 ++ i :: is2 → (∀ j ∈ is1, ∀ m, h[j]? = some m → m.tag ≠ tag) →
      (∀ n, h[i]? = some n → n.tag = tag) → find h tag fuel p = some (some i)) := by
  induction a with
  | nil =>
    intro fuel _
    refine ⟨fun _ => by cases fuel <;> rfl, ?_⟩
    intro is1 i is2 h1
    simp at h1
  | @cons i n is l hn hr ih =>
    intro fuel hf
    cases fuel with
    | zero => simp at hf
    | succ f =>
      obtain ⟨ih1, ih2⟩ := ih f (by simpa using hf)
      refine ⟨?_, ?_⟩
      · intro hl
        have h0 : n.tag ≠ tag := hl _ (List.mem_cons_self ..)
        simp only [find, hn, if_neg h0]
        exact ih1 fun e he => hl e (List.mem_cons_of_mem _ he)
      · intro is1 j is2 he h1 h2
        cases is1 with
        | nil =>
          simp only [List.nil_append, List.cons.injEq] at he
          obtain ⟨rfl, rfl⟩ := he
          simp [find, hn, h2 n hn]
        | cons k is1 =>
          simp only [List.cons_append, List.cons.injEq] at he
          obtain ⟨rfl, he⟩ := he
          have h0 : n.tag ≠ tag := h1 i (by simp) n hn
          simp only [find, hn, if_neg h0]
          exact ih2 is1 j is2 he (fun x hx => h1 x (by simp [hx])) h2

theorem findPrev_rep {h : Heap} (tag : Tag) {p : Option Nat} {is : List Nat} {l : Stack}
    (a : Rep h p is l) : ∀ fuel prev, is.length ≤ fuel →
    ((∀ e ∈ l, e.1 ≠ tag) → findPrev h tag fuel prev p = some none) ∧
    (∀ i is2, is = i :: is2 → (∀ n, h[i]? = some n → n.tag = tag) →
      findPrev h tag fuel prev p = some (some (prev, i))) ∧
    (∀ is1 q i is2, is = is1 ++ q :: i :: is2 →
      (∀ j ∈ is1 ++ [q], ∀ m, h[j]? = some m → m.tag ≠ tag) →
      (∀ n, h[i]? = some n → n.tag = tag) → findPrev h tag fuel prev p = some (some (some q, i))) := by
  induction a with
  | nil =>
    intro fuel prev _
    refine ⟨fun _ => by cases fuel <;> rfl, ?_, ?_⟩ <;> intros <;> rename_i he _ <;> simp at he
    rename_i he' _
    simp at he'
  | @cons i n is l hn hr ih =>
    intro fuel prev hf
    cases fuel with
    | zero => simp at hf
    | succ f =>
      obtain ⟨ih1, ih2, ih3⟩ := ih f (some i) (by simpa using hf)
      refine ⟨?_, ?_, ?_⟩
      · intro hl
        have h0 : n.tag ≠ tag := hl _ (List.mem_cons_self ..)
        simp only [findPrev, hn, if_neg h0]
        exact ih1 fun e he => hl e (List.mem_cons_of_mem _ he)
      · intro j is2 he h2
        simp only [List.cons.injEq] at he
        obtain ⟨rfl, rfl⟩ := he
        simp [findPrev, hn, h2 n hn]
      · intro is1 q j is2 he h1 h2
        cases is1 with
        | nil =>
          simp only [List.nil_append, List.cons.injEq] at he
          obtain ⟨rfl, he⟩ := he
          have h0 : n.tag ≠ tag := h1 i (by simp) n hn
          simp only [findPrev, hn, if_neg h0]
          exact ih2 j is2 he h2
        | cons k is1 =>
          simp only [List.cons_append, List.cons.injEq] at he
          obtain ⟨rfl, he⟩ := he
          have h0 : n.tag ≠ tag := h1 i (by simp) n hn
          simp only [findPrev, hn, if_neg h0]
          exact ih3 is1 q j is2 he (fun x hx => h1 x (by simp at hx ⊢; exact Or.inr hx)) h2

/-- A chain either has no entry with the tag or can be cut at the first one. -/
theorem rep_cut {h : Heap} (tag : Tag) {p : Option Nat} {is : List Nat} {l : Stack}
    (a : Rep h p is l) : (∀ e ∈ l, e.1 ≠ tag) ∨
    ∃ is1 i is2 n l1 l2, is = is1 ++ i :: is2 ∧ h[i]? = some n ∧ n.tag = tag ∧
      (∀ j ∈ is1, ∀ m, h[j]? = some m → m.tag ≠ tag) ∧ l = l1 ++ (tag, n.val) :: l2 ∧
      (∀ e ∈ l1, e.1 ≠ tag) ∧ Rep h n.next is2 l2 ∧ is1.length = l1.length := by
  induction a with
  | nil => left; simp
  | @cons i n is l hn hr ih =>
    by_cases h0 : n.tag = tag
    · right
      exact ⟨[], i, is, n, [], l, rfl, hn, h0, by simp, by simp [h0], by simp, hr, rfl⟩
    · rcases ih with ih | ⟨is1, j, is2, m, l1, l2, e1, hm, ht, h1, e2, h2, hr2, hlen⟩
      · left
        intro e he
        rcases List.mem_cons.mp he with rfl | he
        · exact h0
        · exact ih e he
      · right
        refine ⟨i :: is1, j, is2, m, (n.tag, n.val) :: l1, l2, by simp [e1], hm, ht, ?_,
          by simp [e2], ?_, hr2, by simp [hlen]⟩
        · intro k hk m' hm'
          rcases List.mem_cons.mp hk with rfl | hk
          · rw [hn] at hm'; cases hm'; exact h0
          · exact h1 k hk m' hm'
        · intro e he
          rcases List.mem_cons.mp he with rfl | he
          · exact h0
          · exact h2 e he

theorem removeFirst_none {tag : Tag} {l : Stack} (h : ∀ e ∈ l, e.1 ≠ tag) : removeFirst tag l = l := by
  induction l with
  | nil => rfl
  | cons e l ih =>
    have := h e (by simp)
    simp [removeFirst, this, ih fun x hx => h x (by simp [hx])]

theorem removeFirst_cut {tag : Tag} {l1 l2 : Stack} {v : Val} (h : ∀ e ∈ l1, e.1 ≠ tag) :
    removeFirst tag (l1 ++ (tag, v) :: l2) = l1 ++ l2 := by
  induction l1 with
  | nil => simp [removeFirst]
  | cons e l ih =>
    have := h e (by simp)
    simp [removeFirst, this, ih fun x hx => h x (by simp [hx])]

theorem replaceFirst_none {tag : Tag} {v : Val} {l : Stack} (h : ∀ e ∈ l, e.1 ≠ tag) :
    replaceFirst tag v l = l := by
  induction l with
  | nil => rfl
  | cons e l ih =>
    have := h e (by simp)
    simp [replaceFirst, this, ih fun x hx => h x (by simp [hx])]

theorem replaceFirst_cut {tag : Tag} {l1 l2 : Stack} {v u : Val} (h : ∀ e ∈ l1, e.1 ≠ tag) :
    replaceFirst tag u (l1 ++ (tag, v) :: l2) = l1 ++ (tag, u) :: l2 := by
  induction l1 with
  | nil => simp [replaceFirst]
  | cons e l ih =>
    have := h e (by simp)
    simp [replaceFirst, this, ih fun x hx => h x (by simp [hx])]

/-- Unlinking the node after `q`. -/
theorem rep_unlink {h : Heap} {p : Option Nat} {is : List Nat} {l : Stack} (a : Rep h p is l) :
    ∀ is1 q i is2 n np, is = is1 ++ q :: i :: is2 → is.Pairwise (· > ·) → h[i]? = some n →
      h[q]? = some np →
      ∃ l1 e l2, l = l1 ++ e :: l2 ∧ l1.length = is1.length + 1 ∧
        Rep (h.set q { np with next := n.next }) p (is1 ++ q :: is2) (l1 ++ l2) := by
  induction a with
  | nil => intro is1 q i is2 n np he; simp at he
  | @cons j m is l hm hr ih =>
    intro is1 q i is2 n np he hp hn hq
    cases is1 with
    | nil =>
      simp only [List.nil_append, List.cons.injEq] at he
      obtain ⟨rfl, rfl⟩ := he
      rw [hm] at hq
      cases hq
      generalize hmx : m.next = x at hr
      cases hr with
      | @cons i' n' is' l' hn' hr' =>
        rw [hn] at hn'; cases hn'
        refine ⟨[(m.tag, m.val)], _, l', rfl, rfl, ?_⟩
        simp only [List.nil_append, List.singleton_append]
        have hj : j < h.length := by
          rw [List.getElem?_eq_some_iff] at hm; exact hm.1
        refine .cons (n := { m with next := n.next }) (by rw [List.getElem?_set_self hj]) ?_
        refine rep_set hr' ?_ _
        intro hmem
        simp only [List.pairwise_cons, List.mem_cons] at hp
        have := hp.1 j (Or.inr hmem)
        omega
    | cons k is1 =>
      simp only [List.cons_append, List.cons.injEq] at he
      obtain ⟨rfl, he⟩ := he
      obtain ⟨l1, e, l2, e1, e2, hr2⟩ := ih is1 q i is2 n np he (List.pairwise_cons.mp hp).2 hn hq
      refine ⟨(m.tag, m.val) :: l1, e, l2, by simp [e1], by simp [e2], ?_⟩
      refine .cons ?_ hr2
      have hne : q ≠ j := by
        have := (List.pairwise_cons.mp hp).1 q (by rw [he]; simp)
        omega
      rw [List.getElem?_set_ne hne, hm]

/-- Changing the value of a node in the chain. -/
theorem rep_write {h : Heap} {p : Option Nat} {is : List Nat} {l : Stack} (a : Rep h p is l) :
    ∀ is1 i is2 n v, is = is1 ++ i :: is2 → is.Pairwise (· > ·) → h[i]? = some n →
      ∃ l1 l2, l = l1 ++ (n.tag, n.val) :: l2 ∧ l1.length = is1.length ∧
        Rep (h.set i { n with val := v }) p is (l1 ++ (n.tag, v) :: l2) := by
  induction a with
  | nil => intro is1 i is2 n v he; simp at he
  | @cons j m is l hm hr ih =>
    intro is1 i is2 n v he hp hn
    cases is1 with
    | nil =>
      simp only [List.nil_append, List.cons.injEq] at he
      obtain ⟨rfl, rfl⟩ := he
      rw [hm] at hn
      cases hn
      have hj : j < h.length := by
        rw [List.getElem?_eq_some_iff] at hm; exact hm.1
      refine ⟨[], l, rfl, rfl, ?_⟩
      simp only [List.nil_append]
      refine Rep.cons (n := { m with val := v }) (by rw [List.getElem?_set_self hj]) ?_
      refine rep_set hr ?_ _
      intro hmem
      have := (List.pairwise_cons.mp hp).1 j hmem
      omega
    | cons k is1 =>
      simp only [List.cons_append, List.cons.injEq] at he
      obtain ⟨rfl, he⟩ := he
      obtain ⟨l1, l2, e1, e2, hr2⟩ := ih is1 i is2 n v he (List.pairwise_cons.mp hp).2 hn
      refine ⟨(m.tag, m.val) :: l1, l2, by simp [e1], by simp [e2], ?_⟩
      refine .cons ?_ hr2
      have hne : i ≠ j := by
        have := (List.pairwise_cons.mp hp).1 i (by rw [he]; simp)
        omega
      rw [List.getElem?_set_ne hne, hm]

end Verif.ExcInfo
