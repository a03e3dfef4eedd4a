import Verif.ExcInfo.Lemmas

/-! C64: tagged values of `exception_info`. -/

namespace Verif.ExcInfo

/-- Node `i` is on the chain of object `o`. -/
def Reach (w : World) (o i : Nat) : Prop :=
  ∃ p is l, w.objs[o]? = some p ∧ Rep w.heap p is l ∧ i ∈ is

/-- Another object than `o` also uses node `i`. -/
def Shared (w : World) (o i : Nat) : Prop := ∃ q, q ≠ o ∧ Reach w q i

/-- The operation does not write to a node used by another object: `unset` of an entry that
is not the newest writes to the node before it, writing through `get` writes to the node
found. -/
def Private (w : World) : Op → Prop
  | .unset o tag => ∀ p is l is1 q i is2, w.objs[o]? = some p → Rep w.heap p is l →
      is = is1 ++ q :: i :: is2 → (∀ j ∈ is1 ++ [q], ∀ m, w.heap[j]? = some m → m.tag ≠ tag) →
      (∀ n, w.heap[i]? = some n → n.tag = tag) → ¬ Shared w o q
  | .modify o tag _ => ∀ p is l is1 i is2, w.objs[o]? = some p → Rep w.heap p is l →
      is = is1 ++ i :: is2 → (∀ j ∈ is1, ∀ m, w.heap[j]? = some m → m.tag ≠ tag) →
      (∀ n, w.heap[i]? = some n → n.tag = tag) → ¬ Shared w o i
  | _ => True

/-- Every operation of the history is private when it happens. -/
def PrivateRun : World → List Op → Prop
  | _, [] => True
  | w, op :: ops => Private w op ∧ ∀ w', step w op = some w' → PrivateRun w' ops

/-- The state represents the stacks. -/
def Refines (w : World) (s : List Stack) : Prop :=
  Ordered w.heap ∧ w.objs.length = s.length ∧
  ∀ (o : Nat) p, w.objs[o]? = some p → ∃ is l, Rep w.heap p is l ∧ s[o]? = some l

/-- Whose chain an object's nodes come from. -/
def src (w : World) (op : Op) (q : Nat) : Nat :=
  match op with
  | .copy o => if q = w.objs.length then o else q
  | .assign o p => if q = o then p else q
  | .move o => if q = w.objs.length then o else if q = o then w.objs.length else q
  | _ => q

/-- Where the nodes of an object's chain after the operation come from. -/
def Origin (w : World) (op : Op) (w' : World) : Prop :=
  ∀ q i, Reach w' q i → (i = w.heap.length ∧ ∃ t v, op = .set q t v) ∨ Reach w (src w op q) i

theorem reach_of {w : World} {q i : Nat} {p : Option Nat} {is : List Nat} {l : Stack}
    (hp : w.objs[q]? = some p) (hr : Rep w.heap p is l) : Reach w q i ↔ i ∈ is := by
  constructor
  · rintro ⟨p', is', l', hp', hr', hi⟩
    rw [hp] at hp'; cases hp'
    rw [(rep_det hr hr').1]; exact hi
  · intro hi; exact ⟨p, is, l, hp, hr, hi⟩

/-- An operation that writes at most node `k`, which only `o` uses, and may change the head
of `o`. -/
theorem step_frame {w : World} {s : List Stack} (hR : Refines w s) {o : Nat} {h' : Heap}
    {head' : Option Nat} {is' : List Nat} {l' : Stack}
    (ho : o < w.objs.length) (hord : Ordered h')
    (hframe : ∀ q p is l, q ≠ o → w.objs[q]? = some p → Rep w.heap p is l → Rep h' p is l)
    (hnew : Rep h' head' is' l') :
    Refines ⟨h', w.objs.set o head'⟩ (s.set o l') ∧
    ∀ q i, Reach ⟨h', w.objs.set o head'⟩ q i → (q = o ∧ i ∈ is') ∨ Reach w q i := by
  obtain ⟨-, hlen, hrep⟩ := hR
  refine ⟨⟨hord, by simp [hlen], ?_⟩, ?_⟩
  · intro q p hq
    by_cases hqo : q = o
    · subst hqo
      rw [List.getElem?_set_self ho] at hq
      cases hq
      exact ⟨is', l', hnew, by rw [List.getElem?_set_self (by omega)]⟩
    · rw [List.getElem?_set_ne (Ne.symm hqo)] at hq
      obtain ⟨is, l, hr, hs⟩ := hrep q p hq
      exact ⟨is, l, hframe q p is l hqo hq hr, by rw [List.getElem?_set_ne (Ne.symm hqo)]; exact hs⟩
  · rintro q i ⟨p, is, l, hq, hr, hi⟩
    by_cases hqo : q = o
    · subst hqo
      rw [List.getElem?_set_self ho] at hq
      cases hq
      left
      exact ⟨rfl, by rw [(rep_det hnew hr).1]; exact hi⟩
    · right
      simp only at hq hr
      rw [List.getElem?_set_ne (Ne.symm hqo)] at hq
      obtain ⟨is2, l2, hr2, -⟩ := hrep q p hq
      have := rep_det (hframe q p is2 l2 hqo hq hr2) hr
      exact ⟨p, is2, l2, hq, hr2, by rw [this.1]; exact hi⟩

theorem getElem?_append_one {β : Type} {l : List β} {x : β} {q : Nat} {p : β}
    (h : (l ++ [x])[q]? = some p) : (q < l.length ∧ l[q]? = some p) ∨ (q = l.length ∧ p = x) := by
  by_cases hq : q < l.length
  · left
    rw [List.getElem?_append_left hq] at h
    exact ⟨hq, h⟩
  · right
    rw [List.getElem?_append_right (by omega)] at h
    by_cases h0 : q - l.length = 0
    · rw [h0] at h
      simp at h
      exact ⟨by omega, h.symm⟩
    · have : ([x] : List β)[q - l.length]? = none := by simp; omega
      rw [this] at h; cases h

/-- Adding an object whose chain is that of an existing object, or empty. -/
theorem step_add {w : World} {s : List Stack} (hR : Refines w s) {p : Option Nat} {is : List Nat}
    {l : Stack} (hr : Rep w.heap p is l) :
    Refines ⟨w.heap, w.objs ++ [p]⟩ (s ++ [l]) ∧
    ∀ q i, Reach ⟨w.heap, w.objs ++ [p]⟩ q i → (q = w.objs.length ∧ i ∈ is) ∨
      (q ≠ w.objs.length ∧ Reach w q i) := by
  obtain ⟨hord, hlen, hrep⟩ := hR
  refine ⟨⟨hord, by simp [hlen], ?_⟩, ?_⟩
  · intro q p' hq
    rcases getElem?_append_one hq with ⟨hlt, hq⟩ | ⟨rfl, rfl⟩
    · obtain ⟨is', l', h1, h2⟩ := hrep q p' hq
      exact ⟨is', l', h1, by rw [List.getElem?_append_left (by omega)]; exact h2⟩
    · exact ⟨is, l, hr, by simp [hlen]⟩
  · rintro q i ⟨p', is', l', hq, hr', hi⟩
    rcases getElem?_append_one hq with ⟨hlt, hq⟩ | ⟨rfl, rfl⟩
    · right; exact ⟨by omega, p', is', l', hq, hr', hi⟩
    · left; exact ⟨rfl, by rw [(rep_det hr hr').1]; exact hi⟩

theorem ordered_append {h : Heap} (ho : Ordered h) {n : Node}
    (hn : ∀ j, n.next = some j → j < h.length) : Ordered (h ++ [n]) := by
  intro i m hm j hj
  rcases getElem?_append_one hm with ⟨_, hm⟩ | ⟨rfl, rfl⟩
  · exact ho i m hm j hj
  · exact hn j hj

theorem ordered_set {h : Heap} (ho : Ordered h) {k : Nat} {n : Node}
    (hn : ∀ j, n.next = some j → j < k) : Ordered (h.set k n) := by
  intro i m hm j hj
  rw [List.getElem?_set] at hm
  split at hm
  · rename_i he
    subst he
    split at hm
    · cases hm; exact hn j hj
    · cases hm
  · exact ho i m hm j hj

theorem list_snoc {α : Type} (l : List α) : l = [] ∨ ∃ a b, l = a ++ [b] := by
  rcases l.eq_nil_or_concat with h | ⟨a, b, h⟩
  · exact Or.inl h
  · exact Or.inr ⟨a, b, by simpa using h⟩

theorem append_inj_cut {α : Type} {a b c d : List α} (h : a ++ b = c ++ d) (hl : a.length = c.length) :
    a = c ∧ b = d := List.append_inj h hl

/-- One private operation keeps the refinement and says where nodes come from. -/
theorem step_refines {w : World} {s : List Stack} (hR : Refines w s) (op : Op) (hP : Private w op) :
    (step w op = none ∧ specStep s op = none) ∨
    ∃ w' s', step w op = some w' ∧ specStep s op = some s' ∧ Refines w' s' ∧ Origin w op w' := by
  have hR' := hR
  obtain ⟨hord, hlen, hrep⟩ := hR
  have hnone : ∀ o : Nat, w.objs[o]? = none → s[o]? = none := by
    intro o ho
    rw [List.getElem?_eq_none_iff] at ho ⊢
    omega
  have hlt : ∀ (o : Nat) (p : Option Nat), w.objs[o]? = some p → o < w.objs.length := by
    intro o p hp
    rw [List.getElem?_eq_some_iff] at hp
    exact hp.1
  have hset : ∀ (o : Nat) (p : Option Nat), w.objs[o]? = some p → w.objs.set o p = w.objs := by
    intro o p hp
    apply List.ext_getElem?
    intro i
    rw [List.getElem?_set]
    split
    · rename_i he; subst he; rw [if_pos (hlt _ _ hp), hp]
    · rfl
  cases op with
  | new =>
    right
    obtain ⟨h1, h2⟩ := step_add hR' (p := none) .nil
    refine ⟨_, _, rfl, rfl, h1, ?_⟩
    intro q i hq
    rcases h2 q i hq with ⟨-, hi⟩ | ⟨-, h⟩
    · simp at hi
    · exact Or.inr h
  | set o tag v =>
    cases hp : w.objs[o]? with
    | none => left; simp [step, specStep, hp, hnone o hp]
    | some p =>
      right
      obtain ⟨is, l, hr, hs⟩ := hrep o p hp
      have hnext : ∀ j, p = some j → j < w.heap.length := by
        rintro j rfl
        cases hr with
        | cons hn _ => rw [List.getElem?_eq_some_iff] at hn; exact hn.1
      have hnew : Rep (w.heap ++ [⟨tag, v, p⟩]) (some w.heap.length) (w.heap.length :: is)
          ((tag, v) :: l) :=
        .cons (n := ⟨tag, v, p⟩) (by simp) (rep_append hr _)
      obtain ⟨h1, h2⟩ := step_frame hR' (hlt o p hp) (ordered_append hord hnext)
        (fun q p' is' l' _ _ hr' => rep_append hr' _) hnew
      refine ⟨_, _, by simp [step, hp], by simp [specStep, hs], h1, ?_⟩
      intro q i hq
      rcases h2 q i hq with ⟨rfl, hi⟩ | h
      · rcases List.mem_cons.mp hi with rfl | hi
        · left; exact ⟨rfl, tag, v, rfl⟩
        · right; exact ⟨p, is, l, hp, hr, hi⟩
      · right; exact h
  | unset o tag =>
    cases hp : w.objs[o]? with
    | none => left; simp [step, specStep, hp, hnone o hp]
    | some p =>
      right
      obtain ⟨is, l, hr, hs⟩ := hrep o p hp
      obtain ⟨-, hbound, hpw, hfuel⟩ := rep_bound hord hr
      obtain ⟨f1, f2, f3⟩ := findPrev_rep tag hr w.heap.length none hfuel
      rcases rep_cut tag hr with hno | ⟨is1, i, is2, n, l1, l2, e1, hn, ht, hj, e2, h2, hr2, hl12⟩
      · refine ⟨w, _, by simp [step, hp, f1 hno], by simp [specStep, hs, removeFirst_none hno]; rfl, ?_, ?_⟩
        · have : s.set o l = s := by
            apply List.ext_getElem?
            intro i
            rw [List.getElem?_set]
            split
            · rename_i he; subst he
              rw [if_pos (by rw [← hlen]; exact hlt _ _ hp), hs]
            · rfl
          rw [this]; exact hR'
        · intro q i hq; exact Or.inr hq
      · have hspec : specStep s (.unset o tag) = some (s.set o (l1 ++ l2)) := by
          simp [specStep, hs, e2, removeFirst_cut h2]
        rcases list_snoc is1 with rfl | ⟨a, q, rfl⟩
        · -- the newest entry
          have hl1 : l1 = [] := by
            cases l1 with
            | nil => rfl
            | cons _ _ => simp at hl12
          subst hl1
          have hf := f2 i is2 (by simpa using e1) (fun m hm => by rw [hn] at hm; cases hm; exact ht)
          obtain ⟨h3, h4⟩ := step_frame hR' (hlt o p hp) hord (fun q p' is' l' _ _ hr' => hr') hr2
          refine ⟨_, _, by simp only [step, hp, hf, hn], hspec, h3, ?_⟩
          intro q k hq
          rcases h4 q k hq with ⟨rfl, hi⟩ | h
          · right; exact ⟨p, is, l, hp, hr, by rw [e1]; simp [hi]⟩
          · right; exact h
        · have e1' : is = a ++ q :: i :: is2 := by rw [e1]; simp
          have hqlt : q < w.heap.length := hbound q (by rw [e1']; simp)
          have hq : w.heap[q]? = some w.heap[q] := by simp [hqlt]
          have hf := f3 a q i is2 e1' hj (fun m hm => by rw [hn] at hm; cases hm; exact ht)
          obtain ⟨m1, e, m2, em, hml, hrnew⟩ := rep_unlink hr a q i is2 n w.heap[q] e1' hpw hn hq
          have hm : m1 = l1 ∧ e :: m2 = (tag, n.val) :: l2 := by
            apply append_inj_cut (by rw [← em, e2])
            simp at hl12
            omega
          obtain ⟨rfl, hm2⟩ := hm
          simp only [List.cons.injEq] at hm2
          obtain ⟨-, rfl⟩ := hm2
          have hpriv := hP p is l a q i is2 hp hr e1' hj (fun m hm => by rw [hn] at hm; cases hm; exact ht)
          have hnx : ∀ j, n.next = some j → j < q := by
            intro j hjn
            have h5 := hord i n hn j hjn
            have h6 : i < q := by
              rw [e1'] at hpw
              have := (List.pairwise_append.mp hpw).2.1
              exact (List.pairwise_cons.mp this).1 i (by simp)
            omega
          obtain ⟨h3, h4⟩ := step_frame hR' (hlt o p hp)
            (ordered_set hord (k := q) (n := { w.heap[q] with next := n.next }) hnx)
            (fun r p' is' l' hro hp' hr' => rep_set hr' (fun hmem =>
              hpriv ⟨r, hro, p', is', l', hp', hr', hmem⟩) _) hrnew
          rw [hset o p hp] at h3 h4
          refine ⟨_, _, by simp only [step, hp, hf, hn, hq], hspec, h3, ?_⟩
          intro r k hrk
          rcases h4 r k hrk with ⟨rfl, hi⟩ | h
          · right
            refine ⟨p, is, l, hp, hr, ?_⟩
            rw [e1']
            simp at hi ⊢
            rcases hi with hi | hi | hi
            · exact Or.inl hi
            · exact Or.inr (Or.inl hi)
            · exact Or.inr (Or.inr (Or.inr hi))
          · right; exact h
  | copy o =>
    cases hp : w.objs[o]? with
    | none => left; simp [step, specStep, hp, hnone o hp]
    | some p =>
      right
      obtain ⟨is, l, hr, hs⟩ := hrep o p hp
      obtain ⟨h1, h2⟩ := step_add hR' hr
      refine ⟨_, _, by simp [step, hp], by simp [specStep, hs], h1, ?_⟩
      intro q i hq
      right
      rcases h2 q i hq with ⟨rfl, hi⟩ | ⟨hne, h⟩
      · simp only [src, if_true]; exact ⟨p, is, l, hp, hr, hi⟩
      · simp only [src, if_neg hne]; exact h
  | assign o p2 =>
    cases hp : w.objs[o]? with
    | none => left; simp [step, specStep, hp, hnone o hp]
    | some p =>
      cases hp2 : w.objs[p2]? with
      | none => left; simp [step, specStep, hp, hp2, hnone p2 hp2]
      | some p' =>
        right
        obtain ⟨is, l, hr, hs⟩ := hrep p2 p' hp2
        obtain ⟨is0, l0, hr0, hs0⟩ := hrep o p hp
        obtain ⟨h3, h4⟩ := step_frame hR' (hlt o p hp) hord (fun q p' is' l' _ _ hr' => hr') hr
        refine ⟨_, _, by simp [step, hp, hp2], by simp [specStep, hs, hs0], h3, ?_⟩
        intro q i hq
        right
        by_cases hqo : q = o
        · subst hqo
          rcases h4 q i hq with ⟨-, hi⟩ | h
          · simp only [src, if_true]; exact ⟨p', is, l, hp2, hr, hi⟩
          · -- the old chain is gone; the new head decides
            have hi : i ∈ is := by
              obtain ⟨pp, iss, ll, hpp, hrr, hii⟩ := hq
              simp only at hpp hrr
              rw [List.getElem?_set_self (hlt q p hp)] at hpp
              cases hpp
              rw [(rep_det hr hrr).1]; exact hii
            simp only [src, if_true]; exact ⟨p', is, l, hp2, hr, hi⟩
        · rcases h4 q i hq with ⟨h, -⟩ | h
          · exact absurd h hqo
          · simp only [src, if_neg hqo]; exact h
  | move o =>
    cases hp : w.objs[o]? with
    | none => left; simp [step, specStep, hp, hnone o hp]
    | some p =>
      right
      obtain ⟨is, l, hr, hs⟩ := hrep o p hp
      have ho := hlt o p hp
      obtain ⟨h3, h4⟩ := step_frame hR' ho hord (fun q p' is' l' _ _ hr' => hr') (head' := none)
        (is' := []) (l' := []) .nil
      obtain ⟨h1, h2⟩ := step_add h3 (p := p) (is := is) (l := l) hr
      refine ⟨_, _, by simp only [step, hp], by simp [specStep, hs], h1, ?_⟩
      intro q i hq
      right
      rcases h2 q i hq with ⟨hq1, hi⟩ | ⟨hne, h⟩
      · have : q = w.objs.length := by simpa using hq1
        simp only [src, this, if_true]; exact ⟨p, is, l, hp, hr, hi⟩
      · have hne' : q ≠ w.objs.length := by simpa using hne
        by_cases hqo : q = o
        · subst hqo
          exfalso
          obtain ⟨pp, iss, ll, hpp, hrr, hii⟩ := h
          simp only at hpp hrr
          rw [List.getElem?_set_self ho] at hpp
          cases hpp
          cases hrr
          simp at hii
        · simp only [src, if_neg hne', if_neg hqo]
          rcases h4 q i h with ⟨h5, -⟩ | h5
          · exact absurd h5 hqo
          · exact h5
  | modify o tag v =>
    cases hp : w.objs[o]? with
    | none => left; simp [step, specStep, hp, hnone o hp]
    | some p =>
      right
      obtain ⟨is, l, hr, hs⟩ := hrep o p hp
      obtain ⟨-, hbound, hpw, hfuel⟩ := rep_bound hord hr
      obtain ⟨f1, f2⟩ := find_rep tag hr w.heap.length hfuel
      rcases rep_cut tag hr with hno | ⟨is1, i, is2, n, l1, l2, e1, hn, ht, hj, e2, h2, hr2, hl12⟩
      · refine ⟨w, _, by simp [step, hp, f1 hno], by simp [specStep, hs, replaceFirst_none hno]; rfl, ?_, ?_⟩
        · have : s.set o l = s := by
            apply List.ext_getElem?
            intro i
            rw [List.getElem?_set]
            split
            · rename_i he; subst he
              rw [if_pos (by rw [← hlen]; exact hlt _ _ hp), hs]
            · rfl
          rw [this]; exact hR'
        · intro q i hq; exact Or.inr hq
      · have hspec : specStep s (.modify o tag v) = some (s.set o (l1 ++ (tag, v) :: l2)) := by
          simp [specStep, hs, e2, replaceFirst_cut h2]
        have hf := f2 is1 i is2 e1 hj (fun m hm => by rw [hn] at hm; cases hm; exact ht)
        obtain ⟨m1, m2, em, hml, hrnew⟩ := rep_write hr is1 i is2 n v e1 hpw hn
        have hm : m1 = l1 ∧ (n.tag, n.val) :: m2 = (tag, n.val) :: l2 := by
          apply append_inj_cut (by rw [← em, e2])
          omega
        obtain ⟨rfl, hm2⟩ := hm
        simp only [List.cons.injEq] at hm2
        obtain ⟨-, rfl⟩ := hm2
        have hpriv := hP p is l is1 i is2 hp hr e1 hj (fun m hm => by rw [hn] at hm; cases hm; exact ht)
        obtain ⟨h3, h4⟩ := step_frame hR' (hlt o p hp)
          (ordered_set hord (k := i) (n := { n with val := v }) (fun j hjn => hord i n hn j hjn))
          (fun r p' is' l' hro hp' hr' => rep_set hr' (fun hmem =>
            hpriv ⟨r, hro, p', is', l', hp', hr', hmem⟩) _) hrnew
        rw [hset o p hp] at h3 h4
        refine ⟨_, _, by simp only [step, hp, hf, hn]; rfl, hspec, ?_, ?_⟩
        · have e3 : (m1 ++ (tag, v) :: m2 : Stack) = m1 ++ (n.tag, v) :: m2 := by rw [ht]
          rw [e3]; exact h3
        intro r k hrk
        rcases h4 r k hrk with ⟨rfl, hi⟩ | h
        · right; exact ⟨p, is, l, hp, hr, hi⟩
        · right; exact h

theorem run_refines {ops : List Op} : ∀ {w : World} {s : List Stack}, Refines w s → PrivateRun w ops →
    (run w ops = none ∧ specRun s ops = none) ∨
    ∃ w' s', run w ops = some w' ∧ specRun s ops = some s' ∧ Refines w' s' := by
  induction ops with
  | nil => intro w s hR _; exact Or.inr ⟨w, s, rfl, rfl, hR⟩
  | cons op ops ih =>
    intro w s hR hP
    rcases step_refines hR op hP.1 with ⟨h1, h2⟩ | ⟨w', s', h1, h2, h3, -⟩
    · left; simp [run, specRun, h1, h2]
    · have := ih h3 (hP.2 w' h1)
      simpa [run, specRun, h1, h2] using this

theorem refines_observe {w : World} {s : List Stack} (hR : Refines w s) (o : Nat) :
    (∀ tag, get w o tag = (s[o]?).map (lookup tag)) ∧ diagnostic w o = s[o]? := by
  obtain ⟨hord, hlen, hrep⟩ := hR
  cases hp : w.objs[o]? with
  | none =>
    have : s[o]? = none := by rw [List.getElem?_eq_none_iff] at hp ⊢; omega
    simp [get, diagnostic, hp, this]
  | some p =>
    obtain ⟨is, l, hr, hs⟩ := hrep o p hp
    obtain ⟨-, -, -, hfuel⟩ := rep_bound hord hr
    constructor
    · intro tag
      obtain ⟨f1, f2⟩ := find_rep tag hr w.heap.length hfuel
      simp only [get, hp, hs, Option.map_some]
      rcases rep_cut tag hr with hno | ⟨is1, i, is2, n, l1, l2, e1, hn, ht, hj, e2, h2, -, -⟩
      · rw [f1 hno]
        have : l.find? (fun e => decide (e.1 = tag)) = none := by
          rw [List.find?_eq_none]; intro e he; simpa using hno e he
        simp [lookup, this]
      · rw [f2 is1 i is2 e1 hj (fun m hm => by rw [hn] at hm; cases hm; exact ht)]
        have : l.find? (fun e => decide (e.1 = tag)) = some (tag, n.val) := by
          rw [e2, List.find?_append]
          have h0 : l1.find? (fun e => decide (e.1 = tag)) = none := by
            rw [List.find?_eq_none]; intro e he; simpa using h2 e he
          simp [h0]
        simp [lookup, this, hn]
    · simp [diagnostic, hp, hs, entries_rep hr _ hfuel]

/-- C64: for every history in which no `unset` or write through `get` touches a node that
another object shares, every object behaves as its own stack of tagged values: `get` finds
the newest value of the tag that was not unset, `unset` exposes the previous one, other
tags and other objects are not disturbed, and the diagnostic text lists all values, newest
first.  In particular no walk diverges. -/
theorem C64_stacks_partial (ops : List Op) (hP : PrivateRun World.empty ops) :
    (run World.empty ops = none ↔ specRun [] ops = none) ∧
    ∀ w, run World.empty ops = some w → ∃ s, specRun [] ops = some s ∧
      ∀ o, (∀ tag, get w o tag = (s[o]?).map (lookup tag)) ∧ diagnostic w o = s[o]? := by
  have h0 : Refines World.empty [] := ⟨by intro i n h; simp [World.empty] at h, rfl, by
    intro o p h; simp [World.empty] at h⟩
  rcases run_refines h0 hP with ⟨h1, h2⟩ | ⟨w, s, h1, h2, h3⟩
  · refine ⟨by simp [h1, h2], ?_⟩
    intro w hw; rw [h1] at hw; cases hw
  · refine ⟨by simp [h1, h2], ?_⟩
    intro w' hw
    rw [h1] at hw; cases hw
    exact ⟨s, h2, fun o => refines_observe h3 o⟩

/-- The operation shares nothing: it neither copies nor assigns. -/
def NoCopy : Op → Prop
  | .copy _ => False
  | .assign _ _ => False
  | _ => True

instance (op : Op) : Decidable (NoCopy op) := by cases op <;> unfold NoCopy <;> infer_instance

def Disjoint (w : World) : Prop := ∀ o i, ¬ (Reach w o i ∧ Shared w o i)

theorem disjoint_private {w : World} (h : Disjoint w) (op : Op) : Private w op := by
  cases op <;> try trivial
  · intro p is l is1 q i is2 hp hr he _ _ hs
    exact h _ q ⟨⟨p, is, l, hp, hr, by rw [he]; simp⟩, hs⟩
  · intro p is l is1 i is2 hp hr he _ _ hs
    exact h _ i ⟨⟨p, is, l, hp, hr, by rw [he]; simp⟩, hs⟩

theorem reach_lt {w : World} {s : List Stack} (hR : Refines w s) {o i : Nat} (h : Reach w o i) :
    i < w.heap.length ∧ o < w.objs.length := by
  obtain ⟨p, is, l, hp, hr, hi⟩ := h
  refine ⟨(rep_bound hR.1 hr).2.1 i hi, ?_⟩
  rw [List.getElem?_eq_some_iff] at hp; exact hp.1

theorem disjoint_step {w w' : World} {s : List Stack} (hR : Refines w s) (hd : Disjoint w) {op : Op}
    (hn : NoCopy op) (ho : Origin w op w') : Disjoint w' := by
  rintro o i ⟨h1, q, hqo, h2⟩
  rcases ho o i h1 with ⟨he, t, v, rfl⟩ | h1'
  · rcases ho q i h2 with ⟨-, t', v', hs⟩ | h2'
    · cases hs; exact hqo rfl
    · have := (reach_lt hR h2').1; omega
  · rcases ho q i h2 with ⟨he, -⟩ | h2'
    · have := (reach_lt hR h1').1; omega
    · refine hd (src w op o) i ⟨h1', src w op q, ?_, h2'⟩
      intro he
      cases op <;> simp only [src, NoCopy] at he hn <;> try exact hqo he
      rename_i k
      split at he <;> split at he <;> rename_i ha hb <;> (try split at he) <;> (try split at he) <;>
        omega

/-- C64: histories without copies always behave as independent stacks. -/
theorem C64_no_copies (ops : List Op) (h : ∀ op ∈ ops, NoCopy op) :
    (run World.empty ops = none ↔ specRun [] ops = none) ∧
    ∀ w, run World.empty ops = some w → ∃ s, specRun [] ops = some s ∧
      ∀ o, (∀ tag, get w o tag = (s[o]?).map (lookup tag)) ∧ diagnostic w o = s[o]? := by
  apply C64_stacks_partial
  have key : ∀ (ops : List Op) (w : World) (s : List Stack), (∀ op ∈ ops, NoCopy op) → Refines w s →
      Disjoint w → PrivateRun w ops := by
    intro ops
    induction ops with
    | nil => intros; trivial
    | cons op ops ih =>
      intro w s hops hR hd
      refine ⟨disjoint_private hd op, ?_⟩
      intro w' hw'
      rcases step_refines hR op (disjoint_private hd op) with ⟨h1, -⟩ | ⟨w2, s2, h1, -, h3, h4⟩
      · rw [h1] at hw'; cases hw'
      · rw [h1] at hw'; cases hw'
        exact ih _ s2 (fun x hx => hops x (by simp [hx])) h3
          (disjoint_step hR hd (hops op (by simp)) h4)
  refine key ops World.empty [] h ?_ ?_
  · exact ⟨by intro i n h; simp [World.empty] at h, rfl, by intro o p h; simp [World.empty] at h⟩
  · rintro o i ⟨⟨p, is, l, hp, -⟩, -⟩
    simp [World.empty] at hp

example : ∀ op ∈ [Op.new, .set 0 1 10, .set 0 2 20, .set 0 1 30, .unset 0 1, .move 0], NoCopy op := by
  decide

/-- A history with a copy that still is private: `unset` of the newest entry. -/
example : PrivateRun World.empty [.new, .set 0 1 10, .copy 0, .set 1 1 20, .copy 1] :=
  ⟨trivial, fun _ _ => ⟨trivial, fun _ _ => ⟨trivial, fun _ _ => ⟨trivial, fun _ _ =>
    ⟨trivial, fun _ _ => trivial⟩⟩⟩⟩⟩

/-- C64, violated: `unset` on a copy also removes the value from the original, and so does
writing through the pointer. -/
theorem C64_copy_violated :
    (∃ w, run World.empty [.new, .set 0 1 10, .set 0 2 20, .copy 0, .unset 1 1] = some w ∧
      get w 0 1 = some none ∧
      specRun [] [.new, .set 0 1 10, .set 0 2 20, .copy 0, .unset 1 1] =
        some [[(2, 20), (1, 10)], [(2, 20)]]) ∧
    (∃ w, run World.empty [.new, .set 0 1 10, .copy 0, .modify 1 1 11] = some w ∧
      get w 0 1 = some (some 11)) := by
  refine ⟨⟨_, rfl, rfl, rfl⟩, ⟨_, rfl, rfl⟩⟩

end Verif.ExcInfo
