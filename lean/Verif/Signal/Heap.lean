import Verif.Signal.Model
/-
The critical sections of a signal on a linked list of slots in memory, described as
operations on lists of slot numbers.
-/
namespace Verif.Signal

/-- An object exists as long as its reference count is positive. -/
def AliveOk (h : Heap) : Prop := ∀ q, (h q).alive = decide (0 < (h q).refs)

/-- These pointers link the slots in this order. -/
def LinkedN (next : Nat → Option Nat) : List Nat → Prop
  | [] => True
  | a :: l => next a = l.head? ∧ LinkedN next l

/-- The `next` pointers of these slots link them in this order. -/
abbrev Linked (h : Heap) (l : List Nat) : Prop := LinkedN (fun s => (h s).next) l

/-- What a list operation does apart from `next`. -/
structure Eff (h h' : Heap) (kill inval : List Nat) : Prop where
  blocking : ∀ q, (h' q).blocking = (h q).blocking
  sender : ∀ q, (h' q).sender = if q ∈ inval then none else (h q).sender
  refs : ∀ q, (h' q).refs = (h q).refs - (if q ∈ kill then 1 else 0)
  alive : AliveOk h'

/-- The signal with this list of slots. -/
def sigWith (g : Sig) (l : List Nat) : Sig := { g with slots := l.head?, tail := l.getLast? }

theorem Eff.refl {h : Heap} (a : AliveOk h) : Eff h h [] [] :=
  ⟨fun _ => rfl, fun _ => by simp, fun _ => by simp, a⟩

theorem Eff.trans {h h1 h2 : Heap} {k1 k2 i1 i2 : List Nat} (e1 : Eff h h1 k1 i1)
    (e2 : Eff h1 h2 k2 i2) (hd : ∀ q ∈ k1, q ∉ k2) : Eff h h2 (k1 ++ k2) (i1 ++ i2) := by
  refine ⟨fun q => by rw [e2.blocking, e1.blocking], fun q => ?_, fun q => ?_, e2.alive⟩
  · rw [e2.sender, e1.sender]
    by_cases a : q ∈ i1 <;> by_cases b : q ∈ i2 <;> simp [a, b]
  · rw [e2.refs, e1.refs]
    by_cases a : q ∈ k1
    · have b := hd q a
      simp [a, b]
    · by_cases b : q ∈ k2 <;> simp [a, b]

theorem Eff.congr {h h' : Heap} {k k' i i' : List Nat} (e : Eff h h' k i)
    (hk : ∀ q, q ∈ k ↔ q ∈ k') (hi : ∀ q, q ∈ i ↔ q ∈ i') : Eff h h' k' i' :=
  ⟨e.blocking, fun q => by rw [e.sender]; simp [hi], fun q => by rw [e.refs]; simp [hk], e.alive⟩

theorem deref_eq {h : Heap} (a : AliveOk h) {q : Nat} (p : 0 < (h q).refs) : deref h q = some (h q) := by
  simp [deref, a q, p]

theorem upd_same (h : Heap) (p : Nat) (o : SlotObj) : upd h p o p = o := by simp [upd]

theorem upd_ne (h : Heap) {p q : Nat} (o : SlotObj) (hn : q ≠ p) : upd h p o q = h q := by simp [upd, hn]

theorem release_ok {h : Heap} (a : AliveOk h) {s : Nat} (p : 0 < (h s).refs) :
    ∃ h', release h s = some h' ∧ Eff h h' [s] [] ∧ ∀ q, (h' q).next = (h q).next := by
  have hne : (h s).refs ≠ 0 := by omega
  by_cases h1 : (h s).refs = 1
  · refine ⟨upd h s { h s with refs := 0, alive := false }, by simp [release, deref_eq a p, h1], ?_, ?_⟩
    · refine ⟨fun q => ?_, fun q => ?_, fun q => ?_, fun q => ?_⟩ <;>
        by_cases e : q = s <;> simp [upd, e, h1, a q]
    · intro q; by_cases e : q = s <;> simp [upd, e]
  · refine ⟨upd h s { h s with refs := (h s).refs - 1 }, by simp [release, deref_eq a p, h1, hne], ?_, ?_⟩
    · refine ⟨fun q => ?_, fun q => ?_, fun q => ?_, fun q => ?_⟩ <;>
        by_cases e : q = s <;> simp [upd, e, a q]
      have := a s
      rw [this]
      simp; omega
    · intro q; by_cases e : q = s <;> simp [upd, e]

theorem invalidate_ok {h : Heap} (a : AliveOk h) {s : Nat} (p : 0 < (h s).refs) :
    ∃ h', rebind h s none = some h' ∧ Eff h h' [] [s] ∧ ∀ q, (h' q).next = (h q).next := by
  refine ⟨upd h s { h s with sender := none }, by simp [rebind, deref_eq a p], ?_, ?_⟩
  · refine ⟨fun q => ?_, fun q => ?_, fun q => ?_, fun q => ?_⟩ <;>
      by_cases e : q = s <;> simp [upd, e, a q, a s]
  · intro q; by_cases e : q = s <;> simp [upd, e]

theorem linked_append {h : Heap} {l1 l2 : List Nat} (hl : Linked h (l1 ++ l2)) : Linked h l2 := by
  induction l1 with
  | nil => exact hl
  | cons a l1 ih => exact ih hl.2

theorem linked_next {h : Heap} {l1 l2 : List Nat} {a : Nat} (hl : Linked h (l1 ++ a :: l2)) :
    (h a).next = l2.head? := (linked_append hl).1

theorem linked_congr {h h' : Heap} {l : List Nat} (he : ∀ a ∈ l, (h' a).next = (h a).next)
    (hl : Linked h l) : Linked h' l := by
  induction l with
  | nil => trivial
  | cons a l ih =>
    exact ⟨by show (h' a).next = _; rw [he a (by simp)]; exact hl.1, ih (fun b hb => he b (by simp [hb])) hl.2⟩

/-- Unlinking the slot behind `p`. -/
theorem linked_unlink {h : Heap} {l1 l2 : List Nat} {p s : Nat} {o : SlotObj}
    (hl : Linked h (l1 ++ p :: s :: l2)) (hn : (l1 ++ p :: s :: l2).Nodup) (ho : o.next = (h s).next) :
    Linked (upd h p o) (l1 ++ p :: l2) := by
  induction l1 with
  | nil =>
    have hn' := hn
    simp only [List.nil_append, List.nodup_cons, List.mem_cons, not_or] at hn'
    refine ⟨?_, ?_⟩
    · show (upd h p o p).next = l2.head?
      rw [upd_same, ho]
      exact hl.2.1
    · refine linked_congr ?_ hl.2.2
      intro a ha
      rw [upd_ne]
      intro e
      subst e
      exact hn'.1.2 ha
  | cons b l1 ih =>
    have hn' := hn
    simp only [List.cons_append, List.nodup_cons, List.mem_append, List.mem_cons, not_or] at hn'
    refine ⟨?_, ih hl.2 hn'.2⟩
    show (upd h p o b).next = _
    rw [upd_ne _ _ hn'.1.2.1]
    refine Eq.trans hl.1 ?_
    cases l1 <;> rfl

theorem unlink_ok {h : Heap} {g : Sig} {pre rest : List Nat} {s : Nat} (a : AliveOk h)
    (hl : Linked h (pre ++ s :: rest)) (hn : (pre ++ s :: rest).Nodup)
    (hp : ∀ q ∈ pre ++ s :: rest, 0 < (h q).refs)
    (hs : g.slots = (pre ++ s :: rest).head?) (ht : g.tail = (pre ++ s :: rest).getLast?) :
    ∃ h', unlink h g s pre.getLast? = some (h', sigWith g (pre ++ rest), rest.head?) ∧
      Eff h h' [] [] ∧ Linked h' (pre ++ rest) ∧ ∀ q, q ∉ pre → (h' q).next = (h q).next := by
  have hds : deref h s = some (h s) := deref_eq a (hp s (by simp))
  have hnx : (h s).next = rest.head? := linked_next hl
  rcases List.eq_nil_or_concat pre with e | ⟨pre', p, e⟩
  · subst e
    refine ⟨h, ?_, Eff.refl a, hl.2, fun _ _ => rfl⟩
    have hs' : g.slots = some s := by simpa using hs
    simp only [unlink, hds, Option.bind_some, List.getLast?_nil, hs', if_true, hnx, List.nil_append, sigWith]
    cases rest with
    | nil =>
      have : g.tail = some s := by simpa using ht
      simp [this]
    | cons r rest =>
      have hne : g.tail ≠ some s := by
        rw [ht]
        intro e
        have hm : s ∈ (r :: rest) := by
          have : (s :: r :: rest).getLast? = (r :: rest).getLast? := by simp
          rw [List.nil_append, this] at e
          exact List.mem_of_getLast? e
        exact (List.nodup_cons.1 hn).1 hm
      have : g.tail = (r :: rest).getLast? := by rw [ht]; simp
      rw [if_neg hne, this]
  · have e' : pre = pre' ++ [p] := by simpa using e
    subst e'
    have hl' : Linked h (pre' ++ p :: s :: rest) := by simpa using hl
    have hn' : (pre' ++ p :: s :: rest).Nodup := by simpa using hn
    have hdp : deref h p = some (h p) := deref_eq a (hp p (by simp))
    have hlast : (pre' ++ [p]).getLast? = some p := by simp
    refine ⟨upd h p { h p with next := (h s).next }, ?_, ?_, ?_, ?_⟩
    · simp only [unlink, hds, hlast, Option.bind_some, hdp, Option.map_some, hnx, sigWith]
      have hslots : (pre' ++ [p] ++ rest).head? = g.slots := by
        rw [hs]; cases pre' <;> simp
      cases rest with
      | nil =>
        have : g.tail = some s := by simpa using ht
        rw [hslots, this]
        simp
      | cons r rest =>
        have hne : g.tail ≠ some s := by
          rw [ht]
          intro e
          have hm : s ∈ (r :: rest) := by
            have : (pre' ++ [p] ++ s :: r :: rest).getLast? = (r :: rest).getLast? := by
              rw [List.getLast?_append, List.getLast?_cons_cons]
              simp [List.getLast?_cons]
            rw [this] at e
            exact List.mem_of_getLast? e
          have := (List.nodup_append.1 hn).2.1
          exact (List.nodup_cons.1 this).1 hm
        have : g.tail = (pre' ++ [p] ++ r :: rest).getLast? := by rw [ht]; simp
        rw [if_neg hne, hslots, ← this]
    · refine ⟨fun q => ?_, fun q => ?_, fun q => ?_, fun q => ?_⟩ <;>
        by_cases e : q = p <;> simp [upd, e, a q, a p]
    · have := linked_unlink (o := { h p with next := (h s).next }) hl' hn' rfl
      simpa using this
    · intro q hq
      rw [upd_ne]
      intro e
      subst e
      exact hq (by simp)

theorem removeSlot_ok {h : Heap} {g : Sig} {pre rest : List Nat} {s : Nat} (a : AliveOk h)
    (hl : Linked h (pre ++ s :: rest)) (hn : (pre ++ s :: rest).Nodup)
    (hp : ∀ q ∈ pre ++ s :: rest, 0 < (h q).refs)
    (hs : g.slots = (pre ++ s :: rest).head?) (ht : g.tail = (pre ++ s :: rest).getLast?)
    (ha : g.active = 0) :
    ∃ h', removeSlot h g s pre.getLast? = some (h', sigWith g (pre ++ rest), rest.head?) ∧
      Eff h h' [s] [] ∧ Linked h' (pre ++ rest) ∧ ∀ q, q ∉ pre → (h' q).next = (h q).next := by
  obtain ⟨h1, e1, f1, l1, n1⟩ := unlink_ok a hl hn hp hs ht
  have hs1 : 0 < (h1 s).refs := by rw [f1.refs]; simpa using hp s (by simp)
  obtain ⟨h2, e2, f2, n2⟩ := release_ok f1.alive hs1
  refine ⟨h2, ?_, ?_, ?_, ?_⟩
  · simp only [removeSlot, ha, ne_eq, not_true_eq_false, if_false, e1, e2]
  · exact Eff.trans f1 f2 (by simp)
  · exact linked_congr (fun q _ => n2 q) l1
  · intro q hq; rw [n2, n1 q hq]

/-- Inserting the new slot `n`. -/
def inserted (l : List Nat) (n : Nat) : Pos → List Nat
  | .back => l ++ [n]
  | .front => n :: l

theorem linked_snoc {h : Heap} {l : List Nat} {t n : Nat} {o : SlotObj}
    (hl : Linked h (l ++ [t])) (hn : (l ++ [t]).Nodup) (hnm : n ∉ l ++ [t]) (ho : o.next = some n)
    (hx : (h n).next = none) : Linked (upd h t o) (l ++ [t] ++ [n]) := by
  induction l with
  | nil =>
    simp only [List.nil_append, List.mem_singleton] at hnm
    refine ⟨?_, ?_, trivial⟩
    · show (upd h t o t).next = _
      rw [upd_same, ho]; rfl
    · show (upd h t o n).next = _
      rw [upd_ne _ _ hnm, hx]; rfl
  | cons b l ih =>
    simp only [List.cons_append, List.nodup_cons, List.mem_append, List.mem_cons, not_or,
      List.mem_singleton] at hn hnm
    refine ⟨?_, ih hl.2 hn.2 (by simp [hnm.2.1, hnm.2.2])⟩
    show (upd h t o b).next = _
    rw [upd_ne _ _ hn.1.2.1]
    refine Eq.trans hl.1 ?_
    cases l <;> rfl

theorem insertSlot_ok {h : Heap} {g : Sig} {l : List Nat} {n : Nat} {pos : Pos} (a : AliveOk h)
    (hl : Linked h l) (hn : l.Nodup) (hp : ∀ q ∈ l, 0 < (h q).refs) (hnm : n ∉ l)
    (hn0 : 0 < (h n).refs) (hnx : (h n).next = none)
    (hs : g.slots = l.head?) (ht : g.tail = l.getLast?) :
    ∃ h', insertSlot h g n pos = some (h', sigWith g (inserted l n pos)) ∧
      Eff h h' [] [] ∧ Linked h' (inserted l n pos) ∧
      ∀ q, q ∉ inserted l n pos → (h' q).next = (h q).next := by
  cases l with
  | nil =>
    simp only [List.head?_nil] at hs
    refine ⟨h, ?_, Eff.refl a, ?_, fun _ _ => rfl⟩
    · cases pos <;> simp [insertSlot, hs, sigWith, inserted]
    · cases pos <;> simp [inserted, LinkedN, hnx]
  | cons b l =>
    simp only [List.head?_cons] at hs
    cases pos with
    | back =>
      obtain ⟨l', t, e⟩ : ∃ l' t, b :: l = l' ++ [t] := by
        rcases List.eq_nil_or_concat (b :: l) with e | ⟨l', t, e⟩
        · cases e
        · exact ⟨l', t, by simpa using e⟩
      have htt : g.tail = some t := by rw [ht, e]; simp
      have htp : 0 < (h t).refs := hp t (by rw [e]; simp)
      have htn : t ≠ n := by rintro rfl; exact hnm (by rw [e]; simp)
      refine ⟨upd h t { h t with next := some n }, ?_, ?_, ?_, ?_⟩
      · simp only [insertSlot, hs, htt, deref_eq a htp, Option.map_some, sigWith, inserted,
          List.getLast?_append]
        rfl
      · refine ⟨fun q => ?_, fun q => ?_, fun q => ?_, fun q => ?_⟩ <;>
          by_cases e : q = t <;> simp [upd, e, a q, a t]
      · show Linked _ ((b :: l) ++ [n])
        rw [e] at hl hn hnm ⊢
        exact linked_snoc hl hn hnm rfl hnx
      · intro q hq
        rw [upd_ne]
        rintro rfl
        exact hq (by show q ∈ (b :: l) ++ [n]; rw [e]; simp)
    | front =>
      refine ⟨upd h n { h n with next := some b }, ?_, ?_, ?_, ?_⟩
      · simp only [insertSlot, hs, deref_eq a hn0, Option.map_some, sigWith, inserted, ht]
        simp
      · refine ⟨fun q => ?_, fun q => ?_, fun q => ?_, fun q => ?_⟩ <;>
          by_cases e : q = n <;> simp [upd, e, a q, a n]
      · refine ⟨by simp [upd], ?_⟩
        refine linked_congr (fun q hq => ?_) hl
        rw [upd_ne]
        rintro rfl
        exact hnm hq
      · intro q hq
        rw [upd_ne]
        rintro rfl
        exact hq (by simp [inserted])

/-! ### Loops -/

/-- The slot is not disconnected. -/
def valid (h : Heap) (s : Nat) : Bool := (h s).sender.isSome

theorem sigWith_sigWith (g : Sig) (l l' : List Nat) : sigWith (sigWith g l) l' = sigWith g l' := rfl

theorem sigWith_self {g : Sig} {l : List Nat} (hs : g.slots = l.head?) (ht : g.tail = l.getLast?) :
    sigWith g l = g := by simp [sigWith, ← hs, ← ht]

theorem cleanupLoop_ok (rest : List Nat) : ∀ (fuel : Nat) (h : Heap) (g : Sig) (pre : List Nat),
    rest.length ≤ fuel → AliveOk h → Linked h (pre ++ rest) → (pre ++ rest).Nodup →
    (∀ q ∈ pre ++ rest, 0 < (h q).refs) → g.slots = (pre ++ rest).head? →
    g.tail = (pre ++ rest).getLast? → g.active = 0 →
    ∃ h', cleanupLoop fuel h g rest.head? pre.getLast? =
        some (h', sigWith g (pre ++ rest.filter (valid h))) ∧
      Eff h h' (rest.filter (fun s => !valid h s)) [] ∧
      Linked h' (pre ++ rest.filter (valid h)) ∧
      ∀ q, q ∉ pre ++ rest → (h' q).next = (h q).next := by
  induction rest with
  | nil =>
    intro fuel h g pre hf a hl hn hp hs ht ha
    refine ⟨h, ?_, ?_, by simpa using hl, fun _ _ => rfl⟩
    · simp only [List.append_nil] at hs ht
      cases fuel <;> simp [cleanupLoop, sigWith_self hs ht]
    · exact Eff.refl a
  | cons i rest ih =>
    intro fuel h g pre hf a hl hn hp hs ht ha
    cases fuel with
    | zero => simp at hf
    | succ fuel =>
      have hi : deref h i = some (h i) := deref_eq a (hp i (by simp))
      have hnx : (h i).next = rest.head? := linked_next hl
      by_cases hv : (h i).sender.isSome
      · have hv' : valid h i = true := hv
        have hlast : (pre ++ [i]).getLast? = some i := by simp
        have := ih fuel h g (pre ++ [i]) (by simpa using hf) a (by simpa using hl) (by simpa using hn)
          (by simpa using hp) (by rw [hs]; simp) (by rw [ht]; simp) ha
        obtain ⟨h', e, f, lk, nx⟩ := this
        refine ⟨h', ?_, ?_, ?_, ?_⟩
        · rw [hlast] at e
          simp only [List.head?_cons, cleanupLoop, hi, hv, if_true, hnx]
          rw [e]
          simp [hv', sigWith]
        · simpa [hv'] using f
        · simpa [hv'] using lk
        · simpa using nx
      · have hv' : valid h i = false := by simpa [valid] using hv
        obtain ⟨h1, e1, f1, l1, n1⟩ := removeSlot_ok (s := i) (pre := pre) (rest := rest) a hl hn hp hs ht ha
        have hni : i ∉ pre ++ rest := by
          have := (List.perm_middle (a := i) (l₁ := pre) (l₂ := rest)).nodup_iff.1 hn
          exact (List.nodup_cons.1 this).1
        have hn1 : (pre ++ rest).Nodup := by
          have := (List.perm_middle (a := i) (l₁ := pre) (l₂ := rest)).nodup_iff.1 hn
          exact (List.nodup_cons.1 this).2
        have hp1 : ∀ q ∈ pre ++ rest, 0 < (h1 q).refs := by
          intro q hq
          rw [f1.refs]
          have hne : q ≠ i := by rintro rfl; exact hni hq
          simp only [List.mem_singleton, if_neg hne]
          have := hp q (by
            rcases List.mem_append.1 hq with x | x
            · simp [x]
            · simp [x])
          omega
        obtain ⟨h', e, f, lk, nx⟩ := ih fuel h1 (sigWith g (pre ++ rest)) pre (by simpa using hf) f1.alive
          l1 hn1 hp1 rfl rfl ha
        have hval : ∀ q, valid h1 q = valid h q := fun q => by simp [valid, f1.sender]
        have hval2 : valid h1 = valid h := funext hval
        rw [hval2] at e lk
        simp only [hval] at f
        refine ⟨h', ?_, ?_, ?_, ?_⟩
        · simp only [List.head?_cons, cleanupLoop, hi, hv, Bool.false_eq_true, if_false, e1]
          rw [e]
          simp [hv', sigWith]
        · have := Eff.trans f1 f (by
            intro q hq
            simp only [List.mem_singleton] at hq
            subst hq
            intro hm
            exact hni (by simp [(List.mem_filter.1 hm).1]))
          simpa [hv'] using this
        · simpa [hv'] using lk
        · intro q hq
          simp only [List.mem_append, List.mem_cons, not_or] at hq
          rw [nx q (by simp [hq.1, hq.2.2]), n1 q hq.1]

theorem cleanup_ok {fuel : Nat} {h : Heap} {g : Sig} {l : List Nat} (hf : l.length ≤ fuel) (a : AliveOk h)
    (hl : Linked h l) (hn : l.Nodup) (hp : ∀ q ∈ l, 0 < (h q).refs) (hs : g.slots = l.head?)
    (ht : g.tail = l.getLast?) (ha : g.active = 0) (hd : g.deferred = true) :
    ∃ h', cleanup fuel h g = some (h', { sigWith g (l.filter (valid h)) with deferred := false }) ∧
      Eff h h' (l.filter (fun s => !valid h s)) [] ∧ Linked h' (l.filter (valid h)) ∧
      ∀ q, q ∉ l → (h' q).next = (h q).next := by
  obtain ⟨h', e, f, lk, nx⟩ := cleanupLoop_ok l fuel h g [] hf a hl hn hp hs ht ha
  refine ⟨h', ?_, f, lk, nx⟩
  simp only [List.getLast?_nil] at e
  simp [cleanup, hd, ha, hs, e]

theorem disconnectLoop_found (rest : List Nat) : ∀ (fuel : Nat) (h : Heap) (g : Sig) (pre : List Nat) (id : Nat),
    rest.length ≤ fuel → AliveOk h → Linked h (pre ++ rest) → (pre ++ rest).Nodup →
    (∀ q ∈ pre ++ rest, 0 < (h q).refs) → g.slots = (pre ++ rest).head? →
    g.tail = (pre ++ rest).getLast? → id ∈ rest →
    ∃ h', disconnectLoop fuel h g id rest.head? pre.getLast? =
        some (h', (if g.active = 0 then sigWith g (pre ++ rest.erase id) else { g with deferred := true }), true) ∧
      Eff h h' (if g.active = 0 then [id] else []) [id] ∧
      Linked h' (if g.active = 0 then pre ++ rest.erase id else pre ++ rest) ∧
      ∀ q, q ∉ pre ++ rest → (h' q).next = (h q).next := by
  induction rest with
  | nil => intro fuel h g pre id _ _ _ _ _ _ _ hm; cases hm
  | cons i rest ih =>
    intro fuel h g pre id hf a hl hn hp hs ht hm
    cases fuel with
    | zero => simp at hf
    | succ fuel =>
      have hi : deref h i = some (h i) := deref_eq a (hp i (by simp))
      have hnx : (h i).next = rest.head? := linked_next hl
      by_cases hv : i = id
      · subst hv
        obtain ⟨h1, e1, f1, n1⟩ := invalidate_ok a (hp i (by simp))
        have hl1 : Linked h1 (pre ++ i :: rest) := linked_congr (fun q _ => n1 q) hl
        have hp1 : ∀ q ∈ pre ++ i :: rest, 0 < (h1 q).refs := by
          intro q hq; rw [f1.refs]; simpa using hp q hq
        by_cases hz : g.active = 0
        · obtain ⟨h2, e2, f2, l2, n2⟩ := removeSlot_ok (s := i) (pre := pre) (rest := rest) f1.alive hl1 hn hp1 hs ht hz
          refine ⟨h2, ?_, ?_, ?_, ?_⟩
          · simp [disconnectLoop, hi, e1, hz, e2]
          · have := Eff.trans f1 f2 (by simp)
            simpa [hz] using this
          · simpa [hz] using l2
          · intro q hq
            simp only [List.mem_append, not_or] at hq
            rw [n2 q hq.1, n1]
        · refine ⟨h1, ?_, ?_, ?_, fun q _ => n1 q⟩
          · simp [disconnectLoop, hi, e1, hz]
          · simpa [hz] using f1
          · simpa [hz] using hl1
      · have hlast : some i = (pre ++ [i]).getLast? := by simp
        have hm' : id ∈ rest := by
          rcases List.mem_cons.1 hm with x | x
          · exact absurd x.symm hv
          · exact x
        obtain ⟨h', e, f, lk, nx⟩ := ih fuel h g (pre ++ [i]) id (by simpa using hf) a (by simpa using hl)
          (by simpa using hn) (by simpa using hp) (by rw [hs]; simp) (by rw [ht]; simp) hm'
        have her : (i :: rest).erase id = i :: rest.erase id := by
          rw [List.erase_cons]; simp [hv]
        refine ⟨h', ?_, f, ?_, ?_⟩
        · rw [← hlast] at e
          simp only [List.head?_cons, disconnectLoop, hi, ne_eq, hv, not_false_iff, if_true, hnx]
          rw [e, her]
          simp
        · rw [her]; simpa using lk
        · simpa using nx

theorem disconnectLoop_missing (rest : List Nat) : ∀ (fuel : Nat) (h : Heap) (g : Sig) (prev : Option Nat) (id : Nat),
    rest.length ≤ fuel → AliveOk h → Linked h rest → (∀ q ∈ rest, 0 < (h q).refs) → id ∉ rest →
    disconnectLoop fuel h g id rest.head? prev = some (h, g, false) := by
  induction rest with
  | nil => intro fuel h g prev id _ _ _ _ _; cases fuel <;> rfl
  | cons i rest ih =>
    intro fuel h g prev id hf a hl hp hm
    cases fuel with
    | zero => simp at hf
    | succ fuel =>
      have hi : deref h i = some (h i) := deref_eq a (hp i (by simp))
      have hv : i ≠ id := by rintro rfl; exact hm (by simp)
      have := ih fuel h g (some i) id (by simpa using hf) a hl.2 (fun q hq => hp q (by simp [hq]))
        (fun hq => hm (by simp [hq]))
      simp only [List.head?_cons, disconnectLoop, hi, ne_eq, hv, not_false_iff, if_true]
      have hn1 : (h i).next = rest.head? := hl.1
      rw [hn1, this]

theorem discAllLoop_remove (rest : List Nat) : ∀ (fuel : Nat) (h : Heap) (g : Sig),
    rest.length ≤ fuel → AliveOk h → Linked h rest → rest.Nodup →
    (∀ q ∈ rest, 0 < (h q).refs) → g.slots = rest.head? → g.tail = rest.getLast? → g.active = 0 →
    ∃ h', discAllLoop fuel h g rest.head? none = some (h', sigWith g [], rest) ∧
      Eff h h' rest rest ∧ ∀ q, (h' q).next = (h q).next := by
  induction rest with
  | nil =>
    intro fuel h g hf a hl hn hp hs ht ha
    refine ⟨h, ?_, Eff.refl a, fun _ => rfl⟩
    cases fuel <;> simp [discAllLoop, sigWith_self hs ht]
  | cons i rest ih =>
    intro fuel h g hf a hl hn hp hs ht ha
    cases fuel with
    | zero => simp at hf
    | succ fuel =>
      obtain ⟨h1, e1, f1, n1⟩ := invalidate_ok a (hp i (by simp))
      have hl1 : Linked h1 ([] ++ i :: rest) := linked_congr (fun q _ => n1 q) hl
      have hp1 : ∀ q ∈ [] ++ i :: rest, 0 < (h1 q).refs := by
        intro q hq; rw [f1.refs]; simpa using hp q hq
      obtain ⟨h2, e2, f2, l2, n2⟩ := removeSlot_ok (s := i) (pre := []) (rest := rest) f1.alive hl1 hn hp1 hs ht ha
      have hni : i ∉ rest := (List.nodup_cons.1 hn).1
      have hp2 : ∀ q ∈ rest, 0 < (h2 q).refs := by
        intro q hq
        have hne : q ≠ i := by rintro rfl; exact hni hq
        rw [f2.refs, f1.refs]
        simp only [List.mem_singleton, if_neg hne, List.not_mem_nil, if_false, Nat.sub_zero]
        exact hp q (by simp [hq])
      obtain ⟨h', e, f, nx⟩ := ih fuel h2 (sigWith g rest) (by simpa using hf) f2.alive l2
        (List.nodup_cons.1 hn).2 hp2 rfl rfl ha
      refine ⟨h', ?_, ?_, ?_⟩
      · simp only [List.getLast?_nil, List.nil_append] at e2
        simp only [List.head?_cons, discAllLoop, e1, ha, if_true, e2, e, Option.map_some]
        rfl
      · have h12 := Eff.trans f1 f2 (by simp)
        have := Eff.trans h12 f (by
          intro q hq
          simp only [List.nil_append, List.mem_singleton] at hq
          subst hq; exact hni)
        simpa using this
      · intro q; rw [nx, n2 q (by simp), n1]

theorem discAllLoop_defer (rest : List Nat) : ∀ (fuel : Nat) (h : Heap) (g : Sig) (prev : Option Nat),
    rest.length ≤ fuel → AliveOk h → Linked h rest →
    (∀ q ∈ rest, 0 < (h q).refs) → g.active ≠ 0 →
    ∃ h', discAllLoop fuel h g rest.head? prev =
        some (h', { g with deferred := g.deferred || !rest.isEmpty }, rest) ∧
      Eff h h' [] rest ∧ ∀ q, (h' q).next = (h q).next := by
  induction rest with
  | nil =>
    intro fuel h g prev hf a hl hp ha
    refine ⟨h, ?_, Eff.refl a, fun _ => rfl⟩
    cases fuel <;> simp [discAllLoop]
  | cons i rest ih =>
    intro fuel h g prev hf a hl hp ha
    cases fuel with
    | zero => simp at hf
    | succ fuel =>
      obtain ⟨h1, e1, f1, n1⟩ := invalidate_ok a (hp i (by simp))
      have hl1 : Linked h1 (i :: rest) := linked_congr (fun q _ => n1 q) hl
      have hp1 : ∀ q ∈ i :: rest, 0 < (h1 q).refs := by
        intro q hq; rw [f1.refs]; simpa using hp q hq
      have hi : deref h1 i = some (h1 i) := deref_eq f1.alive (hp1 i (by simp))
      obtain ⟨h', e, f, nx⟩ := ih fuel h1 { g with deferred := true } (some i) (by simpa using hf) f1.alive hl1.2
        (fun q hq => hp1 q (by simp [hq])) ha
      refine ⟨h', ?_, ?_, ?_⟩
      · simp only [List.head?_cons, discAllLoop, e1, if_neg ha, hi, hl1.1, e, Option.map_some]
        simp
      · have := Eff.trans f1 f (by simp)
        simpa using this
      · intro q; rw [nx, n1]

theorem rebindLoop_ok (rest : List Nat) : ∀ (fuel : Nat) (h : Heap) (g : Nat),
    rest.length ≤ fuel → AliveOk h → Linked h rest → (∀ q ∈ rest, 0 < (h q).refs) →
    ∃ h', rebindLoop fuel h g rest.head? = some h' ∧
      ∀ q, h' q = if q ∈ rest then { h q with sender := some g } else h q := by
  induction rest with
  | nil =>
    intro fuel h g hf a hl hp
    exact ⟨h, by cases fuel <;> rfl, by simp⟩
  | cons i rest ih =>
    intro fuel h g hf a hl hp
    cases fuel with
    | zero => simp at hf
    | succ fuel =>
      have hi : deref h i = some (h i) := deref_eq a (hp i (by simp))
      let h1 := upd h i { h i with sender := some g }
      have hr : ∀ q, (h1 q).refs = (h q).refs := fun q => by
        by_cases e : q = i <;> simp [h1, upd, e]
      have hx : ∀ q, (h1 q).next = (h q).next := fun q => by
        by_cases e : q = i <;> simp [h1, upd, e]
      have a1 : AliveOk h1 := by
        intro q
        have : (h1 q).alive = (h q).alive := by by_cases e : q = i <;> simp [h1, upd, e]
        rw [this, hr, a q]
      have hi1 : deref h1 i = some (h1 i) := deref_eq a1 (by rw [hr]; exact hp i (by simp))
      obtain ⟨h', e, f⟩ := ih fuel h1 g (by simpa using hf) a1 (linked_congr (fun q _ => hx q) hl.2)
        (fun q hq => by rw [hr]; exact hp q (by simp [hq]))
      refine ⟨h', ?_, ?_⟩
      · have e1 : rebind h i (some g) = some h1 := by simp [rebind, hi, h1]
        simp only [List.head?_cons, rebindLoop, e1, hi1, hx, hl.1, e]
      · intro q
        rw [f]
        by_cases e : q = i <;> by_cases e2 : q ∈ rest <;> simp [h1, upd, e, e2]

theorem countLoop_ok (rest : List Nat) : ∀ (fuel : Nat) (h : Heap),
    rest.length ≤ fuel → AliveOk h → Linked h rest → (∀ q ∈ rest, 0 < (h q).refs) →
    countLoop fuel h rest.head? = some (rest.filter (valid h)).length := by
  induction rest with
  | nil => intro fuel h _ _ _ _; cases fuel <;> rfl
  | cons i rest ih =>
    intro fuel h hf a hl hp
    cases fuel with
    | zero => simp at hf
    | succ fuel =>
      have hi : deref h i = some (h i) := deref_eq a (hp i (by simp))
      have := ih fuel h (by simpa using hf) a hl.2 (fun q hq => hp q (by simp [hq]))
      simp only [List.head?_cons, countLoop, hi, hl.1, this, Option.map_some, List.filter_cons, valid]
      by_cases hv : (h i).sender.isSome <;> simp [hv]

end Verif.Signal
