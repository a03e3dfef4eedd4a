import Verif.Signal.Handles
/-
The invariant is kept by the operations on the lists of signals.
-/
namespace Verif.Signal
open Spec

def updL (L : Nat → List Nat) (g : Nat) (l : List Nat) : Nat → List Nat := fun x => if x = g then l else L x

theorem updL_same (L : Nat → List Nat) (g : Nat) (l : List Nat) : updL L g l g = l := by simp [updL]

theorem updL_ne (L : Nat → List Nat) {g x : Nat} (l : List Nat) (h : x ≠ g) : updL L g l x = L x := by
  simp [updL, h]

theorem updL_self (L : Nat → List Nat) (g : Nat) : updL L g (L g) = L := by
  funext x
  by_cases e : x = g <;> simp [updL, e]

/-- A slot that leaves the list. -/
theorem listed_removed {L : Nat → List Nat} {g s : Nat} {l : List Nat} (hd : ∀ g g' s, s ∈ L g → s ∈ L g' → g = g')
    (h : s ∈ L g) (h' : s ∉ l) : listed (updL L g l) s = 0 := by
  apply listed_not
  intro x hx
  by_cases e : x = g
  · subst e; rw [updL_same] at hx; exact h' hx
  · rw [updL_ne _ _ e] at hx; exact e (hd x g s hx h)

theorem listed_kept {L : Nat → List Nat} {g s : Nat} {l : List Nat} (h : s ∈ l ↔ s ∈ L g) :
    listed (updL L g l) s = listed L s := by
  apply listed_congr
  constructor
  · rintro ⟨x, hx⟩
    by_cases e : x = g
    · subst e; rw [updL_same] at hx; exact ⟨x, h.1 hx⟩
    · rw [updL_ne _ _ e] at hx; exact ⟨x, hx⟩
  · rintro ⟨x, hx⟩
    by_cases e : x = g
    · subst e; exact ⟨x, by rw [updL_same]; exact h.2 hx⟩
    · exact ⟨x, by rw [updL_ne _ _ e]; exact hx⟩

/-- A list operation that removes some slots and invalidates some. -/
theorem RefInv.eff {h h' : Heap} {n : Nat} {conns : List Handle} {blks : List (Option Nat)}
    {threads threads' : List Thread} {leaks : List Nat} {log log' : List Ev} {L : Nat → List Nat}
    {kill inval : List Nat} {g : Nat} {l : List Nat}
    (ri : RefInv h n conns blks threads leaks log L) (ef : Eff h h' kill inval)
    (hd : ∀ g g' s, s ∈ L g → s ∈ L g' → g = g')
    (hk : ∀ s, s ∈ kill ↔ s ∈ L g ∧ s ∉ l) (hl : ∀ s ∈ l, s ∈ L g)
    (ht : ∀ s, sumBy (hthread s) threads' = sumBy (hthread s) threads)
    (hlog : ∀ s, blockers log' s = blockers log s) :
    RefInv h' n conns blks threads' leaks log' (updL L g l) := by
  refine ⟨ef.alive, fun s hs => ?_, fun s => ?_, fun s => ?_, fun s => ?_⟩
  · rw [ef.refs, ri.fresh s hs]; omega
  · rw [ef.refs, ri.refs]
    unfold held
    rw [ht]
    by_cases hs : s ∈ kill
    · have h2 := (hk s).1 hs
      rw [if_pos hs, listed_removed hd h2.1 h2.2, listed_mem h2.1]; omega
    · have : s ∈ l ↔ s ∈ L g := by
        constructor
        · exact hl s
        · intro h1
          apply Classical.byContradiction
          intro h2
          exact hs ((hk s).2 ⟨h1, h2⟩)
      rw [if_neg hs, listed_kept this]; omega
  · rw [ef.blocking, ri.blocking]
  · rw [hlog, ef.blocking, ri.blog]

theorem ListInv.sub {sender sender' next next' : Nat → Option Nat} {nslots nsigs g : Nat} {sigs sigs' : Nat → Sig}
    {L : Nat → List Nat} {l : List Nat} (li : ListInv sender next nslots sigs nsigs L)
    (hsub : l.Sublist (L g)) (hlk : LinkedN next' l) (hnx : ∀ q, q ∉ L g → next' q = next q)
    (hsl : (sigs' g).slots = l.head?) (htl : (sigs' g).tail = l.getLast?)
    (hal : (sigs' g).alive = false → l = []) (hal' : (sigs' g).alive = true → (sigs g).alive = true)
    (hoth : ∀ x, x ≠ g → sigs' x = sigs x)
    (hsd : ∀ s, sender' s = sender s ∨ sender' s = none)
    (hsd' : ∀ s, sender' s = some g → s ∈ l) :
    ListInv sender' next' nslots sigs' nsigs (updL L g l) := by
  have hsome : ∀ s x, sender' s = some x → sender s = some x := by
    intro s x h
    rcases hsd s with e | e
    · rw [← e]; exact h
    · rw [e] at h; cases h
  have hmem : ∀ x s, s ∈ updL L g l x → s ∈ L x := by
    intro x s h
    by_cases e : x = g
    · subst e; rw [updL_same] at h; exact hsub.subset h
    · rw [updL_ne _ _ e] at h; exact h
  refine ⟨fun x => ?_, fun x => ?_, fun x x' s h h' => li.disj x x' s (hmem x s h) (hmem x' s h'), fun x => ?_,
    fun x => ?_, fun s x h => ?_, fun s x h => ?_, fun x h => ?_, fun x h => ?_, fun x s h => li.bound x s (hmem x s h)⟩
  · by_cases e : x = g
    · subst e; rw [updL_same]; exact hlk
    · rw [updL_ne _ _ e]
      have := linked_congr (h := fun s => ⟨none, 0, 0, next s, false⟩) (h' := fun s => ⟨none, 0, 0, next' s, false⟩)
        (l := L x) (fun a ha => hnx a (fun hg => e (li.disj x g a ha hg))) (li.linked x)
      exact this
  · by_cases e : x = g
    · subst e; rw [updL_same]; exact hsub.nodup (li.nodup x)
    · rw [updL_ne _ _ e]; exact li.nodup x
  · by_cases e : x = g
    · subst e; rw [updL_same]; exact hsl
    · rw [updL_ne _ _ e, hoth x e]; exact li.slots x
  · by_cases e : x = g
    · subst e; rw [updL_same]; exact htl
    · rw [updL_ne _ _ e, hoth x e]; exact li.tail x
  · by_cases e : x = g
    · subst e; rw [updL_same]; exact hsd' s h
    · rw [updL_ne _ _ e]; exact li.senderL s x (hsome s x h)
  · rcases hsd s with e | e
    · rw [e]; exact li.lsender s x (hmem x s h)
    · exact .inr e
  · by_cases e : x = g
    · subst e; rw [updL_same]; exact hal h
    · rw [hoth x e] at h; rw [updL_ne _ _ e]; exact li.dead x h
  · by_cases e : x = g
    · subst e
      cases ha : (sigs' x).alive with
      | false => rfl
      | true =>
        have h1 := hal' ha
        rw [li.sigFresh x h] at h1; cases h1
    · rw [hoth x e]; exact li.sigFresh x h

theorem Inv.linkedHeap {st : State} {L : Nat → List Nat} (hi : Inv st L) (g : Nat) : Linked st.heap (L g) :=
  hi.list.linked g

theorem Inv.len {st : State} {L : Nat → List Nat} (hi : Inv st L) (g : Nat) : (L g).length ≤ st.nslots :=
  length_le (hi.list.nodup g) (hi.list.bound g)

theorem Inv.allPos {st : State} {L : Nat → List Nat} (hi : Inv st L) (g : Nat) : ∀ q ∈ L g, 0 < (st.heap q).refs :=
  fun _ h => hi.list_pos h

/-! ### `sender->disconnect(id)` -/

theorem hthread_pend {th : Thread} {p : Pend} (s : Nat) (h : hpend s p = hpend s th.pend) :
    hthread s { th with pend := p } = hthread s th := by
  simp only [hthread, h]

theorem setSig_heap (st : State) (g : Nat) (x : Sig) : (setSig st g x).sigs = fun q => if q = g then x else st.sigs q :=
  rfl

theorem disc_log {evs : List Ev} (h : ∀ ev ∈ evs, ∃ s, ev = .disc s) (l : List Ev) :
    (∀ x, order (evs ++ l) x = order l x) ∧
      (∀ q, conn (evs ++ l) q = if Ev.disc q ∈ evs then none else conn l q) ∧
      (∀ q, blockers (evs ++ l) q = blockers l q) ∧
      (Hist Ok l → Hist Ok (evs ++ l)) ∧ (Hist CallOk l → Hist CallOk (evs ++ l)) := by
  induction evs with
  | nil => exact ⟨fun _ => rfl, fun _ => by simp, fun _ => rfl, id, id⟩
  | cons ev evs ih =>
    obtain ⟨s, rfl⟩ := h ev (by simp)
    obtain ⟨a, b, c, d, e⟩ := ih fun e he => h e (by simp [he])
    refine ⟨a, fun q => ?_, c, fun hh => ⟨trivial, d hh⟩, fun hh => ⟨trivial, e hh⟩⟩
    show (if q = s then none else conn (evs ++ l) q) = _
    rw [b]
    by_cases e : q = s <;> simp [e]

/-- An operation on the list of signal `g` by thread `t`. -/
theorem Inv.listOp {st : State} {L : Nat → List Nat} (hi : Inv st L) {op : Op} {t : Nat} {th : Thread} {p : Pend}
    {g : Nat} {x' : Sig} {l' kill inval : List Nat} {h' : Heap} {evs : List Ev}
    (ht : st.threads[t]? = some th) (ef : Eff st.heap h' kill inval)
    (hk : ∀ s, s ∈ kill ↔ s ∈ L g ∧ s ∉ l') (hki : ∀ s ∈ kill, s ∈ inval) (hsub : l'.Sublist (L g))
    (lk : Linked h' l') (nx : ∀ q, q ∉ L g → (h' q).next = (st.heap q).next)
    (hsl : x'.slots = l'.head?) (htl : x'.tail = l'.getLast?) (hact : x'.active = (st.sigs g).active)
    (hdef : x'.deferred = true → x'.active ≠ 0) (hdef' : (st.sigs g).deferred = true → x'.deferred = true)
    (hal : x'.alive = (st.sigs g).alive ∨ (l' = [] ∧ x'.alive = false ∧
      (∀ th ∈ st.threads, ∀ f ∈ th.frames, f.sig ≠ g) ∧ ∀ th ∈ st.threads, ∀ s, th.pend ≠ .disc s g))
    (hfull : (st.sigs g).active ≠ 0 → l' = L g)
    (hevs : ∀ ev ∈ evs, ∃ s, ev = .disc s ∧ s ∈ inval)
    (hinv : ∀ s ∈ inval, s ∈ L g ∧ conn (evs ++ st.log) s = none)
    (hpp : ∀ s, hpend s p = hpend s th.pend) (hpnd : ∀ s x, p ≠ .disc s x)
    (hm : p ≠ .none → UserFrames th.frames)
    (hdl : ∀ s ∈ l', s ∈ inval → x'.deferred = true)
    (hres : ∀ s y, th.pend = .disc s y → y = g ∧ (s ∈ L g → s ∈ inval)) :
    Good st L op (.ok { setThread (setSig st g x') t { th with pend := p } with
      heap := h', log := evs ++ st.log }) := by
  obtain ⟨a1, a2, a3, a4, a5⟩ := disc_log (fun ev h => by obtain ⟨s, e, -⟩ := hevs ev h; exact ⟨s, e⟩) st.log (evs := evs)
  have hheld : ∀ q, sumBy (hthread q) (st.threads.set t { th with pend := p }) = sumBy (hthread q) st.threads :=
    fun q => sumBy_set_eq _ ht (hthread_pend q (hpp q))
  have hconn0 : ∀ q, conn st.log q = none → conn (evs ++ st.log) q = none := fun q h => by
    rw [a2, h]; simp
  have hsg : ∀ y, (setThread (setSig st g x') t { th with pend := p }).sigs y = if y = g then x' else st.sigs y :=
    fun y => rfl
  have hmem : ∀ x s, s ∈ updL L g l' x → s ∈ L x := by
    intro x s h
    by_cases e : x = g
    · subst e; rw [updL_same] at h; exact hsub.subset h
    · rw [updL_ne _ _ e] at h; exact h
  refine ⟨updL L g l', ⟨?_, ?_, ?_, ?_⟩, fun _ hc => ?_⟩
  · exact hi.ref.eff ef hi.list.disj hk (fun s h => hsub.subset h) hheld a3
  · refine hi.list.sub hsub lk nx ?_ ?_ ?_ ?_ (fun x hx => by rw [hsg, if_neg hx]) (fun q => ?_) (fun q h => ?_)
    · rw [hsg, if_pos rfl]; exact hsl
    · rw [hsg, if_pos rfl]; exact htl
    · rw [hsg, if_pos rfl]
      intro h
      rcases hal with e | ⟨e, -, -⟩
      · rw [e] at h
        have := hi.list.dead g h
        rw [this] at hsub
        exact List.eq_nil_of_sublist_nil hsub
      · exact e
    · rw [hsg, if_pos rfl]
      intro h
      rcases hal with e | ⟨-, e, -⟩
      · rw [← e]; exact h
      · rw [e] at h; cases h
    · show (h' q).sender = _ ∨ (h' q).sender = none
      rw [ef.sender]; split
      · exact .inr rfl
      · exact .inl rfl
    · have h : (h' q).sender = some g := h
      rw [ef.sender] at h
      split at h
      · cases h
      · rename_i hne
        apply Classical.byContradiction
        intro hq
        exact hne (hki q ((hk q).2 ⟨hi.list.senderL q g h, hq⟩))
  · refine hi.em.same ht (fun x => ?_) (fun x h => ?_) (fun x h => ?_)
      (fun s y e => absurd e (hpnd s y)) hm (fun ev h => ?_) (fun _ _ s _ _ _ h => hconn0 s h)
      (fun s y e => absurd e (hpnd s y)) (fun x h => ?_)
    · rw [hsg]; split
      · rename_i e; subst e; exact hact
      · rfl
    · rw [hsg] at h ⊢
      split at h
      · rename_i e; rw [if_pos e]; exact hdef h
      · rename_i e; rw [if_neg e]; exact hi.em.deferred x h
    · rw [hsg]
      split
      · rename_i e; subst e
        rcases hal with e | ⟨-, -, e⟩
        · left; rw [e]; exact h
        · exact .inr e
      · exact .inl h
    · obtain ⟨s, e, -⟩ := hevs ev h; subst e; rfl
    · by_cases e : x = g
      · subst e; exact ⟨[], [], by rw [updL_same, hfull h]; simp⟩
      · exact ⟨[], [], by rw [updL_ne _ _ e]; simp⟩
  · refine ⟨a4 hi.log.hist, fun x => ?_, fun q x h => ?_, fun ev h e he => ?_, fun ev h q he => ?_⟩
    · have h1 : (updL L g l' x).Sublist (order st.log x) := by
        by_cases e : x = g
        · subst e; rw [updL_same]; exact hsub.trans (hi.log.order x)
        · rw [updL_ne _ _ e]; exact hi.log.order x
      have := a1 x
      show (updL L g l' x).Sublist (order (evs ++ st.log) x)
      rw [this]; exact h1
    · have h : conn (evs ++ st.log) q = some x := h
      show (h' q).sender = some x
      have hq : q ∉ inval := by
        intro hq
        rw [(hinv q hq).2] at h; cases h
      rw [ef.sender, if_neg hq]
      rw [a2] at h
      split at h
      · cases h
      · exact hi.log.conn q x h
    · rcases List.mem_append.1 h with h | h
      · obtain ⟨s, e, -⟩ := hevs ev h; subst e; cases he
      · exact hi.log.ems ev h e he
    · rcases List.mem_append.1 h with h | h
      · obtain ⟨s, e, hs⟩ := hevs ev h
        subst e
        simp only [evSlot, Option.some.injEq] at he
        subst he; exact hi.list.bound g s (hinv s hs).1
      · exact hi.log.slots ev h q he
  · refine ⟨fun q x h => ?_, fun x q h h0 => ?_, fun i th' q x y h h0 hy => ?_, a5 hc.hist⟩
    · have h : (h' q).sender = some x := h
      rw [ef.sender] at h
      split at h
      · cases h
      · rename_i hne
        show conn (evs ++ st.log) q = some x
        rw [a2, if_neg, hc.conn q x h]
        intro hm
        obtain ⟨s, e, hs⟩ := hevs _ hm
        cases e
        exact hne hs
    · have h0 : (h' q).sender = none := h0
      have hL : q ∈ L x := hmem x q h
      by_cases hq : q ∈ inval
      · have hxg : x = g := hi.list.disj x g q hL (hinv q hq).1
        subst hxg
        left
        rw [hsg, if_pos rfl]
        exact hdl q (by rw [updL_same] at h; exact h) hq
      · rw [ef.sender, if_neg hq] at h0
        rcases hc.half x q hL h0 with d | ⟨i, th', hth, hpd⟩
        · left
          rw [hsg]
          split
          · rename_i e; subst e; exact hdef' d
          · exact d
        · by_cases hit : i = t
          · subst hit
            rw [ht] at hth
            cases hth
            obtain ⟨e, hin⟩ := hres q x hpd
            subst e
            exact absurd (hin hL) hq
          · refine .inr ⟨i, th', ?_, hpd⟩
            show (st.threads.set t _)[i]? = some th'
            rw [List.getElem?_set_ne (fun e => hit e.symm)]
            exact hth
    · rcases getElem?_set_of h with ⟨_, e'⟩ | ⟨_, h⟩
      · subst e'
        exact absurd h0 (hpnd q x)
      · exact hc.pendL i th' q x y h h0 (hmem y q hy)

theorem good_disc {st : State} {L : Nat → List Nat} (hi : Inv st L) {op : Op} {t : Nat} {th : Thread} {s g : Nat}
    (ht : st.threads[t]? = some th) (hpd : th.pend = .disc s g) : Good st L op (stepPend st t th) := by
  have hga : (st.sigs g).alive = true := hi.em.palive t th ht s g hpd
  have huf : UserFrames th.frames := hi.em.mode t th ht (by rw [hpd]; simp)
  have hcn := hi.em.pconn t th ht s g hpd
  simp only [stepPend, hpd, hga, Bool.not_true, Bool.false_eq_true, if_false]
  have hres : ∀ s' y, th.pend = .disc s' y → y = g ∧ s' = s := fun s' y e => by
    rw [hpd] at e; cases e; exact ⟨rfl, rfl⟩
  by_cases hs : s ∈ L g
  · obtain ⟨h', e1, ef, lk, nx⟩ := disconnectLoop_found (L g) st.nslots st.heap (st.sigs g) [] s (hi.len g) hi.ref.alive
      (hi.linkedHeap g) (hi.list.nodup g) (hi.allPos g) (hi.list.slots g) (hi.list.tail g) hs
    simp only [List.getLast?_nil, List.nil_append] at e1 lk nx
    rw [hi.list.slots g, e1]
    simp only [orUb]
    by_cases ha : (st.sigs g).active = 0
    · simp only [ha, if_true] at ef lk e1 ⊢
      have hmemE : ∀ q, q ∈ (L g).erase s ↔ q ∈ L g ∧ q ≠ s := fun q => by
        rw [(hi.list.nodup g).mem_erase_iff, and_comm]
      refine hi.listOp (evs := []) (p := .rel s) (l' := (L g).erase s) ht ef (fun q => ?_) (by simp)
        List.erase_sublist lk nx rfl rfl rfl ?_ (fun h => h) (.inl rfl) (fun h => absurd ha h) (by simp) ?_ ?_ (by simp)
        (fun _ => huf) ?_ (fun s' y e => ?_)
      · rw [hmemE]
        simp only [List.mem_singleton, not_and, ne_eq, Decidable.not_not]
        exact ⟨fun e => by subst e; exact ⟨hs, fun _ => rfl⟩, fun h => h.2 h.1⟩
      · exact hi.em.deferred g
      · simp only [List.mem_singleton, forall_eq, List.nil_append]
        exact ⟨hs, hcn⟩
      · intro q; rw [hpd]; rfl
      · intro q h h2
        simp only [List.mem_singleton] at h2
        exact absurd h2 ((hmemE q).1 h).2
      · obtain ⟨e1, e2⟩ := hres s' y e
        exact ⟨e1, fun _ => by simp [e2]⟩
    · simp only [ha, if_false] at ef lk e1 ⊢
      refine hi.listOp (evs := []) (p := .rel s) (l' := L g) ht ef (by simp) (by simp)
        (List.Sublist.refl _) lk nx (hi.list.slots g) (hi.list.tail g) rfl (fun _ => ha) (fun _ => rfl) (.inl rfl)
        (fun _ => rfl) (by simp) ?_ ?_ (by simp) (fun _ => huf) (fun _ _ _ => rfl) (fun s' y e => ?_)
      · simp only [List.mem_singleton, forall_eq, List.nil_append]
        exact ⟨hs, hcn⟩
      · intro q; rw [hpd]; rfl
      · obtain ⟨e1, e2⟩ := hres s' y e
        exact ⟨e1, fun _ => by simp [e2]⟩
  · have e1 := disconnectLoop_missing (L g) st.nslots st.heap (st.sigs g) none s (hi.len g) hi.ref.alive
      (hi.linkedHeap g) (hi.allPos g) hs
    rw [hi.list.slots g, e1]
    simp only [orUb]
    refine hi.listOp (evs := []) (p := .rel s) (l' := L g) (x' := st.sigs g) ht (Eff.refl hi.ref.alive) (by simp) (by simp)
      (List.Sublist.refl _) (hi.linkedHeap g) (fun _ _ => rfl) (hi.list.slots g) (hi.list.tail g) rfl
      (hi.em.deferred g) (fun h => h) (.inl rfl)
      (fun _ => rfl) (by simp) (by simp) ?_ (by simp) (fun _ => huf) (by simp) (fun s' y e => ?_)
    · intro q; rw [hpd]; rfl
    · obtain ⟨e1, e2⟩ := hres s' y e
      exact ⟨e1, fun h => by subst e2; exact absurd h hs⟩

theorem good_rel {st : State} {L : Nat → List Nat} (hi : Inv st L) {op : Op} {t : Nat} {th : Thread} {s : Nat}
    (ht : st.threads[t]? = some th) (hpd : th.pend = .rel s) : Good st L op (stepPend st t th) := by
  have hthr : ∀ q, hthread q th = ind (some s) q + sumBy (hframe q) th.frames := fun q => by
    simp only [hthread, hpd, hpend]
  have hpos : 0 < (st.heap s).refs := hi.thread_pos ht (by rw [hthr, ind_self]; omega)
  simp only [stepPend, hpd, release_eq hi.ref.alive hpos, orUb]
  refine hi.handles (evs := []) (p := .none) (conns' := st.conns) (blks' := st.blks) ht (by simp [hpd]) (by simp) (by simp)
    (by simp) (by simp) (fun q => ?_) hi.ref.blocking hi.ref.blog (fun q h => ?_)
  · have h1 := sumBy_set (hthread q) (b := { th with pend := .none }) ht
    have h2 : hthread q { th with pend := .none } = sumBy (hframe q) th.frames := by
      simp only [hthread, hpend]; omega
    have h3 := hthr q
    rw [hi.ref.refs]; unfold held; omega
  · rw [hi.ref.fresh q h]; omega

/-- `disconnect_all_slots` and the destructor. -/
theorem good_discAll {st : State} {L : Nat → List Nat} (hi : Inv st L) {op : Op} {t : Nat} {th : Thread} {g : Nat}
    {b : Bool} (ht : st.threads[t]? = some th) (hpn : th.pend = .none)
    (hb : b = (st.sigs g).alive ∨ b = false ∧
      (∀ th ∈ st.threads, ∀ f ∈ th.frames, f.sig ≠ g) ∧ ∀ th ∈ st.threads, ∀ s, th.pend ≠ .disc s g) :
    Good st L op (orUb (discAllLoop st.nslots st.heap (st.sigs g) (st.sigs g).slots none) fun r =>
        .ok { setSig st g { r.2.1 with alive := b } with
              heap := r.1
              log := (r.2.2.reverse.map Ev.disc) ++ st.log }) := by
  have hself : ∀ s' : State, s'.threads = st.threads → setThread s' t { th with pend := .none } = s' := by
    intro s' hs'
    have : ({ th with pend := .none } : Thread) = th := by cases th; simp_all
    unfold setThread
    rw [this, hs', set_self ht, ← hs']
  by_cases ha : (st.sigs g).active = 0
  · obtain ⟨h', e1, ef, nx⟩ := discAllLoop_remove (L g) st.nslots st.heap (st.sigs g) (hi.len g) hi.ref.alive
      (hi.linkedHeap g) (hi.list.nodup g) (hi.allPos g) (hi.list.slots g) (hi.list.tail g) ha
    rw [hi.list.slots g, e1]
    simp only [orUb]
    have hdl := disc_log (evs := (L g).reverse.map Ev.disc) (by simp) st.log
    have := hi.listOp (op := op) (evs := (L g).reverse.map Ev.disc) (p := .none) (l' := [])
      (x' := { sigWith (st.sigs g) [] with alive := b }) ht ef (by simp) (fun s h => h)
      (List.nil_sublist _) trivial (fun q _ => nx q) rfl rfl rfl (hi.em.deferred g) (fun h => h)
      (hb.imp_right fun x => ⟨rfl, x⟩) (fun h => absurd ha h) (by simp)
      (fun s h => ⟨h, by rw [hdl.2.1]; simp [h]⟩) (fun s => by rw [hpn]) (by simp) (by simp) (by simp) (by simp [hpn])
    rw [hself (setSig st g { sigWith (st.sigs g) [] with alive := b }) rfl] at this
    exact this
  · obtain ⟨h', e1, ef, nx⟩ := discAllLoop_defer (L g) st.nslots st.heap (st.sigs g) none (hi.len g) hi.ref.alive
      (hi.linkedHeap g) (hi.allPos g) ha
    rw [hi.list.slots g, e1]
    simp only [orUb]
    have hdl := disc_log (evs := (L g).reverse.map Ev.disc) (by simp) st.log
    have hba : b = (st.sigs g).alive := by
      rcases hb with h | ⟨-, h, -⟩
      · exact h
      · exfalso
        apply ha
        rw [hi.em.active]
        apply Classical.byContradiction
        intro hne
        obtain ⟨i, th', h1, h2⟩ := sumBy_pos _ (Nat.pos_of_ne_zero hne)
        obtain ⟨j, f, h3, h4⟩ := sumBy_pos _ h2
        have := h th' (List.mem_iff_getElem?.2 ⟨i, h1⟩) f (List.mem_iff_getElem?.2 ⟨j, h3⟩)
        simp [this] at h4
    have := hi.listOp (op := op) (evs := (L g).reverse.map Ev.disc) (p := .none) (l' := L g)
      (x' := { (st.sigs g) with deferred := (st.sigs g).deferred || !(L g).isEmpty, alive := b }) ht ef (by simp) (by simp)
      (List.Sublist.refl _) (linked_congr (fun q _ => nx q) (hi.linkedHeap g)) (fun q _ => nx q) (hi.list.slots g)
      (hi.list.tail g) rfl (fun _ => ha) (fun h => by simp [h]) (.inl hba) (fun _ => rfl) (by simp)
      (fun s h => ⟨h, by rw [hdl.2.1]; simp [h]⟩) (fun s => by rw [hpn]) (by simp) (by simp)
      (fun s h _ => by
        have : (L g).isEmpty = false := by
          cases hl : L g with
          | nil => rw [hl] at h; cases h
          | cons _ _ => rfl
        simp [this])
      (by simp [hpn])
    rw [hself (setSig st g _) rfl] at this
    exact this

end Verif.Signal
