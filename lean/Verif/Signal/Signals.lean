import Verif.Signal.Lists
/-
The invariant is kept by creating, moving and swapping signals and by connecting slots.
-/
namespace Verif.Signal
open Spec

theorem Inv.active_fresh {st : State} {L : Nat → List Nat} (hi : Inv st L) {g : Nat}
    (hg : (st.sigs g).alive = false) : (st.sigs g).active = 0 := by
  rw [hi.em.active]
  apply Classical.byContradiction
  intro hne
  obtain ⟨i, th', h1, h2⟩ := sumBy_pos _ (Nat.pos_of_ne_zero hne)
  obtain ⟨j, f, h3, h4⟩ := sumBy_pos _ h2
  have h5 := hi.em.falive i th' h1 f (List.mem_iff_getElem?.2 ⟨j, h3⟩)
  have h6 : f.sig = g := by
    apply Classical.byContradiction
    intro hc; simp [hc] at h4
  rw [h6, hg] at h5; cases h5

/-- The thread is put back as it is. -/
theorem EmInv.keep {sigs sigs' : Nat → Sig} {nem t : Nat} {threads : List Thread} {th : Thread}
    {log evs : List Ev} {L L' : Nat → List Nat} (em : EmInv sigs nem threads log L)
    (ht : threads[t]? = some th) (hpn : th.pend = .none)
    (hact : ∀ g, (sigs' g).active = (sigs g).active)
    (hdef : ∀ g, (sigs' g).deferred = true → (sigs' g).active ≠ 0)
    (hal : ∀ g, (sigs g).alive = true → (sigs' g).alive = true)
    (hev : ∀ ev ∈ evs, evEm ev = none)
    (hcn : ∀ (i : Nat) (th' : Thread) (s g : Nat), threads[i]? = some th' → th'.pend = .disc s g →
      conn log s = none → conn (evs ++ log) s = none)
    (hL : ∀ g, (sigs g).active ≠ 0 → ∃ F B, L' g = F ++ L g ++ B) :
    EmInv sigs' nem threads (evs ++ log) L' := by
  have := em.same (p := .none) ht hact hdef (fun g h => .inl (hal g h)) (by simp) (by simp) hev hcn (by simp) hL
  have e : ({ th with pend := .none } : Thread) = th := by cases th; simp_all
  rw [e, set_self ht] at this
  exact this

theorem good_newSig {st : State} {L : Nat → List Nat} (hi : Inv st L) {op : Op} {t : Nat} {th : Thread}
    (ht : st.threads[t]? = some th) (hpn : th.pend = .none) : Good st L op (stepUser st t th .newSig) := by
  have hfr := hi.list.sigFresh st.nsigs (Nat.le_refl _)
  have hact := hi.active_fresh hfr
  have hLn := hi.list.dead _ hfr
  refine ⟨L, ⟨hi.ref, ?_, ?_, hi.log⟩, fun _ hc => ?_⟩
  · have l := hi.list
    refine ⟨l.linked, l.nodup, l.disj, fun g => ?_, fun g => ?_, l.senderL, l.lsender, fun g h => ?_, fun g h => ?_, l.bound⟩
    · show (if g = st.nsigs then _ else st.sigs g).slots = _
      split
      · rename_i e; subst e; rw [hLn]; rfl
      · exact l.slots g
    · show (if g = st.nsigs then _ else st.sigs g).tail = _
      split
      · rename_i e; subst e; rw [hLn]; rfl
      · exact l.tail g
    · have h : (if g = st.nsigs then (⟨none, none, 0, false, true⟩ : Sig) else st.sigs g).alive = false := h
      split at h
      · cases h
      · exact l.dead g h
    · have h : st.nsigs + 1 ≤ g := h
      show (if g = st.nsigs then (⟨none, none, 0, false, true⟩ : Sig) else st.sigs g).alive = false
      rw [if_neg (by omega)]
      exact l.sigFresh g (by omega)
  · refine hi.em.keep (evs := []) ht hpn (fun g => ?_) (fun g h => ?_) (fun g h => ?_) (by simp)
      (fun _ _ _ _ _ _ h => h) (fun g _ => ⟨[], [], by simp⟩)
    · show (if g = st.nsigs then _ else st.sigs g).active = _
      split
      · rename_i e; subst e; exact hact.symm
      · rfl
    · have h : (if g = st.nsigs then (⟨none, none, 0, false, true⟩ : Sig) else st.sigs g).deferred = true := h
      show (if g = st.nsigs then (⟨none, none, 0, false, true⟩ : Sig) else st.sigs g).active ≠ 0
      split at h
      · cases h
      · rename_i e; rw [if_neg e]; exact hi.em.deferred g h
    · show (if g = st.nsigs then (⟨none, none, 0, false, true⟩ : Sig) else st.sigs g).alive = true
      split
      · rfl
      · exact h
  · refine ⟨hc.conn, fun g s h h' => ?_, hc.pendL, hc.hist⟩
    rcases hc.half g s h h' with d | d
    · left
      show (if g = st.nsigs then (⟨none, none, 0, false, true⟩ : Sig) else st.sigs g).deferred = true
      rw [if_neg]
      · exact d
      · rintro rfl; rw [hLn] at h; cases h
    · exact .inr d

theorem mem_inserted {l : List Nat} {n q : Nat} {pos : Pos} : q ∈ inserted l n pos ↔ q = n ∨ q ∈ l := by
  cases pos <;> simp [inserted, or_comm]

theorem nodup_inserted {l : List Nat} {n : Nat} {pos : Pos} (h : l.Nodup) (hn : n ∉ l) : (inserted l n pos).Nodup := by
  cases pos
  · simp only [inserted]
    rw [List.nodup_append]
    refine ⟨h, by simp, ?_⟩
    intro a ha b hb
    simp only [List.mem_singleton] at hb
    subst hb
    rintro rfl; exact hn ha
  · simp [inserted, h, hn]

theorem order_connect (n g : Nat) (pos : Pos) (l : List Ev) (x : Nat) :
    order (.connect n g pos :: l) x = if x = g then inserted (order l x) n pos else order l x := by
  cases pos <;> rfl

theorem good_connect {st : State} {L : Nat → List Nat} (hi : Inv st L) {t : Nat} {th : Thread} {g : Nat} {pos : Pos}
    (ht : st.threads[t]? = some th) (hpn : th.pend = .none) (hga : (st.sigs g).alive = true) :
    Good st L (.connect g pos) (stepUser st t th (.connect g pos)) := by
  have hLn : ∀ x, st.nslots ∉ L x := fun x h => by
    have := hi.list.bound x _ h; omega
  have hr0 : (st.heap st.nslots).refs = 0 := hi.ref.fresh _ (Nat.le_refl _)
  have hb0 : (st.heap st.nslots).blocking = 0 := by
    rw [hi.ref.blocking]
    have := hi.ref.refs st.nslots
    rw [hr0] at this
    unfold held at this; omega
  simp only [stepUser, hga, Bool.not_true, Bool.false_eq_true, if_false]
  generalize hh0 : upd st.heap st.nslots ⟨some g, 0, 1, none, true⟩ = h0
  have h0n : h0 st.nslots = ⟨some g, 0, 1, none, true⟩ := by rw [← hh0, upd_same]
  have h0q : ∀ q, q ≠ st.nslots → h0 q = st.heap q := fun q h => by rw [← hh0, upd_ne _ _ h]
  have a0 : AliveOk h0 := by
    intro q
    by_cases e : q = st.nslots
    · subst e; rw [h0n]; rfl
    · rw [h0q q e]; exact hi.ref.alive q
  have hne : ∀ x, ∀ q ∈ L x, q ≠ st.nslots := fun x q hq e => hLn x (e ▸ hq)
  obtain ⟨h1, e1, ef, lk, nx⟩ := insertSlot_ok (h := h0) (g := st.sigs g) (l := L g) (n := st.nslots) (pos := pos) a0
    (linked_congr (fun q hq => by rw [h0q q (hne g q hq)]) (hi.linkedHeap g)) (hi.list.nodup g)
    (fun q hq => by rw [h0q q (hne g q hq)]; exact hi.list_pos hq) (hLn g) (by rw [h0n]; exact Nat.one_pos) (by rw [h0n])
    (hi.list.slots g) (hi.list.tail g)
  have hp1 : 0 < (h1 st.nslots).refs := by rw [ef.refs, h0n]; simp
  rw [e1]
  simp only [orUb, addRef_ok ef.alive hp1]
  have hrefs : ∀ q, (h1 q).refs = (st.heap q).refs + (if q = st.nslots then 1 else 0) := fun q => by
    rw [ef.refs]
    by_cases e : q = st.nslots
    · subst e; rw [h0n, hr0]; simp
    · rw [h0q q e]; simp [e]
  have hblk : ∀ q, (h1 q).blocking = (st.heap q).blocking := fun q => by
    rw [ef.blocking]
    by_cases e : q = st.nslots
    · subst e; rw [h0n, hb0]
    · rw [h0q q e]
  have hsd : ∀ q, (h1 q).sender = if q = st.nslots then some g else (st.heap q).sender := fun q => by
    rw [ef.sender]
    by_cases e : q = st.nslots
    · subst e; rw [h0n]; simp
    · rw [h0q q e]; simp [e]
  have hnx : ∀ q, q ∉ inserted (L g) st.nslots pos → (h1 q).next = (st.heap q).next := fun q hq => by
    rw [nx q hq, h0q q]
    intro e
    exact hq (mem_inserted.2 (.inl e))
  have hsg : ∀ y, (setSig st g (sigWith (st.sigs g) (inserted (L g) st.nslots pos))).sigs y =
    if y = g then sigWith (st.sigs g) (inserted (L g) st.nslots pos) else st.sigs y := fun y => rfl
  have hmem : ∀ x q, q ∈ updL L g (inserted (L g) st.nslots pos) x ↔ (x = g ∧ q = st.nslots) ∨ q ∈ L x := fun x q => by
    by_cases e : x = g
    · subst e; rw [updL_same, mem_inserted]; simp
    · rw [updL_ne _ _ e]; simp [e]
  have hconn : ∀ q, conn (.connect st.nslots g pos :: st.log) q = if q = st.nslots then some g else conn st.log q :=
    fun q => rfl
  refine ⟨updL L g (inserted (L g) st.nslots pos), ⟨⟨aliveOk_withRB _ _ _, fun q h => ?_, fun q => ?_, fun q => ?_,
    fun q => ?_⟩, ?_, ?_, ?_⟩, fun _ hc => ?_⟩
  · show (h1 q).refs + ind (some st.nslots) q = 0
    have h : st.nslots + 1 ≤ q := h
    rw [hrefs, hi.ref.fresh q (by omega), if_neg (by omega)]
    unfold ind
    rw [if_neg]
    simp only [Option.some.injEq]; omega
  · show (h1 q).refs + ind (some st.nslots) q = held (st.conns ++ [⟨some st.nslots, false⟩]) st.blks st.threads st.leaks q + _
    have hl : listed (updL L g (inserted (L g) st.nslots pos)) q = listed L q + (if q = st.nslots then 1 else 0) := by
      by_cases e : q = st.nslots
      · subst e
        rw [listed_not hLn, listed_mem (g := g) ((hmem g _).2 (.inl ⟨rfl, rfl⟩))]; simp
      · rw [if_neg e]
        apply listed_congr
        constructor
        · rintro ⟨x, hx⟩
          rcases (hmem x q).1 hx with h | h
          · exact absurd h.2 e
          · exact ⟨x, h⟩
        · rintro ⟨x, hx⟩
          exact ⟨x, (hmem x q).2 (.inr hx)⟩
    rw [hrefs, hl, hi.ref.refs]
    unfold held
    rw [sumBy_snoc]
    simp only
    omega
  · exact (hblk q).trans (hi.ref.blocking q)
  · exact (hi.ref.blog q).trans (hblk q).symm
  · have l := hi.list
    refine ⟨fun x => ?_, fun x => ?_, fun x y q h h' => ?_, fun x => ?_, fun x => ?_, fun q x h => ?_, fun q x h => ?_,
      fun x h => ?_, fun x h => ?_, fun x q h => ?_⟩
    · by_cases e : x = g
      · subst e; rw [updL_same]; exact lk
      · rw [updL_ne _ _ e]
        refine linked_congr (h := st.heap) (h' := h1) (fun a ha => hnx a ?_) (l.linked x)
        intro hm
        rcases mem_inserted.1 hm with h | h
        · exact hne x a ha h
        · exact e (l.disj x g a ha h)
    · by_cases e : x = g
      · subst e; rw [updL_same]; exact nodup_inserted (l.nodup x) (hLn x)
      · rw [updL_ne _ _ e]; exact l.nodup x
    · rcases (hmem x q).1 h with h | h <;> rcases (hmem y q).1 h' with h' | h'
      · rw [h.1, h'.1]
      · exact absurd h.2 (hne y q h')
      · exact absurd h'.2 (hne x q h)
      · exact l.disj x y q h h'
    · rw [hsg]
      by_cases e : x = g
      · subst e; rw [updL_same, if_pos rfl]; rfl
      · rw [updL_ne _ _ e, if_neg e]; exact l.slots x
    · rw [hsg]
      by_cases e : x = g
      · subst e; rw [updL_same, if_pos rfl]; rfl
      · rw [updL_ne _ _ e, if_neg e]; exact l.tail x
    · have h : (h1 q).sender = some x := h
      rw [hsd] at h
      rw [hmem]
      split at h
      · rename_i e
        simp only [Option.some.injEq] at h
        exact .inl ⟨h.symm, e⟩
      · exact .inr (l.senderL q x h)
    · show (h1 q).sender = some x ∨ (h1 q).sender = none
      rw [hsd]
      rcases (hmem x q).1 h with h | h
      · left; rw [if_pos h.2, h.1]
      · rw [if_neg (hne x q h)]; exact l.lsender q x h
    · rw [hsg] at h
      by_cases e : x = g
      · subst e
        rw [if_pos rfl] at h
        rw [show (sigWith (st.sigs x) (inserted (L x) st.nslots pos)).alive = (st.sigs x).alive from rfl, hga] at h
        cases h
      · rw [if_neg e] at h; rw [updL_ne _ _ e]; exact l.dead x h
    · rw [hsg]
      by_cases e : x = g
      · subst e
        have := l.sigFresh x h
        rw [hga] at this; cases this
      · rw [if_neg e]; exact l.sigFresh x h
    · show q < st.nslots + 1
      rcases (hmem x q).1 h with h | h
      · omega
      · have := l.bound x q h; omega
  · refine hi.em.keep (evs := [.connect st.nslots g pos]) ht hpn (fun x => ?_) (fun x h => ?_) (fun x h => ?_) (by simp [evEm])
      (fun i th' q y h1 h2 h3 => ?_) (fun x h => ?_)
    · rw [hsg]; split
      · rename_i e; subst e; rfl
      · rfl
    · rw [hsg] at h ⊢
      split at h
      · rename_i e; subst e; rw [if_pos rfl]; exact hi.em.deferred x h
      · rename_i e; rw [if_neg e]; exact hi.em.deferred x h
    · rw [hsg]; split
      · exact hga
      · exact h
    · show conn (.connect st.nslots g pos :: st.log) q = none
      rw [hconn, if_neg, h3]
      rintro rfl
      have h4 : 0 < (st.heap st.nslots).refs := hi.thread_pos h1 (by
        simp only [hthread, h2, hpend, ind_self]; omega)
      omega
    · by_cases e : x = g
      · subst e
        rw [updL_same]
        cases pos
        · exact ⟨[], [st.nslots], by simp [inserted]⟩
        · exact ⟨[st.nslots], [], by simp [inserted]⟩
      · exact ⟨[], [], by rw [updL_ne _ _ e]; simp⟩
  · refine ⟨⟨fun ev h e => ?_, hi.log.hist⟩, fun x => ?_, fun q x h => ?_, fun ev h e he => ?_, fun ev h q he => ?_⟩
    · have := hi.log.slots ev h _ e; omega
    · show (updL L g (inserted (L g) st.nslots pos) x).Sublist (order (.connect st.nslots g pos :: st.log) x)
      rw [order_connect]
      by_cases e : x = g
      · subst e
        rw [updL_same, if_pos rfl]
        cases pos
        · exact (hi.log.order x).append_right _
        · exact (hi.log.order x).cons_cons _
      · rw [updL_ne _ _ e, if_neg e]; exact hi.log.order x
    · have h : conn (.connect st.nslots g pos :: st.log) q = some x := h
      show (h1 q).sender = some x
      rw [hconn] at h
      rw [hsd]
      split at h
      · rename_i e; rw [if_pos e]; exact h
      · rename_i e; rw [if_neg e]; exact hi.log.conn q x h
    · rcases List.mem_cons.1 h with rfl | h
      · cases he
      · exact hi.log.ems ev h e he
    · show q < st.nslots + 1
      rcases List.mem_cons.1 h with rfl | h
      · simp only [evSlot, Option.some.injEq] at he; omega
      · have := hi.log.slots ev h q he; omega
  · refine ⟨fun q x h => ?_, fun x q h h' => ?_, fun i th' q x y h h' hy => ?_, ⟨trivial, hc.hist⟩⟩
    · have h : (h1 q).sender = some x := h
      show conn (.connect st.nslots g pos :: st.log) q = some x
      rw [hsd] at h
      rw [hconn]
      split at h
      · rename_i e; rw [if_pos e]; exact h
      · rename_i e; rw [if_neg e]; exact hc.conn q x h
    · have h' : (h1 q).sender = none := h'
      rw [hsd] at h'
      split at h'
      · cases h'
      · rename_i e
        have hq : q ∈ L x := by
          rcases (hmem x q).1 h with h | h
          · exact absurd h.2 e
          · exact h
        rcases hc.half x q hq h' with d | d
        · left
          rw [hsg]; split
          · rename_i e; subst e; exact d
          · exact d
        · exact .inr d
    · rcases (hmem y q).1 hy with hy | hy
      · exfalso
        have h4 : 0 < (st.heap q).refs := hi.thread_pos h (by
          simp only [hthread, h', hpend, ind_self]; omega)
        rw [hy.2] at h4; omega
      · exact hc.pendL i th' q x y h h' hy

/-! ### Moving and swapping -/

def tau (g g' x : Nat) : Nat := if x = g then g' else if x = g' then g else x

theorem tau_tau {g g' x : Nat} (h : g ≠ g') : tau g g' (tau g g' x) = x := by
  unfold tau
  by_cases e : x = g
  · subst e; rw [if_pos rfl, if_neg (fun e => h e.symm), if_pos rfl]
  · rw [if_neg e]
    by_cases e' : x = g'
    · subst e'; rw [if_pos rfl, if_pos rfl]
    · rw [if_neg e', if_neg e, if_neg e']

theorem Inv.transpose {st : State} {L : Nat → List Nat} (hi : Inv st L) {op : Op} {t : Nat} {th : Thread}
    {g g' nsigs' : Nat} {x2 y2 : Sig} {h' : Heap} {ev : Ev}
    (ht : st.threads[t]? = some th) (hpn : th.pend = .none) (hgg : g ≠ g')
    (hag : (st.sigs g).active = 0) (hag' : (st.sigs g').active = 0)
    (hx : x2 = ⟨(L g').head?, (L g').getLast?, 0, false, true⟩)
    (hy : y2 = ⟨(L g).head?, (L g).getLast?, 0, false, true⟩)
    (hns : st.nsigs ≤ nsigs') (hgn : g < nsigs') (hgn' : g' < nsigs')
    (hh : ∀ q, h' q = if q ∈ L g' then { st.heap q with sender := some g }
      else if q ∈ L g then { st.heap q with sender := some g' } else st.heap q)
    (hconn : ∀ s x, conn (ev :: st.log) s = some x → ∃ y, conn st.log s = some y ∧ x = tau g g' y)
    (hconn' : ∀ s y, conn st.log s = some y → conn (ev :: st.log) s = some (tau g g' y))
    (horder : ∀ x, (L (tau g g' x)).Sublist (order (ev :: st.log) x))
    (hbl : ∀ s, blockers (ev :: st.log) s = blockers st.log s)
    (hem : evEm ev = none) (hes : evSlot ev = none) (hok : Ok st.log ev) (hcok : CallOk st.log ev)
    (hcalm : Calm st op → ∀ th ∈ st.threads, ∀ s x, th.pend = .disc s x → x ≠ g ∧ (x ≠ g' ∨ L g' = [])) :
    Good st L op (.ok { setSig (setSig st g x2) g' y2 with heap := h', nsigs := nsigs', log := ev :: st.log }) := by
  have hsg : ∀ y, (setSig (setSig st g x2) g' y2).sigs y = if y = g' then y2 else if y = g then x2 else st.sigs y :=
    fun y => rfl
  have hrefs : ∀ q, (h' q).refs = (st.heap q).refs := fun q => by rw [hh]; repeat (first | rfl | split)
  have hblk : ∀ q, (h' q).blocking = (st.heap q).blocking := fun q => by rw [hh]; repeat (first | rfl | split)
  have hnx : ∀ q, (h' q).next = (st.heap q).next := fun q => by rw [hh]; repeat (first | rfl | split)
  have halv : ∀ q, (h' q).alive = (st.heap q).alive := fun q => by rw [hh]; repeat (first | rfl | split)
  have hsd : ∀ q, (h' q).sender = if q ∈ L g' then some g else if q ∈ L g then some g' else (st.heap q).sender :=
    fun q => by rw [hh]; repeat (first | rfl | split)
  have l := hi.list
  have htg : tau g g' g = g' := by simp [tau]
  have htg' : tau g g' g' = g := by simp [tau, fun e => hgg (Eq.symm e)]
  have hto : ∀ x, x ≠ g → x ≠ g' → tau g g' x = x := fun x h1 h2 => by simp [tau, h1, h2]
  have hsender : ∀ q x, (h' q).sender = some x → q ∈ L (tau g g' x) := by
    intro q x h
    rw [hsd] at h
    split at h
    · simp only [Option.some.injEq] at h; subst h; rw [htg]; assumption
    · split at h
      · simp only [Option.some.injEq] at h; subst h; rw [htg']; assumption
      · rename_i n1 n2
        have := l.senderL q x h
        rw [hto]
        · exact this
        · rintro rfl; exact n2 this
        · rintro rfl; exact n1 this
  refine ⟨fun x => L (tau g g' x), ⟨⟨fun q => by rw [halv, hrefs]; exact hi.ref.alive q,
    fun q h => (hrefs q).trans (hi.ref.fresh q h), fun q => ?_, fun q => (hblk q).trans (hi.ref.blocking q),
    fun q => (hbl q).trans ((hi.ref.blog q).trans (hblk q).symm)⟩, ?_, ?_, ?_⟩, fun hcl hc => ?_⟩
  · refine (hrefs q).trans ?_
    rw [hi.ref.refs]
    have : listed (fun x => L (tau g g' x)) q = listed L q := by
      apply listed_congr
      constructor
      · rintro ⟨x, hx⟩; exact ⟨_, hx⟩
      · rintro ⟨x, hx⟩; exact ⟨tau g g' x, by rw [tau_tau hgg]; exact hx⟩
    rw [this]; rfl
  · refine ⟨fun x => linked_congr (h := st.heap) (h' := h') (fun a _ => hnx a) (l.linked _), fun x => l.nodup _,
      fun x y q h1 h2 => ?_, fun x => ?_, fun x => ?_, hsender, fun q x h => ?_, fun x h => ?_, fun x h => ?_,
      fun x q h => l.bound _ q h⟩
    · have := l.disj _ _ q h1 h2
      have h3 := congrArg (tau g g') this
      rwa [tau_tau hgg, tau_tau hgg] at h3
    · rw [hsg]
      by_cases e1 : x = g'
      · subst e1; rw [if_pos rfl, htg', hy]
      · by_cases e2 : x = g
        · subst e2; rw [if_neg e1, if_pos rfl, htg, hx]
        · rw [if_neg e1, if_neg e2, hto x e2 e1]; exact l.slots x
    · rw [hsg]
      by_cases e1 : x = g'
      · subst e1; rw [if_pos rfl, htg', hy]
      · by_cases e2 : x = g
        · subst e2; rw [if_neg e1, if_pos rfl, htg, hx]
        · rw [if_neg e1, if_neg e2, hto x e2 e1]; exact l.tail x
    · show (h' q).sender = some x ∨ (h' q).sender = none
      rw [hsd]
      by_cases e1 : x = g'
      · subst e1
        rw [htg'] at h
        left
        rw [if_neg (fun hq => hgg (l.disj _ _ q h hq)), if_pos h]
      · by_cases e2 : x = g
        · subst e2
          rw [htg] at h
          left; rw [if_pos h]
        · rw [hto x e2 e1] at h
          rw [if_neg (fun hq => e1 (l.disj _ _ q h hq)), if_neg (fun hq => e2 (l.disj _ _ q h hq))]
          exact l.lsender q x h
    · rw [hsg] at h
      split at h
      · rw [hy] at h; cases h
      · split at h
        · rw [hx] at h; cases h
        · rename_i n1 n2
          rw [hto x n2 n1]; exact l.dead x h
    · have h : nsigs' ≤ x := h
      rw [hsg, if_neg (by omega), if_neg (by omega)]
      exact l.sigFresh x (by omega)
  · refine hi.em.keep (evs := [ev]) ht hpn (fun x => ?_) (fun x h => ?_) (fun x h => ?_) (by simp [hem])
      (fun i th' s y _ _ h3 => ?_) (fun x h => ?_)
    · rw [hsg]
      split
      · rename_i e; subst e; rw [hy, hag']
      · split
        · rename_i e; subst e; rw [hx, hag]
        · rfl
    · rw [hsg] at h ⊢
      split at h
      · rw [hy] at h; cases h
      · split at h
        · rw [hx] at h; cases h
        · rename_i n1 n2
          rw [if_neg n1, if_neg n2]; exact hi.em.deferred x h
    · rw [hsg]
      split
      · rw [hy]
      · split
        · rw [hx]
        · exact h
    · show conn (ev :: st.log) s = none
      cases hcs : conn (ev :: st.log) s with
      | none => rfl
      | some x =>
        obtain ⟨y, h4, -⟩ := hconn s x hcs
        rw [h3] at h4; cases h4
    · have e1 : x ≠ g := by rintro rfl; exact h hag
      have e2 : x ≠ g' := by rintro rfl; exact h hag'
      exact ⟨[], [], by rw [hto x e1 e2]; simp⟩
  · refine ⟨⟨hok, hi.log.hist⟩, horder, fun q x h => ?_, fun ev' h e he => ?_, fun ev' h q he => ?_⟩
    · obtain ⟨y, h1, rfl⟩ := hconn q x h
      have h2 := hi.log.conn q y h1
      have h3 := l.senderL q y h2
      show (h' q).sender = some (tau g g' y)
      rw [hsd]
      by_cases e1 : y = g'
      · subst e1; rw [if_pos h3, htg']
      · by_cases e2 : y = g
        · subst e2; rw [if_neg (fun hq => hgg (l.disj _ _ q h3 hq)), if_pos h3, htg]
        · rw [if_neg (fun hq => e1 (l.disj _ _ q h3 hq)), if_neg (fun hq => e2 (l.disj _ _ q h3 hq)), hto y e2 e1]
          exact h2
    · rcases List.mem_cons.1 h with rfl | h
      · rw [hem] at he; cases he
      · exact hi.log.ems ev' h e he
    · rcases List.mem_cons.1 h with rfl | h
      · rw [hes] at he; cases he
      · exact hi.log.slots ev' h q he
  · have hcl := hcalm hcl
    have hvalid : ∀ q x, q ∈ L x → x = g ∨ x = g' → (st.heap q).sender = some x := by
      intro q x hq hx
      rcases l.lsender q x hq with h | h
      · exact h
      · rcases hc.half x q hq h with d | ⟨i, th', h1, h2⟩
        · exfalso
          have := hi.em.deferred x d
          rcases hx with rfl | rfl
          · exact this hag
          · exact this hag'
        · exfalso
          have := hcl th' (List.mem_iff_getElem?.2 ⟨i, h1⟩) q x h2
          rcases hx with rfl | rfl
          · exact this.1 rfl
          · rcases this.2 with h | h
            · exact h rfl
            · rw [h] at hq; cases hq
    refine ⟨fun q x h => ?_, fun x q h h0 => ?_, fun i th' q x y h h0 hy' => ?_, ⟨hcok, hc.hist⟩⟩
    · have hold := hsender q x h
      have hs : (st.heap q).sender = some (tau g g' x) := by
        by_cases e1 : x = g
        · subst e1; rw [htg] at hold ⊢; exact hvalid q _ hold (.inr rfl)
        · by_cases e2 : x = g'
          · subst e2; rw [htg'] at hold ⊢; exact hvalid q _ hold (.inl rfl)
          · rw [hto x e1 e2] at hold ⊢
            have h : (h' q).sender = some x := h
            rw [hsd, if_neg (fun hq => e2 (l.disj _ _ q hold hq)), if_neg (fun hq => e1 (l.disj _ _ q hold hq))] at h
            exact h
      have := hconn' q _ (hc.conn q _ hs)
      rw [tau_tau hgg] at this
      exact this
    · have h0 : (h' q).sender = none := h0
      have hn1 : q ∉ L g' := fun hq => by rw [hsd, if_pos hq] at h0; cases h0
      have hn2 : q ∉ L g := fun hq => by rw [hsd, if_neg hn1, if_pos hq] at h0; cases h0
      rw [hsd, if_neg hn1, if_neg hn2] at h0
      have e1 : x ≠ g := by rintro rfl; rw [htg] at h; exact hn1 h
      have e2 : x ≠ g' := by rintro rfl; rw [htg'] at h; exact hn2 h
      rw [hto x e1 e2] at h
      rcases hc.half x q h h0 with d | d
      · left; rw [hsg, if_neg e2, if_neg e1]; exact d
      · exact .inr d
    · have h1 := hc.pendL i th' q x _ h h0 hy'
      have h2 := hcl th' (List.mem_iff_getElem?.2 ⟨i, h⟩) q x h0
      have e1 : tau g g' y ≠ g := by rw [h1]; exact h2.1
      have e2 : tau g g' y ≠ g' := by
        rcases h2.2 with e | e
        · rw [h1]; exact e
        · intro e'
          rw [e', e] at hy'; cases hy'
      have e3 : y ≠ g' := by rintro rfl; exact e1 htg'
      have e4 : y ≠ g := by rintro rfl; exact e2 htg
      rw [hto y e4 e3] at h1; exact h1

theorem rebindAll_ok {st : State} {L : Nat → List Nat} (hi : Inv st L) {h : Heap} (a : AliveOk h)
    (hr : ∀ q, (h q).refs = (st.heap q).refs) (hn : ∀ q, (h q).next = (st.heap q).next)
    {x : Sig} {g n : Nat} (hs : x.slots = (L g).head?) (hd : x.deferred = false) :
    ∃ h', rebindAll st.nslots h x n = some (h', x) ∧
      ∀ q, h' q = if q ∈ L g then { h q with sender := some n } else h q := by
  obtain ⟨h', e, f⟩ := rebindLoop_ok (L g) st.nslots h n (hi.len g) a
    (linked_congr (fun q _ => hn q) (hi.linkedHeap g)) (fun q hq => by rw [hr]; exact hi.list_pos hq)
  refine ⟨h', ?_, f⟩
  simp only [rebindAll, cleanup, hd, Bool.not_false, if_true, hs, e, Option.map_some]

theorem good_swap {st : State} {L : Nat → List Nat} (hi : Inv st L) {t : Nat} {th : Thread} {g g' : Nat}
    (ht : st.threads[t]? = some th) (hpn : th.pend = .none) (hga : (st.sigs g).alive = true)
    (hga' : (st.sigs g').alive = true) : Good st L (.swap g g') (stepUser st t th (.swap g g')) := by
  simp only [stepUser, hga, hga', Bool.not_true, Bool.or_self, Bool.false_eq_true, if_false]
  by_cases hgg : g = g'
  · rw [if_pos hgg]; exact good_same hi _
  · rw [if_neg hgg]
    by_cases ha : (st.sigs g).active = 0
    · by_cases ha' : (st.sigs g').active = 0
      · rw [if_neg (by simp [ha, ha'])]
        have hd : (st.sigs g).deferred = false := by
          cases h : (st.sigs g).deferred with
          | false => rfl
          | true => exact absurd ha (hi.em.deferred g h)
        have hd' : (st.sigs g').deferred = false := by
          cases h : (st.sigs g').deferred with
          | false => rfl
          | true => exact absurd ha' (hi.em.deferred g' h)
        obtain ⟨h1, e1, f1⟩ := rebindAll_ok hi hi.ref.alive (fun _ => rfl) (fun _ => rfl)
          (x := ⟨(st.sigs g').slots, (st.sigs g').tail, (st.sigs g).active, (st.sigs g').deferred, true⟩)
          (g := g') (n := g) (hi.list.slots g') hd'
        rw [e1]
        simp only [orUb]
        have r1 : ∀ q, (h1 q).refs = (st.heap q).refs := fun q => by rw [f1]; split <;> rfl
        have n1 : ∀ q, (h1 q).next = (st.heap q).next := fun q => by rw [f1]; split <;> rfl
        have a1 : AliveOk h1 := fun q => by
          have : (h1 q).alive = (st.heap q).alive := by rw [f1]; split <;> rfl
          rw [this, r1]; exact hi.ref.alive q
        obtain ⟨h2, e2, f2⟩ := rebindAll_ok hi a1 r1 n1
          (x := ⟨(st.sigs g).slots, (st.sigs g).tail, (st.sigs g').active, (st.sigs g).deferred, true⟩)
          (g := g) (n := g') (hi.list.slots g) hd
        rw [e2]
        refine hi.transpose (ev := .swap g g') (nsigs' := st.nsigs) ht hpn hgg ha ha' ?_ ?_ (Nat.le_refl _) ?_ ?_ (fun q => ?_) ?_ ?_ ?_ (fun _ => rfl) rfl
          rfl trivial trivial ?_
        · simp [ha, hd', hi.list.slots g', hi.list.tail g', hga]
        · simp [ha', hd, hi.list.slots g, hi.list.tail g, hga']
        · apply Classical.byContradiction
          intro hc
          rw [hi.list.sigFresh g (by omega)] at hga; cases hga
        · apply Classical.byContradiction
          intro hc
          rw [hi.list.sigFresh g' (by omega)] at hga'; cases hga'
        · show h2 q = _
          rw [f2, f1]
          by_cases m1 : q ∈ L g <;> by_cases m2 : q ∈ L g'
          · exact absurd (hi.list.disj _ _ q m1 m2) hgg
          · simp [m1, m2]
          · simp [m1, m2]
          · simp [m1, m2]
        · intro s x h
          have h : (conn st.log s).map (fun y => if y = g then g' else if y = g' then g else y) = some x := h
          cases hc : conn st.log s with
          | none => rw [hc] at h; cases h
          | some y =>
            rw [hc] at h
            simp only [Option.map_some, Option.some.injEq] at h
            exact ⟨y, rfl, h.symm⟩
        · intro s y h
          show (conn st.log s).map (fun y => if y = g then g' else if y = g' then g else y) = _
          rw [h]; rfl
        · intro x
          show (L (tau g g' x)).Sublist (if x = g then order st.log g' else if x = g' then order st.log g else order st.log x)
          unfold tau
          by_cases e1 : x = g
          · rw [if_pos e1, if_pos e1]; exact hi.log.order _
          · rw [if_neg e1, if_neg e1]
            by_cases e2 : x = g'
            · rw [if_pos e2, if_pos e2]; exact hi.log.order _
            · rw [if_neg e2, if_neg e2]; exact hi.log.order _
        · intro hcalm th' hth s x hpd
          have := hcalm th' hth s x hpd
          exact ⟨this.1, .inl this.2⟩
      · rw [if_pos (by simp [ha'])]; trivial
    · rw [if_pos (by simp [ha])]; trivial

theorem good_moveSig {st : State} {L : Nat → List Nat} (hi : Inv st L) {t : Nat} {th : Thread} {g : Nat}
    (ht : st.threads[t]? = some th) (hpn : th.pend = .none) (hga : (st.sigs g).alive = true) :
    Good st L (.moveSig g) (stepUser st t th (.moveSig g)) := by
  simp only [stepUser, hga, Bool.not_true, Bool.false_eq_true, if_false]
  by_cases ha : (st.sigs g).active = 0
  · rw [if_neg (by simp [ha])]
    have hfr := hi.list.sigFresh st.nsigs (Nat.le_refl _)
    have hact := hi.active_fresh hfr
    have hLn := hi.list.dead _ hfr
    have hgn : g < st.nsigs := by
      apply Classical.byContradiction
      intro hc
      rw [hi.list.sigFresh g (by omega)] at hga; cases hga
    have hd : (st.sigs g).deferred = false := by
      cases h : (st.sigs g).deferred with
      | false => rfl
      | true => exact absurd ha (hi.em.deferred g h)
    obtain ⟨h1, e1, f1⟩ := rebindAll_ok hi hi.ref.alive (fun _ => rfl) (fun _ => rfl)
      (x := ⟨(st.sigs g).slots, (st.sigs g).tail, 0, (st.sigs g).deferred, true⟩)
      (g := g) (n := st.nsigs) (hi.list.slots g) hd
    rw [e1]
    simp only [orUb]
    have hcn : ∀ s, conn st.log s ≠ some st.nsigs := fun s h => by
      have := hi.list.senderL s _ (hi.log.conn s _ h)
      rw [hLn] at this; cases this
    refine hi.transpose (ev := .move g st.nsigs) (nsigs' := st.nsigs + 1) ht hpn (by omega) ha hact ?_ ?_ (by omega) (by omega)
      (by omega) (fun q => ?_) ?_ ?_ ?_ (fun _ => rfl) rfl rfl trivial trivial ?_
    · simp [ha, hLn, hga]
    · simp [hd, hi.list.slots g, hi.list.tail g]
    · show h1 q = _
      rw [f1, hLn]; simp
    · intro s x h
      have h : (conn st.log s).map (fun y => if y = g then st.nsigs else y) = some x := h
      cases hc : conn st.log s with
      | none => rw [hc] at h; cases h
      | some y =>
        rw [hc] at h
        simp only [Option.map_some, Option.some.injEq] at h
        refine ⟨y, rfl, ?_⟩
        rw [← h]
        unfold tau
        by_cases e : y = g
        · rw [if_pos e, if_pos e]
        · rw [if_neg e, if_neg e, if_neg]
          rintro rfl; exact hcn s hc
    · intro s y h
      show (conn st.log s).map (fun y => if y = g then st.nsigs else y) = _
      rw [h]
      simp only [Option.map_some, Option.some.injEq]
      unfold tau
      by_cases e : y = g
      · rw [if_pos e, if_pos e]
      · rw [if_neg e, if_neg e, if_neg]
        rintro rfl; exact hcn s h
    · intro x
      show (L (tau g st.nsigs x)).Sublist (if x = st.nsigs then order st.log g else if x = g then [] else order st.log x)
      unfold tau
      by_cases e1 : x = g
      · rw [if_pos e1, hLn]; exact List.nil_sublist _
      · rw [if_neg e1]
        by_cases e2 : x = st.nsigs
        · rw [if_pos e2, if_pos e2]; exact hi.log.order _
        · rw [if_neg e2, if_neg e2, if_neg e1]; exact hi.log.order _
    · intro hcalm th' hth s x hpd
      exact ⟨hcalm th' hth s x hpd, .inr hLn⟩
  · rw [if_pos (by simp [ha])]; trivial

end Verif.Signal
