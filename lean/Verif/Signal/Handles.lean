import Verif.Signal.Basic
/-
The invariant is kept by the operations on handles.
-/
namespace Verif.Signal
open Spec

def CalmI (st : State) (L : Nat → List Nat) : Prop :=
  CalmInv (fun s => (st.heap s).sender) st.sigs st.threads st.log L

/-- The outcome of an action keeps the invariant and is not undefined behaviour. -/
def Good (st : State) (L : Nat → List Nat) (op : Op) : Out → Prop
  | .ok st' => ∃ L', Inv st' L' ∧ (Calm st op → CalmI st L → CalmI st' L')
  | .ub => False
  | _ => True

/-! ### What has references -/

theorem Inv.pos_of_held {st : State} {L : Nat → List Nat} (hi : Inv st L) {s : Nat}
    (h : 0 < held st.conns st.blks st.threads st.leaks s) : 0 < (st.heap s).refs := by
  rw [hi.ref.refs]; omega

theorem ind_self (s : Nat) : ind (some s) s = 1 := by simp [ind]

theorem Inv.conn_pos {st : State} {L : Nat → List Nat} (hi : Inv st L) {c s : Nat} {x : Handle}
    (h : st.conns[c]? = some x) (hs : x.slot = some s) : 0 < (st.heap s).refs := by
  apply hi.pos_of_held
  have := le_sumBy (fun x => ind x.slot s) h
  simp only [hs, ind_self] at this
  unfold held; omega

theorem Inv.blk_pos {st : State} {L : Nat → List Nat} (hi : Inv st L) {c s : Nat}
    (h : st.blks[c]? = some (some s)) : 0 < (st.heap s).refs ∧ 0 < (st.heap s).blocking := by
  have := le_sumBy (fun x => ind x s) h
  simp only [ind_self] at this
  constructor
  · apply hi.pos_of_held
    unfold held; omega
  · rw [hi.ref.blocking]; omega

theorem Inv.thread_pos {st : State} {L : Nat → List Nat} (hi : Inv st L) {t s : Nat} {th : Thread}
    (h : st.threads[t]? = some th) (hs : 0 < hthread s th) : 0 < (st.heap s).refs := by
  apply hi.pos_of_held
  have := le_sumBy (hthread s) h
  unfold held; omega

theorem Inv.list_pos {st : State} {L : Nat → List Nat} (hi : Inv st L) {g s : Nat}
    (h : s ∈ L g) : 0 < (st.heap s).refs := by
  rw [hi.ref.refs, listed_mem h]; omega

theorem Inv.lt_of_pos {st : State} {L : Nat → List Nat} (hi : Inv st L) {s : Nat}
    (h : 0 < (st.heap s).refs) : s < st.nslots := by
  apply Classical.byContradiction
  intro h'
  have := hi.ref.fresh s (by omega)
  omega

/-! ### Events of blockers -/

def Silent (ev : Ev) : Prop := (∃ s, ev = .blk s) ∨ ∃ s, ev = .unblk s

theorem Silent.order {ev : Ev} (h : Silent ev) (l : List Ev) (x : Nat) : order (ev :: l) x = order l x := by
  rcases h with ⟨s, rfl⟩ | ⟨s, rfl⟩ <;> rfl

theorem Silent.conn {ev : Ev} (h : Silent ev) (l : List Ev) (x : Nat) : conn (ev :: l) x = conn l x := by
  rcases h with ⟨s, rfl⟩ | ⟨s, rfl⟩ <;> rfl

theorem Silent.em {ev : Ev} (h : Silent ev) : evEm ev = none := by
  rcases h with ⟨s, rfl⟩ | ⟨s, rfl⟩ <;> rfl

theorem Silent.ok {ev : Ev} (h : Silent ev) (l : List Ev) : Ok l ev ∧ CallOk l ev := by
  rcases h with ⟨s, rfl⟩ | ⟨s, rfl⟩ <;> exact ⟨trivial, trivial⟩

theorem silent_log {evs : List Ev} (h : ∀ ev ∈ evs, Silent ev) (l : List Ev) :
    (∀ x, order (evs ++ l) x = order l x) ∧ (∀ x, conn (evs ++ l) x = conn l x) ∧
      (Hist Ok l → Hist Ok (evs ++ l)) ∧ (Hist CallOk l → Hist CallOk (evs ++ l)) := by
  induction evs with
  | nil => exact ⟨fun _ => rfl, fun _ => rfl, id, id⟩
  | cons ev evs ih =>
    have h1 := h ev (by simp)
    obtain ⟨a, b, c, d⟩ := ih fun e he => h e (by simp [he])
    refine ⟨fun x => ?_, fun x => ?_, fun hh => ?_, fun hh => ?_⟩
    · rw [List.cons_append, h1.order, a]
    · rw [List.cons_append, h1.conn, b]
    · exact ⟨(h1.ok _).1, c hh⟩
    · exact ⟨(h1.ok _).2, d hh⟩

/-! ### Operations that change only handles and counts -/

theorem Inv.handles {st : State} {L : Nat → List Nat} (hi : Inv st L) {op : Op} {t : Nat} {th : Thread} {p : Pend}
    {r b : Nat → Nat} {conns' : List Handle} {blks' : List (Option Nat)} {evs : List Ev}
    (ht : st.threads[t]? = some th) (hnp : ∀ s g, th.pend ≠ .disc s g) (hp : ∀ s g, p ≠ .disc s g)
    (hm : p ≠ .none → UserFrames th.frames)
    (hev : ∀ ev ∈ evs, Silent ev) (hes : ∀ ev ∈ evs, ∀ s, evSlot ev = some s → s < st.nslots)
    (hr : ∀ s, r s = held conns' blks' (st.threads.set t { th with pend := p }) st.leaks s + listed L s)
    (hb : ∀ s, b s = sumBy (fun x => ind x s) blks')
    (hbl : ∀ s, blockers (evs ++ st.log) s = b s)
    (hf : ∀ s, st.nslots ≤ s → r s = 0) :
    Good st L op (.ok { st with heap := withRB st.heap r b, conns := conns', blks := blks', threads := st.threads.set t { th with pend := p }, log := evs ++ st.log }) := by
  obtain ⟨e1, e2, e3, e4⟩ := silent_log hev st.log
  refine ⟨L, ⟨⟨aliveOk_withRB _ _ _, hf, hr, hb, hbl⟩, hi.list, ?_, ?_⟩, fun _ hc => ?_⟩
  · exact hi.em.same ht (fun _ => rfl) hi.em.deferred (fun g h => .inl h)
      (fun s g h => absurd h (hp s g)) hm (fun ev h => (hev ev h).em)
      (fun _ _ s _ _ _ h => by rw [e2]; exact h) (fun s g h => absurd h (hp s g)) (fun g _ => ⟨[], [], by simp⟩)
  · refine ⟨e3 hi.log.hist, fun g => ?_, fun s g h => ?_, fun ev h e he => ?_, fun ev h s he => ?_⟩
    · rw [e1]; exact hi.log.order g
    · rw [e2] at h; exact hi.log.conn s g h
    · rcases List.mem_append.1 h with h | h
      · rw [(hev ev h).em] at he; cases he
      · exact hi.log.ems ev h e he
    · rcases List.mem_append.1 h with h | h
      · exact hes ev h s he
      · exact hi.log.slots ev h s he
  · refine ⟨fun s g h => ?_, fun g s h h' => ?_, fun i th' s g g' h h' hg => ?_, e4 hc.hist⟩
    · rw [e2]; exact hc.conn s g h
    · rcases hc.half g s h h' with x | ⟨i, th', hth, hpd⟩
      · exact .inl x
      · refine .inr ⟨i, th', ?_, hpd⟩
        show (st.threads.set t _)[i]? = some th'
        rw [List.getElem?_set_ne]
        · exact hth
        · rintro rfl
          rw [ht] at hth
          cases hth
          exact hnp _ _ hpd
    · rcases getElem?_set_of h with ⟨_, e'⟩ | ⟨_, h⟩
      · subst e'
        exact absurd h' (hp s g)
      · exact hc.pendL i th' s g g' h h' hg

/-- The same when the thread itself does not change. -/
theorem Inv.handles' {st : State} {L : Nat → List Nat} (hi : Inv st L) {op : Op} {t : Nat} {th : Thread}
    {r b : Nat → Nat} {conns' : List Handle} {blks' : List (Option Nat)} {evs : List Ev}
    (ht : st.threads[t]? = some th) (hpn : th.pend = .none)
    (hev : ∀ ev ∈ evs, Silent ev) (hes : ∀ ev ∈ evs, ∀ s, evSlot ev = some s → s < st.nslots)
    (hr : ∀ s, r s = held conns' blks' st.threads st.leaks s + listed L s)
    (hb : ∀ s, b s = sumBy (fun x => ind x s) blks')
    (hbl : ∀ s, blockers (evs ++ st.log) s = b s)
    (hf : ∀ s, st.nslots ≤ s → r s = 0) :
    Good st L op (.ok { st with heap := withRB st.heap r b, conns := conns', blks := blks', log := evs ++ st.log }) := by
  have hs : st.threads.set t { th with pend := th.pend } = st.threads := set_self ht
  have := hi.handles (op := op) (p := th.pend) (r := r) (b := b) (conns' := conns') (blks' := blks') (evs := evs)
    ht (by simp [hpn]) (by simp [hpn]) (by simp [hpn]) hev hes (by rw [hs]; exact hr) hb hbl hf
  rw [hs] at this
  exact this

theorem withRB_self {h : Heap} (a : AliveOk h) : withRB h (fun q => (h q).refs) (fun q => (h q).blocking) = h := by
  funext q
  exact (obj_eq a q).symm

/-- Only the arrangement of the handles changes. -/
theorem Inv.rearrange {st : State} {L : Nat → List Nat} (hi : Inv st L) {op : Op} {t : Nat} {th : Thread}
    {conns' : List Handle} {blks' : List (Option Nat)} (ht : st.threads[t]? = some th) (hpn : th.pend = .none)
    (hc : ∀ s, sumBy (fun x => ind x.slot s) conns' = sumBy (fun x => ind x.slot s) st.conns)
    (hb : ∀ s, sumBy (fun x => ind x s) blks' = sumBy (fun x => ind x s) st.blks) :
    Good st L op (.ok { st with conns := conns', blks := blks' }) := by
  have := hi.handles' (op := op) (r := fun q => (st.heap q).refs) (b := fun q => (st.heap q).blocking)
    (conns' := conns') (blks' := blks') (evs := []) ht hpn (by simp) (by simp)
    (fun s => by rw [hi.ref.refs]; unfold held; rw [hc, hb])
    (fun s => by rw [hi.ref.blocking, hb]) hi.ref.blog hi.ref.fresh
  rw [withRB_self hi.ref.alive] at this
  exact this

theorem good_same {st : State} {L : Nat → List Nat} (hi : Inv st L) (op : Op) : Good st L op (.ok st) :=
  ⟨L, hi, fun _ h => h⟩

/-- A reference to a slot moves from a handle to the thread, to be released. -/
theorem Inv.toRel {st : State} {L : Nat → List Nat} (hi : Inv st L) {op : Op} {t : Nat} {th : Thread} {s : Nat}
    {conns' : List Handle} (ht : st.threads[t]? = some th) (hpn : th.pend = .none) (hu : UserFrames th.frames)
    (hc : ∀ q, sumBy (fun x => ind x.slot q) conns' + ind (some s) q = sumBy (fun x => ind x.slot q) st.conns) :
    Good st L op (.ok (setThread { st with conns := conns' } t { th with pend := .rel s })) := by
  have := hi.handles (op := op) (p := .rel s) (r := fun q => (st.heap q).refs) (b := fun q => (st.heap q).blocking)
    (conns' := conns') (blks' := st.blks) (evs := []) ht (by simp [hpn]) (by simp) (fun _ => hu) (by simp) (by simp)
    (fun q => by
      have h1 := sumBy_set (hthread q) (b := { th with pend := .rel s }) ht
      have h2 : hthread q { th with pend := .rel s } = hthread q th + ind (some s) q := by
        simp only [hthread, hpn, hpend]; omega
      have h3 := hc q
      rw [hi.ref.refs]; unfold held; omega)
    hi.ref.blocking hi.ref.blog hi.ref.fresh
  rw [withRB_self hi.ref.alive] at this
  exact this

/-- The sender of a slot is exchanged for null. -/
theorem Inv.exchange {st : State} {L : Nat → List Nat} (hi : Inv st L) {op : Op} {t : Nat} {th : Thread} {s g : Nat}
    {conns' : List Handle} (ht : st.threads[t]? = some th) (hpn : th.pend = .none) (hu : UserFrames th.frames)
    (hsn : (st.heap s).sender = some g) (hpos : 0 < (st.heap s).refs)
    (hc : ∀ q, sumBy (fun x => ind x.slot q) conns' + ind (some s) q = sumBy (fun x => ind x.slot q) st.conns) :
    Good st L op (.ok { setThread { st with conns := conns' } t { th with pend := .disc s g } with
      heap := upd st.heap s { st.heap s with sender := none }
      log := .disc s :: st.log }) := by
  have hsL : s ∈ L g := hi.list.senderL s g hsn
  have hrefs : ∀ q, (upd st.heap s { st.heap s with sender := none } q).refs = (st.heap q).refs := fun q => by
    by_cases e : q = s <;> simp [upd, e]
  have hblk : ∀ q, (upd st.heap s { st.heap s with sender := none } q).blocking = (st.heap q).blocking := fun q => by
    by_cases e : q = s <;> simp [upd, e]
  have hnx : ∀ q, (upd st.heap s { st.heap s with sender := none } q).next = (st.heap q).next := fun q => by
    by_cases e : q = s <;> simp [upd, e]
  have hsd : ∀ q, (upd st.heap s { st.heap s with sender := none } q).sender =
      if q = s then none else (st.heap q).sender := fun q => by
    by_cases e : q = s <;> simp [upd, e]
  have hconn : ∀ q, conn (.disc s :: st.log) q = if q = s then none else conn st.log q := fun q => rfl
  refine ⟨L, ⟨⟨fun q => ?_, fun q h => ?_, fun q => ?_, fun q => ?_, fun q => ?_⟩, ?_, ?_, ?_⟩, fun _ hcalm => ?_⟩
  · have : (upd st.heap s { st.heap s with sender := none } q).alive = (st.heap q).alive := by
      by_cases e : q = s <;> simp [upd, e]
    show (upd st.heap s { st.heap s with sender := none } q).alive = _
    rw [this, hrefs, hi.ref.alive q]
  · exact (hrefs q).trans (hi.ref.fresh q h)
  · refine (hrefs q).trans ?_
    have h1 := sumBy_set (hthread q) (b := { th with pend := .disc s g }) ht
    have h2 : hthread q { th with pend := .disc s g } = hthread q th + ind (some s) q := by
      simp only [hthread, hpn, hpend]; omega
    have h3 := hc q
    rw [hi.ref.refs]
    show _ = held conns' st.blks (st.threads.set t _) st.leaks q + listed L q
    unfold held; omega
  · exact (hblk q).trans (hi.ref.blocking q)
  · exact (hi.ref.blog q).trans (hblk q).symm
  · have l := hi.list
    refine ⟨fun x => linked_congr (h := st.heap) (fun a _ => hnx a) (l.linked x), l.nodup, l.disj, l.slots, l.tail,
      fun q x h => ?_, fun q x h => ?_, l.dead, l.sigFresh, l.bound⟩
    · have h : (upd st.heap s { st.heap s with sender := none } q).sender = some x := h
      rw [hsd] at h
      split at h
      · cases h
      · exact l.senderL q x h
    · show (upd st.heap s { st.heap s with sender := none } q).sender = some x ∨ (upd st.heap s { st.heap s with sender := none } q).sender = none
      rw [hsd]
      split
      · exact .inr rfl
      · exact l.lsender q x h
  · refine hi.em.same (evs := [.disc s]) ht (fun _ => rfl) hi.em.deferred (fun g h => .inl h) (fun s' g' h => ?_)
      (fun _ => hu) (by simp [evEm])
      (fun _ _ q _ _ _ h => by
        show conn (.disc s :: st.log) q = none
        rw [hconn, h]; simp)
      (fun q _ h => by
        simp only [Pend.disc.injEq] at h
        show conn (.disc s :: st.log) q = none
        rw [hconn, if_pos h.1.symm])
      (fun g _ => ⟨[], [], by simp⟩)
    simp only [Pend.disc.injEq] at h
    obtain ⟨-, rfl⟩ := h
    cases ha : (st.sigs g).alive with
    | true => exact ha
    | false => rw [hi.list.dead g ha] at hsL; cases hsL
  · refine ⟨⟨trivial, hi.log.hist⟩, hi.log.order, fun q x h => ?_, fun ev h e he => ?_, fun ev h q he => ?_⟩
    · show (upd st.heap s { st.heap s with sender := none } q).sender = some x
      have h : conn (.disc s :: st.log) q = some x := h
      rw [hconn] at h
      rw [hsd]
      split at h
      · cases h
      · rename_i hne
        rw [if_neg hne]; exact hi.log.conn q x h
    · rcases List.mem_cons.1 h with rfl | h
      · cases he
      · exact hi.log.ems ev h e he
    · rcases List.mem_cons.1 h with rfl | h
      · simp only [evSlot, Option.some.injEq] at he
        subst he; exact hi.lt_of_pos hpos
      · exact hi.log.slots ev h q he
  · refine ⟨fun q x h => ?_, fun x q h h' => ?_, fun i th' q x x' h h' hx => ?_, ⟨trivial, hcalm.hist⟩⟩
    · show conn (.disc s :: st.log) q = some x
      have h : (upd st.heap s { st.heap s with sender := none } q).sender = some x := h
      rw [hsd] at h
      rw [hconn]
      split at h
      · cases h
      · rename_i hne
        rw [if_neg hne]; exact hcalm.conn q x h
    · have h' : (upd st.heap s { st.heap s with sender := none } q).sender = none := h'
      rw [hsd] at h'
      split at h'
      · rename_i e
        subst e
        have := hi.list.disj x g q h hsL
        subst this
        refine .inr ⟨t, { th with pend := .disc q x }, ?_, rfl⟩
        show (st.threads.set t _)[t]? = _
        rw [List.getElem?_set_self', ht]; rfl
      · rcases hcalm.half x q h h' with y | ⟨i, th', hth, hpd⟩
        · exact .inl y
        · refine .inr ⟨i, th', ?_, hpd⟩
          show (st.threads.set t _)[i]? = some th'
          rw [List.getElem?_set_ne]
          · exact hth
          · rintro rfl
            rw [ht] at hth
            cases hth
            rw [hpn] at hpd; cases hpd
    · rcases getElem?_set_of h with ⟨_, e'⟩ | ⟨_, h⟩
      · subst e'
        simp only [Pend.disc.injEq] at h'
        obtain ⟨rfl, rfl⟩ := h'
        exact hi.list.disj _ _ _ hx hsL
      · exact hcalm.pendL i th' q x x' h h' hx

theorem good_startDisconnect {st : State} {L : Nat → List Nat} (hi : Inv st L) {op : Op} {t : Nat} {th : Thread}
    {s : Nat} {conns' : List Handle} (ht : st.threads[t]? = some th) (hpn : th.pend = .none)
    (hu : UserFrames th.frames) (hpos : 0 < (st.heap s).refs)
    (hc : ∀ q, sumBy (fun x => ind x.slot q) conns' + ind (some s) q = sumBy (fun x => ind x.slot q) st.conns) :
    Good st L op (startDisconnect { st with conns := conns' } t th s) := by
  simp only [startDisconnect, deref_eq hi.ref.alive hpos, orUb]
  cases hs : (st.heap s).sender with
  | none => exact hi.toRel ht hpn hu hc
  | some g => exact hi.exchange ht hpn hu hs hpos hc

/-- The user operations on handles. -/
def HandleOp : Op → Bool
  | .emptyConn | .copy _ | .assign _ _ | .move _ | .swapH _ _ | .toScoped _ | .toPlain _ | .drop _
  | .disconnect _ | .blk _ | .blkCopy _ | .blkAssign _ _ | .blkMove _ | .blkSwap _ _ | .blkDrop _ => true
  | _ => false

theorem ind_fresh {st : State} {L : Nat → List Nat} (hi : Inv st L) {o : Option Nat}
    (hp : ∀ p, o = some p → 0 < (st.heap p).refs) {s : Nat} (h : st.nslots ≤ s) : ind o s = 0 := by
  unfold ind
  split
  · rename_i e
    have := hi.lt_of_pos (hp s e)
    omega
  · rfl

theorem set_set_swap {α : Type} (f : α → Nat) {l : List α} {a b : Nat} {x y : α} (ha : l[a]? = some x)
    (hb : l[b]? = some y) : sumBy f ((l.set a y).set b x) = sumBy f l := by
  by_cases e : a = b
  · subst e
    rw [ha] at hb; cases hb
    rw [set_self ha, set_self ha]
  · have h1 := sumBy_set f (b := y) ha
    have h2 : (l.set a y)[b]? = some y := by rw [List.getElem?_set_ne e]; exact hb
    have h3 := sumBy_set f (b := x) h2
    omega

theorem user_of {th : Thread} (h : th.user = true) : th.pend = .none ∧ UserFrames th.frames := by
  unfold Thread.user at h
  cases hp : th.pend <;> rw [hp] at h <;> simp only at h
  · refine ⟨rfl, ?_⟩
    cases hf : th.frames with
    | nil => trivial
    | cons f rest =>
      rw [hf] at h
      simp only at h
      show f.pc = .calling
      cases hpc : f.pc <;> rw [hpc] at h <;> simp at h ⊢
  · cases h
  · cases h

theorem blockers_blk (o : Option Nat) (l : List Ev) (s : Nat) :
    blockers (o.toList.map Ev.blk ++ l) s = blockers l s + ind o s := by
  cases o with
  | none => simp [ind_none]
  | some p =>
    by_cases e : s = p
    · subst e; simp [blockers, ind]
    · have e' : ¬ p = s := fun x => e x.symm
      simp [blockers, ind, e, e']

theorem blockers_unblk (o : Option Nat) (l : List Ev) (s : Nat) :
    blockers (o.toList.map Ev.unblk ++ l) s = blockers l s - ind o s := by
  cases o with
  | none => simp [ind_none]
  | some p =>
    by_cases e : s = p
    · subst e; simp [blockers, ind]
    · have e' : ¬ p = s := fun x => e x.symm
      simp [blockers, ind, e, e']

theorem good_blk {st : State} {L : Nat → List Nat} (hi : Inv st L) {op : Op} {t : Nat} {th : Thread} {s : Nat}
    (ht : st.threads[t]? = some th) (hpn : th.pend = .none) (hpos : 0 < (st.heap s).refs) :
    Good st L op (orUb (addRef st.heap s) fun h => orUb (block h s) fun h =>
      .ok { st with heap := h, blks := st.blks ++ [some s], log := .blk s :: st.log }) := by
  have hpos' : 0 < (withRB st.heap (fun q => (st.heap q).refs + ind (some s) q)
      (fun q => (st.heap q).blocking) s).refs := by
    show 0 < (st.heap s).refs + ind (some s) s
    omega
  simp only [addRef_ok hi.ref.alive hpos, orUb, block_ok (aliveOk_withRB _ _ _) hpos', withRB_withRB]
  refine hi.handles' (evs := [.blk s]) ht hpn (by simp [Silent]) ?_ (fun q => ?_) (fun q => ?_)
    (fun q => ?_) (fun q h => ?_)
  · intro ev h q hq
    simp only [List.mem_singleton] at h
    subst h
    simp only [evSlot, Option.some.injEq] at hq
    subst hq; exact hi.lt_of_pos hpos
  · show (st.heap q).refs + ind (some s) q = _
    rw [hi.ref.refs]; unfold held; rw [sumBy_snoc]; omega
  · show (st.heap q).blocking + ind (some s) q = _
    rw [hi.ref.blocking, sumBy_snoc]
  · have := blockers_blk (some s) st.log q
    simp only [Option.toList_some, List.map_cons, List.map_nil] at this
    rw [this, hi.ref.blog]
    rfl
  · show (st.heap q).refs + ind (some s) q = _
    rw [hi.ref.fresh q h, ind_fresh hi (o := some s) (fun p e => by cases e; exact hpos) h]

theorem good_blkAssign {st : State} {L : Nat → List Nat} (hi : Inv st L) {op : Op} {t : Nat} {th : Thread}
    {a b : Nat} {x y : Option Nat} (ht : st.threads[t]? = some th) (hpn : th.pend = .none) (hab : a ≠ b)
    (ha : st.blks[a]? = some x) (hb : st.blks[b]? = some y) :
    Good st L op
      (orUb (unblockRelease? st.heap x) fun h =>
        orUb (addRefBlock? h y) fun h =>
          .ok { st with
                heap := h
                blks := st.blks.set a y
                log := y.toList.map Ev.blk ++ (x.toList.map Ev.unblk ++ st.log) }) := by
  have hpx : ∀ p, x = some p → 0 < (st.heap p).refs := fun p e => (hi.blk_pos (by rw [← e]; exact ha)).1
  have hpy : ∀ p, y = some p → 0 < (st.heap p).refs := fun p e => (hi.blk_pos (by rw [← e]; exact hb)).1
  have e1 : unblockRelease? st.heap x =
      some (withRB st.heap (fun q => (st.heap q).refs - ind x q) (fun q => (st.heap q).blocking - ind x q)) := by
    cases x with
    | none =>
      simp only [unblockRelease?, ind_none, Nat.sub_zero]
      rw [withRB_self hi.ref.alive]
    | some p =>
      have hh := hi.blk_pos ha
      have hp' : 0 < (withRB st.heap (fun q => (st.heap q).refs) (fun q => (st.heap q).blocking - ind (some p) q) p).refs :=
        hh.1
      simp only [unblockRelease?, unblock_ok hi.ref.alive hh.1 hh.2, Option.bind_some, release_eq (aliveOk_withRB _ _ _) hp',
        withRB_withRB]
      rfl
  have hge : ∀ q, ind x q + ind y q ≤ sumBy (fun z => ind z q) st.blks := fun q =>
    two_le_sumBy (fun z => ind z q) hab ha hb
  have e2 : addRefBlock? (withRB st.heap (fun q => (st.heap q).refs - ind x q)
      (fun q => (st.heap q).blocking - ind x q)) y =
      some (withRB st.heap (fun q => (st.heap q).refs - ind x q + ind y q)
        (fun q => (st.heap q).blocking - ind x q + ind y q)) := by
    cases y with
    | none => simp only [addRefBlock?, ind_none, Nat.add_zero]
    | some p =>
      have hp1 : 0 < (withRB st.heap (fun q => (st.heap q).refs - ind x q)
          (fun q => (st.heap q).blocking - ind x q) p).refs := by
        show 0 < (st.heap p).refs - ind x p
        have := hge p
        rw [ind_self] at this
        rw [hi.ref.refs]; unfold held; omega
      have hp2 : 0 < (withRB st.heap (fun q => (st.heap q).refs - ind x q + ind (some p) q)
          (fun q => (st.heap q).blocking - ind x q) p).refs := by
        show 0 < (st.heap p).refs - ind x p + ind (some p) p
        rw [ind_self]; omega
      rw [addRefBlock?, addRef_ok (aliveOk_withRB _ _ _) hp1]
      simp only [withRB_withRB, Option.bind_some]
      exact block_ok (aliveOk_withRB _ _ _) hp2
  rw [e1]
  simp only [orUb]
  rw [e2]
  have hset := fun q => sumBy_set (fun z => ind z q) (b := y) ha
  have := hi.handles' (op := op) (evs := y.toList.map Ev.blk ++ x.toList.map Ev.unblk)
    (r := fun q => (st.heap q).refs - ind x q + ind y q) (b := fun q => (st.heap q).blocking - ind x q + ind y q)
    (conns' := st.conns) (blks' := st.blks.set a y) ht hpn ?_ ?_ (fun q => ?_) (fun q => ?_) (fun q => ?_)
    (fun q h => ?_)
  · simpa using this
  · intro ev h
    rcases List.mem_append.1 h with h | h
    · obtain ⟨p, -, rfl⟩ := List.mem_map.1 h; exact .inl ⟨p, rfl⟩
    · obtain ⟨p, -, rfl⟩ := List.mem_map.1 h; exact .inr ⟨p, rfl⟩
  · intro ev h q hq
    rcases List.mem_append.1 h with h | h
    · obtain ⟨p, hp, rfl⟩ := List.mem_map.1 h
      simp only [evSlot, Option.some.injEq] at hq
      subst hq; exact hi.lt_of_pos (hpy p (by simpa using hp))
    · obtain ⟨p, hp, rfl⟩ := List.mem_map.1 h
      simp only [evSlot, Option.some.injEq] at hq
      subst hq; exact hi.lt_of_pos (hpx p (by simpa using hp))
  · have h1 := hset q
    have h2 := hge q
    rw [hi.ref.refs]; unfold held; omega
  · have h1 := hset q
    have h2 := hge q
    rw [hi.ref.blocking]; omega
  · rw [List.append_assoc, blockers_blk, blockers_unblk, hi.ref.blog]
  · rw [hi.ref.fresh q h, ind_fresh hi hpy h]; omega

theorem good_handles {st : State} {L : Nat → List Nat} (hi : Inv st L) {t : Nat} {th : Thread}
    (ht : st.threads[t]? = some th) (hu : th.user = true) {op : Op} (hop : HandleOp op = true) :
    Good st L op (stepUser st t th op) := by
  obtain ⟨hpn, huf⟩ := user_of hu
  cases op <;> simp only [HandleOp, Bool.false_eq_true] at hop <;> simp only [stepUser]
  case emptyConn =>
    exact hi.rearrange (blks' := st.blks) ht hpn (fun s => by simp [sumBy_snoc, ind_none]) (fun s => rfl)
  case copy c =>
    cases hc : st.conns[c]? with
    | none => trivial
    | some x =>
      have hpos : ∀ p, x.slot = some p → 0 < (st.heap p).refs := fun p h => hi.conn_pos hc h
      simp only [addRef?_ok hi.ref.alive hpos, orUb]
      refine hi.handles' (evs := []) ht hpn (by simp) (by simp) (fun s => ?_) (fun s => hi.ref.blocking s)
        (fun s => hi.ref.blog s) (fun s h => ?_)
      · rw [hi.ref.refs]; unfold held; rw [sumBy_snoc]; simp only; omega
      · rw [hi.ref.fresh s h, ind_fresh hi hpos h]
  case assign a b =>
    cases ha : st.conns[a]? with
    | none => trivial
    | some x =>
      cases hb : st.conns[b]? with
      | none => trivial
      | some y =>
        simp only
        by_cases hab : a = b
        · rw [if_pos hab]; exact good_same hi _
        · rw [if_neg hab]
          by_cases hs : x.isScoped = true
          · rw [if_pos hs]; trivial
          · rw [if_neg hs]
            have hpx : ∀ p, x.slot = some p → 0 < (st.heap p).refs := fun p h => hi.conn_pos ha h
            have hpy : ∀ p, y.slot = some p → 0 < (st.heap p).refs := fun p h => hi.conn_pos hb h
            simp only [release?_ok hi.ref.alive hpx, orUb]
            have hpy' : ∀ p, y.slot = some p → 0 < (withRB st.heap (fun q => (st.heap q).refs - ind x.slot q)
                (fun q => (st.heap q).blocking) p).refs := by
              intro p hp
              show 0 < (st.heap p).refs - ind x.slot p
              have h2 := two_le_sumBy (fun z => ind z.slot p) hab ha hb
              simp only [hp, ind_self] at h2
              have : (st.heap p).refs ≥ ind x.slot p + 1 := by
                rw [hi.ref.refs]; unfold held; omega
              omega
            simp only [addRef?_ok (aliveOk_withRB _ _ _) hpy', withRB_withRB]
            refine hi.handles' (evs := []) ht hpn (by simp) (by simp) (fun s => ?_) (fun s => hi.ref.blocking s)
              (fun s => hi.ref.blog s) (fun s h => ?_)
            · show (st.heap s).refs - ind x.slot s + ind y.slot s = _
              have h1 := sumBy_set (fun z => ind z.slot s) (b := (⟨y.slot, false⟩ : Handle)) ha
              have h2 := le_sumBy (fun z => ind z.slot s) ha
              simp only at h1 h2
              rw [hi.ref.refs]; unfold held
              omega
            · show (st.heap s).refs - ind x.slot s + ind y.slot s = _
              rw [hi.ref.fresh s h, ind_fresh hi hpy h]; omega
  case move c =>
    cases hc : st.conns[c]? with
    | none => trivial
    | some x =>
      refine hi.rearrange (blks' := st.blks) ht hpn (fun s => ?_) (fun s => rfl)
      have h1 := sumBy_set (fun z => ind z.slot s) (b := (⟨none, x.isScoped⟩ : Handle)) hc
      simp only [ind_none] at h1
      rw [sumBy_snoc]; omega
  case swapH a b =>
    cases ha : st.conns[a]? with
    | none => trivial
    | some x =>
      cases hb : st.conns[b]? with
      | none => trivial
      | some y =>
        simp only
        split
        · exact hi.rearrange (blks' := st.blks) ht hpn (fun s => set_set_swap _ ha hb) (fun s => rfl)
        · trivial
  case toScoped c =>
    cases hc : st.conns[c]? with
    | none => trivial
    | some x =>
      simp only
      split
      · trivial
      · refine hi.rearrange (blks' := st.blks) ht hpn (fun s => ?_) (fun s => rfl)
        have h1 := sumBy_set (fun z => ind z.slot s) (b := (⟨none, false⟩ : Handle)) hc
        simp only [ind_none] at h1
        rw [sumBy_snoc]; simp only; omega
  case toPlain c =>
    cases hc : st.conns[c]? with
    | none => trivial
    | some x =>
      simp only
      split
      · refine hi.rearrange (blks' := st.blks) ht hpn (fun s => ?_) (fun s => rfl)
        have h1 := sumBy_set (fun z => ind z.slot s) (b := (⟨none, true⟩ : Handle)) hc
        simp only [ind_none] at h1
        rw [sumBy_snoc]; simp only; omega
      · trivial
  case drop c =>
    cases hc : st.conns[c]? with
    | none => trivial
    | some x =>
      cases hx : x.slot with
      | none => simp only [hx]; exact good_same hi _
      | some s =>
        simp only [hx]
        have hsum : ∀ q, sumBy (fun z => ind z.slot q) (st.conns.set c ⟨none, x.isScoped⟩) + ind (some s) q =
            sumBy (fun z => ind z.slot q) st.conns := fun q => by
          have h1 := sumBy_set (fun z => ind z.slot q) (b := (⟨none, x.isScoped⟩ : Handle)) hc
          simp only [ind_none, hx] at h1
          omega
        split
        · exact good_startDisconnect hi ht hpn huf (hi.conn_pos hc hx) hsum
        · exact hi.toRel ht hpn huf hsum
  case disconnect c =>
    cases hc : st.conns[c]? with
    | none => trivial
    | some x =>
      cases hx : x.slot with
      | none => simp only [hx]; exact good_same hi _
      | some s =>
        simp only [hx]
        have hsum : ∀ q, sumBy (fun z => ind z.slot q) (st.conns.set c ⟨none, x.isScoped⟩) + ind (some s) q =
            sumBy (fun z => ind z.slot q) st.conns := fun q => by
          have h1 := sumBy_set (fun z => ind z.slot q) (b := (⟨none, x.isScoped⟩ : Handle)) hc
          simp only [ind_none, hx] at h1
          omega
        exact good_startDisconnect hi ht hpn huf (hi.conn_pos hc hx) hsum
  case blk c =>
    cases hc : st.conns[c]? with
    | none => trivial
    | some x =>
      cases hx : x.slot with
      | none =>
        simp only [hx]
        exact hi.rearrange (conns' := st.conns) ht hpn (fun s => rfl) (fun s => by simp [sumBy_snoc, ind_none])
      | some s =>
        simp only [hx]
        have hpos := hi.conn_pos hc hx
        exact good_blk hi ht hpn hpos
  case blkCopy b =>
    cases hc : st.blks[b]? with
    | none => trivial
    | some x =>
      cases x with
      | none =>
        exact hi.rearrange (conns' := st.conns) ht hpn (fun s => rfl) (fun s => by simp [sumBy_snoc, ind_none])
      | some s => exact good_blk hi ht hpn (hi.blk_pos hc).1
  case blkAssign a b =>
    cases ha : st.blks[a]? with
    | none => trivial
    | some x =>
      cases hb : st.blks[b]? with
      | none => trivial
      | some y =>
        simp only
        by_cases hab : a = b
        · rw [if_pos hab]; exact good_same hi _
        · rw [if_neg hab]; exact good_blkAssign hi ht hpn hab ha hb
  case blkMove b =>
    cases hc : st.blks[b]? with
    | none => trivial
    | some x =>
      refine hi.rearrange (conns' := st.conns) ht hpn (fun s => rfl) (fun s => ?_)
      have h1 := sumBy_set (fun z => ind z s) (b := none) hc
      simp only [ind_none] at h1
      rw [sumBy_snoc]; omega
  case blkSwap a b =>
    cases ha : st.blks[a]? with
    | none => trivial
    | some x =>
      cases hb : st.blks[b]? with
      | none => trivial
      | some y =>
        exact hi.rearrange (conns' := st.conns) ht hpn (fun s => rfl) (fun s => set_set_swap _ ha hb)
  case blkDrop b =>
    cases hc : st.blks[b]? with
    | none => trivial
    | some x =>
      cases x with
      | none => exact good_same hi _
      | some s =>
        have hh := hi.blk_pos hc
        simp only [unblock_ok hi.ref.alive hh.1 hh.2, orUb]
        have hset := fun q => sumBy_set (fun z => ind z q) (b := none) hc
        refine hi.handles (evs := [.unblk s]) (p := .rel s) (conns' := st.conns) ht (by simp [hpn]) (by simp) (fun _ => huf) (by simp [Silent])
          ?_ (fun q => ?_) (fun q => ?_) (fun q => ?_) (fun q h => ?_)
        · intro ev h q hq
          simp only [List.mem_singleton] at h
          subst h
          simp only [evSlot, Option.some.injEq] at hq
          subst hq; exact hi.lt_of_pos hh.1
        · have h1 := sumBy_set (hthread q) (b := { th with pend := .rel s }) ht
          have h2 : hthread q { th with pend := .rel s } = hthread q th + ind (some s) q := by
            simp only [hthread, hpn, hpend]; omega
          have h3 := hset q
          simp only [ind_none] at h3
          rw [hi.ref.refs]; unfold held; omega
        · have h3 := hset q
          simp only [ind_none] at h3
          rw [hi.ref.blocking]; omega
        · have := blockers_unblk (some s) st.log q
          simp only [Option.toList_some, List.map_cons, List.map_nil] at this
          rw [this, hi.ref.blog]
        · exact hi.ref.fresh q h

end Verif.Signal
