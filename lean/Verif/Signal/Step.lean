import Verif.Signal.Emit
/-
The invariant is kept by every action, hence holds in every reachable state.
-/
namespace Verif.Signal
open Spec

/-- An emission ends. -/
theorem EmInv.pop {sigs sigs' : Nat → Sig} {nem t : Nat} {threads : List Thread} {th : Thread} {f : Frame}
    {rest : List Frame} {log : List Ev} {L L' : Nat → List Nat} {thr : Bool} (em : EmInv sigs nem threads log L)
    (ht : threads[t]? = some th) (hpd : th.pend = .none) (hfs : th.frames = f :: rest)
    (hact : ∀ g, (sigs' g).active + (if f.sig = g then 1 else 0) = (sigs g).active)
    (hdef : ∀ g, (sigs' g).deferred = true → (sigs' g).active ≠ 0)
    (hal : ∀ g, (sigs' g).alive = (sigs g).alive)
    (hL : ∀ g, (sigs' g).active ≠ 0 → L' g = L g)
    (hend : Ended log f.id) :
    EmInv sigs' nem (threads.set t { th with tls := f.saved, frames := rest }) (.end_ f.id thr :: log) L' := by
  generalize hth : ({ th with tls := f.saved, frames := rest } : Thread) = th1
  have hpd1 : th1.pend = .none := by rw [← hth]; exact hpd
  have hfr1 : th1.frames = rest := by rw [← hth]
  have hnfr : ∀ g, nfr g th1 + (if f.sig = g then 1 else 0) = nfr g th := fun g => by
    simp only [nfr, hfs, sumBy_cons, hfr1]; omega
  have hnid : ∀ e, nid e th1 + (if f.id = e then 1 else 0) = nid e th := fun g => by
    simp only [nid, hfs, sumBy_cons, hfr1]; omega
  have hsum : ∀ e, sumBy (nid e) (threads.set t th1) + (if f.id = e then 1 else 0) = sumBy (nid e) threads := fun e => by
    have h1 := sumBy_set (nid e) (b := th1) ht
    have := hnid e
    omega
  have hact' : ∀ g, (sigs' g).active = sumBy (nfr g) (threads.set t th1) := fun g => by
    have h1 := sumBy_set (nfr g) (b := th1) ht
    have h2 := hnfr g
    have h3 := hact g
    have h4 := em.active g
    omega
  have hfresh : ∀ (i : Nat) (th' : Thread), (threads.set t th1)[i]? = some th' → ∀ fr ∈ th'.frames,
      fr.id ≠ f.id ∧ (sigs' fr.sig).active ≠ 0 := by
    intro i th' h fr hfr
    obtain ⟨j, hj⟩ := List.mem_iff_getElem?.1 hfr
    constructor
    · intro e
      have h0 := em.ids f.id
      have h1 := hsum f.id
      have h2 := le_sumBy (nid f.id) h
      have h3 := le_sumBy (fun f' => if f'.id = f.id then 1 else 0) hj
      simp only [e, if_true] at h3 h1
      have h4 : nid f.id th' = sumBy (fun f' => if f'.id = f.id then 1 else 0) th'.frames := rfl
      omega
    · rw [hact']
      have h2 := le_sumBy (nfr fr.sig) h
      have h3 := le_sumBy (fun f' => if f'.sig = fr.sig then 1 else 0) hj
      simp only [if_true] at h3
      have h4 : nfr fr.sig th' = sumBy (fun f' => if f'.sig = fr.sig then 1 else 0) th'.frames := rfl
      omega
  have hone : 1 ≤ nid f.id th := by
    simp only [nid, hfs, sumBy_cons, if_true]; omega
  refine ⟨hact', hdef, ?_, ?_, ?_, ?_, ?_, ?_, ?_, ?_⟩
  · intro i th' h fr hfr
    rw [hal]
    rcases getElem?_set_of h with ⟨_, e⟩ | ⟨_, h⟩
    · rw [e, hfr1] at hfr
      exact em.falive t th ht fr (by rw [hfs]; simp [hfr])
    · exact em.falive i th' h fr hfr
  · intro i th' h s g hp
    rw [hal]
    rcases getElem?_set_of h with ⟨_, e⟩ | ⟨_, h⟩
    · rw [e, hpd1] at hp; cases hp
    · exact em.palive i th' h s g hp
  · intro i th' h s g hp
    rcases getElem?_set_of h with ⟨_, e⟩ | ⟨_, h⟩
    · rw [e, hpd1] at hp; cases hp
    · exact em.pconn i th' h s g hp
  · intro i th' h
    have key : ∀ fr ∈ th'.frames, ∀ tls, FrOk L log tls fr → FrOk L' (.end_ f.id thr :: log) tls fr := by
      intro fr hfr tls ho
      obtain ⟨n1, n2⟩ := hfresh i th' h fr hfr
      refine ho.mono ⟨[], [], by rw [hL _ n2]; simp⟩ ?_
      simp only [evEm, ne_eq, Option.some.injEq]
      exact fun e => n1 e.symm
    rcases getElem?_set_of h with ⟨_, e⟩ | ⟨_, h'⟩
    · have h0 := em.fok t th ht
      rw [hfs] at h0
      rw [e] at key ⊢
      rw [hfr1] at key ⊢
      have : th1.tls = f.saved := by rw [← hth]
      rw [this]
      exact h0.2.2.imp key
    · exact (em.fok i th' h').imp key
  · intro i th' h hp
    rcases getElem?_set_of h with ⟨_, e⟩ | ⟨_, h⟩
    · rw [e, hpd1] at hp; exact absurd rfl hp
    · exact em.mode i th' h hp
  · intro e
    have h1 := hsum e
    have h2 := em.ids e
    omega
  · intro e h
    have h1 := hsum e
    have h2 := em.idsLt e h
    omega
  · intro e h h'
    have h1 := hsum e
    by_cases he : f.id = e
    · subst he
      exact ⟨hend.sub, by
        rcases hend.all with h | h | h
        · exact .inl (by simp [h])
        · exact .inr (.inl (by simp [h]))
        · exact .inr (.inr h)⟩
    · rw [if_neg he] at h1
      refine (em.ended e h (by omega)).mono ?_
      simp only [evEm, ne_eq, Option.some.injEq]
      exact he

theorem good_finish2 {st : State} {L : Nat → List Nat} (hi : Inv st L) {op : Op} {t : Nat} {th : Thread} {f : Frame}
    {rest : List Frame} {thr : Bool} (ht : st.threads[t]? = some th) (hpn : th.pend = .none)
    (hfs : th.frames = f :: rest) (hq : f.pc = .finish2 thr) : Good st L op (stepFrame st t th f rest) := by
  simp only [stepFrame, hq]
  have fo := (hi.frOk ht hfs).1
  have hend : Ended st.log f.id := by
    obtain ⟨F, P, R, B, h1, h2, h3, h4, h5⟩ := fo.pos
    simp only [PcOk, hq] at h5
    refine ⟨?_, ?_⟩
    · rw [h2, fo.sig]
      exact (List.sublist_append_left P R).trans h3
    · rcases h5.2.2 with h | h | h
      · right; right
        intro s hs
        rw [fo.sig] at hs
        have := h4 s hs
        rw [h2]
        simpa [h] using this
      · exact .inl (fo.stop.2 h)
      · right; left
        exact fo.thr.2 (by rw [hq]; exact h)
  have hcur : f.cur = none ∧ f.last = none := by
    obtain ⟨F, P, R, B, h1, h2, h3, h4, h5⟩ := fo.pos
    simp only [PcOk, hq] at h5
    exact ⟨h5.2.1, h5.1⟩
  have hhf : ∀ q, hframe q f = 0 := fun q => by
    simp only [hframe, hq, hpc, hcur.1, hcur.2, ind_none]
  have hga := hi.em.falive t th ht f (by rw [hfs]; simp)
  have hactpos : (st.sigs f.sig).active ≠ 0 := by
    rw [hi.em.active]
    have h1 := le_sumBy (nfr f.sig) ht
    have h2 : 1 ≤ nfr f.sig th := by simp only [nfr, hfs, sumBy_cons, if_true]; omega
    omega
  rw [if_neg (by simp [hga, hactpos])]
  have hheld : ∀ q, sumBy (hthread q) (st.threads.set t { th with tls := f.saved, frames := rest }) =
      sumBy (hthread q) st.threads := fun q => by
    apply sumBy_set_eq _ ht
    simp only [hthread, hfs, sumBy_cons, hhf]; omega
  -- what the signal and its list become
  obtain ⟨h', x', l', kill, e0, ef, lk, nx, hk, hsub, hsl, htl, hact, hdef, hala, hfull, hsd', hdd⟩ :
      ∃ (h' : Heap) (x' : Sig) (l' kill : List Nat),
        (if (st.sigs f.sig).active = 1 then
          cleanup st.nslots st.heap { st.sigs f.sig with active := (st.sigs f.sig).active - 1 }
          else some (st.heap, { st.sigs f.sig with active := (st.sigs f.sig).active - 1 })) = some (h', x') ∧
        Eff st.heap h' kill [] ∧ Linked h' l' ∧ (∀ q, q ∉ L f.sig → (h' q).next = (st.heap q).next) ∧
        (∀ s, s ∈ kill ↔ s ∈ L f.sig ∧ s ∉ l') ∧ l'.Sublist (L f.sig) ∧ x'.slots = l'.head? ∧ x'.tail = l'.getLast? ∧
        x'.active = (st.sigs f.sig).active - 1 ∧ (x'.deferred = true → x'.active ≠ 0) ∧ x'.alive = true ∧
        (x'.active ≠ 0 → l' = L f.sig) ∧ (∀ s, (h' s).sender = some f.sig → s ∈ l') ∧
        (∀ s, s ∈ l' → (h' s).sender = none → (st.sigs f.sig).deferred = true → x'.deferred = true) := by
    have hsame : Eff st.heap st.heap [] [] :=
      ⟨fun _ => rfl, fun _ => by simp, fun _ => by simp, hi.ref.alive⟩
    by_cases h1 : (st.sigs f.sig).active = 1
    · rw [if_pos h1]
      cases hd : (st.sigs f.sig).deferred with
      | false =>
        refine ⟨st.heap, { st.sigs f.sig with active := (st.sigs f.sig).active - 1 }, L f.sig, [], ?_, hsame, hi.linkedHeap _,
          fun _ _ => rfl, ?_, List.Sublist.refl _, hi.list.slots _, hi.list.tail _, rfl, ?_, hga, fun _ => rfl,
          fun s h => hi.list.senderL s _ h, ?_⟩
        · simp [cleanup, hd]
        · simp
        · simp [hd]
        · simp
      | true =>
        obtain ⟨h', e, ef, lk, nx⟩ := cleanup_ok (fuel := st.nslots) (h := st.heap)
          (g := { st.sigs f.sig with active := (st.sigs f.sig).active - 1 }) (hi.len f.sig) hi.ref.alive (hi.linkedHeap f.sig)
          (hi.list.nodup f.sig) (hi.allPos f.sig) (hi.list.slots _) (hi.list.tail _)
          (by simp only; omega) hd
        refine ⟨h', _, _, _, e, ef, lk, nx, fun s => ?_, List.filter_sublist, rfl, rfl, rfl, by simp, hga, ?_, fun s h => ?_, ?_⟩
        · simp only [List.mem_filter]
          constructor
          · rintro ⟨a, b⟩
            exact ⟨a, fun c => by rw [c.2] at b; cases b⟩
          · rintro ⟨a, b⟩
            refine ⟨a, ?_⟩
            cases hv : valid st.heap s with
            | false => rfl
            | true => exact absurd ⟨a, hv⟩ b
        · intro h
          exfalso; apply h
          show (st.sigs f.sig).active - 1 = 0
          omega
        · rw [ef.sender] at h
          simp only [List.not_mem_nil, if_false] at h
          exact List.mem_filter.2 ⟨hi.list.senderL s _ h, by simp [valid, h]⟩
        · intro s hs hn
          exfalso
          have h2 := (List.mem_filter.1 hs).2
          rw [ef.sender] at hn
          simp only [List.not_mem_nil, if_false] at hn
          simp [valid, hn] at h2
    · rw [if_neg h1]
      refine ⟨st.heap, { st.sigs f.sig with active := (st.sigs f.sig).active - 1 }, L f.sig, [], rfl, hsame, hi.linkedHeap _,
        fun _ _ => rfl, by simp, List.Sublist.refl _, hi.list.slots _, hi.list.tail _, rfl, ?_, hga, fun _ => rfl,
        fun s h => hi.list.senderL s _ h, fun s _ _ h => h⟩
      intro _
      show (st.sigs f.sig).active - 1 ≠ 0
      omega
  rw [e0]
  simp only [orUb]
  have hsg : ∀ y, (setThread (setSig st f.sig x') t { th with tls := f.saved, frames := rest }).sigs y =
      if y = f.sig then x' else st.sigs y := fun y => rfl
  have hmem : ∀ x s, s ∈ updL L f.sig l' x → s ∈ L x := by
    intro x s h
    by_cases e : x = f.sig
    · rw [e, updL_same] at h; rw [e]; exact hsub.subset h
    · rw [updL_ne _ _ e] at h; exact h
  have hsend : ∀ q, (h' q).sender = (st.heap q).sender := fun q => by rw [ef.sender]; simp
  refine ⟨updL L f.sig l', ⟨?_, ?_, ?_, ?_⟩, fun _ hc => ?_⟩
  · exact hi.ref.eff ef hi.list.disj hk (fun s h => hsub.subset h) hheld (fun _ => rfl)
  · refine hi.list.sub hsub lk nx ?_ ?_ ?_ ?_ (fun x hx => by rw [hsg, if_neg hx]) (fun q => .inl (hsend q)) hsd'
    · rw [hsg, if_pos rfl]; exact hsl
    · rw [hsg, if_pos rfl]; exact htl
    · rw [hsg, if_pos rfl, hala]; intro h; cases h
    · intro _; exact hga
  · refine hi.em.pop ht hpn hfs (fun x => ?_) (fun x h => ?_) (fun x => ?_) (fun x h => ?_) hend
    · rw [hsg]
      split
      · rename_i e
        rw [e, if_pos rfl, hact]; omega
      · rename_i e
        rw [if_neg (fun h => e h.symm)]; rfl
    · rw [hsg] at h ⊢
      split at h
      · rename_i e; rw [if_pos e]; exact hdef h
      · rename_i e; rw [if_neg e]; exact hi.em.deferred x h
    · rw [hsg]
      split
      · rename_i e; rw [e, hala, hga]
      · rfl
    · rw [hsg] at h
      by_cases e : x = f.sig
      · rw [if_pos e] at h
        rw [e, updL_same]; exact hfull h
      · rw [updL_ne _ _ e]
  · refine ⟨⟨?_, hi.log.hist⟩, fun x => ?_, fun q x h => ?_, fun ev h e he => ?_, fun ev h q he => ?_⟩
    · show Ev.throw f.id ∈ st.log ↔ thr = true
      rw [fo.thr, hq]; rfl
    · show (updL L f.sig l' x).Sublist (order st.log x)
      by_cases e : x = f.sig
      · rw [e, updL_same]; exact hsub.trans (hi.log.order _)
      · rw [updL_ne _ _ e]; exact hi.log.order x
    · exact (hsend q).trans (hi.log.conn q x h)
    · rcases List.mem_cons.1 h with rfl | h
      · simp only [evEm, Option.some.injEq] at he
        rw [← he]
        exact nid_lt hi ht (by rw [hfs]; simp)
      · exact hi.log.ems ev h e he
    · rcases List.mem_cons.1 h with rfl | h
      · cases he
      · exact hi.log.slots ev h q he
  · refine ⟨fun q x h => ?_, fun x q h h0 => ?_, fun i th' q x y h h0 hy => ?_, ⟨trivial, hc.hist⟩⟩
    · exact hc.conn q x ((hsend q).symm.trans h)
    · have h0 : (h' q).sender = none := h0
      have h0' : (st.heap q).sender = none := (hsend q).symm.trans h0
      rcases hc.half x q (hmem x q h) h0' with d | ⟨i, th', d1, d2⟩
      · left
        rw [hsg]
        by_cases e : x = f.sig
        · rw [if_pos e]
          rw [e] at d h
          rw [updL_same] at h
          exact hdd q h h0 d
        · rw [if_neg e]; exact d
      · right
        refine ⟨i, th', ?_, d2⟩
        show (st.threads.set t _)[i]? = some th'
        rw [List.getElem?_set_ne]
        · exact d1
        · rintro rfl
          rw [ht] at d1; cases d1
          rw [hpn] at d2; cases d2
    · rcases getElem?_set_of h with ⟨_, e⟩ | ⟨_, h⟩
      · rw [e] at h0
        have h0 : th.pend = .disc q x := h0
        rw [hpn] at h0; cases h0
      · exact hc.pendL i th' q x y h h0 (hmem y q hy)

/-! ### Every action -/

theorem unlink_alive {h h' : Heap} {g g' : Sig} {s : Nat} {prev n : Option Nat} (e : unlink h g s prev = some (h', g', n)) :
    g'.alive = g.alive := by
  unfold unlink at e
  cases ho : deref h s with
  | none => rw [ho] at e; cases e
  | some o =>
    rw [ho] at e
    simp only [Option.bind_some] at e
    cases prev with
    | none => simp only [Option.some.injEq, Prod.mk.injEq] at e; rw [← e.2.1]
    | some p =>
      simp only at e
      cases hp : deref h p with
      | none => rw [hp] at e; cases e
      | some po =>
        rw [hp] at e
        simp only [Option.map_some, Option.some.injEq, Prod.mk.injEq] at e; rw [← e.2.1]

theorem removeSlot_alive {h h' : Heap} {g g' : Sig} {s : Nat} {prev n : Option Nat}
    (e : removeSlot h g s prev = some (h', g', n)) : g'.alive = g.alive := by
  unfold removeSlot at e
  split at e
  · cases e
  · split at e
    · cases e
    · rename_i h1 g1 n1 hu
      split at e
      · cases e
      · cases e
        exact unlink_alive hu

theorem discAllLoop_alive : ∀ (fuel : Nat) (h : Heap) (g : Sig) (i prev : Option Nat) (r : Heap × Sig × List Nat),
    discAllLoop fuel h g i prev = some r → r.2.1.alive = g.alive := by
  intro fuel
  induction fuel with
  | zero =>
    intro h g i prev r e
    cases i with
    | none => simp only [discAllLoop, Option.some.injEq] at e; rw [← e]
    | some i => cases e
  | succ fuel ih =>
    intro h g i prev r e
    cases i with
    | none => simp only [discAllLoop, Option.some.injEq] at e; rw [← e]
    | some i =>
      simp only [discAllLoop] at e
      split at e
      · cases e
      · split at e
        · split at e
          · cases e
          · rename_i h1 g1 n1 hr
            obtain ⟨r', e', rfl⟩ := Option.map_eq_some_iff.1 e
            exact (ih _ _ _ _ _ e').trans (removeSlot_alive hr)
        · split at e
          · cases e
          · obtain ⟨r', e', rfl⟩ := Option.map_eq_some_iff.1 e
            have := ih _ _ _ _ _ e'
            exact this

theorem good_user {st : State} {L : Nat → List Nat} (hi : Inv st L) {t : Nat} {th : Thread} {op : Op} (hpre : Pre st op)
    (ht : st.threads[t]? = some th) : Good st L op (if th.user = true then stepUser st t th op else .off) := by
  by_cases hu : th.user = true
  · rw [if_pos hu]
    obtain ⟨hpn, huf⟩ := user_of hu
    cases op with
    | newSig => exact good_newSig hi ht hpn
    | delSig g =>
      have := good_discAll (op := .delSig g) (g := g) (b := false) hi ht hpn (.inr ⟨rfl, hpre.2⟩)
      simpa only [stepUser, hpre.1, Bool.not_true, Bool.false_eq_true, if_false] using this
    | connect g pos => exact good_connect hi ht hpn hpre
    | discAll g =>
      have h1 := good_discAll (op := .discAll g) (g := g) (b := (st.sigs g).alive) hi ht hpn (.inl rfl)
      have hpre : (st.sigs g).alive = true := hpre
      simp only [stepUser, hpre, Bool.not_true, Bool.false_eq_true, if_false]
      cases hd : discAllLoop st.nslots st.heap (st.sigs g) (st.sigs g).slots none with
      | none => rw [hd] at h1; exact h1
      | some r =>
        rw [hd] at h1
        have h2 := discAllLoop_alive _ _ _ _ _ _ hd
        simp only [orUb, ← h2] at h1
        exact h1
    | swap g g' => exact good_swap hi ht hpn hpre.1 hpre.2
    | moveSig g => exact good_moveSig hi ht hpn hpre
    | emit g => exact good_emit hi ht hpn huf hpre
    | ret => exact good_ret hi ht hpn huf
    | throw => exact good_throw hi ht hpn huf
    | stop => exact good_stop hi ht hpn huf
    | current => exact good_current hi ht hpn huf
    | cont => trivial
    | _ => exact good_handles hi ht hu rfl
  · rw [if_neg hu]; trivial

theorem good_step {st : State} {L : Nat → List Nat} (hi : Inv st L) (t : Nat) {op : Op} (hpre : Pre st op) :
    Good st L op (step st t op) := by
  unfold step
  cases ht : st.threads[t]? with
  | none => trivial
  | some th =>
    simp only
    cases op with
    | cont =>
      simp only
      cases hp : th.pend with
      | none =>
        simp only
        cases hfs : th.frames with
        | nil => trivial
        | cons f rest =>
          simp only
          cases hq : f.pc with
          | loop => exact good_loop hi ht hp hfs hq
          | checkValid => exact good_checkValid hi ht hp hfs hq
          | calling => simp only [stepFrame, hq]; trivial
          | advance => exact good_advance hi ht hp hfs hq
          | rel next => exact good_relFrame hi ht hp hfs hq
          | finish thr => exact good_finish hi ht hp hfs hq
          | finish2 thr => exact good_finish2 hi ht hp hfs hq
      | disc s g => exact good_disc hi ht hp
      | rel s => exact good_rel hi ht hp
    | _ => exact good_user hi hpre ht

/-! ### Reachable states -/

theorem threads_init {n i : Nat} {th : Thread} (h : (State.init n).threads[i]? = some th) :
    th = ⟨⟨false, none⟩, [], .none⟩ := by
  have := List.mem_of_getElem? h
  exact List.eq_of_mem_replicate this

theorem sumBy_zero {α : Type} {f : α → Nat} {l : List α} (h : ∀ a ∈ l, f a = 0) : sumBy f l = 0 := by
  induction l with
  | nil => rfl
  | cons a l ih => rw [sumBy_cons, h a (by simp), ih (fun b hb => h b (by simp [hb]))]

theorem inv_init (n : Nat) : Inv (State.init n) (fun _ => []) := by
  have hth : ∀ (f : Thread → Nat), f ⟨⟨false, none⟩, [], .none⟩ = 0 → sumBy f (State.init n).threads = 0 := by
    intro f hf
    apply sumBy_zero
    intro a ha
    rw [List.eq_of_mem_replicate ha]; exact hf
  refine ⟨⟨fun _ => rfl, fun _ _ => rfl, fun s => ?_, fun _ => rfl, fun _ => rfl⟩, ?_, ?_, ?_⟩
  · have h1 := hth (hthread s) (by simp [hthread, hpend, sumBy_nil])
    have h2 : listed (fun _ => []) s = 0 := listed_not (by simp)
    show 0 = held [] [] (State.init n).threads [] s + _
    unfold held
    simp [h1, h2, sumBy_nil]
  · exact ⟨fun _ => trivial, fun _ => List.nodup_nil, fun _ _ _ h => (by cases h), fun _ => rfl, fun _ => rfl,
      fun _ _ h => (by cases h), fun _ _ h => (by cases h), fun _ _ => rfl, fun _ _ => rfl, fun _ _ h => (by cases h)⟩
  · refine ⟨fun g => (hth (nfr g) (by simp [nfr, sumBy_nil])).symm, fun _ h => (by cases h), fun i th h f hf => ?_,
      fun i th h s g hp => ?_, fun i th h s g hp => ?_, fun i th h => ?_, fun i th h hp => ?_,
      fun e => Nat.le_of_lt_succ (by rw [hth (nid e) (by simp [nid, sumBy_nil])]; omega), fun e _ => hth (nid e) (by simp [nid, sumBy_nil]),
      fun e h => absurd h (Nat.not_lt_zero _)⟩
    · rw [threads_init h] at hf; cases hf
    · rw [threads_init h] at hp; cases hp
    · rw [threads_init h] at hp; cases hp
    · rw [threads_init h]; rfl
    · rw [threads_init h] at hp; exact absurd rfl hp
  · exact ⟨trivial, fun _ => List.Sublist.refl _, fun _ _ h => (by cases h), fun _ h => (by cases h), fun _ h => (by cases h)⟩

theorem calm_init (n : Nat) : CalmI (State.init n) (fun _ => []) := by
  refine ⟨fun _ _ h => (by cases h), fun _ _ h => (by cases h), fun i th s g g' h hp => ?_, trivial⟩
  rw [threads_init h] at hp; cases hp

theorem reach_inv {n : Nat} {st : State} (h : Reach Pre n st) : ∃ L, Inv st L := by
  induction h with
  | init => exact ⟨_, inv_init n⟩
  | @step st st' t op _ hp hs ih =>
    obtain ⟨L, hi⟩ := ih
    have := good_step hi t hp
    rw [hs] at this
    obtain ⟨L', hi', -⟩ := this
    exact ⟨L', hi'⟩

theorem reach_calm {n : Nat} {st : State} (h : Reach (fun st op => Pre st op ∧ Calm st op) n st) :
    ∃ L, Inv st L ∧ CalmI st L := by
  induction h with
  | init => exact ⟨_, inv_init n, calm_init n⟩
  | @step st st' t op _ hp hs ih =>
    obtain ⟨L, hi, hc⟩ := ih
    have := good_step hi t hp.1
    rw [hs] at this
    obtain ⟨L', hi', hc'⟩ := this
    exact ⟨L', hi', hc' hp.2 hc⟩

end Verif.Signal
