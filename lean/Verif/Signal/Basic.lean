import Verif.Signal.Inv
/-
Lemmas about reference counts, histories and frames.
-/
namespace Verif.Signal
open Spec

/-! ### Reference and block counts -/

/-- The heap with other reference and block counts. -/
def withRB (h : Heap) (r b : Nat → Nat) : Heap := fun q =>
  { h q with refs := r q, alive := decide (0 < r q), blocking := b q }

theorem aliveOk_withRB (h : Heap) (r b : Nat → Nat) : AliveOk (withRB h r b) := fun _ => rfl

theorem obj_eq {h : Heap} (a : AliveOk h) (q : Nat) :
    h q = { h q with refs := (h q).refs, alive := decide (0 < (h q).refs), blocking := (h q).blocking } := by
  have := a q
  cases hq : h q
  simp_all

theorem addRef_ok {h : Heap} (a : AliveOk h) {p : Nat} (hp : 0 < (h p).refs) :
    addRef h p = some (withRB h (fun q => (h q).refs + ind (some p) q) (fun q => (h q).blocking)) := by
  simp only [addRef, deref_eq a hp, Option.map_some, Option.some.injEq]
  funext q
  by_cases e : q = p
  · subst e
    simp only [upd_same, withRB, ind, if_true, a q]
    simp [hp]
  · have : (some p = some q) = False := by
      simp only [Option.some.injEq, eq_iff_iff, iff_false]
      exact fun x => e x.symm
    rw [upd_ne _ _ e]
    conv => lhs; rw [obj_eq a q]
    simp [withRB, ind, this]

theorem addRef?_ok {h : Heap} (a : AliveOk h) {o : Option Nat} (hp : ∀ p, o = some p → 0 < (h p).refs) :
    addRef? h o = some (withRB h (fun q => (h q).refs + ind o q) (fun q => (h q).blocking)) := by
  cases o with
  | none =>
    simp only [addRef?, Option.some.injEq]
    funext q
    conv => lhs; rw [obj_eq a q]
    simp [withRB, ind_none]
  | some p => exact addRef_ok a (hp p rfl)

theorem release_eq {h : Heap} (a : AliveOk h) {p : Nat} (hp : 0 < (h p).refs) :
    release h p = some (withRB h (fun q => (h q).refs - ind (some p) q) (fun q => (h q).blocking)) := by
  have hne : (h p).refs ≠ 0 := by omega
  simp only [release, deref_eq a hp, if_neg hne]
  have other : ∀ (o : SlotObj) (q : Nat), q ≠ p → upd h p o q =
      withRB h (fun q => (h q).refs - ind (some p) q) (fun q => (h q).blocking) q := by
    intro o q e
    have : (some p = some q) = False := by
      simp only [Option.some.injEq, eq_iff_iff, iff_false]
      exact fun x => e x.symm
    rw [upd_ne _ _ e]
    conv => lhs; rw [obj_eq a q]
    simp [withRB, ind, this]
  by_cases h1 : (h p).refs = 1
  · rw [if_pos h1]
    congr 1
    funext q
    by_cases e : q = p
    · subst e; simp [upd_same, withRB, ind, h1]
    · exact other _ q e
  · rw [if_neg h1]
    congr 1
    funext q
    by_cases e : q = p
    · subst e
      have : decide (0 < (h q).refs - 1) = true := by simp; omega
      simp [upd_same, withRB, ind, a q, hp, this]
    · exact other _ q e

theorem release?_ok {h : Heap} (a : AliveOk h) {o : Option Nat} (hp : ∀ p, o = some p → 0 < (h p).refs) :
    release? h o = some (withRB h (fun q => (h q).refs - ind o q) (fun q => (h q).blocking)) := by
  cases o with
  | none =>
    simp only [release?, Option.some.injEq]
    funext q
    conv => lhs; rw [obj_eq a q]
    simp [withRB, ind_none]
  | some p => exact release_eq a (hp p rfl)

theorem block_ok {h : Heap} (a : AliveOk h) {p : Nat} (hp : 0 < (h p).refs) :
    block h p = some (withRB h (fun q => (h q).refs) (fun q => (h q).blocking + ind (some p) q)) := by
  simp only [block, deref_eq a hp, Option.map_some, Option.some.injEq]
  funext q
  by_cases e : q = p
  · subst e
    simp only [upd_same, withRB, ind, if_true, a q]
  · have : (some p = some q) = False := by
      simp only [Option.some.injEq, eq_iff_iff, iff_false]
      exact fun x => e x.symm
    rw [upd_ne _ _ e]
    conv => lhs; rw [obj_eq a q]
    simp [withRB, ind, this]

theorem unblock_ok {h : Heap} (a : AliveOk h) {p : Nat} (hp : 0 < (h p).refs) (hb : 0 < (h p).blocking) :
    unblock h p = some (withRB h (fun q => (h q).refs) (fun q => (h q).blocking - ind (some p) q)) := by
  have hne : (h p).blocking ≠ 0 := by omega
  simp only [unblock, deref_eq a hp, Option.bind_some, if_neg hne, Option.some.injEq]
  funext q
  by_cases e : q = p
  · subst e
    simp only [upd_same, withRB, ind, if_true, a q]
  · have : (some p = some q) = False := by
      simp only [Option.some.injEq, eq_iff_iff, iff_false]
      exact fun x => e x.symm
    rw [upd_ne _ _ e]
    conv => lhs; rw [obj_eq a q]
    simp [withRB, ind, this]

theorem withRB_withRB (h : Heap) (r b r' b' : Nat → Nat) : withRB (withRB h r b) r' b' = withRB h r' b' := rfl

/-! ### Histories -/

theorem proc_other {ev : Ev} {l : List Ev} {e : Nat} (h : evEm ev ≠ some e) : proc (ev :: l) e = proc l e := by
  cases ev <;> simp_all [proc, evEm] <;> intro he <;> exact absurd he.symm h

theorem calls_other {ev : Ev} {l : List Ev} {e : Nat} (h : evEm ev ≠ some e) : calls (ev :: l) e = calls l e := by
  cases ev <;> simp_all [calls, evEm] <;> intro he <;> exact absurd he.symm h

theorem before_other {ev : Ev} {l : List Ev} {e : Nat} (h : evEm ev ≠ some e) :
    before (ev :: l) e = before l e := by
  cases ev <;> simp_all [before, evEm]; intro he; exact absurd he.symm h

theorem sigOf_other {ev : Ev} {l : List Ev} {e : Nat} (h : evEm ev ≠ some e) :
    sigOf (ev :: l) e = sigOf l e := by
  cases ev <;> simp_all [sigOf, evEm]; intro he; exact absurd he.symm h

theorem latest_other {ev : Ev} {l : List Ev} {e : Nat} (h : evEm ev ≠ some e) :
    latest (ev :: l) e = latest l e := by
  simp [latest, h]

theorem stop_other {ev : Ev} {l : List Ev} {e : Nat} (h : evEm ev ≠ some e) :
    Ev.stop e ∈ ev :: l ↔ Ev.stop e ∈ l := by
  simp only [List.mem_cons, or_iff_right_iff_imp]
  rintro rfl; exact absurd rfl h

theorem throw_other {ev : Ev} {l : List Ev} {e : Nat} (h : evEm ev ≠ some e) :
    Ev.throw e ∈ ev :: l ↔ Ev.throw e ∈ l := by
  simp only [List.mem_cons, or_iff_right_iff_imp]
  rintro rfl; exact absurd rfl h

theorem end_other {ev : Ev} {l : List Ev} {e : Nat} {b : Bool} (h : evEm ev ≠ some e) :
    Ev.end_ e b ∈ ev :: l ↔ Ev.end_ e b ∈ l := by
  simp only [List.mem_cons, or_iff_right_iff_imp]
  rintro rfl; exact absurd rfl h

theorem FrOk.mono {L L' : Nat → List Nat} {log : List Ev} {tls : Tls} {f : Frame} {ev : Ev}
    (h : FrOk L log tls f) (hL : ∃ F B, L' f.sig = F ++ L f.sig ++ B) (he : evEm ev ≠ some f.id) :
    FrOk L' (ev :: log) tls f := by
  obtain ⟨F', B', hL⟩ := hL
  obtain ⟨F, P, R, B, h1, h2, h3, h4, h5⟩ := h.pos
  refine ⟨by rw [sigOf_other he]; exact h.sig, by rw [stop_other he]; exact h.stop,
    by rw [throw_other he]; exact h.thr, fun b => by rw [end_other he]; exact h.notEnd b, by rw [calls_other he]; exact h.tlsCur,
    by rw [latest_other he]; exact h.pass, F' ++ F, P, R, B ++ B', ?_, ?_, ?_, ?_, h5⟩
  · rw [hL, h1]; simp
  · rw [proc_other he]; exact h2
  · rw [before_other he]; exact h3
  · rw [before_other he]; exact h4

theorem FrOk.monoL {L L' : Nat → List Nat} {log : List Ev} {tls : Tls} {f : Frame}
    (h : FrOk L log tls f) (hL : ∃ F B, L' f.sig = F ++ L f.sig ++ B) : FrOk L' log tls f := by
  obtain ⟨F', B', hL⟩ := hL
  obtain ⟨F, P, R, B, h1, h2, h3, h4, h5⟩ := h.pos
  refine ⟨h.sig, h.stop, h.thr, h.notEnd, h.tlsCur, h.pass, F' ++ F, P, R, B ++ B', ?_, h2, h3, h4, h5⟩
  rw [hL, h1]; simp

theorem FrOk.monoLog {L : Nat → List Nat} {log evs : List Ev} {tls : Tls} {f : Frame}
    (h : FrOk L log tls f) (he : ∀ ev ∈ evs, evEm ev ≠ some f.id) : FrOk L (evs ++ log) tls f := by
  induction evs with
  | nil => exact h
  | cons ev evs ih =>
    exact (ih (fun e he' => he e (by simp [he']))).mono ⟨[], [], by simp⟩ (he ev (by simp))

theorem FramesOk.imp {L L' : Nat → List Nat} {log log' : List Ev} {tls : Tls} {fs : List Frame}
    (h : FramesOk L log tls fs)
    (hi : ∀ f ∈ fs, ∀ tls, FrOk L log tls f → FrOk L' log' tls f) : FramesOk L' log' tls fs := by
  induction fs generalizing tls with
  | nil => exact h
  | cons f fs ih =>
    exact ⟨hi f (by simp) _ h.1, h.2.1, ih h.2.2 (fun f' hf => hi f' (by simp [hf]))⟩

theorem Ended.mono {log : List Ev} {e : Nat} {ev : Ev} (h : Ended log e) (he : evEm ev ≠ some e) :
    Ended (ev :: log) e := by
  refine ⟨by rw [proc_other he, before_other he, sigOf_other he]; exact h.sub, ?_⟩
  rw [stop_other he, throw_other he, before_other he, sigOf_other he, proc_other he]
  exact h.all

theorem Ended.monoLog {log evs : List Ev} {e : Nat} (h : Ended log e) (he : ∀ ev ∈ evs, evEm ev ≠ some e) :
    Ended (evs ++ log) e := by
  induction evs with
  | nil => exact h
  | cons ev evs ih => exact (ih (fun e he' => he e (by simp [he']))).mono (he ev (by simp))

theorem set_self {α : Type} {l : List α} {i : Nat} {a : α} (h : l[i]? = some a) : l.set i a = l := by
  apply List.ext_getElem?
  intro j
  by_cases e : i = j
  · subst e
    rw [List.getElem?_set_self', h]; rfl
  · rw [List.getElem?_set_ne e]

theorem sumBy_set_eq {α : Type} (f : α → Nat) {l : List α} {i : Nat} {a b : α} (h : l[i]? = some a)
    (hf : f b = f a) : sumBy f (l.set i b) = sumBy f l := by
  have := sumBy_set f (b := b) h
  omega

/-- A thread whose frames stay what they are. -/
theorem EmInv.same {sigs sigs' : Nat → Sig} {nem t : Nat} {threads : List Thread} {th : Thread} {p : Pend}
    {log evs : List Ev} {L L' : Nat → List Nat} (em : EmInv sigs nem threads log L)
    (ht : threads[t]? = some th)
    (hact : ∀ g, (sigs' g).active = (sigs g).active)
    (hdef : ∀ g, (sigs' g).deferred = true → (sigs' g).active ≠ 0)
    (hal : ∀ g, (sigs g).alive = true → (sigs' g).alive = true ∨
      (∀ th ∈ threads, ∀ f ∈ th.frames, f.sig ≠ g) ∧ ∀ th ∈ threads, ∀ s, th.pend ≠ .disc s g)
    (hp : ∀ s g, p = .disc s g → (sigs' g).alive = true) (hm : p ≠ .none → UserFrames th.frames)
    (hev : ∀ ev ∈ evs, evEm ev = none)
    (hcn : ∀ (i : Nat) (th' : Thread) (s g : Nat), threads[i]? = some th' → th'.pend = .disc s g →
      conn log s = none → conn (evs ++ log) s = none)
    (hcp : ∀ s g, p = .disc s g → conn (evs ++ log) s = none)
    (hL : ∀ g, (sigs g).active ≠ 0 → ∃ F B, L' g = F ++ L g ++ B) :
    EmInv sigs' nem (threads.set t { th with pend := p }) (evs ++ log) L' := by
  have hall : ∀ (i : Nat) (th' : Thread), (threads.set t { th with pend := p })[i]? = some th' →
      ∃ th0, threads[i]? = some th0 ∧ th'.frames = th0.frames ∧ th'.tls = th0.tls ∧
        (th'.pend = th0.pend ∨ (th'.pend = p ∧ th0 = th)) := by
    intro i th' h
    rcases getElem?_set_of h with ⟨e, e'⟩ | ⟨_, h⟩
    · subst e; subst e'
      exact ⟨th, ht, rfl, rfl, .inr ⟨rfl, rfl⟩⟩
    · exact ⟨th', h, rfl, rfl, .inl rfl⟩
  have hnid : ∀ e, sumBy (nid e) (threads.set t { th with pend := p }) = sumBy (nid e) threads :=
    fun e => sumBy_set_eq _ ht rfl
  have hfr : ∀ (i : Nat) (th' : Thread), threads[i]? = some th' → ∀ f ∈ th'.frames, (sigs f.sig).active ≠ 0 := by
    intro i th' h f hf
    rw [em.active]
    have h1 := le_sumBy (nfr f.sig) h
    obtain ⟨j, hj⟩ := List.mem_iff_getElem?.1 hf
    have h2 := le_sumBy (fun f' => if f'.sig = f.sig then 1 else 0) hj
    simp only [if_true] at h2
    have : nfr f.sig th' = sumBy (fun f' => if f'.sig = f.sig then 1 else 0) th'.frames := rfl
    omega
  refine ⟨?_, hdef, ?_, ?_, ?_, ?_, ?_, ?_, ?_, ?_⟩
  · intro g
    rw [hact, em.active]
    exact (sumBy_set_eq (b := { th with pend := p }) (nfr g) ht rfl).symm
  · intro i th' h f hf
    obtain ⟨th0, h0, e1, -, -⟩ := hall i th' h
    rw [e1] at hf
    rcases hal _ (em.falive i th0 h0 f hf) with x | ⟨x, -⟩
    · exact x
    · exact absurd rfl (x th0 (List.mem_iff_getElem?.2 ⟨i, h0⟩) f hf)
  · intro i th' h s g hpd
    obtain ⟨th0, h0, -, -, e3⟩ := hall i th' h
    rcases e3 with e3 | ⟨e3, -⟩
    · rw [e3] at hpd
      rcases hal _ (em.palive i th0 h0 s g hpd) with x | ⟨-, x⟩
      · exact x
      · exact absurd hpd (x th0 (List.mem_iff_getElem?.2 ⟨i, h0⟩) s)
    · exact hp s g (by rw [← e3]; exact hpd)
  · intro i th' h s g hpd
    obtain ⟨th0, h0, -, -, e3⟩ := hall i th' h
    rcases e3 with e3 | ⟨e3, -⟩
    · rw [e3] at hpd
      exact hcn i th0 s g h0 hpd (em.pconn i th0 h0 s g hpd)
    · exact hcp s g (by rw [← e3]; exact hpd)
  · intro i th' h
    obtain ⟨th0, h0, e1, e2, -⟩ := hall i th' h
    rw [e1, e2]
    refine (em.fok i th0 h0).imp fun f hf tls h => ?_
    exact (h.monoL (hL _ (hfr i th0 h0 f hf))).monoLog (fun ev hev' => by rw [hev ev hev']; simp)
  · intro i th' h hpd
    obtain ⟨th0, h0, e1, -, e3⟩ := hall i th' h
    rw [e1]
    rcases e3 with e3 | ⟨e3, e4⟩
    · exact em.mode i th0 h0 (by rw [← e3]; exact hpd)
    · rw [e4]; exact hm (by rw [← e3]; exact hpd)
  · intro e; rw [hnid]; exact em.ids e
  · intro e h; rw [hnid]; exact em.idsLt e h
  · intro e h h'
    rw [hnid] at h'
    exact (em.ended e h h').monoLog (fun ev hev' => by rw [hev ev hev']; simp)

/-- The top frame of a thread changes. -/
theorem EmInv.frame {sigs : Nat → Sig} {nem t : Nat} {threads : List Thread} {th : Thread} {f f' : Frame}
    {rest : List Frame} {tls' : Tls} {log evs : List Ev} {L : Nat → List Nat} (em : EmInv sigs nem threads log L)
    (ht : threads[t]? = some th) (hpd : th.pend = .none) (hfs : th.frames = f :: rest) (hid : f'.id = f.id)
    (hsg : f'.sig = f.sig) (hsv : f'.saved = f.saved)
    (hev : ∀ ev ∈ evs, evEm ev = none ∨ evEm ev = some f.id)
    (hcn : ∀ s, conn (evs ++ log) s = conn log s)
    (hfo : FrOk L (evs ++ log) tls' f') :
    EmInv sigs nem (threads.set t { th with tls := tls', frames := f' :: rest }) (evs ++ log) L := by
  have hnfr : ∀ g, nfr g { th with tls := tls', frames := f' :: rest } = nfr g th := by
    intro g; simp only [nfr, hfs, sumBy_cons, hsg]
  have hnid0 : ∀ e, nid e { th with tls := tls', frames := f' :: rest } = nid e th := by
    intro g; simp only [nid, hfs, sumBy_cons, hid]
  have hnid : ∀ e, sumBy (nid e) (threads.set t { th with tls := tls', frames := f' :: rest }) =
      sumBy (nid e) threads := fun e => sumBy_set_eq _ ht (hnid0 e)
  have hone : 1 ≤ nid f.id th := by
    simp only [nid, hfs, sumBy_cons, if_true]; omega
  refine ⟨?_, em.deferred, ?_, ?_, ?_, ?_, ?_, ?_, ?_, ?_⟩
  · intro g
    rw [em.active]
    exact (sumBy_set_eq _ ht (hnfr g)).symm
  · intro i th' h fr hfr
    rcases getElem?_set_of h with ⟨_, e'⟩ | ⟨_, h⟩
    · subst e'
      have hf0 := em.falive t th ht
      rw [hfs] at hf0
      rcases List.mem_cons.1 hfr with e | e
      · subst e; rw [hsg]; exact hf0 f (by simp)
      · exact hf0 fr (by simp [e])
    · exact em.falive i th' h fr hfr
  · intro i th' h s g hp
    rcases getElem?_set_of h with ⟨_, e'⟩ | ⟨_, h⟩
    · subst e'
      simp only [hpd] at hp
      cases hp
    · exact em.palive i th' h s g hp
  · intro i th' h s g hp
    rw [hcn]
    rcases getElem?_set_of h with ⟨_, e'⟩ | ⟨_, h⟩
    · subst e'
      simp only [hpd] at hp
      cases hp
    · exact em.pconn i th' h s g hp
  · intro i th' h
    rcases getElem?_set_of h with ⟨_, e'⟩ | ⟨hi, h⟩
    · subst e'
      have hf0 := em.fok t th ht
      rw [hfs] at hf0
      refine ⟨hfo, hf0.2.1, ?_⟩
      show FramesOk L (evs ++ log) f'.saved rest
      rw [hsv]
      refine hf0.2.2.imp fun fr hfr tls h => h.monoLog fun ev hev' => ?_
      rcases hev ev hev' with x | x
      · rw [x]; simp
      · rw [x]
        intro e
        have e : f.id = fr.id := by simpa using e
        have h1 := em.ids f.id
        have h2 := le_sumBy (nid f.id) ht
        obtain ⟨j, hj⟩ := List.mem_iff_getElem?.1 hfr
        have h3 := le_sumBy (fun f' => if f'.id = f.id then 1 else 0) hj
        simp only [e.symm, if_true] at h3
        have h4 : nid f.id th = 1 + sumBy (fun f' => if f'.id = f.id then 1 else 0) rest := by
          simp only [nid, hfs, sumBy_cons, if_true]
        omega
    · refine (em.fok i th' h).imp fun fr hfr tls hh => hh.monoLog fun ev hev' => ?_
      rcases hev ev hev' with x | x
      · rw [x]; simp
      · rw [x]
        intro e
        have e : f.id = fr.id := by simpa using e
        have h1 := em.ids f.id
        have h2 := two_le_sumBy (nid f.id) hi h ht
        obtain ⟨j, hj⟩ := List.mem_iff_getElem?.1 hfr
        have h3 := le_sumBy (fun f' => if f'.id = f.id then 1 else 0) hj
        simp only [e.symm, if_true] at h3
        have h4 : nid f.id th' = sumBy (fun f' => if f'.id = f.id then 1 else 0) th'.frames := rfl
        omega
  · intro i th' h hp
    rcases getElem?_set_of h with ⟨_, e'⟩ | ⟨_, h⟩
    · subst e'
      exact absurd hpd hp
    · exact em.mode i th' h hp
  · intro e; rw [hnid]; exact em.ids e
  · intro e h; rw [hnid]; exact em.idsLt e h
  · intro e h h'
    rw [hnid] at h'
    refine (em.ended e h h').monoLog fun ev hev' => ?_
    rcases hev ev hev' with x | x
    · rw [x]; simp
    · rw [x]
      intro e'
      have e' : f.id = e := by simpa using e'
      have h2 := le_sumBy (nid e) ht
      rw [← e'] at h2 h'
      omega

theorem length_le {l : List Nat} {n : Nat} (hn : l.Nodup) (hb : ∀ s ∈ l, s < n) : l.length ≤ n := by
  induction n generalizing l with
  | zero =>
    cases l with
    | nil => simp
    | cons a l => exact absurd (hb a (by simp)) (by omega)
  | succ n ih =>
    have h1 := ih (l := l.erase n) (hn.erase n) (by
      intro s hs
      have h1 := hb s (List.mem_of_mem_erase hs)
      have h2 : s ≠ n := by rintro rfl; exact (List.Nodup.not_mem_erase hn) hs
      omega)
    have : l.length ≤ (l.erase n).length + 1 := by
      rw [List.length_erase]; split <;> omega
    omega

end Verif.Signal
