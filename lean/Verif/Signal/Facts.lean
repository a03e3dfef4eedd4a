import Verif.Signal.Log
/-
What the invariant says about reachable states, in terms of histories and pointers, and a way
to run concrete programs.
-/
namespace Verif.Signal
open Spec

/-! ### Words of the properties -/

/-- The pointers from `o` on go through exactly these slots, which all exist. -/
def Chain (h : Heap) : Option Nat → List Nat → Prop
  | none, [] => True
  | some a, b :: l => a = b ∧ (h a).alive = true ∧ Chain h (h a).next l
  | _, _ => False

/-- A slot hangs on a signal. -/
def OnList (st : State) (g s : Nat) : Prop := ∃ l, Chain st.heap (st.sigs g).slots l ∧ s ∈ l

/-- A frame (an emission in flight) holds a pointer to the slot. -/
def FrameRefers (f : Frame) (s : Nat) : Prop := f.last = some s ∨ f.cur = some s ∨ f.pc = .rel (some s)

/-- A thread holds a pointer to the slot. -/
def ThreadRefers (th : Thread) (s : Nat) : Prop :=
  (∃ g, th.pend = .disc s g) ∨ th.pend = .rel s ∨ ∃ f ∈ th.frames, FrameRefers f s

/-- Somebody holds a pointer to the slot. -/
def Refers (st : State) (s : Nat) : Prop :=
  (∃ x ∈ st.conns, x.slot = some s) ∨ some s ∈ st.blks ∨ (∃ th ∈ st.threads, ThreadRefers th s) ∨ ∃ g, OnList st g s

/-- No emission of the signal is in flight, and no disconnection of one of its slots under way. -/
def AtRest (st : State) (g : Nat) : Prop :=
  (∀ th ∈ st.threads, ∀ f ∈ th.frames, f.sig ≠ g) ∧ ∀ th ∈ st.threads, ∀ s, th.pend ≠ .disc s g

/-- The slots connected to a signal, in calling order. -/
def connectedSlots (l : List Ev) (g : Nat) : List Nat := (order l g).filter (fun s => decide (conn l s = some g))

/-- Any number of actions. -/
inductive Run (P : State → Op → Prop) : State → State → Prop
  | refl (st : State) : Run P st st
  | step {st st' st'' : State} {t : Nat} {op : Op} : Run P st st' → P st' op → step st' t op = .ok st'' → Run P st st''

theorem Run.reach {P : State → Op → Prop} {n : Nat} {st st' : State} (h : Reach P n st) (r : Run P st st') :
    Reach P n st' := by
  induction r with
  | refl => exact h
  | step _ hp hs ih => exact ih.step hp hs

theorem Run.log {P : State → Op → Prop} {st st' : State} (r : Run P st st') : ∃ evs, st'.log = evs ++ st.log := by
  induction r with
  | refl => exact ⟨[], rfl⟩
  | step _ _ hs ih =>
    obtain ⟨evs, e⟩ := ih
    obtain ⟨evs', e', -⟩ := (step_grow hs).grow
    exact ⟨evs' ++ evs, by rw [e', e, List.append_assoc]⟩

theorem Reach.mono {P Q : State → Op → Prop} {n : Nat} {st : State} (h : Reach P n st) (hPQ : ∀ st op, P st op → Q st op) :
    Reach Q n st := by
  induction h with
  | init => exact .init
  | step _ hp hs ih => exact ih.step (hPQ _ _ hp) hs

/-- With the two conditions on the user. -/
abbrev Careful (st : State) (op : Op) : Prop := Pre st op ∧ Calm st op

theorem Reach.pre {n : Nat} {st : State} (h : Reach Careful n st) : Reach Pre n st := h.mono fun _ _ h => h.1

/-! ### What an action does to its thread -/

inductive TStep (th th' : Thread) (evs : List Ev) : Prop
  | same : th'.frames = th.frames →
      (∀ ev ∈ evs, evEm ev = none ∨ ∃ f rest, th.frames = f :: rest ∧ ev = .stop f.id) → TStep th th' evs
  | push (f : Frame) : th'.frames = f :: th.frames → f.pc = .loop → f.saved = th.tls → evs = [.begin f.id f.sig] →
      TStep th th' evs
  | top (f f' : Frame) (rest : List Frame) : th.frames = f :: rest → th'.frames = f' :: rest → f'.id = f.id →
      f'.sig = f.sig → f'.saved = f.saved → (∀ ev ∈ evs, evEm ev = some f.id) →
      (∀ s, Ev.call f.id s ∈ evs → f.pc = .checkValid ∧ f.cur = some s ∧ evs = [.call f.id s]) →
      (f'.pc = .checkValid → ∃ c, f'.cur = some c ∧ evs = [.pass f.id c]) → TStep th th' evs
  | pop (f : Frame) (rest : List Frame) (b : Bool) : th.frames = f :: rest → th'.frames = rest → th'.tls = f.saved →
      evs = [.end_ f.id b] → TStep th th' evs

structure Shape (st st' : State) (t : Nat) (op : Op) (th th' : Thread) (evs : List Ev) : Prop where
  thread : st.threads[t]? = some th
  threads : st'.threads = st.threads.set t th'
  log : st'.log = evs ++ st.log
  tstep : TStep th th' evs
  user : op ≠ .cont → th.user = true

theorem TStep.quiet {th th' : Thread} (evs : List Ev) (h : th'.frames = th.frames) (hq : ∀ ev ∈ evs, evEm ev = none) :
    TStep th th' evs := .same h fun ev hev => .inl (hq ev hev)

/-- The thread is left as it is. -/
theorem Shape.keep {st st' : State} {t : Nat} {op : Op} {th : Thread} (evs : List Ev) (ht : st.threads[t]? = some th)
    (h1 : st'.threads = st.threads) (h2 : st'.log = evs ++ st.log) (hq : ∀ ev ∈ evs, evEm ev = none)
    (hu : op ≠ .cont → th.user = true) : Shape st st' t op th th evs :=
  ⟨ht, by rw [h1, set_self ht], h2, .quiet _ rfl hq, hu⟩

theorem stepUser_shape {st st' : State} {t : Nat} {op : Op} {th : Thread} (ht : st.threads[t]? = some th)
    (hu : th.user = true) (hs : stepUser st t th op = .ok st') : ∃ th' evs, Shape st st' t op th th' evs := by
  have hu' : op ≠ .cont → th.user = true := fun _ => hu
  have keep : st'.threads = st.threads → (∃ evs, st'.log = evs ++ st.log ∧ ∀ ev ∈ evs, evEm ev = none) →
      ∃ th' evs, Shape st st' t op th th' evs := by
    rintro h1 ⟨evs, h2, h3⟩
    exact ⟨th, evs, Shape.keep evs ht h1 h2 h3 hu'⟩
  have hd : ∀ {s c x}, startDisconnect { st with conns := st.conns.set c x } t th s = .ok st' →
      ∃ th' evs, Shape st st' t op th th' evs := by
    intro s c x h
    unfold startDisconnect at h
    obtain ⟨o, -, h⟩ := orUb_ok h
    split at h
    · cases h; exact ⟨_, [], ht, rfl, rfl, .quiet _ rfl (by simp), hu'⟩
    · cases h; exact ⟨_, [.disc s], ht, rfl, rfl, .quiet _ rfl (by simp [evEm]), hu'⟩
  have hdm : ∀ l : List Nat, ∀ ev ∈ l.reverse.map Ev.disc, evEm ev = none := by
    intro l ev hev
    simp only [List.mem_map] at hev
    obtain ⟨s, -, rfl⟩ := hev
    rfl
  cases op <;> simp only [stepUser] at hs
  case newSig => cases hs; exact keep rfl ⟨[], rfl, by simp⟩
  case delSig g =>
    split at hs
    · cases hs
    · obtain ⟨r, -, hs⟩ := orUb_ok hs
      cases hs; exact keep rfl ⟨_, rfl, hdm _⟩
  case connect g pos =>
    split at hs
    · cases hs
    · obtain ⟨r, -, hs⟩ := orUb_ok hs
      obtain ⟨r', -, hs⟩ := orUb_ok hs
      cases hs; exact keep rfl ⟨[_], rfl, by simp [evEm]⟩
  case emptyConn => cases hs; exact keep rfl ⟨[], rfl, by simp⟩
  case copy c =>
    split at hs
    · cases hs
    · obtain ⟨r, -, hs⟩ := orUb_ok hs
      cases hs; exact keep rfl ⟨[], rfl, by simp⟩
  case assign a b =>
    split at hs
    · split at hs
      · cases hs; exact keep rfl ⟨[], rfl, by simp⟩
      · split at hs
        · cases hs
        · obtain ⟨r, -, hs⟩ := orUb_ok hs
          obtain ⟨r', -, hs⟩ := orUb_ok hs
          cases hs; exact keep rfl ⟨[], rfl, by simp⟩
    · cases hs
  case move c =>
    split at hs
    · cases hs
    · cases hs; exact keep rfl ⟨[], rfl, by simp⟩
  case swapH a b =>
    split at hs
    · split at hs
      · cases hs; exact keep rfl ⟨[], rfl, by simp⟩
      · cases hs
    · cases hs
  case toScoped c =>
    split at hs
    · cases hs
    · split at hs
      · cases hs
      · cases hs; exact keep rfl ⟨[], rfl, by simp⟩
  case toPlain c =>
    split at hs
    · cases hs
    · split at hs
      · cases hs; exact keep rfl ⟨[], rfl, by simp⟩
      · cases hs
  case drop c =>
    split at hs
    · cases hs
    · split at hs
      · cases hs; exact keep rfl ⟨[], rfl, by simp⟩
      · split at hs
        · exact hd hs
        · cases hs; exact ⟨_, [], ht, rfl, rfl, .quiet _ rfl (by simp), hu'⟩
  case disconnect c =>
    split at hs
    · cases hs
    · split at hs
      · cases hs; exact keep rfl ⟨[], rfl, by simp⟩
      · exact hd hs
  case blk c =>
    split at hs
    · cases hs
    · split at hs
      · cases hs; exact keep rfl ⟨[], rfl, by simp⟩
      · obtain ⟨r, -, hs⟩ := orUb_ok hs
        obtain ⟨r', -, hs⟩ := orUb_ok hs
        cases hs; exact keep rfl ⟨[_], rfl, by simp [evEm]⟩
  case blkCopy b =>
    split at hs
    · cases hs
    · cases hs; exact keep rfl ⟨[], rfl, by simp⟩
    · obtain ⟨r, -, hs⟩ := orUb_ok hs
      obtain ⟨r', -, hs⟩ := orUb_ok hs
      cases hs; exact keep rfl ⟨[_], rfl, by simp [evEm]⟩
  case blkAssign a b =>
    split at hs
    · rename_i x y _ _
      split at hs
      · cases hs; exact keep rfl ⟨[], rfl, by simp⟩
      · obtain ⟨r, -, hs⟩ := orUb_ok hs
        obtain ⟨r', -, hs⟩ := orUb_ok hs
        cases hs
        refine keep rfl ⟨y.toList.map Ev.blk ++ x.toList.map Ev.unblk, ?_, ?_⟩
        · simp
        · intro ev hev
          rcases List.mem_append.1 hev with h | h <;> obtain ⟨s, -, rfl⟩ := List.mem_map.1 h <;> rfl
    · cases hs
  case blkMove b =>
    split at hs
    · cases hs
    · cases hs; exact keep rfl ⟨[], rfl, by simp⟩
  case blkSwap a b =>
    split at hs
    · cases hs; exact keep rfl ⟨[], rfl, by simp⟩
    · cases hs
  case blkDrop b =>
    split at hs
    · cases hs
    · cases hs; exact keep rfl ⟨[], rfl, by simp⟩
    · obtain ⟨r, -, hs⟩ := orUb_ok hs
      cases hs; exact ⟨_, [.unblk _], ht, rfl, rfl, .quiet _ rfl (by simp [evEm]), hu'⟩
  case discAll g =>
    split at hs
    · cases hs
    · obtain ⟨r, -, hs⟩ := orUb_ok hs
      cases hs; exact keep rfl ⟨_, rfl, hdm _⟩
  case swap g g' =>
    split at hs
    · cases hs
    · split at hs
      · cases hs; exact keep rfl ⟨[], rfl, by simp⟩
      · split at hs
        · cases hs
        · obtain ⟨r, -, hs⟩ := orUb_ok hs
          obtain ⟨r', -, hs⟩ := orUb_ok hs
          cases hs; exact keep rfl ⟨[_], rfl, by simp [evEm]⟩
  case moveSig g =>
    split at hs
    · cases hs
    · split at hs
      · cases hs
      · obtain ⟨r, -, hs⟩ := orUb_ok hs
        cases hs; exact keep rfl ⟨[_], rfl, by simp [evEm]⟩
  case emit g =>
    split at hs
    · cases hs
    · obtain ⟨r, -, hs⟩ := orUb_ok hs
      obtain ⟨r', -, hs⟩ := orUb_ok hs
      cases hs; exact ⟨_, [.begin _ _], ht, rfl, rfl, .push _ rfl rfl rfl rfl, hu'⟩
  case ret =>
    split at hs
    · cases hs
    · rename_i f rest hf
      cases hs
      exact ⟨_, [], ht, rfl, rfl, .top f { f with pc := .advance } rest hf rfl rfl rfl rfl (by simp) (by simp)
        (fun h => by cases h), hu'⟩
  case throw =>
    split at hs
    · cases hs
    · rename_i f rest hf
      cases hs
      exact ⟨_, [.throw f.id], ht, rfl, rfl, .top f { f with cur := none, pc := .finish true } rest hf rfl rfl rfl rfl
        (by simp [evEm]) (by simp) (fun h => by cases h), hu'⟩
  case stop =>
    cases hs
    cases hf : th.frames with
    | nil =>
      exact ⟨_, [], ht, rfl, by simp [hf], .quiet _ hf.symm (by simp), hu'⟩
    | cons f rest =>
      exact ⟨_, [.stop f.id], ht, rfl, by simp [hf],
        .same hf.symm fun ev hev => .inr ⟨f, rest, hf, by simpa using hev⟩, hu'⟩
  case current =>
    obtain ⟨r, -, hs⟩ := orUb_ok hs
    cases hs; exact keep rfl ⟨[], rfl, by simp⟩
  case cont => cases hs

theorem step_shape {st st' : State} {t : Nat} {op : Op} (hs : step st t op = .ok st') :
    ∃ th th' evs, Shape st st' t op th th' evs := by
  unfold step at hs
  cases ht : st.threads[t]? with
  | none => rw [ht] at hs; cases hs
  | some th =>
    rw [ht] at hs
    simp only at hs
    refine ⟨th, ?_⟩
    split at hs
    · split at hs
      · split at hs
        · cases hs
        · rename_i f rest hf
          unfold stepFrame at hs
          split at hs
          · cases hs
          · split at hs
            · cases hs
              exact ⟨_, [], ht, rfl, rfl, .top f { f with pc := .finish false } rest hf rfl rfl rfl rfl
                (by simp) (by simp) (fun h => by cases h), fun h => absurd rfl h⟩
            · rename_i c hc
              obtain ⟨o, -, hs⟩ := orUb_ok hs
              split at hs
              · cases hs
                exact ⟨_, [.skipBlocked f.id c], ht, rfl, rfl, .top f { f with pc := .advance } rest hf rfl rfl rfl rfl
                  (by simp [evEm]) (by simp) (fun h => by cases h), fun h => absurd rfl h⟩
              · cases hs
                exact ⟨_, [.pass f.id c], ht, rfl, rfl, .top f { f with pc := .checkValid } rest hf rfl rfl rfl rfl
                  (by simp [evEm]) (by simp) (fun _ => ⟨c, hc, rfl⟩), fun h => absurd rfl h⟩
          · rename_i hpc'
            split at hs
            · cases hs
            · rename_i c hc
              obtain ⟨o, -, hs⟩ := orUb_ok hs
              split at hs
              · cases hs
                refine ⟨_, [.call f.id c], ht, rfl, rfl, .top f { f with pc := .calling } rest hf rfl rfl rfl rfl
                  (by simp [evEm]) ?_ (fun h => by cases h), fun h => absurd rfl h⟩
                intro s h
                simp only [List.mem_singleton, Ev.call.injEq, true_and] at h
                subst h
                exact ⟨hpc', hc, rfl⟩
              · cases hs
                exact ⟨_, [.skipInvalid f.id c], ht, rfl, rfl, .top f { f with pc := .advance } rest hf rfl rfl rfl rfl
                  (by simp [evEm]) (by simp) (fun h => by cases h), fun h => absurd rfl h⟩
          · split at hs
            · cases hs
            · split at hs
              · split at hs
                · cases hs
                · obtain ⟨o, -, hs⟩ := orUb_ok hs
                  obtain ⟨o', -, hs⟩ := orUb_ok hs
                  cases hs
                  exact ⟨_, [], ht, rfl, rfl, .top f { f with pc := .rel o.next } rest hf rfl rfl rfl rfl
                    (by simp) (by simp) (fun h => by cases h), fun h => absurd rfl h⟩
              · cases hs
                exact ⟨_, [], ht, rfl, rfl, .top f { f with pc := .rel none } rest hf rfl rfl rfl rfl
                  (by simp) (by simp) (fun h => by cases h), fun h => absurd rfl h⟩
          · rename_i next _
            split at hs
            · cases hs
            · rename_i c hc
              obtain ⟨o, -, hs⟩ := orUb_ok hs
              cases hs
              refine ⟨_, [], ht, rfl, rfl, .top f ⟨f.id, f.sig, f.last, next, (if some c = f.last || th.tls.stopped
                then Pc.finish false else Pc.loop), f.saved⟩ rest hf rfl rfl rfl rfl (by simp) (by simp) (fun h => ?_),
                fun h => absurd rfl h⟩
              simp only at h
              split at h <;> cases h
          · rename_i thr _
            obtain ⟨o, -, hs⟩ := orUb_ok hs
            cases hs
            exact ⟨_, [], ht, rfl, rfl, .top f { f with last := none, pc := .finish2 thr } rest hf rfl rfl rfl rfl
              (by simp) (by simp) (fun h => by cases h), fun h => absurd rfl h⟩
          · rename_i thr _
            simp only at hs
            split at hs
            · cases hs
            · obtain ⟨o, -, hs⟩ := orUb_ok hs
              cases hs
              exact ⟨_, [.end_ f.id thr], ht, rfl, rfl, .pop f rest thr hf rfl rfl rfl, fun h => absurd rfl h⟩
      · unfold stepPend at hs
        split at hs
        · cases hs
        · obtain ⟨o, -, hs⟩ := orUb_ok hs
          cases hs
          exact ⟨_, [], ht, rfl, rfl, .quiet _ rfl (by simp), fun h => absurd rfl h⟩
        · simp only at hs
          split at hs
          · cases hs
          · obtain ⟨o, -, hs⟩ := orUb_ok hs
            cases hs
            exact ⟨_, [], ht, rfl, rfl, .quiet _ rfl (by simp), fun h => absurd rfl h⟩
    · split at hs
      · rename_i hu
        exact stepUser_shape ht hu hs
      · cases hs

theorem reach_threads {P : State → Op → Prop} {n : Nat} {st : State} (h : Reach P n st) : st.threads.length = n := by
  induction h with
  | init => simp [State.init]
  | step _ _ hs ih =>
    obtain ⟨th, th', evs, sh⟩ := step_shape hs
    rw [sh.threads, List.length_set, ih]

/-! ### Single-threaded programs -/

theorem single_calm {st st' : State} {t : Nat} {op : Op} (h1 : st.threads.length = 1) (hs : step st t op = .ok st') :
    Calm st op := by
  obtain ⟨th, th', evs, sh⟩ := step_shape hs
  have all : ∀ x ∈ st.threads, x = th := by
    intro x hx
    obtain ⟨a, ha⟩ := List.length_eq_one_iff.1 h1
    have := sh.thread
    rw [ha] at this hx
    cases t with
    | zero =>
      simp only [List.getElem?_cons_zero, Option.some.injEq] at this
      simp only [List.mem_singleton] at hx
      rw [hx, this]
    | succ t => simp at this
  cases op <;> try trivial
  case swap g g' =>
    intro x hx s y hp
    rw [all x hx, (user_of (sh.user (by simp))).1] at hp
    cases hp
  case moveSig g =>
    intro x hx s y hp
    rw [all x hx, (user_of (sh.user (by simp))).1] at hp
    cases hp

/-- With one thread signals are always moved with care. -/
theorem reach_single {st : State} (h : Reach Pre 1 st) : Reach Careful 1 st := by
  induction h with
  | init => exact .init
  | step hr hp hs ih => exact ih.step ⟨hp, single_calm (reach_threads hr) hs⟩ hs

/-- A call directly follows the check for blockers. -/
def CallPass (l : List Ev) : Ev → Prop
  | .call e s => l.head? = some (.pass e s)
  | _ => True

structure Adj (st : State) : Prop where
  top : ∀ th ∈ st.threads, ∀ f rest, th.frames = f :: rest → f.pc = .checkValid →
    ∃ c, f.cur = some c ∧ st.log.head? = some (.pass f.id c)
  hist : Hist CallPass st.log

theorem hist_app {ok : List Ev → Ev → Prop} {evs l : List Ev} (h : Hist ok l) (hq : ∀ ev ∈ evs, ∀ l, ok l ev) :
    Hist ok (evs ++ l) := by
  induction evs with
  | nil => exact h
  | cons ev evs ih => exact ⟨hq ev (by simp) _, ih fun ev hev => hq ev (by simp [hev])⟩

theorem adj_single {st : State} (h : Reach Pre 1 st) : Adj st := by
  induction h with
  | init =>
    refine ⟨fun th hth f rest hf => ?_, trivial⟩
    simp only [State.init, List.mem_replicate] at hth
    rw [hth.2] at hf; cases hf
  | @step st st' t op hr hp hs ih =>
    obtain ⟨L, hi⟩ := reach_inv hr
    obtain ⟨th, th', evs, sh⟩ := step_shape hs
    obtain ⟨a, ha⟩ := List.length_eq_one_iff.1 (reach_threads hr)
    have ht := sh.thread
    rw [ha] at ht
    have ht0 : t = 0 ∧ a = th := by
      cases t with
      | zero => simpa using ht
      | succ t => simp at ht
    obtain ⟨rfl, rfl⟩ := ht0
    have hthr : st'.threads = [th'] := by rw [sh.threads, ha]; rfl
    have haIn : a ∈ st.threads := by rw [ha]; simp
    have hfo := hi.em.fok 0 a sh.thread
    cases sh.tstep with
    | same h1 h2 =>
      refine ⟨?_, ?_⟩
      · intro th1 h3 f rest h4 h5
        rw [hthr, List.mem_singleton] at h3
        subst h3
        rw [h1] at h4
        -- the thread was in library mode, or the top frame is not at the check
        by_cases hc : op = .cont
        · subst hc
          -- a pending call runs inside a slot
          exfalso
          have hpn : a.pend = .none := by
            apply Classical.byContradiction
            intro hpn
            have := hi.em.mode 0 a sh.thread hpn
            rw [h4] at this
            have this : f.pc = .calling := this
            rw [h5] at this; cases this
          obtain ⟨c, h6, h7⟩ := ih.top a haIn f rest h4 h5
          unfold step at hs
          rw [sh.thread] at hs
          simp only [hpn, h4, stepFrame, h5, h6] at hs
          obtain ⟨o, -, hs⟩ := orUb_ok hs
          have hth' : st'.threads = st.threads.set 0 th1 := sh.threads
          split at hs
          · cases hs
            simp only [setThread, setFrame, ha, List.set_cons_zero, List.cons.injEq, and_true] at hth'
            rw [← hth', h4] at h1
            simp only [List.cons.injEq, and_true] at h1
            rw [← h1] at h5
            cases h5
          · cases hs
            simp only [setThread, setFrame, ha, List.set_cons_zero, List.cons.injEq, and_true] at hth'
            rw [← hth', h4] at h1
            simp only [List.cons.injEq, and_true] at h1
            rw [← h1] at h5
            cases h5
        · exfalso
          have := (user_of (sh.user hc)).2
          rw [h4] at this
          have this : f.pc = .calling := this
          rw [h5] at this; cases this
      · rw [sh.log]
        refine hist_app ih.hist fun ev hev l => ?_
        rcases h2 ev hev with h | ⟨f, rest, -, rfl⟩
        · cases ev <;> first | trivial | cases h
        · trivial
    | push f h1 h2 h3 h4 =>
      refine ⟨?_, ?_⟩
      · intro th1 h5 f1 rest h6 h7
        rw [hthr, List.mem_singleton] at h5
        subst h5
        rw [h1] at h6
        cases h6
        rw [h2] at h7; cases h7
      · rw [sh.log, h4]
        exact ⟨trivial, ih.hist⟩
    | top f f' rest h1 h2 h3 h4 h5 h6 h7 h8 =>
      refine ⟨?_, ?_⟩
      · intro th1 h9 f1 rest1 h10 h11
        rw [hthr, List.mem_singleton] at h9
        subst h9
        rw [h2] at h10
        cases h10
        obtain ⟨c, e1, e2⟩ := h8 h11
        refine ⟨c, e1, ?_⟩
        rw [sh.log, e2, h3]; rfl
      · rw [sh.log]
        by_cases hcall : ∃ s, Ev.call f.id s ∈ evs
        · obtain ⟨s, hcall⟩ := hcall
          obtain ⟨e1, e2, e3⟩ := h7 s hcall
          rw [e3]
          obtain ⟨c, e4, e5⟩ := ih.top a haIn f rest h1 e1
          rw [e2] at e4; cases e4
          exact ⟨e5, ih.hist⟩
        · refine hist_app ih.hist fun ev hev l => ?_
          cases ev with
          | call e s =>
            have := h6 _ hev
            simp only [evEm, Option.some.injEq] at this
            subst this
            exact absurd ⟨s, hev⟩ hcall
          | _ => trivial
    | pop f rest b h1 h2 h3 h4 =>
      refine ⟨?_, ?_⟩
      · intro th1 h5 f1 rest1 h6 h7
        rw [hthr, List.mem_singleton] at h5
        subst h5
        rw [h2] at h6
        rw [h1, h6] at hfo
        have := hfo.2.1 f1 (by simp)
        rw [h7] at this; cases this
      · rw [sh.log, h4]
        exact ⟨trivial, ih.hist⟩

/-! ### Every slot was connected once -/

theorem stepUser_nslots {st st' : State} {t : Nat} {th : Thread} {op : Op} (hs : stepUser st t th op = .ok st') :
    st'.nslots = st.nslots ∨ st'.nslots = st.nslots + 1 ∧ ∃ g pos, op = .connect g pos ∧
      st'.log = .connect st.nslots g pos :: st.log := by
  cases op <;> simp only [stepUser, startDisconnect] at hs
  all_goals
    repeat' (first
      | (cases hs; done)
      | (cases hs; exact Or.inl rfl)
      | (cases hs; exact Or.inr ⟨rfl, _, _, rfl, rfl⟩)
      | split at hs
      | (obtain ⟨_, -, hs⟩ := orUb_ok hs; simp only at hs)
      | (obtain ⟨_, -, hs⟩ := orUb_ok hs))

theorem step_nslots {st st' : State} {t : Nat} {op : Op} (hs : step st t op = .ok st') :
    st'.nslots = st.nslots ∨ st'.nslots = st.nslots + 1 ∧ ∃ g pos, op = .connect g pos ∧
      st'.log = .connect st.nslots g pos :: st.log := by
  unfold step at hs
  split at hs
  · cases hs
  · split at hs
    · simp only [stepFrame, stepPend] at hs
      repeat' (first
        | (cases hs; done)
        | (cases hs; exact Or.inl rfl)
        | split at hs
        | (obtain ⟨_, -, hs⟩ := orUb_ok hs; simp only at hs)
        | (obtain ⟨_, -, hs⟩ := orUb_ok hs))
    · split at hs
      · exact stepUser_nslots hs
      · cases hs

theorem reach_connected {P : State → Op → Prop} {n : Nat} {st : State} (h : Reach P n st) {s : Nat} (hs : s < st.nslots) :
    ∃ g pos, Ev.connect s g pos ∈ st.log := by
  induction h with
  | init => simp [State.init] at hs
  | step _ _ hst ih =>
    rcases step_nslots hst with h1 | ⟨h1, g, pos, -, h2⟩
    · obtain ⟨g, pos, h3⟩ := ih (by omega)
      obtain ⟨evs, h4, -⟩ := (step_grow hst).grow
      exact ⟨g, pos, by rw [h4]; simp [h3]⟩
    · rw [h1] at hs
      rcases Nat.lt_succ_iff_lt_or_eq.1 hs with h3 | h3
      · obtain ⟨g, pos, h4⟩ := ih h3
        exact ⟨g, pos, by rw [h2]; simp [h4]⟩
      · exact ⟨g, pos, by rw [h2, h3]; simp⟩

/-! ### Lists -/

theorem chain_of {h : Heap} (a : AliveOk h) {l : List Nat} (hl : Linked h l) (hp : ∀ q ∈ l, 0 < (h q).refs) :
    Chain h l.head? l := by
  induction l with
  | nil => trivial
  | cons x l ih =>
    refine ⟨rfl, ?_, ?_⟩
    · rw [a x]; simpa using hp x (by simp)
    · have h1 : (h x).next = l.head? := hl.1
      rw [h1]
      exact ih hl.2 fun q hq => hp q (by simp [hq])

theorem chain_unique {h : Heap} {l l' : List Nat} : ∀ {o : Option Nat}, Chain h o l → Chain h o l' → l = l' := by
  induction l generalizing l' with
  | nil =>
    intro o h1 h2
    cases o with
    | none => cases l' with
      | nil => rfl
      | cons => cases h2
    | some a => cases h1
  | cons x l ih =>
    intro o h1 h2
    cases o with
    | none => cases h1
    | some a =>
      cases l' with
      | nil => cases h2
      | cons y l' =>
        rw [← h1.1, ← h2.1, ih h1.2.2 h2.2.2]

theorem Inv.chain {st : State} {L : Nat → List Nat} (hi : Inv st L) (g : Nat) :
    Chain st.heap (st.sigs g).slots (L g) := by
  rw [hi.list.slots]
  exact chain_of hi.ref.alive (hi.linkedHeap g) (hi.allPos g)

theorem Inv.onList {st : State} {L : Nat → List Nat} (hi : Inv st L) (g s : Nat) : OnList st g s ↔ s ∈ L g := by
  constructor
  · rintro ⟨l, h1, h2⟩
    rw [chain_unique (hi.chain g) h1]; exact h2
  · intro h; exact ⟨_, hi.chain g, h⟩

theorem filter_eq {p : Nat → Bool} {l o : List Nat} (hs : l.Sublist o) (hn : o.Nodup) (h : ∀ s ∈ o, p s = true → s ∈ l) :
    l.filter p = o.filter p := by
  induction hs with
  | slnil => rfl
  | @cons l o a hs ih =>
    have hn' := List.nodup_cons.1 hn
    have ha : p a = false := by
      cases hp : p a with
      | false => rfl
      | true =>
        have := h a (by simp) hp
        exact absurd (hs.subset this) hn'.1
    rw [List.filter_cons_of_neg (by simp [ha])]
    exact ih hn'.2 fun s h1 h2 => h s (by simp [h1]) h2
  | @cons_cons l o a hs ih =>
    have hn' := List.nodup_cons.1 hn
    have := ih hn'.2 fun s h1 h2 => by
      have h3 := h s (by simp [h1]) h2
      rcases List.mem_cons.1 h3 with rfl | h3
      · exact absurd h1 hn'.1
      · exact h3
    simp only [List.filter_cons, this]

theorem Inv.valid_slots {st : State} {L : Nat → List Nat} (hi : Inv st L) (hc : CalmI st L) (g : Nat) :
    (L g).filter (valid st.heap) = connectedSlots st.log g := by
  have h1 : (L g).filter (valid st.heap) = (L g).filter (fun s => decide (conn st.log s = some g)) := by
    apply List.filter_congr
    intro s hs
    rcases hi.list.lsender s g hs with h | h
    · have h : (st.heap s).sender = some g := h
      simp [valid, h, hc.conn s g h]
    · have h : (st.heap s).sender = none := h
      have h2 : conn st.log s ≠ some g := by
        intro hcn
        have := hi.log.conn s g hcn
        have this : (st.heap s).sender = some g := this
        rw [h] at this; cases this
      simp [valid, h, h2]
  rw [h1]
  apply filter_eq (hi.log.order g) (order_nodup hi.log.hist g)
  intro s _ hp
  simp only [decide_eq_true_eq] at hp
  exact hi.list.senderL s g (hi.log.conn s g hp)

theorem Inv.all_valid {st : State} {L : Nat → List Nat} (hi : Inv st L) (hc : CalmI st L) {g : Nat} (hr : AtRest st g) :
    (L g).filter (valid st.heap) = L g := by
  apply List.filter_eq_self.2
  intro s hs
  cases h : (st.heap s).sender with
  | some x => simp [valid, h]
  | none =>
    exfalso
    rcases hc.half g s hs h with d | ⟨i, th, h1, h2⟩
    · have h3 := hi.em.deferred g d
      rw [hi.em.active] at h3
      obtain ⟨i, th, h4, h5⟩ := sumBy_pos _ (Nat.pos_of_ne_zero h3)
      obtain ⟨j, f, h6, h7⟩ := sumBy_pos _ h5
      have h8 : f.sig = g := by
        apply Classical.byContradiction
        intro hne; simp [hne] at h7
      exact hr.1 th (List.mem_of_getElem? h4) f (List.mem_of_getElem? h6) h8
    · exact hr.2 th (List.mem_of_getElem? h1) s h2

/-! ### References -/

theorem sumBy_pos_iff {α : Type} (f : α → Nat) (l : List α) : 0 < sumBy f l ↔ ∃ a ∈ l, 0 < f a := by
  constructor
  · intro h
    obtain ⟨i, a, h1, h2⟩ := sumBy_pos f h
    exact ⟨a, List.mem_of_getElem? h1, h2⟩
  · rintro ⟨a, h1, h2⟩
    obtain ⟨i, hi⟩ := List.mem_iff_getElem?.1 h1
    have := le_sumBy f hi
    omega

theorem ind_pos {o : Option Nat} {s : Nat} : 0 < ind o s ↔ o = some s := by
  unfold ind
  split <;> simp_all

theorem hframe_pos {f : Frame} {s : Nat} : 0 < hframe s f ↔ FrameRefers f s := by
  have : 0 < hpc s f.pc ↔ f.pc = .rel (some s) := by
    cases hq : f.pc with
    | rel n => simp only [hpc, ind_pos, Pc.rel.injEq]
    | _ => simp [hpc]
  unfold hframe FrameRefers
  rw [← this, ← ind_pos, ← ind_pos]
  omega

theorem hthread_pos {th : Thread} {s : Nat} : 0 < hthread s th ↔ ThreadRefers th s := by
  have h1 : 0 < hpend s th.pend ↔ (∃ g, th.pend = .disc s g) ∨ th.pend = .rel s := by
    cases hq : th.pend with
    | none => simp [hpend]
    | disc x g => simp [hpend, ind_pos]
    | rel x => simp [hpend, ind_pos]
  have h2 : 0 < sumBy (hframe s) th.frames ↔ ∃ f ∈ th.frames, FrameRefers f s := by
    rw [sumBy_pos_iff]
    simp only [hframe_pos]
  unfold ThreadRefers
  rw [← or_assoc, ← h1, ← h2]
  unfold hthread
  omega

theorem Inv.refers {st : State} {L : Nat → List Nat} (hi : Inv st L) (s : Nat) :
    0 < (st.heap s).refs ↔ Refers st s ∨ s ∈ st.leaks := by
  rw [hi.ref.refs]
  have h1 : 0 < sumBy (fun x : Handle => ind x.slot s) st.conns ↔ ∃ x ∈ st.conns, x.slot = some s := by
    rw [sumBy_pos_iff]; simp only [ind_pos]
  have h2 : 0 < sumBy (fun x => ind x s) st.blks ↔ some s ∈ st.blks := by
    rw [sumBy_pos_iff]; simp only [ind_pos]
    constructor
    · rintro ⟨a, h, rfl⟩; exact h
    · intro h; exact ⟨_, h, rfl⟩
  have h3 : 0 < sumBy (hthread s) st.threads ↔ ∃ th ∈ st.threads, ThreadRefers th s := by
    rw [sumBy_pos_iff]; simp only [hthread_pos]
  have h4 : 0 < listed L s ↔ ∃ g, OnList st g s := by
    simp only [hi.onList]
    constructor
    · intro h
      apply Classical.byContradiction
      intro hne
      rw [listed_not (fun g hg => hne ⟨g, hg⟩)] at h
      cases h
    · rintro ⟨g, hg⟩; rw [listed_mem hg]; omega
  have h5 : 0 < st.leaks.count s ↔ s ∈ st.leaks := List.count_pos_iff
  unfold Refers
  rw [← h1, ← h2, ← h3, ← h4, ← h5]
  unfold held
  omega

theorem leaks_nil {P : State → Op → Prop} {n : Nat} {st : State} (h : Reach P n st) (hn : ∀ e, Ev.throw e ∉ st.log) :
    st.leaks = [] := by
  induction h with
  | init => rfl
  | step _ _ hs ih =>
    obtain ⟨evs, e1, e2, -⟩ := (step_grow hs).grow
    rcases e2 with e2 | ⟨e, he⟩
    · rw [e2]
      apply ih
      intro e he
      exact hn e (by rw [e1]; simp [he])
    · exact absurd (by rw [e1]; simp [he]) (hn e)

theorem sumBy_ind (l : List (Option Nat)) (s : Nat) : sumBy (fun x => ind x s) l = l.count (some s) := by
  induction l with
  | nil => rfl
  | cons a l ih =>
    rw [sumBy_cons, ih, List.count_cons]
    by_cases h : a = some s
    · simp [ind, h]; omega
    · simp [ind, h]

/-! ### Emissions -/

/-- What an emission, in flight or over, has dealt with is in order. -/
theorem Inv.proc_order {st : State} {L : Nat → List Nat} (hi : Inv st L) (e : Nat) :
    (proc st.log e).Sublist (order (before st.log e) (sigOf st.log e)) := by
  by_cases he : e < st.nem
  · by_cases h0 : sumBy (nid e) st.threads = 0
    · exact (hi.em.ended e he h0).sub
    · obtain ⟨i, th, h1, h2⟩ := sumBy_pos _ (Nat.pos_of_ne_zero h0)
      obtain ⟨j, f, h3, h4⟩ := sumBy_pos _ h2
      have hid : f.id = e := by
        apply Classical.byContradiction
        intro hne; simp [hne] at h4
      have hfo : ∀ (tls : Tls) (fs : List Frame) (j : Nat), FramesOk L st.log tls fs → fs[j]? = some f →
          ∃ tls, FrOk L st.log tls f := by
        intro tls fs
        induction fs generalizing tls with
        | nil => intro j _ h; simp at h
        | cons a fs ih =>
          intro j h hj
          cases j with
          | zero =>
            simp only [List.getElem?_cons_zero, Option.some.injEq] at hj
            subst hj
            exact ⟨_, h.1⟩
          | succ j => exact ih _ j h.2.2 (by simpa using hj)
      obtain ⟨tls, fo⟩ := hfo _ _ j (hi.em.fok i th h1) h3
      obtain ⟨F, P, R, B, a1, a2, a3, a4, a5⟩ := fo.pos
      rw [← hid, fo.sig, a2]
      exact (List.sublist_append_left P R).trans a3
  · rw [proc_none fun ev hev h => by have := hi.log.ems ev hev e h; omega]
    exact List.nil_sublist _

theorem Inv.end_ended {st : State} {L : Nat → List Nat} (hi : Inv st L) {e : Nat} {b : Bool} (h : Ev.end_ e b ∈ st.log) :
    Ended st.log e := by
  refine hi.em.ended e (hi.log.ems _ h e rfl) ?_
  apply Classical.byContradiction
  intro h0
  obtain ⟨i, th, h1, h2⟩ := sumBy_pos _ (Nat.pos_of_ne_zero h0)
  obtain ⟨j, f, h3, h4⟩ := sumBy_pos _ h2
  have hid : f.id = e := by
    apply Classical.byContradiction
    intro hne; simp [hne] at h4
  have hfo : ∀ (tls : Tls) (fs : List Frame) (j : Nat), FramesOk L st.log tls fs → fs[j]? = some f →
      ∃ tls, FrOk L st.log tls f := by
    intro tls fs
    induction fs generalizing tls with
    | nil => intro j _ h; simp at h
    | cons a fs ih =>
      intro j h hj
      cases j with
      | zero =>
        simp only [List.getElem?_cons_zero, Option.some.injEq] at hj
        subst hj
        exact ⟨_, h.1⟩
      | succ j => exact ih _ j h.2.2 (by simpa using hj)
  obtain ⟨tls, fo⟩ := hfo _ _ j (hi.em.fok i th h1) h3
  exact fo.notEnd b (by rw [hid]; exact h)

/-! ### Running programs -/

def preB (st : State) : Op → Bool
  | .delSig g => (st.sigs g).alive && st.threads.all (fun th => th.frames.all fun f => decide (f.sig ≠ g)) &&
      st.threads.all fun th => match th.pend with | .disc _ x => decide (x ≠ g) | _ => true
  | .connect g _ => (st.sigs g).alive
  | .discAll g => (st.sigs g).alive
  | .swap g g' => (st.sigs g).alive && (st.sigs g').alive
  | .moveSig g => (st.sigs g).alive
  | .emit g => (st.sigs g).alive
  | _ => true

def calmB (st : State) : Op → Bool
  | .swap g g' => st.threads.all fun th => match th.pend with | .disc _ x => decide (x ≠ g) && decide (x ≠ g') | _ => true
  | .moveSig g => st.threads.all fun th => match th.pend with | .disc _ x => decide (x ≠ g) | _ => true
  | _ => true

theorem preB_ok {st : State} {op : Op} (h : preB st op = true) : Pre st op := by
  cases op <;> simp only [preB, Bool.and_eq_true, List.all_eq_true, decide_eq_true_eq] at h
  case delSig g =>
    refine ⟨h.1.1, h.1.2, fun th hth s hp => ?_⟩
    have := h.2 th hth
    rw [hp] at this
    simp at this
  all_goals first | exact h | trivial

theorem calmB_ok {st : State} {op : Op} (h : calmB st op = true) : Calm st op := by
  cases op <;> simp only [calmB, List.all_eq_true] at h
  case swap g g' =>
    intro th hth s x hp
    have := h th hth
    rw [hp] at this
    simpa using this
  case moveSig g =>
    intro th hth s x hp
    have := h th hth
    rw [hp] at this
    simpa using this
  all_goals trivial

/-- Runs a program: who does what. -/
def exec (chk : State → Op → Bool) : State → List (Nat × Op) → Option State
  | st, [] => some st
  | st, (t, op) :: l =>
    if chk st op then
      match step st t op with
      | .ok st' => exec chk st' l
      | _ => none
    else none

theorem exec_run {P : State → Op → Prop} {chk : State → Op → Bool} (hc : ∀ st op, chk st op = true → P st op)
    {st st' : State} {l : List (Nat × Op)} (h : exec chk st l = some st') {n : Nat} (hr : Reach P n st) : Reach P n st' := by
  induction l generalizing st with
  | nil => simp only [exec, Option.some.injEq] at h; rw [← h]; exact hr
  | cons x l ih =>
    obtain ⟨t, op⟩ := x
    simp only [exec] at h
    split at h
    · rename_i hch
      split at h
      · rename_i st1 hs
        exact ih h (hr.step (hc _ _ hch) hs)
      · cases h
    · cases h

/-- A program that runs shows a reachable state. -/
theorem exec_reach {n : Nat} {l : List (Nat × Op)} {q : State → Bool}
    (h : ((exec preB (State.init n) l).map q) = some true) : ∃ st, Reach Pre n st ∧ q st = true := by
  cases he : exec preB (State.init n) l with
  | none => rw [he] at h; cases h
  | some st =>
    rw [he] at h
    simp only [Option.map_some, Option.some.injEq] at h
    exact ⟨st, exec_run (fun _ _ => preB_ok) he .init, h⟩

theorem exec_careful {n : Nat} {l : List (Nat × Op)} {q : State → Bool}
    (h : ((exec (fun st op => preB st op && calmB st op) (State.init n) l).map q) = some true) :
    ∃ st, Reach Careful n st ∧ q st = true := by
  cases he : exec (fun st op => preB st op && calmB st op) (State.init n) l with
  | none => rw [he] at h; cases h
  | some st =>
    rw [he] at h
    simp only [Option.map_some, Option.some.injEq] at h
    refine ⟨st, exec_run (fun st op h => ?_) he .init, h⟩
    simp only [Bool.and_eq_true] at h
    exact ⟨preB_ok h.1, calmB_ok h.2⟩

end Verif.Signal
