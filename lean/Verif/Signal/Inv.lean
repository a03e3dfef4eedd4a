import Verif.Signal.Heap
import Verif.Signal.Spec
/-
The invariant of the machine.  `L g` is the list of slots that hang on signal `g`.
-/
namespace Verif.Signal
open Spec

/-! ### Sums over lists -/

def sumBy {α : Type} (f : α → Nat) (l : List α) : Nat := (l.map f).sum

theorem sumBy_cons {α : Type} (f : α → Nat) (a : α) (l : List α) : sumBy f (a :: l) = f a + sumBy f l := by
  simp [sumBy]

theorem sumBy_nil {α : Type} (f : α → Nat) : sumBy f [] = 0 := rfl

theorem sumBy_append {α : Type} (f : α → Nat) (l l' : List α) :
    sumBy f (l ++ l') = sumBy f l + sumBy f l' := by simp [sumBy]

theorem sumBy_snoc {α : Type} (f : α → Nat) (l : List α) (a : α) :
    sumBy f (l ++ [a]) = sumBy f l + f a := by simp [sumBy]

theorem sumBy_set {α : Type} (f : α → Nat) {l : List α} {i : Nat} {a b : α} (h : l[i]? = some a) :
    sumBy f (l.set i b) + f a = sumBy f l + f b := by
  induction l generalizing i with
  | nil => simp at h
  | cons x l ih =>
    cases i with
    | zero =>
      simp only [List.getElem?_cons_zero, Option.some.injEq] at h
      subst h
      simp only [List.set_cons_zero, sumBy_cons]
      omega
    | succ i =>
      simp only [List.getElem?_cons_succ] at h
      have := ih h
      simp only [List.set_cons_succ, sumBy_cons]
      omega

theorem le_sumBy {α : Type} (f : α → Nat) {l : List α} {i : Nat} {a : α} (h : l[i]? = some a) :
    f a ≤ sumBy f l := by
  induction l generalizing i with
  | nil => simp at h
  | cons x l ih =>
    rw [sumBy_cons]
    cases i with
    | zero =>
      simp only [List.getElem?_cons_zero, Option.some.injEq] at h
      subst h; omega
    | succ i =>
      simp only [List.getElem?_cons_succ] at h
      have := ih h
      omega

theorem two_le_sumBy {α : Type} (f : α → Nat) {l : List α} {i j : Nat} {a b : α} (hij : i ≠ j)
    (h : l[i]? = some a) (h' : l[j]? = some b) : f a + f b ≤ sumBy f l := by
  induction l generalizing i j with
  | nil => simp at h
  | cons x l ih =>
    rw [sumBy_cons]
    cases i with
    | zero =>
      simp only [List.getElem?_cons_zero, Option.some.injEq] at h
      subst h
      cases j with
      | zero => exact absurd rfl hij
      | succ j =>
        simp only [List.getElem?_cons_succ] at h'
        have := le_sumBy f h'
        omega
    | succ i =>
      simp only [List.getElem?_cons_succ] at h
      cases j with
      | zero =>
        simp only [List.getElem?_cons_zero, Option.some.injEq] at h'
        subst h'
        have := le_sumBy f h
        omega
      | succ j =>
        simp only [List.getElem?_cons_succ] at h'
        have := ih (fun e => hij (by rw [e])) h h'
        omega

theorem sumBy_pos {α : Type} (f : α → Nat) {l : List α} (h : 0 < sumBy f l) :
    ∃ (i : Nat) (a : α), l[i]? = some a ∧ 0 < f a := by
  induction l with
  | nil => simp [sumBy] at h
  | cons x l ih =>
    rw [sumBy_cons] at h
    by_cases hx : 0 < f x
    · exact ⟨0, x, rfl, hx⟩
    · obtain ⟨i, a, e, p⟩ := ih (by omega)
      exact ⟨i + 1, a, by simpa using e, p⟩

theorem getElem?_set_of {α : Type} {l : List α} {i j : Nat} {a b : α} (h : (l.set i b)[j]? = some a) :
    (j = i ∧ a = b) ∨ (j ≠ i ∧ l[j]? = some a) := by
  by_cases e : i = j
  · subst e
    left
    rw [List.getElem?_set_self'] at h
    cases hl : l[i]? with
    | none => rw [hl] at h; simp at h
    | some x => rw [hl] at h; simp at h; exact ⟨rfl, h.symm⟩
  · right
    rw [List.getElem?_set_ne e] at h
    exact ⟨fun e' => e e'.symm, h⟩

/-! ### References -/

/-- One if the pointer points to the slot. -/
def ind (o : Option Nat) (s : Nat) : Nat := if o = some s then 1 else 0

theorem ind_none (s : Nat) : ind none s = 0 := by simp [ind]

def hpend (s : Nat) : Pend → Nat
  | .none => 0
  | .disc x _ => ind (some x) s
  | .rel x => ind (some x) s

def hpc (s : Nat) : Pc → Nat
  | .rel n => ind n s
  | _ => 0

def hframe (s : Nat) (f : Frame) : Nat := ind f.last s + ind f.cur s + hpc s f.pc

def hthread (s : Nat) (th : Thread) : Nat := hpend s th.pend + sumBy (hframe s) th.frames

/-- The references to a slot other than the one of a signal's list. -/
def held (conns : List Handle) (blks : List (Option Nat)) (threads : List Thread) (leaks : List Nat)
    (s : Nat) : Nat :=
  sumBy (fun x => ind x.slot s) conns + sumBy (fun x => ind x s) blks +
    sumBy (hthread s) threads + leaks.count s

open Classical in
/-- The reference of the list. -/
noncomputable def listed (L : Nat → List Nat) (s : Nat) : Nat := if ∃ g, s ∈ L g then 1 else 0

theorem listed_mem {L : Nat → List Nat} {g s : Nat} (h : s ∈ L g) : listed L s = 1 := by
  unfold listed
  rw [if_pos ⟨g, h⟩]

theorem listed_not {L : Nat → List Nat} {s : Nat} (h : ∀ g, s ∉ L g) : listed L s = 0 := by
  unfold listed
  rw [if_neg]
  rintro ⟨g, hg⟩
  exact h g hg

theorem listed_congr {L L' : Nat → List Nat} {s : Nat} (h : (∃ g, s ∈ L g) ↔ ∃ g, s ∈ L' g) :
    listed L s = listed L' s := by
  unfold listed
  by_cases h' : ∃ g, s ∈ L g
  · rw [if_pos h', if_pos (h.1 h')]
  · rw [if_neg h', if_neg (fun x => h' (h.2 x))]

/-! ### Frames -/

def Pc.threw : Pc → Bool
  | .finish b => b
  | .finish2 b => b
  | _ => false

/-- `P` has been dealt with, `R` not yet. -/
def PcOk (stopped : Bool) (P R : List Nat) (f : Frame) : Prop :=
  match f.pc with
  | .loop => f.last = (P ++ R).getLast? ∧ f.cur = R.head? ∧ (R = [] → P = []) ∧ stopped = false
  | .checkValid => f.last = (P ++ R).getLast? ∧ f.cur = R.head? ∧ R ≠ [] ∧ stopped = false
  | .calling => f.last = (P ++ R).getLast? ∧ ∃ c, f.cur = some c ∧ P.getLast? = some c
  | .advance => f.last = (P ++ R).getLast? ∧ ∃ c, f.cur = some c ∧ P.getLast? = some c
  | .rel next => f.last = (P ++ R).getLast? ∧ (∃ c, f.cur = some c ∧ P.getLast? = some c) ∧
      next = if stopped then none else R.head?
  | .finish thr => f.last = (P ++ R).getLast? ∧ f.cur = none ∧ (R = [] ∨ stopped = true ∨ thr = true)
  | .finish2 thr => f.last = none ∧ f.cur = none ∧ (R = [] ∨ stopped = true ∨ thr = true)

structure FrOk (L : Nat → List Nat) (log : List Ev) (tls : Tls) (f : Frame) : Prop where
  sig : sigOf log f.id = f.sig
  stop : Ev.stop f.id ∈ log ↔ tls.stopped = true
  thr : Ev.throw f.id ∈ log ↔ f.pc.threw = true
  notEnd : ∀ b, Ev.end_ f.id b ∉ log
  tlsCur : f.pc = .calling → tls.current = f.cur ∧ (calls log f.id).getLast? = f.cur
  pass : f.pc = .checkValid → ∃ c, f.cur = some c ∧ latest log f.id = some (.pass f.id c)
  pos : ∃ F P R B, L f.sig = F ++ (P ++ R) ++ B ∧ proc log f.id = P ∧
    (P ++ R).Sublist (order (before log f.id) f.sig) ∧
    (∀ s, conn (before log f.id) s = some f.sig → s ∈ P ++ R) ∧ PcOk tls.stopped P R f

def FramesOk (L : Nat → List Nat) (log : List Ev) : Tls → List Frame → Prop
  | tls, [] => tls.current = none
  | tls, f :: rest => FrOk L log tls f ∧ (∀ f' ∈ rest, f'.pc = .calling) ∧ FramesOk L log f.saved rest

/-- The thread runs user code, perhaps inside a call on a handle. -/
def UserFrames : List Frame → Prop
  | [] => True
  | f :: _ => f.pc = .calling

def nfr (g : Nat) (th : Thread) : Nat := sumBy (fun f => if f.sig = g then 1 else 0) th.frames
def nid (e : Nat) (th : Thread) : Nat := sumBy (fun f => if f.id = e then 1 else 0) th.frames

/-- What is known of an emission that is over. -/
structure Ended (log : List Ev) (e : Nat) : Prop where
  sub : (proc log e).Sublist (order (before log e) (sigOf log e))
  all : Ev.stop e ∈ log ∨ Ev.throw e ∈ log ∨
    ∀ s, conn (before log e) s = some (sigOf log e) → s ∈ proc log e

/-! ### Histories -/

/-- An event is possible after a history. -/
def Ok (l : List Ev) : Ev → Prop
  | .connect s _ _ => ∀ ev ∈ l, evSlot ev ≠ some s
  | .begin e _ => ∀ ev ∈ l, evEm ev ≠ some e
  | .call e s => Going l e ∧ latest l e = some (.pass e s)
  | .pass e s => Going l e ∧ blockers l s = 0
  | .skipBlocked e s => Going l e ∧ 0 < blockers l s
  | .skipInvalid e s => Going l e ∧ latest l e = some (.pass e s) ∧ conn l s = none
  | .end_ e b => (Ev.throw e ∈ l ↔ b = true)
  | _ => True

/-- A slot is called only while it is connected to the signal. -/
def CallOk (l : List Ev) : Ev → Prop
  | .call e s => conn l s = some (sigOf l e)
  | _ => True

def Hist (ok : List Ev → Ev → Prop) : List Ev → Prop
  | [] => True
  | ev :: l => ok l ev ∧ Hist ok l

/-! ### The invariant -/

structure RefInv (heap : Heap) (nslots : Nat) (conns : List Handle) (blks : List (Option Nat))
    (threads : List Thread) (leaks : List Nat) (log : List Ev) (L : Nat → List Nat) : Prop where
  alive : AliveOk heap
  fresh : ∀ s, nslots ≤ s → (heap s).refs = 0
  refs : ∀ s, (heap s).refs = held conns blks threads leaks s + listed L s
  blocking : ∀ s, (heap s).blocking = sumBy (fun x => ind x s) blks
  blog : ∀ s, blockers log s = (heap s).blocking

structure ListInv (sender next : Nat → Option Nat) (nslots : Nat) (sigs : Nat → Sig) (nsigs : Nat)
    (L : Nat → List Nat) : Prop where
  linked : ∀ g, LinkedN next (L g)
  nodup : ∀ g, (L g).Nodup
  disj : ∀ g g' s, s ∈ L g → s ∈ L g' → g = g'
  slots : ∀ g, (sigs g).slots = (L g).head?
  tail : ∀ g, (sigs g).tail = (L g).getLast?
  senderL : ∀ s g, sender s = some g → s ∈ L g
  lsender : ∀ s g, s ∈ L g → sender s = some g ∨ sender s = none
  dead : ∀ g, (sigs g).alive = false → L g = []
  sigFresh : ∀ g, nsigs ≤ g → (sigs g).alive = false
  bound : ∀ g s, s ∈ L g → s < nslots

structure EmInv (sigs : Nat → Sig) (nem : Nat) (threads : List Thread) (log : List Ev)
    (L : Nat → List Nat) : Prop where
  active : ∀ g, (sigs g).active = sumBy (nfr g) threads
  deferred : ∀ g, (sigs g).deferred = true → (sigs g).active ≠ 0
  falive : ∀ (i : Nat) (th : Thread), threads[i]? = some th → ∀ f ∈ th.frames, (sigs f.sig).alive = true
  palive : ∀ (i : Nat) (th : Thread), threads[i]? = some th → ∀ s g, th.pend = .disc s g → (sigs g).alive = true
  pconn : ∀ (i : Nat) (th : Thread), threads[i]? = some th → ∀ s g, th.pend = .disc s g → conn log s = none
  fok : ∀ (i : Nat) (th : Thread), threads[i]? = some th → FramesOk L log th.tls th.frames
  mode : ∀ (i : Nat) (th : Thread), threads[i]? = some th → th.pend ≠ .none → UserFrames th.frames
  ids : ∀ e, sumBy (nid e) threads ≤ 1
  idsLt : ∀ e, nem ≤ e → sumBy (nid e) threads = 0
  ended : ∀ e, e < nem → sumBy (nid e) threads = 0 → Ended log e

structure LogInv (sender : Nat → Option Nat) (nslots nem : Nat) (log : List Ev) (L : Nat → List Nat) : Prop where
  hist : Hist Ok log
  order : ∀ g, (L g).Sublist (order log g)
  conn : ∀ s g, conn log s = some g → sender s = some g
  ems : ∀ ev ∈ log, ∀ e, evEm ev = some e → e < nem
  slots : ∀ ev ∈ log, ∀ s, evSlot ev = some s → s < nslots

structure Inv (st : State) (L : Nat → List Nat) : Prop where
  ref : RefInv st.heap st.nslots st.conns st.blks st.threads st.leaks st.log L
  list : ListInv (fun s => (st.heap s).sender) (fun s => (st.heap s).next) st.nslots st.sigs st.nsigs L
  em : EmInv st.sigs st.nem st.threads st.log L
  log : LogInv (fun s => (st.heap s).sender) st.nslots st.nem st.log L

/-- What holds in addition if signals are not moved or swapped while a disconnection of one of
their slots is under way. -/
structure CalmInv (sender : Nat → Option Nat) (sigs : Nat → Sig) (threads : List Thread) (log : List Ev)
    (L : Nat → List Nat) : Prop where
  conn : ∀ s g, sender s = some g → conn log s = some g
  half : ∀ g s, s ∈ L g → sender s = none →
    (sigs g).deferred = true ∨ ∃ (i : Nat) (th : Thread), threads[i]? = some th ∧ th.pend = .disc s g
  pendL : ∀ (i : Nat) (th : Thread) (s g g' : Nat), threads[i]? = some th → th.pend = .disc s g → s ∈ L g' → g' = g
  hist : Hist CallOk log

/-! ### What the user has to observe -/

/-- Signals are used while they exist, and destroyed when no emission and no disconnection is
under way on them. -/
def Pre (st : State) : Op → Prop
  | .delSig g => (st.sigs g).alive = true ∧
      (∀ th ∈ st.threads, ∀ f ∈ th.frames, f.sig ≠ g) ∧
      ∀ th ∈ st.threads, ∀ s, th.pend ≠ .disc s g
  | .connect g _ => (st.sigs g).alive = true
  | .discAll g => (st.sigs g).alive = true
  | .swap g g' => (st.sigs g).alive = true ∧ (st.sigs g').alive = true
  | .moveSig g => (st.sigs g).alive = true
  | .emit g => (st.sigs g).alive = true
  | _ => True

/-- Signals are moved and swapped while no disconnection of one of their slots is under way. -/
def Calm (st : State) : Op → Prop
  | .swap g g' => ∀ th ∈ st.threads, ∀ s x, th.pend = .disc s x → x ≠ g ∧ x ≠ g'
  | .moveSig g => ∀ th ∈ st.threads, ∀ s x, th.pend = .disc s x → x ≠ g
  | _ => True

/-- The states reachable by actions that meet a condition. -/
inductive Reach (P : State → Op → Prop) (n : Nat) : State → Prop
  | init : Reach P n (State.init n)
  | step {st st' : State} {t : Nat} {op : Op} :
      Reach P n st → P st op → step st t op = .ok st' → Reach P n st'

end Verif.Signal
