/-!
Data races (C++ [intro.races]), on executions alone: what happens before what, and what a race is.
Nothing here knows about signals except for the names of locations.
-/

namespace Verif.Races

/-- Ordinary memory: the data members of a signal, its mutex as an object (constructing it writes, and to call
`lock` reads: before the call has any effect), the link of a slot, and the slot as an object. Every
access to a member of a slot needs the object to exist: it reads `obj`. Creating and deleting the slot
write it. -/
inductive Loc where
  | fld (g : Nat)
  | mtx (g : Nat)
  | nxt (s : Nat)
  | obj (s : Nat)
  deriving DecidableEq, Repr

/-- Actions that synchronise. -/
inductive Sync where
  | none
  /-- a mutex -/
  | lock (g : Nat)
  | unlock (g : Nat)
  /-- `count_.fetch_sub(1, acq_rel)` -/
  | sub (s : Nat)
  /-- `sender_.store(_, release)` -/
  | store (s : Nat)
  /-- `sender_.exchange(_, acq_rel)` -/
  | xchg (s : Nat)
  /-- any means of synchronisation of the users -/
  | rel (k : Nat)
  | acq (k : Nat)
  deriving DecidableEq, Repr

/-- An action of a thread; `acc` are its accesses to ordinary memory, `true` for writing. -/
structure Ev where
  tid : Nat
  sync : Sync
  acc : List (Loc × Bool)
  deriving DecidableEq, Repr

/-- `i` synchronises with `j`: unlocking and locking a mutex; decrements of a reference count (nothing but
read-modify-write operations change it, so that release sequences never end); an exchange and the store
whose value it can see (read-modify-write operations in between do not end the release sequence). -/
def Syncs (tr : List Ev) (i j : Nat) (a b : Ev) : Prop :=
  (∃ g, a.sync = .unlock g ∧ b.sync = .lock g) ∨
  (∃ s, a.sync = .sub s ∧ b.sync = .sub s) ∨
  (∃ k, a.sync = .rel k ∧ b.sync = .acq k) ∨
  (∃ s, a.sync = .store s ∧ b.sync = .xchg s ∧
    ∀ k c, i < k → k < j → tr[k]? = some c → c.sync ≠ .store s)

/-- One step of happens-before: the order of a thread, or synchronisation. -/
def Edge (tr : List Ev) (i j : Nat) : Prop :=
  i < j ∧ ∃ a b, tr[i]? = some a ∧ tr[j]? = some b ∧ (a.tid = b.tid ∨ Syncs tr i j a b)

/-- Happens before. -/
inductive HB (tr : List Ev) : Nat → Nat → Prop where
  | edge {i j : Nat} : Edge tr i j → HB tr i j
  | trans {i j k : Nat} : HB tr i j → Edge tr j k → HB tr i k

/-- Action `i` reads (`w = false`) or writes `x`. -/
def Acc (tr : List Ev) (i : Nat) (x : Loc) (w : Bool) : Prop := ∃ a, tr[i]? = some a ∧ (x, w) ∈ a.acc

/-- Two actions conflict: they access the same memory, and one of them writes. -/
def Conflict (tr : List Ev) (i j : Nat) : Prop := ∃ x w w', Acc tr i x w ∧ Acc tr j x w' ∧ (w || w') = true

/-- A data race: neither of two conflicting actions happens before the other. -/
def Race (tr : List Ev) (i j : Nat) : Prop :=
  i ≠ j ∧ Conflict tr i j ∧ ¬ HB tr i j ∧ ¬ HB tr j i

/-- Who owns the mutex of `g` after these actions. -/
def owner (tr : List Ev) (g : Nat) : Option Nat :=
  tr.foldl (fun o e => if e.sync = .lock g then some e.tid else if e.sync = .unlock g then none else o) none

/-- `std::mutex` [thread.mutex.requirements]: only what nobody owns is locked, and only the owner unlocks. -/
def MutexOk (tr : List Ev) : Prop := ∀ i e g, tr[i]? = some e →
  (e.sync = .lock g → owner (tr.take i) g = none) ∧ (e.sync = .unlock g → owner (tr.take i) g = some e.tid)

end Verif.Races
