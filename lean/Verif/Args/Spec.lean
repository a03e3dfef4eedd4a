/-
What the arguments of a signal should be for its slots, and when objects behind slots may be used.
Independent of how arguments are passed on by the code: only modes of parameters, values and
identities of objects are mentioned.
-/
import Verif.Args.Model

namespace Verif.Args

variable {V : Type}

/-! ### What a function behind a slot gets -/

/-- Nobody can change the object at `l` during an emission with parameters `ms` that refer to the
objects `ls`: it is not global and not passed as `T&`. -/
def Private (P : Program V) (ms : List Mode) (ls : List Nat) (l : Nat) : Prop :=
  P.globals ≤ l ∧ ∀ k : Nat, ms[k]? = some .lref → ls[k]? ≠ some l

/-- Parameter `j` of a function called in an emission, declared `p`, in cell `c`, with value `s` when
the function starts.  The emission's parameter is declared `m`; the argument had value `v` when the
emission began and (if `m` is a reference) is the object at `l`.  `st` is the state when the call
of the slot begins. -/
structure Shown (P : Program V) (ms : List Mode) (ls : List Nat) (m : Mode) (v : V) (l : Nat) (st : State V)
    (p : Mode) (c : Nat) (s : V) : Prop where
  /-- An argument passed by value has the value it had, in an object of the call's own. -/
  value : m = .value → s = v ∧ st.next ≤ c
  /-- An argument passed by reference is that very object, or a copy of what it is now. -/
  same : m ≠ .value → p ≠ .value → c = l
  copy : m ≠ .value → p = .value → st.next ≤ c
  now : m ≠ .value → s = st.mem l
  /-- A constant object that nobody can change otherwise has the value it had. -/
  const : m = .cref → Private P ms ls l → s = v
  /-- What is constant stays constant; nothing that may be moved from is shared. -/
  keepsConst : m = .cref → p = .value ∨ p = .cref
  keepsShared : m = .lref → p ≠ .rref

/-- All parameters of a call. -/
def Gets (P : Program V) (ms : List Mode) (vs : List V) (ls : List Nat) (st : State V)
    (ps : List Mode) (cells : List Nat) (seen : List V) : Prop :=
  ps.length = ms.length ∧ cells.length = ms.length ∧ seen.length = ms.length ∧
  ∀ (j : Nat) m v l p c s, ms[j]? = some m → vs[j]? = some v → ls[j]? = some l →
    ps[j]? = some p → cells[j]? = some c → seen[j]? = some s → Shown P ms ls m v l st p c s

/-- A slot that runs a function of a user with these parameters, on this object. -/
inductive Runs (st : State V) : Target V → Option Nat → List Mode → Prop where
  | fn : Runs st (.fn ps b) none ps
  | raw : st.alive o = true → Runs st (.raw o ps b) (some o) ps
  | shared : st.alive o = true → Runs st (.shared o ps b) (some o) ps
  | weak : st.alive o = true → Runs st (.weak o ps b) (some o) ps

/-- A signal emitted by a slot is given, for each argument, its value and (for references) the
object itself. -/
def PassedOn (ms : List Mode) (vs : List V) (ls : List Nat) (st : State V) (vs' : List V)
    (ls' : List Nat) : Prop :=
  vs'.length = ms.length ∧ ls'.length = ms.length ∧
  ∀ (j : Nat) m v l v' l', ms[j]? = some m → vs[j]? = some v → ls[j]? = some l → vs'[j]? = some v' →
    ls'[j]? = some l' → (m = .value → v' = v ∧ st.next ≤ l') ∧ (m ≠ .value → v' = st.mem l ∧ l' = l)

/-- The events of an emission with parameters `ms`, values `vs` and objects `ls`: the slots are
called in order, from number `i` on; the flag says whether one of them stopped the emission. -/
inductive Delivers (P : Program V) : List Mode → List V → List Nat → Nat → List (Target V) →
    List (Event V) → Bool → Prop where
  | finished : Delivers P ms vs ls i [] [] false
  | call : Runs st t o ps → Gets P ms vs ls st ps cells seen →
      (∀ e ∈ last, ∃ o, e = .died o) →
      Delivers P ms vs ls (i + 1) ts evs b →
      Delivers P ms vs ls i (t :: ts) (.call i o st cells seen sub false :: last ++ evs) b
  | stop : Runs st t o ps → Gets P ms vs ls st ps cells seen →
      (∀ e ∈ last, ∃ o, e = .died o) →
      Delivers P ms vs ls i (t :: ts) (.call i o st cells seen sub true :: last) true
  | expired : st.alive o = false → Delivers P ms vs ls (i + 1) ts evs b →
      Delivers P ms vs ls i (.weak o ps body :: ts) (.skip i o st :: evs) b
  | forward : PassedOn ms vs ls st vs' ls' →
      Delivers P (P.modes sig) vs' ls' 0 (P.slots sig) sub b' →
      Delivers P ms vs ls (i + 1) ts evs b →
      Delivers P ms vs ls i (.forward sig :: ts) (.forward i sig st sub :: evs) b

/-- No object is moved into one parameter and also passed for another (their order is not
specified by C++). -/
def MovedOnce (cs : List Cat) (ms : List Mode) (ls : List Nat) : Prop :=
  ∀ j k l : Nat, ls[j]? = some l → ls[k]? = some l → cs[j]? = some .xvalue → ms[j]? = some .value → j = k

/-! ### Lifetimes -/

/-- What happens to objects, in order. -/
inductive Act where
  | start (o : Nat)
  | died (o : Nat)

mutual
def Event.acts : Event V → List Act
  | .call _ (some o) _ _ _ sub _ => .start o :: acts sub
  | .call _ none _ _ _ sub _ => acts sub
  | .forward _ _ _ sub => acts sub
  | .skip .. => []
  | .died o => [.died o]
def acts : List (Event V) → List Act
  | [] => []
  | e :: es => e.acts ++ acts es
end

/-- The life of object `o`: member functions start only while it lives and it is destroyed at most
once.  The result is whether it lives at the end. -/
inductive Life (o : Nat) : Bool → List Act → Bool → Prop where
  | nil : Life o b [] b
  | start : Life o true as b → Life o true (.start o :: as) b
  | died : Life o false as b → Life o true (.died o :: as) b
  | otherStart : p ≠ o → Life o a as b → Life o a (.start p :: as) b
  | otherDied : p ≠ o → Life o a as b → Life o a (.died p :: as) b

mutual
/-- No object of a kind is destroyed while one of its member functions, called by a slot, runs. -/
def Event.Kept (K : Nat → Prop) : Event V → Prop
  | .call _ o _ _ _ sub _ => (∀ p, o = some p → K p → Act.died p ∉ acts sub) ∧ Kept K sub
  | .forward _ _ _ sub => Kept K sub
  | .skip .. => True
  | .died _ => True
def Kept (K : Nat → Prop) : List (Event V) → Prop
  | [] => True
  | e :: es => e.Kept K ∧ Kept K es
end

/-- The targets of slots that hold a `shared_ptr` count as its owners. -/
def Owned (P : Program V) (st : State V) : Prop :=
  ∀ sig o ps body, Target.shared o ps body ∈ P.slots sig → 0 < st.held o

/-- If slots call member functions of object `o` through a pointer or a reference, somebody keeps
the object. -/
def Outlives (P : Program V) (st : State V) (o : Nat) : Prop :=
  ∀ sig ps body, Target.raw o ps body ∈ P.slots sig → 0 < st.held o

end Verif.Args
