/-
Arguments of signals: how the arguments of an emission reach the functions behind its slots
(include/kl/signal.hpp: `operator()` and the overloads of `connect`).

Every object that holds a value (a parameter, a local copy, an object of the caller) is a cell
of a memory.  Passing an argument either binds a reference to a cell or makes a new cell by
copying or moving.  Moving leaves `gone v` behind in the cell that held `v`.

Functions of users are arbitrary programs (`Body`) over the cells they can reach: their parameters
and the global cells.  They can emit signals, stop the emission and give up or copy shared
ownership of objects.

Simplifications: one thread; the lists of slots do not change during a run (connecting,
disconnecting and blocking are the subject of `Verif/Signal`); no exceptions; all arguments of a
signal are of one type of values; a new value is a temporary object from which a parameter is moved (C++17 makes
it the parameter itself: one move less); a run is bounded by a number of steps (`Out.timeout`), theorems
hold for every bound.
-/

namespace Verif.Args

/-- How a parameter is declared: `T`, `const T&`, `T&`, `T&&`. (signal.hpp:587 `Args... args`, 468 `Args2...`) -/
inductive Mode where
  | value
  | cref
  | lref
  | rref
deriving DecidableEq, Repr

/-- What kind of expression an argument is: a constant or non-constant object, or one that may be
moved from. (the arguments at signal.hpp:587 and 630) -/
inductive Cat where
  | clvalue
  | lvalue
  | xvalue
deriving DecidableEq, Repr

/-- C++ [dcl.init.ref], [over.best.ics]: can a parameter be initialised by such an argument?
(the initialisation of `args` at signal.hpp:587 and of the parameters of targets at 630) -/
def binds : Cat → Mode → Bool
  | _, .value => true
  | _, .cref => true
  | .lvalue, .lref => true
  | .xvalue, .rref => true
  | _, _ => false

/-- The expression that names a parameter. (`args...` at signal.hpp:630) -/
def Mode.name : Mode → Cat
  | .cref => .clvalue
  | _ => .lvalue

/-- `std::forward<Arg>(arg)` for a parameter declared `Arg&&`.
(signal.hpp:473, 485, 497, 509, 521, 534, 547, 561, 571) -/
def Mode.forward : Mode → Cat
  | .value => .xvalue
  | .rref => .xvalue
  | .lref => .lvalue
  | .cref => .clvalue

/-- A cell a function can name: one of its parameters or a global object.
(what code of users can name in a target, signal.hpp:405) -/
inductive Ref where
  | param (i : Nat)
  | global (g : Nat)
deriving DecidableEq, Repr

/-- An argument written in a function: an object, `std::move` of it, or a new value.
(how users call signal.hpp:587) -/
inductive Expr (V : Type) where
  | obj (r : Ref)
  | move (r : Ref)
  | fresh (v : V)

/-- The functions of users. (what `slot_type` holds, signal.hpp:405; code of users) -/
inductive Body (V : Type) where
  | done
  /-- Look at an object; what happens next may depend on its value. -/
  | read (r : Ref) (next : V → Body V)
  /-- Assign to an object (ignored if it can be reached as a constant only). -/
  | write (r : Ref) (v : V) (next : Body V)
  /-- Move the value out of an object (ignored likewise). -/
  | take (r : Ref) (next : V → Body V)
  /-- Emit a signal. -/
  | emit (sig : Nat) (args : List (Expr V)) (next : Body V)
  /-- `this_signal::stop_emission()`. -/
  | stop (next : Body V)
  /-- Copy a `shared_ptr` to an object (by locking a `weak_ptr`). -/
  | share (o : Nat) (next : Body V)
  /-- Destroy a `shared_ptr` to an object. -/
  | drop (o : Nat) (next : Body V)

/-- What is behind a slot: the overloads of `connect` (signal.hpp:456-572). -/
inductive Target (V : Type) where
  /-- 456-464: a callable object. -/
  | fn (params : List Mode) (body : Body V)
  /-- 466-513: a member function with a pointer or a reference to an object. -/
  | raw (o : Nat) (params : List Mode) (body : Body V)
  /-- 515-538: a member function with a `shared_ptr`. -/
  | shared (o : Nat) (params : List Mode) (body : Body V)
  /-- 540-564: a member function with a `weak_ptr`. -/
  | weak (o : Nat) (params : List Mode) (body : Body V)
  /-- 567-572: another signal. -/
  | forward (sig : Nat)

/-- The signals of a program: the parameters of each and its slots in order.
(signal.hpp:814-815 the lists of slots, fixed here) -/
structure Program (V : Type) where
  modes : Nat → List Mode
  slots : Nat → List (Target V)
  /-- Cells below this number are global. -/
  globals : Nat
  /-- What moving leaves behind. -/
  gone : V → V

/-- The cells, and the owners of objects.
(objects of users; the cells are those behind signal.hpp:587 and the captures at 472-571) -/
structure State (V : Type) where
  mem : Nat → V
  /-- Cells from here on are unused. -/
  next : Nat
  /-- `shared_ptr`s to an object that users hold. -/
  users : Nat → Nat
  /-- `shared_ptr`s to an object held by targets of slots and by running `weak_ptr` slots. -/
  held : Nat → Nat
  /-- How often arguments were copied and moved so far (what `counter` at tests/signal_test.cpp:825-857 counts). -/
  copies : Nat := 0
  moves : Nat := 0

variable {V : Type}

/-- Is there a `shared_ptr` to the object? (what `instance.lock()` at signal.hpp:546 and 560 asks) -/
def State.alive (st : State V) (o : Nat) : Bool := st.users o + st.held o != 0

/-- Assignment to a cell: code of users only; signal.hpp assigns no argument (587-650). -/
def State.set (st : State V) (l : Nat) (v : V) : State V :=
  { st with mem := fun m => if m = l then v else st.mem m }

/-- A new cell. (a parameter of signal.hpp:587 or a temporary object of its caller) -/
def State.alloc (st : State V) (v : V) : State V × Nat :=
  ({ st with mem := fun m => if m = st.next then v else st.mem m, next := st.next + 1 }, st.next)

/-- What happens, in order. (calls at signal.hpp:630, and what code of users does) -/
inductive Event (V : Type) where
  /-- Slot number `i` runs a function of a user (on object `o`, if it is a member function).
  `st` is the state when the call of the slot begins, `cells` are the cells of the function's
  parameters and `seen` their values when it starts; `sub` happens meanwhile; `stopped` says
  whether the function called `stop_emission`. -/
  | call (i : Nat) (o : Option Nat) (st : State V) (cells : List Nat) (seen : List V)
      (sub : List (Event V)) (stopped : Bool)
  /-- Slot number `i` emits signal `sig`; `st` is the state before, `sub` happens meanwhile. -/
  | forward (i : Nat) (sig : Nat) (st : State V) (sub : List (Event V))
  /-- Slot number `i` does nothing: the object of its `weak_ptr` is gone. -/
  | skip (i : Nat) (o : Nat) (st : State V)
  /-- The last `shared_ptr` to an object is gone: the object is destroyed. -/
  | died (o : Nat)

/-- How a run ends. (of signal.hpp:587-650) -/
inductive Out (V : Type) where
  | ok (st : State V) (evs : List (Event V)) (stopped : Bool)
  /-- A program that does not compile. -/
  | illFormed
  /-- A member function of a destroyed object is called. -/
  | ub
  | timeout

/-- Initialise a parameter by (the expression that names) a cell: C++ [dcl.init], [class.copy].
(at signal.hpp:587, 472-571 and 630) -/
def bindOne (gone : V → V) (c : Cat) (m : Mode) (l : Nat) (st : State V) : Option (State V × Nat) :=
  if binds c m then
    match m with
    | .value =>
      let v := st.mem l
      let st := match c with
        | .xvalue => { st.set l (gone v) with moves := st.moves + 1 }
        | _ => { st with copies := st.copies + 1 }
      some (st.alloc v)
    | _ => some (st, l)
  else none

/-- Initialise the parameters in order. (signal.hpp:587 `Args... args`) -/
def bindAll (gone : V → V) : List Cat → List Mode → List Nat → State V → Option (State V × List Nat)
  | [], [], [], st => some (st, [])
  | c :: cs, m :: ms, l :: ls, st =>
    match bindOne gone c m l st with
    | none => none
    | some (st, l') =>
      match bindAll gone cs ms ls st with
      | none => none
      | some (st, ls') => some (st, l' :: ls')
  | _, _, _, _ => none

/-- The cells of a running function, with how each parameter was declared.
(signal.hpp:587, 472-571: a function of the library or of users) -/
structure Frame where
  cells : List Nat
  modes : List Mode

/-- The cell of a name, if there is one. (the names in signal.hpp:587-650 and 472-571) -/
def Frame.cell (f : Frame) (globals : Nat) : Ref → Option Nat
  | .param i => f.cells[i]?
  | .global g => if g < globals then some g else none

/-- The kind of expression a name is. (the names in signal.hpp:587-650 and 472-571) -/
def Frame.cat (f : Frame) : Ref → Cat
  | .param i => match f.modes[i]? with
    | some m => m.name
    | none => .lvalue
  | .global _ => .lvalue

/-- `std::move` of an expression: of a constant object, what it gives can only be copied.
(the arguments of users at signal.hpp:587) -/
def Cat.moved : Cat → Cat
  | .clvalue => .clvalue
  | _ => .xvalue

/-- Evaluate the arguments of an emission: the kind of each and its cell (a new value is a
temporary object). (the call of signal.hpp:587) -/
def evalArgs (globals : Nat) (f : Frame) : List (Expr V) → State V → Option (State V × List Cat × List Nat)
  | [], st => some (st, [], [])
  | e :: es, st =>
    let first : Option (State V × Cat × Nat) := match e with
      | .obj r => (f.cell globals r).map fun l => (st, f.cat r, l)
      | .move r => (f.cell globals r).map fun l => (st, (f.cat r).moved, l)
      | .fresh v => some ((st.alloc v).1, .xvalue, (st.alloc v).2)
    match first with
    | none => none
    | some (st, c, l) =>
      match evalArgs globals f es st with
      | none => none
      | some (st, cs, ls) => some (st, c :: cs, l :: ls)

/-- Release one of the `shared_ptr`s of users; the last one destroys the object.
(code of users; the `shared_ptr`s of the library are the captures at signal.hpp:520, 533) -/
def State.dropUser (st : State V) (o : Nat) : State V × List (Event V) :=
  if st.users o = 0 then (st, [])
  else
    let st' := { st with users := fun p => if p = o then st.users p - 1 else st.users p }
    (st', if st'.alive o then [] else [.died o])

/-- `auto ptr = instance.lock()` (signal.hpp:546, 560): one more `shared_ptr`. -/
def State.lock (st : State V) (o : Nat) : State V :=
  { st with held := fun p => if p = o then st.held p + 1 else st.held p }

/-- The end of the scope of `ptr` (signal.hpp:548, 562). -/
def State.unlock (st : State V) (o : Nat) : State V × List (Event V) :=
  let st' := { st with held := fun p => if p = o then st.held p - 1 else st.held p }
  (st', if st'.alive o then [] else [.died o])

/-- Put what happened before in front. (signal.hpp:624-650 the loop) -/
def Out.after (evs : List (Event V)) (stopped : Bool) : Out V → Out V
  | .ok st evs' s => .ok st (evs ++ evs') (stopped || s)
  | o => o

mutual

/-- Run a function of a user. (called at signal.hpp:630) -/
def runBody (P : Program V) : Nat → Body V → Frame → State V → Out V
  | 0, _, _, _ => .timeout
  | _ + 1, .done, _, st => .ok st [] false
  | n + 1, .read r k, f, st =>
    match f.cell P.globals r with
    | none => .illFormed
    | some l => runBody P n (k (st.mem l)) f st
  | n + 1, .write r v k, f, st =>
    match f.cell P.globals r with
    | none => .illFormed
    | some l => runBody P n k f (if f.cat r = .clvalue then st else st.set l v)
  | n + 1, .take r k, f, st =>
    match f.cell P.globals r with
    | none => .illFormed
    | some l =>
      runBody P n (k (st.mem l)) f (if f.cat r = .clvalue then st else st.set l (P.gone (st.mem l)))
  | n + 1, .emit sig args k, f, st =>
    match evalArgs P.globals f args st with
    | none => .illFormed
    | some (st, cs, ls) =>
      match emit P n sig cs ls st with
      | .ok st evs _ => (runBody P n k f st).after evs false
      | o => o
  | n + 1, .stop k, f, st => (runBody P n k f st).after [] true
  | n + 1, .share o k, f, st =>
    runBody P n k f (if st.alive o then
      { st with users := fun p => if p = o then st.users p + 1 else st.users p } else st)
  | n + 1, .drop o k, f, st =>
    (runBody P n k f (st.dropUser o).1).after (st.dropUser o).2 false
termination_by structural n => n

/-- `signal::operator()(Args... args)`, signal.hpp:587-651: the parameters are initialised by the
arguments, then the slots are called in order.  When it returns, the flag of `stop_emission` is
what it was before (589-592). -/
def emit (P : Program V) : Nat → Nat → List Cat → List Nat → State V → Out V
  | 0, _, _, _, _ => .timeout
  | n + 1, sig, cs, ls, st =>
    match bindAll P.gone cs (P.modes sig) ls st with
    | none => .illFormed
    | some (st, args) =>
      match runSlots P n (P.modes sig) args 0 (P.slots sig) st with
      | .ok st evs _ => .ok st evs false
      | o => o
termination_by structural n => n

/-- The loop at signal.hpp:624-650.  A slot is called at 630 with `args...`. -/
def runSlots (P : Program V) : Nat → List Mode → List Nat → Nat → List (Target V) → State V → Out V
  | 0, _, _, _, _, _ => .timeout
  | _ + 1, _, _, _, [], st => .ok st [] false
  | n + 1, ms, args, i, t :: ts, st =>
    match callSlot P n ms args i t st with
    | .ok st evs true => .ok st evs true
    | .ok st evs false => (runSlots P n ms args (i + 1) ts st).after evs false
    | o => o
termination_by structural n => n

/-- `current->target(args...)`, signal.hpp:630: `std::function<void(Args...)>::operator()` initialises its own
parameters by the names of the parameters of the emission and forwards them. -/
def callSlot (P : Program V) : Nat → List Mode → List Nat → Nat → Target V → State V → Out V
  | 0, _, _, _, _, _ => .timeout
  | n + 1, ms, args, i, t, st =>
    match bindAll P.gone (ms.map Mode.name) ms args st with
    | none => .illFormed
    | some (st', own) =>
      match t with
      -- the callable object itself
      | .fn ps body => callFn P n i none st (ms.map Mode.forward) own ps body st'
      -- [mem_func, instance](Args&&... args) { (instance->*mem_func)(std::forward<Args>(args)...); }
      | .raw o ps body =>
        if st'.alive o then callFn P n i (some o) st (ms.map Mode.forward) own ps body st' else .ub
      -- ((*instance).*mem_func)(std::forward<Args>(args)...)
      | .shared o ps body =>
        if st'.alive o then callFn P n i (some o) st (ms.map Mode.forward) own ps body st' else .ub
      -- if (auto ptr = instance.lock()) ((*ptr).*mem_func)(std::forward<Args>(args)...);
      | .weak o ps body =>
        if st'.alive o then
          match callFn P n i (some o) st (ms.map Mode.forward) own ps body (st'.lock o) with
          | .ok st evs s => .ok (st.unlock o).1 (evs ++ (st.unlock o).2) s
          | o => o
        else .ok st' [.skip i o st] false
      -- [&sig](Args&&... args) { sig(std::forward<Args>(args)...); }
      | .forward sig =>
        match emit P n sig (ms.map Mode.forward) own st' with
        | .ok st'' evs _ => .ok st'' [.forward i sig st evs] false
        | o => o
termination_by structural n => n

/-- Call a function of a user with forwarded arguments. (signal.hpp:473, 485, 497, 509, 521, 534, 547, 561) -/
def callFn (P : Program V) : Nat → Nat → Option Nat → State V → List Cat → List Nat → List Mode →
    Body V → State V → Out V
  | 0, _, _, _, _, _, _, _, _ => .timeout
  | n + 1, i, o, st₀, cs, own, ps, body, st =>
    match bindAll P.gone cs ps own st with
    | none => .illFormed
    | some (st, cells) =>
      match runBody P n body ⟨cells, ps⟩ st with
      | .ok st' evs s => .ok st' [.call i o st₀ cells (cells.map st.mem) evs s] s
      | o => o
termination_by structural n => n

end

end Verif.Args
