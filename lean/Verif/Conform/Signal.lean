import Verif.Signal.Model
/-
The cases of tests/signal_test.cpp, run on the model of signal.hpp.  These are tests of the
model, not proofs.

A test is a list of commands of the main program, and a list of commands for each call of
each slot.  What a slot does to the variables of a test is read off the order of the calls.
The cases of "by value vs by const ref" and of member functions are not about this model.
The stress tests of "multithreading" have no schedule to follow.
-/
namespace Verif.Conform.SignalTest
open Verif.Signal

/-! ### A driver -/

/-- An operation, which may depend on the state, or a check. -/
inductive Cmd
  | op (f : State → Op)
  | chk (f : State → Bool)

/-- Commands still to run, of the main program and of the running slots; the innermost first. -/
abbrev Stack := List (List Cmd)

/-- The thread runs the target of a slot in emission `e`. -/
def running (st : State) : Option Nat :=
  match st.threads with
  | [th] =>
    match th.frames with
    | f :: _ => if f.pc = .calling then f.cur else none
    | [] => none
  | _ => none

def userMode (st : State) : Bool :=
  match st.threads with
  | [th] => th.user
  | _ => false

/-- The slots in the order of their calls. -/
def calls (st : State) : List Nat :=
  st.log.reverse.filterMap fun e => match e with | .call _ s => some s | _ => none

def depth (st : State) : Nat :=
  match st.threads with
  | [th] => th.frames.length
  | _ => 0

/-- The library part runs to its end; a call of a slot starts its commands, `body s n` for
call number `n` of slot `s`.  `none` for undefined behaviour, `std::terminate`, an operation
that is not possible and a check that fails. -/
def run : Nat → (Nat → Nat → List Cmd) → State → Stack → Option State
  | 0, _, _, _ => none
  | fuel + 1, body, st, stack =>
    if userMode st then
      match stack with
      | [] => none
      | [[]] => some st
      | [] :: rest =>
        match step st 0 .ret with
        | .ok st => run fuel body st rest
        | _ => none
      | (.chk f :: cmds) :: rest => if f st then run fuel body st (cmds :: rest) else none
      | (.op f :: cmds) :: rest =>
        match f st with
        | .throw =>
          match step st 0 .throw with
          | .ok st => run fuel body st rest
          | _ => none
        | o =>
          match step st 0 o with
          | .ok st => run fuel body st (cmds :: rest)
          | _ => none
    else
      match step st 0 .cont with
      | .ok st' =>
        match running st' with
        | some s =>
          if (calls st').length = (calls st).length + 1 then
            run fuel body st' (body s (((calls st').filter (· == s)).length - 1) :: stack)
          else run fuel body st' stack
        | none => run fuel body st' stack
      | _ => none

def passes (body : Nat → Nat → List Cmd) (main : List Cmd) : Bool :=
  (run 2000 body (State.init 1) [main]).isSome

def no : Nat → Nat → List Cmd := fun _ _ => []
def o (x : Op) : Cmd := .op fun _ => x
/-- The last connection made. -/
def last (f : Nat → Op) : Cmd := .op fun st => f (st.conns.length - 1)
def dropLast : Cmd := last .drop
def sig : Cmd := o .newSig
/-- `s += ...`, the connection dropped. -/
def conn (g : Nat) (pos : Pos := .back) : List Cmd := [o (.connect g pos), dropLast]
/-- `c = s += ...`; connections are numbered in the order of their making, also the dropped ones. -/
def keep (g : Nat) : Cmd := o (.connect g .back)
def emit (g : Nat) : Cmd := o (.emit g)
def slots (g n : Nat) : Cmd := .chk fun st => numSlots st g == some n
def isEmpty (g : Nat) (b : Bool) : Cmd := .chk fun st => empty st g == some b
def isConn (c : Nat) (b : Bool) : Cmd := .chk fun st => connected st c == some b
/-- The slots called so far. -/
def called (l : List Nat) : Cmd := .chk fun st => calls st == l
/-- The value of a variable that starts with `v` and that slot `s` changes with `f s`. -/
def var (v : Int) (f : Nat → Int → Int) (st : State) : Int := (calls st).foldl (fun v s => f s v) v
def isVar (v : Int) (f : Nat → Int → Int) (x : Int) : Cmd := .chk fun st => var v f st == x
def ops (l : List Op) : List Cmd := l.map o

/-- A test that checks something false does not pass. -/
example : ¬ passes no ([sig] ++ conn 0 ++ [emit 0, slots 0 2]) := by decide +kernel
example : ¬ passes no ([sig] ++ conn 0 ++ [emit 0, called [0, 0]]) := by decide +kernel

/-! ### "base functionality" (36-272) -/

example : passes no [sig, isEmpty 0 true, slots 0 0, o (.discAll 0), isEmpty 0 true, slots 0 0] := by decide +kernel
example : passes no [sig, o .emptyConn, isEmpty 0 true] := by decide +kernel
example : passes no ([sig] ++ conn 0 ++ [isEmpty 0 false, slots 0 1, emit 0, called [0], o (.discAll 0), isEmpty 0 true,
    slots 0 0]) := by decide +kernel
example : passes no ([sig] ++ conn 0 ++ conn 0 ++ [isEmpty 0 false, slots 0 2, emit 0, called [0, 1], o (.discAll 0),
    isEmpty 0 true, slots 0 0]) := by decide +kernel
example : passes no ([sig] ++ conn 0 ++ [emit 0, called [0], emit 0, called [0, 0]]) := by decide +kernel
-- move signal object
example : passes no [sig, keep 0, emit 0, called [0], o (.moveSig 0), slots 1 1, slots 0 0, emit 1, called [0, 0],
    isConn 0 true, o (.disconnect 0), slots 1 0] := by decide +kernel
-- connect slot at front
def plus3 : Int → Int := (· + 3)
def times3 : Int → Int := (· * 3)
example : passes no ([sig] ++ conn 0 ++ conn 0 ++ [emit 0, isVar 3 (fun s => if s = 0 then plus3 else times3) 18]) := by
  decide +kernel
example : passes no ([sig] ++ conn 0 ++ conn 0 ++ [o (.discAll 0)] ++ conn 0 .front ++ conn 0 .front ++
    [emit 0, isVar 3 (fun s => if s = 2 then plus3 else times3) 12]) := by decide +kernel
-- current connection
example : passes (fun _ _ => [o .current, .chk fun st => connected st (st.conns.length - 1) == some true, last .disconnect])
    ([sig] ++ conn 0 ++ [emit 0, emit 0, called [0]]) := by decide +kernel
-- current connection, recursive
def slotOf (st : State) (c : Nat) : Option Nat := (st.conns[c]?).bind (·.slot)
example : passes (fun s _ =>
      if s = 0 then
        [o .current, .chk fun st => connected st (st.conns.length - 1) == some true, emit 1, o .current,
         .chk fun st => slotOf st (st.conns.length - 1) == some 0]
      else [o .current, .chk fun st => connected st (st.conns.length - 1) == some true, last .disconnect])
    ([sig, sig] ++ conn 0 ++ conn 1 ++ [emit 0, called [0, 1], emit 0, called [0, 1, 0]]) := by decide +kernel
-- connect signal to signal
example : passes (fun s _ => if s = 1 then [emit 1] else [])
    ([sig, sig] ++ conn 1 ++ conn 0 ++ [emit 0, called [1, 0]]) := by decide +kernel

/-! ### "connection" (274-421) -/

def blocks (k : Nat) (b : Bool) : Cmd := .chk fun st => (st.blks[k]?).map (·.isSome) == some b
-- empty connection
example : passes no [o .emptyConn, isConn 0 false, o (.blk 0), blocks 0 false, o (.disconnect 0), isConn 0 false] := by
  decide +kernel
-- disconnect a connection
example : passes no [sig, keep 0, isConn 0 true, emit 0, called [0], o (.disconnect 0), isEmpty 0 true, slots 0 0,
    isConn 0 false, emit 0, called [0]] := by decide +kernel
-- hash a connection: the hash is that of the slot's address
def same (c d : Nat) (b : Bool) : Cmd := .chk fun st => (slotOf st c == slotOf st d) == b
example : passes no [sig, keep 0, keep 0, same 0 1 false, same 0 0 true, o (.copy 0), same 0 2 true, isConn 2 true,
    o (.move 0), same 2 3 true, isConn 3 true, o (.disconnect 3), isConn 3 false, isConn 2 false] := by decide +kernel
-- get blocker
example : passes no [sig, keep 0, emit 0, called [0], o (.blk 0), blocks 0 true, emit 0, called [0], o (.blkDrop 0), emit 0,
    called [0, 0], o (.disconnect 0), o (.blk 0), blocks 1 false] := by decide +kernel
-- get blocker twice in the same scope
example : passes no [sig, keep 0, o (.blk 0), o (.blk 0), emit 0, called [], o (.blkAssign 1 0), emit 0, called [],
    o (.blkDrop 1), o (.blkDrop 0), emit 0, called [0]] := by decide +kernel
-- check copy/move operations for blocker
example : passes no [sig, keep 0, o .emptyConn, o (.blk 0),
    o (.blkCopy 0), emit 0, called [], o (.blk 1), o (.blkAssign 2 1), emit 0, called [], o (.blkDrop 2), o (.blkDrop 1),
    emit 0, called [],
    o (.blkMove 0), emit 0, called [], o (.blk 1), o (.blkSwap 4 3), emit 0, called [], o (.blkDrop 4), o (.blkDrop 3),
    emit 0, called [0], o (.blkDrop 0), emit 0, called [0, 0]] := by decide +kernel

/-! ### "scoped_connection" (423-456) -/

example : passes no [o .emptyConn, o (.toScoped 0), isConn 1 false] := by decide +kernel
example : passes no [sig, keep 0, o (.toScoped 0), isEmpty 0 false, o (.drop 1), isEmpty 0 true] := by decide +kernel
example : passes no [sig, o .emptyConn, keep 0, o (.toScoped 1), isEmpty 0 false, o (.toPlain 2), o (.swapH 0 3), o (.drop 3),
    o (.drop 2), isEmpty 0 false, o (.disconnect 0), isEmpty 0 true] := by decide +kernel

/-! ### "stopping signal emission" (458-505) -/

def stopIn (k : Nat) : Nat → Nat → List Cmd := fun s _ => if s = k then [o .stop] else []
def three : List Cmd := [sig] ++ conn 0 ++ conn 0 ++ conn 0
def tens (s : Nat) (v : Int) : Int := v + 10 ^ (s + 1)
example : passes (stopIn 0) (three ++ [emit 0, isVar 0 tens 10, emit 0, isVar 0 tens 20]) := by decide +kernel
example : passes (stopIn 1) (three ++ [emit 0, isVar 0 tens 110, emit 0, isVar 0 tens 220]) := by decide +kernel
example : passes (stopIn 2) (three ++ [emit 0, isVar 0 tens 1110, emit 0, isVar 0 tens 2220]) := by decide +kernel

/-! ### "disconnect during signal emission" (507-566) -/

example : passes (fun s _ => if s = 1 then [o (.disconnect 1)] else [])
    ([sig, keep 0, keep 0, keep 0, emit 0, isVar 0 (fun s v => v + if s = 1 then 5 else 1) 7, slots 0 2, emit 0,
      isVar 0 (fun s v => v + if s = 1 then 5 else 1) 9]) := by decide +kernel
example : passes (fun s _ => if s = 0 then [o (.disconnect 0)] else [])
    ([sig, keep 0, keep 0, keep 0, emit 0, isVar 0 (fun s v => v + if s = 0 then 5 else 1) 7, slots 0 2, emit 0,
      isVar 0 (fun s v => v + if s = 0 then 5 else 1) 9]) := by decide +kernel
example : passes (fun s _ => if s = 1 then [o (.disconnect 2)] else [])
    ([sig, keep 0, keep 0, keep 0, emit 0, isVar 0 (fun s v => v + if s = 2 then 10 else 1) 2, slots 0 2, emit 0,
      isVar 0 (fun s v => v + if s = 2 then 10 else 1) 4]) := by decide +kernel

/-! ### "signal thread safety (emit vs connect/disconnect)" (568-658) -/

/-- The actions of two threads in turn. -/
def sched (st : State) : List (Nat × Op) → Option State
  | [] => some st
  | (t, x) :: l =>
    match step st t x with
    | .ok st => sched st l
    | _ => none
/-- Thread `t` goes on to the end of the library part. -/
def finish : Nat → Nat → State → Option State
  | 0, _, _ => none
  | n + 1, t, st =>
    match st.threads[t]? with
    | none => none
    | some th =>
      if th.user then some st
      else
        match step st t .cont with
        | .ok st => finish n t st
        | _ => none

/-- Thread 1 enters slot 0, thread 0 disconnects it, the slot returns; a second emission. -/
example : ((sched (State.init 2) [(0, .newSig), (0, .connect 0 .back), (1, .emit 0)]).bind fun st =>
    (finish 99 1 st).bind fun st => (sched st [(0, .disconnect 0)]).bind fun st => (finish 99 0 st).bind fun st =>
    (sched st [(1, .ret)]).bind fun st => (finish 99 1 st).bind fun st =>
    (sched st [(0, .emit 0)]).bind fun st' => (finish 99 0 st').map fun st' =>
      (calls st, connected st 0, calls st', numSlots st' 0)) = some ([0], some false, [0], some 0) := by decide +kernel
/-- Thread 1 enters slot 0, thread 0 connects slot 1, the slot returns; a second emission. -/
example : ((sched (State.init 2) [(0, .newSig), (0, .connect 0 .back), (1, .emit 0)]).bind fun st =>
    (finish 99 1 st).bind fun st => (sched st [(0, .connect 0 .back)]).bind fun st =>
    (sched st [(1, .ret)]).bind fun st => (finish 99 1 st).bind fun st =>
    (sched st [(0, .emit 0)]).bind fun st' => (finish 99 0 st').bind fun st' => (sched st' [(0, .ret)]).bind fun st' =>
    (finish 99 0 st').bind fun st' => (sched st' [(0, .ret)]).bind fun st' => (finish 99 0 st').map fun st' =>
      (calls st, calls st')) = some ([0], [0, 0, 1]) := by decide +kernel

/-! ### "connect and disconnect during signal emission" (660-715) -/

/-- Slots 3 and on are those of `do_run`; each trace entry is that of the slot and 99. -/
def trace (st : State) : List Nat := (calls st).flatMap fun s => [if s < 3 then s else 4, 99]
example : passes (fun _ _ => conn 0 ++ [o (.disconnect 1)])
    [sig, keep 0, keep 0, keep 0, emit 0, .chk fun st => trace st == [0, 99, 2, 99],
     emit 0, .chk fun st => trace st == [0, 99, 2, 99, 0, 99, 2, 99, 4, 99, 4, 99]] := by decide +kernel

/-! ### "disconnect and recursively emit" (717-735), "one-time slot connection" (737-794) -/

example : passes (fun s _ => if s = 0 then [o (.disconnect 0), emit 0] else [o (.disconnect 1)])
    [sig, keep 0, keep 0, emit 0, isVar 0 (fun s v => v + if s = 0 then 3 else 5) 8, emit 0,
     isVar 0 (fun s v => v + if s = 0 then 3 else 5) 8] := by decide +kernel
def inc : Nat → Int → Int := fun _ v => v + 1
example : passes (fun s _ => if s = 0 then [o (.disconnect 0)] else [])
    [sig, keep 0, keep 0, keep 0, emit 0, isVar 0 inc 3, emit 0, isVar 0 inc 5] := by decide +kernel
example : passes (fun s n => if s = 0 ∧ n = 0 then [emit 0] else [])
    [sig, keep 0, keep 0, keep 0, emit 0, isVar 0 inc 6] := by decide +kernel
example : passes (fun s _ => if s = 0 then [o (.disconnect 0), emit 0] else [])
    [sig, keep 0, keep 0, keep 0, emit 0, isVar 0 inc 5] := by decide +kernel

/-! ### "add slot to signal during emission" (796-838) -/

example : passes (fun s _ => if s = 0 then conn 0 else [])
    (three ++ [emit 0, isVar 0 inc 3, emit 0, isVar 0 inc 7, emit 0, isVar 0 inc 12]) := by decide +kernel
example : passes (fun s _ => if s = 0 then conn 0 .front else [])
    (three ++ [emit 0, isVar 0 inc 3, emit 0, isVar 0 inc 7, emit 0, isVar 0 inc 12]) := by decide +kernel

/-! ### "disconnect all slots during emission" (919-957) -/

example : passes (fun _ _ => [o (.discAll 0)]) ([sig] ++ conn 0 ++ conn 0 ++ [emit 0, isVar 0 inc 1, emit 0, isVar 0 inc 1]) := by
  decide +kernel
example : passes (fun s _ => if s = 1 then [o (.discAll 0)] else [])
    (three ++ [emit 0, isVar 0 inc 2, slots 0 0, emit 0, isVar 0 inc 2]) := by decide +kernel

end Verif.Conform.SignalTest
