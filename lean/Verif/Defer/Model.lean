/-
Model of `defer.hpp` in a small statement language with scopes, exceptions and returns.
A `KL_DEFER` is a local object (`scope_exit_t`, defer.hpp:9-16) whose destructor calls the
lambda (defer.hpp:20-22).  Local objects are destroyed in reverse order of construction when
the block is left, however it is left; a destructor is `noexcept`, so an exception leaving it
ends the program (`std::terminate`).
-/
namespace Verif.Defer

/-- Code around defer.hpp:28 `KL_DEFER`. -/
inductive Stmt
  /-- any other statement, identified by a number -/
  | act (n : Nat)
  /-- an exception is thrown here -/
  | throw_
  /-- `return`, or any other jump out of the function -/
  | ret
  /-- a nested block -/
  | scope (body : List Stmt)
  /-- `KL_DEFER(body)`, numbered (`__COUNTER__`, defer.hpp:28) -/
  | defer (n : Nat) (body : List Stmt)

/-- What happens, in order. (of defer.hpp:14-15, and of the code around) -/
inductive Ev
  | act (n : Nat)
  | enter
  | leave
  /-- the deferred action `n` is declared (its object is constructed) -/
  | decl (n : Nat)
  /-- the deferred action `n` starts -/
  | run (n : Nat)
  /-- the deferred action `n` is finished -/
  | done (n : Nat)
  deriving DecidableEq, Repr

/-- How a block is left, after defer.hpp:15 `~scope_exit_t`. -/
inductive Out
  | normal | threw | returned | terminated
  deriving DecidableEq, Repr

/-- defer.hpp:9-16 a `scope_exit_t` object: its number and what calling `fun_` does. -/
abbrev Obj := Nat × (List Ev × Out)

/-- Destruction of the local objects of a block, last constructed first; defer.hpp:15. -/
def unwind : List Obj → Out → List Ev × Out
  | [], o => ([], o)
  | (n, tr, o') :: objs, o =>
    match o' with
    | .threw => (.run n :: tr, .terminated)
    | .terminated => (.run n :: tr, .terminated)
    | _ =>
      let u := unwind objs o
      (.run n :: tr ++ .done n :: u.1, u.2)

mutual
/-- Execution of the rest of a block whose constructed objects are `objs`.  defer.hpp:20-22
for `defer`: the lambda is made, then the object. -/
def exec (objs : List Obj) : List Stmt → List Ev × Out
  | [] => unwind objs .normal
  | s :: rest => execCons objs s (fun objs => exec objs rest)

/-- One statement; `k` is the rest of the block. (defer.hpp:20-28) -/
def execCons (objs : List Obj) (s : Stmt) (k : List Obj → List Ev × Out) :
    List Ev × Out :=
  match s with
  | .act n =>
    let r := k objs
    (.act n :: r.1, r.2)
  | .throw_ => unwind objs .threw
  | .ret => unwind objs .returned
  | .scope body =>
    let b := exec [] body
    match b.2 with
    | .normal =>
      let r := k objs
      (.enter :: b.1 ++ .leave :: r.1, r.2)
    | .terminated => (.enter :: b.1, .terminated)
    | o =>
      let u := unwind objs o
      (.enter :: b.1 ++ .leave :: u.1, u.2)
  | .defer n body =>
    let c := exec [] body
    let r := k ((n, c) :: objs)
    (.decl n :: r.1, r.2)
end

/-- A function body. (around defer.hpp:20-28) -/
def call (body : List Stmt) : List Ev × Out := exec [] body

end Verif.Defer
