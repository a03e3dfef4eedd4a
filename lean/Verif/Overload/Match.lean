import Verif.Overload.Core

/-!
`match.hpp`: which handler `match` runs for a variant.

Types are numbers; between different types there may be conversions, which are a parameter of the model.
Handlers take one argument, as `std::visit` with one variant demands. Simplified: no `volatile`, no
handlers with `&`/`&&` after the parameters, no constrained templates, no handler that takes a number of
default arguments, conversions from a constant and from a non-constant object are the same.
-/

namespace Verif.Overload

/-- A conversion between different types, as [over.ics.rank] tells them apart: an integral or floating
promotion, another standard conversion that makes a new object, from a class to its base `d + 1` levels
up, a constructor or a conversion function. -/
inductive Conv where
  | promotion
  | conversion
  | base (d : Nat)
  | user
  deriving DecidableEq

/-- [over.ics.scs] and [over.ics.rank]: 0 is for exact matches. -/
def Conv.rank : Conv → Nat
  | .promotion => 1
  | .conversion => 2
  | .base _ => 2
  | .user => 3

/-- How far up the base is. -/
def Conv.depth : Conv → Option Nat
  | .base d => some d
  | _ => none

/-- The conversions of a program and the types that can be copied. -/
structure World where
  conv : Nat → Nat → Option Conv
  copyable : Nat → Bool

/-- Parameters of handlers: `T`, `const T&`, `T&`, `T&&`, and the generic ones `auto`, `const auto&`,
`auto&`, `auto&&` of lambdas. -/
inductive Param where
  | value (u : Nat)
  | cref (u : Nat)
  | lref (u : Nat)
  | rref (u : Nat)
  | anyValue
  | anyCref
  | anyLref
  | anyRref
  deriving DecidableEq

/-- A handler: its parameter, whether its call operator is not `const` (a `mutable` lambda), the type it
returns for an argument of a given type, whether its body compiles for such an argument, and what it
does. -/
structure Handler (V R : Type) where
  param : Param
  mutbl : Bool := false
  ret : Nat → Nat
  body : Nat → Bool := fun _ => true
  run : V → R

/-- How a parameter binds a reference. -/
inductive Bind where
  | lval
  | clval
  | rval
  deriving DecidableEq

/-- An implicit conversion sequence: its rank, the type it leads to, the distance to a base, and the
reference it binds ([over.best.ics]). -/
structure Ics where
  rank : Nat
  to : Nat
  depth : Option Nat
  bind : Option Bind
  deriving DecidableEq

/-- The sequence from an lvalue of type `t`, constant if `k`, to a parameter. `T&` needs a non-constant
object of the type or of a class derived from it, `T&&` a temporary. A parameter of the argument's own
type is an exact match even if the type cannot be copied ([over.best.ics.general]/6). -/
def ics (W : World) (t : Nat) (k : Bool) : Param → Option Ics
  | .value u =>
    if u = t then some ⟨0, t, none, none⟩
    else (W.conv t u).map fun c => ⟨c.rank, u, c.depth, none⟩
  | .cref u =>
    if u = t then some ⟨0, t, none, some .clval⟩
    else (W.conv t u).map fun c => ⟨c.rank, u, c.depth, some .clval⟩
  | .lref u =>
    if k then none
    else if u = t then some ⟨0, t, none, some .lval⟩
    else match W.conv t u with
      | some (.base d) => some ⟨2, u, some d, some .lval⟩
      | _ => none
  | .rref u =>
    if u = t then none
    else match W.conv t u with
      | some .promotion => some ⟨1, u, none, some .rval⟩
      | some .conversion => some ⟨2, u, none, some .rval⟩
      | some .user => some ⟨3, u, none, some .rval⟩
      | _ => none
  | .anyValue => some ⟨0, t, none, none⟩
  | .anyCref => some ⟨0, t, none, some .clval⟩
  | .anyLref => some ⟨0, t, none, some (if k then .clval else .lval)⟩
  | .anyRref => some ⟨0, t, none, some (if k then .clval else .lval)⟩

/-- A nearer base is better than one further away ([over.ics.rank]/4.4). -/
def depthBetter : Option Nat → Option Nat → Bool
  | some d, some e => decide (d < e)
  | _, _ => false

/-- `T&` is better than `const T&`, and `T&&` is better than `const T&` for a temporary
([over.ics.rank]/3.2). By value and by reference are the same. -/
def bindBetter : Option Bind → Option Bind → Bool
  | some .lval, some .clval => true
  | some .rval, some .clval => true
  | _, _ => false

/-- [over.ics.rank]. -/
def icsBetter (a b : Ics) : Bool :=
  decide (a.rank < b.rank) ||
    (decide (a.rank = b.rank) &&
      (depthBetter a.depth b.depth ||
        (decide (a.depth = b.depth) && decide (a.to = b.to) && bindBetter a.bind b.bind)))

/-- Is the call operator a template? -/
def Param.generic : Param → Bool
  | .anyValue => true
  | .anyCref => true
  | .anyLref => true
  | .anyRref => true
  | _ => false

/-- Partial ordering of the generic call operators ([temp.deduct.partial]/9): `const auto&` before `auto&`
before `auto&&`; `auto` cannot be compared. -/
def Param.moreSpecial : Param → Param → Bool
  | .anyCref, .anyLref => true
  | .anyCref, .anyRref => true
  | .anyLref, .anyRref => true
  | _, _ => false

/-- A viable handler, with the sequence for its argument. -/
structure Viable (V R : Type) where
  h : Handler V R
  s : Ics

/-- Is the first call operator better for the object it is called on? `std::visit` gets the `overloader` as
a temporary that is not constant (match.hpp:50). -/
def objBetter {V R : Type} (a b : Viable V R) : Bool := a.h.mutbl && !b.h.mutbl

/-- [over.match.best]: not worse for either argument, and better for one of them, or not a template when
the other one is, or more specialised. -/
def Viable.better {V R : Type} (a b : Viable V R) : Bool :=
  !icsBetter b.s a.s && !objBetter b a &&
    (icsBetter a.s b.s || objBetter a b || (!a.h.param.generic && b.h.param.generic) ||
      a.h.param.moreSpecial b.h.param)

/-- The handlers that accept the argument. -/
def viable {V R : Type} (W : World) (t : Nat) (k : Bool) (hs : List (Handler V R)) :
    List (Viable V R) :=
  hs.filterMap fun h => (ics W t k h.param).map fun s => ⟨h, s⟩

/-- Which call operator of the `overloader` (match.hpp:21-28) is called for an alternative of type `t`. -/
def select {V R : Type} (W : World) (t : Nat) (k : Bool) (hs : List (Handler V R)) :
    Option (Handler V R) :=
  (best Viable.better (viable W t k hs)).map Viable.h

/-- Does the call of the handler compile? A parameter taken by value has to be copied from the
alternative. -/
def callCompiles {V R : Type} (W : World) (t : Nat) (h : Handler V R) : Bool :=
  h.body t &&
    match h.param with
    | .value u => if u = t then W.copyable t else true
    | .anyValue => W.copyable t
    | _ => true

/-- Does the call for an alternative of type `t` compile, with return type `r`? -/
def altCompiles {V R : Type} (W : World) (k : Bool) (hs : List (Handler V R)) (r t : Nat) : Bool :=
  match select W t k hs with
  | some h => callCompiles W t h && decide (h.ret t = r)
  | none => false

/-- What a call of `match` comes to. -/
inductive Result (R : Type) where
  | illFormed
  | badAccess
  | value (r : R)

/-- The variant handed to `match`: the types of its alternatives, and the index and the value it holds,
nothing if it is valueless by exception. -/
structure Variant (V : Type) where
  alts : List Nat
  state : Option (Nat × V)

/-- `std::visit` demands that all alternatives can be visited and that all calls return the same type. -/
def compiles {V R : Type} (W : World) (alts : List Nat) (k : Bool) (hs : List (Handler V R)) : Bool :=
  match alts with
  | [] => false
  | t :: _ =>
    match select W t k hs with
    | none => false
    | some h => alts.all (altCompiles W k hs (h.ret t))

/-- `match` (match.hpp:47-51). `visitable` is a name there, so that the handlers see lvalues, constant if
`Visitable` is (`k`), whether or not the caller passed a temporary. -/
def runMatch {V R : Type} (W : World) (v : Variant V) (k : Bool) (hs : List (Handler V R)) : Result R :=
  if compiles W v.alts k hs then
    match v.state with
    | none => .badAccess
    | some (i, x) =>
      match (v.alts[i]?).bind fun t => select W t k hs with
      | some h => .value (h.run x)
      | none => .illFormed
  else .illFormed

/-- The parameter of a free function. -/
inductive FnArg where
  | value (u : Nat)
  | cref (u : Nat)
  | lref (u : Nat)
  | rref (u : Nat)

/-- `func_overload<ReturnType, Arg>::forward_arg` (match.hpp:39-41): references stay, other types become
`const Arg&`. -/
def FnArg.forwardArg : FnArg → Param
  | .value u => .cref u
  | .cref u => .cref u
  | .lref u => .lref u
  | .rref u => .rref u

/-- Does `func_(arg)` compile (match.hpp:43)? `arg` is a name, which does not bind to `T&&`; for a
parameter by value it is copied. -/
def FnArg.body (W : World) : FnArg → Bool
  | .value u => W.copyable u
  | .rref _ => false
  | _ => true

/-- `func_overload{f}` (match.hpp:30-46). -/
def funcOverload {V R : Type} (W : World) (a : FnArg) (ret : Nat) (run : V → R) : Handler V R :=
  { param := a.forwardArg, mutbl := false, ret := fun _ => ret, body := fun _ => a.body W, run }

end Verif.Overload
