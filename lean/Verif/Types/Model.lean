/-!
The type-level functions of `utility.hpp`, `meta.hpp` and `type_traits.hpp`, as functions on a small
language of C++ types. `none` stands for a program that does not compile: a failed `static_assert`, a
missing specialisation, or a member that a class does not have.

Simplified: `volatile` exists for member functions only, class templates other than `type_pack` are plain
classes, and C variadic functions (`R(A, ...)`) are left out.
-/

namespace Verif.Types

/-- The `&`/`&&` after a member function's parameters. (type_traits.hpp:55-66: which member functions have a specialisation) -/
inductive RefQual where
  | none
  | lval
  | rval
  deriving DecidableEq

/-- What may follow the parameters of a function type. (type_traits.hpp:20-72) -/
structure Quals where
  const : Bool := false
  volatile : Bool := false
  ref : RefQual := .none
  noexc : Bool := false
  deriving DecidableEq

/-- C++ types as far as the traits tell them apart; `type_pack<Ts...>` is utility.hpp:66-74. -/
inductive Ty where
  | scalar (n : Nat)
  | cls (n : Nat)
  | const (t : Ty)
  | lref (t : Ty)
  | rref (t : Ty)
  | ptr (t : Ty)
  | fn (ret : Ty) (args : List Ty) (noexc : Bool)
  | memfn (cls : Nat) (ret : Ty) (args : List Ty) (q : Quals)
  | pack (ts : List Ty)

/-- A call operator of a class. (type_traits.hpp:42-46 `&F::operator()`) -/
structure CallOp where
  ret : Ty
  args : List Ty
  q : Quals

/-- The call operators each class has. A call operator that is a template counts as `none` in the list.
(type_traits.hpp:42-46 `&F::operator()`) -/
abbrev Classes := Nat → List (Option CallOp)

/-- `at_type` (utility.hpp:48-63): the general template with its `static_assert`, and the one for `0`.
There is no `at_type<N>` without types. -/
def atType : Nat → List Ty → Option Ty
  | _, [] => none
  | 0, h :: _ => some h
  | n + 1, _ :: t => if n + 1 < 1 + t.length then atType n t else none

/-- `type_pack<Ts...>::value` and `type_pack<Ts...>::extract<N>::type` (utility.hpp:65-74). -/
def packSize (ts : List Ty) : Nat := ts.length

/-- utility.hpp:69-73 -/
def extract (n : Nat) (ts : List Ty) : Option Ty := atType n ts

/-- `push_front` (meta.hpp:9-20). -/
def pushFront (t : Ty) (ts : List Ty) : List Ty := t :: ts

/-- `filter` (meta.hpp:22-51): the list is empty, the list is one `type_pack` (that specialisation is more
specialised than the one with a head and a tail), or it has a head and a tail. -/
def filterT (p : Ty → Bool) : List Ty → List Ty
  | [] => []
  | [.pack ts] => filterT p ts
  | h :: t => if p h then pushFront h (filterT p t) else filterT p t

/-- The variadic `is_same` (type_traits.hpp:90-106), for any notion `α` of types: all it does with them is
to compare them. -/
def isSame {α : Type} [DecidableEq α] : α → α → List α → Bool
  | t, u, [] => decide (t = u)
  | t, u, r :: rest => decide (t = u) && isSame u r rest

/-- `std::remove_reference_t`. (type_traits.hpp:109-116) -/
def removeRef : Ty → Ty
  | .lref t => t
  | .rref t => t
  | t => t

/-- `std::remove_cv_t`; only the outermost `const`. (type_traits.hpp:109-116) -/
def removeCv : Ty → Ty
  | .const t => t
  | t => t

/-- `remove_cvref` (type_traits.hpp:108-113). -/
def removeCvref (t : Ty) : Ty := removeCv (removeRef t)

/-- The members of `func_traits` (type_traits.hpp:21-39, 55, 62): `return_type`, `args_type` and, for
member functions, `class_type`. -/
structure Traits where
  ret : Ty
  args : List Ty
  cls : Option Nat := none

/-- `func_traits<F>::arity` (type_traits.hpp:29). -/
def Traits.arity (t : Traits) : Nat := t.args.length

/-- `func_traits<F>::arg<N>::type` (type_traits.hpp:31-38). -/
def Traits.arg (t : Traits) (n : Nat) : Option Ty := atType n t.args

/-- The two specialisations for member functions: no qualifiers, or `const` alone
(type_traits.hpp:54-66). -/
def memTraits (c : Nat) (ret : Ty) (args : List Ty) (q : Quals) : Option Traits :=
  if q = {} ∨ q = { const := true } then some { ret, args, cls := some c } else none

/-- `&C::operator()` (type_traits.hpp:44): a class without a call operator, with several, or with a
template has no such expression. -/
def callOpTraits (E : Classes) (c : Nat) : Option Traits :=
  match E c with
  | [some o] => memTraits c o.ret o.args o.q
  | _ => none

/-- The primary template, for `F` without a reference (type_traits.hpp:41-46): only classes have
members. -/
def primary (E : Classes) : Ty → Option Traits
  | .cls c => callOpTraits E c
  | .const (.cls c) => callOpTraits E c
  | _ => none

/-- `func_traits` (type_traits.hpp:18-72): the specialisations for functions, pointers to functions,
member functions and references; every other type is for the primary template. Since C++17 `noexcept` is
part of a function's type, so that `noexcept` functions match no specialisation. -/
def funcTraits (E : Classes) : Ty → Option Traits
  | .fn r as false => some { ret := r, args := as }
  | .ptr (.fn r as false) => some { ret := r, args := as }
  | .memfn c r as q => memTraits c r as q
  | .lref t => funcTraits E t
  | .rref t => funcTraits E t
  | t => primary E t

end Verif.Types
