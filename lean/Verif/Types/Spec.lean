import Verif.Types.Model

/-!
What the type-level functions are meant to compute, without reference to how they do it.
-/

namespace Verif.Types

/-- `F` is something that can be called and whose parameters are known from its type: a function, a
pointer to one (the pointer may be constant), a member function, an object of a class with one call
operator, or a reference to such a thing. Written after the comment at type_traits.hpp:10-19: "can be
function, lambda, functor or member function". -/
inductive Callable (E : Classes) : Ty → Traits → Quals → Prop where
  | fn (r as ne) : Callable E (.fn r as ne) { ret := r, args := as } { noexc := ne }
  | ptr (r as ne) : Callable E (.ptr (.fn r as ne)) { ret := r, args := as } { noexc := ne }
  | mem (c r as q) : Callable E (.memfn c r as q) { ret := r, args := as, cls := some c } q
  | obj (c : Nat) (o : CallOp) (h : E c = [some o]) :
      Callable E (.cls c) { ret := o.ret, args := o.args, cls := some c } o.q
  | cobj (c : Nat) (o : CallOp) (h : E c = [some o]) :
      Callable E (.const (.cls c)) { ret := o.ret, args := o.args, cls := some c } o.q
  | lref (t d q) (h : Callable E t d q) : Callable E (.lref t) d q
  | rref (t d q) (h : Callable E t d q) : Callable E (.rref t) d q

/-- The qualifiers that `func_traits` knows. -/
def Quals.Plain (q : Quals) : Prop := q.volatile = false ∧ q.ref = .none ∧ q.noexc = false

end Verif.Types
