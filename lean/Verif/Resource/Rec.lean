import Verif.Resource.More
/-
Recursive types as resources: `struct tree { std::string name; std::vector<tree> children; };`.

The codes of Resource/Model.lean are finite, so a recursive type has none. A struct is known by its number: `.record n .nil` inside a
declaration stands for the struct `n`, and `unroll D k n` is the code in which numbers have been replaced `k` times; what is left is cut off.
The functions of resource_op.hpp are templates, and the instantiation for a struct calls those for its fields, which is what replacing
does. A verb on the recursive type is what the verbs on the codes agree on from some `k` on (`Ends`).
-/
namespace Verif.Resource
open Verif.Path Verif.Path.Spec Verif.Tracker Verif.Tracker.Spec Verif.Resource.Spec

/-- The fields of structs, by number; resource_op.hpp:514-540. -/
abbrev Decls := Nat → Fields

mutual
/-- The type with each number of a struct replaced. (the instantiations that resource_op.hpp:505-638 calls) -/
def subst (r : Nat → Ty) : Ty → Ty
  | .leaf i => .leaf i
  | .opt t => .opt (subst r t)
  | .record n .nil => r n
  | .record n (.cons a t fs) => .record n (.cons a (subst r t) (substFields r fs))
  | .map e t => .map e (subst r t)
  | .seq k t => .seq k (subst r t)
/-- The fields of a struct: resource_op.hpp:514-540. -/
def substFields (r : Nat → Ty) : Fields → Fields
  | .nil => .nil
  | .cons a t fs => .cons a (subst r t) (substFields r fs)
end

/-- The fields with scalars in the place of their types. (resource_op.hpp:514-540, where the code is cut off) -/
def cutFields : Fields → Fields
  | .nil => .nil
  | .cons a _ fs => .cons { a with childKeys := [] } (.leaf 0) (cutFields fs)

/-- The struct with numbers replaced `k` times; resource_op.hpp:505-638 instantiated `k` times. -/
def unroll (D : Decls) : Nat → Nat → Ty
  | 0, n => .record n (cutFields (D n))
  | k + 1, n => .record n (substFields (unroll D k) (D n))

/-! ### Types that agree to some depth -/

mutual
/-- The types are the same for values of `n` levels. -/
def Upto : Ty → Nat → Ty → Prop
  | _, 0, _ => True
  | .leaf i, _ + 1, t => t = .leaf i
  | .opt s, n + 1, t => ∃ s', t = .opt s' ∧ Upto s n s'
  | .record i fs, n + 1, t => ∃ gs, t = .record i gs ∧ UptoF fs n gs
  | .map e s, n + 1, t => ∃ s', t = .map e s' ∧ Upto s n s'
  | .seq k s, n + 1, t => ∃ s', t = .seq k s' ∧ Upto s n s'
def UptoF : Fields → Nat → Fields → Prop
  | .nil, _, gs => gs = .nil
  | .cons a t fs, n, gs => ∃ t' gs', gs = .cons a t' gs' ∧ Upto t n t' ∧ UptoF fs n gs'
end

/-- The value has at most `n` levels. -/
def Within : Nat → Value → Prop
  | 0, _ => False
  | n + 1, v => ∀ w ∈ v.kids, Within n w

/-- From some depth on it is always `x`. -/
def Ends {α : Type} (f : Nat → α) (x : α) : Prop := ∃ K, ∀ k, K ≤ k → f k = x

/-- The codes of one type. -/
def Family (T : Nat → Ty) : Prop := ∀ k j, k ≤ j → Upto (T k) k (T j)

/-- A type that occurs in the code of another: of a member, an element or what an optional holds. -/
inductive Part : Ty → Ty → Prop
  | self {t} : Part t t
  | opt {s t} : Part s t → Part s (.opt t)
  | field {s i fs a t} : (a, t) ∈ fieldList fs → Part s t → Part s (.record i fs)
  | map {s er t} : Part s t → Part s (.map er t)
  | seq {s k t} : Part s t → Part s (.seq k t)

/-- A code of a type that occurs in the recursive type. -/
def InFamily (T : Nat → Ty) (t : Ty) : Prop := ∃ k, Part t (T k)

/-- The user's functions are functions of the type and not of its code: given values and a body of `n` levels they do not look further
than `n` levels into the code. `bd` is the depth of bodies, and `fd` is enough for every `T{}`. -/
structure Uniform {β : Type} (E : Env β) (T : Nat → Ty) (bd : β → Nat) (fd : Nat) : Prop where
  validate : ∀ n s t v, InFamily T s → InFamily T t → Upto s n t → Within n v → E.validate s v = E.validate t v
  keyMatches : ∀ n s t v key x, InFamily T s → InFamily T t → Upto s n t → Within n v →
    E.keyMatches s v key x = E.keyMatches t v key x
  deser : ∀ n s t v b, InFamily T s → InFamily T t → Upto s n t → Within n v → bd b ≤ n → E.deser s v b = E.deser t v b
  patch : ∀ n s t v b, InFamily T s → InFamily T t → Upto s n t → Within n v → bd b ≤ n → E.patch s v b = E.patch t v b
  fresh : ∀ s t, InFamily T s → InFamily T t → Upto s fd t → E.fresh s = E.fresh t

/-- The value is of the recursive type. -/
def IsA (T : Nat → Ty) (v : Value) : Prop := ∃ K, ∀ k, K ≤ k → HasTy (T k) v

end Verif.Resource
