import Verif.Serial.Spec
/-
Recursive types: `struct tree { int value; std::vector<tree> children; };`.

A struct may mention itself, or structs declared later, below a `std::vector` or `std::map` (which allow incomplete
types).  The codes of `Serial/Model.lean` are finite trees, so such a type has none.  Here a struct is known by its name:
`.record n .nil` inside a declaration stands for the struct `n` of the declarations `D`, and `unroll D k n` is the
code in which names have been replaced `k` times and what is still recursive has been cut off (`cut`).  The functions of detail/serialization.hpp are templates; the
instantiation for a struct calls that for its fields, which is what replacing does.  `C128_stable` says that no
execution on a document or value of at most `k` levels gets to where the code was cut.
-/
namespace Verif.Serial
open Verif.Path Verif.Enums Spec

/-- The fields of the structs, by name; reflect_struct.hpp:82-109. -/
abbrev Decls := Str → Fields

mutual
/-- The type with each name of a struct replaced. (the instantiations detail/serialization.hpp:613-1240 call) -/
def subst (r : Str → Ty) : Ty → Ty
  | .leaf l => .leaf l
  | .enum e => .enum e
  | .rawEnum t => .rawEnum t
  | .enumSet e => .enumSet e
  | .opt t => .opt (subst r t)
  | .vec t => .vec (subst r t)
  | .arr n t => .arr n (subst r t)
  | .map t => .map (subst r t)
  | .tuple p ts => .tuple p (substs r ts)
  | .record n .nil => r n
  | .record n (.cons f t fs) => .record n (.cons f (subst r t) (substFields r fs))
/-- The components of a tuple: detail/serialization.hpp:1089-1097. -/
def substs (r : Str → Ty) : Tys → Tys
  | .nil => .nil
  | .cons t ts => .cons (subst r t) (substs r ts)
/-- The fields of a struct: detail/serialization.hpp:900-985. -/
def substFields (r : Str → Ty) : Fields → Fields
  | .nil => .nil
  | .cons f t fs => .cons f (subst r t) (substFields r fs)
end

mutual
/-- The type mentions the name of a struct: the instantiation for it calls that for the struct
(detail/serialization.hpp:613-1240). -/
def mentions : Ty → Bool
  | .leaf _ | .enum _ | .rawEnum _ | .enumSet _ => false
  | .opt t | .vec t | .arr _ t | .map t => mentions t
  | .tuple _ ts => mentionsAll ts
  | .record _ .nil => true
  | .record _ (.cons _ t fs) => mentions t || mentionsFields fs
/-- The components of a tuple: detail/serialization.hpp:1089-1097. -/
def mentionsAll : Tys → Bool
  | .nil => false
  | .cons t ts => mentions t || mentionsAll ts
/-- The fields of a struct: detail/serialization.hpp:900-985. -/
def mentionsFields : Fields → Bool
  | .nil => false
  | .cons _ t fs => mentions t || mentionsFields fs
end

mutual
/-- The type with `bool` in the place of elements that mention structs. (detail/serialization.hpp:613-1240) -/
def cut : Ty → Ty
  | .leaf l => .leaf l
  | .enum e => .enum e
  | .rawEnum t => .rawEnum t
  | .enumSet e => .enumSet e
  | .opt t => .opt (cut t)
  | .vec t => .vec (if mentions t then .leaf .bool else t)
  | .arr n t => .arr n (cut t)
  | .map t => .map (if mentions t then .leaf .bool else t)
  | .tuple p ts => .tuple p (cuts ts)
  | .record n fs => .record n (cutFields fs)
/-- The components of a tuple: detail/serialization.hpp:1089-1097. -/
def cuts : Tys → Tys
  | .nil => .nil
  | .cons t ts => .cons (cut t) (cuts ts)
/-- The fields of a struct: detail/serialization.hpp:900-985. -/
def cutFields : Fields → Fields
  | .nil => .nil
  | .cons f t fs => .cons f (cut t) (cutFields fs)
end

/-- The struct `n` with names replaced `k` times, then cut. (detail/serialization.hpp:613-1240, instantiated `k` levels
deep) -/
def unroll (D : Decls) : Nat → Str → Ty
  | 0, n => .record n (cutFields (D n))
  | k + 1, n => .record n (substFields (unroll D k) (D n))

mutual
/-- The number of nested non-empty collections in a value (structs do not count). -/
def Value.depth : Value → Nat
  | .atom _ => 0
  | .bits _ => 0
  | .opt none => 0
  | .opt (some v) => v.depth
  | .seq vs => depths vs
  | .map es => depthEntries es
  | .record vs => depthFields vs
def depths : List Value → Nat
  | [] => 0
  | v :: vs => max (v.depth + 1) (depths vs)
def depthFields : List Value → Nat
  | [] => 0
  | v :: vs => max v.depth (depthFields vs)
def depthEntries : List (Str × Value) → Nat
  | [] => 0
  | (_, v) :: es => max (v.depth + 1) (depthEntries es)
end

mutual
/-- The number of nested non-empty arrays and objects in a document. -/
def Doc.depth {σ : Type} : Doc σ → Nat
  | .null => 0
  | .scalar _ => 0
  | .arr l => docDepths l
  | .obj ms => memberDepths ms
def docDepths {σ : Type} : List (Doc σ) → Nat
  | [] => 0
  | d :: l => max (d.depth + 1) (docDepths l)
def memberDepths {σ : Type} : List (Str × Doc σ) → Nat
  | [] => 0
  | (_, d) :: ms => max (d.depth + 1) (memberDepths ms)
end

variable {σ : Type}

/-- `json::serialize` of the struct `n`: detail/serialization.hpp:748-755. -/
def serRec (B : Backend σ) (s : Bool) (D : Decls) (n : Str) (v : Value) : Res (Doc σ) :=
  ser B s (unroll D v.depth n) v
/-- `json::dump` of the struct `n`: detail/serialization.hpp:649-656. -/
def dumpRec (B : Backend σ) (s : Bool) (D : Decls) (n : Str) (v : Value) : Res (List (Ev σ)) :=
  dump B s (unroll D v.depth n) v
/-- `json::deserialize` of the struct `n`: detail/serialization.hpp:900-1037. -/
def deserRec (B : Backend σ) (E : Env) (D : Decls) (n : Str) (old : Value) (d : Doc σ) : Res Value :=
  deser B E (unroll D d.depth n) old d
/-- `json::patch` of the struct `n`: detail/serialization.hpp:1120-1220. -/
def patchRec (B : Backend σ) (E : Env) (D : Decls) (n : Str) (old : Value) (d : Doc σ) : Res Value :=
  patch B E (unroll D d.depth n) old d

/-! ### Declarations that compile -/

mutual
/-- Names of structs occur only below a `std::vector` or `std::map`. -/
def guarded : Ty → Bool
  | .leaf _ | .enum _ | .rawEnum _ | .enumSet _ => true
  | .opt t => guarded t
  | .vec _ => true
  | .arr _ t => guarded t
  | .map _ => true
  | .tuple _ ts => guardedAll ts
  | .record _ .nil => false
  | .record _ (.cons _ t fs) => guarded t && guardedFields fs
def guardedAll : Tys → Bool
  | .nil => true
  | .cons t ts => guarded t && guardedAll ts
def guardedFields : Fields → Bool
  | .nil => true
  | .cons _ t fs => guarded t && guardedFields fs
end

mutual
/-- Initialisers and default values of what mentions structs have no elements. -/
def plainInits : Ty → Bool
  | .leaf _ | .enum _ | .rawEnum _ | .enumSet _ => true
  | .opt t | .vec t | .arr _ t | .map t => plainInits t
  | .tuple _ ts => plainInitsAll ts
  | .record _ fs => plainInitsFields fs
def plainInitsAll : Tys → Bool
  | .nil => true
  | .cons t ts => plainInits t && plainInitsAll ts
def plainInitsFields : Fields → Bool
  | .nil => true
  | .cons f t fs =>
    (!mentions t || (f.init.depth == 0 && f.defaults.all (·.depth == 0))) && plainInits t && plainInitsFields fs
end

/-- The structs compile: each is accepted (`tyOk`) with the structs it names written out, and none contains itself. -/
def DeclsOk (D : Decls) : Prop :=
  ∀ n, tyOk (unroll D 1 n) = true ∧ guardedFields (D n) = true ∧ plainInitsFields (D n) = true

/-! ### Values of recursive types -/

mutual
/-- The value is of the type, in which names stand for structs of `D`. -/
def isA (D : Decls) : Value → Ty → Bool
  | .atom a, t => hasTy t (.atom a)
  | .bits n, t => hasTy t (.bits n)
  | .opt none, t => hasTy t (.opt none)
  | .opt (some v), .opt t => isA D v t
  | .seq vs, .vec t => allA D vs t
  | .seq vs, .arr n t => decide (vs.length = n) && allA D vs t
  | .seq vs, .tuple _ ts => tupleA D vs ts
  | .map es, .map t => sorted es && entriesA D es t
  | .record vs, .record n .nil => fieldsA D vs (D n)
  | .record vs, .record _ (.cons f t fs) => fieldsA D vs (.cons f t fs)
  | _, _ => false
def allA (D : Decls) : List Value → Ty → Bool
  | [], _ => true
  | v :: vs, t => isA D v t && allA D vs t
def tupleA (D : Decls) : List Value → Tys → Bool
  | [], .nil => true
  | v :: vs, .cons t ts => isA D v t && tupleA D vs ts
  | _, _ => false
def entriesA (D : Decls) : List (Str × Value) → Ty → Bool
  | [], _ => true
  | (_, v) :: es, t => isA D v t && entriesA D es t
def fieldsA (D : Decls) : List Value → Fields → Bool
  | [], .nil => true
  | v :: vs, .cons _ t fs => isA D v t && fieldsA D vs fs
  | _, _ => false
end

/-- The value is a struct `n`. -/
abbrev IsStruct (D : Decls) (n : Str) (v : Value) : Prop := isA D v (.record n .nil) = true

end Verif.Serial
