import Verif.Resource.Model
import Verif.Serial.Spec
import Verif.Serial.State
/-
A resource whose bodies are documents: resource_op.hpp and detail/serialization.hpp together.
Both models describe the same C++ types and objects, each what its header sees of them, so
there are two codes of a type and two trees of a value.  `Table` holds what serialization
sees of a type and a resource does not; `serTy`, `view` and `back` go from one to the other.

* `seq` is a growable range here; `std::array` is left out.
* The definitions up to `holds` model no code: they relate two models of it.
* The scalars are leaves, enums and sets of enums; tuples are left out.
-/
namespace Verif.Rest
open Verif.Path Verif.Serial.Spec

/-- What serialization knows of the types of a resource: the scalar type and the struct with
a number, and the fields of that struct. (resource_op.hpp:850-1021 with detail/serialization.hpp:613-1240) -/
structure Table where
  leaf : Nat → Serial.Ty
  name : Nat → Str
  field : Nat → Nat → Serial.Field

mutual
/-- The type as serialization sees it.
(the type at resource_op.hpp:850-1021 as detail/serialization.hpp:613-1240 takes it) -/
def serTy (Γ : Table) : Resource.Ty → Serial.Ty
  | .leaf id => Γ.leaf id
  | .opt t => .opt (serTy Γ t)
  | .record id fs => .record (Γ.name id) (serFields Γ id 0 fs)
  | .map _ t => .map (serTy Γ t)
  | .seq _ t => .vec (serTy Γ t)
/-- The fields from the `i`-th on. (detail/serialization.hpp:900-985) -/
def serFields (Γ : Table) (id : Nat) : Nat → Resource.Fields → Serial.Fields
  | _, .nil => .nil
  | i, .cons _ t fs => .cons (Γ.field id i) (serTy Γ t) (serFields Γ id (i + 1) fs)
end

/-- Scalar types. (json.hpp:677-762) -/
def scalar : Serial.Ty → Bool
  | .leaf _ => true
  | .enum _ => true
  | .rawEnum _ => true
  | .enumSet _ => true
  | _ => false

mutual
/-- The table fits the type: scalars are scalars, ranges can grow, and the name of a field
as a path segment is its `serialized_name` (resource_op.hpp:523). -/
def wired (Γ : Table) : Resource.Ty → Bool
  | .leaf id => scalar (Γ.leaf id)
  | .opt t => wired Γ t
  | .record id fs => wiredFields Γ id 0 fs
  | .map _ t => wired Γ t
  | .seq k t => k.push && wired Γ t
/-- The fields of a struct are those of the table: detail/serialization.hpp:900-985. -/
def wiredFields (Γ : Table) (id : Nat) : Nat → Resource.Fields → Bool
  | _, .nil => true
  | i, .cons a t fs => decide ((Γ.field id i).key = a.name) && wired Γ t && wiredFields Γ id (i + 1) fs
end

/-- The type compiles for both. (resource_op.hpp:289-329, detail/serialization.hpp:613-1240) -/
def good (Γ : Table) (t : Resource.Ty) : Bool := tyOk (serTy Γ t) && wired Γ t

/-- A scalar as serialization sees it; what is no such scalar becomes a value of no scalar
type. (json.hpp:677-762) -/
def leafIn : Serial.Ty → Resource.Atom → Serial.Value
  | .leaf .bool, .num n =>
    if n = 0 then .atom (.bool false) else if n = 1 then .atom (.bool true) else .seq []
  | .leaf .dbl, .num n => if 0 ≤ n ∧ n < 2 ^ 64 then .atom (.dbl (BitVec.ofInt 64 n)) else .seq []
  | .enumSet _, .num n => if 0 ≤ n then .bits n.toNat else .seq []
  | _, .num n => .atom (.int n)
  | _, .str s => .atom (.str s)

/-- The same in the other direction. (json.hpp:677-762) -/
def leafOut : Serial.Value → Resource.Atom
  | .atom (.bool b) => .num (if b then 1 else 0)
  | .atom (.int n) => .num n
  | .atom (.dbl b) => .num b.toNat
  | .atom (.str s) => .str s
  | .bits n => .num n
  | _ => .num 0

mutual
/-- The object as serialization sees it; what is not of the type becomes a value that is not
either. (the object at resource_op.hpp:850-866) -/
def view (Γ : Table) : Resource.Ty → Resource.Value → Serial.Value
  | .leaf id, v =>
    match v with
    | .leaf a => leafIn (Γ.leaf id) a
    | _ => .seq []
  | .opt t, v =>
    match v with
    | .opt none => .opt none
    | .opt (some v) => .opt (some (view Γ t v))
    | _ => .bits 0
  | .record id fs, v =>
    match v with
    | .record vs => .record (viewFields Γ id 0 fs vs)
    | _ => .bits 0
  | .map _ t, v =>
    match v with
    | .map es => .map (es.map fun e => (e.1, view Γ t e.2))
    | _ => .bits 0
  | .seq _ t, v =>
    match v with
    | .seq vs => .seq (vs.map (view Γ t))
    | _ => .bits 0
/-- The fields of a struct, detail/serialization.hpp:569-612. -/
def viewFields (Γ : Table) (id : Nat) : Nat → Resource.Fields → List Resource.Value → List Serial.Value
  | i, .cons _ t fs, v :: vs => view Γ t v :: viewFields Γ id (i + 1) fs vs
  | _, .cons _ _ _, [] => []
  | _, .nil, [] => []
  | _, .nil, _ :: _ => [.bits 0]
end

mutual
/-- The object as the resource sees it. (the object at resource_op.hpp:868-917) -/
def back (Γ : Table) : Resource.Ty → Serial.Value → Resource.Value
  | .leaf _, v => .leaf (leafOut v)
  | .opt t, v =>
    match v with
    | .opt (some v) => .opt (some (back Γ t v))
    | _ => .opt none
  | .record id fs, v =>
    match v with
    | .record vs => .record (backFields Γ id 0 fs vs)
    | _ => .leaf (.num 0)
  | .map _ t, v =>
    match v with
    | .map es => .map (es.map fun e => (e.1, back Γ t e.2))
    | _ => .leaf (.num 0)
  | .seq _ t, v =>
    match v with
    | .seq vs => .seq (vs.map (back Γ t))
    | _ => .leaf (.num 0)
/-- The fields of a struct, detail/serialization.hpp:900-985. -/
def backFields (Γ : Table) (id : Nat) : Nat → Resource.Fields → List Serial.Value → List Resource.Value
  | i, .cons _ t fs, v :: vs => back Γ t v :: backFields Γ id (i + 1) fs vs
  | _, _, _ => []
end

mutual
/-- A value of the type, for types outside the table (`T{}` of types that do not compile).
(detail/serialization.hpp:831, 860) -/
def blank : Resource.Ty → Resource.Value
  | .leaf _ => .leaf (.num 0)
  | .opt _ => .opt none
  | .record _ fs => .record (blanks fs)
  | .map _ _ => .map []
  | .seq _ _ => .seq []
/-- The fields of a struct, detail/serialization.hpp:831, 860. -/
def blanks : Resource.Fields → List Resource.Value
  | .nil => []
  | .cons _ t fs => blank t :: blanks fs
end

/-- The object is of the type. (the object of resource_op.hpp:850-1021) -/
def holds (Γ : Table) (t : Resource.Ty) (v : Resource.Value) : Bool :=
  good Γ t && hasTy (serTy Γ t) (view Γ t v)

/-- The exception as the handlers of resource_op.hpp see it: `deserialize_error` has its own
(914-917, 969-972, 1018-1021), `std::logic_error` has none, and for what user code throws
`thrown` tells. -/
def exc (thrown : Nat → Resource.Exc) : Serial.Exc → Resource.Exc
  | .deser _ => .deserialize
  | .stuck => .other 0
  | .logic _ => .other 1
  | .other n => thrown n

/-- A call of serialization on a copy of an object of the resource (resource_op.hpp:879-880,
933-934, 985-986).  The copy is dropped if the call throws. -/
def lift (Γ : Table) (thrown : Nat → Resource.Exc) (t : Resource.Ty) (v : Resource.Value) (r : Serial.Value → Serial.Res Serial.Value) :
    Except Resource.Exc Resource.Value :=
  if holds Γ t v then
    match r (view Γ t v) with
    | .ok w => .ok (back Γ t w)
    | .error e => .error (exc thrown e)
  else .error (.other 0)

/-- User code of a resource, see `Resource.Env`, and the exceptions that the validators of
fields throw. (resource_op.hpp:84-119, detail/serialization.hpp:964-985) -/
structure User where
  validate : Resource.Ty → Resource.Value → Except Resource.Exc Unit
  keyMatches : Resource.Ty → Resource.Value → Resource.Value → Str → Bool
  keyEq : Resource.Value → Resource.Value → Bool
  thrown : Nat → Resource.Exc

variable {σ : Type}

/-- resource_op.hpp with `kl::serialization` (880, 934, 986) for documents of a backend. -/
def env (Γ : Table) (B : Serial.Backend σ) (E : Serial.Env) (U : User) : Resource.Env (Serial.Doc σ) where
  validate := U.validate
  keyMatches := U.keyMatches
  keyEq := U.keyEq
  deser t v d := lift Γ U.thrown t v fun w => Serial.deser B E (serTy Γ t) w d
  patch t v d := lift Γ U.thrown t v fun w => Serial.patch B E (serTy Γ t) w d
  fresh t := if good Γ t then back Γ t (Serial.fresh (serTy Γ t)) else blank t

/-- A `dumper` for `get` (resource_op.hpp:856): the text of what `serialize` makes of the
object. -/
def dumper (Γ : Table) (B : Serial.Backend σ) (U : User) (skipNull : Bool) (print : Serial.Doc σ → Str)
    (t : Resource.Ty) (v : Resource.Value) : Except Resource.Exc Str :=
  match Serial.ser B skipNull (serTy Γ t) (view Γ t v) with
  | .ok d => .ok (print d)
  | .error e => .error (exc U.thrown e)

/-- resource_op.hpp:673-682 `serialize_at_path`. -/
def serializeAt (Γ : Table) (B : Serial.Backend σ) (E : Serial.Env) (U : User) (skipNull : Bool)
    (T : Resource.Ty) (v : Resource.Value) (path : List Str) : Except Resource.Err (Serial.Doc σ) :=
  match Resource.visitAtPath (env Γ B E U) T v path 0 with
  | .error e => .error e
  | .ok n =>
    match Serial.ser B skipNull (serTy Γ n.ty) (view Γ n.ty n.val) with
    | .ok d => .ok d
    | .error e => .error (.throws (exc U.thrown e))

/-- resource_op.hpp:684-692 `deserialize_at_path`: the object is read in place, without any
check of access or validation.  What is left of the whole object, and what was thrown. -/
def deserializeAt (Γ : Table) (B : Serial.Backend σ) (E : Serial.Env) (U : User)
    (T : Resource.Ty) (v : Resource.Value) (path : List Str) (d : Serial.Doc σ) :
    Resource.Value × Option Resource.Err :=
  match Resource.visitAtPath (env Γ B E U) T v path 0 with
  | .error e => (v, some e)
  | .ok n =>
    match v.set (back Γ n.ty (Serial.deserRun B E (serTy Γ n.ty) (view Γ n.ty n.val) d).1) n.addr with
    | none => (v, some .stuck)
    | some v' =>
      (v', (Serial.deserRun B E (serTy Γ n.ty) (view Γ n.ty n.val) d).2.map fun e => .throws (exc U.thrown e))

end Verif.Rest
