import Verif.Resource.Model
import Verif.Tracker.Spec
/-
What the resource verbs should do: typing, which node a path names, which nodes are
protected, what a valid tree is and what it means that only one place changed.  Only the
data types of the model are used, none of its functions.
-/
namespace Verif.Resource.Spec
open Verif.Path.Spec

/-! ### Types -/

mutual
/-- The value is of the type. -/
def HasTy : Ty → Value → Prop
  | .leaf _, .leaf _ => True
  | .opt t, .opt v => ∀ w, v = some w → HasTy t w
  | .record _ fs, .record vs => HasTys fs vs
  | .map _ t, .map es => (es.map (·.1)).Nodup ∧ ∀ e ∈ es, HasTy t e.2
  | .seq _ t, .seq vs => ∀ v ∈ vs, HasTy t v
  | _, _ => False
def HasTys : Fields → List Value → Prop
  | .nil, [] => True
  | .cons _ t fs, v :: vs => HasTy t v ∧ HasTys fs vs
  | _, _ => False
end

/-- The fields as a list. -/
def fieldList : Fields → List (Attrs × Ty)
  | .nil => []
  | .cons a t fs => (a, t) :: fieldList fs

/-- A field with `child_key` attributes must be a range of structs having these members;
anything else does not compile. -/
def keysOk (a : Attrs) : Ty → Bool
  | .seq _ (.record _ gs) => a.childKeys.all (· < (fieldList gs).length)
  | _ => a.childKeys.isEmpty

mutual
/-- The type compiles. -/
def tyOk : Ty → Bool
  | .leaf _ => true
  | .opt t => tyOk t
  | .record _ fs => fieldsOk fs
  | .map _ t => tyOk t
  | .seq _ t => tyOk t
def fieldsOk : Fields → Bool
  | .nil => true
  | .cons a t fs => keysOk a t && tyOk t && fieldsOk fs
end

mutual
/-- No field has more than one `child_key` attribute. -/
def oneKey : Ty → Bool
  | .leaf _ => true
  | .opt t => oneKey t
  | .record _ fs => oneKeys fs
  | .map _ t => oneKey t
  | .seq _ t => oneKey t
def oneKeys : Fields → Bool
  | .nil => true
  | .cons a t fs => decide (a.childKeys.length ≤ 1) && oneKey t && oneKeys fs
end

/-- The user's functions produce values of the right type. -/
structure Typed {β : Type} (E : Env β) : Prop where
  deser : ∀ t v b v', HasTy t v → E.deser t v b = .ok v' → HasTy t v'
  patch : ∀ t v b v', HasTy t v → E.patch t v b = .ok v' → HasTy t v'
  fresh : ∀ t, HasTy t (E.fresh t)

/-- Validators throw `validation_error` only. -/
def PoliteValidators {β : Type} (E : Env β) : Prop := ∀ t v e, E.validate t v = .error e → ∃ m, e = .validation m

/-- The user's functions throw their own kind of exception only. -/
structure Polite {β : Type} (E : Env β) : Prop where
  validate : PoliteValidators E
  deser : ∀ t v b e, E.deser t v b = .error e → e = .deserialize
  patch : ∀ t v b e, E.patch t v b = .error e → e = .deserialize

/-- The key of a child is a member `k` of a struct. -/
def KeyOf (k : Nat) (v key : Value) : Prop := ∃ vs, v = .record vs ∧ vs[k]? = some key

/-- Keys that compare equal are equal, and whether a segment matches depends on the key only. -/
structure Lawful {β : Type} (E : Env β) : Prop where
  eq : ∀ a b, E.keyEq a b = true → a = b
  only_key : ∀ t v v' key s, E.keyMatches t v key s = E.keyMatches t v' key s

/-- In addition a key matches at most one segment. -/
structure Plain {β : Type} (E : Env β) : Prop extends Lawful E where
  inj : ∀ t v key s s', E.keyMatches t v key s = true → E.keyMatches t v key s' = true → s = s'

/-! ### Navigation -/

def digit (c : BitVec 8) : Prop := 48 ≤ c.toNat ∧ c.toNat ≤ 57

/-- The number a string of digits denotes. -/
def decimal : Seg → Nat
  | [] => 0
  | c :: cs => (c.toNat - 48) * 10 ^ cs.length + decimal cs

/-- The segment names position `i`. -/
def IndexText (s : Seg) (i : Nat) : Prop :=
  s ≠ [] ∧ (∀ c ∈ s, digit c) ∧ decimal s = i ∧ i < 2 ^ 64

/-- The segment is not an alternative spelling (with leading zeros) of an index. -/
def Canonical (s : Seg) : Prop := ∀ c cs, s = 0x30#8 :: c :: cs → ¬ ∀ d ∈ s, digit d

/-- Some element of `vs` at position `i` matches the segment by its key `k`. -/
def MatchesAt {β : Type} (E : Env β) (t : Ty) (vs : List Value) (s : Seg) (k i : Nat) : Prop :=
  ∃ v key, vs[i]? = some v ∧ KeyOf k v key ∧ E.keyMatches t v key s = true

/-- `i` is the first element matching by `k`, and no earlier key member matches anything. -/
def Selects {β : Type} (E : Env β) (t : Ty) (vs : List Value) (s : Seg) (ks : List Nat)
    (k i : Nat) : Prop :=
  ∃ before after, ks = before ++ k :: after ∧ (∀ k' ∈ before, ∀ j, ¬ MatchesAt E t vs s k' j) ∧
    MatchesAt E t vs s k i ∧ ∀ j < i, ¬ MatchesAt E t vs s k j

/-- One step from a node to one of its children. -/
inductive Step where
  | field (i : Nat) (a : Attrs)
  | unwrap
  | entry (i : Nat)
  | item (i : Nat)
  | child (key i : Nat)

/-- The position of the child among the sub-objects of the node. -/
def Step.pos : Step → Nat
  | .field i _ => i
  | .unwrap => 0
  | .entry i => i
  | .item i => i
  | .child _ i => i

/-- `Leads E ks t v path steps t' v'`: from the value `v` of type `t`, held by a field with
child keys `ks`, the path leads in these steps to the sub-object `v'` of type `t'`. -/
inductive Leads {β : Type} (E : Env β) :
    List Nat → Ty → Value → List Seg → List Step → Ty → Value → Prop
  | here {ks t v} : Leads E ks t v [] [] t v
  | field {ks id fs vs i a t v path steps t' v'} : (fieldList fs)[i]? = some (a, t) →
      (∀ j < i, ∀ b u, (fieldList fs)[j]? = some (b, u) → b.name ≠ a.name) → vs[i]? = some v →
      Leads E a.childKeys t v path steps t' v' →
      Leads E ks (.record id fs) (.record vs) (a.name :: path) (.field i a :: steps) t' v'
  | unwrap {ks t v s path steps t' v'} : Leads E [] t v (s :: path) steps t' v' →
      Leads E ks (.opt t) (.opt (some v)) (s :: path) (.unwrap :: steps) t' v'
  | entry {ks er t es i s v path steps t' v'} : es[i]? = some (s, v) →
      Leads E [] t v path steps t' v' →
      Leads E ks (.map er t) (.map es) (s :: path) (.entry i :: steps) t' v'
  | item {k t vs i s v path steps t' v'} : k.at_ = true → IndexText s i → vs[i]? = some v →
      Leads E [] t v path steps t' v' →
      Leads E [] (.seq k t) (.seq vs) (s :: path) (.item i :: steps) t' v'
  | child {ks k t vs key i s v path steps t' v'} : Selects E t vs s ks key i →
      vs[i]? = some v → Leads E [] t v path steps t' v' →
      Leads E ks (.seq k t) (.seq vs) (s :: path) (.child key i :: steps) t' v'

/-- From the root of a resource of type `T`. -/
def LeadsTo {β : Type} (E : Env β) (T : Ty) (v : Value) (path : List Seg) (steps : List Step)
    (t' : Ty) (v' : Value) : Prop :=
  Leads E [] T v path steps t' v'

/-- The path names a node. -/
def Resolves {β : Type} (E : Env β) (T : Ty) (v : Value) (path : List Seg) : Prop :=
  ∃ steps t' v', LeadsTo E T v path steps t' v'

/-! ### Protection -/

/-- The node reached is a `read_only` field, or strictly below a `subtree_read_only` field,
or the key member of a keyed child or below it. -/
def Protected (steps : List Step) : Prop :=
  (∃ i a, steps.getLast? = some (.field i a) ∧ a.readOnly = true) ∨
  (∃ pre i a s post, steps = pre ++ .field i a :: s :: post ∧ a.subtreeReadOnly = true) ∨
  (∃ pre key i a post, steps = pre ++ .child key i :: .field key a :: post)

/-- The children of the node reached are protected. -/
def ChildrenProtected (steps : List Step) : Prop :=
  Protected steps ∨ ∃ i a, steps.getLast? = some (.field i a) ∧ a.subtreeReadOnly = true

/-- If the last step selects a child by key, the two values have equal keys. -/
def SameKey {β : Type} (E : Env β) (steps : List Step) (old new : Value) : Prop :=
  ∀ key i, steps.getLast? = some (.child key i) →
    ∀ a b, KeyOf key old a → KeyOf key new b → E.keyEq a b = true

/-! ### Valid trees -/

/-- `Occurs t ks v t' ks' v'`: `v'` of type `t'`, held by a field with child keys `ks'`, is
`v` or below it. -/
inductive Occurs : Ty → List Nat → Value → Ty → List Nat → Value → Prop
  | here {t ks v} : Occurs t ks v t ks v
  | inner {t ks v t' ks' v'} : Occurs t [] v t' ks' v' →
      Occurs (.opt t) ks (.opt (some v)) t' ks' v'
  | field {id fs ks vs} {i : Nat} {a : Attrs} {t v t' ks' v'} : (fieldList fs)[i]? = some (a, t) →
      vs[i]? = some v → Occurs t a.childKeys v t' ks' v' →
      Occurs (.record id fs) ks (.record vs) t' ks' v'
  | entry {er t ks es e t' ks' v'} : e ∈ es → Occurs t [] e.2 t' ks' v' →
      Occurs (.map er t) ks (.map es) t' ks' v'
  | elem {k t ks vs v t' ks' v'} : v ∈ vs → Occurs t [] v t' ks' v' →
      Occurs (.seq k t) ks (.seq vs) t' ks' v'

/-- Every validator accepts, and keyed children have different keys. -/
def Valid {β : Type} (E : Env β) (T : Ty) (v : Value) : Prop :=
  ∀ t ks u, Occurs T [] v t ks u →
    E.validate t u = .ok () ∧
    ∀ k ∈ ks, ∀ vs, u = .seq vs → ∀ (i j : Nat) x y kx ky, i < j → vs[i]? = some x → vs[j]? = some y →
      KeyOf k x kx → KeyOf k y ky → E.keyEq kx ky = false

/-! ### Changes -/

/-- The values have the same shape and differ at most in the `i`-th sub-object, which is
`x` in the one and `x'` in the other. -/
inductive KidChanged (x x' : Value) : Nat → Value → Value → Prop
  | opt : KidChanged x x' 0 (.opt (some x)) (.opt (some x'))
  | record {pre post} :
      KidChanged x x' pre.length (.record (pre ++ x :: post)) (.record (pre ++ x' :: post))
  | map {pre k post} :
      KidChanged x x' pre.length (.map (pre ++ (k, x) :: post)) (.map (pre ++ (k, x') :: post))
  | seq {pre post} :
      KidChanged x x' pre.length (.seq (pre ++ x :: post)) (.seq (pre ++ x' :: post))

/-- `v'` is `v` with the sub-object `old` at `addr` replaced by `new`. -/
inductive Changed (old new : Value) : List Nat → Value → Value → Prop
  | here : Changed old new [] old new
  | kid {i addr v v' x x'} : KidChanged x x' i v v' → Changed old new addr x x' →
      Changed old new (i :: addr) v v'

/-- Map-like and other ranges. -/
def isCollection : Ty → Bool
  | .map _ _ => true
  | .seq _ _ => true
  | _ => false

/-- The path without its last segment leads to a collection. -/
def InCollection {β : Type} (E : Env β) (T : Ty) (v : Value) (path : List Seg) : Prop :=
  ∃ c s steps t u, path = c ++ [s] ∧ LeadsTo E T v c steps t u ∧ isCollection t = true

/-- The collection without its `i`-th element. -/
def without (v : Value) (i : Nat) : Value :=
  match v with
  | .map es => .map (es.eraseIdx i)
  | .seq vs => .seq (vs.eraseIdx i)
  | v => v

/-- The type lets single elements be erased. -/
def erasable : Ty → Bool
  | .map er _ => er
  | .seq k _ => k.erase
  | _ => false

/-- Nothing is addressable below values of these types. -/
def shallow : Ty → Bool
  | .leaf _ => true
  | .opt t => shallow t
  | _ => false

/-- `optional<T>` with these `T` can be emptied without hiding nodes from the tracker: a
struct, or something with nothing addressable below. -/
def emptyable : Ty → Bool
  | .record _ _ => true
  | t => shallow t

mutual
/-- All optionals in the type are of this kind. -/
def emptyables : Ty → Bool
  | .leaf _ => true
  | .opt t => emptyable t && emptyables t
  | .record _ fs => emptyablesF fs
  | .map _ t => emptyables t
  | .seq _ t => emptyables t
def emptyablesF : Fields → Bool
  | .nil => true
  | .cons _ t fs => emptyables t && emptyablesF fs
end

/-- The outcome is a success. -/
def Success : Outcome → Prop
  | .resp .ok _ => True
  | .resp .created _ => True
  | .resp .noContent _ => True
  | _ => False

end Verif.Resource.Spec
