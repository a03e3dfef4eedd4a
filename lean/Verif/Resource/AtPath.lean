import Verif.Resource.Demo
/-
Which of the functions `dump_at_path`, `serialize_at_path` and `deserialize_at_path`
(resource_op.hpp:662-690) can be instantiated for a type.  They share `visit_node<Result>`,
which instantiates itself for every node the types reach, and which keeps its result in a
`std::unique_ptr<Result>` where a segment is searched among several candidates.
-/
namespace Verif.Resource
open Verif.Path

/-! ### Model -/

/-- The result types of the three functions: `serialize` returns a document of the backend
(serialization.hpp:200-207), `deserialize_at_path` uses `int` (resource_op.hpp:684-689), and `dump`
returns nothing (serialization.hpp:160-165). -/
inductive ResultType where
  | void
  | object
  deriving DecidableEq, Repr

/-- `std::unique_ptr<Result>`, `std::make_unique<Result>(f())` and `std::move(*result)` are
well-formed: not for `void`, which no object can have (resource_op.hpp:517, 528, 538, 578, 591,
602). -/
def ResultType.storable : ResultType → Bool
  | .void => false
  | .object => true

mutual
/-- resource_op.hpp:505-638: `visit_node<Result>` is well-formed for a node of this type; `keyed`
says whether the node has a `child_key` attribute (`has_attribute<child_key_base_t>`, 572).
Branches not taken by `if constexpr` are not instantiated. -/
def visitCompiles (r : ResultType) : Ty → Bool → Bool
  | .record _ fs, _ => r.storable && fieldsCompile r fs
  | .opt t, _ => visitCompiles r t false
  | .map _ t, _ => visitCompiles r t false
  | .seq k t, keyed =>
    if keyed then r.storable && visitCompiles r t false
    else if k.at_ then visitCompiles r t false
    else true
  | .leaf _, _ => true
/-- resource_op.hpp:519-535: the body of the loop over the fields is instantiated for each. -/
def fieldsCompile (r : ResultType) : Fields → Bool
  | .nil => true
  | .cons a t fs => visitCompiles r t (a.childKeys != []) && fieldsCompile r fs
end

/-- resource_op.hpp:662-671 `dump_at_path`: `Result` is what `kl::serialization::dump` returns. -/
def dumpAtPathCompiles (T : Ty) : Bool := visitCompiles .void T false

/-- resource_op.hpp:673-682 `serialize_at_path`: `Result` is the backend's document. -/
def serializeAtPathCompiles (T : Ty) : Bool := visitCompiles .object T false

/-- resource_op.hpp:684-693 `deserialize_at_path`: `Result` is `int`. -/
def deserializeAtPathCompiles (T : Ty) : Bool := visitCompiles .object T false

/-! ### Specification -/

namespace Spec

/-- A position a path may pass: a type, and whether its field names a child key. -/
structure Place where
  ty : Ty
  keyed : Bool

/-- One step of a path, or into an optional, leads from a place to another. -/
inductive TypeLeads : Place → Place → Prop
  | field {id fs k a t} : (a, t) ∈ fieldList fs → TypeLeads ⟨.record id fs, k⟩ ⟨t, a.childKeys != []⟩
  | value {t k} : TypeLeads ⟨.opt t, k⟩ ⟨t, false⟩
  | mapped {er t k} : TypeLeads ⟨.map er t, k⟩ ⟨t, false⟩
  | keyed {s t} : TypeLeads ⟨.seq s t, true⟩ ⟨t, false⟩
  | index {s t} : s.at_ = true → TypeLeads ⟨.seq s t, false⟩ ⟨t, false⟩

/-- What the types let paths reach. -/
inductive TypeReaches : Place → Place → Prop
  | here {p} : TypeReaches p p
  | step {p q r} : TypeLeads p q → TypeReaches q r → TypeReaches p r

/-- A place where the next segment is searched among several candidates: a reflected struct, or
a sequence whose elements are named by a key. -/
def Searched : Place → Prop
  | ⟨.record _ _, _⟩ => True
  | ⟨.seq _ _, k⟩ => k = true
  | _ => False

end Spec

open Spec

/-! ### Theorems -/

theorem storable_object : ResultType.storable .object = true := rfl

mutual
theorem visitCompiles_object : ∀ (t : Ty) (k : Bool), visitCompiles .object t k = true
  | .record _ fs, _ => by simp [visitCompiles, storable_object, fieldsCompile_object fs]
  | .opt t, _ => by simp [visitCompiles, visitCompiles_object t]
  | .map _ t, _ => by simp [visitCompiles, visitCompiles_object t]
  | .seq _ t, _ => by simp [visitCompiles, storable_object, visitCompiles_object t]
  | .leaf _, _ => by simp [visitCompiles]
theorem fieldsCompile_object : ∀ fs : Fields, fieldsCompile .object fs = true
  | .nil => rfl
  | .cons _ t fs => by simp [fieldsCompile, visitCompiles_object t, fieldsCompile_object fs]
end

/-- `serialize_at_path` and `deserialize_at_path` can be used with every type. -/
theorem C125_serialize_compiles (T : Ty) :
    serializeAtPathCompiles T = true ∧ deserializeAtPathCompiles T = true :=
  ⟨visitCompiles_object T false, visitCompiles_object T false⟩

mutual
theorem visitCompiles_void_iff : ∀ (t : Ty) (k : Bool),
    visitCompiles .void t k = true ↔ ∀ p, TypeReaches ⟨t, k⟩ p → ¬ Searched p
  | .record id fs, k => by
    simp only [visitCompiles, ResultType.storable, Bool.false_and, Bool.false_eq_true, false_iff]
    intro h
    exact h _ .here trivial
  | .opt t, k => by
    rw [visitCompiles, visitCompiles_void_iff t false]
    refine ⟨fun h p hp => ?_, fun h p hp => h p (.step .value hp)⟩
    cases hp with
    | here => exact id
    | step hl hr => cases hl; exact h p hr
  | .map er t, k => by
    rw [visitCompiles, visitCompiles_void_iff t false]
    refine ⟨fun h p hp => ?_, fun h p hp => h p (.step .mapped hp)⟩
    cases hp with
    | here => exact id
    | step hl hr => cases hl; exact h p hr
  | .seq s t, true => by
    simp only [visitCompiles, ResultType.storable, Bool.false_and, if_true, Bool.false_eq_true,
      false_iff]
    intro h
    exact h _ .here rfl
  | .seq s t, false => by
    simp only [visitCompiles, Bool.false_eq_true, if_false]
    by_cases ha : s.at_ = true
    · rw [if_pos ha, visitCompiles_void_iff t false]
      refine ⟨fun h p hp => ?_, fun h p hp => h p (.step (.index ha) hp)⟩
      cases hp with
      | here => exact Bool.false_ne_true
      | step hl hr => cases hl; exact h p hr
    · rw [if_neg ha]
      refine ⟨fun _ p hp => ?_, fun _ => rfl⟩
      cases hp with
      | here => exact Bool.false_ne_true
      | step hl hr => cases hl with
        | index h => exact absurd h ha
  | .leaf id, k => by
    simp only [visitCompiles, true_iff]
    intro p hp
    cases hp with
    | here => exact fun h => h
    | step hl hr => cases hl
end

/-- `dump_at_path` can be used with exactly the types no path of which passes a reflected struct
or a sequence with keys. -/
theorem C125_dump_iff (T : Ty) :
    dumpAtPathCompiles T = true ↔ ∀ p, TypeReaches ⟨T, false⟩ p → ¬ Searched p :=
  visitCompiles_void_iff T false

mutual
theorem visit_reaches {β : Type} (E : Env β) (stop : Nat) :
    ∀ (t : Ty) (node : Node) (v : Value) (path : List Str) (c : Access) (r : Target),
      visit E stop t node v path c = .ok r → ∃ k, TypeReaches ⟨t, node.childKeys != []⟩ ⟨r.ty, k⟩
  | .record id fs, node, v, path, c, r, h => by
    simp only [visit] at h
    split at h
    · cases h; exact ⟨_, .here⟩
    · split at h
      · rename_i vs s rest _
        obtain ⟨a, t, k, hm, hr⟩ := visitFields_reaches E stop fs 0 vs node s rest c r h
        exact ⟨k, .step (.field hm) hr⟩
      · cases h
  | .opt t, node, v, path, c, r, h => by
    simp only [visit] at h
    split at h
    · cases h; exact ⟨_, .here⟩
    · split at h
      · cases h
      · rename_i w
        cases hv : visit E stop t (.elem none) w path (c.update node) with
        | error e => rw [hv] at h; cases h
        | ok r' =>
          rw [hv] at h; cases h
          obtain ⟨k, hk⟩ := visit_reaches E stop t _ _ _ _ _ hv
          exact ⟨k, .step .value hk⟩
      · cases h
  | .map er t, node, v, path, c, r, h => by
    simp only [visit] at h
    split at h
    · cases h; exact ⟨_, .here⟩
    · split at h
      · split at h
        · cases h
        · split at h
          · cases h
          · rename_i s rest _ _ i _ _ e _
            cases hv : visit E stop t (.elem none) e.2 rest (c.update node) with
            | error e => rw [hv] at h; cases h
            | ok r' =>
              rw [hv] at h; cases h
              obtain ⟨k, hk⟩ := visit_reaches E stop t _ _ _ _ _ hv
              exact ⟨k, .step .mapped hk⟩
      · cases h
  | .seq sk t, node, v, path, c, r, h => by
    simp only [visit] at h
    split at h
    · cases h; exact ⟨_, .here⟩
    · split at h
      · rename_i vs s rest _
        split at h
        · rename_i hk
          have hk' : (node.childKeys != []) = true := by simpa using hk
          rw [hk']
          split at h
          · cases h
          · cases h
          · rename_i key i _
            split at h
            · cases h
            · rename_i w _
              cases hv : visit E stop t (.elem (some key)) w rest (c.update node) with
              | error e => rw [hv] at h; cases h
              | ok r' =>
                rw [hv] at h; cases h
                obtain ⟨k, hk⟩ := visit_reaches E stop t _ _ _ _ _ hv
                exact ⟨k, .step .keyed hk⟩
        · rename_i hk
          have hk' : (node.childKeys != []) = false := by simpa using hk
          rw [hk']
          split at h
          · rename_i hat
            split at h
            · cases h
            · split at h
              · cases h
              · rename_i w _
                cases hv : visit E stop t (.elem none) w rest (c.update node) with
                | error e => rw [hv] at h; cases h
                | ok r' =>
                  rw [hv] at h; cases h
                  obtain ⟨k, hk⟩ := visit_reaches E stop t _ _ _ _ _ hv
                  exact ⟨k, .step (.index hat) hk⟩
          · cases h
      · cases h
  | .leaf id, node, v, path, c, r, h => by
    simp only [visit] at h
    split at h
    · cases h; exact ⟨_, .here⟩
    · cases h
theorem visitFields_reaches {β : Type} (E : Env β) (stop : Nat) :
    ∀ (fs : Fields) (i : Nat) (vs : List Value) (node : Node) (s : Str) (rest : List Str)
      (c : Access) (r : Target), visitFields E stop fs i vs node s rest c = .ok r →
      ∃ a t k, (a, t) ∈ fieldList fs ∧ TypeReaches ⟨t, a.childKeys != []⟩ ⟨r.ty, k⟩
  | .nil, _, vs, _, _, _, _, r, h => by
    cases vs <;> simp [visitFields] at h
  | .cons a t fs, i, [], _, _, _, _, r, h => by simp [visitFields] at h
  | .cons a t fs, i, v :: vs, node, s, rest, c, r, h => by
    simp only [visitFields] at h
    split at h
    · obtain ⟨a', t', k, hm, hr⟩ := visitFields_reaches E stop fs _ _ _ _ _ _ _ h
      exact ⟨a', t', k, List.mem_cons_of_mem _ hm, hr⟩
    · cases hv : visit E stop t (.field a) v rest (c.updateField node i) with
      | error e => rw [hv] at h; cases h
      | ok r' =>
        rw [hv] at h; cases h
        obtain ⟨k, hk⟩ := visit_reaches E stop t _ _ _ _ _ hv
        exact ⟨a, t, k, List.mem_cons_self .., hk⟩
end

/-- The instantiations cover every visit: whatever a path finds at run time has a type that was
instantiated. -/
theorem C125_visits_instantiated {β : Type} (E : Env β) (T : Ty) (v : Value) (path : List Str)
    (stop : Nat) (r : Target) (h : visitAtPath E T v path stop = .ok r) :
    ∃ k, TypeReaches ⟨T, false⟩ ⟨r.ty, k⟩ :=
  visit_reaches E stop T .root v path {} r h

/-! ### Cases -/

/-- `struct point { int x; int y; };` reflected. -/
def pointTy : Ty :=
  .record 0 (.cons { name := str "x" } (.leaf 0) (.cons { name := str "y" } (.leaf 0) .nil))

/-- `dump_at_path` cannot be used with a reflected struct of two integers, which
`serialize_at_path` takes. -/
theorem C125_dump_violated :
    ∃ T : Ty, T = pointTy ∧ dumpAtPathCompiles T = false ∧ serializeAtPathCompiles T = true :=
  ⟨_, rfl, rfl, rfl⟩

/-- Nor with a map of vectors of optional structs. -/
example : dumpAtPathCompiles (.map true (.seq ⟨true, true, true⟩ (.opt pointTy))) = false := rfl

/-- It can be used with a map of vectors of optional integers, in which paths go three steps
deep, and with a set of structs, into which no path leads. -/
example : dumpAtPathCompiles (.map true (.seq ⟨true, true, true⟩ (.opt (.leaf 0)))) = true ∧
    dumpAtPathCompiles (.seq ⟨false, false, true⟩ pointTy) = true := ⟨rfl, rfl⟩

example : TypeReaches ⟨.map true (.seq ⟨true, true, true⟩ (.opt pointTy)), false⟩ ⟨.leaf 0, false⟩ :=
  .step .mapped (.step (.index rfl) (.step .value (.step (.field (List.mem_cons_self ..)) .here)))

end Verif.Resource
