import Verif.Serial.PatchBlame
import Verif.Serial.Shapes
/-
Which collision the `logic_error` of a record names.
-/
namespace Verif.Serial
open Verif.Path Verif.Enums

namespace Spec

mutual
/-- What the fields of a record declare, in order: names, and `none` for an `extra_fields`
map. -/
def declared : Fields → List (Option Str)
  | .nil => []
  | .cons f t fs =>
    (if f.extra then [none] else if f.flatten then declaredTy t else some f.key :: f.aliases.map some) ++
      declared fs
def declaredTy : Ty → List (Option Str)
  | .record _ fs => declared fs
  | _ => []
end

def clashText : Option Str → Str
  | some n => txt "serialization reflected field name collision: " ++ n
  | none => txt "serialization only one extra_fields field is supported"

/-- `x` is the first that was declared before. -/
def FirstRepeated {α : Type} (l : List α) (x : α) : Prop :=
  ∃ before after, l = before ++ x :: after ∧ before.Nodup ∧ x ∈ before

end Spec

open Spec

/-- One declaration after the other. -/
def declareAll (acc : List Str × Nat) : List (Option Str) → Res (List Str × Nat)
  | [] => .ok acc
  | none :: l =>
    if acc.2 + 1 > 1 then
      .error (.logic (txt "serialization only one extra_fields field is supported"))
    else declareAll (acc.1, acc.2 + 1) l
  | some n :: l =>
    match addName acc.1 n with
    | .error e => .error e
    | .ok names => declareAll (names, acc.2) l

theorem declareAll_append {l m : List (Option Str)} : ∀ {acc : List Str × Nat},
    declareAll acc (l ++ m) = (match declareAll acc l with
      | .error e => .error e
      | .ok acc => declareAll acc m) := by
  induction l with
  | nil => intro acc; rfl
  | cons x l ih =>
    intro acc
    cases x with
    | none =>
      simp only [List.cons_append, declareAll]
      split
      · rfl
      · exact ih
    | some n =>
      simp only [List.cons_append, declareAll]
      cases addName acc.1 n with
      | error e => rfl
      | ok names => exact ih

theorem declareAll_names {ns : List Str} : ∀ {acc : List Str × Nat},
    declareAll acc (ns.map some) = (addNames acc.1 ns).map fun names => (names, acc.2) := by
  induction ns with
  | nil => intro acc; rfl
  | cons n ns ih =>
    intro acc
    simp only [List.map_cons, declareAll, addNames]
    cases addName acc.1 n with
    | error e => rfl
    | ok names => exact ih

mutual
theorem collectReserved_declare : ∀ (fs : Fields), fieldsOk fs = true → ∀ acc : List Str × Nat,
    collectReserved fs acc = declareAll acc (declared fs)
  | .nil, _, acc => by simp [collectReserved, declared, declareAll]
  | .cons f t fs, hf, acc => by
    simp only [fieldsOk, Bool.and_eq_true] at hf
    have hfo := fieldOk_iff.1 hf.1.1
    have h1 := fun h acc => collectReservedTy_declare t hf.1.2 h acc
    have h2 := fun acc => collectReserved_declare fs hf.2 acc
    simp only [collectReserved, declared, declareAll_append, h2]
    cases c1 : f.extra with
    | true =>
      simp only [if_true, declareAll]
      rfl
    | false =>
      cases c2 : f.flatten with
      | true =>
        simp only [Bool.false_eq_true, if_false, if_true]
        rw [h1 (hfo.2.2.1 c2)]
        rfl
      | false =>
        simp only [Bool.false_eq_true, if_false]
        have := declareAll_names (ns := f.key :: f.aliases) (acc := acc)
        simp only [List.map_cons] at this
        rw [this]
        rfl
theorem collectReservedTy_declare : ∀ (t : Ty), tyOk t = true → isRecord t = true → ∀ acc : List Str × Nat,
    collectReservedTy t acc = declareAll acc (declaredTy t)
  | .record _ fs, ht, _, acc => by
    simp only [tyOk, Bool.and_eq_true] at ht
    simp only [collectReservedTy, declaredTy]
    exact collectReserved_declare fs ht.1.1 acc
  | .leaf _, _, h, _ | .enum _, _, h, _ | .rawEnum _, _, h, _ | .enumSet _, _, h, _ | .opt _, _, h, _
  | .vec _, _, h, _ | .arr _ _, _, h, _ | .map _, _, h, _ | .tuple _ _, _, h, _ => by cases h
end

/-- `pre` was declared before. -/
theorem declareAll_err {w : Str} : ∀ {l pre : List (Option Str)} {acc : List Str × Nat}, pre.Nodup →
    (∀ n, n ∈ acc.1 ↔ some n ∈ pre) → (acc.2 = if none ∈ pre then 1 else 0) →
    (declareAll acc l = .error (.logic w) ↔
      ∃ before x after, l = before ++ x :: after ∧ (pre ++ before).Nodup ∧ x ∈ pre ++ before ∧
        w = clashText x)
  | [], pre, acc, _, _, _ => by simp [declareAll]
  | x :: l, pre, acc, hp, hn, hc => by
    have step : ∀ acc', x ∉ pre → (∀ n, n ∈ acc'.1 ↔ some n ∈ pre ++ [x]) →
        (acc'.2 = if none ∈ pre ++ [x] then 1 else 0) →
        (declareAll acc' l = .error (.logic w) ↔
          ∃ before y after, x :: l = before ++ y :: after ∧ (pre ++ before).Nodup ∧ y ∈ pre ++ before ∧
            w = clashText y) := by
      intro acc' hx hn' hc'
      rw [declareAll_err (pre := pre ++ [x]) (by
        rw [List.nodup_append]
        refine ⟨hp, by simp, ?_⟩
        intro a ha b hb
        simp only [List.mem_singleton] at hb
        rintro rfl
        subst hb
        exact hx ha) hn' hc']
      constructor
      · rintro ⟨before, y, after, rfl, h1, h2, h3⟩
        exact ⟨x :: before, y, after, rfl, by simpa using h1, by simpa using h2, h3⟩
      · rintro ⟨before, y, after, h0, h1, h2, h3⟩
        cases before with
        | nil =>
          simp only [List.nil_append, List.cons.injEq] at h0
          obtain ⟨rfl, rfl⟩ := h0
          simp only [List.append_nil] at h2
          exact absurd h2 hx
        | cons z before =>
          simp only [List.cons_append, List.cons.injEq] at h0
          obtain ⟨rfl, rfl⟩ := h0
          exact ⟨before, y, after, rfl, by simpa using h1, by simpa using h2, h3⟩
    have now : x ∈ pre → ((Exc.logic (clashText x) = .logic w) ↔
          ∃ before y after, x :: l = before ++ y :: after ∧ (pre ++ before).Nodup ∧ y ∈ pre ++ before ∧
            w = clashText y) := by
      intro hx
      simp only [Exc.logic.injEq]
      constructor
      · rintro rfl
        exact ⟨[], x, l, rfl, by simpa using hp, by simpa using hx, rfl⟩
      · rintro ⟨before, y, after, h0, h1, h2, h3⟩
        cases before with
        | nil =>
          simp only [List.nil_append, List.cons.injEq] at h0
          rw [h3, h0.1]
        | cons z before =>
          simp only [List.cons_append, List.cons.injEq] at h0
          obtain ⟨rfl, rfl⟩ := h0
          rw [List.nodup_append] at h1
          exact absurd rfl (h1.2.2 _ hx _ (by simp))
    cases x with
    | none =>
      simp only [declareAll]
      by_cases hx : none ∈ pre
      · rw [hc, if_pos hx, if_pos (by omega)]
        simpa [clashText] using now hx
      · rw [hc, if_neg hx, if_neg (by omega)]
        apply step _ hx
        · intro n; simp [hn]
        · simp
    | some n =>
      simp only [declareAll, addName]
      by_cases hx : some n ∈ pre
      · rw [if_pos (by simpa [hn] using hx)]
        simpa [clashText] using now hx
      · rw [if_neg (by simpa [hn] using hx)]
        apply step _ hx
        · intro m; simp [hn, or_comm, eq_comm]
        · simp [hc]

theorem reservedNames_logic {fs : Fields} (hf : fieldsOk fs = true) {w : Str} :
    reservedNames fs = .error (.logic w) ↔ hasExtraOrFlatten fs = true ∧
      ∃ x, FirstRepeated (declared fs) x ∧ w = clashText x := by
  unfold reservedNames
  by_cases h : hasExtraOrFlatten fs = true
  · rw [if_pos h]
    simp only [map_error, h, true_and]
    rw [collectReserved_declare fs hf, declareAll_err (pre := []) (by simp) (by simp) (by simp)]
    unfold FirstRepeated
    simp only [List.nil_append]
    constructor
    · rintro ⟨before, x, after, h1, h2, h3, h4⟩; exact ⟨x, ⟨before, after, h1, h2, h3⟩, h4⟩
    · rintro ⟨x, ⟨before, after, h1, h2, h3⟩, h4⟩; exact ⟨before, x, after, h1, h2, h3, h4⟩
  · rw [if_neg h]
    simp [h]

end Verif.Serial
