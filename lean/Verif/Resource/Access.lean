import Verif.Resource.Nav
/-
The access context computed along a path says what `Protected` says.
-/
namespace Verif.Resource
open Verif.Path Verif.Resource.Spec

def subBelow : Node → List Step → Bool
  | _, [] => false
  | n, s :: ss => n.subtreeReadOnly || subBelow (stepNode s) ss

def stepIsKey (n : Node) : Step → Bool
  | .field i _ => n.isImmutableChild i
  | _ => false

def keyBelow : Node → List Step → Bool
  | _, [] => false
  | n, s :: ss => stepIsKey n s || keyBelow (stepNode s) ss

theorem endCtx_eq (c : Access) (n : Node) (steps : List Step) :
    endCtx c n steps = ⟨c.subtreeReadOnly || subBelow n steps, c.nodeReadOnly || keyBelow n steps⟩ := by
  induction steps generalizing c n with
  | nil => simp [endCtx, subBelow, keyBelow]
  | cons s ss ih =>
    simp only [endCtx, ih, subBelow, keyBelow]
    cases s <;> simp [stepCtx, Access.update, Access.updateField, stepIsKey, Bool.or_assoc]

theorem subBelow_iff (n : Node) (steps : List Step) : subBelow n steps = true ↔
    (n.subtreeReadOnly = true ∧ steps ≠ []) ∨
    ∃ pre i a s post, steps = pre ++ .field i a :: s :: post ∧ a.subtreeReadOnly = true := by
  induction steps generalizing n with
  | nil => simp [subBelow]
  | cons s ss ih =>
    simp only [subBelow, Bool.or_eq_true, ih]
    constructor
    · rintro (h | ⟨h1, h2⟩ | ⟨pre, i, a, s', post, rfl, h⟩)
      · exact .inl ⟨h, by simp⟩
      · cases s with
        | field i a =>
          cases ss with
          | nil => simp at h2
          | cons s' post => exact .inr ⟨[], i, a, s', post, rfl, h1⟩
        | _ => simp [stepNode, Node.subtreeReadOnly] at h1
      · exact .inr ⟨s :: pre, i, a, s', post, rfl, h⟩
    · rintro (⟨h, _⟩ | ⟨pre, i, a, s', post, e, h⟩)
      · exact .inl h
      · cases pre with
        | nil =>
          simp only [List.nil_append, List.cons.injEq] at e
          obtain ⟨rfl, rfl⟩ := e
          exact .inr (.inl ⟨h, by simp⟩)
        | cons x pre =>
          simp only [List.cons_append, List.cons.injEq] at e
          exact .inr (.inr ⟨pre, i, a, s', post, e.2, h⟩)

theorem keyBelow_iff (n : Node) (steps : List Step) : keyBelow n steps = true ↔
    (∃ key a post, n = .elem (some key) ∧ steps = .field key a :: post) ∨
    ∃ pre key i a post, steps = pre ++ .child key i :: .field key a :: post := by
  induction steps generalizing n with
  | nil => simp [keyBelow]
  | cons s ss ih =>
    simp only [keyBelow, Bool.or_eq_true, ih]
    constructor
    · rintro (h | ⟨key, a, post, h1, rfl⟩ | ⟨pre, key, i, a, post, rfl⟩)
      · cases s with
        | field i a =>
          cases n with
          | elem k =>
            cases k with
            | none => simp [stepIsKey, Node.isImmutableChild] at h
            | some k =>
              simp [stepIsKey, Node.isImmutableChild] at h
              subst h
              exact .inl ⟨i, a, ss, rfl, rfl⟩
          | _ => simp [stepIsKey, Node.isImmutableChild] at h
        | _ => simp [stepIsKey] at h
      · cases s with
        | child k i =>
          simp only [stepNode, Node.elem.injEq, Option.some.injEq] at h1
          subst h1
          exact .inr ⟨[], k, i, a, post, rfl⟩
        | _ => simp [stepNode] at h1
      · exact .inr ⟨s :: pre, key, i, a, post, rfl⟩
    · rintro (⟨key, a, post, rfl, e⟩ | ⟨pre, key, i, a, post, e⟩)
      · simp only [List.cons.injEq] at e
        obtain ⟨rfl, rfl⟩ := e
        exact .inl (by simp [stepIsKey, Node.isImmutableChild])
      · cases pre with
        | nil =>
          simp only [List.nil_append, List.cons.injEq] at e
          obtain ⟨rfl, rfl⟩ := e
          exact .inr (.inl ⟨key, a, post, rfl, rfl⟩)
        | cons x pre =>
          simp only [List.cons_append, List.cons.injEq] at e
          exact .inr (.inr ⟨pre, key, i, a, post, e.2⟩)

theorem endNode_eq (n : Node) (steps : List Step) :
    endNode n steps = match steps.getLast? with
      | none => n
      | some s => stepNode s := by
  induction steps generalizing n with
  | nil => rfl
  | cons s ss ih =>
    simp only [endNode, ih]
    cases ss with
    | nil => rfl
    | cons s' ss =>
      rw [List.getLast?_cons_cons, List.getLast?_eq_some_getLast (by simp)]

theorem readOnly_iff (steps : List Step) :
    (endCtx {} .root steps).isNodeReadOnly (endNode .root steps) = true ↔ Protected steps := by
  unfold Protected Access.isNodeReadOnly
  rw [endCtx_eq]
  simp only [Bool.false_or, Bool.or_eq_true, subBelow_iff, keyBelow_iff]
  have h1 : (endNode .root steps).readOnly = true ↔
      ∃ i a, steps.getLast? = some (.field i a) ∧ a.readOnly = true := by
    rw [endNode_eq]
    cases steps.getLast? with
    | none => simp [Node.readOnly]
    | some s =>
      cases s with
      | field i a =>
        simp only [stepNode, Node.readOnly, Option.some.injEq, Step.field.injEq]
        exact ⟨fun h => ⟨_, _, ⟨rfl, rfl⟩, h⟩, by rintro ⟨_, _, ⟨rfl, rfl⟩, h⟩; exact h⟩
      | _ => simp [stepNode, Node.readOnly]
  rw [h1]
  constructor
  · rintro ((h | ⟨h, _⟩ | h) | ⟨_, _, _, h, _⟩ | h)
    · exact .inl h
    · cases h
    · exact .inr (.inl h)
    · cases h
    · exact .inr (.inr h)
  · rintro (h | h | h)
    · exact .inl (.inl h)
    · exact .inl (.inr (.inr h))
    · exact .inr (.inr h)

theorem childReadOnly_iff (steps : List Step) :
    (endCtx {} .root steps).isChildNodeReadOnly (endNode .root steps) = true ↔
      ChildrenProtected steps := by
  unfold ChildrenProtected Access.isChildNodeReadOnly
  rw [Bool.or_eq_true, readOnly_iff]
  have h1 : (endNode .root steps).subtreeReadOnly = true ↔
      ∃ i a, steps.getLast? = some (.field i a) ∧ a.subtreeReadOnly = true := by
    rw [endNode_eq]
    cases steps.getLast? with
    | none => simp [Node.subtreeReadOnly]
    | some s =>
      cases s with
      | field i a =>
        simp only [stepNode, Node.subtreeReadOnly, Option.some.injEq, Step.field.injEq]
        exact ⟨fun h => ⟨_, _, ⟨rfl, rfl⟩, h⟩, by rintro ⟨_, _, ⟨rfl, rfl⟩, h⟩; exact h⟩
      | _ => simp [stepNode, Node.subtreeReadOnly]
  rw [h1]

end Verif.Resource
