/-!
Overload resolution: among the viable candidates, the one that is better than every other. C++ rules used:
[over.match.best], [over.ics.rank], [temp.func.order]. These rules belong to the language, not to the
repository; match.hpp:24 (`using Fs::operator()...`), json.hpp:534-700 and detail/serialization.hpp:613-1120
are resolved by them.
-/

namespace Verif.Overload

/-- The first candidate of `after` that is better than all others; `before` are those already passed. -/
def pick {α : Type} (better : α → α → Bool) (before : List α) : List α → Option α
  | [] => none
  | a :: after =>
    if (before ++ after).all (better a) then some a else pick better (before ++ [a]) after

/-- The best viable candidate; `none` if there is no candidate or the call is ambiguous. -/
def best {α : Type} (better : α → α → Bool) (viable : List α) : Option α := pick better [] viable

/-- `a` occurs in `l` and is better than everything else in it. -/
def IsBest {α : Type} (better : α → α → Bool) (l : List α) (a : α) : Prop :=
  ∃ l₁ l₂, l = l₁ ++ a :: l₂ ∧ ∀ b ∈ l₁ ++ l₂, better a b = true

theorem pick_some {α : Type} {better : α → α → Bool} {before after : List α} {a : α}
    (h : pick better before after = some a) : IsBest better (before ++ after) a := by
  induction after generalizing before with
  | nil => cases h
  | cons x after ih =>
    rw [pick] at h
    split at h
    · rename_i hx
      cases h
      exact ⟨before, after, rfl, fun b hb => List.all_eq_true.1 hx b hb⟩
    · have := ih h
      rwa [List.append_assoc] at this

theorem pick_of {α : Type} {better : α → α → Bool}
    (asym : ∀ a b, better a b = true → better b a = false) {a : α} {l₂ : List α} :
    ∀ {l₁ before : List α}, (∀ b ∈ (before ++ l₁) ++ l₂, better a b = true) →
      pick better before (l₁ ++ a :: l₂) = some a := by
  intro l₁
  induction l₁ with
  | nil =>
    intro before h
    rw [List.nil_append, pick, if_pos]
    rw [List.append_nil] at h
    exact List.all_eq_true.2 h
  | cons x l₁ ih =>
    intro before h
    rw [List.cons_append, pick, if_neg, ih]
    · intro b hb
      exact h b (by simpa using hb)
    · intro hx
      have h1 := h x (by simp)
      have h2 := List.all_eq_true.1 hx a (by simp)
      rw [asym _ _ h1] at h2
      cases h2

theorem best_iff {α : Type} {better : α → α → Bool}
    (asym : ∀ a b, better a b = true → better b a = false) (l : List α) (a : α) :
    best better l = some a ↔ IsBest better l a := by
  constructor
  · intro h
    simpa using pick_some h
  · rintro ⟨l₁, l₂, rfl, h⟩
    exact pick_of asym (by simpa using h)

/-- The candidate found is a candidate. -/
theorem best_mem {α : Type} {better : α → α → Bool} {l : List α} {a : α}
    (h : best better l = some a) : a ∈ l := by
  obtain ⟨l₁, l₂, h, -⟩ := pick_some h
  simp only [List.nil_append] at h
  rw [h]
  simp

theorem best_nil {α : Type} {better : α → α → Bool} : best better ([] : List α) = none := rfl

theorem best_one {α : Type} {better : α → α → Bool} (a : α) : best better [a] = some a := by
  simp [best, pick]

end Verif.Overload
