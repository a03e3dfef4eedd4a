import Verif.Macros.Spec
/-! Lemmas about separating and trimming arguments. -/

namespace Verif.Macros
open Spec

theorem splitC_ne (t : Text) : splitC t ≠ [] := by
  cases t with
  | nil => simp [splitC]
  | cons x t =>
    cases x <;> simp only [splitC] <;> cases splitC t <;> simp

theorem splitC_cons {x : Tok} (h : x ≠ .comma) {t : Text} {a : Text} {as : List Text}
    (ht : splitC t = a :: as) : splitC (x :: t) = (x :: a) :: as := by
  cases x <;> simp_all [splitC]

theorem splitC_single {t : Text} (h : Tok.comma ∉ t) : splitC t = [t] := by
  induction t with
  | nil => rfl
  | cons x t ih =>
    simp only [List.mem_cons, not_or] at h
    exact splitC_cons (fun e => h.1 e.symm) (ih h.2)

theorem splitC_append {t : Text} (h : Tok.comma ∉ t) (u : Text) :
    splitC (t ++ .comma :: u) = t :: splitC u := by
  induction t with
  | nil => rfl
  | cons x t ih =>
    simp only [List.mem_cons, not_or] at h
    exact splitC_cons (fun e => h.1 e.symm) (ih h.2)

theorem trimL_rep (m : Nat) (t : Text) : trimL (List.replicate m .sp ++ t) = trimL t := by
  induction m with
  | zero => rfl
  | succ m ih => simp [List.replicate_succ, trimL, ih]

theorem trimL_of_head {t : Text} (h : t.head? ≠ some .sp) : trimL t = t := by
  cases t with
  | nil => rfl
  | cons x t => cases x <;> simp_all [trimL]

theorem trim_padded {t a : Text} (h : Padded t a) : trim t = a := by
  obtain ⟨⟨-, h1, h2⟩, m, n, rfl⟩ := h
  unfold trim
  rw [List.append_assoc, trimL_rep]
  cases a with
  | nil =>
    have : trimL ([] ++ List.replicate n .sp) = [] := by
      have := trimL_rep n []
      simpa [trimL] using this
    rw [this]; rfl
  | cons x a =>
    have hh : trimL (x :: a ++ List.replicate n Tok.sp) = x :: a ++ List.replicate n Tok.sp :=
      trimL_of_head (by simpa using h1)
    rw [hh]
    rw [List.reverse_append, List.reverse_replicate, trimL_rep, trimL_of_head, List.reverse_reverse]
    rw [List.head?_reverse]; exact h2

theorem padded_self {a : Text} (h : Clean a) : Padded a a := ⟨h, 0, 0, by simp⟩

theorem trim_clean {a : Text} (h : Clean a) : trim a = a := trim_padded (padded_self h)

theorem padded_comma {t a : Text} (h : Padded t a) : Tok.comma ∉ t := by
  obtain ⟨⟨h, -⟩, m, n, rfl⟩ := h
  simp only [List.mem_append, not_or]
  refine ⟨⟨?_, h⟩, ?_⟩ <;> intro hm <;> have := List.eq_of_mem_replicate hm <;> simp at this

theorem args_written {t : Text} {as : List Text} (h : Written t as) : args t = as := by
  induction h with
  | one h => simp [args, splitC_single (padded_comma h), trim_padded h]
  | more h _ ih =>
    rw [args] at ih
    simp [args, splitC_append (padded_comma h), trim_padded h, ih]

theorem written_clean {t : Text} {as : List Text} (h : Written t as) : ∀ a ∈ as, Clean a := by
  induction h with
  | one h => simpa using h.1
  | more h _ ih => simp only [List.mem_cons, forall_eq_or_imp]; exact ⟨h.1, ih⟩

theorem written_ne {t : Text} {as : List Text} (h : Written t as) : as ≠ [] := by
  cases h <;> simp

theorem args_clean {a : Text} (h : Clean a) : args a = [a] := args_written (.one (padded_self h))

theorem written_join {as : List Text} (hne : as ≠ []) (h : ∀ a ∈ as, Clean a) : Written (joinC as) as := by
  induction as with
  | nil => exact absurd rfl hne
  | cons a as ih =>
    cases as with
    | nil => exact .one (padded_self (h a (by simp)))
    | cons b bs =>
      exact .more (padded_self (h a (by simp))) (ih (by simp) (fun x hx => h x (by simp [hx])))

theorem args_join {as : List Text} (hne : as ≠ []) (h : ∀ a ∈ as, Clean a) : args (joinC as) = as :=
  args_written (written_join hne h)

@[simp] theorem clean_paren (l : List Tok) : Clean [.paren l] := by simp [Clean]
@[simp] theorem clean_word (w : String) : Clean [.word w] := by simp [Clean]
@[simp] theorem clean_quoted (w : String) : Clean [.quoted w] := by simp [Clean]
@[simp] theorem clean_nil : Clean [] := by simp [Clean]

/-! Calls whose arguments are single. -/

theorem call1_text {α : Type} (m : Text → PP α) {a : Text} (h : Clean a) :
    call1 m [.text a] = m a := by simp [call1, actuals, args_clean h]

theorem call1_call {α : Type} (m : Text → PP α) {a : Text} (h : Clean a) :
    call1 m [.call a] = m a := by simp [call1, actuals, trim_clean h]

theorem call2_tt {α : Type} (m : Text → Text → PP α) {a b : Text} (h : Clean a) (h' : Clean b) :
    call2 m [.text a, .text b] = m a b := by simp [call2, actuals, args_clean h, args_clean h']

theorem call2_tc {α : Type} (m : Text → Text → PP α) {a b : Text} (h : Clean a) (h' : Clean b) :
    call2 m [.text a, .call b] = m a b := by simp [call2, actuals, args_clean h, trim_clean h']

theorem call2_ct {α : Type} (m : Text → Text → PP α) {a b : Text} (h : Clean a) (h' : Clean b) :
    call2 m [.call a, .text b] = m a b := by simp [call2, actuals, trim_clean h, args_clean h']

theorem call2_cc {α : Type} (m : Text → Text → PP α) {a b : Text} (h : Clean a) (h' : Clean b) :
    call2 m [.call a, .call b] = m a b := by simp [call2, actuals, trim_clean h, trim_clean h']

theorem call3_ctt {α : Type} (m : Text → Text → Text → PP α) {a b d : Text} (h : Clean a) (h' : Clean b)
    (h'' : Clean d) : call3 m [.call a, .text b, .text d] = m a b d := by
  simp [call3, actuals, trim_clean h, args_clean h', args_clean h'']

theorem call3_ttt {α : Type} (m : Text → Text → Text → PP α) {a b d : Text} (h : Clean a) (h' : Clean b)
    (h'' : Clean d) : call3 m [.text a, .text b, .text d] = m a b d := by
  simp [call3, actuals, args_clean h, args_clean h', args_clean h'']

theorem call3_tcc {α : Type} (m : Text → Text → Text → PP α) {a b d : Text} (h : Clean a) (h' : Clean b)
    (h'' : Clean d) : call3 m [.text a, .call b, .call d] = m a b d := by
  simp [call3, actuals, args_clean h, trim_clean h', trim_clean h'']

@[simp] theorem ok_bind {α β : Type} (a : α) (f : α → PP β) : (Except.ok a >>= f : PP β) = f a := rfl
@[simp] theorem error_bind {α β : Type} (e : Err) (f : α → PP β) :
    ((Except.error e : PP α) >>= f : PP β) = .error e := rfl

/-! ### Repeating -/

theorem repeatFrom_ok {m : Nat → PP Text} {g : Nat → Text} :
    ∀ (n i : Nat), (∀ j, i ≤ j → j < i + n → m j = .ok (g j)) →
      repeatFrom m i n = .ok ((List.range' i n).flatMap g)
  | 0, i, _ => rfl
  | n + 1, i, h => by
    rw [repeatFrom, h i (by omega) (by omega), ok_bind,
      repeatFrom_ok n (i + 1) (fun j h1 h2 => h j (by omega) (by omega))]
    simp [List.range'_succ]

/-- Repeating over the elements of a list. -/
theorem repeat_list {m : Nat → PP Text} {β : Type} (l : List β) (g : β → Text) :
    ∀ (i : Nat), (∀ j (x : β), l[j]? = some x → m (i + j) = .ok (g x)) →
      repeatFrom m i l.length = .ok (l.flatMap g) := by
  induction l with
  | nil => intro i _; rfl
  | cons x l ih =>
    intro i h
    rw [List.length_cons, repeatFrom]
    have h0 := h 0 x (by simp)
    rw [Nat.add_zero] at h0
    rw [h0, ok_bind, ih (i + 1) (fun j y hy => by
      have := h (j + 1) y (by simpa using hy)
      rw [← this]; congr 1; omega)]
    simp

/-! ### Tuples -/

section
variable {c : Cfg} {l : Text} {as : List Text}

theorem trimL_mem {x : Tok} (hx : x ≠ .sp) : ∀ {t : Text}, x ∈ t → x ∈ trimL t
  | [], h => by simp at h
  | y :: t, h => by
    by_cases hy : y = .sp
    · subst hy
      simp only [List.mem_cons, hx, false_or] at h
      simpa [trimL] using trimL_mem hx h
    · rw [trimL_of_head (by simpa using hy)]; exact h

theorem trim_ne {x : Tok} (hx : x ≠ .sp) {t : Text} (h : x ∈ t) : (trim t).isEmpty = false := by
  have : x ∈ trim t := by
    rw [trim, List.mem_reverse]
    apply trimL_mem hx
    rw [List.mem_reverse]
    exact trimL_mem hx h
  cases hq : trim t with
  | nil => rw [hq] at this; simp at this
  | cons => rfl

theorem nonblank {a : Text} (h : Written l (a :: as)) (hne : a ≠ []) : (trim l).isEmpty = false := by
  obtain ⟨x, a', rfl⟩ : ∃ x a', a = x :: a' := by
    cases a with
    | nil => exact absurd rfl hne
    | cons x a' => exact ⟨x, a', rfl⟩
  have hx : x ≠ .sp := by
    have := (written_clean h _ (List.mem_cons_self ..)).2.1
    rintro rfl; simp at this
  apply trim_ne hx
  cases h with
  | one h => obtain ⟨-, m, n, rfl⟩ := h; simp
  | more h _ => obtain ⟨-, m, n, rfl⟩ := h; simp

theorem tuple_size {a : Text} (h : Written l (a :: as)) (ha : a ≠ [])
    (hl : as.length + 1 ≤ c.tupleLimit) : TUPLE_SIZE c [.paren l] = .ok (as.length + 1) := by
  rw [TUPLE_SIZE, call1_text _ (clean_paren l)]
  simp only [boostTupleSize, inside, ok_bind, nonblank h ha, args_written h, Bool.and_false,
    Bool.false_eq_true, if_false, List.length_cons, if_pos hl]

theorem tuple_elem (h : Written l as) (hl : as.length ≤ c.tupleLimit) {i : Nat} {a : Text}
    (ha : as[i]? = some a) : TUPLE_ELEM c i [.paren l] = .ok a := by
  rw [TUPLE_ELEM, call1_text _ (clean_paren l)]
  simp only [boostTupleElem, inside, ok_bind, args_written h]
  rw [if_neg (by omega), ha]

end

end Verif.Macros
