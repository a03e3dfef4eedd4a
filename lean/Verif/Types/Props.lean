import Verif.Types.Spec

/-!
C116: the type-level functions of `utility.hpp`, `meta.hpp` and `type_traits.hpp`.
-/

namespace Verif.Types

/-- C116: `at_type_t<N, Ts...>` is the `N`-th type, and the program is rejected exactly when there is
none. The same holds for `type_pack::extract` and for `func_traits::arg`. -/
theorem C116_at_type (n : Nat) (l : List Ty) :
    atType n l = l[n]? ∧ extract n l = l[n]? ∧
      (atType n l = none ↔ packSize l ≤ n) := by
  have h : ∀ n l, atType n l = l[n]? := by
    intro n l
    induction l generalizing n with
    | nil => cases n <;> simp [atType]
    | cons a t ih =>
      cases n with
      | zero => simp [atType]
      | succ n =>
        simp only [atType, List.getElem?_cons_succ]
        split
        · exact ih n
        · rename_i hn
          rw [List.getElem?_eq_none (by omega)]
  refine ⟨h n l, h n l, ?_⟩
  rw [h, List.getElem?_eq_none_iff]
  rfl

/-- A pack of three types; the fourth does not exist. -/
example : atType 1 [.scalar 0, .lref (.scalar 1), .cls 2] = some (.lref (.scalar 1)) ∧
    atType 3 [.scalar 0, .lref (.scalar 1), .cls 2] = none := ⟨rfl, rfl⟩

theorem filterT_cons (p : Ty → Bool) (h : Ty) (t : List Ty) (hp : t ≠ [] ∨ ∀ ts, h ≠ .pack ts) :
    filterT p (h :: t) = if p h then h :: filterT p t else filterT p t := by
  rw [filterT]
  · rfl
  · rintro ts rfl rfl
    rcases hp with hp | hp
    · exact hp rfl
    · exact hp _ rfl

/-- C116: `filter_t<P, Ts...>` and `filter_t<P, type_pack<Ts...>>` are the pack of exactly those types
that satisfy `P`, each as often as it occurs and in order, if the last of the types is not itself a
`type_pack`. -/
theorem C116_filter (p : Ty → Bool) (l : List Ty) (hl : ∀ ts, l.getLast? ≠ some (.pack ts)) :
    filterT p l = l.filter p ∧ filterT p [.pack l] = l.filter p := by
  have h : filterT p l = l.filter p := by
    induction l with
    | nil => simp [filterT]
    | cons a t ih =>
      by_cases ht : t = []
      · subst ht
        rw [filterT_cons _ _ _ (Or.inr (by intro ts e; exact hl ts (by simp [e])))]
        simp [filterT, List.filter_cons]
      · rw [filterT_cons _ _ _ (Or.inl ht), ih ?_]
        · simp [List.filter_cons]
        · intro ts e
          apply hl ts
          rw [List.getLast?_cons_of_ne_nil ht]
          exact e
  refine ⟨h, ?_⟩
  rw [filterT]
  exact h

/-- Classes only: the second and the fourth of the types. A pack in front of the last type is a type like
any other. -/
example : filterT (fun t => t matches .cls _) [.scalar 0, .cls 1, .pack [.cls 3], .cls 2] =
    [.cls 1, .cls 2] := by simp [filterT, pushFront]

/-- C116: a `type_pack` at the end of the list is not tested but replaced by its types. -/
theorem C116_filter_pack_last (p : Ty → Bool) (l ts : List Ty) :
    filterT p (l ++ [.pack ts]) = l.filter p ++ filterT p ts := by
  induction l with
  | nil => simp [filterT]
  | cons a t ih =>
    rw [List.cons_append, filterT_cons _ _ _ (Or.inl (by simp)), ih]
    simp only [List.filter_cons]
    split <;> rfl

/-- C116, violated without the assumption on the last type: asked for the types that are packs,
`filter_t<is_pack, int, type_pack<char>>` answers that there is none; asked for the scalars it answers
`int, char`, although `char` is not in the list. -/
theorem C116_filter_violated :
    ∃ (p q : Ty → Bool) (l : List Ty),
      (∃ t ∈ l, p t = true ∧ t ∉ filterT p l) ∧ (∃ t ∈ filterT q l, t ∉ l) := by
  refine ⟨fun t => t matches .pack _, fun t => t matches .scalar _,
    [.scalar 0, .pack [.scalar 1]], ⟨.pack [.scalar 1], by simp, rfl, ?_⟩, ⟨.scalar 1, ?_, by simp⟩⟩
  · simp [filterT]
  · simp [filterT, pushFront]

/-- C116: the variadic `is_same` says whether all its types are the same. -/
theorem C116_is_same {α : Type} [DecidableEq α] (t u : α) (rest : List α) :
    isSame t u rest = true ↔ ∀ a ∈ t :: u :: rest, ∀ b ∈ t :: u :: rest, a = b := by
  have h : isSame t u rest = true ↔ ∀ a ∈ u :: rest, a = t := by
    induction rest generalizing t u with
    | nil => simp [isSame, eq_comm]
    | cons r rest ih =>
      simp only [isSame, Bool.and_eq_true, decide_eq_true_eq, ih]
      constructor
      · rintro ⟨rfl, h⟩ a ha
        rcases List.mem_cons.1 ha with rfl | ha
        · rfl
        · exact h a ha
      · intro h
        have hu := h u (by simp)
        refine ⟨hu.symm, fun a ha => ?_⟩
        rw [hu]
        exact h a (List.mem_cons_of_mem _ ha)
  rw [h]
  constructor
  · intro h a ha b hb
    have h' : ∀ a ∈ t :: u :: rest, a = t := by
      intro a ha
      rcases List.mem_cons.1 ha with rfl | ha
      · rfl
      · exact h a ha
    rw [h' a ha, h' b hb]
  · intro h a ha
    exact h a (List.mem_cons_of_mem _ ha) t (by simp)

/-- Three equal types, and two equal ones between others. -/
example : isSame "int" "int" ["int"] = true ∧ isSame "char" "int" ["int", "char"] = false ∧
    isSame "int" "int" ["char"] = false := by decide

/-- C116: `remove_cvref` takes a reference and then one `const` away and leaves other types alone. -/
theorem C116_remove_cvref (t : Ty) (hr : ∀ u, t ≠ .lref u ∧ t ≠ .rref u) (hc : ∀ u, t ≠ .const u) :
    removeCvref t = t ∧ removeCvref (.lref t) = t ∧ removeCvref (.rref t) = t ∧
      removeCvref (.const t) = t ∧ removeCvref (.lref (.const t)) = t ∧
      removeCvref (.rref (.const t)) = t ∧ removeCvref (.const (.lref t)) = .lref t := by
  have h1 : removeRef t = t := by
    cases t <;> first | rfl | exact absurd rfl (hr _).1 | exact absurd rfl (hr _).2
  have h2 : removeCv t = t := by
    cases t <;> first | rfl | exact absurd rfl (hc _)
  refine ⟨?_, h2, h2, rfl, rfl, rfl, rfl⟩
  rw [removeCvref, h1, h2]

/-- A pointer to a constant stays one: only the outermost `const` goes. -/
example : removeCvref (.lref (.const (.ptr (.const (.scalar 0))))) = .ptr (.const (.scalar 0)) := rfl

theorem memTraits_eq (c : Nat) (r : Ty) (as : List Ty) (q : Quals) :
    (q.Plain → memTraits c r as q = some { ret := r, args := as, cls := some c }) ∧
      (¬ q.Plain → memTraits c r as q = none) := by
  obtain ⟨k, v, f, n⟩ := q
  simp only [memTraits, Quals.Plain, Quals.mk.injEq]
  constructor
  · rintro ⟨rfl, rfl, rfl⟩
    cases k <;> simp
  · intro h
    rw [if_neg]
    rintro (⟨-, rfl, rfl, rfl⟩ | ⟨-, rfl, rfl, rfl⟩) <;> exact h ⟨rfl, rfl, rfl⟩

/-- C116: for whatever can be called, `func_traits` gives exactly the return type, the parameters and the
class, if no `volatile`, `&`, `&&` or `noexcept` follows the parameters. With one of those, it does not
compile. -/
theorem C116_func_traits (E : Classes) (F : Ty) (d : Traits) (q : Quals) (h : Callable E F d q) :
    (q.Plain → funcTraits E F = some d) ∧ (¬ q.Plain → funcTraits E F = none) := by
  induction h with
  | fn r as ne => cases ne <;> simp [funcTraits, Quals.Plain, primary]
  | ptr r as ne => cases ne <;> simp [funcTraits, Quals.Plain, primary]
  | mem c r as q => simpa [funcTraits] using memTraits_eq c r as q
  | obj c o h => simpa [funcTraits, primary, callOpTraits, h] using memTraits_eq c o.ret o.args o.q
  | cobj c o h => simpa [funcTraits, primary, callOpTraits, h] using memTraits_eq c o.ret o.args o.q
  | lref t d q _ ih => simpa [funcTraits] using ih
  | rref t d q _ ih => simpa [funcTraits] using ih

theorem memTraits_some {c : Nat} {r : Ty} {as : List Ty} {q : Quals} {d : Traits}
    (h : memTraits c r as q = some d) :
    d = { ret := r, args := as, cls := some c } ∧ q.Plain := by
  by_cases hq : q.Plain
  · rw [(memTraits_eq c r as q).1 hq] at h
    exact ⟨(Option.some.inj h).symm, hq⟩
  · rw [(memTraits_eq c r as q).2 hq] at h
    cases h

theorem callOpTraits_some {E : Classes} {c : Nat} {d : Traits} (h : callOpTraits E c = some d) :
    ∃ o, E c = [some o] ∧ d = { ret := o.ret, args := o.args, cls := some c } ∧ o.q.Plain := by
  unfold callOpTraits at h
  split at h
  · rename_i o ho
    exact ⟨o, ho, memTraits_some h⟩
  · cases h

/-- C116: nothing else has `func_traits`: what compiles is the description of something that can be
called. -/
theorem C116_func_traits_only (E : Classes) (F : Ty) (d : Traits) (h : funcTraits E F = some d) :
    ∃ q, Callable E F d q ∧ q.Plain := by
  induction F using funcTraits.induct with
  | case1 r as => cases h; exact ⟨_, .fn r as false, rfl, rfl, rfl⟩
  | case2 r as => cases h; exact ⟨_, .ptr r as false, rfl, rfl, rfl⟩
  | case3 c r as q =>
    obtain ⟨rfl, hq⟩ := memTraits_some h
    exact ⟨q, .mem c r as q, hq⟩
  | case4 t ih =>
    obtain ⟨q, hc, hq⟩ := ih h
    exact ⟨q, .lref t d q hc, hq⟩
  | case5 t ih =>
    obtain ⟨q, hc, hq⟩ := ih h
    exact ⟨q, .rref t d q hc, hq⟩
  | case6 t h1 h2 h3 h4 h5 =>
    have h : primary E t = some d := by
      rw [← h]
      cases t with
      | fn r as ne => cases ne with | true => rfl | false => exact absurd rfl (h1 _ _)
      | ptr t => cases t with
        | fn r as ne => cases ne with | true => rfl | false => exact absurd rfl (h2 _ _)
        | _ => rfl
      | memfn => exact absurd rfl (h3 _ _ _ _)
      | lref => exact absurd rfl (h4 _)
      | rref => exact absurd rfl (h5 _)
      | _ => rfl
    unfold primary at h
    split at h
    · obtain ⟨o, ho, rfl, hq⟩ := callOpTraits_some h
      exact ⟨_, .obj _ o ho, hq⟩
    · obtain ⟨o, ho, rfl, hq⟩ := callOpTraits_some h
      exact ⟨_, .cobj _ o ho, hq⟩
    · cases h

/-- Class 7 is a lambda `[](int, const char*) -> double`. -/
example : let E : Classes := fun c =>
      if c = 7 then [some ⟨.scalar 2, [.scalar 0, .ptr (.const (.scalar 1))], { const := true }⟩] else []
    (funcTraits E (.rref (.const (.cls 7)))).map Traits.arity = some 2 ∧
      ((funcTraits E (.lref (.cls 7))).bind (·.arg 1)) = some (.ptr (.const (.scalar 1))) ∧
      (funcTraits E (.cls 8)).isNone := ⟨rfl, rfl, rfl⟩

/-- C116, violated in general: the traits are advertised for any function, lambda, functor or member
function, but a `noexcept` lambda, a `noexcept` function, a `&`-qualified member function and a constant
pointer to a function are rejected. -/
theorem C116_func_traits_violated :
    ∃ (E : Classes) (c : Nat) (r : Ty) (as : List Ty),
      (Callable E (.cls c) { ret := r, args := as, cls := some c } { const := true, noexc := true } ∧
        funcTraits E (.cls c) = none) ∧
      funcTraits E (.fn r as true) = none ∧
      funcTraits E (.memfn c r as { ref := .lval }) = none ∧
      funcTraits E (.const (.ptr (.fn r as false))) = none := by
  refine ⟨fun _ => [some ⟨.scalar 0, [], { const := true, noexc := true }⟩], 0, .scalar 0, [],
    ⟨?_, ?_⟩, rfl, ?_, rfl⟩
  · exact Callable.obj 0 ⟨.scalar 0, [], { const := true, noexc := true }⟩ rfl
  · simp [funcTraits, primary, callOpTraits, memTraits]
  · simp [funcTraits, memTraits]

end Verif.Types
