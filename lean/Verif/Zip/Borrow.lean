/-
Which ranges `kl::zipped`, `kl::enumerated` and `kl::range` accept, and what the iterators in their
results refer to (zip.hpp:143-229, range.hpp:9-93).

An expression has a class of types, may be constant, is an lvalue or an rvalue, and has iterators that refer to
objects: to a named one or to a temporary one, which is destroyed at the end of the full expression.  Iterators of
a container or an array refer to it; those of iota ranges hold a number; `kl::range` and `kl::zipped_range` hold
iterators they were given.

Simplified: containers have `iterator`, `const_iterator`, `begin`, `end`, `cbegin` and `cend`; pointers are
not ranges (zip.hpp:37-46); a named object is not destroyed while the result is used.
-/

namespace Verif.Zip

/-- The classes of types: a container of the standard library, an array, `iota_range` (zip.hpp:160-178),
`unbounded_iota_range` (180-197), `kl::range` of constant or other elements (range.hpp:9-81), `zipped_range`
(zip.hpp:143-158), and what is not a range. -/
inductive Cls where
  | container
  | array
  | iota
  | unbounded
  | range (constant : Bool)
  | zipped
  | other
deriving DecidableEq

/-- What iterators refer to. (what `first_` and `last_` refer to, zip.hpp:156-157, range.hpp:79-80) -/
inductive Ref where
  | named (x : Nat)
  | temp
deriving DecidableEq

/-- What an expression is. (the arguments of zip.hpp:209 and range.hpp:32-57) -/
structure Val where
  cls : Cls
  const : Bool
  rvalue : Bool
  refs : List Ref
deriving DecidableEq

/-! ### `kl::range` -/

/-- The deduction guides at range.hpp:83-93 and the copy deduction candidate; the constructors at 32-57 and the
implicit ones. -/
inductive Cand where
  /-- `Container&`: 83-84, 32-37. -/
  | cont
  /-- `const Container&`: 86-87, 39-45. -/
  | constCont
  /-- `ArrayType (&)[N]`: 89-90, 47-51. -/
  | arr
  /-- `const ArrayType (&)[N]`: 92-93, 53-57. -/
  | constArr
  /-- The copy deduction candidate, by value. -/
  | same
  /-- `const range&`, no template. -/
  | copy
  /-- `range&&`, no template. -/
  | move
deriving DecidableEq

/-- `typename Container::iterator` exists. (range.hpp:84, 13) -/
def Cls.hasIterator : Cls → Bool
  | .container | .range _ => true
  | _ => false

/-- `typename Container::const_iterator` exists. (range.hpp:87) -/
def Cls.hasConstIterator : Cls → Bool
  | .container => true
  | _ => false

/-- A `kl::range`. (range.hpp:9-81) -/
def Cls.isRange : Cls → Bool
  | .range _ => true
  | _ => false

/-- The parameter can be bound: `T&` with `T` deduced binds lvalues and constants. (range.hpp:32-57) -/
def Cand.binds (v : Val) : Cand → Bool
  | .cont => !v.rvalue || v.const
  | .constCont => true
  | .arr => v.cls == .array && (!v.rvalue || v.const)
  | .constArr => v.cls == .array
  | .same => v.cls.isRange
  | .copy => v.cls.isRange
  | .move => v.cls.isRange && v.rvalue && !v.const

/-- A guide whose result type does not exist is not a candidate. (range.hpp:83-93) -/
def Cand.deduces (v : Val) : Cand → Bool
  | .cont => v.cls.hasIterator
  | .constCont => v.cls.hasConstIterator
  | _ => true

/-- What kind of reference the parameter is for this argument. (range.hpp:32-57) -/
inductive Bound where
  | value
  | lref
  | cref
  | rref
deriving DecidableEq

/-- [temp.deduct.call]: `T&` with a constant argument is a reference to a constant. (the parameters at range.hpp:32-57) -/
def Cand.bound (v : Val) : Cand → Bound
  | .cont => if v.const then .cref else .lref
  | .constCont => .cref
  | .arr => if v.const then .cref else .lref
  | .constArr => .cref
  | .same => .value
  | .copy => .cref
  | .move => .rref

/-- [over.ics.rank]/3.2: `T&` before `const T&`, for rvalues `T&&` before `const T&`. (for range.hpp:32-57) -/
def Bound.better : Bound → Bound → Bool
  | .lref, .cref => true
  | .rref, .cref => true
  | _, _ => false

/-- Is the constructor a template? (range.hpp:32-57) -/
def Cand.template : Cand → Bool
  | .copy | .move => false
  | _ => true

/-- [temp.func.order]: partial ordering of the templates at range.hpp:32-57 and 83-93. -/
def Cand.moreSpecial : Cand → Cand → Bool
  | .constCont, .cont => true
  | .arr, .cont => true
  | .constArr, .cont => true
  | .constArr, .constCont => true
  | .constArr, .arr => true
  | .same, .cont => true
  | .same, .constCont => true
  | _, _ => false

/-- [over.match.best], for the candidates of range.hpp:32-57 and 83-93. -/
def Cand.better (v : Val) (a b : Cand) : Bool :=
  (a.bound v).better (b.bound v) ||
    (!(b.bound v).better (a.bound v) &&
      ((!a.template && b.template) || (a.template && b.template && a.moreSpecial b)))

/-- The best candidate: better than every other one. (for range.hpp:32-57 and 83-93) -/
def best (v : Val) (cs : List Cand) : Option Cand :=
  cs.find? fun a => cs.all fun b => a == b || a.better v b

/-- Class template argument deduction: `kl::range r{e}`. (range.hpp:83-93) -/
def guide (v : Val) : Option Cand :=
  best v ([Cand.cont, .constCont, .arr, .constArr, .same].filter fun c => c.binds v && c.deduces v)

/-- Are the elements constant through the iterators of the deduced type? (range.hpp:84, 87, 90, 93) -/
def deduced (v : Val) : Cand → Bool
  | .cont => match v.cls with
    | .range c => c
    -- `Container::iterator`, also if `Container` is constant
    | _ => false
  | .constCont => true
  | .arr => v.const
  | .constArr => true
  | _ => match v.cls with
    | .range c => c
    | _ => false

/-- The constructor for an argument. (range.hpp:32-57) -/
def ctor (v : Val) : Option Cand :=
  best v ([Cand.cont, .constCont, .arr, .constArr, .copy, .move].filter (Cand.binds v))

/-- The iterators a constructor takes: are the elements constant through them, and does the constructor compile?
`cbegin` (range.hpp:43) is for containers only. -/
def given (v : Val) : Cand → Option Bool
  | .cont => match v.cls with
    | .container => some v.const
    | .range c => some c
    | _ => none
  | .constCont => match v.cls with
    | .container => some true
    | _ => none
  | .arr => some v.const
  | .constArr => some true
  | _ => match v.cls with
    | .range c => some c
    | _ => none

/-- `kl::range{e}`: constant iterators do not convert to others. (range.hpp:32-57, 83-93) -/
def rangeOf (v : Val) : Option Val :=
  match guide v, ctor v with
  | some g, some c =>
    match given v c with
    | some k => if k && !deduced v g then none else some ⟨.range (deduced v g), false, true, v.refs⟩
    | none => none
  | _, _ => none

/-! ### `kl::zipped` -/

/-- zip.hpp:199-206: `is_borrowed_range<Seqs>`: not for constant types. -/
def borrowed (v : Val) : Bool :=
  (v.cls == .iota || v.cls == .unbounded) && !v.const

/-- `std::begin` and `std::end` can be called. (zip.hpp:147-148) -/
def Cls.iterable : Cls → Bool
  | .other => false
  | _ => true

/-- zip.hpp:211-217: `is_safely_zipped`, for each argument. -/
def safely (v : Val) : Bool := !v.rvalue || borrowed v

/-- zip.hpp:208-219 `zipped`, 143-158 `zipped_range`; at least one argument (50, 73). -/
def zippedOf (vs : List Val) : Option Val :=
  if !vs.isEmpty && vs.all safely && vs.all (·.cls.iterable) then
    some ⟨.zipped, false, true, vs.flatMap (·.refs)⟩
  else none

/-! ### Expressions -/

/-- Expressions of users: a named object, `std::move` of one, a temporary container, temporary iota ranges, and calls. (how users call
zip.hpp:209, 222 and range.hpp:32-57) -/
inductive Expr where
  | var (x : Nat)
  | move (x : Nat)
  | temp (const : Bool)
  | iota (const : Bool)
  | unbounded (const : Bool)
  | range (e : Expr)
  | zipped (es : List Expr)
  | enumerated (e : Expr)

/-- A named object: its type, and what its iterators refer to if it is a view. (what users have) -/
structure Named where
  cls : Cls
  const : Bool
  refs : List Ref

/-- The expression that names an object. (the arguments of zip.hpp:209, range.hpp:32-57) -/
def Named.val (x : Nat) (n : Named) (rvalue : Bool) : Val :=
  ⟨n.cls, n.const, rvalue, match n.cls with
    | .container | .array => [.named x]
    | .iota | .unbounded | .other => []
    | .range _ | .zipped => n.refs⟩

mutual
/-- The value of an expression; `none`: it does not compile. (zip.hpp:208-229, range.hpp) -/
def eval (Γ : Nat → Named) : Expr → Option Val
  | .var x => some ((Γ x).val x false)
  | .move x => some ((Γ x).val x true)
  | .temp c => some ⟨.container, c, true, [.temp]⟩
  | .iota c => some ⟨.iota, c, true, []⟩
  | .unbounded c => some ⟨.unbounded, c, true, []⟩
  | .range e => (eval Γ e).bind rangeOf
  | .zipped es => (evalAll Γ es).bind zippedOf
  -- zip.hpp:221-229: `zipped(unbounded_iota_range<std::size_t>{0U}, std::forward<Seq>(seq))`
  | .enumerated e => (eval Γ e).bind fun v => zippedOf [⟨.unbounded, false, true, []⟩, v]
def evalAll (Γ : Nat → Named) : List Expr → Option (List Val)
  | [] => some []
  | e :: es => (eval Γ e).bind fun v => (evalAll Γ es).map (v :: ·)
end

/-! ### Specification -/

namespace Spec

/-- The objects of the program do not dangle. -/
def Sound (Γ : Nat → Named) : Prop := ∀ x, Ref.temp ∉ (Γ x).refs

/-- Expressions that give a temporary view of a temporary container. -/
inductive Dangling : Expr → Prop where
  | temp : Dangling (.temp c)
  | range : Dangling e → Dangling (.range e)

/-- The elements are seen as constants: those of constant and of temporary containers and arrays. -/
def Val.seenConst (v : Val) : Bool :=
  match v.cls with
  | .range c => c
  | _ => v.const || v.rvalue

end Spec

open Spec

/-! ### Theorems -/

/-- C130: `kl::range{e}` compiles exactly for containers, arrays and ranges; its iterators are the argument's, and its
elements are constant exactly if the argument is constant or temporary (if the argument is a range: exactly if
they are constant there). -/
theorem C130_range (v : Val) :
    rangeOf v = if v.cls = .container ∨ v.cls = .array ∨ v.cls.isRange = true then
      some ⟨.range (Val.seenConst v), false, true, v.refs⟩ else none := by
  obtain ⟨cls, c, r, refs⟩ := v
  rcases cls with _ | _ | _ | _ | c' | _ | _ <;> cases c <;> cases r <;> try cases c'
  all_goals rfl

/-- What an argument of `zipped` must be: something that lives on, or a temporary iota range. -/
def Zippable (v : Val) : Prop :=
  v.cls ≠ .other ∧ (v.rvalue = false ∨ ((v.cls = .iota ∨ v.cls = .unbounded) ∧ v.const = false))

/-- C130: `zipped` compiles exactly if there are arguments and all of them are named ranges or temporary iota ranges; the
result refers to what they refer to. -/
theorem C130_zipped (vs : List Val) (r : Val) :
    zippedOf vs = some r ↔ vs ≠ [] ∧ (∀ v ∈ vs, Zippable v) ∧ r = ⟨.zipped, false, true, vs.flatMap (·.refs)⟩ := by
  have h : ∀ v : Val, (safely v = true ∧ v.cls.iterable = true) ↔ Zippable v := by
    rintro ⟨cls, c, r, refs⟩
    cases cls <;> cases c <;> cases r <;> simp [safely, borrowed, Cls.iterable, Zippable]
  unfold zippedOf
  constructor
  · intro hz
    split at hz
    · rename_i hc
      simp only [Bool.and_eq_true, Bool.not_eq_true', List.isEmpty_eq_false_iff, List.all_eq_true] at hc
      simp only [Option.some.injEq] at hz
      exact ⟨hc.1.1, fun v hv => (h v).mp ⟨hc.1.2 v hv, hc.2 v hv⟩, hz.symm⟩
    · cases hz
  · rintro ⟨h1, h2, rfl⟩
    rw [if_pos]
    simp only [Bool.and_eq_true, Bool.not_eq_true', List.isEmpty_eq_false_iff, List.all_eq_true]
    exact ⟨⟨h1, fun v hv => ((h v).mpr (h2 v hv)).1⟩, fun v hv => ((h v).mpr (h2 v hv)).2⟩

/-- Of the expressions, only names are lvalues. -/
theorem lvalue_var {Γ : Nat → Named} {e : Expr} {v : Val} (h : eval Γ e = some v) (hl : v.rvalue = false) :
    ∃ x, e = .var x := by
  cases e with
  | var x => exact ⟨x, rfl⟩
  | move x => simp only [eval, Option.some.injEq] at h; subst h; cases hl
  | temp c => simp only [eval, Option.some.injEq] at h; subst h; cases hl
  | iota c => simp only [eval, Option.some.injEq] at h; subst h; cases hl
  | unbounded c => simp only [eval, Option.some.injEq] at h; subst h; cases hl
  | range e =>
    simp only [eval, Option.bind_eq_some_iff] at h
    obtain ⟨w, _, h⟩ := h
    rw [C130_range] at h
    split at h
    · simp only [Option.some.injEq] at h; subst h; cases hl
    · cases h
  | zipped es =>
    simp only [eval, Option.bind_eq_some_iff] at h
    obtain ⟨ws, _, h⟩ := h
    obtain ⟨_, _, rfl⟩ := (C130_zipped ws v).mp h
    cases hl
  | enumerated e =>
    simp only [eval, Option.bind_eq_some_iff] at h
    obtain ⟨w, _, h⟩ := h
    obtain ⟨_, _, rfl⟩ := (C130_zipped _ v).mp h
    cases hl

theorem val_sound {Γ : Nat → Named} (hΓ : Sound Γ) (x : Nat) (r : Bool) : Ref.temp ∉ ((Γ x).val x r).refs := by
  unfold Named.val
  simp only
  split <;> simp [hΓ x]

/-- Iterators of iota ranges refer to nothing. -/
theorem iota_refs {Γ : Nat → Named} {e : Expr} {v : Val} (h : eval Γ e = some v)
    (hc : v.cls = .iota ∨ v.cls = .unbounded) : v.refs = [] := by
  cases e with
  | var x =>
    simp only [eval, Option.some.injEq] at h; subst h
    simp only [Named.val] at hc ⊢
    rcases hc with hc | hc <;> rw [hc]
  | move x =>
    simp only [eval, Option.some.injEq] at h; subst h
    simp only [Named.val] at hc ⊢
    rcases hc with hc | hc <;> rw [hc]
  | temp c => simp only [eval, Option.some.injEq] at h; subst h; rcases hc with hc | hc <;> cases hc
  | iota c => simp only [eval, Option.some.injEq] at h; subst h; rfl
  | unbounded c => simp only [eval, Option.some.injEq] at h; subst h; rfl
  | range e =>
    simp only [eval, Option.bind_eq_some_iff] at h
    obtain ⟨w, _, h⟩ := h
    rw [C130_range] at h
    split at h
    · simp only [Option.some.injEq] at h; subst h; rcases hc with hc | hc <;> cases hc
    · cases h
  | zipped es =>
    simp only [eval, Option.bind_eq_some_iff] at h
    obtain ⟨ws, _, h⟩ := h
    obtain ⟨_, _, rfl⟩ := (C130_zipped ws v).mp h
    rcases hc with hc | hc <;> cases hc
  | enumerated e =>
    simp only [eval, Option.bind_eq_some_iff] at h
    obtain ⟨w, _, h⟩ := h
    obtain ⟨_, _, rfl⟩ := (C130_zipped _ v).mp h
    rcases hc with hc | hc <;> cases hc

theorem zippable_sound {Γ : Nat → Named} (hΓ : Sound Γ) {e : Expr} {v : Val} (h : eval Γ e = some v)
    (hz : Zippable v) : Ref.temp ∉ v.refs := by
  rcases hz.2 with hl | ⟨hc, _⟩
  · obtain ⟨x, rfl⟩ := lvalue_var h hl
    simp only [eval, Option.some.injEq] at h; subst h
    exact val_sound hΓ x _
  · rw [iota_refs h hc]; simp

theorem evalAll_sound {Γ : Nat → Named} (hΓ : Sound Γ) : ∀ {es : List Expr} {vs : List Val},
    evalAll Γ es = some vs → (∀ v ∈ vs, Zippable v) → Ref.temp ∉ vs.flatMap (·.refs)
  | [], vs, h, _ => by simp only [evalAll, Option.some.injEq] at h; subst h; simp
  | e :: es, vs, h, hz => by
    simp only [evalAll, Option.bind_eq_some_iff, Option.map_eq_some_iff] at h
    obtain ⟨v, hv, ws, hw, rfl⟩ := h
    have h1 := zippable_sound hΓ hv (hz v (by simp))
    have h2 := evalAll_sound hΓ hw (fun w hw => hz w (by simp [hw]))
    simp only [List.flatMap_cons, List.mem_append]
    rintro (h | h)
    · exact h1 h
    · exact h2 h

/-- C130: an expression whose iterators refer to a temporary object is a temporary container or a `kl::range` of one, and
nothing else: what `zipped` and `enumerated` give never refers to a temporary object, whatever they are applied to. -/
theorem C130_dangling (Γ : Nat → Named) (hΓ : Sound Γ) : ∀ (e : Expr) (v : Val), eval Γ e = some v →
    (Ref.temp ∈ v.refs ↔ Dangling e)
  | .var x, v, h => by
    simp only [eval, Option.some.injEq] at h; subst h
    exact ⟨fun h => absurd h (val_sound hΓ x _), nofun⟩
  | .move x, v, h => by
    simp only [eval, Option.some.injEq] at h; subst h
    exact ⟨fun h => absurd h (val_sound hΓ x _), nofun⟩
  | .temp c, v, h => by
    simp only [eval, Option.some.injEq] at h; subst h
    exact ⟨fun _ => .temp, fun _ => by simp⟩
  | .iota c, v, h => by simp only [eval, Option.some.injEq] at h; subst h; exact ⟨nofun, nofun⟩
  | .unbounded c, v, h => by simp only [eval, Option.some.injEq] at h; subst h; exact ⟨nofun, nofun⟩
  | .range e, v, h => by
    simp only [eval, Option.bind_eq_some_iff] at h
    obtain ⟨w, hw, h⟩ := h
    rw [C130_range] at h
    split at h
    · simp only [Option.some.injEq] at h; subst h
      exact (C130_dangling Γ hΓ e w hw).trans ⟨.range, fun h => by cases h; assumption⟩
    · cases h
  | .zipped es, v, h => by
    simp only [eval, Option.bind_eq_some_iff] at h
    obtain ⟨ws, hw, h⟩ := h
    obtain ⟨_, hz, rfl⟩ := (C130_zipped ws v).mp h
    exact ⟨fun h => absurd h (evalAll_sound hΓ hw hz), nofun⟩
  | .enumerated e, v, h => by
    simp only [eval, Option.bind_eq_some_iff] at h
    obtain ⟨w, hw, h⟩ := h
    obtain ⟨_, hz, rfl⟩ := (C130_zipped _ v).mp h
    refine ⟨fun h => ?_, nofun⟩
    have := zippable_sound hΓ hw (hz w (by simp))
    simp at h
    exact absurd h this

/-! ### Cases -/

/-- 0: a vector, 1: a constant vector, 2: an array, 3: a `kl::range` of the vector, 4: an iota range, 5: a
`zipped_range` of the vector and the array, 6: an `int`. -/
def names : Nat → Named
  | 0 => ⟨.container, false, []⟩
  | 1 => ⟨.container, true, []⟩
  | 2 => ⟨.array, false, []⟩
  | 3 => ⟨.range false, false, [.named 0]⟩
  | 4 => ⟨.iota, true, []⟩
  | 5 => ⟨.zipped, false, [.named 0, .named 2]⟩
  | _ => ⟨.other, false, []⟩

example : Sound names := by
  intro x
  match x with
  | 0 | 1 | 2 | 3 | 4 | 5 => decide
  | _ + 6 => exact nofun

/- `kl::zipped(kl::iota_range{0, 9}, v, cv, arr, r)` -/
example : (eval names (.zipped [.iota false, .var 0, .var 1, .var 2, .var 3])).map (·.refs) =
    some [.named 0, .named 1, .named 2, .named 0] := by decide
/- `kl::enumerated(z)` of a named `zipped_range` -/
example : (eval names (.enumerated (.var 5))).map (·.refs) = some [.named 0, .named 2] := by decide
/- `kl::enumerated(std::vector<int>{})`, `kl::zipped()` and `kl::zipped(1)` do not compile. -/
example : eval names (.enumerated (.temp false)) = none ∧ eval names (.zipped []) = none ∧
    eval names (.zipped [.var 6]) = none := by decide
/- `kl::range{v}`, `kl::range{cv}`, `kl::range{arr}`, `kl::range{r}`, `kl::range{kl::range{cv}}` -/
example : (eval names (.range (.var 0))).map (·.cls) = some (.range false) ∧
    (eval names (.range (.var 1))).map (·.cls) = some (.range true) ∧
    (eval names (.range (.var 2))).map (·.cls) = some (.range false) ∧
    (eval names (.range (.var 3))).map (·.cls) = some (.range false) ∧
    (eval names (.range (.range (.var 1)))).map (·.cls) = some (.range true) := by decide

/-- C130, violated: `kl::range{std::vector<int>{1, 2}}` compiles and refers to the destroyed vector. -/
theorem C130_range_violated : ∃ (e : Expr) (v : Val), Sound names ∧ eval names (.range e) = some v ∧ Ref.temp ∈ v.refs :=
  ⟨.temp false, ⟨.range true, false, true, [.temp]⟩, by
    intro x
    match x with
    | 0 | 1 | 2 | 3 | 4 | 5 => decide
    | _ + 6 => exact nofun, by decide, by decide⟩

/-- C130, violated: expressions that refer to named objects only are refused if they are temporary: `kl::range` and
`zipped_range` are not marked as borrowed, and neither are constant iota ranges. -/
theorem C130_refused_violated : eval names (.zipped [.range (.var 0)]) = none ∧
    eval names (.enumerated (.zipped [.var 0, .var 2])) = none ∧ eval names (.zipped [.iota true]) = none ∧
    ∀ e ∈ [Expr.range (.var 0), .zipped [.var 0, .var 2], .iota true], ∃ v, eval names e = some v ∧ Ref.temp ∉ v.refs := by
  refine ⟨by decide, by decide, by decide, ?_⟩
  intro e he
  simp only [List.mem_cons, List.not_mem_nil, or_false] at he
  rcases he with rfl | rfl | rfl
  · exact ⟨⟨.range false, false, true, [.named 0]⟩, by decide, by decide⟩
  · exact ⟨⟨.zipped, false, true, [.named 0, .named 2]⟩, by decide, by decide⟩
  · exact ⟨⟨.iota, true, true, []⟩, by decide, by decide⟩

end Verif.Zip
