import Verif.Overload.Match

/-!
C117: which handler `match` runs.
-/

namespace Verif.Overload

variable {V R : Type}

/-! ### Spec -/

/-- The handler takes the type `t` itself, in a way that an lvalue of it, constant if `k`, can be passed. -/
def Names (t : Nat) (k : Bool) (p : Param) : Prop :=
  p = .value t ∨ p = .cref t ∨ (p = .lref t ∧ k = false)

/-- The parameter binds a reference to a non-constant object whatever the object's type is. -/
def Grabs (p : Param) : Prop := p = .anyLref ∨ p = .anyRref

/-- Handlers of one `match` before and after `h`. -/
def Others (hs : List (Handler V R)) (h : Handler V R) (others : List (Handler V R)) : Prop :=
  ∃ l₁ l₂, hs = l₁ ++ h :: l₂ ∧ others = l₁ ++ l₂

/-- `h` is a handler that accepts an lvalue of type `t`, and no other one is as good. -/
def Chosen (W : World) (t : Nat) (k : Bool) (hs : List (Handler V R)) (h : Handler V R) : Prop :=
  ∃ others, Others hs h others ∧ ∃ s, ics W t k h.param = some s ∧
    ∀ g ∈ others, ∀ s', ics W t k g.param = some s' → Viable.better ⟨h, s⟩ ⟨g, s'⟩ = true

/-! ### Lemmas -/

theorem icsBetter_asymm {a b : Ics} (h : icsBetter a b = true) : icsBetter b a = false := by
  obtain ⟨ra, ta, da, ba⟩ := a
  obtain ⟨rb, tb, db, bb⟩ := b
  simp only [icsBetter, Bool.or_eq_true, Bool.and_eq_true, decide_eq_true_eq] at h
  simp only [icsBetter, Bool.or_eq_false_iff, Bool.and_eq_false_iff, decide_eq_false_iff_not]
  rcases h with h | ⟨rfl, h | ⟨⟨rfl, rfl⟩, h⟩⟩
  · exact ⟨by omega, Or.inl (by omega)⟩
  · refine ⟨by omega, Or.inr ⟨?_, Or.inl (Or.inl ?_)⟩⟩
    · cases da <;> cases db <;> simp_all [depthBetter]; omega
    · rintro rfl
      cases db <;> simp [depthBetter] at h
  · refine ⟨by omega, Or.inr ⟨?_, Or.inr ?_⟩⟩
    · cases da <;> simp [depthBetter]
    · rcases ba with _ | ba <;> rcases bb with _ | bb <;> try (simp [bindBetter] at h)
      cases ba <;> cases bb <;> simp_all [bindBetter]

theorem moreSpecial_asymm {p q : Param} (h : p.moreSpecial q = true) :
    q.moreSpecial p = false ∧ p.generic = true ∧ q.generic = true := by
  cases p <;> cases q <;> simp_all [Param.moreSpecial, Param.generic]

theorem better_asymm (a b : Viable V R) (h : a.better b = true) : b.better a = false := by
  simp only [Viable.better, Bool.and_eq_true, Bool.not_eq_true', Bool.or_eq_true] at h
  obtain ⟨⟨h1, h2⟩, h⟩ := h
  simp only [Viable.better, Bool.and_eq_false_iff, Bool.or_eq_false_iff, Bool.not_eq_false']
  rcases h with ((h | h) | ⟨h3, h4⟩) | h
  · exact Or.inl (Or.inl h)
  · exact Or.inl (Or.inr h)
  · refine Or.inr ⟨⟨⟨h1, h2⟩, Or.inl h4⟩, ?_⟩
    cases hm : b.h.param.moreSpecial a.h.param
    · rfl
    · have := (moreSpecial_asymm hm).2.2
      rw [h3] at this
      cases this
  · have := moreSpecial_asymm h
    exact Or.inr ⟨⟨⟨h1, h2⟩, Or.inl this.2.2⟩, this.1⟩

theorem viable_append (W : World) (t : Nat) (k : Bool) (l₁ l₂ : List (Handler V R)) :
    viable W t k (l₁ ++ l₂) = viable W t k l₁ ++ viable W t k l₂ := by
  simp [viable]

theorem mem_viable {W : World} {t : Nat} {k : Bool} {hs : List (Handler V R)} {x : Viable V R} :
    x ∈ viable W t k hs ↔ x.h ∈ hs ∧ ics W t k x.h.param = some x.s := by
  obtain ⟨h, s⟩ := x
  simp only [viable, List.mem_filterMap, Option.map_eq_some_iff]
  constructor
  · rintro ⟨g, hg, s', hs', e⟩
    cases e
    exact ⟨hg, hs'⟩
  · rintro ⟨hg, hs'⟩
    exact ⟨h, hg, s, hs', rfl⟩

theorem viable_split {W : World} {t : Nat} {k : Bool} {hs : List (Handler V R)}
    {v₁ v₂ : List (Viable V R)} {x : Viable V R} (h : viable W t k hs = v₁ ++ x :: v₂) :
    ∃ l₁ l₂, hs = l₁ ++ x.h :: l₂ ∧ viable W t k l₁ = v₁ ∧ viable W t k l₂ = v₂ ∧
      ics W t k x.h.param = some x.s := by
  induction hs generalizing v₁ with
  | nil => cases v₁ <;> simp [viable] at h
  | cons g hs ih =>
    cases hg : ics W t k g.param with
    | none =>
      have e : viable W t k (g :: hs) = viable W t k hs := by simp [viable, hg]
      rw [e] at h
      obtain ⟨l₁, l₂, rfl, h1, h2, h3⟩ := ih h
      exact ⟨g :: l₁, l₂, rfl, by rw [← h1]; simp [viable, hg], h2, h3⟩
    | some s =>
      have e : viable W t k (g :: hs) = ⟨g, s⟩ :: viable W t k hs := by simp [viable, hg]
      rw [e] at h
      cases v₁ with
      | nil =>
        simp only [List.nil_append, List.cons.injEq] at h
        obtain ⟨rfl, h⟩ := h
        exact ⟨[], hs, rfl, rfl, h, hg⟩
      | cons y v₁ =>
        simp only [List.cons_append, List.cons.injEq] at h
        obtain ⟨rfl, h⟩ := h
        obtain ⟨l₁, l₂, rfl, h1, h2, h3⟩ := ih h
        exact ⟨g :: l₁, l₂, rfl, by rw [← h1]; simp [viable, hg], h2, h3⟩

theorem select_iff (W : World) (t : Nat) (k : Bool) (hs : List (Handler V R)) (h : Handler V R) :
    select W t k hs = some h ↔ Chosen W t k hs h := by
  constructor
  · intro hh
    simp only [select, Option.map_eq_some_iff] at hh
    obtain ⟨x, hx, rfl⟩ := hh
    obtain ⟨v₁, v₂, e, hb⟩ := (best_iff better_asymm _ _).1 hx
    obtain ⟨l₁, l₂, rfl, rfl, rfl, hs⟩ := viable_split e
    refine ⟨l₁ ++ l₂, ⟨l₁, l₂, rfl, rfl⟩, x.s, hs, fun g hg s' hs' => ?_⟩
    apply hb ⟨g, s'⟩
    rw [← viable_append]
    exact mem_viable.2 ⟨hg, hs'⟩
  · rintro ⟨_, ⟨l₁, l₂, rfl, rfl⟩, s, hs, hb⟩
    have hx : best Viable.better (viable W t k (l₁ ++ h :: l₂)) = some ⟨h, s⟩ := by
      apply (best_iff better_asymm _ _).2
      refine ⟨viable W t k l₁, viable W t k l₂, ?_, ?_⟩
      · rw [viable_append]
        simp [viable, hs]
      · intro b hbm
        rw [← viable_append] at hbm
        obtain ⟨h1, h2⟩ := mem_viable.1 hbm
        exact hb b.h h1 b.s h2
    simp [select, hx]

/-- The sequence for the type itself is exact. -/
theorem ics_names {W : World} {t : Nat} {k : Bool} {p : Param} (h : Names t k p) :
    ∃ b, ics W t k p = some ⟨0, t, none, b⟩ ∧
      (b = some .clval → p = .cref t) ∧ (b ≠ some .clval → p ≠ .cref t) := by
  rcases h with rfl | rfl | ⟨rfl, rfl⟩
  · exact ⟨none, by simp [ics], by simp, by simp⟩
  · exact ⟨some .clval, by simp [ics], by simp, by simp⟩
  · exact ⟨some .lval, by simp [ics], by simp, by simp⟩

/-- A parameter that is neither generic nor of the type itself needs a conversion. -/
theorem ics_rank {W : World} {t : Nat} {k : Bool} {p : Param} {s : Ics} (h : ics W t k p = some s)
    (hn : ¬ Names t k p) (hg : p.generic = false) : 0 < s.rank := by
  cases p with
  | value u =>
    simp only [ics] at h
    split at h
    · rename_i e; subst e; exact absurd (Or.inl rfl) hn
    · simp only [Option.map_eq_some_iff] at h
      obtain ⟨c, -, rfl⟩ := h
      cases c <;> simp [Conv.rank]
  | cref u =>
    simp only [ics] at h
    split at h
    · rename_i e; subst e; exact absurd (Or.inr (Or.inl rfl)) hn
    · simp only [Option.map_eq_some_iff] at h
      obtain ⟨c, -, rfl⟩ := h
      cases c <;> simp [Conv.rank]
  | lref u =>
    simp only [ics] at h
    split at h
    · cases h
    · split at h
      · rename_i hk e; subst e
        exact absurd (Or.inr (Or.inr ⟨rfl, by simpa using hk⟩)) hn
      · split at h
        · cases h; simp
        · cases h
  | rref u =>
    simp only [ics] at h
    split at h
    · cases h
    · split at h <;> cases h <;> simp
  | anyValue => simp [Param.generic] at hg
  | anyCref => simp [Param.generic] at hg
  | anyLref => simp [Param.generic] at hg
  | anyRref => simp [Param.generic] at hg

theorem ics_generic {W : World} {t : Nat} {k : Bool} {p : Param} (hg : p.generic = true) :
    ∃ b, ics W t k p = some ⟨0, t, none, b⟩ ∧ b ≠ some .rval ∧
      (b = some .lval → Grabs p ∧ k = false) := by
  cases p with
  | anyValue => exact ⟨none, rfl, by simp, by simp⟩
  | anyCref => exact ⟨some .clval, rfl, by simp, by simp⟩
  | anyLref => cases k <;> exact ⟨_, rfl, by simp, by simp [Grabs]⟩
  | anyRref => cases k <;> exact ⟨_, rfl, by simp, by simp [Grabs]⟩
  | _ => simp [Param.generic] at hg

theorem bindBetter_names {b b' : Option Bind} (h : bindBetter b' b = true) :
    b = some .clval ∧ b' ≠ some .clval ∧ (b' = some .lval ∨ b' = some .rval) := by
  rcases b with _ | b <;> rcases b' with _ | b' <;> try (simp [bindBetter] at h)
  cases b <;> cases b' <;> simp_all

/-! ### Theorems -/

/-- C117: `match` compiles exactly if for every alternative one handler accepts it and is better than the
others, that call compiles, and all calls return one type. Then it runs that handler on the value, and only
that; a valueless variant raises `bad_variant_access`. -/
theorem C117_runs (W : World) (v : Variant V) (k : Bool) (hs : List (Handler V R))
    (hne : v.alts ≠ []) :
    ((∃ r, ∀ t ∈ v.alts, ∃ h, Chosen W t k hs h ∧ callCompiles W t h = true ∧ h.ret t = r) →
      (v.state = none → runMatch W v k hs = .badAccess) ∧
      (∀ i x t h, v.state = some (i, x) → v.alts[i]? = some t → Chosen W t k hs h →
        runMatch W v k hs = .value (h.run x))) ∧
    ((¬ ∃ r, ∀ t ∈ v.alts, ∃ h, Chosen W t k hs h ∧ callCompiles W t h = true ∧ h.ret t = r) →
      runMatch W v k hs = .illFormed) := by
  have key : compiles W v.alts k hs = true ↔
      ∃ r, ∀ t ∈ v.alts, ∃ h, Chosen W t k hs h ∧ callCompiles W t h = true ∧ h.ret t = r := by
    have halt : ∀ r t, altCompiles W k hs r t = true ↔
        ∃ h, Chosen W t k hs h ∧ callCompiles W t h = true ∧ h.ret t = r := by
      intro r t
      unfold altCompiles
      cases hsel : select W t k hs with
      | none =>
        constructor
        · intro h; cases h
        · rintro ⟨h, hc, -⟩
          rw [← select_iff, hsel] at hc
          cases hc
      | some h =>
        simp only [Bool.and_eq_true, decide_eq_true_eq]
        constructor
        · rintro ⟨h1, h2⟩
          exact ⟨h, (select_iff ..).1 hsel, h1, h2⟩
        · rintro ⟨h', hc, h1, h2⟩
          rw [← select_iff, hsel] at hc
          cases hc
          exact ⟨h1, h2⟩
    cases ha : v.alts with
    | nil => exact absurd ha hne
    | cons t ts =>
      simp only [compiles]
      constructor
      · intro h
        split at h
        · cases h
        · rename_i h' _
          exact ⟨h'.ret t, fun u hu => (halt _ u).1 (List.all_eq_true.1 h u hu)⟩
      · rintro ⟨r, h⟩
        obtain ⟨h', hc, h1, h2⟩ := h t (by simp)
        rw [(select_iff ..).2 hc]
        simp only [h2]
        exact List.all_eq_true.2 fun u hu => (halt _ u).2 (h u hu)
  constructor
  · intro hc
    have hc := key.2 hc
    refine ⟨fun hs' => by simp [runMatch, hc, hs'], fun i x t h hst ht hch => ?_⟩
    rw [← select_iff] at hch
    simp [runMatch, hc, hst, ht, hch]
  · intro hc
    rw [← key] at hc
    simp [runMatch, hc]

/-- C117: a handler that takes the type of the alternative itself is the one that runs, whatever other
handlers there are and whatever the alternative converts to: if no other handler takes that type too, if the
others are not `mutable` unless it is, and if, taking `const T&`, it does not compete with `auto&` or
`auto&&` for a non-constant variant. -/
theorem C117_named (W : World) (t : Nat) (k : Bool) (hs : List (Handler V R)) (h : Handler V R)
    (others : List (Handler V R)) (ho : Others hs h others) (hn : Names t k h.param)
    (huniq : ∀ g ∈ others, ¬ Names t k g.param)
    (hmut : h.mutbl = true ∨ ∀ g ∈ others, g.mutbl = false)
    (hgrab : k = true ∨ h.param ≠ .cref t ∨ ∀ g ∈ others, ¬ Grabs g.param) :
    select W t k hs = some h := by
  rw [select_iff]
  obtain ⟨b, hb, hb1, hb2⟩ := ics_names (W := W) hn
  refine ⟨others, ho, _, hb, fun g hg s' hs' => ?_⟩
  have hgen : h.param.generic = false := by
    rcases hn with e | e | ⟨e, -⟩ <;> rw [e] <;> rfl
  have hobj : objBetter (⟨g, s'⟩ : Viable V R) ⟨h, ⟨0, t, none, b⟩⟩ = false := by
    rcases hmut with hm | hm
    · simp [objBetter, hm]
    · simp [objBetter, hm g hg]
  cases hgg : g.param.generic with
  | false =>
    have hr := ics_rank hs' (huniq g hg) hgg
    have h1 : icsBetter ⟨0, t, none, b⟩ s' = true := by simp [icsBetter, hr]
    simp [Viable.better, icsBetter_asymm h1, hobj, h1]
  | true =>
    obtain ⟨b', hb', hb'1, hb'2⟩ := ics_generic (W := W) (t := t) (k := k) hgg
    rw [hs'] at hb'
    cases hb'
    have h1 : icsBetter ⟨0, t, none, b'⟩ ⟨0, t, none, b⟩ = false := by
      have : bindBetter b' b = false := by
        cases hbb : bindBetter b' b
        · rfl
        · obtain ⟨rfl, -, e⟩ := bindBetter_names hbb
          rcases e with rfl | rfl
          · obtain ⟨hgr, hk⟩ := hb'2 rfl
            rcases hgrab with hk' | hc | hc
            · rw [hk] at hk'; cases hk'
            · exact absurd (hb1 rfl) hc
            · exact absurd hgr (hc g hg)
          · exact absurd rfl hb'1
      simp [icsBetter, depthBetter, this]
    simp [Viable.better, h1, hobj, hgen, hgg]

/-- C117: an alternative whose type no handler takes goes to the only generic handler, even if it converts
to what other handlers take. -/
theorem C117_generic (W : World) (t : Nat) (k : Bool) (hs : List (Handler V R)) (h : Handler V R)
    (others : List (Handler V R)) (ho : Others hs h others) (hg : h.param.generic = true)
    (huniq : ∀ g ∈ others, ¬ Names t k g.param ∧ g.param.generic = false)
    (hmut : h.mutbl = true ∨ ∀ g ∈ others, g.mutbl = false) :
    select W t k hs = some h := by
  rw [select_iff]
  obtain ⟨b, hb, -⟩ := ics_generic (W := W) (t := t) (k := k) hg
  refine ⟨others, ho, _, hb, fun g hgm s' hs' => ?_⟩
  have hr := ics_rank hs' (huniq g hgm).1 (huniq g hgm).2
  have h1 : icsBetter ⟨0, t, none, b⟩ s' = true := by simp [icsBetter, hr]
  have hobj : objBetter (⟨g, s'⟩ : Viable V R) ⟨h, ⟨0, t, none, b⟩⟩ = false := by
    rcases hmut with hm | hm
    · simp [objBetter, hm]
    · simp [objBetter, hm g hgm]
  simp [Viable.better, icsBetter_asymm h1, hobj, h1]

theorem Chosen.perm {W : World} {t : Nat} {k : Bool} {hs hs' : List (Handler V R)} {h : Handler V R}
    (hp : hs.Perm hs') (hc : Chosen W t k hs h) : Chosen W t k hs' h := by
  obtain ⟨_, ⟨l₁, l₂, rfl, rfl⟩, s, hs, hb⟩ := hc
  obtain ⟨m₁, m₂, rfl⟩ := List.append_of_mem (hp.subset (by simp : h ∈ l₁ ++ h :: l₂))
  refine ⟨m₁ ++ m₂, ⟨m₁, m₂, rfl, rfl⟩, s, hs, fun g hg => hb g ?_⟩
  have hp' : (l₁ ++ l₂).Perm (m₁ ++ m₂) := by
    apply List.Perm.cons_inv (a := h)
    exact (List.perm_middle.symm.trans hp).trans List.perm_middle
  exact hp'.symm.subset hg

/-- C117: the order in which the handlers are given does not matter. -/
theorem C117_order (W : World) (t : Nat) (k : Bool) (hs hs' : List (Handler V R))
    (hp : hs.Perm hs') : select W t k hs = select W t k hs' := by
  cases h : select W t k hs with
  | some h' =>
    rw [select_iff] at h
    exact ((select_iff ..).2 (h.perm hp)).symm
  | none =>
    cases h' : select W t k hs' with
    | none => rfl
    | some g =>
      rw [select_iff] at h'
      rw [(select_iff ..).2 (h'.perm hp.symm)] at h
      cases h

/-- C117: what is selected is one of the handlers and accepts the alternative; through a constant variant no
handler gets a reference to a non-constant object, and no handler for `T&&` gets an alternative of type `T`
or of a class derived from `T`. -/
theorem C117_accepts (W : World) (t : Nat) (k : Bool) (hs : List (Handler V R)) (h : Handler V R)
    (hsel : select W t k hs = some h) :
    h ∈ hs ∧ (∃ s, ics W t k h.param = some s) ∧
      (k = true → ∀ u, h.param ≠ .lref u) ∧
      (∀ u, h.param = .rref u → u ≠ t ∧ ∃ c, W.conv t u = some c ∧ ∀ d, c ≠ .base d) := by
  rw [select_iff] at hsel
  obtain ⟨_, ⟨l₁, l₂, rfl, rfl⟩, s, hs, -⟩ := hsel
  refine ⟨by simp, ⟨s, hs⟩, ?_, ?_⟩
  · rintro rfl u hu
    rw [hu] at hs
    simp [ics] at hs
  · intro u hu
    rw [hu] at hs
    simp only [ics] at hs
    split at hs
    · cases hs
    · rename_i hne
      refine ⟨hne, ?_⟩
      split at hs
      · rename_i e; exact ⟨_, e, by simp⟩
      · rename_i e; exact ⟨_, e, by simp⟩
      · rename_i e; exact ⟨_, e, by simp⟩
      · cases hs

/-- C117: a function wrapped by `func_overload` is selected as a lambda with the same parameter would be,
and the call of it compiles, unless it takes `T&&` or by value what cannot be copied. -/
theorem C117_func_overload (W : World) (t : Nat) (k : Bool) (hs : List (Handler V R)) (a : FnArg)
    (ret : Nat) (run : V → R) (others : List (Handler V R))
    (ho : Others hs (funcOverload W a ret run) others)
    (hn : a = .value t ∨ a = .cref t ∨ (a = .lref t ∧ k = false))
    (huniq : ∀ g ∈ others, ¬ Names t k g.param) (hmut : ∀ g ∈ others, g.mutbl = false)
    (hgrab : k = true ∨ a = .lref t ∨ ∀ g ∈ others, ¬ Grabs g.param) :
    select W t k hs = some (funcOverload W a ret run) ∧
      (a = .value t → callCompiles W t (funcOverload W a ret run : Handler V R) = W.copyable t) ∧
      (a ≠ .value t → callCompiles W t (funcOverload W a ret run : Handler V R) = true) := by
  refine ⟨C117_named W t k hs _ others ho ?_ huniq (Or.inr hmut) ?_, ?_, ?_⟩
  · rcases hn with rfl | rfl | ⟨rfl, rfl⟩
    · exact Or.inr (Or.inl rfl)
    · exact Or.inr (Or.inl rfl)
    · exact Or.inr (Or.inr ⟨rfl, rfl⟩)
  · rcases hgrab with h | rfl | h
    · exact Or.inl h
    · exact Or.inr (Or.inl (by simp [funcOverload, FnArg.forwardArg]))
    · exact Or.inr (Or.inr h)
  · rintro rfl
    simp [callCompiles, funcOverload, FnArg.body, FnArg.forwardArg]
  · intro hne
    rcases hn with rfl | rfl | ⟨rfl, rfl⟩
    · exact absurd rfl hne
    · simp [callCompiles, funcOverload, FnArg.body, FnArg.forwardArg]
    · simp [callCompiles, funcOverload, FnArg.body, FnArg.forwardArg]

/-- C117: a wrapped function does not get in the way: beside wrapped functions and handlers that are not
`mutable`, none of which takes the alternative's own type, a handler that does is selected. -/
theorem C117_beside_functions (W : World) (t : Nat) (k : Bool) (hs : List (Handler V R))
    (h : Handler V R) (others : List (Handler V R)) (ho : Others hs h others) (hn : Names t k h.param)
    (hother : ∀ g ∈ others, (g.mutbl = false ∧ ¬ Names t k g.param ∧ ¬ Grabs g.param) ∨
      ∃ a ret run, g = funcOverload W a ret run ∧
        a ≠ .value t ∧ a ≠ .cref t ∧ (a ≠ .lref t ∨ k = true)) :
    select W t k hs = some h := by
  have hf : ∀ g ∈ others, g.mutbl = false ∧ ¬ Names t k g.param ∧ ¬ Grabs g.param := by
    intro g hg
    rcases hother g hg with h | ⟨a, ret, run, rfl, h1, h2, h3⟩
    · exact h
    · refine ⟨rfl, ?_, ?_⟩
      · clear hother hn
        cases a <;> simp_all [Names, funcOverload, FnArg.forwardArg]
        rintro rfl
        simpa using h3
      · cases a <;> simp [Grabs, funcOverload, FnArg.forwardArg]
  exact C117_named W t k hs h others ho hn (fun g hg => (hf g hg).2.1)
    (Or.inr fun g hg => (hf g hg).1) (Or.inr (Or.inr fun g hg => (hf g hg).2.2))

/-! ### Examples -/

/-- `bool` is 0, `int` 1, `double` 2, `std::string` 3, `Base` 4, `Derived` 5, `std::unique_ptr` 6. -/
def world : World where
  conv t u :=
    if t = 0 ∧ u = 1 then some .promotion
    else if t ≤ 2 ∧ u ≤ 2 ∧ t ≠ u then some .conversion
    else if t = 5 ∧ u = 4 then some (.base 0)
    else none
  copyable t := t != 6

/-- A handler that reports its number. -/
def handler (n : Nat) (p : Param) (m : Bool := false) : Handler Nat (Nat × Nat) :=
  { param := p, mutbl := m, ret := fun _ => 0, run := fun x => (n, x) }

/-- The number of the handler that runs. -/
def Result.summary : Result (Nat × Nat) → Option (Option (Nat × Nat))
  | .illFormed => none
  | .badAccess => some none
  | .value p => some (some p)

/-- `std::variant<bool, int, std::string, Derived>` and handlers for `double`, `int`, `const Base&`, the
rest: `bool` goes to the generic handler although it converts to `double` and `int`, and so does
`Derived`. -/
example : (([0, 1, 2, 3] : List Nat).map fun i =>
      (runMatch world ⟨[0, 1, 3, 5], some (i, 7)⟩ true
        [handler 0 (.value 2), handler 1 (.cref 1), handler 2 (.cref 4), handler 3 .anyCref]).summary) =
    [some (some (3, 7)), some (some (1, 7)), some (some (3, 7)), some (some (3, 7))] := by decide

/-- Without the generic handler, `bool` is promoted, `Derived` is a `Base`, a valueless variant throws. -/
example : (([some (0, 7), some (1, 8), none] : List (Option (Nat × Nat))).map fun s =>
      (runMatch world ⟨[0, 5], s⟩ false
        [handler 0 (.value 2), handler 1 (.value 1), handler 2 (.lref 4)]).summary) =
    [some (some (1, 7)), some (some (2, 8)), some none] := by decide

/-- Without a handler for an alternative, or with two for it, `match` does not compile. -/
example : (runMatch world ⟨[1, 3], some (0, 7)⟩ false [handler 0 (.value 1)]).summary = none ∧
    (runMatch world ⟨[1], some (0, 7)⟩ false [handler 0 (.value 1), handler 1 (.cref 1)]).summary = none :=
  by decide

/-- The hypotheses of `C117_func_overload` for `double f(std::string)` among lambdas. -/
example : select world 3 false
    [handler 0 (.value 1), funcOverload world (.value 3) 0 (fun x => (1, x)), handler 2 .anyCref] =
      some (funcOverload world (.value 3) 0 (fun x => (1, x))) :=
  (C117_func_overload world 3 false _ (.value 3) 0 (fun x => (1, x)) [handler 0 (.value 1), handler 2 .anyCref]
    ⟨[handler 0 (.value 1)], [handler 2 .anyCref], rfl, rfl⟩ (Or.inl rfl)
    (by simp [handler, Names]) (by simp [handler]) (Or.inr (Or.inr (by simp [handler, Grabs])))).1

/-- `int` goes to the lambda for `int` although `void f(double)` would take it. -/
example : (runMatch world ⟨[1, 2], some (0, 7)⟩ false
      [handler 0 (.value 1), funcOverload world (.value 2) 0 (fun x => (1, x))]).summary =
    some (some (0, 7)) := by decide

/-! ### What does not hold -/

/-- C117, violated without the assumption on `mutable`: handlers for `int` and, `mutable`, for `double` are
ambiguous for an `int`, although one of them takes exactly that; with both or neither `mutable` they are
not. -/
theorem C117_mutable_violated :
    (runMatch world ⟨[1], some (0, 7)⟩ false [handler 0 (.value 1), handler 1 (.value 2) true]).summary = none ∧
    (runMatch world ⟨[1], some (0, 7)⟩ false [handler 0 (.value 1), handler 1 (.value 2)]).summary =
      some (some (0, 7)) ∧
    (runMatch world ⟨[1], some (0, 7)⟩ false
      [handler 0 (.value 1) true, handler 1 (.value 2) true]).summary = some (some (0, 7)) := by decide

/-- C117, violated without the assumption on generic handlers: `auto&&` takes what `const std::string&` was
meant for if the variant is not constant. -/
theorem C117_generic_violated :
    (runMatch world ⟨[3], some (0, 7)⟩ false [handler 0 (.cref 3), handler 1 .anyRref]).summary =
      some (some (1, 7)) ∧
    (runMatch world ⟨[3], some (0, 7)⟩ true [handler 0 (.cref 3), handler 1 .anyRref]).summary =
      some (some (0, 7)) := by decide

/-- C117, violated: a temporary variant is not handed on as one. `match(std::move(v), ...)` does not compile
with a handler for `std::string&&`, nor, for what cannot be copied, with one that takes it by value. -/
theorem C117_moved_violated (k : Bool) (run : Nat → Nat × Nat) :
    (runMatch world ⟨[3], some (0, 7)⟩ k [handler 0 (.rref 3)]).summary = none ∧
    (runMatch world ⟨[6], some (0, 7)⟩ k [handler 0 (.value 6)]).summary = none ∧
    (runMatch world ⟨[6], some (0, 7)⟩ k [handler 0 .anyValue]).summary = none ∧
    (runMatch world ⟨[6], some (0, 7)⟩ k [handler 0 (.cref 6)]).summary = some (some (0, 7)) ∧
    (runMatch world ⟨[1], some (0, 7)⟩ k [funcOverload world (.rref 2) 0 run]).summary = none := by
  cases k <;> refine ⟨by decide, by decide, by decide, by decide, by rfl⟩

end Verif.Overload
