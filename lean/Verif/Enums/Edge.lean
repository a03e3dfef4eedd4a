import Verif.Enums.Props

/-! What enum ranges, iterator differences and `in_range(Integral)` do where they deviate from
C56, C57 and C68. -/

namespace Verif.Enums

/-- Least value of an integer type. -/
def IT.least (t : IT) : Int := if t.signed then -2 ^ (t.w - 1) else 0

/-- Greatest value of an integer type. -/
def IT.greatest (t : IT) : Int := if t.signed then 2 ^ (t.w - 1) - 1 else 2 ^ t.w - 1

theorem incr_wrap {t : IT} (ht : t.WF) (hw : t.signed = false ∨ t.w < 32) :
    (t.promote.arith (t.greatest + 1)).map t.conv = some t.least := by
  obtain ⟨sg, w⟩ := t
  rcases ht with h | h | h | h <;> simp only at h <;> subst h <;> cases sg <;>
    first | decide | (simp at hw)

theorem incr_overflow {t : IT} (ht : t.WF) (hs : t.signed = true) (hw : 32 ≤ t.w) :
    (t.promote.arith (t.greatest + 1)).map t.conv = none := by
  obtain ⟨sg, w⟩ := t
  rcases ht with h | h | h | h <;> simp only at h hs <;> subst h <;> subst hs <;>
    first | decide | (simp at hw)

theorem inRange_iff (t : IT) (v : Int) : t.InRange v ↔ t.least ≤ v ∧ v ≤ t.greatest := by
  obtain ⟨sg, w⟩ := t
  cases sg <;> simp [IT.InRange, IT.least, IT.greatest] <;> omega

/-- A loop that does not meet its end before the greatest value goes on at the least one. -/
theorem visits_wrap {t : IT} (ht : t.WF) (hw : t.signed = false ∨ t.w < 32) {a e : Int}
    (ha : t.InRange a) (he : t.InRange e) (hlt : e < a) :
    Visits (enumIter t) e a
      (ints a (t.greatest + 1 - a).toNat ++ ints t.least (e - t.least).toNat) := by
  have hle := (inRange_iff t a).mp ha
  have hel := (inRange_iff t e).mp he
  generalize hn : (t.greatest - a).toNat = n
  induction n generalizing a with
  | zero =>
    have : a = t.greatest := by omega
    subst this
    rw [show (t.greatest + 1 - t.greatest).toNat = 0 + 1 by omega, ints_succ]
    have hl : t.InRange t.least := (inRange_iff t _).mpr ⟨by omega, by omega⟩
    refine .step ?_ rfl (incr_wrap ht hw) ?_
    · simp [Impl.ne, Impl.eq, enumIter]; omega
    · simpa [ints] using visits_ints ht hl he hel.1
  | succ k ih =>
    rw [show (t.greatest + 1 - a).toNat = (t.greatest + 1 - (a + 1)).toNat + 1 by omega, ints_succ]
    have hs : t.InRange (a + 1) := (inRange_iff t _).mpr ⟨by omega, by omega⟩
    refine .step ?_ rfl (incr_eq ht ha hs) (ih hs (by omega) ((inRange_iff t _).mp hs) (by omega))
    simp [Impl.ne, Impl.eq, enumIter]; omega

/-- In a signed type that is not promoted the same loop overflows. -/
theorem visits_overflow {t : IT} (ht : t.WF) (hs : t.signed = true) (hw : 32 ≤ t.w) {a e : Int}
    (ha : t.InRange a) (hlt : e < a) (l : List Int) : ¬ Visits (enumIter t) e a l := by
  intro h
  generalize hn : (t.greatest - a).toNat = n
  induction n generalizing a l with
  | zero =>
    have hle := (inRange_iff t a).mp ha
    have : a = t.greatest := by omega
    subst this
    cases h with
    | done h => simp [Impl.ne, Impl.eq, enumIter] at h; omega
    | step _ _ hi _ =>
      have := incr_overflow ht hs hw
      rw [show (enumIter t).preInc t.greatest = none from this] at hi
      cases hi
  | succ k ih =>
    have hle := (inRange_iff t a).mp ha
    have hsr : t.InRange (a + 1) := (inRange_iff t _).mpr ⟨by omega, by omega⟩
    cases h with
    | done h => simp [Impl.ne, Impl.eq, enumIter] at h; omega
    | step _ _ hi h' =>
      have := incr_eq ht ha hsr
      rw [show (enumIter t).preInc a = some (a + 1) from this] at hi
      cases hi
      exact ih hsr (by omega) _ h' (by omega)

/-- C56: the static assertions let through two kinds of ranges.  Either the bound is a value
of the type above `Min` (then `C56_range_partial` applies), or `max_value()` is below
`min_value()`: `Max` is below `Min`, or the range is closed and `Max` the greatest value of a
type that is promoted. -/
theorem C56_kinds (r : Trait) (ht : r.t.WF) (hmin : r.t.InRange r.min) (hmax : r.t.InRange r.max)
    (hc : r.Compiles) :
    (r.t.InRange r.bound ∧ r.min < r.bound) ∨
    ∃ e, r.maxValue = some e ∧ r.t.InRange e ∧ e < r.min ∧
      ((r.t.InRange r.bound ∧ e = r.bound) ∨
        (r.openClosed = false ∧ r.max = r.t.greatest ∧ r.t.w < 32 ∧ e = r.t.least)) := by
  by_cases hb : r.t.InRange r.bound
  · have hmx : r.maxValue = some r.bound := maxValue_eq ht hb
    by_cases hlt : r.min < r.bound
    · exact .inl ⟨hb, hlt⟩
    · refine .inr ⟨r.bound, hmx, hb, ?_, .inl ⟨hb, rfl⟩⟩
      by_cases heq : r.bound = r.min
      · exfalso
        obtain ⟨-, c, hcount, hpos⟩ := hc
        unfold Trait.count at hcount
        rw [hmx] at hcount
        simp only [Option.bind_some, Trait.minValue, heq, Int.sub_self] at hcount
        obtain ⟨⟨sg, w⟩, mn, mx, o⟩ := r
        simp only at hcount
        have : ((⟨sg, w⟩ : IT).promote.arith 0).map sizeT.conv = some 0 := by
          rcases ht with h | h | h | h <;> simp only at h <;> subst h <;> cases sg <;> decide
        rw [this] at hcount
        cases hcount
        omega
      · omega
  · have ho : r.openClosed = false := by
      cases h : r.openClosed
      · rfl
      · exact absurd (by simpa [Trait.bound, h] using hmax) hb
    have hbnd : r.bound = r.max + 1 := by simp [Trait.bound, ho]
    have hgr : r.max = r.t.greatest := by
      have h1 := (inRange_iff r.t r.max).mp hmax
      by_cases hlt : r.max < r.t.greatest
      · exact absurd ((inRange_iff r.t r.bound).mpr ⟨by omega, by omega⟩) hb
      · omega
    have hw : r.t.w < 32 := by
      by_cases hw : 32 ≤ r.t.w
      · exact absurd (C56_bound_checked r ht hmax hc (.inr hw)) hb
      · omega
    have hmx : r.maxValue = some r.t.least := by
      unfold Trait.maxValue
      rw [ho, hgr]
      exact incr_wrap ht (.inr hw)
    have hmn := (inRange_iff r.t r.min).mp hmin
    refine .inr ⟨r.t.least, hmx, (inRange_iff r.t _).mpr ⟨by omega, by omega⟩, ?_,
      .inr ⟨ho, hgr, hw, rfl⟩⟩
    by_cases heq : r.min = r.t.least
    · exfalso
      obtain ⟨-, c, hcount, hpos⟩ := hc
      unfold Trait.count at hcount
      rw [hmx] at hcount
      simp only [Option.bind_some, Trait.minValue, heq, Int.sub_self] at hcount
      obtain ⟨⟨sg, w⟩, mn, mx, o⟩ := r
      simp only at hcount
      have : ((⟨sg, w⟩ : IT).promote.arith 0).map sizeT.conv = some 0 := by
        rcases ht with h | h | h | h <;> simp only at h <;> subst h <;> cases sg <;> decide
      rw [this] at hcount
      cases hcount
      omega
    · omega

example : (⟨⟨true, 8⟩, -3, 127, false⟩ : Trait).Compiles ∧
    (⟨⟨true, 8⟩, -3, 127, false⟩ : Trait).maxValue = some (-128) := by
  refine ⟨⟨Or.inr ⟨128, ?_⟩, ⟨2 ^ 64 - 125, ?_⟩⟩, ?_⟩ <;> decide

/-- C56: what a range with `max_value()` below `min_value()` does.  `in_range` is false for
every value; the loop over `enum_range` runs from `Min` to the greatest value of the type, on
from the least one and up to the bound - or overflows if the type is signed and not promoted;
`count()` is not the number of iterations. -/
theorem C56_reversed (r : Trait) (ht : r.t.WF) (hmin : r.t.InRange r.min) {e : Int}
    (he : r.maxValue = some e) (hr : r.t.InRange e) (hlt : e < r.min) :
    (∀ v, r.inRange v = some false) ∧
    (r.t.signed = false ∨ r.t.w < 32 →
      ∃ l, Visits (enumIter r.t) e r.begin (l ++ ints r.t.least (e - r.t.least).toNat) ∧
        l = ints r.min (r.t.greatest + 1 - r.min).toNat ∧
        (∀ l', Visits (enumIter r.t) e r.begin l' →
          (l'.length : Int) = 2 ^ r.t.w - (r.min - e))) ∧
    (r.t.signed = true → 32 ≤ r.t.w → ∀ l, ¬ Visits (enumIter r.t) e r.begin l) ∧
    (r.t.w < 32 → r.count = some (2 ^ 64 - (r.min - e))) := by
  have hmn := (inRange_iff r.t r.min).mp hmin
  have hee := (inRange_iff r.t e).mp hr
  refine ⟨?_, ?_, ?_, ?_⟩
  · intro v
    unfold Trait.inRange
    rw [he]
    simp only [Option.map_some, Trait.minValue, Option.some.injEq, Bool.and_eq_false_iff,
      decide_eq_false_iff_not, ge_iff_le, Int.not_le]
    omega
  · intro hw
    have hv := visits_wrap ht hw hmin hr hlt
    refine ⟨_, hv, rfl, ?_⟩
    intro l' h'
    rw [visits_det h' hv]
    simp only [List.length_append, ints, List.length_map, List.length_range]
    have : r.t.greatest - r.t.least + 1 = 2 ^ r.t.w := by
      rcases ht with h | h | h | h <;> cases hs : r.t.signed <;>
        simp [IT.greatest, IT.least, h, hs]
    omega
  · intro hs hw l h
    exact visits_overflow ht hs hw hmin hlt l h
  · intro hw
    unfold Trait.count
    rw [he]
    simp only [Option.bind_some, Trait.minValue]
    obtain ⟨⟨sg, w⟩, mn, mx, o⟩ := r
    simp only at *
    rcases ht with h | h | h | h <;> simp only at h <;> subst h <;> cases sg <;>
      simp [IT.promote, IT.arith, IT.InRange, IT.conv, sizeT] at hmin hr hw ⊢ <;> omega

example : (⟨⟨false, 8⟩, 5, 3, true⟩ : Trait).Compiles ∧
    (⟨⟨false, 8⟩, 5, 3, true⟩ : Trait).maxValue = some 3 := by
  refine ⟨⟨Or.inl rfl, ⟨2 ^ 64 - 2, ?_⟩⟩, ?_⟩ <;> decide

/-- C56, violated: the assertion `count() > 0` does not reject a range whose bound lies below
its first value; `in_range` is then false even for the first value. -/
theorem C56_backwards_violated :
    ∃ r : Trait, r.t.WF ∧ r.t.InRange r.min ∧ r.t.InRange r.max ∧ r.openClosed = true ∧
      r.Compiles ∧ r.max < r.min ∧ r.inRange r.min = some false :=
  ⟨⟨⟨true, 32⟩, 5, 3, true⟩, by decide, by decide, by decide, rfl,
    ⟨Or.inl rfl, ⟨2 ^ 64 - 2, by decide, by decide⟩⟩, by decide, by decide⟩

/-! ### C57 -/

/-- C57: the difference of two iterators of every underlying type.  It is the negated number
of steps wherever it can be; in a 32-bit unsigned type it is that number modulo 2^32, never
negative; in a signed type that is not promoted it overflows exactly if the number of steps is
no value of the type. -/
theorem C57_difference (t : IT) (ht : t.WF) (a b : Int) (ha : t.InRange a) (hb : t.InRange b) :
    (enumIter t).diff b a =
      if t = ⟨false, 32⟩ then some ((a - b) % 2 ^ 32)
      else if t = ⟨false, 64⟩ then some ((a - b).bmod (2 ^ 64))
      else if t.InRange (a - b) ∨ t.w < 32 then some (a - b) else none := by
  show (t.promote.arith (a - b)).map ptrdiff.conv = _
  obtain ⟨sg, w⟩ := t
  rcases ht with h | h | h | h <;> simp only at h <;> subst h <;> cases sg
  all_goals simp [IT.promote, IT.arith, IT.InRange, IT.conv, ptrdiff] at ha hb ⊢
  all_goals grind

/-- C57: hence the order of iterators is reversed, except for 32-bit unsigned types, where
`<` means "different". -/
theorem C57_order (t : IT) (ht : t.WF) (a b : Int) (ha : t.InRange a) (hb : t.InRange b)
    (hs : t.signed = true → 32 ≤ t.w → t.InRange (a - b))
    (hu : t = ⟨false, 64⟩ → -2 ^ 63 ≤ a - b ∧ a - b < 2 ^ 63) :
    (enumIter t).lt a b = some (if t = ⟨false, 32⟩ then decide (a ≠ b) else decide (b < a)) := by
  show ((enumIter t).diff b a).map (fun d => decide (d > 0)) = _
  rw [C57_difference t ht a b ha hb]
  obtain ⟨sg, w⟩ := t
  rcases ht with h | h | h | h <;> simp only at h <;> subst h <;> cases sg
  all_goals simp [IT.InRange] at ha hb hs hu ⊢
  all_goals grind

example : (enumIter ⟨false, 32⟩).lt 3 5 = some true ∧ (enumIter ⟨false, 32⟩).lt 5 3 = some true ∧
    (enumIter ⟨true, 8⟩).lt 3 5 = some false := by decide

/-! ### C68 -/

/-- C68: exactly which arguments are misjudged.  An argument of a signed type against an
unsigned range: negative numbers that 2^w would lift into the range.  An argument of an unsigned
type against a signed range with a negative lower bound: the numbers that are in the range, and
those that would be if 2^w were subtracted from them, if the whole range is negative.
In all other cases, in particular if the wider type is the signed one, the answer is right. -/
theorem C68_exact (r : Trait) (ht : r.t.WF) (a : IT) (ha : a.WF) (v : Int) (hv : a.InRange v)
    (hmin : r.t.InRange r.min) (hb : r.t.InRange r.bound) (hlt : r.min < r.bound) :
    r.inRangeI a v = some (decide (r.min ≤ v ∧ v < r.bound)) ↔
    ¬ ((a.signed = true ∧ r.t.signed = false ∧ 32 ≤ r.t.w ∧ a.w ≤ r.t.w ∧
          r.min ≤ v + 2 ^ r.t.w ∧ v + 2 ^ r.t.w < r.bound ∧ v < 0) ∨
       (a.signed = false ∧ r.t.signed = true ∧ 32 ≤ a.w ∧ r.t.w ≤ a.w ∧ r.min < 0 ∧
          (v < r.bound ∨ (r.min ≤ v - 2 ^ a.w ∧ v - 2 ^ a.w < r.bound ∧ r.bound < 0)))) := by
  have hmx : r.maxValue = some r.bound := maxValue_eq ht hb
  unfold Trait.inRangeI
  rw [hmx]
  generalize r.bound = bd at *
  simp only [Option.map_some, Trait.minValue, Option.some.injEq]
  obtain ⟨⟨sg, w⟩, mn, mx, o⟩ := r
  obtain ⟨sa, wa⟩ := a
  simp only at *
  rcases ht with h | h | h | h <;> rcases ha with h' | h' | h' | h' <;> simp only at h h' <;>
    subst h <;> subst h' <;> cases sa <;> cases sg
  all_goals simp [IT.InRange, IT.common, IT.promote, IT.conv] at hv hmin hb ⊢
  all_goals grind

example : (⟨⟨false, 32⟩, 2 ^ 32 - 3, 2 ^ 32 - 1, true⟩ : Trait).inRangeI ⟨true, 32⟩ (-2) = some true ∧
    (⟨⟨true, 32⟩, -2, 3, true⟩ : Trait).inRangeI ⟨false, 32⟩ 5 = some false ∧
    (⟨⟨true, 32⟩, -5, -1, true⟩ : Trait).inRangeI ⟨false, 32⟩ (2 ^ 32 - 3) = some true := by decide

end Verif.Enums
