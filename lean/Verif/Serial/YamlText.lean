import Verif.Serial.YamlLemmas
/-
What the texts of YAML scalars denote.
-/
namespace Verif.Serial
open Verif.Path Verif.Enums

namespace Spec

/-- The character is a digit of the value: `0` to `9`, then letters of either case. -/
def Digit (c : BitVec 8) (v : Nat) : Prop :=
  (v < 10 ∧ c.toNat = 48 + v) ∨ (10 ≤ v ∧ v < 36 ∧ (c.toNat = 97 + (v - 10) ∨ c.toNat = 65 + (v - 10)))

/-- The text is a numeral of the base. -/
inductive Numeral (base : Nat) : Str → Nat → Prop
  | one {c v} : Digit c v → v < base → Numeral base [c] v
  | more {ds n c v} : Numeral base ds n → Digit c v → v < base → Numeral base (ds ++ [c]) (n * base + v)

/-- Space, tab, newline, vertical tab, form feed, carriage return. -/
def White (c : BitVec 8) : Prop := c.toNat ∈ [32, 9, 10, 11, 12, 13]

/-- A number without sign: hexadecimal after `0x`, octal after `0`, else decimal; white space
may follow. -/
inductive Unsigned : Str → Nat → Prop
  | dec {ds ws n} : Numeral 10 ds n → ds.head? ≠ some 0x30#8 → (∀ c ∈ ws, White c) → Unsigned (ds ++ ws) n
  | oct {ds ws n} : Numeral 8 ds n → ds.head? = some 0x30#8 → (∀ c ∈ ws, White c) → Unsigned (ds ++ ws) n
  | hex {x ds ws n} : (x = 0x78#8 ∨ x = 0x58#8) → Numeral 16 ds n → (∀ c ∈ ws, White c) →
      Unsigned (0x30#8 :: x :: ds ++ ws) n

/-- A number, with a sign or without. -/
inductive Number : Str → Int → Prop
  | plain {s n} : Unsigned s n → Number s n
  | plus {s n} : Unsigned s n → Number (0x2B#8 :: s) n
  | minus {s n} : Unsigned s n → Number (0x2D#8 :: s) (-n)

/-- The spellings of the Booleans. -/
def yes : List Str := ["y", "Y", "yes", "Yes", "YES", "true", "True", "TRUE", "on", "On", "ON"].map txt
def no : List Str := ["n", "N", "no", "No", "NO", "false", "False", "FALSE", "off", "Off", "OFF"].map txt

end Spec

open Spec

namespace Yaml

/-! ### Integers -/

theorem digit_iff {c : BitVec 8} {v : Nat} (h : v < 36) : Digit c v ↔ digitVal c = v := by
  unfold Digit digitVal
  have := c.isLt
  repeat' split
  all_goals omega

theorem digitVal_digit {c : BitVec 8} (h : digitVal c < 36) : Digit c (digitVal c) := (digit_iff h).2 rfl

/-- The value of a list of digits. -/
def value (base : Nat) (ds : Str) : Nat := ds.foldl (fun n c => n * base + digitVal c) 0

theorem numeral_iff {base : Nat} (hb : base ≤ 36) {ds : Str} {n : Nat} :
    Numeral base ds n ↔ ds ≠ [] ∧ (∀ c ∈ ds, digitVal c < base) ∧ n = value base ds := by
  constructor
  · intro h
    induction h with
    | one h hv =>
      have := (digit_iff (by omega)).1 h
      simp [value, this, hv]
    | @more ds n c v _ h hv ih =>
      have := (digit_iff (by omega)).1 h
      obtain ⟨h1, h2, rfl⟩ := ih
      refine ⟨by simp, ?_, ?_⟩
      · intro d hd
        simp only [List.mem_append, List.mem_singleton] at hd
        rcases hd with hd | rfl
        · exact h2 d hd
        · omega
      · simp [value, List.foldl_append, this]
  · rintro ⟨h1, h2, rfl⟩
    suffices H : ∀ (k : Nat) (ds : Str), ds.length = k → ds ≠ [] → (∀ c ∈ ds, digitVal c < base) →
        Numeral base ds (value base ds) from H _ ds rfl h1 h2
    clear h1 h2 ds
    intro k
    induction k with
    | zero => intro ds hk h1; exact absurd (List.length_eq_zero_iff.1 hk) h1
    | succ k ih =>
      intro ds hk h1 h2
      obtain ⟨ds, c, rfl⟩ : ∃ l c, ds = l ++ [c] := ⟨_, _, (List.dropLast_concat_getLast h1).symm⟩
      have hc := h2 c (by simp)
      have hd : Digit c (digitVal c) := digitVal_digit (by omega)
      by_cases he : ds = []
      · subst he
        have : value base ([] ++ [c]) = digitVal c := by simp [value]
        rw [this]
        exact .one hd hc
      · have : value base (ds ++ [c]) = value base ds * base + digitVal c := by simp [value, List.foldl_append]
        rw [this]
        exact .more (ih ds (by simpa using hk) he fun d hd => h2 d (by simp [hd])) hd hc

theorem white_iff {c : BitVec 8} : White c ↔ isSpace c = true := by
  simp only [White, isSpace, List.mem_cons, List.not_mem_nil, or_false, Bool.or_eq_true, decide_eq_true_eq,
    Bool.and_eq_true]
  omega

theorem white_digit {c : BitVec 8} (h : White c) : digitVal c = 36 := by
  simp only [White, List.mem_cons, List.not_mem_nil, or_false] at h
  unfold digitVal
  rw [if_neg (by omega), if_neg (by omega), if_neg (by omega)]

/-- Digits, then white space. -/
theorem split_iff {p q : BitVec 8 → Bool} (hpq : ∀ c, q c = true → p c = false) {s ds : Str} :
    (ds = s.takeWhile p ∧ (s.drop ds.length).all q = true) ↔
      ∃ ws, s = ds ++ ws ∧ (∀ c ∈ ds, p c = true) ∧ ∀ c ∈ ws, q c = true := by
  constructor
  · rintro ⟨rfl, h⟩
    refine ⟨s.drop (s.takeWhile p).length, ?_, ?_, by simpa using h⟩
    · clear h
      induction s with
      | nil => rfl
      | cons c s ih =>
        rw [List.takeWhile_cons]
        split
        · simp only [List.length_cons, List.drop_succ_cons, List.cons_append]; rw [← ih]
        · simp
    · intro c hc
      clear h
      induction s with
      | nil => simp at hc
      | cons d s ih =>
        rw [List.takeWhile_cons] at hc
        split at hc
        · rcases List.mem_cons.1 hc with rfl | hc
          · assumption
          · exact ih hc
        · simp at hc
  · rintro ⟨ws, rfl, h1, h2⟩
    constructor
    · induction ds with
      | nil =>
        cases ws with
        | nil => rfl
        | cons c ws => simp [List.takeWhile_cons, hpq c (h2 c (by simp))]
      | cons c ds ih =>
        rw [List.cons_append, List.takeWhile_cons, if_pos (h1 c (by simp)), ← ih fun d hd => h1 d (by simp [hd])]
    · simpa using h2

/-- `natOf` once the base is known. -/
theorem digits_ws {base : Nat} (hb : base ≤ 36) {s : Str} {n : Nat} :
    (if (s.takeWhile fun c => decide (digitVal c < base)) = [] then none
      else if (s.drop (s.takeWhile fun c => decide (digitVal c < base)).length).all isSpace then
        some ((s.takeWhile fun c => decide (digitVal c < base)).foldl (fun n c => n * base + digitVal c) 0)
      else none) = some n ↔ ∃ ds ws, s = ds ++ ws ∧ Numeral base ds n ∧ ∀ c ∈ ws, White c := by
  have hpq : ∀ c, isSpace c = true → decide (digitVal c < base) = false := by
    intro c hc
    have := white_digit (white_iff.2 hc)
    simp; omega
  constructor
  · intro h
    split at h
    · cases h
    · split at h
      · rename_i h1 h2
        cases h
        obtain ⟨ws, h3, h4, h5⟩ := (split_iff hpq).1 ⟨rfl, h2⟩
        exact ⟨_, ws, h3, (numeral_iff hb).2 ⟨h1, by simpa using h4, rfl⟩, fun c hc => white_iff.2 (h5 c hc)⟩
      · cases h
  · rintro ⟨ds, ws, h1, h2, h3⟩
    obtain ⟨h4, h5, h6⟩ := (numeral_iff hb).1 h2
    obtain ⟨h7, h8⟩ := (split_iff (s := s) (ds := ds) hpq).2 ⟨ws, h1, by simpa using h5,
      fun c hc => white_iff.1 (h3 c hc)⟩
    rw [← h7, if_neg h4, if_pos h8, h6]; rfl

theorem natOf_iff {s : Str} {n : Nat} : natOf s = some n ↔ Unsigned s n := by
  have hd : ∀ {s : Str}, s.head? ≠ some 0x30#8 → ((∃ ds ws, s = ds ++ ws ∧ Numeral 10 ds n ∧ ∀ c ∈ ws, White c) ↔
      Unsigned s n) := by
    intro s hs
    constructor
    · rintro ⟨ds, ws, rfl, h1, h2⟩
      refine .dec h1 ?_ h2
      have := ((numeral_iff (by omega)).1 h1).1
      cases ds with
      | nil => exact absurd rfl this
      | cons c ds => simpa using hs
    · intro h
      cases h with
      | dec h1 h2 h3 => exact ⟨_, _, rfl, h1, h3⟩
      | @oct ds ws _ h1 h2 h3 => cases ds <;> simp_all
      | hex => simp at hs
  have ho : ∀ {c : BitVec 8} {s : Str}, ¬ (c = 0x78#8 ∨ c = 0x58#8) →
      ((∃ ds ws, 0x30#8 :: c :: s = ds ++ ws ∧ Numeral 8 ds n ∧ ∀ c ∈ ws, White c) ↔
        Unsigned (0x30#8 :: c :: s) n) := by
    intro c s hc
    constructor
    · rintro ⟨ds, ws, h, h1, h2⟩
      have hne := ((numeral_iff (by omega)).1 h1).1
      rw [h]
      refine .oct h1 ?_ h2
      cases ds with
      | nil => exact absurd rfl hne
      | cons c ds => simp at h; simp [h.1]
    · generalize hw : 0x30#8 :: c :: s = w
      intro h
      cases h with
      | @dec ds ws _ h1 h2 h3 =>
        have hne := ((numeral_iff (by omega)).1 h1).1
        cases ds with
        | nil => exact absurd rfl hne
        | cons d ds => simp at hw h2; exact absurd hw.1.symm h2
      | oct h1 h2 h3 => exact ⟨_, _, rfl, h1, h3⟩
      | hex hx h1 h3 => simp at hw; exact absurd (hw.1 ▸ hx) hc
  unfold natOf
  match s with
  | [] =>
    simp only [baseOf]
    refine Iff.trans (digits_ws (by omega)) (hd (by simp))
  | [c] =>
    simp only [baseOf]
    refine Iff.trans (digits_ws (by omega)) ?_
    by_cases hc : c = 0x30#8
    · subst hc
      constructor
      · rintro ⟨ds, ws, h, h1, h2⟩
        cases ds with
        | nil => exact absurd rfl ((numeral_iff (by omega)).1 h1).1
        | cons d ds =>
          simp at h
          obtain ⟨rfl, rfl, rfl⟩ := h
          have := ((numeral_iff (by omega)).1 h1).2.2
          refine .oct (ds := [0x30#8]) (ws := []) ((numeral_iff (by omega)).2 ⟨by simp, by decide, ?_⟩) rfl h2
          rw [this]; rfl
      · generalize hw : [0x30#8] = w
        intro h
        cases h with
        | @dec ds ws _ h1 h2 h3 => exact ⟨_, _, rfl, h1, h3⟩
        | @oct ds ws _ h1 h2 h3 =>
          cases ds with
          | nil => exact absurd rfl ((numeral_iff (by omega)).1 h1).1
          | cons d ds =>
            simp at hw
            obtain ⟨rfl, rfl, rfl⟩ := hw
            have := ((numeral_iff (by omega)).1 h1).2.2
            refine ⟨[0x30#8], [], rfl, (numeral_iff (by omega)).2 ⟨by simp, by decide, ?_⟩, h3⟩
            rw [this]; rfl
        | hex => simp at hw
    · exact hd (by simpa using hc)
  | c :: x :: r =>
    simp only [baseOf]
    by_cases hc : c = 0x30#8
    · subst hc
      by_cases hx : x = 0x78#8 ∨ x = 0x58#8
      · simp only [if_true, if_pos hx]
        refine Iff.trans (digits_ws (by omega)) ?_
        constructor
        · rintro ⟨ds, ws, rfl, h1, h2⟩
          exact .hex hx h1 h2
        · generalize hw : 0x30#8 :: x :: r = w
          intro h
          cases h with
          | @dec ds ws _ h1 h2 h3 =>
            cases ds with
            | nil => exact absurd rfl ((numeral_iff (by omega)).1 h1).1
            | cons d ds => simp at hw h2; exact absurd hw.1.symm h2
          | @oct ds ws _ h1 h2 h3 =>
            exfalso
            obtain ⟨hne, ha, -⟩ := (numeral_iff (by omega)).1 h1
            match ds with
            | [] => exact hne rfl
            | [d] =>
              simp at hw
              have := white_iff.1 (h3 x (by rw [← hw.2]; simp))
              rcases hx with rfl | rfl <;> revert this <;> decide
            | d :: d' :: ds =>
              simp at hw
              have := ha d' (by simp)
              rw [← hw.2.1] at this
              rcases hx with rfl | rfl <;> revert this <;> decide
          | hex hx h1 h3 => simp at hw; exact ⟨_, _, hw.2, h1, h3⟩
      · simp only [if_true, if_neg hx]
        exact Iff.trans (digits_ws (by omega)) (ho hx)
    · simp only [if_neg hc]
      exact Iff.trans (digits_ws (by omega)) (hd (by simpa using hc))

/-- A number without sign does not begin with a sign. -/
theorem unsigned_head {s : Str} {n : Nat} (h : Unsigned s n) :
    s.head? ≠ some 0x2D#8 ∧ s.head? ≠ some 0x2B#8 := by
  have key : ∀ {b m : Nat} {ds ws : Str}, b ≤ 16 → Numeral b ds m →
      (ds ++ ws).head? ≠ some 0x2D#8 ∧ (ds ++ ws).head? ≠ some 0x2B#8 := by
    intro b m ds ws hb h
    obtain ⟨hne, ha, -⟩ := (numeral_iff (by omega)).1 h
    cases ds with
    | nil => exact absurd rfl hne
    | cons c ds =>
      have := ha c (by simp)
      constructor <;> (intro hc; simp at hc; subst hc; have h36 : digitVal 0x2D#8 = 36 ∧ digitVal 0x2B#8 = 36 := by decide
                       ) <;> omega
  cases h with
  | dec h _ _ => exact key (by omega) h
  | oct h _ _ => exact key (by omega) h
  | hex => simp

theorem intOf_iff {s : Str} {n : Int} : intOf s = some n ↔ Number s n := by
  cases s with
  | nil =>
    simp only [intOf]
    constructor
    · intro h; cases h
    · generalize hw : ([] : Str) = w
      intro h
      cases h with
      | plain h =>
        rw [← hw, ← natOf_iff] at h
        exact absurd h (by simp [natOf, baseOf])
      | _ => cases hw
  | cons c s =>
    unfold intOf
    dsimp only
    split
    · rename_i hc
      subst hc
      simp only [Option.map_eq_some_iff, natOf_iff]
      constructor
      · rintro ⟨m, h, rfl⟩; exact .minus h
      · generalize hw : 0x2D#8 :: s = w
        intro h
        cases h with
        | plain h => exact absurd (by rw [← hw]; rfl) (unsigned_head h).1
        | plus h => simp at hw
        | minus h => simp at hw; subst hw; exact ⟨_, h, rfl⟩
    · split
      · rename_i hc
        subst hc
        simp only [Option.map_eq_some_iff, natOf_iff]
        constructor
        · rintro ⟨m, h, rfl⟩; exact .plus h
        · generalize hw : 0x2B#8 :: s = w
          intro h
          cases h with
          | plain h => exact absurd (by rw [← hw]; rfl) (unsigned_head h).2
          | plus h => simp at hw; subst hw; exact ⟨_, h, rfl⟩
          | minus h => simp at hw
      · rename_i h1 h2
        simp only [Option.map_eq_some_iff, natOf_iff]
        constructor
        · rintro ⟨m, h, rfl⟩; exact .plain h
        · generalize hw : c :: s = w
          intro h
          cases h with
          | plain h => exact ⟨_, h, rfl⟩
          | plus h => simp at hw; exact absurd hw.1 h2
          | minus h => simp at hw; exact absurd hw.1 h1

theorem asInt_iff {t : IT} {s : Str} {n : Int} :
    asInt t s = some n ↔ Number s n ∧ t.InRange n ∧ (t.signed = false → s.head? ≠ some 0x2D#8) := by
  unfold asInt
  constructor
  · intro h
    split at h
    · cases h
    · rename_i h1
      split at h
      · cases h
      · rename_i m hm
        split at h
        · cases h
          exact ⟨intOf_iff.1 hm, by assumption, fun h2 h3 => h1 ⟨h2, h3⟩⟩
        · cases h
  · rintro ⟨h1, h2, h3⟩
    rw [if_neg fun h => h3 h.1 h.2, intOf_iff.2 h1]
    simp [h2]

/-! ### Booleans -/

/-- The letters of a word in either case. -/
def cases : Str → List Str
  | [] => [[]]
  | x :: r => (cases r).flatMap fun s => [x :: s, (x - 32#8) :: s]

theorem lower_cases {w : Str} : ∀ {s : Str}, s.map lower = w → s ∈ cases w := by
  induction w with
  | nil => intro s h; simp at h; subst h; simp [cases]
  | cons x w ih =>
    intro s h
    cases s with
    | nil => simp at h
    | cons c s =>
      simp only [List.map_cons, List.cons.injEq] at h
      have h2 := ih h.2
      have h1 : c = x ∨ c = x - 32#8 := by
        have := h.1
        unfold lower at this
        split at this
        · right; rw [← this]; bv_omega
        · left; exact this
      simp only [cases, List.mem_flatMap]
      refine ⟨s, h2, ?_⟩
      rcases h1 with rfl | rfl <;> simp

theorem asBool_iff {s : Str} {b : Bool} : asBool s = some b ↔ (if b then s ∈ yes else s ∈ no) := by
  constructor
  · intro h
    unfold asBool at h
    split at h
    · rename_i hf
      split at h
      · rename_i hw
        cases h
        have : ∀ w ∈ [txt "y", txt "yes", txt "true", txt "on"], ∀ s ∈ cases w, flexibleCase s = true → s ∈ yes := by
          decide +kernel
        exact this _ (List.contains_iff_mem.1 hw) s (lower_cases rfl) hf
      · split at h
        · rename_i hw
          cases h
          have : ∀ w ∈ [txt "n", txt "no", txt "false", txt "off"], ∀ s ∈ cases w, flexibleCase s = true → s ∈ no := by
            decide +kernel
          exact this _ (List.contains_iff_mem.1 hw) s (lower_cases rfl) hf
        · cases h
    · cases h
  · have h1 : ∀ s ∈ yes, asBool s = some true := by decide +kernel
    have h2 : ∀ s ∈ no, asBool s = some false := by decide +kernel
    cases b
    · exact h2 s
    · exact h1 s

end Yaml
end Verif.Serial
