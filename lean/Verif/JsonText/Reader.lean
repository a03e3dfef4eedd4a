/-
The reader accepts every JSON text and makes the document it is a text of.
-/
import Verif.JsonText.Spec

namespace Verif.JsonText
open Verif.Path Verif.Serial Spec

/-! ### White space -/

theorem ws_space {a : Str} (h : Ws a) {c : Byte} (hc : c ∈ a) : isSpace c = true := by
  rcases h c hc with rfl | rfl | rfl | rfl <;> rfl

theorem skip_ws {a : Str} (h : Ws a) (s : Str) : skip (a ++ s) = skip s := by
  induction a with
  | nil => rfl
  | cons c a ih =>
    have hc := ws_space h (List.mem_cons_self)
    simp only [skip, List.cons_append, List.dropWhile_cons, hc, if_true] at ih ⊢
    exact ih fun x hx => h x (List.mem_cons_of_mem _ hx)

theorem skip_stop {c : Byte} (h : isSpace c = false) (s : Str) : skip (c :: s) = c :: s := by
  simp [skip, List.dropWhile_cons, h]

/-! ### Strings -/

theorem hexVal_of {c : Byte} {n : Nat} (h : Hex c n) : hexVal c = some n := by
  cases h with
  | digit h => revert h; revert n; decide
  | @upper n h => revert h; revert n; decide
  | @lower n h => revert h; revert n; decide

theorem hex4_of {a b c d : Byte} {n : Nat} (h : Hex4 [a, b, c, d] n) : hex4 a b c d = some n := by
  cases h with
  | mk ha hb hc hd => simp [hex4, hexVal_of ha, hexVal_of hb, hexVal_of hc, hexVal_of hd]; omega

theorem hex4_shape {h : Str} {n : Nat} (hh : Hex4 h n) : ∃ a b c d, h = [a, b, c, d] ∧ hex4 a b c d = some n := by
  cases hh with
  | mk ha hb hc hd => exact ⟨_, _, _, _, rfl, hex4_of (.mk ha hb hc hd)⟩

theorem utf8_of {n : Nat} {u : Str} (h : Utf8 n u) : utf8 n = u := by
  cases h with
  | one h => simp [utf8, h]
  | @two a b ha hb h =>
    have e1 : (64 * a + b) / 64 = a := by omega
    have e2 : (64 * a + b) % 64 = b := by omega
    rw [utf8, if_neg (by omega), if_pos (by omega), e1, e2]
  | @three a b c ha hb hc h =>
    have e1 : (4096 * a + 64 * b + c) / 4096 = a := by omega
    have e2 : (4096 * a + 64 * b + c) / 64 % 64 = b := by omega
    have e3 : (4096 * a + 64 * b + c) % 64 = c := by omega
    rw [utf8, if_neg (by omega), if_neg (by omega), if_pos (by omega), e1, e2, e3]
  | @four a b c d ha hb hc hd h =>
    have e1 : (262144 * a + 4096 * b + 64 * c + d) / 262144 = a := by omega
    have e2 : (262144 * a + 4096 * b + 64 * c + d) / 4096 % 64 = b := by omega
    have e3 : (262144 * a + 4096 * b + 64 * c + d) / 64 % 64 = c := by omega
    have e4 : (262144 * a + 4096 * b + 64 * c + d) % 64 = d := by omega
    rw [utf8, if_neg (by omega), if_neg (by omega), if_neg (by omega), e1, e2, e3, e4]

theorem unescape_of {e : Char} {c : Byte} (h : (e, c) ∈ escapes) : ch e ≠ ch 'u' ∧ unescape (ch e) = some c := by
  simp only [escapes, List.mem_cons, List.not_mem_nil, or_false, Prod.mk.injEq] at h
  rcases h with ⟨rfl, rfl⟩ | ⟨rfl, rfl⟩ | ⟨rfl, rfl⟩ | ⟨rfl, rfl⟩ | ⟨rfl, rfl⟩ | ⟨rfl, rfl⟩ | ⟨rfl, rfl⟩ | ⟨rfl, rfl⟩ <;>
    decide

theorem chars_of {t s : Str} (h : IsChars t s) : ∀ (n : Nat) (rest : Str), t.length < n →
    chars n (t ++ ch '"' :: rest) = some (s, rest) := by
  induction h with
  | nil =>
    intro n rest hn
    obtain ⟨n, rfl⟩ : ∃ m, n = m + 1 := ⟨n - 1, by omega⟩
    simp [chars]
  | @plain c t s h1 h2 h3 _ ih =>
    intro n rest hn
    obtain ⟨n, rfl⟩ : ∃ m, n = m + 1 := ⟨n - 1, by omega⟩
    have h2' : ¬ c = ch '"' := h2
    have h3' : ¬ c = ch '\\' := h3
    rw [List.cons_append, chars.eq_def]
    dsimp only
    rw [if_neg h2', if_neg h3', if_neg (by omega),
      ih n rest (by simp only [List.length_cons] at hn; omega)]
    rfl
  | @esc e c t s he _ ih =>
    intro n rest hn
    obtain ⟨n, rfl⟩ : ∃ m, n = m + 1 := ⟨n - 1, by omega⟩
    obtain ⟨h1, h2⟩ := unescape_of he
    rw [List.cons_append, List.cons_append, chars.eq_def]
    dsimp only
    rw [if_neg (by decide), if_pos rfl]
    simp only [h1, if_false, h2]
    rw [ih n rest (by simp only [List.length_cons] at hn; omega)]
    rfl
  | @unicode h m u t s hh hm hu _ ih =>
    intro n rest hn
    obtain ⟨n, rfl⟩ : ∃ m, n = m + 1 := ⟨n - 1, by omega⟩
    obtain ⟨a, b, c, d, rfl, hx⟩ := hex4_shape hh
    simp only [List.cons_append, List.nil_append]
    rw [chars.eq_def]
    dsimp only
    rw [if_neg (by decide), if_pos rfl]
    simp only [if_true, hx]
    rw [if_neg (by omega), if_neg (by omega), ih n rest (by simp only [List.length_cons, List.length_append, List.length_nil] at hn; omega),
      utf8_of hu]
    rfl
  | @pair h m l k u t s hh hl h1 h2 h3 h4 hu _ ih =>
    intro n rest hn
    obtain ⟨n, rfl⟩ : ∃ m, n = m + 1 := ⟨n - 1, by omega⟩
    obtain ⟨a, b, c, d, rfl, hx⟩ := hex4_shape hh
    obtain ⟨a', b', c', d', rfl, hy⟩ := hex4_shape hl
    simp only [List.cons_append, List.nil_append]
    rw [chars.eq_def]
    dsimp only
    rw [if_neg (by decide), if_pos rfl]
    simp only [if_true, hx, and_self, hy]
    rw [if_neg (by omega), if_pos (by omega), if_pos (by omega),
      ih n rest (by simp only [List.length_cons, List.length_append, List.length_nil] at hn; omega), utf8_of hu]
    rfl

/-! ### Numbers -/

theorem digit_is {d : Nat} (h : d < 10) : isDigit (BitVec.ofNat 8 (48 + d)) = true ∧
    (BitVec.ofNat 8 (48 + d)).toNat - 48 = d := by
  revert d; decide

theorem digits_of {t : Str} {n : Nat} (h : IsDigits t n) : t ≠ [] ∧ (∀ c ∈ t, isDigit c = true) ∧ value t = n := by
  induction h with
  | one h => exact ⟨by simp, by simp [digit_is h], by simp only [value, List.foldl_cons, List.foldl_nil, digit_is h]; omega⟩
  | @more t n d _ h ih =>
    obtain ⟨-, h2, h3⟩ := ih
    refine ⟨by simp, ?_, ?_⟩
    · intro c hc
      rw [List.mem_append] at hc
      rcases hc with hc | hc
      · exact h2 c hc
      · rw [List.mem_singleton] at hc
        subst hc
        exact (digit_is h).1
    · simp only [value] at h3 ⊢
      rw [List.foldl_append, h3, List.foldl_cons, List.foldl_nil, (digit_is h).2]
      omega

/-- What can follow a number does not continue it. -/
def Delim (rest : Str) : Prop := ∀ c ∈ rest.head?, isDigit c = false ∧ c ≠ ch '.' ∧ c ≠ ch 'e' ∧ c ≠ ch 'E'

/-- What begins with something else than a digit. -/
def NoDigit (rest : Str) : Prop := ∀ c ∈ rest.head?, isDigit c = false

theorem take_all {t rest : Str} (h : ∀ c ∈ t, isDigit c = true) (hr : NoDigit rest) :
    (t ++ rest).takeWhile isDigit = t ∧ (t ++ rest).dropWhile isDigit = rest := by
  induction t with
  | nil =>
    cases rest with
    | nil => exact ⟨rfl, rfl⟩
    | cons c rest => simp [hr c rfl]
  | cons c t ih =>
    obtain ⟨h1, h2⟩ := ih fun x hx => h x (List.mem_cons_of_mem _ hx)
    have hc := h c List.mem_cons_self
    simp only [List.cons_append, List.takeWhile_cons, List.dropWhile_cons, hc, if_true, h1, h2, and_self]

theorem someDigits_of {t rest : Str} {n : Nat} (h : IsDigits t n) (hr : NoDigit rest) :
    someDigits (t ++ rest) = some (t, rest) := by
  obtain ⟨h1, h2, -⟩ := digits_of h
  obtain ⟨h3, h4⟩ := take_all h2 hr
  rw [someDigits, h3, h4]
  cases t with
  | nil => exact absurd rfl h1
  | cons c t => rfl

theorem whole_of {t rest : Str} {n : Nat} (h : IsNat t n) (hr : NoDigit rest) :
    whole (t ++ rest) = some (t, rest) ∧ value t = n ∧ ∃ c u, t = c :: u ∧ isDigit c = true := by
  cases h with
  | zero => exact ⟨rfl, rfl, _, _, rfl, rfl⟩
  | pos h h0 =>
    have hs := someDigits_of h hr
    obtain ⟨h1, h2, h3⟩ := digits_of h
    cases t with
    | nil => exact absurd rfl h1
    | cons c t =>
      refine ⟨?_, h3, c, t, rfl, h2 c List.mem_cons_self⟩
      rw [List.cons_append, whole, if_neg (fun he => h0 (by rw [he]; rfl)), ← List.cons_append, hs]

theorem fraction_of {f rest : Str} (h : IsFraction f) (hr : NoDigit rest) (hp : ∀ c ∈ rest.head?, c ≠ ch '.') :
    fraction (f ++ rest) = some (f, rest) := by
  cases h with
  | none =>
    cases rest with
    | nil => rfl
    | cons c rest => rw [List.nil_append, fraction, if_neg (hp c rfl)]
  | some h =>
    rw [List.cons_append, fraction, if_pos rfl, someDigits_of h hr]
    rfl

theorem digits_head {t : Str} {n : Nat} (h : IsDigits t n) : ∃ c u, t = c :: u ∧ isDigit c = true := by
  obtain ⟨h1, h2, -⟩ := digits_of h
  cases t with
  | nil => exact absurd rfl h1
  | cons c t => exact ⟨c, t, rfl, h2 c List.mem_cons_self⟩

theorem exponent_of {e rest : Str} (h : IsExponent e) (hr : NoDigit rest)
    (hp : ∀ c ∈ rest.head?, c ≠ ch 'e' ∧ c ≠ ch 'E') : exponent (e ++ rest) = some (e, rest) := by
  cases h with
  | none =>
    cases rest with
    | nil => rfl
    | cons c rest =>
      have := hp c rfl
      rw [List.nil_append, exponent.eq_def]
      dsimp only
      rw [if_neg (by simp [this])]
  | @some c sign t n hc hs h =>
    obtain ⟨x, u, rfl, hx⟩ := digits_head h
    have hd := someDigits_of h hr
    simp only [List.cons_append] at hd
    rcases hs with rfl | rfl | rfl
    · have hx1 : ¬ (x = ch '+' ∨ x = ch '-') := by
        rintro (rfl | rfl) <;> exact absurd hx (by decide)
      simp only [List.append_nil, List.nil_append, List.cons_append, exponent, hc, if_true, hx1, if_false, hd,
        Option.map_some]
    · simp only [List.nil_append, List.cons_append, exponent, hc, if_true, true_or, hd, Option.map_some]
    · simp only [List.nil_append, List.cons_append, exponent, hc, if_true, or_true, hd, Option.map_some]

theorem fraction_head {f e rest : Str} (h : IsFraction f) (he : IsExponent e) (hr : Delim rest) :
    NoDigit (e ++ rest) ∧ (∀ c ∈ (e ++ rest).head?, c ≠ ch '.') ∧ NoDigit (f ++ (e ++ rest)) := by
  have h1 : NoDigit (e ++ rest) ∧ ∀ c ∈ (e ++ rest).head?, c ≠ ch '.' := by
    cases he with
    | none => exact ⟨fun c hc => (hr c hc).1, fun c hc => (hr c hc).2.1⟩
    | @some x sign t n hx _ _ =>
      constructor <;> intro c hc <;> simp only [List.cons_append, List.head?_cons, Option.mem_def, Option.some.injEq] at hc <;>
        subst hc <;> rcases hx with rfl | rfl <;> decide
  refine ⟨h1.1, h1.2, ?_⟩
  cases h with
  | none => exact h1.1
  | some h =>
    intro c hc
    simp only [List.cons_append, List.head?_cons, Option.mem_def, Option.some.injEq] at hc
    subst hc
    decide

/-- `readNumber` on a whole number text with its fraction and exponent. -/
theorem readNumber_of (F : Floats) {t f e rest : Str} {n : Int} (ht : IsInt t n) (hf : IsFraction f) (he : IsExponent e)
    (hr : Delim rest) : readNumber F (t ++ f ++ e ++ rest) =
      if f = [] ∧ e = [] ∧ - 2 ^ 63 ≤ n ∧ n < 2 ^ 64 then some (.scalar (.int n), rest)
      else (F.read (t ++ f ++ e)).map fun b => (.scalar (.dbl b), rest) := by
  obtain ⟨h1, h2, h3⟩ := fraction_head hf he hr
  have hfr := fraction_of hf h1 h2
  have hex := exponent_of he (rest := rest) (fun c hc => (hr c hc).1) fun c hc => (hr c hc).2.2
  cases ht with
  | @nat t k hn =>
    obtain ⟨hw, hv, c, u, rfl, hc⟩ := whole_of hn h3
    have hneg : ((c :: u ++ f ++ e ++ rest).head? == some (ch '-')) = false := by
      simp only [List.cons_append, List.head?_cons]
      rw [beq_eq_false_iff_ne]
      rintro ⟨rfl⟩
      exact absurd hc (by decide)
    rw [readNumber, hneg]
    simp only [Bool.false_eq_true, if_false, List.append_assoc]
    rw [hw]
    dsimp only
    rw [hfr]
    dsimp only
    rw [hex]
    dsimp only
    rw [hv]
    rfl
  | @neg t k hn =>
    obtain ⟨hw, hv, c, u, rfl, hc⟩ := whole_of hn h3
    have hneg : ((ch '-' :: (c :: u) ++ f ++ e ++ rest).head? == some (ch '-')) = true := rfl
    rw [readNumber, hneg]
    simp only [if_true, List.append_assoc, List.cons_append, List.tail_cons]
    simp only [List.cons_append] at hw
    rw [hw]
    dsimp only
    rw [hfr]
    dsimp only
    rw [hex]
    dsimp only
    rw [hv]
    simp only [List.cons_append, List.nil_append, List.append_assoc]
    rfl

/-! ### Values -/

theorem int_head {t : Str} {n : Int} (h : IsInt t n) : ∃ c u, t = c :: u ∧ (c = ch '-' ∨ isDigit c = true) := by
  cases h with
  | nat h => obtain ⟨-, -, c, u, h, hc⟩ := whole_of h (rest := []) (by intro c hc; cases hc); exact ⟨c, u, h, .inr hc⟩
  | neg h => exact ⟨_, _, rfl, .inl rfl⟩

/-- How a value can begin. -/
def starts : List Byte := [ch 'n', ch 't', ch 'f', ch '"', ch '[', ch '{', ch '-'] ++
  (List.range 10).map fun d => BitVec.ofNat 8 (48 + d)

theorem digit_starts {c : Byte} (h : isDigit c = true) : c ∈ starts := by
  revert c; decide +kernel

theorem value_head {F : Floats} {t : Str} {d : JDoc} (h : IsValue F t d) : ∃ c u, t = c :: u ∧ c ∈ starts := by
  have hint : ∀ {t : Str} {n : Int}, IsInt t n → ∀ x : Str, ∃ c u, t ++ x = c :: u ∧ c ∈ starts := by
    intro t n h x
    obtain ⟨c, u, rfl, hc⟩ := int_head h
    refine ⟨c, u ++ x, rfl, ?_⟩
    rcases hc with rfl | hc
    · decide
    · exact digit_starts hc
  cases h with
  | null => exact ⟨_, _, rfl, by decide⟩
  | true => exact ⟨_, _, rfl, by decide⟩
  | false => exact ⟨_, _, rfl, by decide⟩
  | str h => cases h with | mk h => exact ⟨_, _, rfl, by decide⟩
  | int h => simpa using hint h []
  | bigInt h => simpa using hint h []
  | real h => cases h with | mk h => rw [List.append_assoc]; exact hint h _
  | emptyArr => exact ⟨_, _, rfl, by decide⟩
  | arr => exact ⟨_, _, rfl, by decide⟩
  | emptyObj => exact ⟨_, _, rfl, by decide⟩
  | obj => exact ⟨_, _, rfl, by decide⟩

theorem starts_stop {c : Byte} (h : c ∈ starts) : isSpace c = false ∧ c ≠ ch ']' ∧ c ≠ ch '}' ∧
    c ≠ 0xEF#8 ∧ c ≠ 0xBB#8 ∧ c ≠ 0xBF#8 := by
  revert c; decide +kernel

theorem number_start {c : Byte} (h : c = ch '-' ∨ isDigit c = true) :
    c ≠ ch 'n' ∧ c ≠ ch 't' ∧ c ≠ ch 'f' ∧ c ≠ ch '"' ∧ c ≠ ch '[' ∧ c ≠ ch '{' := by
  revert c; decide +kernel

theorem readValue_number (F : Floats) {t : Str} {i : Int} (h : IsInt t i) (x : Str) (n : Nat) :
    readValue F (n + 1) (t ++ x) = readNumber F (t ++ x) := by
  obtain ⟨c, u, rfl, hc⟩ := int_head h
  obtain ⟨h1, h2, h3, h4, h5, h6⟩ := number_start hc
  rw [List.cons_append, readValue, if_neg h1, if_neg h2, if_neg h3, if_neg h4, if_neg h5, if_neg h6]

/-- White space, then something that ends or continues an array or object, does not continue a number. -/
theorem delim_ws {a : Str} (h : Ws a) {c : Byte} (hc : isDigit c = false ∧ c ≠ ch '.' ∧ c ≠ ch 'e' ∧ c ≠ ch 'E') (r : Str) :
    Delim (a ++ c :: r) := by
  intro x hx
  cases a with
  | nil => cases hx; exact hc
  | cons y a =>
    cases hx
    rcases h _ List.mem_cons_self with rfl | rfl | rfl | rfl <;> decide

theorem tail_delim {F : Floats} {u : Str} {ds : List JDoc} (h : IsTail F u ds) {b : Str} (hb : Ws b) (r : Str) :
    Delim (u ++ (b ++ ch ']' :: r)) := by
  cases h with
  | nil => exact delim_ws hb (by decide) r
  | cons ha _ _ _ =>
    simp only [List.append_assoc, List.cons_append]
    exact delim_ws ha (by decide) _

theorem members_delim {F : Floats} {u : Str} {ms : List (Str × JDoc)} (h : IsMembers F u ms) {b : Str} (hb : Ws b) (r : Str) :
    Delim (u ++ (b ++ ch '}' :: r)) := by
  cases h with
  | nil => exact delim_ws hb (by decide) r
  | cons ha _ _ _ =>
    simp only [List.append_assoc, List.cons_append]
    exact delim_ws ha (by decide) _

theorem word_of (w : Str) (d : JDoc) (r : Str) : word w d (w ++ r) = some (d, r) := by
  simp [word]

theorem readValue_nil (F : Floats) (n : Nat) : readValue F n [] = none := by
  cases n <;> rfl

theorem member_head {F : Floats} {t : Str} {m : Str × JDoc} (h : IsMember F t m) : ∃ u, t = ch '"' :: u := by
  cases h with
  | mk h => cases h with | mk h => exact ⟨_, rfl⟩

mutual
theorem readValue_of {F : Floats} : ∀ {t : Str} {d : JDoc}, IsValue F t d → ∀ (n : Nat) (rest : Str), t.length ≤ n →
    Delim rest → readValue F n (t ++ rest) = some (d, rest)
  | _, _, .null, n, rest, hn, _ => by
    obtain ⟨n, rfl⟩ : ∃ m, n = m + 1 := ⟨n - 1, by simp [txt] at hn; omega⟩
    exact word_of (txt "null") .null rest
  | _, _, .true, n, rest, hn, _ => by
    obtain ⟨n, rfl⟩ : ∃ m, n = m + 1 := ⟨n - 1, by simp [txt] at hn; omega⟩
    exact word_of (txt "true") _ rest
  | _, _, .false, n, rest, hn, _ => by
    obtain ⟨n, rfl⟩ : ∃ m, n = m + 1 := ⟨n - 1, by simp [txt] at hn; omega⟩
    exact word_of (txt "false") _ rest
  | _, _, .str (.mk (t := t) (s := s) h), n, rest, hn, _ => by
    obtain ⟨n, rfl⟩ : ∃ m, n = m + 1 := ⟨n - 1, by simp at hn; omega⟩
    simp only [List.cons_append, List.append_assoc, List.nil_append]
    rw [readValue, if_neg (by decide), if_neg (by decide), if_neg (by decide), if_pos rfl,
      chars_of h _ rest (by simp)]
    rfl
  | _, _, .int (t := t) h h1 h2, n, rest, hn, hr => by
    obtain ⟨c, u, rfl, -⟩ := int_head h
    obtain ⟨n, rfl⟩ : ∃ m, n = m + 1 := ⟨n - 1, by simp at hn; omega⟩
    rw [readValue_number F h]
    have := readNumber_of F h .none .none hr
    simp only [List.append_nil, true_and, h1, h2, and_self, if_true] at this
    exact this
  | _, _, .bigInt (t := t) h h1 h2, n, rest, hn, hr => by
    obtain ⟨c, u, rfl, -⟩ := int_head h
    obtain ⟨n, rfl⟩ : ∃ m, n = m + 1 := ⟨n - 1, by simp at hn; omega⟩
    rw [readValue_number F h]
    have := readNumber_of F h .none .none hr
    simp only [List.append_nil, true_and, h1, if_false, h2] at this
    exact this
  | _, _, .real (.mk (t := t) (f := f) (e := e) h hf he hne) h2, n, rest, hn, hr => by
    obtain ⟨c, u, hcu, -⟩ := int_head h
    obtain ⟨n, rfl⟩ : ∃ m, n = m + 1 := ⟨n - 1, by simp [hcu] at hn; omega⟩
    have := readNumber_of F h hf he hr
    rw [if_neg (fun hh => hne.elim (· hh.1) (· hh.2.1)), h2] at this
    simp only [List.append_assoc] at this ⊢
    rw [readValue_number F h]
    exact this
  | _, _, .emptyArr (a := a) ha, n, rest, hn, _ => by
    obtain ⟨n, rfl⟩ : ∃ m, n = m + 1 := ⟨n - 1, by simp at hn; omega⟩
    simp only [List.cons_append, List.append_assoc, List.nil_append]
    rw [readValue, if_neg (by decide), if_neg (by decide), if_neg (by decide), if_neg (by decide), if_pos rfl,
      skip_ws ha, skip_stop (by decide)]
    simp
  | _, _, .arr (a := a) (t := t) (d := d) (u := u) (ds := ds) (b := b) ha hv ht hb, n, rest, hn, _ => by
    obtain ⟨n, rfl⟩ : ∃ m, n = m + 1 := ⟨n - 1, by simp at hn; omega⟩
    simp only [List.cons_append, List.append_assoc, List.nil_append, List.length_cons, List.length_append,
      List.length_nil] at hn ⊢
    rw [readValue, if_neg (by decide), if_neg (by decide), if_neg (by decide), if_neg (by decide), if_pos rfl,
      skip_ws ha]
    have h1 := readValue_of hv n (u ++ (b ++ ch ']' :: rest)) (by omega) (tail_delim ht hb rest)
    have h2 := readTail_of ht hb n rest (by omega)
    obtain ⟨c, x, rfl, hc⟩ := value_head hv
    obtain ⟨hs, hne, -⟩ := starts_stop hc
    simp only [List.cons_append] at h1 ⊢
    rw [skip_stop hs]
    simp only [hne, if_false, h1, h2, Option.map_some]
  | _, _, .emptyObj (a := a) ha, n, rest, hn, _ => by
    obtain ⟨n, rfl⟩ : ∃ m, n = m + 1 := ⟨n - 1, by simp at hn; omega⟩
    simp only [List.cons_append, List.append_assoc, List.nil_append]
    rw [readValue, if_neg (by decide), if_neg (by decide), if_neg (by decide), if_neg (by decide), if_neg (by decide),
      if_pos rfl, skip_ws ha, skip_stop (by decide)]
    simp
  | _, _, .obj (a := a) (t := t) (m := m) (u := u) (ms := ms) (b := b) ha hv ht hb, n, rest, hn, _ => by
    obtain ⟨n, rfl⟩ : ∃ m, n = m + 1 := ⟨n - 1, by simp at hn; omega⟩
    simp only [List.cons_append, List.append_assoc, List.nil_append, List.length_cons, List.length_append,
      List.length_nil] at hn ⊢
    rw [readValue, if_neg (by decide), if_neg (by decide), if_neg (by decide), if_neg (by decide), if_neg (by decide),
      if_pos rfl, skip_ws ha]
    have h1 := readMember_of hv n (u ++ (b ++ ch '}' :: rest)) (by omega) (members_delim ht hb rest)
    have h2 := readMembers_of ht hb n rest (by omega)
    obtain ⟨x, rfl⟩ := member_head hv
    simp only [List.cons_append] at h1 ⊢
    rw [skip_stop (by decide)]
    have hne : ¬ ch '"' = ch '}' := by decide
    simp only [hne, if_false, h1, h2, Option.map_some]
theorem readTail_of {F : Floats} : ∀ {u : Str} {ds : List JDoc}, IsTail F u ds → ∀ {b : Str}, Ws b → ∀ (n : Nat) (rest : Str),
    u.length < n → readTail F n (u ++ (b ++ ch ']' :: rest)) = some (ds, rest)
  | _, _, .nil, b, hb, n, rest, hn => by
    obtain ⟨n, rfl⟩ : ∃ m, n = m + 1 := ⟨n - 1, by omega⟩
    rw [List.nil_append, readTail, skip_ws hb, skip_stop (by decide)]
    rfl
  | _, _, .cons (a := a) (b := b') (t := t) (d := d) (u := u) (ds := ds) ha hb' hv ht, b, hb, n, rest, hn => by
    obtain ⟨n, rfl⟩ : ∃ m, n = m + 1 := ⟨n - 1, by omega⟩
    simp only [List.cons_append, List.append_assoc, List.length_cons, List.length_append] at hn ⊢
    rw [readTail, skip_ws ha, skip_stop (by decide)]
    have h1 := readValue_of hv n (u ++ (b ++ ch ']' :: rest)) (by omega) (tail_delim ht hb rest)
    have h2 := readTail_of ht hb n rest (by omega)
    obtain ⟨c, x, rfl, hc⟩ := value_head hv
    obtain ⟨hs, -, -⟩ := starts_stop hc
    simp only [List.cons_append] at h1 ⊢
    simp only [if_true, skip_ws hb', skip_stop hs, h1, h2, Option.map_some]
theorem readMember_of {F : Floats} : ∀ {t : Str} {m : Str × JDoc}, IsMember F t m → ∀ (n : Nat) (rest : Str), t.length ≤ n →
    Delim rest → readMember F n (t ++ rest) = some (m, rest)
  | _, _, .mk (.mk (t := s) (s := k) hs) (a := a) (b := b) (t := t) (d := d) ha hb hv, n, rest, hn, hr => by
    obtain ⟨n, rfl⟩ : ∃ m, n = m + 1 := ⟨n - 1, by simp at hn; omega⟩
    simp only [List.cons_append, List.append_assoc, List.nil_append, List.length_cons, List.length_append,
      List.length_nil] at hn ⊢
    rw [readMember, if_pos rfl, chars_of hs _ _ (by simp)]
    have h1 := readValue_of hv n rest (by omega) hr
    obtain ⟨c, x, rfl, hc⟩ := value_head hv
    obtain ⟨hsp, -, -⟩ := starts_stop hc
    simp only [List.cons_append] at h1 ⊢
    rw [skip_ws ha, skip_stop (by decide)]
    simp only [if_true, skip_ws hb, skip_stop hsp, h1, Option.map_some]
theorem readMembers_of {F : Floats} : ∀ {u : Str} {ms : List (Str × JDoc)}, IsMembers F u ms → ∀ {b : Str}, Ws b →
    ∀ (n : Nat) (rest : Str), u.length < n → readMembers F n (u ++ (b ++ ch '}' :: rest)) = some (ms, rest)
  | _, _, .nil, b, hb, n, rest, hn => by
    obtain ⟨n, rfl⟩ : ∃ m, n = m + 1 := ⟨n - 1, by omega⟩
    rw [List.nil_append, readMembers, skip_ws hb, skip_stop (by decide)]
    rfl
  | _, _, .cons (a := a) (b := b') (t := t) (m := m) (u := u) (ms := ms) ha hb' hv ht, b, hb, n, rest, hn => by
    obtain ⟨n, rfl⟩ : ∃ m, n = m + 1 := ⟨n - 1, by omega⟩
    simp only [List.cons_append, List.append_assoc, List.length_cons, List.length_append] at hn ⊢
    rw [readMembers, skip_ws ha, skip_stop (by decide)]
    have h1 := readMember_of hv n (u ++ (b ++ ch '}' :: rest)) (by omega) (members_delim ht hb rest)
    have h2 := readMembers_of ht hb n rest (by omega)
    obtain ⟨x, rfl⟩ := member_head hv
    simp only [List.cons_append] at h1 ⊢
    rw [skip_ws hb', skip_stop (by decide)]
    simp only [if_true, h1, h2, Option.map_some]
end

theorem dropOne_ne {c : Byte} {s : Str} (h : s.head? ≠ some c) : dropOne c s = s := by
  cases s with
  | nil => rfl
  | cons x s => rw [dropOne, if_neg (fun he => h (by rw [he]; rfl))]

theorem dropOne_eq (c : Byte) (s : Str) : dropOne c (c :: s) = s := by rw [dropOne, if_pos rfl]

theorem mark_cases {mark : Str} (h : mark.Sublist [0xEF#8, 0xBB#8, 0xBF#8]) :
    mark ∈ [[], [0xEF#8], [0xBB#8], [0xBF#8], [0xEF#8, 0xBB#8], [0xEF#8, 0xBF#8], [0xBB#8, 0xBF#8], [0xEF#8, 0xBB#8, 0xBF#8]] := by
  cases h <;> rename_i h <;> cases h <;> rename_i h <;> cases h <;> rename_i h <;> cases h <;> simp

theorem afterMark_of {mark s : Str} (h : mark.Sublist [0xEF#8, 0xBB#8, 0xBF#8])
    (hs : s.head? ≠ some 0xEF#8 ∧ s.head? ≠ some 0xBB#8 ∧ s.head? ≠ some 0xBF#8) : afterMark (mark ++ s) = s := by
  obtain ⟨h1, h2, h3⟩ := hs
  have hm := mark_cases h
  simp only [List.mem_cons, List.not_mem_nil, or_false] at hm
  have hb : ∀ (x c : Byte) (t : Str), x ≠ c → (x :: t).head? ≠ some c := by
    intro x c t hne hh; exact hne (by simpa using hh)
  rcases hm with rfl | rfl | rfl | rfl | rfl | rfl | rfl | rfl <;>
    simp only [afterMark, List.nil_append, List.cons_append]
  · rw [dropOne_ne h1, dropOne_ne h2, dropOne_ne h3]
  · rw [dropOne_eq, dropOne_ne h2, dropOne_ne h3]
  · rw [dropOne_ne (hb _ _ _ (by decide)), dropOne_eq, dropOne_ne h3]
  · rw [dropOne_ne (hb _ _ _ (by decide)), dropOne_ne (hb _ _ _ (by decide)), dropOne_eq]
  · rw [dropOne_eq, dropOne_eq, dropOne_ne h3]
  · rw [dropOne_eq, dropOne_ne (hb _ _ _ (by decide)), dropOne_eq]
  · rw [dropOne_ne (hb _ _ _ (by decide)), dropOne_eq, dropOne_eq]
  · rw [dropOne_eq, dropOne_eq, dropOne_eq]

/-- Every JSON text is read as what it is a text of, whatever part of a byte order mark is in front of it and whatever
comes after a null character behind it. -/
theorem parse_of {F : Floats} {mark t rest : Str} {d : JDoc} (hm : mark.Sublist [0xEF#8, 0xBB#8, 0xBF#8]) (h : IsText F t d)
    (hrest : rest = [] ∨ rest.head? = some 0#8) : parse F (mark ++ t ++ rest) = some d := by
  cases h with
  | @mk a t d b ha hv hb =>
    obtain ⟨c, x, rfl, hc⟩ := value_head hv
    obtain ⟨hs, -, -⟩ := starts_stop hc
    have hmark : afterMark (mark ++ (a ++ c :: x ++ b) ++ rest) = a ++ (c :: x ++ (b ++ rest)) := by
      have hne : ∀ y ∈ (a ++ (c :: x ++ (b ++ rest))).head?, y ≠ 0xEF#8 ∧ y ≠ 0xBB#8 ∧ y ≠ 0xBF#8 := by
        intro y hy
        cases a with
        | nil => cases hy; exact (starts_stop hc).2.2.2
        | cons z a =>
          cases hy
          rcases ha _ List.mem_cons_self with rfl | rfl | rfl | rfl <;> decide
      rw [show mark ++ (a ++ c :: x ++ b) ++ rest = mark ++ (a ++ (c :: x ++ (b ++ rest))) by simp]
      exact afterMark_of hm ⟨fun hh => (hne _ hh).1 rfl, fun hh => (hne _ hh).2.1 rfl, fun hh => (hne _ hh).2.2 rfl⟩
    have hdel : Delim (b ++ rest) := by
      cases b with
      | nil =>
        intro y hy
        rcases hrest with rfl | hrest
        · cases hy
        · rw [List.nil_append, hrest] at hy
          cases hy
          decide
      | cons z b =>
        intro y hy
        cases hy
        rcases hb _ List.mem_cons_self with rfl | rfl | rfl | rfl <;> decide
    have h1 := readValue_of hv (mark ++ (a ++ c :: x ++ b) ++ rest).length (b ++ rest) (by simp; omega) hdel
    rw [parse, hmark, skip_ws ha, List.cons_append, skip_stop hs, ← List.cons_append, h1]
    simp only [skip_ws hb]
    rcases hrest with rfl | hrest
    · rfl
    · cases rest with
      | nil => rfl
      | cons z rest =>
        cases hrest
        rw [skip_stop (by decide)]
        simp

end Verif.JsonText
