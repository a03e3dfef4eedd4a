/-
The reader accepts nothing but JSON texts: what it has consumed is a text of what it returns.
-/
import Verif.JsonText.Reader

namespace Verif.JsonText
open Verif.Path Verif.Serial Spec

/-! ### Strings -/

theorem hex_of {c : Byte} {n : Nat} (h : hexVal c = some n) : Hex c n := by
  have hc : c = BitVec.ofNat 8 c.toNat := by rw [BitVec.ofNat_toNat, BitVec.setWidth_eq]
  simp only [hexVal] at h
  split at h
  · rename_i hr
    cases h
    have := Hex.digit (n := c.toNat - 48) (by omega)
    rwa [show 48 + (c.toNat - 48) = c.toNat by omega, ← hc] at this
  split at h
  · rename_i hr
    cases h
    have := Hex.upper (n := c.toNat - 65) (by omega)
    rwa [show 65 + (c.toNat - 65) = c.toNat by omega, ← hc, show 10 + (c.toNat - 65) = c.toNat - 55 by omega] at this
  split at h
  · rename_i hr
    cases h
    have := Hex.lower (n := c.toNat - 97) (by omega)
    rwa [show 97 + (c.toNat - 97) = c.toNat by omega, ← hc, show 10 + (c.toNat - 97) = c.toNat - 87 by omega] at this
  · cases h

theorem hex_lt {c : Byte} {n : Nat} (h : Hex c n) : n < 16 := by
  cases h <;> omega

theorem hex4_sound {a b c d : Byte} {n : Nat} (h : hex4 a b c d = some n) : Hex4 [a, b, c, d] n ∧ n < 0x10000 := by
  unfold hex4 at h
  split at h
  · rename_i x y z w h1 h2 h3 h4
    cases h
    have h1 := hex_of h1
    have h2 := hex_of h2
    have h3 := hex_of h3
    have h4 := hex_of h4
    have l1 := hex_lt h1
    have l2 := hex_lt h2
    have l3 := hex_lt h3
    have l4 := hex_lt h4
    refine ⟨?_, by omega⟩
    have := Hex4.mk h1 h2 h3 h4
    rwa [show 4096 * x + 256 * y + 16 * z + w = ((x * 16 + y) * 16 + z) * 16 + w by omega] at this
  · cases h

theorem utf8_sound {n : Nat} (h : n < 0x110000) : Utf8 n (utf8 n) := by
  unfold utf8
  split
  · exact .one (by omega)
  split
  · have := Utf8.two (a := n / 64) (b := n % 64) (by omega) (by omega) (by omega)
    rwa [show 64 * (n / 64) + n % 64 = n by omega] at this
  split
  · have := Utf8.three (a := n / 4096) (b := n / 64 % 64) (c := n % 64) (by omega) (by omega) (by omega) (by omega)
    rwa [show 4096 * (n / 4096) + 64 * (n / 64 % 64) + n % 64 = n by omega] at this
  · have := Utf8.four (a := n / 262144) (b := n / 4096 % 64) (c := n / 64 % 64) (d := n % 64) (by omega) (by omega)
      (by omega) (by omega) (by omega)
    rwa [show 262144 * (n / 262144) + 4096 * (n / 4096 % 64) + 64 * (n / 64 % 64) + n % 64 = n by omega] at this

theorem unescape_sound {e c : Byte} (h : unescape e = some c) : ∃ x, e = ch x ∧ (x, c) ∈ escapes := by
  unfold unescape at h
  split at h
  · rename_i he; cases h; exact ⟨_, he, by decide⟩
  split at h
  · rename_i he; cases h; exact ⟨_, he, by decide⟩
  split at h
  · rename_i he; cases h; exact ⟨_, he, by decide⟩
  split at h
  · rename_i he; cases h; exact ⟨_, he, by decide⟩
  split at h
  · rename_i he; cases h; exact ⟨_, he, by decide⟩
  split at h
  · rename_i he; cases h; exact ⟨_, he, by decide⟩
  split at h
  · rename_i he; cases h; exact ⟨_, he, by decide⟩
  split at h
  · rename_i he; cases h; exact ⟨_, he, by decide⟩
  · cases h

theorem consing_some {cs v r : Str} {o : Option (Str × Str)} (h : consing cs o = some (v, r)) :
    ∃ s, o = some (s, r) ∧ v = cs ++ s := by
  cases o with
  | none => cases h
  | some p => obtain ⟨s, r'⟩ := p; cases h; exact ⟨s, rfl, rfl⟩

theorem chars_sound : ∀ (n : Nat) (s v r : Str), chars n s = some (v, r) → ∃ t, s = t ++ ch '"' :: r ∧ IsChars t v
  | 0, s, v, r, h => by rw [chars.eq_def] at h; cases h
  | n + 1, [], v, r, h => by rw [chars.eq_def] at h; cases h
  | n + 1, c :: s, v, r, h => by
    rw [chars.eq_def] at h
    dsimp only at h
    split at h
    · rename_i hc; cases h; subst hc; exact ⟨[], rfl, .nil⟩
    rename_i hq
    split at h
    · rename_i hc
      subst hc
      split at h
      · cases h
      rename_i e s
      split at h
      · rename_i he
        subst he
        split at h
        · rename_i a b c d s
          split at h
          · cases h
          rename_i u hu
          obtain ⟨h4, hlt⟩ := hex4_sound hu
          split at h
          · cases h
          rename_i hlow
          split at h
          · rename_i hhigh
            split at h
            · rename_i x y a' b' c' d' s
              split at h
              · rename_i hxy
                obtain ⟨rfl, rfl⟩ := hxy
                split at h
                · cases h
                rename_i w hw
                obtain ⟨h4', hlt'⟩ := hex4_sound hw
                split at h
                · rename_i hpair
                  obtain ⟨s', hs', hv⟩ := consing_some h
                  obtain ⟨t, rfl, ht⟩ := chars_sound n _ _ _ hs'
                  rw [hv]
                  have hu8 := utf8_sound (n := 0x10000 + (u - 0xD800) * 0x400 + (w - 0xDC00)) (by omega)
                  have hu : u < 0xDC00 := by omega
                  have hw : w < 0xE000 := by omega
                  exact ⟨_, by simp, .pair h4 h4' hhigh.1 hu hpair.1 hw hu8 ht⟩
                · cases h
              · cases h
            · cases h
          · obtain ⟨s', hs', rfl⟩ := consing_some h
            obtain ⟨t, rfl, ht⟩ := chars_sound n _ _ _ hs'
            have hu8 : Utf8 u (utf8 u) := utf8_sound (by omega)
            have hns : u < 0xD800 ∨ 0xE000 ≤ u := by omega
            exact ⟨_, by simp, .unicode h4 hns hu8 ht⟩
        · cases h
      · split at h
        · rename_i x hx
          obtain ⟨s', hs', rfl⟩ := consing_some h
          obtain ⟨t, rfl, ht⟩ := chars_sound n _ _ _ hs'
          obtain ⟨k, rfl, hk⟩ := unescape_sound hx
          exact ⟨_, rfl, .esc hk ht⟩
        · cases h
    · rename_i hb
      split at h
      · cases h
      · obtain ⟨s', hs', rfl⟩ := consing_some h
        obtain ⟨t, rfl, ht⟩ := chars_sound n _ _ _ hs'
        exact ⟨_, rfl, .plain (by omega) hq hb ht⟩

/-! ### Numbers -/

theorem digit_shape {c : Byte} (h : isDigit c = true) : c = BitVec.ofNat 8 (48 + (c.toNat - 48)) ∧ c.toNat - 48 < 10 := by
  simp only [isDigit, Bool.and_eq_true, decide_eq_true_eq] at h
  refine ⟨?_, by omega⟩
  rw [show 48 + (c.toNat - 48) = c.toNat by omega, BitVec.ofNat_toNat, BitVec.setWidth_eq]

theorem digits_append : ∀ (u : Str), (∀ c ∈ u, isDigit c = true) → ∀ {t : Str} {n : Nat}, IsDigits t n →
    IsDigits (t ++ u) (u.foldl (fun n c => n * 10 + (c.toNat - 48)) n)
  | [], _, t, n, h => by simpa using h
  | c :: u, hu, t, n, h => by
    obtain ⟨h1, h2⟩ := digit_shape (hu c List.mem_cons_self)
    have h3 := IsDigits.more h h2
    rw [← h1, show 10 * n + (c.toNat - 48) = n * 10 + (c.toNat - 48) by omega] at h3
    have := digits_append u (fun x hx => hu x (List.mem_cons_of_mem _ hx)) h3
    rw [List.append_assoc] at this
    exact this

theorem digits_sound {t : Str} (hne : t ≠ []) (h : ∀ c ∈ t, isDigit c = true) : IsDigits t (value t) := by
  cases t with
  | nil => exact absurd rfl hne
  | cons c u =>
    obtain ⟨h1, h2⟩ := digit_shape (h c List.mem_cons_self)
    have h3 := IsDigits.one h2
    rw [← h1] at h3
    have := digits_append u (fun x hx => h x (List.mem_cons_of_mem _ hx)) h3
    simp only [value, List.foldl_cons, Nat.zero_mul, Nat.zero_add]
    exact this

theorem take_digit : ∀ (s : Str), ∀ c ∈ s.takeWhile isDigit, isDigit c = true
  | [], c, h => by cases h
  | x :: s, c, h => by
    rw [List.takeWhile_cons] at h
    split at h
    · rename_i hx
      rcases List.mem_cons.1 h with rfl | h
      · exact hx
      · exact take_digit s c h
    · cases h

theorem someDigits_sound {s t r : Str} (h : someDigits s = some (t, r)) : s = t ++ r ∧ IsDigits t (value t) := by
  unfold someDigits at h
  split at h
  · cases h
  · rename_i d ds hd
    cases h
    rw [← hd]
    exact ⟨List.takeWhile_append_dropWhile.symm, digits_sound (by rw [hd]; simp) (take_digit s)⟩

theorem whole_sound {s t r : Str} (h : whole s = some (t, r)) : s = t ++ r ∧ IsNat t (value t) := by
  unfold whole at h
  split at h
  · cases h
  split at h
  · rename_i hc; cases h; subst hc; exact ⟨rfl, .zero⟩
  · rename_i c u hc
    obtain ⟨h1, h2⟩ := someDigits_sound h
    refine ⟨h1, .pos h2 fun hh => ?_⟩
    cases t with
    | nil => cases hh
    | cons x t => cases h1; exact hc (by simpa using hh)

theorem fraction_sound {s t r : Str} (h : fraction s = some (t, r)) : s = t ++ r ∧ IsFraction t := by
  unfold fraction at h
  split at h
  · cases h; exact ⟨rfl, .none⟩
  split at h
  · rename_i c u hc
    rw [Option.map_eq_some_iff] at h
    obtain ⟨⟨ds, r'⟩, h, he⟩ := h
    cases he
    obtain ⟨h1, h2⟩ := someDigits_sound h
    subst hc
    exact ⟨by rw [h1]; rfl, .some h2⟩
  · cases h; exact ⟨rfl, .none⟩

theorem exponent_sound {s t r : Str} (h : exponent s = some (t, r)) : s = t ++ r ∧ IsExponent t := by
  rw [exponent.eq_def] at h
  split at h
  · cases h; exact ⟨rfl, .none⟩
  split at h
  · rename_i c u hc
    split at h
    · cases h
    rename_i g u
    split at h
    · rename_i hg
      rw [Option.map_eq_some_iff] at h
      obtain ⟨⟨ds, r'⟩, h, he⟩ := h
      cases he
      obtain ⟨h1, h2⟩ := someDigits_sound h
      refine ⟨by rw [h1]; rfl, IsExponent.some (sign := [g]) hc ?_ h2⟩
      rcases hg with rfl | rfl
      · exact .inr (.inl rfl)
      · exact .inr (.inr rfl)
    · rw [Option.map_eq_some_iff] at h
      obtain ⟨⟨ds, r'⟩, h, he⟩ := h
      cases he
      obtain ⟨h1, h2⟩ := someDigits_sound h
      exact ⟨by rw [h1]; rfl, IsExponent.some (sign := []) hc (.inl rfl) h2⟩
  · cases h; exact ⟨rfl, .none⟩

theorem readNumber_sound {F : Floats} {s r : Str} {d : JDoc} (h : readNumber F s = some (d, r)) :
    ∃ t, s = t ++ r ∧ IsValue F t d := by
  rw [readNumber] at h
  dsimp only at h
  split at h
  · cases h
  rename_i ds r1 hw
  obtain ⟨h1, hn⟩ := whole_sound hw
  split at h
  · cases h
  rename_i fs r2 hfr
  obtain ⟨h2, hf⟩ := fraction_sound hfr
  split at h
  · cases h
  rename_i es r3 hex
  obtain ⟨h3, hexp⟩ := exponent_sound hex
  have key : ∀ (t : Str) (n : Int), IsInt t n → s = t ++ r1 →
      (if fs = [] ∧ es = [] ∧ - 2 ^ 63 ≤ n ∧ n < 2 ^ 64 then some (Doc.scalar (JScalar.int n), r3)
        else (F.read (t ++ fs ++ es)).map fun b => (Doc.scalar (JScalar.dbl b), r3)) = some (d, r) →
      ∃ t, s = t ++ r ∧ IsValue F t d := by
    intro t n ht hs hh
    split at hh
    · rename_i hc
      cases hh
      obtain ⟨rfl, rfl, ha, hb⟩ := hc
      refine ⟨t, by rw [hs, h2, h3]; rfl, .int ht ha hb⟩
    · rename_i hc
      rw [Option.map_eq_some_iff] at hh
      obtain ⟨b, hb, hh⟩ := hh
      cases hh
      refine ⟨t ++ fs ++ es, by rw [hs, h2, h3]; simp, ?_⟩
      by_cases hemp : fs = [] ∧ es = []
      · obtain ⟨rfl, rfl⟩ := hemp
        rw [List.append_nil, List.append_nil] at hb ⊢
        exact .bigInt ht (fun hr => hc ⟨rfl, rfl, hr⟩) hb
      · refine .real (.mk ht hf hexp ?_) hb
        by_cases hfs : fs = []
        · exact .inr fun hes => hemp ⟨hfs, hes⟩
        · exact .inl hfs
  cases hneg : (s.head? == some (ch '-')) with
  | true =>
    rw [hneg] at h h1
    simp only [if_true] at h h1
    have hs : s = ch '-' :: s.tail := by
      cases s with
      | nil => cases hneg
      | cons c s => simp only [List.head?_cons, beq_iff_eq, Option.some.injEq] at hneg; rw [hneg]; rfl
    exact key (ch '-' :: ds) _ (.neg hn) (by rw [hs, h1]; rfl) h
  | false =>
    rw [hneg] at h h1
    simp only [Bool.false_eq_true, if_false] at h h1
    exact key ds _ (.nat hn) h1 h

/-! ### Values -/

theorem skip_sound (s : Str) : ∃ a, Ws a ∧ s = a ++ skip s := by
  refine ⟨s.takeWhile isSpace, ?_, List.takeWhile_append_dropWhile.symm⟩
  intro c hc
  have : isSpace c = true := by
    induction s with
    | nil => cases hc
    | cons x s ih =>
      rw [List.takeWhile_cons] at hc
      split at hc
      · rename_i hx
        rcases List.mem_cons.1 hc with rfl | hc
        · exact hx
        · exact ih hc
      · cases hc
  simp only [isSpace, Bool.or_eq_true, beq_iff_eq] at this
  rcases this with ((h | h) | h) | h
  · exact .inl h
  · exact .inr (.inr (.inl h))
  · exact .inr (.inr (.inr h))
  · exact .inr (.inl h)

theorem word_sound {w s r : Str} {d d' : JDoc} (h : word w d s = some (d', r)) : s = w ++ r ∧ d' = d := by
  unfold word at h
  split at h
  · rename_i hp
    cases h
    rw [List.isPrefixOf_iff_prefix] at hp
    obtain ⟨u, rfl⟩ := hp
    exact ⟨by simp, rfl⟩
  · cases h

mutual
theorem readValue_sound {F : Floats} : ∀ (n : Nat) (s r : Str) (d : JDoc), readValue F n s = some (d, r) →
    ∃ t, s = t ++ r ∧ IsValue F t d
  | 0, s, r, d, h => by rw [readValue.eq_def] at h; cases h
  | n + 1, [], r, d, h => by rw [readValue.eq_def] at h; cases h
  | n + 1, c :: s, r, d, h => by
    rw [readValue.eq_def] at h
    dsimp only at h
    split at h
    · obtain ⟨h1, rfl⟩ := word_sound h; exact ⟨_, h1, .null⟩
    split at h
    · obtain ⟨h1, rfl⟩ := word_sound h; exact ⟨_, h1, .true⟩
    split at h
    · obtain ⟨h1, rfl⟩ := word_sound h; exact ⟨_, h1, .false⟩
    split at h
    · rename_i hc
      rw [Option.map_eq_some_iff] at h
      obtain ⟨⟨v, r'⟩, h, he⟩ := h
      cases he
      obtain ⟨t, rfl, ht⟩ := chars_sound _ _ _ _ h
      subst hc
      exact ⟨_, by simp, .str (.mk ht)⟩
    split at h
    · rename_i hc
      subst hc
      obtain ⟨a, ha, hs⟩ := skip_sound s
      split at h
      · cases h
      rename_i x u hx
      rw [hx] at hs
      split at h
      · rename_i he
        cases h
        subst he
        exact ⟨ch '[' :: a ++ [ch ']'], by rw [hs]; simp, .emptyArr ha⟩
      split at h
      · cases h
      rename_i d1 r1 h1
      rw [Option.map_eq_some_iff] at h
      obtain ⟨⟨ds, r'⟩, h, he⟩ := h
      cases he
      obtain ⟨t, ht, hv⟩ := readValue_sound n _ _ _ h1
      obtain ⟨u, b, hb, hu, ht'⟩ := readTail_sound n _ _ _ h
      exact ⟨ch '[' :: a ++ t ++ u ++ b ++ [ch ']'], by rw [hs, ht, hu]; simp, .arr ha hv ht' hb⟩
    split at h
    · rename_i hc
      subst hc
      obtain ⟨a, ha, hs⟩ := skip_sound s
      split at h
      · cases h
      rename_i x u hx
      rw [hx] at hs
      split at h
      · rename_i he
        cases h
        subst he
        exact ⟨ch '{' :: a ++ [ch '}'], by rw [hs]; simp, .emptyObj ha⟩
      split at h
      · cases h
      rename_i d1 r1 h1
      rw [Option.map_eq_some_iff] at h
      obtain ⟨⟨ds, r'⟩, h, he⟩ := h
      cases he
      obtain ⟨t, ht, hv⟩ := readMember_sound n _ _ _ h1
      obtain ⟨u, b, hb, hu, ht'⟩ := readMembers_sound n _ _ _ h
      exact ⟨ch '{' :: a ++ t ++ u ++ b ++ [ch '}'], by rw [hs, ht, hu]; simp, .obj ha hv ht' hb⟩
    · exact readNumber_sound h
theorem readTail_sound {F : Floats} : ∀ (n : Nat) (s r : Str) (ds : List JDoc), readTail F n s = some (ds, r) →
    ∃ u b, Ws b ∧ s = u ++ (b ++ ch ']' :: r) ∧ IsTail F u ds
  | 0, s, r, ds, h => by rw [readTail.eq_def] at h; cases h
  | n + 1, s, r, ds, h => by
    rw [readTail.eq_def] at h
    dsimp only at h
    obtain ⟨a, ha, hs⟩ := skip_sound s
    split at h
    · cases h
    rename_i c u hx
    rw [hx] at hs
    split at h
    · rename_i hc
      subst hc
      obtain ⟨b, hb, hsu⟩ := skip_sound u
      split at h
      · cases h
      rename_i d1 r1 h1
      rw [Option.map_eq_some_iff] at h
      obtain ⟨⟨ds, r'⟩, h, he⟩ := h
      cases he
      obtain ⟨t, ht, hv⟩ := readValue_sound n _ _ _ h1
      obtain ⟨u', b', hb', hu, ht'⟩ := readTail_sound n _ _ _ h
      refine ⟨a ++ ch ',' :: b ++ t ++ u', b', hb', ?_, .cons ha hb hv ht'⟩
      rw [hs, hsu, ht, hu]; simp
    split at h
    · rename_i hc
      cases h
      subst hc
      exact ⟨[], a, ha, hs, .nil⟩
    · cases h
theorem readMember_sound {F : Floats} : ∀ (n : Nat) (s r : Str) (m : Str × JDoc), readMember F n s = some (m, r) →
    ∃ t, s = t ++ r ∧ IsMember F t m
  | 0, s, r, d, h => by rw [readMember.eq_def] at h; cases h
  | n + 1, [], r, d, h => by rw [readMember.eq_def] at h; cases h
  | n + 1, c :: s, r, d, h => by
    rw [readMember.eq_def] at h
    dsimp only at h
    split at h
    · rename_i hc
      subst hc
      split at h
      · cases h
      rename_i k r1 hk
      obtain ⟨q, rfl, hq⟩ := chars_sound _ _ _ _ hk
      obtain ⟨a, ha, hs⟩ := skip_sound r1
      split at h
      · cases h
      rename_i x u hx
      rw [hx] at hs
      split at h
      · rename_i he
        subst he
        obtain ⟨b, hb, hsu⟩ := skip_sound u
        rw [Option.map_eq_some_iff] at h
        obtain ⟨⟨ds, r'⟩, h, he⟩ := h
        cases he
        obtain ⟨t, ht, hv⟩ := readValue_sound n _ _ _ h
        refine ⟨(ch '"' :: q ++ [ch '"']) ++ a ++ ch ':' :: b ++ t, ?_, .mk (.mk hq) ha hb hv⟩
        rw [hs, hsu, ht]; simp
      · cases h
    · cases h
theorem readMembers_sound {F : Floats} : ∀ (n : Nat) (s r : Str) (ms : List (Str × JDoc)),
    readMembers F n s = some (ms, r) → ∃ u b, Ws b ∧ s = u ++ (b ++ ch '}' :: r) ∧ IsMembers F u ms
  | 0, s, r, ds, h => by rw [readMembers.eq_def] at h; cases h
  | n + 1, s, r, ds, h => by
    rw [readMembers.eq_def] at h
    dsimp only at h
    obtain ⟨a, ha, hs⟩ := skip_sound s
    split at h
    · cases h
    rename_i c u hx
    rw [hx] at hs
    split at h
    · rename_i hc
      subst hc
      obtain ⟨b, hb, hsu⟩ := skip_sound u
      split at h
      · cases h
      rename_i d1 r1 h1
      rw [Option.map_eq_some_iff] at h
      obtain ⟨⟨ds, r'⟩, h, he⟩ := h
      cases he
      obtain ⟨t, ht, hv⟩ := readMember_sound n _ _ _ h1
      obtain ⟨u', b', hb', hu, ht'⟩ := readMembers_sound n _ _ _ h
      refine ⟨a ++ ch ',' :: b ++ t ++ u', b', hb', ?_, .cons ha hb hv ht'⟩
      rw [hs, hsu, ht, hu]; simp
    split at h
    · rename_i hc
      cases h
      subst hc
      exact ⟨[], a, ha, hs, .nil⟩
    · cases h
end

theorem dropOne_sound (c : Byte) (s : Str) : ∃ m, (m = [] ∨ m = [c]) ∧ s = m ++ dropOne c s := by
  unfold dropOne
  split
  · exact ⟨[], .inl rfl, rfl⟩
  split
  · rename_i h; subst h; exact ⟨_, .inr rfl, rfl⟩
  · exact ⟨[], .inl rfl, rfl⟩

/-- What is accepted is a JSON text, perhaps after a byte order mark or a part of one, and perhaps with a null character
and more behind it. -/
theorem parse_sound {F : Floats} {s : Str} {d : JDoc} (h : parse F s = some d) :
    ∃ mark t rest, s = mark ++ t ++ rest ∧ mark.Sublist [0xEF#8, 0xBB#8, 0xBF#8] ∧ IsText F t d ∧
      (rest = [] ∨ rest.head? = some 0#8) := by
  unfold parse at h
  split at h
  · cases h
  rename_i d' r hv
  obtain ⟨t, ht, hv⟩ := readValue_sound _ _ _ _ hv
  obtain ⟨a, ha, hs⟩ := skip_sound (afterMark s)
  obtain ⟨m1, hm1, h1⟩ := dropOne_sound 0xEF#8 s
  obtain ⟨m2, hm2, h2⟩ := dropOne_sound 0xBB#8 (dropOne 0xEF#8 s)
  obtain ⟨m3, hm3, h3⟩ := dropOne_sound 0xBF#8 (dropOne 0xBB#8 (dropOne 0xEF#8 s))
  obtain ⟨b, hb, hr⟩ := skip_sound r
  have hmark : (m1 ++ m2 ++ m3).Sublist [0xEF#8, 0xBB#8, 0xBF#8] := by
    rcases hm1 with rfl | rfl <;> rcases hm2 with rfl | rfl <;> rcases hm3 with rfl | rfl <;> decide
  have hsm : s = (m1 ++ m2 ++ m3) ++ afterMark s := by
    rw [afterMark, List.append_assoc, List.append_assoc, ← h3, ← h2, ← h1]
  split at h
  · rename_i hn
    cases h
    refine ⟨_, a ++ t ++ b, [], ?_, hmark, .mk ha hv hb, .inl rfl⟩
    rw [hn, List.append_nil] at hr
    rw [List.append_nil, List.append_assoc a, ← hr, ← ht, ← hs, ← hsm]
  · rename_i c u hn
    split at h
    · rename_i hc
      cases h
      subst hc
      refine ⟨_, a ++ t ++ b, 0#8 :: u, ?_, hmark, .mk ha hv hb, .inr rfl⟩
      rw [List.append_assoc, List.append_assoc (a ++ t), ← hn, ← hr, List.append_assoc a, ← ht, ← hs, ← hsm]
    · cases h

end Verif.JsonText
