/-
What the writers write for a document is a JSON text of it, and has no null characters.
-/
import Verif.JsonText.Spec

namespace Verif.JsonText
open Verif.Path Verif.Serial Spec

/-! ### Strings and numbers -/

theorem escape_of (c : Byte) {t s : Str} (h : IsChars t s) : IsChars (escape c ++ t) (c :: s) := by
  unfold escape
  split
  · rename_i he; subst he; exact .esc (e := '"') (by decide) h
  split
  · rename_i he; subst he; exact .esc (e := '\\') (by decide) h
  split
  · rename_i he; subst he; exact .esc (e := 'b') (by decide) h
  split
  · rename_i he; subst he; exact .esc (e := 'f') (by decide) h
  split
  · rename_i he; subst he; exact .esc (e := 'n') (by decide) h
  split
  · rename_i he; subst he; exact .esc (e := 'r') (by decide) h
  split
  · rename_i he; subst he; exact .esc (e := 't') (by decide) h
  split
  · rename_i hl
    have hd : ∀ n < 16, Hex (hexDigit n) n := by
      intro n hn
      by_cases h10 : n < 10
      · rw [hexDigit, if_pos h10]; exact .digit h10
      · rw [hexDigit, if_neg h10]
        obtain ⟨m, rfl⟩ : ∃ m, n = 10 + m := ⟨n - 10, by omega⟩
        have := Hex.upper (n := m) (by omega)
        rwa [show 55 + (10 + m) = 65 + m by omega]
    have h4 : Hex4 [ch '0', ch '0', hexDigit (c.toNat / 16), hexDigit (c.toNat % 16)]
        (4096 * 0 + 256 * 0 + 16 * (c.toNat / 16) + c.toNat % 16) :=
      .mk (hd 0 (by omega)) (hd 0 (by omega)) (hd _ (by omega)) (hd _ (by omega))
    rw [show 4096 * 0 + 256 * 0 + 16 * (c.toNat / 16) + c.toNat % 16 = c.toNat by omega] at h4
    have hu : Utf8 c.toNat [c] := by
      have := Utf8.one (n := c.toNat) (by omega)
      rwa [BitVec.ofNat_toNat, BitVec.setWidth_eq] at this
    exact IsChars.unicode h4 (by omega) hu h
  · rename_i h1 h2 _ _ _ _ _ h3
    exact .plain (by omega) h1 h2 h

theorem chars_flat : ∀ s : Str, IsChars (s.flatMap escape) s
  | [] => .nil
  | c :: s => by rw [List.flatMap_cons]; exact escape_of c (chars_flat s)

theorem quoted_of (s : Str) : IsString (quoted s) s := .mk (chars_flat s)

theorem digit_ne {d : Nat} (h : d < 10) (h0 : 0 < d) : BitVec.ofNat 8 (48 + d) ≠ ch '0' := by
  revert d; decide

theorem lastDigits_of : ∀ (k n : Nat), n < k → IsDigits (lastDigits k n) n ∧
    (0 < n → (lastDigits k n).head? ≠ some (ch '0')) ∧ lastDigits k n ≠ []
  | 0, n, h => by omega
  | k + 1, n, h => by
    rw [lastDigits]
    by_cases h10 : n < 10
    · rw [if_pos h10]
      exact ⟨.one h10, fun h0 hh => digit_ne h10 h0 (by simpa using hh), by simp⟩
    · rw [if_neg h10]
      obtain ⟨h1, h2, h3⟩ := lastDigits_of k (n / 10) (by omega)
      refine ⟨?_, fun _ => ?_, by simp⟩
      · have := IsDigits.more h1 (d := n % 10) (by omega)
        rwa [show 10 * (n / 10) + n % 10 = n by omega] at this
      · rw [List.head?_append]
        cases hc : (lastDigits k (n / 10)).head? with
        | none => rw [List.head?_eq_none_iff] at hc; exact absurd hc h3
        | some c => have := h2 (by omega); rw [hc] at this; exact this

theorem digits_isNat (n : Nat) : IsNat (digits n) n := by
  by_cases h0 : n = 0
  · subst h0; exact .zero
  · obtain ⟨h1, h2, -⟩ := lastDigits_of (n + 1) n (by omega)
    exact .pos h1 (h2 (by omega))

theorem number_of (n : Int) : IsInt (number n) n := by
  unfold number
  split
  · rename_i h
    have := IsInt.neg (digits_isNat n.natAbs)
    rwa [show -(n.natAbs : Int) = n by omega] at this
  · rename_i h
    have := IsInt.nat (digits_isNat n.natAbs)
    rwa [show (n.natAbs : Int) = n by omega] at this

/-! ### Documents -/

theorem ws_indent (k : Nat) : Ws (0x0A#8 :: indent k) := by
  intro c hc
  rw [List.mem_cons] at hc
  rcases hc with rfl | hc
  · simp
  · rw [indent, List.mem_replicate] at hc
    exact .inl hc.2

theorem ws_nil : Ws [] := by intro c hc; cases hc

/-- Before the first value of an array or object. -/
theorem separator_first (pretty : Bool) (k : Nat) (a : Bool) : Ws (separator pretty k ⟨a, 0⟩) := by
  cases pretty <;> cases a <;> simp [separator, ws_nil, ws_indent]

/-- Before a further element. -/
theorem separator_array (pretty : Bool) (k n : Nat) :
    ∃ b, Ws b ∧ separator pretty k ⟨true, n + 1⟩ = ch ',' :: b := by
  cases pretty
  · exact ⟨[], ws_nil, by simp [separator]⟩
  · exact ⟨_, ws_indent k, by simp [separator]⟩

/-- Before a further name. -/
theorem separator_name (pretty : Bool) (k n : Nat) :
    ∃ b, Ws b ∧ separator pretty k ⟨false, 2 * n + 2⟩ = ch ',' :: b := by
  have h : (2 * n + 2) % 2 = 0 := by omega
  cases pretty
  · exact ⟨[], ws_nil, by simp [separator]⟩
  · exact ⟨_, ws_indent k, by simp [separator]⟩

/-- After a name. -/
theorem separator_colon (pretty : Bool) (k n : Nat) :
    ∃ b, Ws b ∧ separator pretty k ⟨false, 2 * n + 1⟩ = ch ':' :: b := by
  have h : ¬ (2 * n + 1) % 2 = 0 := by omega
  cases pretty
  · exact ⟨[], ws_nil, by simp [separator, h]⟩
  · exact ⟨[ch ' '], by intro c hc; rw [List.mem_singleton] at hc; exact .inl hc, by simp [separator, h]⟩

theorem run_append (F : Floats) (pretty : Bool) : ∀ (es fs : List (Ev JScalar)) (w : Writer),
    w.run F pretty (es ++ fs) = (w.run F pretty es).run F pretty fs
  | [], _, _ => rfl
  | e :: es, fs, w => run_append F pretty es fs (w.step F pretty e)

theorem run_cons (F : Floats) (pretty : Bool) (e : Ev JScalar) (es : List (Ev JScalar)) (w : Writer) :
    w.run F pretty (e :: es) = (w.step F pretty e).run F pretty es := rfl

theorem pre_level (pretty : Bool) (o : Str) (l : Level) (ls : List Level) :
    Writer.pre pretty ⟨o, l :: ls⟩ = ⟨o ++ separator pretty (ls.length + 1) l, ⟨l.array, l.count + 1⟩ :: ls⟩ := rfl

/-- Before the end of an array or object. -/
theorem ws_close (pretty : Bool) (n k : Nat) : Ws (if pretty && n != 0 then [0x0A#8] ++ indent k else []) := by
  split
  · exact ws_indent k
  · exact ws_nil

mutual
/-- A document is written after what goes before a value. -/
theorem run_value {F : Floats} (hF : Printable F) (pretty : Bool) : ∀ (d d' : JDoc), fits d = true → reread F d = some d' →
    ∀ (w : Writer), ∃ t, IsValue F t d' ∧ w.run F pretty (events d) = (w.pre pretty).put t
  | .null, d', _, hr, w => by
    simp only [reread, Option.some.injEq] at hr; subst hr
    exact ⟨_, .null, rfl⟩
  | .scalar (.bool true), d', _, hr, w => by
    simp only [reread, Option.some.injEq] at hr; subst hr
    exact ⟨_, .true, rfl⟩
  | .scalar (.bool false), d', _, hr, w => by
    simp only [reread, Option.some.injEq] at hr; subst hr
    exact ⟨_, .false, rfl⟩
  | .scalar (.int n), d', hf, hr, w => by
    simp only [reread, Option.some.injEq] at hr; subst hr
    simp only [fits, Bool.and_eq_true, decide_eq_true_eq] at hf
    exact ⟨_, .int (number_of n) hf.1 hf.2, rfl⟩
  | .scalar (.str s), d', _, hr, w => by
    simp only [reread, Option.some.injEq] at hr; subst hr
    exact ⟨_, .str (quoted_of s), rfl⟩
  | .scalar (.dbl b), d', _, hr, w => by
    simp only [reread] at hr
    by_cases hb : finite b = true
    · rw [if_pos hb, Option.map_eq_some_iff] at hr
      obtain ⟨b', hr, rfl⟩ := hr
      exact ⟨_, .real (hF b hb) hr, by simp [events, Writer.run, Writer.step, scalarText, hb]⟩
    · rw [if_neg hb] at hr; cases hr
  | .arr [], d', _, hr, w => by
    simp only [reread, rereadAll, Option.map_some, Option.some.injEq] at hr; subst hr
    refine ⟨_, .emptyArr ws_nil, ?_⟩
    simp [events, eventsArr, Writer.run, Writer.step, Writer.close, Writer.put]
  | .arr (d :: ds), d', hf, hr, w => by
    simp only [fits, fitsAll, Bool.and_eq_true] at hf
    simp only [reread, rereadAll] at hr
    cases h1 : reread F d with
    | none => rw [h1] at hr; cases hr
    | some e =>
      cases h2 : rereadAll F ds with
      | none => rw [h1, h2] at hr; cases hr
      | some es =>
        rw [h1, h2, Option.map_some, Option.some.injEq] at hr; subst hr
        let w1 : Writer := ⟨(w.pre pretty).out ++ [ch '['], ⟨true, 0⟩ :: (w.pre pretty).levels⟩
        obtain ⟨t, ht, hrun⟩ := run_value hF pretty d e hf.1 h1 w1
        obtain ⟨u, n, hu, hrun'⟩ := run_tail hF pretty ds es hf.2 h2 0
          (w1.out ++ separator pretty ((w.pre pretty).levels.length + 1) ⟨true, 0⟩ ++ t) (w.pre pretty).levels
        refine ⟨_, .arr (separator_first pretty ((w.pre pretty).levels.length + 1) true) ht hu
          (ws_close pretty (n + 1) (w.pre pretty).levels.length), ?_⟩
        have hw : w.run F pretty (events (.arr (d :: ds))) =
            ((w1.run F pretty (events d)).run F pretty (eventsArr ds)).run F pretty [.endSeq] := by
          rw [events, eventsArr, List.cons_append, run_cons, run_append, run_append]
          rfl
        rw [hw, hrun, pre_level]
        simp only [Writer.put]
        rw [hrun']
        simp [Writer.run, Writer.step, Writer.close, w1]
  | .obj [], d', _, hr, w => by
    simp only [reread, rereadMembers, Option.map_some, Option.some.injEq] at hr; subst hr
    refine ⟨_, .emptyObj ws_nil, ?_⟩
    simp [events, eventsObj, Writer.run, Writer.step, Writer.close, Writer.put]
  | .obj ((k, d) :: ms), d', hf, hr, w => by
    simp only [fits, fitsMembers, Bool.and_eq_true] at hf
    simp only [reread, rereadMembers] at hr
    cases h1 : reread F d with
    | none => rw [h1] at hr; cases hr
    | some e =>
      cases h2 : rereadMembers F ms with
      | none => rw [h1, h2] at hr; cases hr
      | some es =>
        rw [h1, h2, Option.map_some, Option.some.injEq] at hr; subst hr
        let ls := (w.pre pretty).levels
        let o1 := (w.pre pretty).out ++ [ch '{'] ++ separator pretty (ls.length + 1) ⟨false, 0⟩
        let w1 : Writer := ⟨o1 ++ quoted k, ⟨false, 1⟩ :: ls⟩
        obtain ⟨t, ht, hrun⟩ := run_value hF pretty d e hf.1 h1 w1
        obtain ⟨b, hb, hsep⟩ := separator_colon pretty (ls.length + 1) 0
        obtain ⟨u, n, hu, hrun'⟩ := run_members hF pretty ms es hf.2 h2 0 (o1 ++ quoted k ++ ch ':' :: b ++ t) ls
        refine ⟨_, .obj (separator_first pretty (ls.length + 1) false) (.mk (quoted_of k) ws_nil hb ht) hu
          (ws_close pretty (n + 1) ls.length), ?_⟩
        have hw : w.run F pretty (events (.obj ((k, d) :: ms))) =
            ((w1.run F pretty (events d)).run F pretty (eventsObj ms)).run F pretty [.endMap] := by
          rw [events, eventsObj, List.cons_append, run_cons, run_append, List.cons_append,
            run_cons F pretty (.key k), run_append]
          rfl
        rw [hw, hrun, pre_level, hsep]
        simp only [Writer.put]
        rw [hrun']
        simp [Writer.run, Writer.step, Writer.close, o1, ls]
/-- Further elements. -/
theorem run_tail {F : Floats} (hF : Printable F) (pretty : Bool) : ∀ (ds ds' : List JDoc), fitsAll ds = true →
    rereadAll F ds = some ds' → ∀ (n : Nat) (o : Str) (ls : List Level), ∃ u m, IsTail F u ds' ∧
      Writer.run F pretty ⟨o, ⟨true, n + 1⟩ :: ls⟩ (eventsArr ds) = ⟨o ++ u, ⟨true, m + 1⟩ :: ls⟩
  | [], ds', _, hr, n, o, ls => by
    simp only [rereadAll, Option.some.injEq] at hr; subst hr
    exact ⟨[], n, .nil, by simp [eventsArr, Writer.run]⟩
  | d :: ds, ds', hf, hr, n, o, ls => by
    simp only [fitsAll, Bool.and_eq_true] at hf
    simp only [rereadAll] at hr
    cases h1 : reread F d with
    | none => rw [h1] at hr; cases hr
    | some e =>
      cases h2 : rereadAll F ds with
      | none => rw [h1, h2] at hr; cases hr
      | some es =>
        rw [h1, h2, Option.some.injEq] at hr; subst hr
        obtain ⟨t, ht, hrun⟩ := run_value hF pretty d e hf.1 h1 ⟨o, ⟨true, n + 1⟩ :: ls⟩
        obtain ⟨b, hb, hsep⟩ := separator_array pretty (ls.length + 1) n
        obtain ⟨u, m, hu, hrun'⟩ := run_tail hF pretty ds es hf.2 h2 (n + 1) (o ++ ch ',' :: b ++ t) ls
        refine ⟨_, m, .cons ws_nil hb ht hu, ?_⟩
        rw [eventsArr, run_append, hrun, pre_level, hsep]
        simp only [Writer.put]
        rw [hrun']
        simp
/-- Further members. -/
theorem run_members {F : Floats} (hF : Printable F) (pretty : Bool) : ∀ (ms ms' : List (Str × JDoc)), fitsMembers ms = true →
    rereadMembers F ms = some ms' → ∀ (n : Nat) (o : Str) (ls : List Level), ∃ u m, IsMembers F u ms' ∧
      Writer.run F pretty ⟨o, ⟨false, 2 * n + 2⟩ :: ls⟩ (eventsObj ms) = ⟨o ++ u, ⟨false, m + 1⟩ :: ls⟩
  | [], ms', _, hr, n, o, ls => by
    simp only [rereadMembers, Option.some.injEq] at hr; subst hr
    exact ⟨[], 2 * n + 1, .nil, by simp [eventsObj, Writer.run]⟩
  | (k, d) :: ms, ms', hf, hr, n, o, ls => by
    simp only [fitsMembers, Bool.and_eq_true] at hf
    simp only [rereadMembers] at hr
    cases h1 : reread F d with
    | none => rw [h1] at hr; cases hr
    | some e =>
      cases h2 : rereadMembers F ms with
      | none => rw [h1, h2] at hr; cases hr
      | some es =>
        rw [h1, h2, Option.some.injEq] at hr; subst hr
        obtain ⟨a, ha, hname⟩ := separator_name pretty (ls.length + 1) n
        obtain ⟨b, hb, hsep⟩ := separator_colon pretty (ls.length + 1) (n + 1)
        obtain ⟨t, ht, hrun⟩ := run_value hF pretty d e hf.1 h1 ⟨o ++ ch ',' :: a ++ quoted k, ⟨false, 2 * (n + 1) + 1⟩ :: ls⟩
        obtain ⟨u, m, hu, hrun'⟩ := run_members hF pretty ms es hf.2 h2 (n + 1)
          (o ++ ch ',' :: a ++ quoted k ++ ch ':' :: b ++ t) ls
        refine ⟨_, m, .cons ws_nil ha (.mk (quoted_of k) ws_nil hb ht) hu, ?_⟩
        have hstep : Writer.step F pretty ⟨o, ⟨false, 2 * n + 2⟩ :: ls⟩ (.key k) =
            ⟨o ++ ch ',' :: a ++ quoted k, ⟨false, 2 * (n + 1) + 1⟩ :: ls⟩ := by
          simp only [Writer.step, pre_level, hname, Writer.put]
          congr 1
        rw [eventsObj, List.cons_append, run_cons, run_append, hstep, hrun, pre_level, hsep]
        simp only [Writer.put]
        rw [show 2 * (n + 1) + 1 + 1 = 2 * (n + 1) + 2 by omega, hrun']
        simp
end

/-! ### Null characters -/

def NoNull (s : Str) : Prop := ∀ c ∈ s, c ≠ 0#8

theorem noNull_nil : NoNull [] := by intro c hc; cases hc

theorem noNull_append {s t : Str} (hs : NoNull s) (ht : NoNull t) : NoNull (s ++ t) := by
  intro c hc
  rw [List.mem_append] at hc
  exact hc.elim (hs c) (ht c)

theorem noNull_cons {c : Byte} {t : Str} (hc : c ≠ 0#8) (ht : NoNull t) : NoNull (c :: t) := by
  intro x hx
  rw [List.mem_cons] at hx
  rcases hx with rfl | hx
  · exact hc
  · exact ht x hx

theorem noNull_ws {a : Str} (h : Ws a) : NoNull a := by
  intro c hc
  rcases h c hc with rfl | rfl | rfl | rfl <;> decide

theorem noNull_hex {c : Byte} {n : Nat} (h : Hex c n) : c ≠ 0#8 := by
  cases h with
  | digit h => revert h; revert n; decide
  | @upper n h => revert h; revert n; decide
  | @lower n h => revert h; revert n; decide

theorem noNull_hex4 {h : Str} {n : Nat} (hh : Hex4 h n) : NoNull h := by
  cases hh with
  | mk ha hb hc hd =>
    exact noNull_cons (noNull_hex ha) (noNull_cons (noNull_hex hb) (noNull_cons (noNull_hex hc)
      (noNull_cons (noNull_hex hd) noNull_nil)))

theorem noNull_chars {t s : Str} (h : IsChars t s) : NoNull t := by
  induction h with
  | nil => exact noNull_nil
  | plain h1 _ _ _ ih => exact noNull_cons (fun he => by subst he; revert h1; decide) ih
  | esc he _ ih =>
    refine noNull_cons (by decide) (noNull_cons ?_ ih)
    simp only [escapes, List.mem_cons, List.not_mem_nil, or_false, Prod.mk.injEq] at he
    rcases he with ⟨rfl, rfl⟩ | ⟨rfl, rfl⟩ | ⟨rfl, rfl⟩ | ⟨rfl, rfl⟩ | ⟨rfl, rfl⟩ | ⟨rfl, rfl⟩ | ⟨rfl, rfl⟩ | ⟨rfl, rfl⟩ <;>
      decide
  | unicode h _ _ _ ih => exact noNull_cons (by decide) (noNull_cons (by decide) (noNull_append (noNull_hex4 h) ih))
  | pair h l _ _ _ _ _ _ ih =>
    exact noNull_cons (by decide) (noNull_cons (by decide) (noNull_append (noNull_hex4 h)
      (noNull_cons (by decide) (noNull_cons (by decide) (noNull_append (noNull_hex4 l) ih)))))

theorem noNull_string {t s : Str} (h : IsString t s) : NoNull t := by
  cases h with
  | mk h => exact noNull_cons (by decide) (noNull_append (noNull_chars h) (noNull_cons (by decide) noNull_nil))

theorem noNull_digit {d : Nat} (h : d < 10) : BitVec.ofNat 8 (48 + d) ≠ 0#8 := by revert d; decide

theorem noNull_digits {t : Str} {n : Nat} (h : IsDigits t n) : NoNull t := by
  induction h with
  | one h => exact noNull_cons (noNull_digit h) noNull_nil
  | more _ h ih => exact noNull_append ih (noNull_cons (noNull_digit h) noNull_nil)

theorem noNull_nat {t : Str} {n : Nat} (h : IsNat t n) : NoNull t := by
  cases h with
  | zero => exact noNull_cons (by decide) noNull_nil
  | pos h _ => exact noNull_digits h

theorem noNull_int {t : Str} {n : Int} (h : IsInt t n) : NoNull t := by
  cases h with
  | nat h => exact noNull_nat h
  | neg h => exact noNull_cons (by decide) (noNull_nat h)

theorem noNull_real {t : Str} (h : IsReal t) : NoNull t := by
  cases h with
  | mk ht hf he =>
    refine noNull_append (noNull_append (noNull_int ht) ?_) ?_
    · cases hf with
      | none => exact noNull_nil
      | some h => exact noNull_cons (by decide) (noNull_digits h)
    · cases he with
      | none => exact noNull_nil
      | some hc hs h =>
        refine noNull_cons (by rcases hc with rfl | rfl <;> decide) (noNull_append ?_ (noNull_digits h))
        rcases hs with rfl | rfl | rfl
        · exact noNull_nil
        · exact noNull_cons (by decide) noNull_nil
        · exact noNull_cons (by decide) noNull_nil

mutual
/-- No JSON text has a null character. -/
theorem noNull_value {F : Floats} : ∀ {t : Str} {d : JDoc}, IsValue F t d → NoNull t
  | _, _, .null => by unfold NoNull; decide
  | _, _, .true => by unfold NoNull; decide
  | _, _, .false => by unfold NoNull; decide
  | _, _, .str h => noNull_string h
  | _, _, .int h _ _ => noNull_int h
  | _, _, .bigInt h _ _ => noNull_int h
  | _, _, .real h _ => noNull_real h
  | _, _, .emptyArr ha => noNull_cons (by decide) (noNull_append (noNull_ws ha) (noNull_cons (by decide) noNull_nil))
  | _, _, .arr ha hv ht hb => noNull_cons (by decide) (noNull_append (noNull_append (noNull_append
      (noNull_append (noNull_ws ha) (noNull_value hv)) (noNull_tail ht)) (noNull_ws hb)) (noNull_cons (by decide) noNull_nil))
  | _, _, .emptyObj ha => noNull_cons (by decide) (noNull_append (noNull_ws ha) (noNull_cons (by decide) noNull_nil))
  | _, _, .obj ha hv ht hb => noNull_cons (by decide) (noNull_append (noNull_append (noNull_append
      (noNull_append (noNull_ws ha) (noNull_member hv)) (noNull_members ht)) (noNull_ws hb))
        (noNull_cons (by decide) noNull_nil))
theorem noNull_tail {F : Floats} : ∀ {t : Str} {ds : List JDoc}, IsTail F t ds → NoNull t
  | _, _, .nil => noNull_nil
  | _, _, .cons ha hb hv ht => noNull_append (noNull_append (noNull_append (noNull_ws ha)
      (noNull_cons (by decide) (noNull_ws hb))) (noNull_value hv)) (noNull_tail ht)
theorem noNull_member {F : Floats} : ∀ {t : Str} {m : Str × JDoc}, IsMember F t m → NoNull t
  | _, _, .mk hs ha hb hv => noNull_append (noNull_append (noNull_append (noNull_string hs) (noNull_ws ha))
      (noNull_cons (by decide) (noNull_ws hb))) (noNull_value hv)
theorem noNull_members {F : Floats} : ∀ {t : Str} {ms : List (Str × JDoc)}, IsMembers F t ms → NoNull t
  | _, _, .nil => noNull_nil
  | _, _, .cons ha hb hv ht => noNull_append (noNull_append (noNull_append (noNull_ws ha)
      (noNull_cons (by decide) (noNull_ws hb))) (noNull_member hv)) (noNull_members ht)
end

theorem cString_eq {s : Str} (h : NoNull s) : cString s = s := by
  induction s with
  | nil => rfl
  | cons c s ih =>
    have hc : (c != 0#8) = true := by simpa using h c List.mem_cons_self
    have := ih fun x hx => h x (List.mem_cons_of_mem _ hx)
    simp only [cString, List.takeWhile_cons, hc, if_true] at this ⊢
    rw [this]

/-- The text of `dump` and `pretty_dump`. -/
theorem dumpText_of {F : Floats} (hF : Printable F) (pretty : Bool) {d d' : JDoc} (hf : fits d = true)
    (hr : reread F d = some d') : IsValue F (dumpText F pretty (events d)) d' := by
  obtain ⟨t, ht, hrun⟩ := run_value hF pretty d d' hf hr ⟨[], []⟩
  rw [dumpText, hrun]
  simp only [Writer.pre, Writer.put, List.nil_append]
  rw [cString_eq (noNull_value ht)]
  exact ht

end Verif.JsonText
