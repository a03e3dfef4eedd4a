import Verif.Macros.Lemmas
/-! C112: what the macros for enumerations expand to. -/

namespace Verif.Macros
open Spec

variable {c : Cfg}

/-! ### Names -/

theorem reads_clean {t : Text} {s : String} (h : Reads t s) : Clean t := by
  have key : Tok.comma ∉ t ∧ t.head? ≠ some .sp ∧ t.getLast? ≠ some .sp ∧ t ≠ [] := by
    induction h with
    | word w => simp
    | beside w _ ih =>
      obtain ⟨h1, -, h3, h4⟩ := ih
      refine ⟨by simp [h1], by simp, ?_, by simp⟩
      rw [List.getLast?_cons]
      cases ht : List.getLast? _ with
      | none => simp at ht; exact absurd ht h4
      | some x => rw [ht] at h3; simpa using h3
    | @apart t s w k _ ih =>
      obtain ⟨h1, -, h3, h4⟩ := ih
      refine ⟨?_, by simp, ?_, by simp⟩
      · simp only [List.mem_cons, List.mem_append, List.mem_replicate]
        simp [h1]
      · rw [List.getLast?_cons, List.getLast?_append]
        cases ht : t.getLast? with
        | none => simp at ht; exact absurd ht h4
        | some x => rw [ht] at h3; simpa using h3
  exact ⟨key.1, key.2.1, key.2.2.1⟩

theorem spell_rep (k : Nat) (t : Text) (h : t.head? ≠ some .sp) :
    spell (List.replicate (k + 1) .sp ++ t) = " " ++ spell t := by
  induction k with
  | zero =>
    cases t with
    | nil => simp [spell, spellTok]
    | cons x t => cases x <;> simp_all [spell, spellTok]
  | succ k ih =>
    rw [List.replicate_succ, List.replicate_succ, List.cons_append, List.cons_append, spell]
    rw [List.replicate_succ, List.cons_append] at ih
    exact ih

theorem reads_spell {t : Text} {s : String} (h : Reads t s) : spell t = s := by
  induction h with
  | word w => simp [spell, spellTok]
  | beside w _ ih => simp [spell, spellTok, ih]
  | apart w k h ih =>
    rw [spell, spellTok, spell_rep k _ (reads_clean h).2.1, ih, String.append_assoc]
    simp

theorem stringize {t : Text} {s : String} (h : Reads t s) : STRINGIZE t = .ok [.quoted s] := by
  rw [STRINGIZE, call1_text _ (reads_clean h), boostStringize, reads_spell h]

/-! ### Enumerations -/

theorem size_minus_one {l : Text} {a : Text} {as : List Text} (h : Written l (a :: as)) (ha : a ≠ [])
    (hl : as.length + 1 ≤ c.tupleLimit) : TUPLE_SIZE_MINUS_ONE c [.paren l] = .ok as.length := by
  rw [TUPLE_SIZE_MINUS_ONE, call1_text _ (clean_paren l), tuple_size h ha hl]
  rfl

theorem push_back {l e : Text} (he : Clean e) :
    TUPLE_PUSH_BACK [.paren l] e = .ok [.paren (l ++ .comma :: e)] := by
  rw [TUPLE_PUSH_BACK, call2_tt _ (clean_paren l) he]
  rfl

theorem written_snoc {l e : Text} {as : List Text} (h : Written l as) (he : Clean e) :
    Written (l ++ .comma :: e) (as ++ [e]) := by
  induction h with
  | one h => exact .more h (.one (padded_self he))
  | more h _ ih => rw [List.append_assoc, List.cons_append]; exact .more h ih

/-- The tuple of a written enumerator after `KL_TUPLE_EXTEND_BY_FIRST`. -/
theorem extend_single {l a : Text} (h : Written l [a]) (ha : a ≠ []) (hl : 1 ≤ c.tupleLimit) :
    TUPLE_EXTEND_BY_FIRST_IMPL c [.paren l] = .ok [.paren (l ++ .comma :: a)] := by
  have hc : Clean a := written_clean h a (by simp)
  rw [TUPLE_EXTEND_BY_FIRST_IMPL, call1_text _ (clean_paren l), size_minus_one h ha hl, ok_bind,
    call1_text _ (clean_paren l), tuple_elem h hl (by rfl : [a][0]? = some a), ok_bind,
    call2_tc _ (clean_paren l) hc, push_back hc, ok_bind, call2_tc _ (clean_paren l) (clean_paren _),
    IF, call2_tt _ (clean_paren l) (clean_paren _)]
  rfl

theorem extend_more {l a b : Text} {as : List Text} (h : Written l (a :: b :: as)) (ha : a ≠ [])
    (hl : as.length + 2 ≤ c.tupleLimit) :
    TUPLE_EXTEND_BY_FIRST_IMPL c [.paren l] = .ok [.paren l] := by
  have hc : Clean a := written_clean h a (by simp)
  rw [TUPLE_EXTEND_BY_FIRST_IMPL, call1_text _ (clean_paren l), size_minus_one h ha (by simpa using hl), ok_bind,
    call1_text _ (clean_paren l), tuple_elem h (by simpa using hl) (by rfl : (a :: b :: as)[0]? = some a), ok_bind,
    call2_tc _ (clean_paren l) hc, push_back hc, ok_bind, call2_tc _ (clean_paren l) (clean_paren _),
    IF, call2_tt _ (clean_paren l) (clean_paren _)]
  simp [boostIf]

theorem arg_to_tuple_paren (l : Text) : ARG_TO_TUPLE [.paren l] = .ok [.paren l] := by
  rw [ARG_TO_TUPLE, call1_text _ (clean_paren l)]
  simp [boostRemoveParens]

theorem arg_to_tuple_plain {t : Text} (h : Clean t) (hp : ∀ l rest, t ≠ .paren l :: rest) :
    ARG_TO_TUPLE t = .ok [.paren t] := by
  rw [ARG_TO_TUPLE, call1_text _ h]
  have : boostRemoveParens t = .ok t := by
    unfold boostRemoveParens
    split
    · rename_i l rest; exact absurd rfl (hp l rest)
    · rfl
  rw [this]; rfl

/-- The entry of the table. -/
def entry (name : String) (p : String × String) : Text :=
  [.word "{", .word name, .word "::", .word p.1, .comma, .quoted p.2, .word "}", .comma]

theorem pair2 {name v s : String} {l n : Text} {more : List Text}
    (h : Written l ([.word v] :: n :: more)) (hn : Reads n s) (hl : more.length + 2 ≤ c.tupleLimit) :
    REFLECTION_PAIR2 c [.word name] [.paren l] = .ok (entry name (v, s)) := by
  rw [REFLECTION_PAIR2, call1_text _ (clean_paren l), tuple_elem h (by simpa using hl) (by rfl), ok_bind,
    call1_text _ (clean_paren l),
    tuple_elem h (by simpa using hl) (by rfl : ([Tok.word v] :: n :: more)[1]? = some n), ok_bind,
    call1_call _ (reads_clean hn), stringize hn, ok_bind]
  rfl

theorem pair {name : String} {e : Text} {p : String × String} (h : Enumerator c.tupleLimit e p)
    (hl : 2 ≤ c.tupleLimit) : REFLECTION_PAIR c [.word name] e = .ok (entry name p) := by
  cases h with
  | plain v =>
    rw [REFLECTION_PAIR, call1_text _ (clean_word v), TUPLE_EXTEND_BY_FIRST, call1_text _ (clean_word v),
      arg_to_tuple_plain (clean_word v) (by simp), ok_bind, call1_call _ (clean_paren _),
      extend_single (.one (padded_self (clean_word v))) (by simp) (by omega), ok_bind,
      call2_tc _ (clean_word name) (clean_paren _),
      pair2 (written_snoc (.one (padded_self (clean_word v))) (clean_word v)) (.word v) (by simpa using hl)]
  | @wrapped l v hw =>
    rw [REFLECTION_PAIR, call1_text _ (clean_paren l), TUPLE_EXTEND_BY_FIRST, call1_text _ (clean_paren l),
      arg_to_tuple_paren, ok_bind, call1_call _ (clean_paren _),
      extend_single hw (by simp) (by omega), ok_bind,
      call2_tc _ (clean_word name) (clean_paren _),
      pair2 (written_snoc hw (clean_word v)) (.word v) (by simpa using hl)]
  | @named l n more v s hw hn hm =>
    rw [REFLECTION_PAIR, call1_text _ (clean_paren l), TUPLE_EXTEND_BY_FIRST, call1_text _ (clean_paren l),
      arg_to_tuple_paren, ok_bind, call1_call _ (clean_paren _),
      extend_more hw (by simp) hm, ok_bind,
      call2_tc _ (clean_word name) (clean_paren _), pair2 hw hn hm]

theorem enumerator_clean {lim : Nat} {e : Text} {p : String × String} (h : Enumerator lim e p) :
    Clean e := by cases h <;> simp

theorem enumerators_clean {lim : Nat} {es : List Text} {ps : List (String × String)}
    (h : Enumerators lim es ps) : ∀ e ∈ es, Clean e := by
  induction h with
  | nil => simp
  | cons h _ ih => simp only [List.mem_cons, forall_eq_or_imp]; exact ⟨enumerator_clean h, ih⟩

theorem enumerators_length {lim : Nat} {es : List Text} {ps : List (String × String)}
    (h : Enumerators lim es ps) : es.length = ps.length := by
  induction h with
  | nil => rfl
  | cons _ _ ih => simp [ih]

theorem enumerators_at {lim : Nat} {es : List Text} {ps : List (String × String)}
    (h : Enumerators lim es ps) : ∀ (j : Nat) (p : String × String), ps[j]? = some p →
      ∃ e, es[j]? = some e ∧ Enumerator lim e p := by
  induction h with
  | nil => simp
  | @cons e es p ps h _ ih =>
    intro j q hj
    cases j with
    | zero => simp only [List.getElem?_cons_zero, Option.some.injEq] at hj; subst hj; exact ⟨e, rfl, h⟩
    | succ j => simpa using ih j q (by simpa using hj)

/-- The walk along a sequence. -/
theorem seqElems_rep (k : Nat) (t : Text) : seqElems (List.replicate k .sp ++ t) = seqElems t := by
  induction k with
  | zero => rfl
  | succ k ih => rw [List.replicate_succ, List.cons_append, seqElems, ih]

theorem seq_elems {t : Text} {as : List Text} (h : Sequence t as) : seqElems t = .ok as := by
  induction h with
  | nil k => simpa [seqElems] using seqElems_rep k []
  | @cons t l a as k hp _ ih =>
    rw [seqElems_rep, seqElems, args_written (.one hp)]
    simp [ih]

/-- What a sequence is when it is handed on: without the whitespace around it. -/
theorem seq_comma {t : Text} {as : List Text} (h : Sequence t as) : Tok.comma ∉ t := by
  induction h with
  | nil k => simp [List.mem_replicate]
  | cons k _ _ ih => simp [List.mem_append, List.mem_replicate, ih]

theorem trimL_seq {t : Text} {as : List Text} (h : Sequence t as) : Sequence (trimL t) as := by
  cases h with
  | nil k =>
    have := trimL_rep k []
    simp only [List.append_nil] at this
    rw [this]; exact .nil 0
  | @cons t l a as k hp hs =>
    rw [trimL_rep]
    exact .cons 0 hp hs

theorem snoc_sp {t : Text} {as : List Text} (h : Sequence t as) : ∀ {u : Text}, t = u ++ [.sp] → Sequence u as := by
  induction h with
  | nil k =>
    intro u hu
    cases k with
    | zero => simp at hu
    | succ k =>
      rw [List.replicate_succ'] at hu
      have := List.append_inj' hu (by rfl)
      rw [← this.1]; exact .nil k
  | @cons t l a as k hp hs ih =>
    intro u hu
    rcases List.eq_nil_or_concat t with rfl | ⟨t', x, rfl⟩
    · have h2 := List.append_inj' hu (by rfl)
      simp at h2
    · have h2 : (List.replicate k Tok.sp ++ Tok.paren l :: t') ++ [x] = u ++ [.sp] := by
        rw [← hu]; simp
      have h3 := List.append_inj' h2 (by rfl)
      simp only [List.cons.injEq, and_true] at h3
      obtain ⟨rfl, rfl⟩ := h3
      exact .cons k hp (ih (by simp))

theorem trimR_seq : ∀ (n : Nat) {t : Text} {as : List Text}, t.length ≤ n → Sequence t as →
    Sequence (trimL t.reverse).reverse as
  | n, t, as, hn, h => by
    rcases List.eq_nil_or_concat t with rfl | ⟨t', x, rfl⟩
    · exact h
    · by_cases hx : x = .sp
      · subst hx
        cases n with
        | zero => simp at hn
        | succ n =>
          rw [List.concat_eq_append, List.reverse_append]
          show Sequence (trimL (.sp :: t'.reverse)).reverse as
          rw [trimL]
          exact trimR_seq n (by simp at hn; omega) (snoc_sp h (by simp))
      · rw [List.concat_eq_append, List.reverse_append]
        show Sequence (trimL (x :: t'.reverse)).reverse as
        rw [trimL_of_head (by simpa using hx)]
        simpa using h

theorem trim_seq {t : Text} {as : List Text} (h : Sequence t as) : Sequence (trim t) as := by
  rw [trim]
  exact trimR_seq _ (Nat.le_refl _) (trimL_seq h)

theorem trimL_head (t : Text) : (trimL t).head? ≠ some .sp := by
  induction t with
  | nil => simp [trimL]
  | cons x t ih =>
    by_cases hx : x = .sp
    · subst hx; rw [trimL]; exact ih
    · rw [trimL_of_head (by simpa using hx)]; simpa using hx

theorem trimL_comma {t : Text} (h : Tok.comma ∉ t) : Tok.comma ∉ trimL t := by
  induction t with
  | nil => simp [trimL]
  | cons x t ih =>
    simp only [List.mem_cons, not_or] at h
    by_cases hx : x = .sp
    · subst hx; rw [trimL]; exact ih h.2
    · rw [trimL_of_head (by simpa using hx)]
      simp only [List.mem_cons, not_or]; exact h

theorem trimL_last (t : Text) : (trimL t).getLast? = none ∨ (trimL t).getLast? = t.getLast? := by
  induction t with
  | nil => simp [trimL]
  | cons x t ih =>
    by_cases hx : x = .sp
    · subst hx; rw [trimL]
      rcases ih with h | h
      · exact .inl h
      · cases t with
        | nil => simp [trimL]
        | cons y t => right; rw [h]; simp [List.getLast?_cons]
    · rw [trimL_of_head (by simpa using hx)]; exact .inr rfl

theorem trim_is_clean {t : Text} (h : Tok.comma ∉ t) : Clean (trim t) := by
  refine ⟨?_, ?_, ?_⟩
  · rw [trim, List.mem_reverse]
    apply trimL_comma
    rw [List.mem_reverse]
    exact trimL_comma h
  · rw [trim, List.head?_reverse]
    rcases trimL_last (trimL t).reverse with h1 | h1
    · rw [h1]; simp
    · rw [h1, List.getLast?_reverse]; exact trimL_head t
  · rw [trim, List.getLast?_reverse]; exact trimL_head _

/-- The body of `KL_REFLECT_ENUM_SEQ` for a sequence of enumerators. -/
theorem pairs {name : String} {t : Text} {es : List Text} {ps : List (String × String)}
    (ht : Clean t) (hs : Sequence t es) (he : Enumerators c.tupleLimit es ps) (hne : es ≠ [])
    (h2 : 2 ≤ c.tupleLimit) (hq : es.length ≤ c.seqLimit) (hr : es.length ≤ c.repeatLimit) :
    REFLECTION_PAIRS c [.word name] t = .ok (table name ps) := by
  have hsize : SEQ_SIZE c t = .ok es.length := by
    rw [SEQ_SIZE, call1_text _ ht]
    simp [boostSeqSize, seq_elems hs, hne, hq]
  rw [REFLECTION_PAIRS, call2_tt _ (clean_word name) ht, SEQ_FOR_EACH2, call1_text _ ht, hsize, ok_bind,
    call2_tt _ (clean_word name) ht, boostRepeat, if_pos hr, enumerators_length he]
  have : table name ps = ps.flatMap (entry name) := rfl
  rw [this]
  refine repeat_list ps (entry name) 0 ?_
  intro j p hj
  obtain ⟨e, hje, hen⟩ := enumerators_at he j p hj
  rw [Nat.zero_add, SEQ_LOOP_INVOKER2, call1_call _ ht, SEQ_ELEM, call1_text _ ht]
  simp only [boostSeqElem, seq_elems hs, ok_bind, hje]
  rw [call2_cc _ (clean_word name) (enumerator_clean hen), pair hen h2]

theorem reflect_enum_seq {name : String} {t : Text} {es : List Text} {ps : List (String × String)}
    (ht : Clean t) (hs : Sequence t es) (he : Enumerators c.tupleLimit es ps) (hne : es ≠ [])
    (h2 : 2 ≤ c.tupleLimit) (hq : es.length ≤ c.seqLimit) (hr : es.length ≤ c.repeatLimit) :
    REFLECT_ENUM_SEQ c [.word name] t = .ok (enumText name ps) := by
  rw [REFLECT_ENUM_SEQ, call1_text _ (clean_word name), NSNAME, call1_text _ (clean_word name)]
  simp only [boostCat, ok_bind]
  rw [call2_tt _ (clean_word name) ht, pairs ht hs he hne h2 hq hr, ok_bind,
    call1_text _ (clean_word name), stringize (.word name), ok_bind]
  simp [enumText, ws]

theorem sequence_map {es : List Text} (h : ∀ e ∈ es, Clean e) : Sequence (es.map Tok.paren) es := by
  induction es with
  | nil => exact .nil 0
  | cons e es ih =>
    exact .cons 0 (padded_self (h e (by simp))) (ih fun x hx => h x (by simp [hx]))

theorem clean_map (es : List Text) : Clean (es.map Tok.paren) := by
  refine ⟨by simp, ?_, ?_⟩
  · cases es <;> simp
  · rw [List.getLast?_map]; cases es.getLast? <;> simp

/-- C112: for every enumeration and every list of enumerators, written in any of the documented
ways and with any whitespace, `KL_REFLECT_ENUM` expands to the documented text: the table has one
entry for each enumerator, in order, with the enumerator and the name it was given. -/
theorem C112_enum (t : Text) (name : String) (es : List Text) (ps : List (String × String))
    (ht : Written t ([.word name] :: es)) (he : Enumerators c.tupleLimit es ps) (hne : es ≠ [])
    (h2 : 2 ≤ c.tupleLimit) (hl : es.length ≤ c.tupleLimit) (hq : es.length ≤ c.seqLimit)
    (hr : es.length ≤ c.repeatLimit) :
    useReflectEnum c t = .ok (enumText name ps) := by
  rw [useReflectEnum, args_written ht]
  have hc := enumerators_clean he
  simp only [REFLECT_ENUM, boostVariadicToSeq]
  rw [args_join hne hc, if_pos hl, ok_bind, call2_tc _ (clean_word name) (clean_map es)]
  exact reflect_enum_seq (clean_map es) (sequence_map hc) he hne h2 hq hr

/-- C112: `KL_REFLECT_ENUM_SEQ` does the same for a sequence of enumerators. -/
theorem C112_seq (t u : Text) (name : String) (es : List Text) (ps : List (String × String))
    (ht : Padded t [.word name]) (hs : Sequence u es) (he : Enumerators c.tupleLimit es ps)
    (hne : es ≠ []) (h2 : 2 ≤ c.tupleLimit) (hq : es.length ≤ c.seqLimit)
    (hr : es.length ≤ c.repeatLimit) :
    useReflectEnumSeq c (t ++ .comma :: u) = .ok (enumText name ps) := by
  have ha : args (t ++ .comma :: u) = [[.word name], trim u] := by
    rw [args, splitC_append (padded_comma ht), splitC_single (seq_comma hs)]
    simp [trim_padded ht]
  rw [useReflectEnumSeq]
  simp only [call2, actuals, ha, List.append_nil]
  exact reflect_enum_seq (trim_is_clean (seq_comma hs)) (trim_seq hs) he hne h2 hq hr

/-- C112: more enumerators than a tuple may have are refused by `KL_REFLECT_ENUM`, as documented
(reflect_enum.hpp:50-53); `KL_REFLECT_ENUM_SEQ` takes them up to its own limit (`C112_seq`). -/
theorem C112_limit (t : Text) (name : Text) (es : List Text) (ht : Written t (name :: es))
    (hl : c.tupleLimit < es.length) :
    useReflectEnum c t = .error .limit := by
  have hc := fun e he => written_clean ht e (List.mem_cons_of_mem _ he)
  have hne : es ≠ [] := by rintro rfl; simp at hl
  rw [useReflectEnum, args_written ht]
  simp only [REFLECT_ENUM, boostVariadicToSeq]
  rw [args_join hne hc, if_neg (by omega)]
  rfl

/-- The limits of Boost.Preprocessor without further definitions, before C++20. -/
def usual : Cfg := ⟨64, 256, 256, false⟩

/-- C112 (violated): the sequence in the documentation of `KL_REFLECT_ENUM_SEQ`
(reflect_enum.hpp:63), `(A)(B, bb)(C)`, is not a sequence: its second element is two arguments. -/
theorem C112_documented_violated :
    useReflectEnumSeq usual [.word "enum_", .comma, .paren [.word "A"],
      .paren [.word "B", .comma, .sp, .word "bb"], .paren [.word "C"]] = .error .arity := by
  rfl

/-- With one more pair of parentheses it is. -/
example : useReflectEnumSeq usual [.word "enum_", .comma, .paren [.word "A"],
    .paren [.paren [.word "B", .comma, .sp, .word "bb"]], .paren [.word "C"]] =
      .ok (enumText "enum_" [("A", "A"), ("B", "bb"), ("C", "C")]) := by
  rfl

example : useReflectEnum usual [.word "enum_", .comma, .sp, .word "A", .comma, .sp,
    .paren [.word "B", .comma, .sp, .word "two", .sp, .sp, .word "words"], .comma, .word "C"] =
      .ok (enumText "enum_" [("A", "A"), ("B", "two words"), ("C", "C")]) := by
  rfl

example : Enumerators 64 [[.word "A"], [.paren [.word "B", .comma, .sp, .word "two", .sp, .sp, .word "words"]]]
    [("A", "A"), ("B", "two words")] :=
  .cons (.plain "A") (.cons (.named (n := [.word "two", .sp, .sp, .word "words"]) (more := [])
    (.more (padded_self (clean_word _)) (.one ⟨by simp [Clean], 1, 0, rfl⟩))
    (.apart "two" 1 (.word "words")) (by decide)) .nil)

end Verif.Macros
