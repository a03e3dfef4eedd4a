import Verif.Macros.Enum
/-! C113: what the macros for structures expand to. -/

namespace Verif.Macros
open Spec

variable {c : Cfg}

/-- A lambda that returns an attribute, after a comma. -/
def lambda (a : Text) : Text :=
  [.comma, .word "[", .word "]", .word "{", .word "return"] ++ a ++ [.word ";", .word "}"]

theorem for_each {l : Text} {a : Text} {as : List Text} {body : Text → PP Text} {g : Text → Text}
    (h : Written l (a :: as)) (ha : a ≠ []) (hl : as.length + 1 ≤ c.tupleLimit)
    (hr : as.length + 1 ≤ c.repeatLimit) (hb : ∀ x ∈ a :: as, body x = .ok (g x)) :
    TUPLE_FOR_EACH c [.paren l] body = .ok ((a :: as).flatMap g) := by
  rw [TUPLE_FOR_EACH, call1_text _ (clean_paren l), tuple_size h ha hl, ok_bind,
    call1_text _ (clean_paren l), boostRepeat, if_pos hr]
  refine repeat_list (a :: as) g 0 ?_
  intro j x hj
  have hm := List.mem_of_getElem? hj
  rw [Nat.zero_add, TUPLE_LOOP_INVOKER, call1_call _ (clean_paren l),
    tuple_elem h (by simpa using hl) hj, ok_bind, call1_call _ (written_clean h x hm), hb x hm]

/-- `KL_TUPLE_FOR_EACH` when the first element may be empty: then it counts as an element only if
`()` does. -/
theorem for_each_tail {b : Text} {bs : List Text} {body : Text → PP Text} {g : Text → Text}
    (hc : ∀ x ∈ b :: bs, Clean x) (hb : b ≠ [] ∨ bs ≠ [] ∨ c.vaOpt = false)
    (hl : bs.length + 1 ≤ c.tupleLimit)
    (hr : bs.length + 1 ≤ c.repeatLimit) (hg : ∀ x ∈ b :: bs, body x = .ok (g x)) :
    TUPLE_FOR_EACH c [.paren (joinC (b :: bs))] body = .ok ((b :: bs).flatMap g) := by
  have h := written_join (as := b :: bs) (by simp) hc
  have hsize : TUPLE_SIZE c [.paren (joinC (b :: bs))] = .ok (bs.length + 1) := by
    rw [TUPLE_SIZE, call1_text _ (clean_paren _)]
    have : (c.vaOpt && (trim (joinC (b :: bs))).isEmpty) = false := by
      rcases hb with hb | hb | hb
      · rw [nonblank h hb, Bool.and_false]
      · cases bs with
        | nil => exact absurd rfl hb
        | cons x xs =>
          have : (trim (joinC (b :: x :: xs))).isEmpty = false :=
            trim_ne (x := .comma) (by simp) (by simp [joinC])
          rw [this, Bool.and_false]
      · rw [hb, Bool.false_and]
    simp only [boostTupleSize, inside, ok_bind, this, args_written h, Bool.false_eq_true, if_false,
      List.length_cons, if_pos hl]
  rw [TUPLE_FOR_EACH, call1_text _ (clean_paren _), hsize, ok_bind,
    call1_text _ (clean_paren _), boostRepeat, if_pos hr]
  refine repeat_list (b :: bs) g 0 ?_
  intro j x hj
  have hm := List.mem_of_getElem? hj
  rw [Nat.zero_add, TUPLE_LOOP_INVOKER, call1_call _ (clean_paren _),
    tuple_elem h (by simpa using hl) hj, ok_bind, call1_call _ (hc x hm), hg x hm]

/-- The attributes of a field, as arguments of the factory. -/
theorem attributes {l : Text} {m : String} {attrs : List Text} (h : Written l ([.word m] :: attrs))
    (hl : attrs.length + 1 ≤ c.tupleLimit) (hr : attrs.length ≤ c.repeatLimit)
    (hne : c.vaOpt = true → attrs ≠ [[]]) :
    TUPLE_ENUM_POP_FRONT_LAMBDA_COMMA c [.paren l] = .ok (attrs.flatMap lambda) := by
  rw [TUPLE_ENUM_POP_FRONT_LAMBDA_COMMA, call1_text _ (clean_paren l),
    size_minus_one h (by simp) hl, ok_bind]
  cases attrs with
  | nil =>
    rw [if_neg (by simp), call1_text _ (clean_paren l)]
    rfl
  | cons b bs =>
    have hp : TUPLE_POP_FRONT [.paren l] = .ok [.paren (joinC (b :: bs))] := by
      rw [TUPLE_POP_FRONT, call1_text _ (clean_paren l)]
      simp [boostTuplePopFront, inside, args_written h]
    rw [if_pos (by simp), call1_text _ (clean_paren l), TUPLE_ENUM_POP_FRONT_LAMBDA_COMMA_IMPL,
      call1_text _ (clean_paren l), hp, ok_bind, call1_call _ (clean_paren _)]
    simp only [List.length_cons] at hl hr
    refine for_each_tail (fun x hx => written_clean h x (List.mem_cons_of_mem _ hx)) ?_ (by omega) hr
      (fun _ _ => rfl)
    by_cases hv : c.vaOpt = true
    · have := hne hv
      by_cases hb : b = []
      · subst hb
        refine .inr (.inl ?_)
        rintro rfl; exact this rfl
      · exact .inl hb
    · exact .inr (.inr (by simpa using hv))

/-- The visit of a field. -/
theorem vis_member {type e : Text} {f : String × List Text} (ht : Clean type)
    (h : Field c.tupleLimit e f) (hl : 1 ≤ c.tupleLimit) (hr : f.2.length ≤ c.repeatLimit)
    (hne : c.vaOpt = true → f.2 ≠ [[]]) :
    VIS_MEMBER c type e = .ok (visit type f) := by
  have key : ∀ (l : Text) (m : String) (attrs : List Text), Written l ([.word m] :: attrs) →
      attrs.length + 1 ≤ c.tupleLimit → attrs.length ≤ c.repeatLimit →
      (c.vaOpt = true → attrs ≠ [[]]) →
      VIS_MEMBER_IMPL c type [.paren l] = .ok (visit type (m, attrs)) := by
    intro l m attrs hw hl hr hne
    rw [VIS_MEMBER_IMPL, call2_tt _ ht (clean_paren l), VIS_MEMBER_TUPLE, call1_text _ (clean_paren l),
      tuple_elem hw (by simpa using hl) (by rfl), ok_bind, call1_call _ (clean_word m),
      stringize (.word m), ok_bind, call1_text _ (clean_paren l), attributes hw hl hr hne, ok_bind]
    simp [visit, ws]
    rfl
  cases h with
  | plain m =>
    rw [VIS_MEMBER, call1_text _ (clean_word m), arg_to_tuple_plain (clean_word m) (by simp), ok_bind,
      call2_tc _ ht (clean_paren _)]
    exact key _ m [] (.one (padded_self (clean_word m))) hl (by simp) (by simp)
  | @tuple l attrs m hw ha =>
    rw [VIS_MEMBER, call1_text _ (clean_paren l), arg_to_tuple_paren, ok_bind,
      call2_tc _ ht (clean_paren _)]
    exact key l m attrs hw ha hr hne

theorem field_clean {lim : Nat} {e : Text} {f : String × List Text} (h : Field lim e f) : Clean e := by
  cases h <;> simp

theorem field_ne {lim : Nat} {e : Text} {f : String × List Text} (h : Field lim e f) : e ≠ [] := by
  cases h <;> simp

theorem fields_clean {lim : Nat} {es : List Text} {fs : List (String × List Text)}
    (h : Fields lim es fs) : ∀ e ∈ es, Clean e := by
  induction h with
  | nil => simp
  | cons h _ ih => simp only [List.mem_cons, forall_eq_or_imp]; exact ⟨field_clean h, ih⟩

theorem fields_length {lim : Nat} {es : List Text} {fs : List (String × List Text)}
    (h : Fields lim es fs) : es.length = fs.length := by
  induction h with
  | nil => rfl
  | cons _ _ ih => simp [ih]

theorem fields_at {lim : Nat} {es : List Text} {fs : List (String × List Text)}
    (h : Fields lim es fs) : ∀ (j : Nat) (f : String × List Text), fs[j]? = some f →
      ∃ e, es[j]? = some e ∧ Field lim e f := by
  induction h with
  | nil => simp
  | @cons e es f fs h _ ih =>
    intro j q hj
    cases j with
    | zero => simp only [List.getElem?_cons_zero, Option.some.injEq] at hj; subst hj; exact ⟨e, rfl, h⟩
    | succ j => simpa using ih j q (by simpa using hj)

/-- Limits and empty attributes: what the lists of fields must respect. -/
structure Fits (c : Cfg) (fs : List (String × List Text)) : Prop where
  tuple : fs.length ≤ c.tupleLimit
  reps : fs.length ≤ c.repeatLimit
  attrs : ∀ f ∈ fs, f.2.length ≤ c.repeatLimit
  blank : c.vaOpt = true → ∀ f ∈ fs, f.2 ≠ [[]]

theorem fields_size {es : List Text} {fs : List (String × List Text)}
    (he : Fields c.tupleLimit es fs) (hne : es ≠ []) (hf : Fits c fs) :
    TUPLE_SIZE c [.paren (joinC es)] = .ok fs.length := by
  have hw := written_join hne (fields_clean he)
  have hlen := fields_length he
  cases he with
  | nil => exact absurd rfl hne
  | cons h hs =>
    have := hf.tuple
    rw [← hlen] at this ⊢
    simp only [List.length_cons] at this ⊢
    exact tuple_size hw (field_ne h) this

theorem vis_members {type : Text} {es : List Text} {fs : List (String × List Text)} (ht : Clean type)
    (he : Fields c.tupleLimit es fs) (hne : es ≠ []) (hf : Fits c fs) :
    VIS_MEMBERS c type [.paren (joinC es)] = .ok (fs.flatMap (visit type)) := by
  have hw := written_join hne (fields_clean he)
  rw [VIS_MEMBERS, call2_tt _ ht (clean_paren _), TUPLE_FOR_EACH2, call1_text _ (clean_paren _),
    fields_size he hne hf, ok_bind, call2_tt _ ht (clean_paren _), boostRepeat, if_pos hf.reps]
  refine repeat_list fs (visit type) 0 ?_
  intro j f hj
  obtain ⟨e, hje, hfe⟩ := fields_at he j f hj
  have hm := List.mem_of_getElem? hj
  have hpos : 1 ≤ fs.length := by
    have := List.length_pos_of_mem hm; omega
  rw [Nat.zero_add, TUPLE_LOOP_INVOKER2, call1_call _ (clean_paren _),
    tuple_elem hw (by rw [fields_length he]; exact hf.tuple) hje, ok_bind,
    call2_cc _ ht (field_clean hfe),
    vis_member ht hfe (Nat.le_trans hpos hf.tuple) (hf.attrs f hm) (fun hv => hf.blank hv f hm)]

theorem clean_decl (b : Bool) : Clean (if b then FRIEND_DECL else NAMESPACE_DECL) := by
  cases b <;> simp [FRIEND_DECL, NAMESPACE_DECL, ws]

theorem functions_text (isFriend : Bool) (type body count : Text) :
    functions (if isFriend then FRIEND_DECL else NAMESPACE_DECL) type body count =
      structText isFriend type body count := by
  cases isFriend <;> simp [functions, structText, FRIEND_DECL, NAMESPACE_DECL, ws]

/-- C113: for every type and every list of fields, written as names or as tuples of a name and
attributes, with any whitespace, `KL_REFLECT_STRUCT` and `KL_REFLECT_STRUCT_FRIEND` expand to a
function that visits each field once, in order, with its name and its attributes, each in a lambda
of its own, and a function that returns their number. -/
theorem C113_struct (isFriend : Bool) (t type : Text) (es : List Text) (fs : List (String × List Text))
    (ht : Written t (type :: es)) (he : Fields c.tupleLimit es fs) (hne : es ≠ []) (hf : Fits c fs) :
    useReflectStruct c isFriend t =
      .ok (structText isFriend type (fs.flatMap (visit type)) [.word (toString fs.length)]) := by
  have hc : Clean type := written_clean ht type (by simp)
  rw [useReflectStruct, args_written ht]
  simp only [REFLECT_STRUCT, boostVariadicToTuple, ok_bind]
  rw [call2_tc _ hc (clean_paren _), REFLECT_STRUCT_TUPLE,
    call3_ctt _ (clean_decl isFriend) hc (clean_paren _), REFLECT_STRUCT_TUPLE_IMPL,
    call2_tt _ hc (clean_paren _), vis_members hc he hne hf, ok_bind, call1_text _ (clean_paren _),
    fields_size he hne hf, ok_bind, functions_text]
  rfl

theorem bases_tuple {t : Text} {bs : List Text} (h : Bases c.tupleLimit t bs) (h1 : 1 ≤ c.tupleLimit) :
    ∃ l b rest, bs = b :: rest ∧ ARG_TO_TUPLE t = .ok [.paren l] ∧ Written l bs ∧ b ≠ [] ∧
      rest.length + 1 ≤ c.tupleLimit := by
  cases h with
  | @one b hc hp hb => exact ⟨t, t, [], rfl, arg_to_tuple_plain hc hp, .one (padded_self hc), hb, h1⟩
  | @tuple l bs hw hl hne =>
    cases bs with
    | nil => exact absurd rfl (written_ne hw)
    | cons b rest =>
      exact ⟨l, b, rest, rfl, arg_to_tuple_paren l, hw, hne b (by simp), by simpa using hl⟩

theorem bases_clean {lim : Nat} {t : Text} {bs : List Text} (h : Bases lim t bs) : Clean t := by
  cases h with
  | one hc => exact hc
  | tuple => simp

/-- C113: `KL_REFLECT_STRUCT_DERIVED` and `KL_REFLECT_STRUCT_DERIVED_FRIEND` visit first the bases,
in order, then the own fields, and return the sum of all the numbers of fields. -/
theorem C113_derived (isFriend : Bool) (t type bases : Text) (bs es : List Text)
    (fs : List (String × List Text)) (ht : Written t (type :: bases :: es))
    (hb : Bases c.tupleLimit bases bs) (hbr : bs.length ≤ c.repeatLimit)
    (he : Fields c.tupleLimit es fs) (hne : es ≠ []) (hf : Fits c fs) :
    useReflectDerived c isFriend t =
      .ok (structText isFriend type (bs.flatMap visitBase ++ fs.flatMap (visit type))
        (.word (toString fs.length) :: .word "+" :: (bs.flatMap countBase ++ [.word "0"]))) := by
  have hc : Clean type := written_clean ht type (by simp)
  have hlen := fields_length he
  have h1 : 1 ≤ c.tupleLimit := by
    have : 1 ≤ es.length := by
      cases es with
      | nil => exact absurd rfl hne
      | cons => simp
    have := hf.tuple
    omega
  obtain ⟨l, b, rest, rfl, ha, hw, hb0, hbl⟩ := bases_tuple hb h1
  have hvb : VIS_BASES c [.paren l] = .ok ((b :: rest).flatMap visitBase) := by
    rw [VIS_BASES, call1_text _ (clean_paren l)]
    exact for_each hw hb0 hbl (by simpa using hbr) (fun x _ => by simp [VIS_BASE, visitBase, ws])
  have hnb : NUM_BASE_FIELDS c [.paren l] = .ok ((b :: rest).flatMap countBase) := by
    rw [NUM_BASE_FIELDS, call1_text _ (clean_paren l)]
    exact for_each hw hb0 hbl (by simpa using hbr) (fun x _ => by simp [NUM_FIELDS, countBase, ws])
  rw [useReflectDerived, args_written ht]
  simp only [REFLECT_STRUCT_DERIVED, boostVariadicToTuple]
  rw [call1_text _ (bases_clean hb), ha, ok_bind, ok_bind, call3_tcc _ hc (clean_paren _) (clean_paren _),
    REFLECT_STRUCT_DERIVED_TUPLE, call3_ttt _ hc (clean_paren _) (clean_paren _),
    REFLECT_STRUCT_DERIVED_TUPLE_IMPL, call1_text _ (clean_paren _), hvb, ok_bind,
    call2_tt _ hc (clean_paren _), vis_members hc he hne hf, ok_bind, call1_text _ (clean_paren _),
    fields_size he hne hf, ok_bind, call1_text _ (clean_paren _), hnb, ok_bind, functions_text]
  simp [number, ws]

example : useReflectStruct usual false [.word "A", .comma, .sp, .word "x", .comma, .sp,
    .paren [.word "y", .comma, .sp, .word "attr_base", .word "{", .word "}", .comma, .sp, .word "rename",
      .paren [.lit "a", .comma, .lit "b"]]] =
    .ok (structText false [.word "A"] (visit [.word "A"] ("x", []) ++
      visit [.word "A"] ("y", [[.word "attr_base", .word "{", .word "}"],
        [.word "rename", .paren [.lit "a", .comma, .lit "b"]]])) [.word "2"]) := by
  rfl

example : useReflectDerived usual true [.word "T", .comma, .sp, .paren [.word "A", .comma, .sp, .word "S"],
    .comma, .sp, .word "d", .comma, .sp, .word "e"] =
    .ok (structText true [.word "T"] (visitBase [.word "A"] ++ visitBase [.word "S"] ++
      visit [.word "T"] ("d", []) ++ visit [.word "T"] ("e", []))
      ([.word "2", .word "+"] ++ countBase [.word "A"] ++ countBase [.word "S"] ++ [.word "0"])) := by
  rfl

example : Fields 64 [[.word "x"], [.paren [.word "y", .comma, .sp, .word "attr"]]]
    [("x", []), ("y", [[.word "attr"]])] :=
  .cons (.plain "x") (.cons (.tuple (.more (padded_self (clean_word _)) (.one ⟨by simp, 1, 0, rfl⟩))
    (by decide)) .nil)

example : Fits usual [("x", []), ("y", [[.word "attr"]])] := by
  constructor <;> simp [usual]

/-- C113 (violated): only parentheses protect a comma.  An attribute `range{1, 2}` is taken apart
into two, neither of which is an expression. -/
theorem C113_braces_violated :
    useReflectStruct usual false [.word "A", .comma,
      .paren [.word "x", .comma, .word "range", .word "{", .word "1", .comma, .word "2", .word "}"]] =
    .ok (structText false [.word "A"] (visit [.word "A"] ("x", [[.word "range", .word "{", .word "1"],
      [.word "2", .word "}"]])) [.word "1"]) := by
  rfl

/-- C113: in parentheses it stays one attribute. -/
example : useReflectStruct usual false [.word "A", .comma, .paren [.word "x", .comma,
      .paren [.word "range", .word "{", .word "1", .comma, .word "2", .word "}"]]] =
    .ok (structText false [.word "A"] (visit [.word "A"] ("x",
      [[.paren [.word "range", .word "{", .word "1", .comma, .word "2", .word "}"]]])) [.word "1"]) := by
  rfl

/-- `vis(factory.template field<&T::>(""));` -/
def nameless (type : Text) : Text :=
  [.word "vis", .paren (ws ["factory", ".", "template", "field", "<", "&"] ++ type ++ ws ["::", ">"] ++
    [.paren [.quoted ""]]), .word ";"]

/-- C113 (violated): without `__VA_OPT__` an empty list of fields is one field without a name: the
expansion takes the address of nothing and counts one. -/
theorem C113_no_fields_violated (isFriend : Bool) (b : String) :
    useReflectStruct usual isFriend [.word b] =
      .ok (structText isFriend [.word b] (nameless [.word b]) [.word "1"]) ∧
    useReflectDerived usual isFriend [.word "T", .comma, .word b] =
      .ok (structText isFriend [.word "T"] (visitBase [.word b] ++ nameless [.word "T"])
        ([.word "1", .word "+"] ++ countBase [.word b] ++ [.word "0"])) := by
  constructor <;> cases isFriend <;> rfl

/-- C113: with `__VA_OPT__` it is the empty list. -/
theorem C113_no_fields (isFriend : Bool) (t type : Text) (ht : Padded t type) (hv : c.vaOpt = true) :
    useReflectStruct c isFriend t = .ok (structText isFriend type [] [.word "0"]) := by
  have hc : Clean type := ht.1
  have hsize : TUPLE_SIZE c [.paren []] = .ok 0 := by
    rw [TUPLE_SIZE, call1_text _ (clean_paren _)]
    simp [boostTupleSize, inside, hv, trim, trimL]
  rw [useReflectStruct, args_written (.one ht)]
  simp only [REFLECT_STRUCT, boostVariadicToTuple, ok_bind, joinC]
  rw [call2_tc _ hc (clean_paren _), REFLECT_STRUCT_TUPLE,
    call3_ctt _ (clean_decl isFriend) hc (clean_paren _), REFLECT_STRUCT_TUPLE_IMPL,
    call2_tt _ hc (clean_paren _), VIS_MEMBERS, call2_tt _ hc (clean_paren _), TUPLE_FOR_EACH2,
    call1_text _ (clean_paren _), hsize, ok_bind, call2_tt _ hc (clean_paren _), boostRepeat,
    if_pos (by omega)]
  simp only [repeatFrom, ok_bind]
  rw [functions_text]
  rfl

/-- C113: `KL_ACCESSOR_FIELD(name)` makes an accessor that is called like the member. -/
theorem C113_accessor {t : Text} {m : String} (ht : Reads t m) :
    ACCESSOR_FIELD t = .ok (ws ["factory", ".", "accessor"] ++
      [.paren ([.quoted m, .comma] ++ ws ["[", "]"] ++ [.paren (ws ["auto", "&", "object"])] ++
        ws ["->", "decltype"] ++ [.paren (ws ["auto"])] ++ ws ["{", "return"] ++
        [.paren (ws ["object", "."] ++ t)] ++ ws [";", "}"])]) := by
  have hc := reads_clean ht
  have hc' : Clean (ws ["object", "."] ++ t) := by
    obtain ⟨h1, h2, h3⟩ := hc
    refine ⟨by simp [ws, h1], by simp [ws], ?_⟩
    cases hq : t.getLast? with
    | none => simp [ws, List.getLast?_cons, hq]
    | some x => rw [hq] at h3; simpa [ws, List.getLast?_cons, hq] using h3
  rw [ACCESSOR_FIELD, call1_text _ hc, stringize ht, ok_bind, call2_ct _ (clean_quoted m) hc']
  simp [ACCESSOR_FIELD_NAMED]

example : ACCESSOR_FIELD [.word "ref_a"] = .ok (ws ["factory", ".", "accessor"] ++
    [.paren ([.quoted "ref_a", .comma, .word "[", .word "]"] ++ [.paren (ws ["auto", "&", "object"])] ++
      ws ["->", "decltype"] ++ [.paren (ws ["auto"])] ++ ws ["{", "return"] ++
      [.paren (ws ["object", ".", "ref_a"])] ++ ws [";", "}"])]) := rfl

end Verif.Macros
