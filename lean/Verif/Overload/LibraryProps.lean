import Verif.Overload.Library

/-!
C118: which overload of the library serializes a value.
-/

namespace Verif.Overload

/-! ### Spec -/

inductive Backend where
  | json
  | yaml
  deriving DecidableEq

/-- A class is written as a map if it is reflected or has pairs of keys and values, as a sequence if it has
other elements; what is both reflected and a range could be either, so that nothing is said about it. -/
def classForm (f : Shape) : Option Form :=
  if f.reflected then (if f.begins && f.ends then none else some .map)
  else if f.begins && f.ends then (if f.mappedType && f.keyType then some .map else some .seq)
  else none

/-- What a value of each type is meant to be in a document, if anything. Pointers are not meant to be
written. -/
def meant (B : Backend) : Ty → Option Form
  | .arith .bool => some .boolean
  | .arith .char => some (if B = .json then .number else .letter)
  | .arith _ => some .number
  | .cstr => some .text
  | .ptr => none
  | .null => some .null
  | .str => some .text
  | .strView => some .text
  | .view => some .doc
  | .enm _ => some .enumerator
  | .opt => some .content
  | .tup => some .seq
  | .enumSet => some .seq
  | .cls f => classForm f

/-- The arithmetic types for which `rapidjson` has no counterpart: `long double`, and the one of the two
64-bit types that `std::int64_t` is not. -/
def Foreign (M : Platform) (a : Arith) : Bool :=
  match M, a with
  | _, .ldouble => true
  | .longIs64, .llong => true
  | .longIs64, .ullong => true
  | .longIs32, .long => true
  | .longIs32, .ulong => true
  | _, _ => false

/-- A class can be read if it can be written, and if, being a sequence, it names its elements' type and has
`push_back`, or `size` and elements that can be assigned. -/
def classRead (f : Shape) : Read :=
  let range := f.begins && f.ends
  let map := range && f.mappedType && f.keyType
  let seq := range && !map && f.valueType && (f.pushBack || f.size)
  if f.reflected then (if map || seq then .none else .form .map)
  else if map then .form .map
  else if !seq then .none
  else if f.pushBack || f.assignable then .form .seq
  else .broken

/-- What is meant to be read: what is meant to be written, except that there is no reading into a pointer or
a null. -/
def meantRead (B : Backend) (T : Ty) : Read :=
  match T with
  | .cls f => classRead f
  | .cstr => .none
  | .null => .none
  | T => match meant B T with
    | some f => .form f
    | none => .none

/-! ### Lemmas -/

theorem writers_cls (f : Shape) :
    (bestComp (writers (.cls f))).map Comp.form = classForm f := by
  rcases f with ⟨b, e, v, m, k, p, s, r, a⟩
  revert b e v m k p s r a
  decide +kernel

theorem formOf_composite (c : Option Comp) : formOf (composite c) = c.map Comp.form := by
  cases c <;> simp [composite, formOf, best, pick]

theorem readers_cls (f : Shape) : readOf (.cls f) [] = classRead f := by
  rcases f with ⟨b, e, v, m, k, p, s, r, a⟩
  revert b e v m k p s r a
  decide +kernel

/-! ### Theorems -/

/-- C118: what `json::dump` makes of a value of each type: what is meant, except that it has no overload for
the foreign arithmetic types, and that it writes pointers as booleans. -/
theorem C118_json_dump (M : Platform) (T : Ty) :
    jsonDump M T =
      match T with
      | .arith a => if Foreign M a then none else meant .json T
      | .ptr => some .boolean
      | T => meant .json T := by
  cases T with
  | arith a => cases M <;> cases a <;> decide
  | enm s => cases M <;> cases s <;> decide
  | cls f =>
    simp only [jsonDump, rankView, rankNull, rankArith, rankCstr, rankStr, rankStrView, cand,
      List.append_nil, formOf_composite, writers_cls, meant]
  | _ => cases M <;> decide

/-- C118: `json::serialize` differs from `json::dump` in that it rejects pointers. -/
theorem C118_json_serialize (M : Platform) (T : Ty) :
    jsonSerialize M T =
      match T with
      | .arith a => if Foreign M a then none else meant .json T
      | T => meant .json T := by
  cases T with
  | arith a => cases M <;> cases a <;> decide
  | enm s => cases M <;> cases s <;> decide
  | cls f =>
    have h : jsonValue M (.cls f) = none := rfl
    simp only [jsonSerialize, jsonConstructible, h, rankView, rankNull, rankCstr, exactly, cand,
      Option.isSome, Bool.false_and, Bool.false_eq_true, if_false, reduceCtorEq, decide_false,
      List.append_nil, formOf_composite, writers_cls, meant]
  | _ => cases M <;> decide

/-- C118: what `yaml::dump` makes of a value of each type: what is meant, except that it has no overload for
`long double`, writes pointers as booleans, and a `std::string_view` as a sequence. -/
theorem C118_yaml_dump (T : Ty) :
    yamlDump T =
      match T with
      | .arith .ldouble => none
      | .ptr => some .boolean
      | .strView => some .seq
      | T => meant .yaml T := by
  cases T with
  | arith a => cases a <;> decide
  | enm s => cases s <;> decide
  | cls f =>
    have h : yamlEmit (.cls f) = none := rfl
    simp only [yamlDump, yamlDumpAdl, h, rankView, rankNull, rankArith, rankStr, cand,
      List.append_nil, formOf_composite, writers_cls, meant, Option.or_none]
  | _ => decide

/-- C118: what `yaml::serialize` makes of a value of each type: what is meant, except that a
`std::string_view` becomes a sequence. -/
theorem C118_yaml_serialize (T : Ty) :
    yamlSerialize T =
      match T with
      | .strView => some .seq
      | T => meant .yaml T := by
  cases T with
  | arith a => cases a <;> decide
  | enm s => cases s <;> decide
  | cls f =>
    simp only [yamlSerialize, Ty.isIntegral, Ty.isFloating, rankView, rankNull, rankArith, rankStr,
      rankCstr, exactly, cand, Bool.or_false, Bool.false_eq_true, if_false,
      List.append_nil, formOf_composite, writers_cls, meant]
  | _ => decide

/-- C118: what the two `deserialize` read into an object of each type is what is meant. -/
theorem C118_read (T : Ty) :
    jsonDeserialize T = meantRead .json T ∧ yamlDeserialize T = meantRead .yaml T := by
  cases T with
  | arith a => cases a <;> decide
  | enm s => cases s <;> decide
  | cls f =>
    constructor
    · simp only [jsonDeserialize, Ty.isIntegral, Ty.isFloating, exactly, cand, Bool.false_eq_true,
        if_false, reduceCtorEq, decide_false, List.append_nil, readers_cls, meantRead]
    · simp only [yamlDeserialize, Ty.isIntegral, Ty.isFloating, exactly, cand, Bool.or_false,
        Bool.false_eq_true, if_false, reduceCtorEq, decide_false, List.append_nil, readers_cls, meantRead]
  | _ => decide

theorem classRead_form {f : Shape} {g : Form} (h : classRead f = .form g) :
    classForm f = some g ∨ (f.reflected = true ∧ f.begins = true ∧ f.ends = true ∧ g = .map) := by
  rcases f with ⟨b, e, v, m, k, p, s, r, a⟩
  revert b e v m k p s r a
  cases g <;> decide +kernel

/-- C118: what one function writes, the others agree on: whenever a type can be written by two of `dump` and
`serialize`, or written and read, with one backend, the form is the same, except for a `std::string_view`
with YAML. -/
theorem C118_agree (M : Platform) (T : Ty) (f g : Form) :
    (jsonDump M T = some f → jsonSerialize M T = some g → f = g) ∧
    (jsonSerialize M T = some f → jsonDeserialize T = .form g → f = g) ∧
    (jsonDump M T = some f → jsonDeserialize T = .form g → f = g) ∧
    (yamlDump T = some f → yamlSerialize T = some g → f = g) ∧
    (T ≠ .strView → yamlSerialize T = some f → yamlDeserialize T = .form g → f = g) ∧
    (T ≠ .strView → yamlDump T = some f → yamlDeserialize T = .form g → f = g) := by
  rw [C118_json_dump, C118_json_serialize, C118_yaml_dump, C118_yaml_serialize, (C118_read T).1,
    (C118_read T).2]
  cases T with
  | arith a =>
    cases M <;> cases a <;> simp_all [Foreign, meant, meantRead] <;> grind
  | cls s =>
    simp only [meant, meantRead]
    have key : classForm s = some f → classRead s = .form g → f = g := by
      intro h1 h2
      rcases classRead_form h2 with h | ⟨hr, hb, he, rfl⟩
      · rw [h] at h1; cases h1; rfl
      · simp [classForm, hr, hb, he] at h1
    have same : classForm s = some f → classForm s = some g → f = g := by
      intro h1 h2
      rw [h1] at h2; cases h2; rfl
    exact ⟨same, key, key, same, fun _ => key, fun _ => key⟩
  | _ => simp_all [meant, meantRead] <;> grind

/-- `std::vector`, `std::array`, `std::map`, `std::set`, `std::forward_list`. -/
example :
    let vector : Shape := { begins := true, ends := true, valueType := true, pushBack := true, size := true }
    let array : Shape := { begins := true, ends := true, valueType := true, size := true }
    let map : Shape := { begins := true, ends := true, valueType := true, mappedType := true, keyType := true, size := true, assignable := false }
    (jsonDump .longIs64 (.cls vector) = some .seq ∧ jsonDeserialize (.cls vector) = .form .seq) ∧
    (yamlDump (.cls array) = some .seq ∧ yamlDeserialize (.cls array) = .form .seq) ∧
    (jsonSerialize .longIs32 (.cls map) = some .map ∧ jsonDeserialize (.cls map) = .form .map) := by decide

/-- A reflected class that is not a range, and one that is. -/
example : jsonDump .longIs64 (.cls { reflected := true }) = some .map ∧
    jsonDump .longIs64 (.cls { begins := true, ends := true, reflected := true }) = none := by decide

/-! ### What does not hold -/

/-- C118, violated: `long long` (on Linux) and `long double` can be read from JSON but neither dumped nor
serialized: the overloads for the other arithmetic types are ambiguous. -/
theorem C118_long_long_violated :
    jsonDeserialize (.arith .llong) = .form .number ∧ jsonDump .longIs64 (.arith .llong) = none ∧
      jsonSerialize .longIs64 (.arith .llong) = none ∧
      jsonDeserialize (.arith .ldouble) = .form .number ∧
      (∀ M, jsonDump M (.arith .ldouble) = none ∧ jsonSerialize M (.arith .ldouble) = none) := by
  refine ⟨by decide, by decide, by decide, by decide, fun M => by cases M <;> decide⟩

/-- C118, violated: a `std::string_view` is written to YAML as a sequence of letters but read from a scalar;
JSON treats it as a string both ways. -/
theorem C118_string_view_violated :
    yamlDump .strView = some .seq ∧ yamlSerialize .strView = some .seq ∧
      yamlDeserialize .strView = .form .text ∧
      (∀ M, jsonDump M .strView = some .text ∧ jsonSerialize M .strView = some .text) := by
  refine ⟨by decide, by decide, by decide, fun M => by cases M <;> decide⟩

/-- C118, violated: a pointer that should be rejected is dumped as `true` or `false`. -/
theorem C118_pointer_violated :
    (∀ M, jsonDump M .ptr = some .boolean ∧ jsonSerialize M .ptr = none) ∧
      yamlDump .ptr = some .boolean ∧ yamlSerialize .ptr = none := by
  refine ⟨fun M => by cases M <;> decide, by decide, by decide⟩

/-- C118, violated: a class like `std::set` is taken for a range of a fixed size, so that reading it does not
fail by having no overload but in the body of one; one like `std::forward_list` can be written and has no
overload for reading. -/
theorem C118_set_violated :
    ∃ set list : Shape,
      (jsonDump .longIs64 (.cls set) = some .seq ∧ jsonDeserialize (.cls set) = .broken) ∧
      (jsonDump .longIs64 (.cls list) = some .seq ∧ jsonDeserialize (.cls list) = .none) :=
  ⟨{ begins := true, ends := true, valueType := true, keyType := true, size := true, assignable := false },
    { begins := true, ends := true, valueType := true }, by decide, by decide⟩

end Verif.Overload
