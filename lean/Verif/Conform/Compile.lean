import Verif.Macros.Struct
import Verif.Overload.Match
import Verif.Types.Model
import Verif.Ctti.Model
import Verif.FileView.Model

/-!
The repository's tests of its compile-time components, run on the models: `reflect_enum_test.cpp`,
`reflect_struct_test.cpp`, `match_test.cpp`, `meta_test.cpp`, `type_traits_test.cpp`, `ctti_test.cpp` and
`file_view_test.cpp`. These are tests of the models, not proofs of properties. Left out: printing of
values through streams (what is printed is given beside each field), `ctti::name` (see `Rest`), and
`member_pointer_traits`.
-/

namespace Verif.Conform.CompileTime

/-! ### reflect_enum_test.cpp -/

section Enums
open Verif.Macros Verif.Macros.Spec

/-- `KL_REFLECT_ENUM(A, a, (b, BB), c)` (reflect_enum_test.cpp:19, 24-46). -/
example : useReflectEnum usual [.word "A", .comma, .sp, .word "a", .comma, .sp,
    .paren [.word "b", .comma, .sp, .word "BB"], .comma, .sp, .word "c"] =
      .ok (enumText "A" [("a", "a"), ("b", "BB"), ("c", "c")]) := by
  rfl

/-- The names `a000` to `a079` (reflect_enum_test.cpp:51-61). -/
def big : List String :=
  ["0", "1", "2", "3", "4", "5", "6", "7"].flatMap fun t =>
    ["0", "1", "2", "3", "4", "5", "6", "7", "8", "9"].map fun u => "a0" ++ t ++ u

example : big.length = 80 ∧ big[0]? = some "a000" ∧ big[41]? = some "a041" ∧ big[79]? = some "a079" := by
  decide +kernel

mutual
/-- The tokens of a text one after the other, each with a mark for its kind. -/
def flatTok : Tok → List (Nat × String)
  | .word s => [(0, s)]
  | .lit s => [(1, s)]
  | .quoted s => [(2, s)]
  | .comma => [(3, ",")]
  | .sp => [(4, " ")]
  | .paren l => (5, "(") :: flat l ++ [(6, ")")]
def flat : List Tok → List (Nat × String)
  | [] => []
  | t :: ts => flatTok t ++ flat ts
end

def flatOk : PP Text → Option (List (Nat × String))
  | .ok t => some (flat t)
  | .error _ => none

/-- `KL_REFLECT_ENUM_SEQ` with 80 enumerators, more than the 64 arguments of `KL_REFLECT_ENUM`
(reflect_enum_test.cpp:63-75, 92-118). -/
example : flatOk (useReflectEnumSeq usual ([.word "abcd", .comma, .sp] ++
    big.flatMap fun n => [.paren [.word n], .sp])) =
      some (flat (enumText "abcd" (big.map fun n => (n, n)))) := by
  decide +kernel

/-- `KL_REFLECT_ENUM` with 80 enumerators when the limit is 128 (reflect_enum_test.cpp:76-88). -/
example : flatOk (useReflectEnum ⟨128, 256, 256, false⟩ ([.word "abcd"] ++
    big.flatMap fun n => [.comma, .word n])) =
      some (flat (enumText "abcd" (big.map fun n => (n, n)))) := by
  decide +kernel

/-- With the usual limit that is too many, which is why the test chooses by the limit. -/
example : useReflectEnum usual ([.word "abcd"] ++ big.flatMap fun n => [.comma, .word n]) =
    .error .limit := by
  rfl

end Enums

/-! ### reflect_struct_test.cpp and the declarations of ctti_test.cpp -/

section Structs
open Verif.Macros Verif.Macros.Spec

/-- `KL_REFLECT_STRUCT(A, i, b, d)` (reflect_struct_test.cpp:17). -/
example : useReflectStruct usual false [.word "A", .comma, .sp, .word "i", .comma, .sp, .word "b",
    .comma, .sp, .word "d"] =
    .ok (structText false [.word "A"] (visit [.word "A"] ("i", []) ++ visit [.word "A"] ("b", []) ++
      visit [.word "A"] ("d", [])) [.word "3"]) := by
  rfl

/-- `KL_REFLECT_STRUCT_DERIVED(B, A, ull)` (reflect_struct_test.cpp:23). -/
example : useReflectDerived usual false [.word "B", .comma, .sp, .word "A", .comma, .sp, .word "ull"] =
    .ok (structText false [.word "B"] (visitBase [.word "A"] ++ visit [.word "B"] ("ull", []))
      ([.word "1", .word "+"] ++ countBase [.word "A"] ++ [.word "0"])) := by
  rfl

/-- `KL_REFLECT_STRUCT_FRIEND(ReflectedFriend, i, b)` (reflect_struct_test.cpp:33). -/
example : useReflectStruct usual true [.word "ReflectedFriend", .comma, .sp, .word "i", .comma, .sp,
    .word "b"] =
    .ok (structText true [.word "ReflectedFriend"] (visit [.word "ReflectedFriend"] ("i", []) ++
      visit [.word "ReflectedFriend"] ("b", [])) [.word "2"]) := by
  rfl

/-- `KL_REFLECT_STRUCT_DERIVED_FRIEND(ReflectedFriendDerived, ReflectedFriend, s)`
(reflect_struct_test.cpp:43). -/
example : useReflectDerived usual true [.word "ReflectedFriendDerived", .comma, .sp,
    .word "ReflectedFriend", .comma, .sp, .word "s"] =
    .ok (structText true [.word "ReflectedFriendDerived"] (visitBase [.word "ReflectedFriend"] ++
      visit [.word "ReflectedFriendDerived"] ("s", []))
      ([.word "1", .word "+"] ++ countBase [.word "ReflectedFriend"] ++ [.word "0"])) := by
  rfl

/-- `KL_REFLECT_STRUCT_DERIVED_FRIEND(T, (A, S), d, e)` (ctti_test.cpp:54). -/
example : useReflectDerived usual true [.word "T", .comma, .sp, .paren [.word "A", .comma, .sp, .word "S"],
    .comma, .sp, .word "d", .comma, .sp, .word "e"] =
    .ok (structText true [.word "T"] (visitBase [.word "A"] ++ visitBase [.word "S"] ++
      visit [.word "T"] ("d", []) ++ visit [.word "T"] ("e", []))
      ([.word "2", .word "+"] ++ countBase [.word "A"] ++ countBase [.word "S"] ++ [.word "0"])) := by
  rfl

/-- `KL_REFLECT_STRUCT(WithAttrs, visible, (annotated, attr_derived{}, attr_value{42}))`
(ctti_test.cpp:107). -/
example : useReflectStruct usual false [.word "WithAttrs", .comma, .sp, .word "visible", .comma, .sp,
    .paren [.word "annotated", .comma, .sp, .word "attr_derived", .word "{", .word "}", .comma, .sp,
      .word "attr_value", .word "{", .word "42", .word "}"]] =
    .ok (structText false [.word "WithAttrs"] (visit [.word "WithAttrs"] ("visible", []) ++
      visit [.word "WithAttrs"] ("annotated", [[.word "attr_derived", .word "{", .word "}"],
        [.word "attr_value", .word "{", .word "42", .word "}"]])) [.word "2"]) := by
  rfl

/-- `KL_REFLECT_STRUCT_FRIEND(has_attr_tester, (a, attr_base{}), (b), (c, attr_value{3}))`: a field in
parentheses without attributes is the field (ctti_test.cpp:114). -/
example : useReflectStruct usual true [.word "has_attr_tester", .comma, .sp,
    .paren [.word "a", .comma, .sp, .word "attr_base", .word "{", .word "}"], .comma, .sp,
    .paren [.word "b"], .comma, .sp,
    .paren [.word "c", .comma, .sp, .word "attr_value", .word "{", .word "3", .word "}"]] =
    .ok (structText true [.word "has_attr_tester"]
      (visit [.word "has_attr_tester"] ("a", [[.word "attr_base", .word "{", .word "}"]]) ++
        visit [.word "has_attr_tester"] ("b", []) ++
        visit [.word "has_attr_tester"] ("c", [[.word "attr_value", .word "{", .word "3", .word "}"]]))
      [.word "3"]) := by
  rfl

end Structs

/-! ### ctti_test.cpp and the runs of reflect_struct_test.cpp -/

section Objects
open Verif.Ctti

/-- A field without attributes. -/
def fld (n : String) : Field := ⟨n, []⟩

/-- The visitor of the tests: `ss << field.name() << ": " << field.value() << "\n"`; how a value prints
is looked up. -/
def shown (vals : List (String × String)) (r : Rec) : String :=
  reflectObject r (fun s f => s ++ f.name ++ ": " ++ ((vals.lookup f.name).getD "?") ++ "\n") ""

/-- reflect_struct_test.cpp:17, 23 -/
def stA : Rec := .mk [] [fld "i", fld "b", fld "d"]
def stB : Rec := .mk [stA] [fld "ull"]

/-- reflect_struct_test.cpp:84-97 -/
example : shown [("i", "2"), ("b", "1"), ("d", "3.14")] stA = "i: 2\nb: 1\nd: 3.14\n" := by decide +kernel

/-- reflect_struct_test.cpp:99-115 -/
example : reflectObject stB (fun s f => (s.1 + 1, f.name)) (0, "") = (4, "ull") := by decide +kernel

/-- reflect_struct_test.cpp:118-143 -/
def stF : Rec := .mk [] [fld "i", fld "b"]
def stFD : Rec := .mk [stF] [fld "s"]

example : shown [("i", "42"), ("b", "1")] stF = "i: 42\nb: 1\n" ∧ numFields stF = 2 := by decide +kernel
example : shown [("i", "7"), ("b", "0"), ("s", "derived")] stFD = "i: 7\nb: 0\ns: derived\n" ∧
    numFields stFD = 3 := by decide +kernel

/-- The types of ctti_test.cpp:19-64; the base classes of `Sdev` are not declared (40). -/
def A : Rec := .mk [] [fld "x", fld "y"]
def S : Rec := .mk [] [fld "a", fld "b", fld "c", fld "aa"]
def Sdev : Rec := .mk [] [fld "a", fld "b", fld "adev"]
def T : Rec := .mk [A, S] [fld "d", fld "e"]
def B : Rec := .mk [A] [fld "zzz"]

/-- ctti_test.cpp:154-166 -/
example : numFields A = 2 ∧ shown [("x", "ZXC"), ("y", "1, 2, 3")] A = "x: ZXC\ny: 1, 2, 3\n" := by
  decide +kernel

/-- ctti_test.cpp:195-233 -/
example : numFields B = 3 ∧ shown [("x", "QWE"), ("y", "0, 1337"), ("zzz", "123")] B =
    "x: QWE\ny: 0, 1337\nzzz: 123\n" := by
  decide +kernel

/-- ctti_test.cpp:235-250 -/
example : numFields S = 4 ∧
    shown [("a", "5"), ("b", "false"), ("c", "3.14, 0, 0"),
      ("aa", shown [("x", "ZXC"), ("y", "1, 2, 3, 4, 5, 6")] A)] S =
    "a: 5\nb: false\nc: 3.14, 0, 0\naa: x: ZXC\ny: 1, 2, 3, 4, 5, 6\n\n" := by
  decide +kernel

/-- ctti_test.cpp:252-269 -/
example : numFields Sdev = 3 ∧ shown [("a", "3400"), ("b", "true"), ("adev", "114")] Sdev =
    "a: 3400\nb: true\nadev: 114\n" := by
  decide +kernel

/-- ctti_test.cpp:271-291 -/
example : numFields T = 2 + 2 + 4 ∧
    shown [("x", ""), ("y", "."), ("a", "2"), ("b", "true"), ("c", "2.71, 3.14, 1.67"),
      ("aa", shown [("x", ""), ("y", ".")] A), ("d", "HELLO"), ("e", "WORLD, Hello")] T =
    "x: \ny: .\na: 2\nb: true\nc: 2.71, 3.14, 1.67\naa: x: \ny: .\n\nd: HELLO\ne: WORLD, Hello\n" := by
  decide +kernel

/-- `attr_base`, `attr_derived` and `attr_value` (ctti_test.cpp:95-100) as 0, 1 and 2; the second derives
from the first. -/
def matching (q a : Nat) : Bool := q == a || (q == 0 && a == 1)

/-- ctti_test.cpp:102-107 -/
def WithAttrs : Rec := .mk [] [fld "visible", ⟨"annotated", [⟨1, 0⟩, ⟨2, 42⟩]⟩]

/-- ctti_test.cpp:168-193 -/
example : reflectObject WithAttrs
    (fun s f => s ++ [(f.name, f.has matching 0, f.get matching 0 != none, (f.get matching 2).map Attr.value)])
    [] = [("visible", false, false, none), ("annotated", true, true, some 42)] := by
  decide +kernel

/-- ctti_test.cpp:109-115 -/
def hasAttrTester : Rec := .mk [] [⟨"a", [⟨0, 0⟩]⟩, fld "b", ⟨"c", [⟨2, 3⟩]⟩]

/-- ctti_test.cpp:116-120 -/
example : hasAnyAttribute matching hasAttrTester [0] = true ∧
    hasAnyAttribute matching hasAttrTester [1] = false ∧
    hasAnyAttribute matching hasAttrTester [2] = true ∧
    hasAnyAttribute matching hasAttrTester [0, 2] = true ∧
    hasAnyAttribute matching hasAttrTester [1, 0] = true := by
  decide +kernel

end Objects

/-! ### match_test.cpp -/

section Match
open Verif.Overload

/-- The types of the test: `int`, `float`, `bool`, `double` and `dummy` as 0 to 4, with the conversions
between arithmetic types. -/
def arith : World where
  conv t u :=
    if t = u ∨ 3 < t ∨ 3 < u then none
    else if t = 2 ∧ u = 0 then some .promotion
    else if t = 1 ∧ u = 3 then some .promotion
    else some .conversion
  copyable _ := true

def Result.get? {R : Type} : Result R → Option R
  | .value r => some r
  | _ => none

/-- Values in tenths; the handlers of match_test.cpp:18-30. -/
def onInt : Handler Nat Nat := { param := .value 0, ret := fun _ => 1, run := fun i => i * 20 }
def onFloat : Handler Nat Nat := { param := .value 1, ret := fun _ => 1, run := fun f => f * 25 }
def onBool : Handler Nat Nat := { param := .value 2, ret := fun _ => 1, run := fun b => b * 20 }

/-- match_test.cpp:16-22: `f(2) == 4`, `f(2.0f) == 5`. -/
example : (select arith 0 false [onInt, onFloat]).map (·.run 2) = some 40 ∧
    (select arith 1 false [onInt, onFloat]).map (·.run 2) = some 50 := by
  decide +kernel

/-- match_test.cpp:24-32: `true` goes to the handler of `bool`. -/
example : Result.get? (runMatch arith ⟨[0, 1, 2], some (2, 1)⟩ false [onInt, onFloat, onBool]) =
    some 20 := by
  decide +kernel

/-- match_test.cpp:34-49: `foo(int)`, `bar(double)` and a lambda, all with return type `bool`. -/
def handlers : List (Handler Nat Bool) :=
  [funcOverload arith (.value 0) 2 fun _ => true, funcOverload arith (.value 3) 2 fun _ => true,
    { param := .cref 4, ret := fun _ => 2, run := fun _ => false }]

example : Result.get? (runMatch arith ⟨[0, 3, 4], some (2, 0)⟩ false handlers) = some false ∧
    Result.get? (runMatch arith ⟨[0, 3, 4], some (0, 3)⟩ false handlers) = some true := by
  decide +kernel

end Match

/-! ### meta_test.cpp and type_traits_test.cpp -/

section Types
open Verif.Types

/-- `int`, `bool`, `float`, `double`, `void`. -/
def int : Ty := .scalar 0
def bool : Ty := .scalar 1
def float : Ty := .scalar 2
def double : Ty := .scalar 3
def void : Ty := .scalar 4
/-- `std::string`. -/
def string : Ty := .cls 9

def isPointer : Ty → Bool
  | .ptr _ => true
  | .const (.ptr _) => true
  | _ => false

def isArithmetic : Ty → Bool
  | .scalar n => n != 4
  | _ => false

def isIntegral : Ty → Bool
  | .scalar n => n == 0 || n == 1
  | _ => false

/-- meta_test.cpp:13-16 -/
example : filterT isPointer [.ptr void, .lref bool, .ptr int] = [.ptr void, .ptr int] := by
  simp [filterT, pushFront, isPointer, void, bool, int]

/-- meta_test.cpp:18-23 -/
example : filterT isArithmetic [.pack [int, void, string, float]] = [int, float] ∧
    filterT isIntegral [.pack [int, float]] = [int] := by
  simp [filterT, pushFront, isArithmetic, isIntegral, int, void, string, float]

/-- type_traits_test.cpp:16-24 -/
example : atType 0 [int, bool, .const int] = some int ∧ atType 1 [int, bool, .const int] = some bool ∧
    atType 2 [int, bool, .const int] = some (.const int) := ⟨rfl, rfl, rfl⟩

/-- The classes of the test: 0 is the type of the lambda `[](int, const bool&) { return 1.0f; }`
(type_traits_test.cpp:28), 1 is `s` (47), 2 is `op` (82). -/
def classes : Classes
  | 0 => [some ⟨float, [int, .lref (.const bool)], { const := true }⟩]
  | 2 => [some ⟨bool, [double], {}⟩]
  | _ => []

/-- type_traits_test.cpp:26-43 -/
example : funcTraits classes (.cls 0) = some ⟨float, [int, .lref (.const bool)], some 0⟩ ∧
    (funcTraits classes (.cls 0)).map Traits.arity = some 2 ∧
    (funcTraits classes (.cls 0)).bind (Traits.arg · 0) = some int ∧
    (funcTraits classes (.cls 0)).bind (Traits.arg · 1) = some (.lref (.const bool)) :=
  ⟨rfl, rfl, rfl, rfl⟩

/-- type_traits_test.cpp:45-59 -/
example : funcTraits classes (.memfn 1 void [int] { const := true }) = some ⟨void, [int], some 1⟩ ∧
    (funcTraits classes (.memfn 1 void [int] { const := true })).map Traits.arity = some 1 ∧
    (funcTraits classes (.memfn 1 void [int] { const := true })).bind (Traits.arg · 0) = some int :=
  ⟨rfl, rfl, rfl⟩

/-- type_traits_test.cpp:80-92 -/
example : funcTraits classes (.cls 2) = some ⟨bool, [double], some 2⟩ ∧
    (funcTraits classes (.cls 2)).map Traits.arity = some 1 ∧
    (funcTraits classes (.cls 2)).bind (Traits.arg · 0) = some double :=
  ⟨rfl, rfl, rfl⟩

/-- type_traits_test.cpp:94-98, with `void` as 4 and `bool` as 1. -/
example : isSame 4 4 [4, 4] = true ∧ isSame 4 1 [4] = false := by decide

end Types

/-! ### file_view_test.cpp -/

section Files
open Verif.FileView

/-- A file of `n` bytes that is there, as the system sees it. -/
def present (n : Nat) : Unix := ⟨⟨3, 0⟩, ⟨0, 0⟩, n, ⟨4096, 0⟩⟩

/-- The file is not found (file_view_test.cpp:13-17): `ENOENT` is 2. -/
example : unixCtor ⟨⟨-1, 2⟩, ⟨0, 0⟩, 0, ⟨0, 0⟩⟩ = ([], .thrown 2) := by decide +kernel

/-- file_view_test.cpp:19-30: the empty file is not mapped. -/
example : unixCtor (present 0) = ([.opened 3, .closed 3], .view 0 0) := by decide +kernel

/-- file_view_test.cpp:32-63 -/
example : (unixCtor (present 11)).2 = .view 4096 11 := by decide +kernel

/-- On Windows: nothing to open with either sharing; an empty file; a file that somebody else has open for
writing, and one that nobody has. -/
example : winCtor ⟨⟨-1, 2⟩, ⟨-1, 2⟩, ⟨0, 0⟩, 0, ⟨0, 0⟩, ⟨0, 0⟩⟩ = ([], .thrown 2) := by decide +kernel
example : (winCtor ⟨⟨5, 0⟩, ⟨-1, 2⟩, ⟨1, 0⟩, 0, ⟨0, 0⟩, ⟨0, 0⟩⟩).2 = .view 0 0 := by decide +kernel
example : (winCtor ⟨⟨-1, 32⟩, ⟨5, 0⟩, ⟨1, 0⟩, 11, ⟨6, 0⟩, ⟨4096, 0⟩⟩).2 = .view 4096 11 := by
  decide +kernel
example : (winCtor ⟨⟨5, 0⟩, ⟨-1, 2⟩, ⟨1, 0⟩, 11, ⟨6, 0⟩, ⟨4096, 0⟩⟩).2 = .view 4096 11 := by
  decide +kernel

end Files

end Verif.Conform.CompileTime
