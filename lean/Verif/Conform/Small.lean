import Verif.Base64.Model
import Verif.Path.Props
import Verif.Text.Model
import Verif.Hash.Model
import Verif.Enums.Range
import Verif.Zip.Model
import Verif.Defer.Model
import Verif.ExcInfo.ThrowProps

/-
Checks of the models against the project's own tests: each `example` evaluates the model on
what a test in /repo/tests does, and compares with what the test requires.  These are tests
of the models, not proofs of properties.
-/
namespace Verif.Conform

/-! ### base64_test.cpp -/
namespace Base64Test
open Verif.Base64

def b (s : String) : List Byte := s.toList.map ch
def enc (v : Variant) (s : String) (r : String) : Bool := encode v (b s) = .ok (b r)
def dec (v : Variant) (s : String) (r : String) : Bool := decode v (b s) = .ok (b r)
def bad (v : Variant) (s : String) : Bool := decode v (b s) = .nullopt
def good (v : Variant) (s : String) : Bool := decode v (b s) matches .ok _
def roundtrip (v : Variant) (s r : String) : Bool :=
  match decode v (b s) with
  | .ok d => encode v d = .ok (b r)
  | _ => false

/-- base64_test.cpp:34-45 -/
example : (enc .std "Hello" "SGVsbG8=" && enc .std "Hello " "SGVsbG8g" &&
    enc .std "Hello W" "SGVsbG8gVw==" && enc .std "Hello Wo" "SGVsbG8gV28=" &&
    enc .std "Hello Wor" "SGVsbG8gV29y" && enc .std "Hello Worl" "SGVsbG8gV29ybA==" &&
    enc .std "Hello World" "SGVsbG8gV29ybGQ=" && enc .std "Hello World!" "SGVsbG8gV29ybGQh" &&
    enc .std "<<!_??_!>>" "PDwhXz8/XyE+Pg==") = true := by decide +kernel

/-- base64_test.cpp:47-63 -/
example : (dec .std "SGVsbG8=" "Hello" && bad .std "SGVsbG8==" && dec .std "SGVsbG8g" "Hello " &&
    dec .std "SGVsbG8gVw==" "Hello W" && dec .std "SGVsbG8gV28=" "Hello Wo" &&
    dec .std "SGVsbG8gV29y" "Hello Wor" && dec .std "SGVsbG8gV29ybA==" "Hello Worl" &&
    dec .std "SGVsbG8gV29ybGQ=" "Hello World" && dec .std "SGVsbG8gV29ybGQh" "Hello World!") = true := by
  decide +kernel

/-- base64_test.cpp:65-76 -/
example : (roundtrip .std
      "Z0KAH5ZSAUB7YCoQAAADABAAAAMDzgYABJPgABGMP8Y4wMAAknwAAjGH+McO0KFSQA=="
      "Z0KAH5ZSAUB7YCoQAAADABAAAAMDzgYABJPgABGMP8Y4wMAAknwAAjGH+McO0KFSQA==" &&
    roundtrip .std "aMuNSA==" "aMuNSA==") = true := by decide +kernel

/-- base64_test.cpp:78-88 -/
example : (bad .std "a" && good .std "aaaa" && bad .std "aa=a" && bad .std "a===" &&
    bad .std "a!==" && bad .std "a@!=" && bad .std "aa-a" && good .std "aa+a") = true := by
  decide +kernel

/-- base64_test.cpp:95-106 -/
example : (enc .url "Hello" "SGVsbG8" && enc .url "Hello " "SGVsbG8g" &&
    enc .url "Hello W" "SGVsbG8gVw" && enc .url "Hello Wo" "SGVsbG8gV28" &&
    enc .url "Hello Wor" "SGVsbG8gV29y" && enc .url "Hello Worl" "SGVsbG8gV29ybA" &&
    enc .url "Hello World" "SGVsbG8gV29ybGQ" && enc .url "Hello World!" "SGVsbG8gV29ybGQh" &&
    enc .url "<<!_??_!>>" "PDwhXz8_XyE-Pg") = true := by decide +kernel

/-- base64_test.cpp:108-123 -/
example : (dec .url "SGVsbG8" "Hello" && dec .url "SGVsbG8g" "Hello " &&
    dec .url "SGVsbG8gVw" "Hello W" && dec .url "SGVsbG8gV28" "Hello Wo" &&
    dec .url "SGVsbG8gV29y" "Hello Wor" && dec .url "SGVsbG8gV29ybA" "Hello Worl" &&
    dec .url "SGVsbG8gV29ybGQ" "Hello World" && dec .url "SGVsbG8gV29ybGQh" "Hello World!") = true := by
  decide +kernel

/-- base64_test.cpp:125-133 -/
example : (dec .url "SGVsbG8gVw==" "Hello W" && dec .url "SGVsbG8gVw=" "Hello W" &&
    dec .url "SGVsbG8gVw" "Hello W" && bad .url "SGVsbG8gVw===") = true := by decide +kernel

/-- base64_test.cpp:135-148 -/
example : (roundtrip .url
      "Z0KAH5ZSAUB7YCoQAAADABAAAAMDzgYABJPgABGMP8Y4wMAAknwAAjGH-McO0KFSQA=="
      "Z0KAH5ZSAUB7YCoQAAADABAAAAMDzgYABJPgABGMP8Y4wMAAknwAAjGH-McO0KFSQA" &&
    roundtrip .url "aMuNSA==" "aMuNSA") = true := by decide +kernel

/-- base64_test.cpp:150-160 -/
example : (bad .url "a" && good .url "aaaa" && bad .url "aa=a" && bad .url "a===" &&
    bad .url "a!==" && bad .url "a@!=" && bad .url "aa+a" && good .url "aa-a") = true := by
  decide +kernel

end Base64Test

/-! ### path_test.cpp -/
namespace PathTest
open Verif.Path

def size (s : String) : Option Nat := (Path.ofString (str s)).map (·.size)
def seg (s : String) (i : Nat) : Option Str := (Path.ofString (str s)).bind (·.at i)
def joined (s : String) (i : Nat) : Option Str := (Path.ofString (str s)).map (·.joined i)

/-- path_test.cpp:5-27 -/
example : size "/a/./b/../name%3Asurname" = some 2 ∧
    seg "/a/./b/../name%3Asurname" 0 = some (str "a") ∧
    seg "/a/./b/../name%3Asurname" 1 = some (str "name:surname") ∧
    joined "/a/./b/../name%3Asurname" 0 = some (str "a/name:surname") ∧
    joined "/a/./b/../name%3Asurname" 1 = some (str "name:surname") ∧
    joined "/a/./b/../name%3Asurname" 2 = some [] ∧
    size "" = some 0 ∧ size "/" = some 0 ∧ seg "/a//b/" 1 = some (str "b") ∧
    seg "/a/../b" 0 = some (str "b") ∧ seg "/a/%2E/%2E%2E" 2 = some (str "..") ∧
    size "/a/%" = none ∧ size "/a/%0G" = none ∧ size "/items/name%2Fsurname" = none ∧
    size "/items/name%2fsurname" = none := by decide +kernel

/-- path_test.cpp:29-47 -/
example : Path.default.empty = true ∧ Path.default.size = 0 ∧ Path.default.joined 0 = [] ∧
    (let r := Path.default.set (str "/a/b/c")
     r.2 = none ∧ r.1.empty = false ∧ r.1.size = 3 ∧ r.1.at 0 = some (str "a") ∧
     r.1.at 2 = some (str "c") ∧ r.1.joined 1 = str "b/c" ∧
     r.1.clear.empty = true ∧ r.1.clear.size = 0) := by decide +kernel

/-- path_test.cpp:49-77 -/
example : ((Path.ofString (str "/a/b/c")).map fun p =>
      (p.view.empty, p.view.size, p.view.at 1, p.view.front)) =
      some (false, 3, some (str "b"), some (str "a")) ∧
    ((Path.ofString (str "/a/b/c")).map fun p => [p.view.prefix 0, p.view.prefix 1, p.view.prefix 3]) =
      some [some [], some (str "a"), some (str "a/b/c")] ∧
    (((Path.ofString (str "/a/b/c")).bind fun p => p.view.dropFront).map fun w =>
      (w.size, w.front, w.prefix 2)) = some (2, some (str "b"), some (str "a/b/c")) ∧
    (((Path.ofString (str "/a/b/c")).bind fun p => p.view.dropBack).map fun w =>
      (w.size, w.at 1, w.prefix 2)) = some (2, some (str "b"), some (str "a/b")) ∧
    View.default.empty = true ∧ View.default.size = 0 ∧ View.default.prefix 0 = some [] := by
  refine ⟨by decide +kernel, by decide +kernel, by decide +kernel, by decide +kernel, by decide +kernel⟩

end PathTest

/-! ### split_test.cpp, stream_join_test.cpp, hash_test.cpp -/
namespace TextTest
open Verif.Text

def lit (s d : String) (skip : Bool := true) : List String :=
  (splitLit '\x00' s.toList d.toList skip).map String.ofList
def mixed (s d : String) (skip : Bool := true) : List String :=
  (split s.toList (d.toList ++ ['\x00']) skip).map String.ofList

/-- split_test.cpp:9-16 -/
example : lit "ASD  QWE ZXC " " " = ["ASD", "QWE", "ZXC"] := by decide +kernel
/-- split_test.cpp:18-33: a `std::string`, then a literal, which ends in NUL. -/
example : mixed "ASD  QWE ZXC " " " false = ["ASD", "", "QWE", "ZXC"] ∧
    lit "ASD  QWE ZXC " " " false = ["ASD", "", "QWE", "ZXC", ""] := by decide +kernel
/-- split_test.cpp:35-63 -/
example : lit "test1/test2" "/" = ["test1", "test2"] ∧
    lit "test1/test2\\test3\\test4.test5" "/\\." = ["test1", "test2", "test3", "test4", "test5"] ∧
    lit "test1//test2\\test3\\\\test4.test5" "/\\." =
      ["test1", "test2", "test3", "test4", "test5"] := by decide +kernel

/-- What stream_join.hpp:9-10 sets by default. -/
def joiner (xs : List String) : Joiner String := ⟨xs, ", ", "."⟩

/-- stream_join_test.cpp:11-36 -/
example : (joiner []).print = ["."] ∧ ((joiner []).setEmptyString "[]").print = ["[]"] ∧
    String.join (joiner ["5", "4", "3", "2", "1"]).print = "5, 4, 3, 2, 1" ∧
    String.join ((joiner ["5", "4", "3", "2", "1"]).setDelimiter "|").print = "5|4|3|2|1" := by
  decide +kernel

/-- stream_join_test.cpp:39-56 -/
example : String.join ((["0", "1", "2", "3", "4"].foldl OutJoiner.assign (.mk' [] ", ")).out) =
    "0, 1, 2, 3, 4" := by decide +kernel

open Verif.Hash in
def hb (s : String) : List (BitVec 8) := s.toList.map fun c => BitVec.ofNat 8 c.toNat

open Verif.Hash in
/-- hash_test.cpp:10-18: the literal's array ends in NUL, which is not hashed. -/
example : fnv1aArray true (hb "test string" ++ [0]) (by simp) = some (fnv1a true (hb "test string")) := by
  decide +kernel

open Verif.Hash in
/-- hash_test.cpp:52-60 -/
example : hsieh true [] = some 0 ∧ hsieh true (hb "QWEASDZXC") = some 0xAEB8600C#32 ∧
    hsieh true (hb "QWEASDZX") = some 0xE0B4386A#32 ∧ hsieh true (hb "QWEASDZ") = some 0xD439CF4C#32 ∧
    hsieh true (hb "QWEASD") = some 0x79EF41CA#32 := by decide +kernel

end TextTest

/-! ### enum_set_test.cpp, enum_traits_test.cpp, enum_range_test.cpp, enum_reflector_test.cpp -/
namespace EnumTest
open Verif.Enums

/-- enum_set_test.cpp:19-28 -/
abbrev DF := EnumSet false 32
abbrev default_ : BitVec 32 := 1
abbrev cpu : BitVec 32 := 2
abbrev gpu : BitVec 32 := 4
abbrev accelerator : BitVec 32 := 8
abbrev custom : BitVec 32 := 16
abbrev all : BitVec 32 := 0xffffffff

/-- enum_set_test.cpp:43-54 -/
example : let f : DF := .empty
    f.underlying = 0 ∧ f.test default_ = false ∧ f.test cpu = false ∧ f.test gpu = false ∧
    f.test accelerator = false ∧ f.test custom = false ∧ f.test all = false ∧
    f.hasAllE all = false ∧ f.hasAnyE all = false := by decide +kernel

/-- enum_set_test.cpp:56-82 -/
example : let f : DF := .empty
    (f.orE gpu).test gpu = true ∧ (EnumSet.eOr gpu f).test gpu = true ∧
    (f.orE gpu).hasAnyE gpu = true ∧ (EnumSet.eOr gpu f).hasAllE gpu = true ∧
    (let f := f.orAssignE gpu
     f.test gpu = true ∧ f.hasAnyE gpu = true ∧ f.hasAny ((EnumSet.of cpu).orE gpu) = true ∧
     f.hasAllE gpu = true ∧ f.hasAll ((EnumSet.of cpu).orE gpu) = false ∧
     (let f := f.orAssignE cpu
      f.test cpu = true ∧ f.hasAnyE cpu = true ∧ f.hasAllE cpu = true ∧
      f.hasAny ((EnumSet.of cpu).orE gpu) = true ∧ f.hasAll ((EnumSet.of cpu).orE gpu) = true ∧
      f.hasAny (((EnumSet.of cpu).orE gpu).orE accelerator) = true ∧
      f.hasAll (((EnumSet.of cpu).orE gpu).orE accelerator) = false)) := by decide +kernel

/-- enum_set_test.cpp:84-97 -/
example : let f : DF := (EnumSet.of gpu).orE cpu
    (f.andE cpu).test cpu = true ∧ ((EnumSet.eAnd cpu f).andE cpu).test cpu = true ∧
    (f.andE cpu).test gpu = false ∧ (f.andE accelerator).test accelerator = false ∧
    f.hasAny ((EnumSet.of cpu).orE gpu) = true ∧
    f.hasAny (((EnumSet.of cpu).orE gpu).orE accelerator) = true ∧
    f.hasAll ((EnumSet.of cpu).orE gpu) = true ∧
    f.hasAll (((EnumSet.of cpu).orE gpu).orE accelerator) = false ∧
    (f.andAssignE cpu).underlying = cpu := by decide +kernel

/-- enum_set_test.cpp:99-110 -/
example : let f : DF := (EnumSet.of gpu).orE cpu
    (f.xorE all).test gpu = false ∧ (EnumSet.eXor all f).test cpu = false ∧
    (f.xorE all).test accelerator = true ∧
    (let f := f.xorAssignE all
     f.test gpu = false ∧ f.test cpu = false ∧ f.test custom = true) := by decide +kernel

/-- enum_set_test.cpp:112-118 -/
example : (EnumSet.of all : DF).not.underlying = 0 ∧ (EnumSet.empty : DF).not.value = all := by
  decide +kernel

/-- enum_set_test.cpp:120-134 -/
example : (EnumSet.of all : DF).beq (.of all) = true ∧ (EnumSet.of all : DF).beqE all = true ∧
    EnumSet.eBeq all (.of all : DF) = true ∧ (EnumSet.of all : DF).bne (.of cpu) = true ∧
    (EnumSet.of all : DF).bneE cpu = true ∧ EnumSet.eBne all (.of cpu : DF) = true ∧
    (EnumSet.of cpu : DF).lt (.of gpu) = true ∧ (EnumSet.of cpu : DF).ltE gpu = true ∧
    EnumSet.eLt cpu (.of gpu : DF) = true := by decide +kernel

/-- enum_set_test.cpp:137-196, `type_qualifier` over `int`: const_ 1, restrict_ 2, volatile_ 4. -/
example : let f : EnumSet true 32 := .empty
    f.underlying = 0 ∧ f.test 0 = true ∧ f.test 1 = false ∧ f.test 2 = false ∧ f.test 4 = false ∧
    (f.orE 1).test 1 = true ∧ (EnumSet.eOr 1 f).test 1 = true ∧
    (let g : EnumSet true 32 := (EnumSet.of 1).orE 4
     (g.andE 2).value = 0 ∧ (EnumSet.eAnd 1 g).value = 1 ∧ (g.andAssignE 1).underlying = 1 ∧
     ((g.andAssignE 1).andAssignE 0).underlying = 0) ∧
    ((f.xorE 1).xorE 2).test 1 = true ∧ ((f.xorAssignE 2).xorAssignE 4).test 2 = true ∧
    ((f.xorAssignE 2).xorAssignE 4).test 1 = false ∧
    f.not.test 1 = true ∧ f.not.test 2 = true ∧ f.not.test 4 = true ∧
    (EnumSet.of 1 : EnumSet true 32).toBool = true ∧ (EnumSet.of 0 : EnumSet true 32).toBool = false := by
  decide +kernel

/-- enum_set_test.cpp:198-251, `memory_type` over `unsigned short`. -/
example : let f : EnumSet false 16 := .empty
    f.underlying = 0 ∧ f.test 1 = false ∧ f.test 2 = false ∧ f.test 4 = false ∧ f.test 8 = false ∧
    (f.orE 4).test 4 = true ∧ (EnumSet.eOr 4 f).test 4 = true ∧
    (let g : EnumSet false 16 := (EnumSet.of 4).orE 2
     (g.andE 1).value = 0 ∧ (EnumSet.eAnd 4 g).value = 4 ∧ (g.andAssignE 4).underlying = 4 ∧
     ((g.andAssignE 4).andAssignE 0).underlying = 0) ∧
    ((f.xorE 4).xorE 1).test 4 = true ∧ ((f.xorAssignE 1).xorAssignE 2).test 1 = true ∧
    ((f.xorAssignE 1).xorAssignE 2).test 4 = false ∧
    f.not.test 4 = true ∧ f.not.test 1 = true ∧ f.not.test 2 = true ∧ f.not.test 8 = true := by
  decide +kernel

abbrev int : IT := ⟨true, 32⟩
/-- enum_traits_test.cpp:41-56 -/
def colour : Trait := ⟨int, 2, 8, false⟩
def access : Trait := ⟨int, 0, 3, true⟩

/-- enum_traits_test.cpp:71-103 -/
example : access.minValue = 0 ∧ access.maxValue = some 3 ∧ access.count = some 3 ∧
    access.inRange 2 = some true ∧ access.inRange 3 = some false ∧
    access.inRangeI int 34 = some false ∧ access.inRangeI int 2 = some true ∧
    colour.minValue = 2 ∧ colour.maxValue = some 9 ∧ colour.count = some 7 ∧
    colour.inRange 8 = some true ∧ colour.inRange 11 = some false ∧
    colour.inRangeI int 1 = some false ∧ colour.inRangeI int 2 = some true := by decide +kernel

/-- enum_traits_test.cpp:105-128: `++`, on the values lab, hls, write_only, read_only, a. -/
example : enumInc true (6 : BitVec 32) = some 7 ∧ enumInc true (7 : BitVec 32) = some 8 ∧
    enumInc true (1 : BitVec 32) = some 2 ∧ enumInc true (2 : BitVec 32) = some 3 ∧
    enumInc true (0 : BitVec 32) = some 1 := by decide +kernel

theorem visit (t : IT) (e i j : Int) {l : List Int} (h : (enumIter t).ne i e = true)
    (hd : (enumIter t).deref i = some i) (hi : (enumIter t).preInc i = some j)
    (r : Visits (enumIter t) e j l) : Visits (enumIter t) e i (i :: l) := .step h hd hi r

/-- enum_range_test.cpp:50-66 -/
example : ∃ e, access.end_ = some e ∧ Visits (enumIter access.t) e access.begin [0, 1, 2] := by
  refine ⟨3, by decide +kernel, ?_⟩
  refine visit int 3 0 1 (by decide) (by decide) (by decide +kernel) ?_
  refine visit int 3 1 2 (by decide) (by decide) (by decide +kernel) ?_
  refine visit int 3 2 3 (by decide) (by decide) (by decide +kernel) (.done (by decide))

/-- enum_range_test.cpp:68-88 -/
example : ∃ e, colour.end_ = some e ∧
    Visits (enumIter colour.t) e colour.begin [2, 3, 4, 5, 6, 7, 8] := by
  refine ⟨9, by decide +kernel, ?_⟩
  refine visit int 9 2 3 (by decide) (by decide) (by decide +kernel) ?_
  refine visit int 9 3 4 (by decide) (by decide) (by decide +kernel) ?_
  refine visit int 9 4 5 (by decide) (by decide) (by decide +kernel) ?_
  refine visit int 9 5 6 (by decide) (by decide) (by decide +kernel) ?_
  refine visit int 9 6 7 (by decide) (by decide) (by decide +kernel) ?_
  refine visit int 9 7 8 (by decide) (by decide) (by decide +kernel) ?_
  refine visit int 9 8 9 (by decide) (by decide) (by decide +kernel) (.done (by decide))

/-- enum_reflector_test.cpp:9-60 -/
def colours : List Entry :=
  [⟨2, "rgb"⟩, ⟨3, "xyz"⟩, ⟨4, "ycrcb"⟩, ⟨5, "hsv"⟩, ⟨6, "lab"⟩, ⟨7, "hls"⟩, ⟨8, "luv"⟩]
def accesses : List Entry :=
  [⟨0, "read_write"⟩, ⟨1, "write_only"⟩, ⟨2, "read_only"⟩, ⟨3, "max"⟩]
def unscoped : List Entry := [⟨0, "prefix_one"⟩, ⟨1, "PREFIX_TWO"⟩]
def unordered : List Entry := [⟨0, "a"⟩, ⟨3, "b"⟩, ⟨2, "c"⟩]
def hole : List Entry := [⟨0, "a"⟩, ⟨1, "b"⟩, ⟨3, "c"⟩]

/-- enum_reflector_test.cpp:76-120 -/
example : count accesses = 4 ∧
    (accesses.map fun e => toStr int accesses e.value "unknown <access_mode>") =
      accesses.map (fun e => some e.name) ∧
    toStr int accesses 4 "unknown <access_mode>" = some "unknown <access_mode>" ∧
    fromStr accesses "read_write" = some 0 ∧ fromStr accesses "read_writ" = none ∧
    fromStr accesses "max" = some 3 ∧ values accesses = [0, 1, 2, 3] := by decide +kernel

/-- enum_reflector_test.cpp:122-160 -/
example : count colours = 7 ∧
    (colours.map fun e => toStr int colours e.value "unknown <colour_space>") =
      colours.map (fun e => some e.name) ∧
    toStr int colours 40 "unknown <colour_space>" = some "unknown <colour_space>" ∧
    fromStr colours "ycrcb" = some 4 ∧ values colours = [2, 3, 4, 5, 6, 7, 8] := by decide +kernel

/-- enum_reflector_test.cpp:162-190 -/
example : count unscoped = 2 ∧ toStr ⟨false, 32⟩ unscoped 0 "" = some "prefix_one" ∧
    toStr ⟨false, 32⟩ unscoped 1 "" = some "PREFIX_TWO" ∧
    fromStr unscoped "PREFIX_TWO" = some 1 ∧ values unscoped = [0, 1] := by decide +kernel

/-- enum_reflector_test.cpp:205-209 -/
example : isOrdinary int colours = some false ∧ isOrdinary int accesses = some true ∧
    isOrdinary ⟨false, 32⟩ unscoped = some true ∧ isOrdinary int unordered = some false ∧
    isOrdinary int hole = some false := by decide +kernel

end EnumTest

/-! ### zip_test.cpp, defer_test.cpp, exception_info_test.cpp -/
namespace RestTest

open Verif.Zip in
/-- zip_test.cpp:14-33 -/
example : let z := enumerated (.list [50, 40, 30, 20, 10])
    Visits z.2 z.1 [[.num 0, .val 50], [.num 1, .val 40], [.num 2, .val 30], [.num 3, .val 20],
      [.num 4, .val 10]] := by
  repeat refine .step rfl rfl rfl ?_
  exact .done rfl

open Verif.Zip in
/-- zip_test.cpp:35-93, the elements written as strings: the shortest range decides. -/
example : let z := zipped [.list ["50", "40", "30", "20", "10"], .list ["3.14", "2.74", "1.61"],
      .list ["ABC", "ZXC", "QWE"]]
    Visits z.2 z.1 [[.val "50", .val "3.14", .val "ABC"], [.val "40", .val "2.74", .val "ZXC"],
      [.val "30", .val "1.61", .val "QWE"]] := by
  repeat refine .step rfl rfl rfl ?_
  exact .done rfl

open Verif.Defer in
/-- defer_test.cpp: `i = 1` (action 1) runs after `i = 2` (action 2). -/
example : call [.scope [.defer 0 [.act 1], .act 2]] =
    ([.enter, .decl 0, .act 2, .run 0, .act 1, .done 0, .leave], .normal) := by decide +kernel

open Verif.ExcInfo
abbrev errno : Tag := 0
abbrev fileName : Tag := 1

def shown (ops : List Op) (o : Nat) (t : Tag) : Option (Option Val) := (run .empty ops).bind (get · o t)

/-- exception_info_test.cpp:28-49 -/
example : shown [.new] 0 errno = some none ∧ shown [.new] 0 fileName = some none ∧
    shown [.new, .copy 0, .assign 0 1, .unset 0 errno, .unset 0 fileName] 0 errno = some none := by
  decide +kernel

/-- exception_info_test.cpp:64-77: stack like behaviour. -/
example : shown [.new, .set 0 errno 123] 0 errno = some (some 123) ∧
    shown [.new, .set 0 errno 123, .set 0 errno 256] 0 errno = some (some 256) ∧
    shown [.new, .set 0 errno 123, .set 0 errno 256, .unset 0 errno] 0 errno = some (some 123) := by
  decide +kernel

/-- exception_info_test.cpp:79-116 (the file name is the value 7). -/
example : let two : List Op := [.new, .set 0 errno 123, .set 0 fileName 7]
    shown two 0 errno = some (some 123) ∧ shown two 0 fileName = some (some 7) ∧
    shown (two ++ [.unset 0 errno]) 0 errno = some none ∧
    shown (two ++ [.unset 0 errno]) 0 fileName = some (some 7) ∧
    shown (two ++ [.unset 0 errno, .unset 0 fileName]) 0 errno = some none ∧
    shown (two ++ [.unset 0 errno, .unset 0 fileName]) 0 fileName = some none ∧
    shown (two ++ [.unset 0 fileName]) 0 fileName = some none ∧
    shown (two ++ [.unset 0 fileName]) 0 errno = some (some 123) ∧
    shown (two ++ [.unset 0 fileName, .unset 0 errno]) 0 errno = some none ∧
    shown (two ++ [.unset 0 fileName, .unset 0 errno]) 0 fileName = some none := by decide +kernel

def pr : Printer where
  tag _ := tx "tag"
  value t v := if t = 3 then .bytes [0x12, 0xef, 0xcd, 0xab] else .text (tx (toString v))
  cls _ := tx "class"

def lines (t : Text) : Nat := (Verif.Text.split t ['\n']).length

/-- exception_info_test.cpp:35-36 -/
example : infoText pr ⟨none, 0, none, []⟩ =
    tx "<unknown-file>: throw_with_info in function <unknown-function>\n" := by decide +kernel

/-- exception_info_test.cpp:118-139: one more line for each value. -/
example : (List.range 5).map (fun k =>
      lines (infoText pr ⟨some (tx "a.cpp"), 60, some (tx "f"), [(3, 1), (2, 2), (1, 3), (0, 4)].drop (4 - k)⟩)) =
    [1, 2, 3, 4, 5] := by decide +kernel

/-- exception_info_test.cpp:13-14: `read_error` is an `io_error` (a virtual base, of which
there is one here) is a `std::exception`. -/
def ioError : Cls := .mk (.user 0) false [stdExceptionCls]
def readError : Cls := .mk (.user 1) false [ioError]
def thrown (values : List (Tag × Val)) : Obj :=
  throwWithInfo ⟨readError, fun _ => ⟨none, 0, none, []⟩, fun _ => tx "std::exception", fun _ => .user 1⟩
    ⟨some (tx "a.cpp"), 150, some (tx "f"), values⟩

/-- exception_info_test.cpp:142-191: taken by a handler of `exception_info`, then, after the
file name was added and `throw;`, by a handler of `io_error`, where the information is found. -/
example : (handler (thrown [(errno, 1234)]).cls .exceptionInfo).map
      (fun p => ((thrown [(errno, 1234)]).info p).values) = some [(errno, 1234)] ∧
    ((handler (thrown [(fileName, 7), (errno, 1234)]).cls (.user 0)).bind
      (getInfo (thrown [(fileName, 7), (errno, 1234)]))).map
      (fun p => ((thrown [(fileName, 7), (errno, 1234)]).info p).values) =
      some [(fileName, 7), (errno, 1234)] := by decide +kernel

/-- exception_info_test.cpp:195-206: `throw 1`, here a class that is no exception. -/
example : ptrText pr (some ⟨.mk (.user 5) false [], fun _ => ⟨none, 0, none, []⟩, fun _ => [], fun _ => .user 5⟩) =
    tx "dynamic exception type: <unknown-exception>\n" := by decide +kernel

/-- exception_info_test.cpp:208-219: `throw std::string{}`, taken by its type. -/
example : let o : Obj := ⟨.mk (.user 5) false [], fun _ => ⟨none, 0, none, []⟩, fun _ => [], fun _ => .user 5⟩
    objText pr o [] o.cls ≠ tx "dynamic exception type: <unknown-exception>\n" := by decide +kernel

/-- exception_info_test.cpp:221-235 -/
example : let o : Obj := ⟨.mk (.user 6) true [stdExceptionCls], fun _ => ⟨none, 0, none, []⟩,
      fun _ => tx "test error", fun _ => .user 6⟩
    Verif.Text.split (ptrText pr (some o)) ['\n'] = [tx "dynamic exception type: class", tx "what: test error"] := by
  decide +kernel

/-- exception_info_test.cpp:238-251 -/
example : lines (ptrText pr (some (thrown [(errno, 555)]))) = 4 := by decide +kernel

end RestTest

end Verif.Conform
