import Verif.Conform.Resource
/-
The cases of tests/resource_test.cpp from "resource put" on.  These are tests of the models,
not proofs.
-/
namespace Verif.Conform.Res
open Verif.Path Verif.Conform Verif.Rest
open Verif.Serial (txt)
open Verif.Resource (Status Outcome Exc Err)
open Verif.Resource.Demo (vec leafEq same)

/-! ### "resource put" (676-960) -/

def in' (a b : Int) : Resource.Value := .record [num a, num b]
def acc (value : Int) (inner sub : Resource.Value) : Resource.Value :=
  .record [num value, inner, in' 0 0, sub, in' 0 0]
def acc0 : Resource.Value := acc 0 (in' 0 0) (in' 0 0)
def opt1 (inner : Resource.Value) : Resource.Value := .record [one (num 7), one inner, num 3, one (num 4)]

def secondText : String := "[{\"i\":2,\"b\":false,\"d\":2.5,\"str\":\"second\"}]"
example : let r := put B b0 "/a/i" "99"
    answers r .ok "" (.record [num 1, bool false, text "Test", mkA 99 true (dec 314 2) "Hello world!"]) 2 &&
    changed r 2 ["/a/i", "/a"] := by decide +kernel
example : let r := put AccessRoot acc0 "/inner" "{\"value\":7,\"read_only_value\":8}"
    answers r .ok "" (acc 0 (in' 7 8) (in' 0 0)) 2 && changed r 2 ["/inner/value"] := by decide +kernel
example : let r := put CollectionRoot (.record [.seq [first], .seq [num 1, num 2, num 3], .seq [], .seq []]) "/items" secondText
    answers r .ok "" (.record [.seq [second], .seq [num 1, num 2, num 3], .seq [], .seq []]) 2 &&
    changed r 2 ["/items/0/str"] := by decide +kernel
example : let r := put OptionalRoot (opt1 (in' 1 2)) "/maybe_inner" "{\"value\":9,\"read_only_value\":10}"
    answers r .ok "" (opt1 (in' 9 10)) 2 && changed r 2 ["/maybe_inner/value"] := by decide +kernel
example : let r := put OptionalRoot (opt1 (in' 1 2)) "/maybe_inner/value" "9"
    answers r .ok "" (opt1 (in' 9 2)) 2 && changed r 2 ["/maybe_inner/value"] := by decide +kernel
example : let r := put B b0 "" "{\"i\":2,\"b\":true,\"str\":\"Root\",\"a\":{\"i\":13,\"b\":false,\"d\":2.72,\"str\":\"Nested\"}}"
    answers r .ok "" (.record [num 2, bool true, text "Root", mkA 13 false (dec 272 2) "Nested"]) 2 &&
    changed r 2 ["", "/a/str"] := by decide +kernel
example : answers (put AccessRoot (acc 0 (in' 0 4) (in' 0 0)) "/inner/read_only_value" "9") .methodNotAllowed ""
    (acc 0 (in' 0 4) (in' 0 0)) 1 := by decide +kernel
example : answers (put AccessRoot (acc 0 (in' 0 0) (in' 4 0)) "/subtree_read_only_inner/value" "9") .methodNotAllowed ""
    (acc 0 (in' 0 0) (in' 4 0)) 1 := by decide +kernel
def frozen : Resource.Value := .record [.seq [], .seq [], .seq [], .seq [mkA 4 true (dec 15 1) "first"]]
example : answers (put CollectionRoot frozen "/subtree_read_only_items/0/i" "9") .methodNotAllowed "" frozen 1 := by decide +kernel
example : answers (put AccessRoot (acc 3 (in' 0 0) (in' 0 0)) "/missing" "9") .notFound "" (acc 3 (in' 0 0) (in' 0 0)) 1 := by
  decide +kernel
example : answers (put B b0 "/a/str/x" "9") .notFound "" b0 1 := by decide +kernel
example : answers (put B b0 "/a/i" "\"not an int\"") .badRequest "" b0 1 := by decide +kernel
example : answers (put B b0 "/a" "{\"i\":13,\"b\":\"not a bool\",\"d\":2.72,\"str\":\"updated\"}") .badRequest "" b0 1 := by
  decide +kernel
example : answers (put MemberValidated (in' 1 5) "" "{\"min\":10,\"max\":2}") .conflict
    "min must be less than or equal to max" (in' 1 5) 1 := by decide +kernel
example : answers (put MemberValidated (in' 1 5) "/min" "10") .conflict
    "min must be less than or equal to max" (in' 1 5) 1 := by decide +kernel
example : answers (put NestedValidatedRoot (.record [in' 1 5]) "/limits/min" "10") .conflict
    "min must be less than or equal to max" (.record [in' 1 5]) 1 := by decide +kernel
example : answers (put OptionalValidatedRoot (.record [one (in' 1 5)]) "/maybe_limits" "{\"min\":10,\"max\":2}") .conflict
    "min must be less than or equal to max" (.record [one (in' 1 5)]) 1 := by decide +kernel
example : answers (put AdlValidated (.record [num 7]) "" "{\"value\":13}") .conflict "13 is not allowed" (.record [num 7]) 1 := by
  decide +kernel

/-! ### "resource post" (962-1153) -/

def thirdText : String := "{\"i\":3,\"b\":true,\"d\":3.5,\"str\":\"third\"}"
def none' : Resource.Value := .record [.seq [], .seq [], .seq [], .seq []]

example : let r := post CollectionRoot coll "/items" thirdText
    answers r .created "" (.record [.seq [first, second, third], .seq [num 7, num 8, num 9], .seq [], .seq []]) 2 &&
    changed r 2 ["/items", "/items/2/str"] := by decide +kernel
example : let r := post KeyedCollectionRoot keyed "/string_items" thirdText
    answers r .created "" (.record [.seq [first, second, third], .seq [seven, thirteen]]) 2 &&
    changed r 2 ["/string_items/third/i"] := by decide +kernel
example : answers (post KeyedCollectionRoot keyed "/string_items" "{\"i\":9,\"b\":true,\"d\":9.5,\"str\":\"second\"}")
    .conflict "duplicate child key" keyed 1 := by decide +kernel
example : answers (post SizeValidatedRoot (.record [.seq [first, second]]) "/items" thirdText)
    .conflict "too many items" (.record [.seq [first, second]]) 1 := by decide +kernel
example : answers (post CollectionRoot (.record [.seq [first], .seq [num 7, num 8, num 9], .seq [], .seq []]) "/items"
      "{\"i\":\"bad\",\"b\":true,\"d\":3.5,\"str\":\"third\"}")
    .badRequest "" (.record [.seq [first], .seq [num 7, num 8, num 9], .seq [], .seq []]) 1 := by decide +kernel
example : answers (post AccessRoot acc0 "/value" "9") .methodNotAllowed "" acc0 1 := by decide +kernel
example : answers (post CollectionRoot none' "/read_only_items" thirdText) .methodNotAllowed "" none' 1 := by decide +kernel
example : answers (post CollectionRoot none' "/subtree_read_only_items" thirdText) .methodNotAllowed "" none' 1 := by decide +kernel
example : answers (post CollectionAccessRoot (.record [.record [.seq []]]) "/subtree_read_only_inner/items" thirdText)
    .methodNotAllowed "" (.record [.record [.seq []]]) 1 := by decide +kernel

/-! ### "resource patch" (1155-1284) -/

def b2 : Resource.Value := .record [num 1, bool false, text "root", mkA 42 true (dec 314 2) "nested"]
def coll1 (values : List Int) : Resource.Value := .record [.seq [first], .seq (values.map num), .seq [], .seq []]
def coll2 (values : List Int) : Resource.Value := .record [.seq [], .seq (values.map num), .seq [], .seq []]

example : let r := patch B b2 "" "{\"str\":\"updated\",\"a\":{\"i\":99}}"
    answers r .ok "" (.record [num 1, bool false, text "updated", mkA 99 true (dec 314 2) "nested"]) 2 &&
    changed r 2 ["/a/str"] := by decide +kernel
example : answers (patch OptionalRoot (opt1 (in' 1 2)) "" "{\"maybe_value\":null}") .ok ""
    (.record [.opt none, one (in' 1 2), num 3, one (num 4)]) 2 := by decide +kernel
example : answers (patch CollectionRoot (coll1 [1, 2, 3]) "" "{\"values\":[7,8]}") .ok "" (coll1 [7, 8]) 2 := by decide +kernel
example : let r := patch CollectionRoot (coll2 [1, 2, 3]) "/values" "[7,8]"
    answers r .ok "" (coll2 [7, 8]) 2 && changed r 2 ["/values/0"] := by decide +kernel
example : answers (patch MemberValidated (in' 1 5) "" "{\"min\":10}") .conflict
    "min must be less than or equal to max" (in' 1 5) 1 := by decide +kernel
example : answers (patch KeyedCollectionRoot (.record [.seq [first], .seq [seven]]) "/string_items/first" "{\"str\":\"renamed\"}")
    .methodNotAllowed "" (.record [.seq [first], .seq [seven]]) 1 := by decide +kernel
example : answers (patch AccessRoot (acc 0 (in' 0 4) (in' 0 0)) "/inner/read_only_value" "9") .methodNotAllowed ""
    (acc 0 (in' 0 4) (in' 0 0)) 1 := by decide +kernel
example : answers (patch B b2 "" "{\"a\":{\"i\":\"bad\"}}") .badRequest "" b2 1 := by decide +kernel

/-! ### "resource delete" (1286-1513) -/

example : let r := del CollectionRoot coll "/items/0"
    answers r .noContent "" (.record [.seq [second], .seq [num 7, num 8, num 9], .seq [], .seq []]) 2 &&
    changed r 2 ["/items", "/items/0/str"] := by decide +kernel
example : answers (del MapCollectionRoot (map0 5) "/items/first") .noContent ""
    (.record [.map [(txt "fifth", mkA 5 false (dec 55 1) "fifth"), (txt "ninth", mkA 9 true (dec 95 1) "ninth")]]) 2 := by decide +kernel
example : let r := del KeyedCollectionRoot keyed "/string_items/second"
    answers r .noContent "" (.record [.seq [first], .seq [seven, thirteen]]) 2 &&
    changed r 2 ["/string_items", "/string_items/first/i"] := by decide +kernel
example : let r := del OptionalRoot opt0 "/maybe_value"
    answers r .noContent "" (.record [.opt none, one (in' 1 2), num 42, one (num 7)]) 2 &&
    changed r 2 ["/maybe_value"] := by decide +kernel
example : let r := del OptionalRoot opt0 "/maybe_inner"
    answers r .noContent "" (.record [one (num 13), .opt none, num 42, one (num 7)]) 2 &&
    changed r 2 ["/maybe_inner", "/maybe_inner/value"] := by decide +kernel
example : answers (Resource.del strict OptionalRoot (res opt0) (path "/maybe_inner")) .conflict "validate failed" opt0 1 := by
  decide +kernel
example : answers (del OptionalRoot opt0 "/value") .methodNotAllowed "" opt0 1 := by decide +kernel
example : answers (del OptionalRoot opt0 "/read_only_maybe_value") .methodNotAllowed "" opt0 1 := by decide +kernel
def ro0 : Resource.Value := .record [.seq [], .seq [], .seq [first], .seq []]
def sro0 : Resource.Value := .record [.seq [], .seq [], .seq [], .seq [first]]
example : answers (del CollectionRoot ro0 "/read_only_items/0") .methodNotAllowed "" ro0 1 := by decide +kernel
example : answers (del CollectionRoot sro0 "/subtree_read_only_items/0") .methodNotAllowed "" sro0 1 := by decide +kernel
example : answers (del RequiredOptionalRoot (.record [one (num 13)]) "/required_value") .conflict
    "required_value cannot be null" (.record [one (num 13)]) 1 := by decide +kernel
example : answers (del MinSizeValidatedRoot (.record [.seq [first, second]]) "/items/1") .conflict
    "too few items" (.record [.seq [first, second]]) 1 := by decide +kernel
example : answers (del OptionalRoot opt0 "/missing") .notFound "" opt0 1 := by decide +kernel

/-! ### "resource modification tracker" (1515-1567) -/

def t0 : Tracker.Tracker := {}
def at0 (t : Tracker.Tracker) (p : String) : Option Nat := t.changedAt (path p)
def since (t : Tracker.Tracker) (p : String) (g : Nat) : Option Bool := t.changedSince (path p) g
def notify (t : Tracker.Tracker) (p : String) (sub : Bool := false) : Tracker.Tracker × Nat :=
  (t.notify (path p) sub).getD (t, 99)

example : t0.current = 1 ∧ at0 t0 "" = some 0 ∧ at0 t0 "/settings/video" = some 0 ∧
    since t0 "/settings/video" 0 = some false := by decide +kernel
def t1 : Tracker.Tracker := (notify t0 "/settings/video/width").1
example : (notify t0 "/settings/video/width").2 = 2 ∧ t1.current = 2 ∧ at0 t1 "" = some 2 ∧ at0 t1 "/settings" = some 2 ∧
    at0 t1 "/settings/video" = some 2 ∧ at0 t1 "/settings/video/width" = some 2 ∧
    at0 t1 "/settings/video/height" = some 0 ∧ at0 t1 "/settings/audio" = some 0 ∧
    since t1 "/settings/video" 0 = some true ∧ since t1 "/settings/video" 2 = some false := by decide +kernel
example : let r := notify t1 "/settings/audio"
    since r.1 "/settings/video/width" r.2 = some false := by decide +kernel
def t2 : Tracker.Tracker := (notify t1 "/settings/video" true).1
example : (notify t1 "/settings/video" true).2 = 3 ∧ at0 t2 "" = some 3 ∧ at0 t2 "/settings" = some 3 ∧
    at0 t2 "/settings/video" = some 3 ∧ at0 t2 "/settings/video/width" = some 3 ∧
    at0 t2 "/settings/video/height" = some 3 ∧ at0 t2 "/settings/video/nested/leaf" = some 3 ∧
    at0 t2 "/settings/audio" = some 0 ∧ since t2 "/settings/video/width" 2 = some true := by decide +kernel

/-! ### "resource traversal reports write access constraints" (1569-1604) -/

/-- 1573-1579 `direct_write_forbidden_at_path`. -/
def forbidden (p : String) : Option Bool :=
  match Resource.visitAtPath R AccessRoot acc0 (segments p) 0 with
  | .error _ => none
  | .ok n => some (n.ctx.subtreeReadOnly || n.node.readOnly)

example : forbidden "" = some false ∧ forbidden "/value" = some false ∧ forbidden "/inner" = some false ∧
    forbidden "/inner/value" = some false ∧ forbidden "/inner/read_only_value" = some true ∧
    forbidden "/read_only_inner" = some true ∧ forbidden "/read_only_inner/value" = some false ∧
    forbidden "/subtree_read_only_inner" = some false ∧ forbidden "/subtree_read_only_inner/value" = some true ∧
    forbidden "/subtree_read_only_inner/read_only_value" = some true ∧
    forbidden "/fully_read_only_inner" = some true ∧ forbidden "/fully_read_only_inner/value" = some true := by decide +kernel

end Verif.Conform.Res
