import Verif.Conform.Text
import Verif.Rest.Model
import Verif.Resource.Demo
/-
The cases of tests/resource_test.cpp, run on the models of resource_op.hpp, of the
modification tracker and of JSON serialization.  These are tests of the models, not proofs.

`AccessInner::_validate_true` is not reflected, so it is not in the value: `strict` is the
user code for an object in which it is false.
-/
namespace Verif.Conform.Res
open Verif.Path Verif.Conform Verif.Rest
open Verif.Serial (txt)
open Verif.Resource (Status Outcome Exc Err)
open Verif.Resource.Demo (vec leafEq same)

/-! ### The types, tests/resource_test.cpp:24-217 -/

def fld (name : String) (init : Serial.Value) : Serial.Field := { name := txt name, init := init }
def i0 : Serial.Value := .atom (.int 0)
def s0 : Serial.Value := .atom (.str [])
def a0 : Serial.Value := .record [i0, .atom (.bool false), .atom (.dbl 0), s0]
def in0 : Serial.Value := .record [i0, i0]
def e0 : Serial.Value := .seq []
def o0 : Serial.Value := .opt none

/-- `int`, `bool`, `double` and `std::string`; the structs in the order of the file. -/
def Γ : Table where
  leaf
    | 0 => .leaf (.int ⟨true, 32⟩)
    | 1 => .leaf .bool
    | 2 => .leaf .dbl
    | _ => .leaf .str
  name _ := txt "struct"
  field
    | 0, 0 => fld "i" i0
    | 0, 1 => fld "b" (.atom (.bool false))
    | 0, 2 => fld "d" (.atom (.dbl 0))
    | 0, 3 => fld "str" s0
    | 1, 0 => fld "i" i0
    | 1, 1 => fld "b" (.atom (.bool false))
    | 1, 2 => fld "str" s0
    | 1, 3 => fld "a" a0
    | 2, 0 => { fld "cpp_name" i0 with rename := some (txt "wireName") }
    | 3, 0 => fld "value" i0
    | 3, 1 => fld "read_only_value" i0
    | 4, 0 => fld "value" i0
    | 4, 1 => fld "inner" in0
    | 4, 2 => fld "read_only_inner" in0
    | 4, 3 => fld "subtree_read_only_inner" in0
    | 4, 4 => fld "fully_read_only_inner" in0
    | 5, 0 => fld "maybe_value" o0
    | 5, 1 => fld "maybe_inner" o0
    | 5, 2 => fld "value" i0
    | 5, 3 => fld "read_only_maybe_value" o0
    | 6, 0 => fld "min" i0
    | 6, 1 => fld "max" i0
    | 7, 0 => fld "maybe_limits" o0
    | 8, 0 => fld "limits" in0
    | 9, 0 => fld "items" e0
    | 10, 0 => fld "items" e0
    | 11, 0 => fld "required_value" o0
    | 12, 0 => fld "items" e0
    | 12, 1 => fld "values" e0
    | 12, 2 => fld "read_only_items" e0
    | 12, 3 => fld "subtree_read_only_items" e0
    | 13, 0 => fld "items" (.map [])
    | 14, 0 => fld "items" (.map [])
    | 15, 0 => fld "items" e0
    | 16, 0 => fld "subtree_read_only_inner" (.record [e0])
    | 17, 0 => fld "id" i0
    | 17, 1 => fld "name" s0
    | 17, 2 => fld "note" o0
    | 18, 0 => fld "string_items" e0
    | 18, 1 => fld "int_items" e0
    | 19, 0 => fld "value" i0
    | _, _ => fld "" (.bits 0)

def at' (name : String) : Resource.Attrs := { name := txt name }
def ro (name : String) : Resource.Attrs := { name := txt name, readOnly := true }
def sro (name : String) : Resource.Attrs := { name := txt name, subtreeReadOnly := true }
def int : Resource.Ty := .leaf 0
def A : Resource.Ty := .record 0 (.cons (at' "i") int (.cons (at' "b") (.leaf 1)
  (.cons (at' "d") (.leaf 2) (.cons (at' "str") (.leaf 3) .nil))))
def B : Resource.Ty := .record 1 (.cons (at' "i") int (.cons (at' "b") (.leaf 1)
  (.cons (at' "str") (.leaf 3) (.cons (at' "a") A .nil))))
def RenamedResourceRoot : Resource.Ty := .record 2 (.cons (at' "wireName") int .nil)
def AccessInner : Resource.Ty := .record 3 (.cons (at' "value") int (.cons (ro "read_only_value") int .nil))
def AccessRoot : Resource.Ty := .record 4 (.cons (at' "value") int (.cons (at' "inner") AccessInner
  (.cons (ro "read_only_inner") AccessInner (.cons (sro "subtree_read_only_inner") AccessInner
  (.cons { name := txt "fully_read_only_inner", readOnly := true, subtreeReadOnly := true } AccessInner .nil)))))
def OptionalRoot : Resource.Ty := .record 5 (.cons (at' "maybe_value") (.opt int)
  (.cons (at' "maybe_inner") (.opt AccessInner) (.cons (at' "value") int
  (.cons (ro "read_only_maybe_value") (.opt int) .nil))))
def MemberValidated : Resource.Ty := .record 6 (.cons (at' "min") int (.cons (at' "max") int .nil))
def OptionalValidatedRoot : Resource.Ty := .record 7 (.cons (at' "maybe_limits") (.opt MemberValidated) .nil)
def NestedValidatedRoot : Resource.Ty := .record 8 (.cons (at' "limits") MemberValidated .nil)
def SizeValidatedRoot : Resource.Ty := .record 9 (.cons (at' "items") (.seq vec A) .nil)
def MinSizeValidatedRoot : Resource.Ty := .record 10 (.cons (at' "items") (.seq vec A) .nil)
def RequiredOptionalRoot : Resource.Ty := .record 11 (.cons (at' "required_value") (.opt int) .nil)
def CollectionRoot : Resource.Ty := .record 12 (.cons (at' "items") (.seq vec A) (.cons (at' "values") (.seq vec int)
  (.cons (ro "read_only_items") (.seq vec A) (.cons (sro "subtree_read_only_items") (.seq vec A) .nil))))
def MapCollectionRoot : Resource.Ty := .record 13 (.cons (at' "items") (.map true A) .nil)
def ValidatedMapCollectionRoot : Resource.Ty := .record 14 (.cons (at' "items") (.map true MemberValidated) .nil)
def CollectionAccessInner : Resource.Ty := .record 15 (.cons (at' "items") (.seq vec A) .nil)
def CollectionAccessRoot : Resource.Ty := .record 16 (.cons (sro "subtree_read_only_inner") CollectionAccessInner .nil)
def IntKeyedItem : Resource.Ty := .record 17 (.cons (at' "id") int (.cons (at' "name") (.leaf 3)
  (.cons (at' "note") (.opt (.leaf 3)) .nil)))
def KeyedCollectionRoot : Resource.Ty := .record 18
  (.cons { name := txt "string_items", childKeys := [3] } (.seq vec A)
  (.cons { name := txt "int_items", childKeys := [0] } (.seq vec IntKeyedItem) .nil))
def AdlValidated : Resource.Ty := .record 19 (.cons (at' "value") int .nil)

/-- The types compile for both. -/
example : ([A, B, RenamedResourceRoot, AccessInner, AccessRoot, OptionalRoot, MemberValidated,
    OptionalValidatedRoot, NestedValidatedRoot, SizeValidatedRoot, MinSizeValidatedRoot,
    RequiredOptionalRoot, CollectionRoot, MapCollectionRoot, ValidatedMapCollectionRoot,
    CollectionAccessInner, CollectionAccessRoot, IntKeyedItem, KeyedCollectionRoot,
    AdlValidated].all (good Γ)) = true := by decide +kernel

/-! ### User code -/

def reject (msg : String) : Except Exc Unit := .error (.validation (txt msg))

/-- 58-63 (with `_validate_true` equal to `ok`), 97-101, 121-125, 133-137, 145-149, 211-217. -/
def validate (ok : Bool) : Resource.Ty → Resource.Value → Except Exc Unit
  | .record 3 _, _ => if ok then .ok () else reject "validate failed"
  | .record 6 _, .record [.leaf (.num lo), .leaf (.num hi)] =>
    if lo > hi then reject "min must be less than or equal to max" else .ok ()
  | .record 9 _, .record [.seq items] => if items.length > 2 then reject "too many items" else .ok ()
  | .record 10 _, .record [.seq items] => if items.length < 2 then reject "too few items" else .ok ()
  | .record 11 _, .record [.opt none] => reject "required_value cannot be null"
  | .record 19 _, .record [.leaf (.num 13)] => reject "13 is not allowed"
  | _, _ => .ok ()

/-- 196-204 `resource_key_matches` of `IntKeyedItem`; the default for the other types. -/
def keyMatches : Resource.Ty → Resource.Value → Resource.Value → Str → Bool
  | .record 17 _, _, .leaf (.num key), segment =>
    match Resource.parseIndex segment with
    | some i => key == (i : Int)
    | none => false
  | t, v, key, segment => Resource.defaultKeyMatches t v key segment

def user (ok : Bool) : User where
  validate := validate ok
  keyMatches := keyMatches
  keyEq := leafEq
  thrown n := .other n

def E0 : Serial.Env := ⟨fun _ _ => .ok ()⟩
def R : Resource.Env Serial.JDoc := env Γ J E0 (user true)
def strict : Resource.Env Serial.JDoc := env Γ J E0 (user false)

/-! ### Calls -/

def num (n : Int) : Resource.Value := .leaf (.num n)
def bool (b : Bool) : Resource.Value := .leaf (.num (if b then 1 else 0))
def text (s : String) : Resource.Value := .leaf (.str (txt s))
/-- `m / 10 ^ k`. -/
def dec (m : Int) (k : Nat) : Resource.Value := .leaf (.num (decimal m k).toNat)
def one (v : Resource.Value) : Resource.Value := .opt (some v)
def mkA (i : Int) (b : Bool) (d : Resource.Value) (s : String) : Resource.Value :=
  .record [num i, bool b, d, text s]
def res (v : Resource.Value) : Resource.Resource := ⟨v, {}⟩

/-- `kl::path{s}`; the texts of this file are all valid (see `paths`). -/
def path (s : String) : View := ((Path.ofString (txt s)).getD Path.default).view
/-- The whole path as its segments. -/
def segments (s : String) : List Str := (Resource.segs (path s)).getD []

/-- `kl::json::dump`. -/
def dumper : Resource.Ty → Resource.Value → Except Exc Str :=
  Rest.dumper Γ J (user true) true fun d => txt (jsonText d)

def get (T : Resource.Ty) (v : Resource.Value) (p : String) : Outcome := Resource.get R T dumper (res v) (path p)
def put (T : Resource.Ty) (v : Resource.Value) (p body : String) := Resource.put R T (res v) (path p) (js body)
def post (T : Resource.Ty) (v : Resource.Value) (p body : String) := Resource.post R T (res v) (path p) (js body)
def patch (T : Resource.Ty) (v : Resource.Value) (p body : String) := Resource.patch R T (res v) (path p) (js body)
def del (T : Resource.Ty) (v : Resource.Value) (p : String) := Resource.del R T (res v) (path p)

/-- 219-225 `dump_json`. -/
def dumpJson (T : Resource.Ty) (v : Resource.Value) (p : String) : Except Err Str :=
  match Resource.visitAtPath R T v (segments p) 0 with
  | .error e => .error e
  | .ok n => Resource.liftUser (dumper n.ty n.val)

def dumpsAs (T : Resource.Ty) (v : Resource.Value) (p s : String) : Bool :=
  match dumpJson T v p with
  | .ok t => t == txt s
  | .error _ => false
def dumpThrows (T : Resource.Ty) (v : Resource.Value) (p : String) (e : Exc) : Bool :=
  match dumpJson T v p with
  | .ok _ => false
  | .error e' => e' == .throws e
def serializesAs (T : Resource.Ty) (v : Resource.Value) (p s : String) : Bool :=
  match serializeAt Γ J E0 (user true) true T v (segments p) with
  | .ok d => (jsonText d).toList == s.toList
  | .error _ => false

/-- The answer, the value left behind, and the generation. -/
def answers (r : Resource.Resource × Outcome) (s : Status) (body : String) (v : Resource.Value) (gen : Nat) : Bool :=
  r.2 == .resp s (txt body) && same r.1.value v && r.1.tracker.current == gen
/-- The paths have changed in this generation. -/
def changed (r : Resource.Resource × Outcome) (gen : Nat) (ps : List String) : Bool :=
  ps.all fun p => r.1.tracker.changedAt (path p) == some gen

def b0 : Resource.Value := .record [num 1, bool false, text "Test", mkA 42 true (dec 314 2) "Hello world!"]
def first : Resource.Value := mkA 1 true (dec 15 1) "first"
def second : Resource.Value := mkA 2 false (dec 25 1) "second"
def third : Resource.Value := mkA 3 true (dec 35 1) "third"

/-! ### "resource" (229-286) -/

example : dumpsAs B b0 "" "{\"i\":1,\"b\":false,\"str\":\"Test\",\"a\":{\"i\":42,\"b\":true,\"d\":3.14,\"str\":\"Hello world!\"}}" := by decide +kernel
example : dumpsAs B b0 "/str" "\"Test\"" := by decide +kernel
example : dumpsAs B b0 "/a" "{\"i\":42,\"b\":true,\"d\":3.14,\"str\":\"Hello world!\"}" := by decide +kernel
example : dumpsAs B b0 "/a/i" "42" := by decide +kernel
example : dumpsAs B b0 "/a/str" "\"Hello world!\"" := by decide +kernel
example : dumpThrows B b0 "/a/str1" .segmentNotFound := by decide +kernel
example : dumpThrows B b0 "/c" .segmentNotFound := by decide +kernel
example : dumpThrows B b0 "/a/str/x" .notTraversable := by decide +kernel
example : serializesAs B b0 "/a/str" "\"Hello world!\"" := by decide +kernel

def deserializeAt' (T : Resource.Ty) (v : Resource.Value) (p body : String) :=
  deserializeAt Γ J E0 (user true) T v (segments p) (js body)
def b1 : Resource.Value := .record [num 1, bool false, text "Test", mkA 13 false (dec 272 2) "byebye"]
example : same (deserializeAt' B b0 "/a" "{\"i\":13,\"b\":false,\"d\":2.72,\"str\":\"byebye\"}").1 b1 := by decide +kernel
example : same (deserializeAt' B b1 "/a/str" "\"updated\"").1
    (.record [num 1, bool false, text "Test", mkA 13 false (dec 272 2) "updated"]) := by decide +kernel

/-! ### "resource get" (288-361) -/

def opt0 : Resource.Value := .record [one (num 13), one (.record [num 1, num 2]), num 42, one (num 7)]

example : get B b0 "" = .resp .ok (txt "{\"i\":1,\"b\":false,\"str\":\"Test\",\"a\":{\"i\":42,\"b\":true,\"d\":3.14,\"str\":\"Hello world!\"}}") := by decide +kernel
example : get B b0 "/a/str" = .resp .ok (txt "\"Hello world!\"") := by decide +kernel
example : get B b0 "/a/../str" = .resp .ok (txt "\"Test\"") := by decide +kernel
example : (Path.ofString (txt "/a/%")).isNone := by decide +kernel
example : get OptionalRoot opt0 "/maybe_inner/value" = .resp .ok (txt "1") := by decide +kernel
example : get RenamedResourceRoot (.record [num 7]) "/wireName" = .resp .ok (txt "7") := by decide +kernel
example : get B b0 "/a/missing" = .resp .notFound [] := by decide +kernel
example : get B b0 "/a/str/x" = .resp .notFound [] := by decide +kernel

/-! ### "resource indexed collection traversal" (363-416) -/

def coll : Resource.Value := .record [.seq [first, second], .seq [num 7, num 8, num 9], .seq [], .seq []]

example : dumpsAs CollectionRoot coll "/items/0" "{\"i\":1,\"b\":true,\"d\":1.5,\"str\":\"first\"}" := by decide +kernel
example : dumpsAs CollectionRoot coll "/items/1/str" "\"second\"" := by decide +kernel
example : dumpsAs CollectionRoot coll "/values/2" "9" := by decide +kernel
example : serializesAs CollectionRoot coll "/items/1/i" "2" := by decide +kernel
example : get CollectionRoot coll "/items/0" = .resp .ok (txt "{\"i\":1,\"b\":true,\"d\":1.5,\"str\":\"first\"}") := by decide +kernel
example : get CollectionRoot coll "/items/1/str" = .resp .ok (txt "\"second\"") := by decide +kernel
example : dumpThrows CollectionRoot coll "/items/2" .segmentNotFound := by decide +kernel
example : dumpThrows CollectionRoot coll "/items/abc" .segmentNotFound := by decide +kernel
example : dumpThrows CollectionRoot coll "/values/0/x" .notTraversable := by decide +kernel
example : get CollectionRoot coll "/items/2" = .resp .notFound [] := by decide +kernel

/-! ### "resource map traversal" (418-466) and "resource map validation" (468-501) -/

/-- In the order of the keys. -/
def map0 (fifth : Int) : Resource.Value := .record [.map [(txt "fifth", mkA fifth false (dec 55 1) "fifth"),
  (txt "first", first), (txt "ninth", mkA 9 true (dec 95 1) "ninth")]]
def vmap : Resource.Value := .record [.map [(txt "limits", .record [num 1, num 10])]]

example : get MapCollectionRoot (map0 5) "/items/fifth" = .resp .ok (txt "{\"i\":5,\"b\":false,\"d\":5.5,\"str\":\"fifth\"}") := by decide +kernel
example : get MapCollectionRoot (map0 5) "/items/ninth/str" = .resp .ok (txt "\"ninth\"") := by decide +kernel
example : answers (put MapCollectionRoot (map0 5) "/items/fifth/i" "42") .ok "" (map0 42) 2 := by decide +kernel
example : get MapCollectionRoot (map0 5) "/items/missing" = .resp .notFound [] := by decide +kernel
example : get ValidatedMapCollectionRoot vmap "/items/limits" = .resp .ok (txt "{\"min\":1,\"max\":10}") := by decide +kernel
example : answers (put ValidatedMapCollectionRoot vmap "/items/limits/min" "20") .conflict
    "min must be less than or equal to max" vmap 1 := by decide +kernel

/-! ### "resource keyed collection traversal" (503-674) -/

def seven : Resource.Value := .record [num 7, text "seven", one (text "lucky")]
def thirteen : Resource.Value := .record [num 13, text "thirteen", one (text "prime")]
def keyed : Resource.Value := .record [.seq [first, second], .seq [seven, thirteen]]

example : dumpsAs KeyedCollectionRoot keyed "/string_items/second" "{\"i\":2,\"b\":false,\"d\":2.5,\"str\":\"second\"}" := by decide +kernel
example : dumpsAs KeyedCollectionRoot keyed "/string_items/second/i" "2" := by decide +kernel
example : get KeyedCollectionRoot keyed "/string_items/first" = .resp .ok (txt "{\"i\":1,\"b\":true,\"d\":1.5,\"str\":\"first\"}") := by decide +kernel
example : get KeyedCollectionRoot keyed "/string_items/second/str" = .resp .ok (txt "\"second\"") := by decide +kernel
example : let r := put KeyedCollectionRoot keyed "/string_items/second/i" "42"
    answers r .ok "" (.record [.seq [first, mkA 42 false (dec 25 1) "second"], .seq [seven, thirteen]]) 2 &&
    changed r 2 ["/string_items/second/i"] := by decide +kernel
example : answers (put KeyedCollectionRoot keyed "/string_items/second/str" "\"first\"") .methodNotAllowed "" keyed 1 := by decide +kernel
example : answers (put KeyedCollectionRoot keyed "/string_items/second" "{\"i\":2,\"b\":false,\"d\":2.5,\"str\":\"renamed\"}")
    .methodNotAllowed "" keyed 1 := by decide +kernel
example : answers (put KeyedCollectionRoot keyed "/string_items/second" "{\"i\":42,\"b\":true,\"d\":4.5,\"str\":\"second\"}")
    .ok "" (.record [.seq [first, mkA 42 true (dec 45 1) "second"], .seq [seven, thirteen]]) 2 := by decide +kernel
def twice : String :=
  "[{\"i\":3,\"b\":true,\"d\":3.5,\"str\":\"duplicate\"},{\"i\":4,\"b\":false,\"d\":4.5,\"str\":\"duplicate\"}]"
example : answers (put KeyedCollectionRoot keyed "/string_items" twice) .conflict "duplicate child key" keyed 1 := by decide +kernel
example : answers (put KeyedCollectionRoot keyed "" ("{\"string_items\":" ++ twice ++
    ",\"int_items\":[{\"id\":7,\"name\":\"seven\",\"note\":\"lucky\"},{\"id\":13,\"name\":\"thirteen\",\"note\":\"prime\"}]}"))
    .conflict "duplicate child key" keyed 1 := by decide +kernel
example : dumpThrows KeyedCollectionRoot keyed "/string_items/0" .segmentNotFound := by decide +kernel
example : get KeyedCollectionRoot keyed "/string_items/0" = .resp .notFound [] := by decide +kernel
example : get KeyedCollectionRoot keyed "/int_items/13" = .resp .ok (txt "{\"id\":13,\"name\":\"thirteen\",\"note\":\"prime\"}") := by decide +kernel
example : get KeyedCollectionRoot keyed "/int_items/7/name" = .resp .ok (txt "\"seven\"") := by decide +kernel
example : let r := del KeyedCollectionRoot keyed "/int_items/13/note"
    answers r .noContent "" (.record [.seq [first, second], .seq [seven, .record [num 13, text "thirteen", .opt none]]]) 2 &&
    changed r 2 ["/int_items/13/note"] := by decide +kernel
example : get KeyedCollectionRoot keyed "/int_items/not-an-int" = .resp .notFound [] := by decide +kernel

end Verif.Conform.Res
