import Verif.Conform.Typedefs
/-
The models of the JSON and YAML serialization on the inputs of
tests/serialization_test.cpp.  Tests of the models, not proofs.
User serializers, `string_view` and `view` are left out.
-/
namespace Verif.Conform
open Verif.Path Verif.Serial Verif.Enums

/-! ### serialization_test.cpp: records with attributes -/

def serRec : Ty := .record (txt "serialization_record") (f "i" tint (f "s" tstr
  (.cons { name := txt "values", init := .seq [], aliases := [txt "vals", txt "numbers"] } (.vec tint) .nil)))
def renamed : Ty := .record (txt "renamed_serialization_record") (f "id" tint
  (.cons { name := txt "api_token", init := n 0, rename := some (txt "api-token"), aliases := [txt "api_token", txt "token"] } tint
  (.cons { name := txt "timeout", init := n 0, rename := some (txt "request-timeout") } tint .nil)))
def attributes : Ty := .record (txt "attributes") (f "keep" tint
  (.cons { name := txt "skip_se", init := n 0, skipSer := true } tint
  (.cons { name := txt "skip_de", init := n 0, skipDeser := true } tint
  (.cons { name := txt "skip_both", init := n 0, skipSer := true, skipDeser := true } tint
  (.cons { name := txt "skip_both_manually", init := n 0, skipSer := true, skipDeser := true } tint .nil)))))
def nullish : Ty := .record (txt "nullish") (f "context_null" (.opt tint)
  (.cons { name := txt "skipped_null", init := none', skipIfNull := true } (.opt tint)
  (.cons { name := txt "emitted_null", init := none', emitNull := true } (.opt tint)
  (f "present" (.opt tint) .nil))))
def emptyRec : Ty := .record (txt "empty") (f "context_empty" tstr
  (.cons { name := txt "skipped_empty", init := s "", skipIfEmpty := true } tstr
  (f "present_string" tstr
  (.cons { name := txt "skipped_empty_vector", init := .seq [], skipIfEmpty := true } (.vec tint)
  (f "present_vector" (.vec tint) .nil)))))
def flatInner : Ty := .record (txt "flattened_inner_record") (f "b" tint
  (.cons { name := txt "skipped_null", init := none', skipIfNull := true } (.opt tint) .nil))
def flatOuter : Ty := .record (txt "flattened_outer_record") (f "a" tint
  (.cons { name := txt "inner", init := fresh flatInner, flatten := true } flatInner (f "c" tint .nil)))
def extraRec : Ty := .record (txt "int_extra_fields_record") (f "a" tint
  (.cons { name := txt "extra", init := .map [], extra := true } (.map tint) .nil))
def nestedExtra : Ty := .record (txt "nested_extra_fields_record")
  (.cons { name := txt "extra", init := .map [], extra := true } (.map tint) .nil)
def duplicateExtra : Ty := .record (txt "duplicate_extra_fields_record") (f "a" tint
  (.cons { name := txt "extra", init := .map [], extra := true } (.map tint)
  (.cons { name := txt "nested", init := fresh nestedExtra, flatten := true } nestedExtra .nil)))
def directional : Ty := .record (txt "directional_validation_record") (f "a" tint
  (.cons { name := txt "skipped", init := n 0, rename := some (txt "a"), skipSer := true, skipDeser := true } tint
  (.cons { name := txt "write_only", init := n 0, skipDeser := true, aliases := [txt "a"] } tint
  (.cons { name := txt "read_only", init := n 0, skipSer := true, aliases := [txt "ro"] } tint .nil))))
def defaulted : Ty := .record (txt "defaulted_serialization_record") (f "id" tint
  (.cons { name := txt "count", init := n 0, defaults := [n 42] } tint
  (.cons { name := txt "label", init := s "", defaults := [s "default-label"] } tstr
  (.cons { name := txt "renamed", init := n 0, rename := some (txt "wire-renamed"), defaults := [n 7] } tint
  (.cons { name := txt "aliased", init := n 0, aliases := [txt "legacy-aliased"], defaults := [n 9] } tint .nil)))))
def allowMissing : Ty := .record (txt "allow_missing_serialization_record") (f "id" tint
  (.cons { name := txt "count", init := n 11, allowMissing := true } tint
  (.cons { name := txt "label", init := s "kept", allowMissing := true } tstr
  (.cons { name := txt "default_then_allowed", init := n 0, defaults := [n 31], allowMissing := true } tint
  (.cons { name := txt "allowed_then_default", init := n 0, defaults := [n 32], allowMissing := true } tint .nil)))))
def ranged : Ty := .record (txt "ranged")
  (.cons { name := txt "port", init := n 0, validators := [.range 1 65535] } tint
  (.cons { name := txt "ratio", init := d 0 0, validators := [.user 2] } tdbl
  (.cons { name := txt "ascii", init := n 0, validators := [.range 0 127] } (.leaf (.int u8)) .nil)))
def halfRanged : Ty := .record (txt "half")
  (.cons { name := txt "non_negative", init := n 0, validators := [.ge 0] } tint
  (.cons { name := txt "at_most_ten", init := n 0, validators := [.le 10] } tint .nil))
def customValidated : Ty := .record (txt "custom")
  (.cons { name := txt "name", init := s "", validators := [.user 0] } tstr
  (.cons { name := txt "even", init := n 0, validators := [.user 1] } tint .nil))
/-- The lambdas of `custom_validated_serialization_record`, and `range(0.0, 1.0)` on a
`double`, which the model of the attributes does not have. -/
def EV : Env := ⟨fun id v => match id, v with
  | 0, .atom (.str []) => .error (.deser (txt "name must not be empty"))
  | 1, .atom (.int x) => if x % 2 ≠ 0 then .error (.deser (txt "value must be even")) else .ok ()
  | 2, .atom (.dbl x) => if x.toInt < 0 ∨ (decimal 1 0).toInt < x.toInt then
      .error (.deser (txt "value is outside allowed range [0.000000, 1.000000]")) else .ok ()
  | _, _ => .ok ()⟩
def deJV (t : Ty) (text : String) : Res Value := deser J EV t (fresh t) (js text)
def deYV (t : Ty) (text : String) : Res Value := deser Y EV t (fresh t) (ys text)
def bothV (t : Ty) (text : String) (v : Value) : Bool := gives (deJV t text) v && gives (deYV t text) v
def bothThrow (t : Ty) (text : String) (msg : String) : Bool := throws (deJV t text) msg && throws (deYV t text) msg
def fieldsOf : Ty → Fields
  | .record _ fs => fs
  | _ => .nil
def patchJ (t : Ty) (v : Value) (text : String) : Res Value := patch J E0 t v (js text)
def patchY (t : Ty) (v : Value) (text : String) : Res Value := patch Y E0 t v (ys text)


/-! ### serialization_test.cpp:382-461: the static assertions -/

def rec2 (f₁ f₂ : Field) : Fields := .cons f₁ tint (.cons f₂ tint .nil)
def fld (name : String) : Field := { name := txt name, init := n 0 }
def renameCollision : Fields := rec2 (fld "a") { fld "b" with rename := some (txt "a") }
def flatRenamed : Ty := .record (txt "x") (rec2 (fld "a") { fld "b" with rename := some (txt "c") })
def flatRenamedOuter : Fields := .cons (fld "c") tint (.cons { fld "inner" with flatten := true } flatRenamed .nil)
def flatA : Ty := .record (txt "x") (.cons (fld "a") tint .nil)
def flatOuterA : Fields := .cons (fld "a") tint (.cons { fld "inner" with flatten := true } flatA .nil)
def siblings : Fields := .cons { fld "left" with flatten := true } flatA (.cons { fld "right" with flatten := true } flatA .nil)
def aliasInner : Ty := .record (txt "x") (.cons { fld "value" with aliases := [txt "a"] } tint .nil)
def aliasOuter : Fields := .cons (fld "a") tint (.cons { fld "inner" with flatten := true } aliasInner .nil)

example : serNamesOk renameCollision = false := by decide +kernel
example : deserNamesOk renameCollision = false := by decide +kernel
example : serNamesOk flatRenamedOuter = false := by decide +kernel
example : deserNamesOk flatRenamedOuter = false := by decide +kernel
example : serNamesOk (fieldsOf flatA) = true := by decide +kernel
example : deserNamesOk (fieldsOf flatA) = true := by decide +kernel
example : serNamesOk flatOuterA = false := by decide +kernel
example : deserNamesOk flatOuterA = false := by decide +kernel
example : serNamesOk siblings = false := by decide +kernel
example : deserNamesOk siblings = false := by decide +kernel
example : serNamesOk (fieldsOf aliasInner) = true := by decide +kernel
example : deserNamesOk (fieldsOf aliasInner) = true := by decide +kernel
example : serNamesOk aliasOuter = true := by decide +kernel
example : deserNamesOk aliasOuter = false := by decide +kernel
example : serNamesOk (fieldsOf directional) = true := by decide +kernel
example : deserNamesOk (fieldsOf directional) = true := by decide +kernel

/-! ### serialization_test.cpp:504-590, 1631-1734: coexistence, aliases -/

example : writes (ser J true serRec (.record [n 7, s "text", ints [1, 2, 3]])) "{\"i\":7,\"s\":\"text\",\"values\":[1,2,3]}" := by decide +kernel
example : dumps (dump J true serRec (.record [n 7, s "text", ints [1, 2, 3]])) "{\"i\":7,\"s\":\"text\",\"values\":[1,2,3]}" := by decide +kernel
example : both serRec "{\"i\": 7, \"s\": \"text\", \"values\": [1, 2, 3]}" (.record [n 7, s "text", ints [1, 2, 3]]) := by decide +kernel
example : both serRec "{\"i\": 7, \"s\": \"text\", \"vals\": [1, 2, 3]}" (.record [n 7, s "text", ints [1, 2, 3]]) := by decide +kernel
example : both serRec "{\"i\": 7, \"s\": \"text\", \"numbers\": [1, 2, 3]}" (.record [n 7, s "text", ints [1, 2, 3]]) := by decide +kernel
example : throws (deJ serRec "{\"i\": 7, \"s\": \"text\"}") "type must be an array but is a kNullType\nerror when deserializing field values\nerror when deserializing type serialization_record" := by decide +kernel
example : throws (deY serRec "{\"i\": 7, \"s\": \"text\"}") "type must be a sequence but is a Null\nerror when deserializing field values\nerror when deserializing type serialization_record" := by decide +kernel

/-! ### serialization_test.cpp:592-653: skipped fields -/

example : writes (ser J true attributes (.record [n 1, n 2, n 3, n 4, n 0])) "{\"keep\":1,\"skip_de\":3}" := by decide +kernel
example : dumps (dump J true attributes (.record [n 1, n 2, n 3, n 4, n 0])) "{\"keep\":1,\"skip_de\":3}" := by decide +kernel
example : writesY (ser Y true attributes (.record [n 1, n 2, n 3, n 4, n 0])) "keep: 1\nskip_de: 3" := by decide +kernel
example : dumpsY (dump Y true attributes (.record [n 1, n 2, n 3, n 4, n 0])) "keep: 1\nskip_de: 3" := by decide +kernel
example : gives (deser J E0 attributes (.record [n 1, n 2, n 3, n 4, n 5]) (js "{\"keep\": 10, \"skip_se\": 20, \"skip_de\": 30, \"skip_both\": 40, \"skip_both_manually\": 50}")) (.record [n 10, n 20, n 3, n 4, n 5]) := by decide +kernel
example : gives (deser Y E0 attributes (.record [n 1, n 2, n 3, n 4, n 5]) (ys "{\"keep\": 10, \"skip_se\": 20, \"skip_de\": 30, \"skip_both\": 40, \"skip_both_manually\": 50}")) (.record [n 10, n 20, n 3, n 4, n 5]) := by decide +kernel

/-! ### serialization_test.cpp:655-721: null fields -/

example : writes (ser J true nullish (.record [none', none', none', some' (n 7)])) "{\"emitted_null\":null,\"present\":7}" := by decide +kernel
example : dumps (dump J true nullish (.record [none', none', none', some' (n 7)])) "{\"emitted_null\":null,\"present\":7}" := by decide +kernel
example : writesY (ser Y true nullish (.record [none', none', none', some' (n 7)])) "emitted_null: ~\npresent: 7" := by decide +kernel
example : dumpsY (dump Y true nullish (.record [none', none', none', some' (n 7)])) "emitted_null: ~\npresent: 7" := by decide +kernel
example : writes (ser J false nullish (.record [none', none', none', some' (n 7)])) "{\"context_null\":null,\"emitted_null\":null,\"present\":7}" := by decide +kernel
example : dumps (dump J false nullish (.record [none', none', none', some' (n 7)])) "{\"context_null\":null,\"emitted_null\":null,\"present\":7}" := by decide +kernel
example : writesY (ser Y false nullish (.record [none', none', none', some' (n 7)])) "context_null: ~\nemitted_null: ~\npresent: 7" := by decide +kernel
example : dumpsY (dump Y false nullish (.record [none', none', none', some' (n 7)])) "context_null: ~\nemitted_null: ~\npresent: 7" := by decide +kernel

/-! ### serialization_test.cpp:723-760: empty fields -/

example : writes (ser J true emptyRec (.record [s "", s "", s "present", .seq [], ints [1, 2]])) "{\"context_empty\":\"\",\"present_string\":\"present\",\"present_vector\":[1,2]}" := by decide +kernel
example : dumps (dump J true emptyRec (.record [s "", s "", s "present", .seq [], ints [1, 2]])) "{\"context_empty\":\"\",\"present_string\":\"present\",\"present_vector\":[1,2]}" := by decide +kernel
example : writesY (ser Y true emptyRec (.record [s "", s "", s "present", .seq [], ints [1, 2]])) "context_empty: \"\"\npresent_string: present\npresent_vector:\n  - 1\n  - 2" := by decide +kernel
example : dumpsY (dump Y true emptyRec (.record [s "", s "", s "present", .seq [], ints [1, 2]])) "context_empty: \"\"\npresent_string: present\npresent_vector:\n  - 1\n  - 2" := by decide +kernel

/-! ### serialization_test.cpp:789-848: flattened fields -/

example : writes (ser J true flatOuter (.record [n 1, .record [n 2, none'], n 3])) "{\"a\":1,\"b\":2,\"c\":3}" := by decide +kernel
example : dumps (dump J true flatOuter (.record [n 1, .record [n 2, none'], n 3])) "{\"a\":1,\"b\":2,\"c\":3}" := by decide +kernel
example : writesY (ser Y true flatOuter (.record [n 1, .record [n 2, none'], n 3])) "a: 1\nb: 2\nc: 3" := by decide +kernel
example : dumpsY (dump Y true flatOuter (.record [n 1, .record [n 2, none'], n 3])) "a: 1\nb: 2\nc: 3" := by decide +kernel
example : both flatOuter "{\"a\": 10, \"b\": 20, \"c\": 30}" (.record [n 10, .record [n 20, none'], n 30]) := by decide +kernel

/-! ### serialization_test.cpp:850-959: patch -/

example : gives (patchJ flatOuter (.record [n 1, .record [n 2, some' (n 3)], n 4]) "{\"b\":20}") (.record [n 1, .record [n 20, some' (n 3)], n 4]) := by decide +kernel
example : gives (patchJ nullish (.record [some' (n 1), some' (n 2), some' (n 3), some' (n 4)]) "{\"present\":null}") (.record [some' (n 1), some' (n 2), some' (n 3), none']) := by decide +kernel
example : gives (patchJ serRec (.record [n 1, s "kept", ints [1, 2, 3]]) "{\"values\":[7,8]}") (.record [n 1, s "kept", ints [7, 8]]) := by decide +kernel
example : gives (patchJ serRec (.record [n 1, s "old", ints [1, 2, 3]]) "[7,\"new\",[8,9]]") (.record [n 7, s "new", ints [8, 9]]) := by decide +kernel
example : gives (patchJ renamed (.record [n 1, n 2, n 3]) "{\"token\":20,\"request-timeout\":30}") (.record [n 1, n 20, n 30]) := by decide +kernel
example : gives (patchJ (.opt flatInner) (none') "{\"b\":20}") (some' (.record [n 20, none'])) := by decide +kernel
example : gives (patchJ extraRec (.record [n 1, .map [(txt "changed", n 3), (txt "old", n 2)]]) "{\"a\":10,\"changed\":30,\"added\":40}") (.record [n 10, .map [(txt "added", n 40), (txt "changed", n 30), (txt "old", n 2)]]) := by decide +kernel
example : gives (patchY flatOuter (.record [n 1, .record [n 2, some' (n 3)], n 4]) "{\"b\":20}") (.record [n 1, .record [n 20, some' (n 3)], n 4]) := by decide +kernel
example : gives (patchY nullish (.record [some' (n 1), some' (n 2), some' (n 3), some' (n 4)]) "{\"present\":null}") (.record [some' (n 1), some' (n 2), some' (n 3), none']) := by decide +kernel
example : gives (patchY serRec (.record [n 1, s "kept", ints [1, 2, 3]]) "{\"values\":[7,8]}") (.record [n 1, s "kept", ints [7, 8]]) := by decide +kernel
example : gives (patchY serRec (.record [n 1, s "old", ints [1, 2, 3]]) "[7,\"new\",[8,9]]") (.record [n 7, s "new", ints [8, 9]]) := by decide +kernel
example : gives (patchY renamed (.record [n 1, n 2, n 3]) "{\"token\":20,\"request-timeout\":30}") (.record [n 1, n 20, n 30]) := by decide +kernel
example : gives (patchY (.opt flatInner) (none') "{\"b\":20}") (some' (.record [n 20, none'])) := by decide +kernel
example : gives (patchY extraRec (.record [n 1, .map [(txt "changed", n 3), (txt "old", n 2)]]) "{\"a\":10,\"changed\":30,\"added\":40}") (.record [n 10, .map [(txt "added", n 40), (txt "changed", n 30), (txt "old", n 2)]]) := by decide +kernel

/-! ### serialization_test.cpp:961-1119: extra fields -/

example : throws (deJ extraRec "{\"a\": 1, \"badExtra\": [1, 2, 3]}") "type must be an integral but is a kArrayType\nerror when deserializing extra field badExtra\nerror when deserializing type int_extra_fields_record" := by decide +kernel
example : throws (deY extraRec "{\"a\": 1, \"badExtra\": [1, 2]}") "type must be a scalar but is a Sequence\nerror when deserializing extra field badExtra\nerror when deserializing type int_extra_fields_record" := by decide +kernel
example : throwsLogic (ser J true extraRec (.record [n 1, .map [(txt "a", n 2)]])) "serialization extra_fields key collides with reflected field: a" := by decide +kernel
example : throwsLogic (ser J true duplicateExtra (.record [n 1, .map [(txt "outer", n 2)], .record [.map [(txt "inner", n 3)]]])) "serialization only one extra_fields field is supported" := by decide +kernel
example : throwsLogic (dump J true extraRec (.record [n 1, .map [(txt "a", n 2)]])) "serialization extra_fields key collides with reflected field: a" := by decide +kernel
example : throwsLogic (dump J true duplicateExtra (.record [n 1, .map [(txt "outer", n 2)], .record [.map [(txt "inner", n 3)]]])) "serialization only one extra_fields field is supported" := by decide +kernel
example : throwsLogic (ser Y true extraRec (.record [n 1, .map [(txt "a", n 2)]])) "serialization extra_fields key collides with reflected field: a" := by decide +kernel
example : throwsLogic (ser Y true duplicateExtra (.record [n 1, .map [(txt "outer", n 2)], .record [.map [(txt "inner", n 3)]]])) "serialization only one extra_fields field is supported" := by decide +kernel
example : throwsLogic (dump Y true extraRec (.record [n 1, .map [(txt "a", n 2)]])) "serialization extra_fields key collides with reflected field: a" := by decide +kernel
example : throwsLogic (dump Y true duplicateExtra (.record [n 1, .map [(txt "outer", n 2)], .record [.map [(txt "inner", n 3)]]])) "serialization only one extra_fields field is supported" := by decide +kernel
example : throwsLogic (deJ duplicateExtra "{\"a\": 1, \"unknown\": 2}") "serialization only one extra_fields field is supported" := by decide +kernel
example : throwsLogic (deY duplicateExtra "{\"a\": 1, \"unknown\": 2}") "serialization only one extra_fields field is supported" := by decide +kernel

/-! ### serialization_test.cpp:1121-1155: directions -/

example : writes (ser J true directional (.record [n 1, n 2, n 3, n 4])) "{\"a\":1,\"write_only\":3}" := by decide +kernel
example : dumps (dump J true directional (.record [n 1, n 2, n 3, n 4])) "{\"a\":1,\"write_only\":3}" := by decide +kernel
example : writesY (ser Y true directional (.record [n 1, n 2, n 3, n 4])) "a: 1\nwrite_only: 3" := by decide +kernel
example : dumpsY (dump Y true directional (.record [n 1, n 2, n 3, n 4])) "a: 1\nwrite_only: 3" := by decide +kernel
example : both directional "{\"a\": 10, \"ro\": 40}" (.record [n 10, n 0, n 0, n 40]) := by decide +kernel

/-! ### serialization_test.cpp:1157-1285: defaults -/

example : both defaulted "{\"id\": 1}" (.record [n 1, n 42, s "default-label", n 7, n 9]) := by decide +kernel
example : both defaulted "{\"id\": 2, \"count\": null, \"label\": null, \"wire-renamed\": null, \"aliased\": null}" (.record [n 2, n 42, s "default-label", n 7, n 9]) := by decide +kernel
example : both defaulted "{\"id\": 3, \"count\": 100, \"label\": \"present-label\", \"wire-renamed\": 101, \"legacy-aliased\": 102}" (.record [n 3, n 100, s "present-label", n 101, n 102]) := by decide +kernel

def nonLiteral : Fields := f "a" tint (.cons { name := txt "s", init := s "", defaults := [s "x"] } tstr .nil)
def extraNonLiteral : Ty := .record (txt "x") (f "a" tint (.cons { name := txt "s", init := s "", defaults := [s "x"] } tstr
  (.cons { name := txt "extra", init := .map [], extra := true } (.map tint) .nil)))
def flatNonLiteralInner : Ty := .record (txt "x") (f "b" tint (.cons { name := txt "s", init := s "", defaults := [s "x"] } tstr .nil))
def flatNonLiteral : Ty := .record (txt "x") (f "a" tint
  (.cons { name := txt "inner", init := fresh flatNonLiteralInner, flatten := true } flatNonLiteralInner .nil))

example : both (.record (txt "x") nonLiteral) "{\"a\": 1}" (.record [n 1, s "x"]) := by decide +kernel
example : both extraNonLiteral "{\"a\": 2, \"bonus\": 3}" (.record [n 2, s "x", .map [(txt "bonus", n 3)]]) := by decide +kernel
example : writes (ser J true extraNonLiteral (.record [n 2, s "x", .map [(txt "bonus", n 3)]])) "{\"a\":2,\"s\":\"x\",\"bonus\":3}" := by decide +kernel
example : dumps (dump J true extraNonLiteral (.record [n 2, s "x", .map [(txt "bonus", n 3)]])) "{\"a\":2,\"s\":\"x\",\"bonus\":3}" := by decide +kernel
example : both flatNonLiteral "{\"a\": 4, \"b\": 5}" (.record [n 4, .record [n 5, s "x"]]) := by decide +kernel
example : writes (ser J true flatNonLiteral (.record [n 4, .record [n 5, s "x"]])) "{\"a\":4,\"b\":5,\"s\":\"x\"}" := by decide +kernel
example : dumps (dump J true flatNonLiteral (.record [n 4, .record [n 5, s "x"]])) "{\"a\":4,\"b\":5,\"s\":\"x\"}" := by decide +kernel

/-! ### serialization_test.cpp:1287-1362: missing fields -/

example : both allowMissing "{\"id\": 1}" (.record [n 1, n 11, s "kept", n 31, n 32]) := by decide +kernel
example : both allowMissing "{\"id\": 2, \"count\": 21, \"label\": \"present\", \"default_then_allowed\": 22, \"allowed_then_default\": 23}" (.record [n 2, n 21, s "present", n 22, n 23]) := by decide +kernel
example : throws (deJ allowMissing "{\"id\": 3, \"count\": null}") "type must be an integral but is a kNullType\nerror when deserializing field count\nerror when deserializing type allow_missing_serialization_record" := by decide +kernel
example : throws (deY allowMissing "{\"id\": 3, \"count\": null}") "type must be a scalar but is a Null\nerror when deserializing field count\nerror when deserializing type allow_missing_serialization_record" := by decide +kernel

/-! ### serialization_test.cpp:1364-1542: ranges -/

example : bothV ranged "{\"port\": 1, \"ratio\": 1.0, \"ascii\": 65}" (.record [n 1, d 1 0, n 65]) := by decide +kernel
example : bothV ranged "{\"port\": 65535, \"ratio\": 0.0, \"ascii\": 65}" (.record [n 65535, d 0 0, n 65]) := by decide +kernel
example : bothThrow ranged "{\"port\": 0, \"ratio\": 0.5, \"ascii\": 65}" "value is outside allowed range [1, 65535]\nerror when deserializing field port\nerror when deserializing type ranged" := by decide +kernel
example : bothThrow ranged "{\"port\": 1234, \"ratio\": 1.5, \"ascii\": 65}" "value is outside allowed range [0.000000, 1.000000]\nerror when deserializing field ratio\nerror when deserializing type ranged" := by decide +kernel
example : bothThrow ranged "{\"port\": 1234, \"ratio\": 1.0, \"ascii\": 150}" "value is outside allowed range [0, 127]\nerror when deserializing field ascii\nerror when deserializing type ranged" := by decide +kernel
example : bothThrow ranged "[0, 0.5, 70]" "value is outside allowed range [1, 65535]\nerror when deserializing element 0\nerror when deserializing type ranged" := by decide +kernel
example : writes (ser J true ranged (.record [n 70000, d 2 0, n 250])) "{\"port\":70000,\"ratio\":2.0,\"ascii\":250}" := by decide +kernel
example : dumps (dump J true ranged (.record [n 70000, d 2 0, n 250])) "{\"port\":70000,\"ratio\":2.0,\"ascii\":250}" := by decide +kernel
example : writesY (ser Y true ranged (.record [n 70000, d 2 0, n 250])) "port: 70000\nratio: 2.0\nascii: 250" := by decide +kernel
example : dumpsY (dump Y true ranged (.record [n 70000, d 2 0, n 250])) "port: 70000\nratio: 2.0\nascii: 250" := by decide +kernel
example : bothV halfRanged "{\"non_negative\": 0, \"at_most_ten\": 10}" (.record [n 0, n 10]) := by decide +kernel
example : bothThrow halfRanged "{\"non_negative\": -1, \"at_most_ten\": 10}" "value is less than allowed limit of 0\nerror when deserializing field non_negative\nerror when deserializing type half" := by decide +kernel
example : bothThrow halfRanged "{\"non_negative\": 0, \"at_most_ten\": 11}" "value is greater than allowed limit of 10\nerror when deserializing field at_most_ten\nerror when deserializing type half" := by decide +kernel

/-! ### serialization_test.cpp:1544-1629: custom validators -/

example : bothV customValidated "{\"name\": \"abc\", \"even\": 4}" (.record [s "abc", n 4]) := by decide +kernel
example : bothThrow customValidated "{\"name\": \"\", \"even\": 4}" "name must not be empty\nerror when deserializing field name\nerror when deserializing type custom" := by decide +kernel
example : bothThrow customValidated "{\"name\": \"abc\", \"even\": 3}" "value must be even\nerror when deserializing field even\nerror when deserializing type custom" := by decide +kernel
example : bothThrow customValidated "[\"abc\", 3]" "value must be even\nerror when deserializing element 1\nerror when deserializing type custom" := by decide +kernel
example : writes (ser J true customValidated (.record [s "", n 3])) "{\"name\":\"\",\"even\":3}" := by decide +kernel
example : dumps (dump J true customValidated (.record [s "", n 3])) "{\"name\":\"\",\"even\":3}" := by decide +kernel

/-! ### serialization_test.cpp:1736-1832: renamed fields -/

example : writes (ser J true renamed (.record [n 1, n 2, n 3])) "{\"id\":1,\"api-token\":2,\"request-timeout\":3}" := by decide +kernel
example : dumps (dump J true renamed (.record [n 1, n 2, n 3])) "{\"id\":1,\"api-token\":2,\"request-timeout\":3}" := by decide +kernel
example : writesY (ser Y true renamed (.record [n 1, n 2, n 3])) "id: 1\napi-token: 2\nrequest-timeout: 3" := by decide +kernel
example : dumpsY (dump Y true renamed (.record [n 1, n 2, n 3])) "id: 1\napi-token: 2\nrequest-timeout: 3" := by decide +kernel
example : both renamed "{\"id\": 10, \"api-token\": 20, \"request-timeout\": 30}" (.record [n 10, n 20, n 30]) := by decide +kernel
example : both renamed "{\"id\": 10, \"token\": 21, \"request-timeout\": 30}" (.record [n 10, n 21, n 30]) := by decide +kernel
example : both renamed "{\"id\": 10, \"api-token\": 20, \"token\": 21, \"request-timeout\": 30}" (.record [n 10, n 20, n 30]) := by decide +kernel

end Verif.Conform
