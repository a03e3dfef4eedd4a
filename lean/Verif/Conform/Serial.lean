import Verif.Conform.Typedefs
/-
The models of the JSON and YAML serialization on the inputs of tests/json_test.cpp and
tests/yaml_test.cpp: basic types, records, tuples, enums, optional fields.  Tests of the models, not proofs.
User serializers, `string_view` and `view` are left out.
-/
namespace Verif.Conform
open Verif.Path Verif.Serial Verif.Enums

/-! ### json_test.cpp:45-73, 931-946, yaml_test.cpp:34-60, 908-922: basic types -/

example : both tint "-1" (n (-1)) := by decide +kernel
example : both tstr "\"string\"" (s "string") := by decide +kernel
example : both (.leaf (.int u32)) "33" (n 33) := by decide +kernel
example : both tbool "true" (b true) := by decide +kernel
example : both tdbl "13.11" (d 1311 2) := by decide +kernel
example : both (.rawEnum i32) "0" (n 0) := by decide +kernel
example : writes (ser J true tint (n 1)) "1" := by decide +kernel
example : dumps (dump J true tint (n 1)) "1" := by decide +kernel
example : writesY (ser Y true tint (n 1)) "1" := by decide +kernel
example : dumpsY (dump Y true tint (n 1)) "1" := by decide +kernel
example : writes (ser J true (.leaf (.int u32)) (n 3)) "3" := by decide +kernel
example : dumps (dump J true (.leaf (.int u32)) (n 3)) "3" := by decide +kernel
example : writesY (ser Y true (.leaf (.int u32)) (n 3)) "3" := by decide +kernel
example : dumpsY (dump Y true (.leaf (.int u32)) (n 3)) "3" := by decide +kernel
example : writes (ser J true (.leaf (.int i64)) (n (-1))) "-1" := by decide +kernel
example : dumps (dump J true (.leaf (.int i64)) (n (-1))) "-1" := by decide +kernel
example : writesY (ser Y true (.leaf (.int i64)) (n (-1))) "-1" := by decide +kernel
example : dumpsY (dump Y true (.leaf (.int i64)) (n (-1))) "-1" := by decide +kernel
example : writes (ser J true tbool (b true)) "true" := by decide +kernel
example : dumps (dump J true tbool (b true)) "true" := by decide +kernel
example : writesY (ser Y true tbool (b true)) "true" := by decide +kernel
example : dumpsY (dump Y true tbool (b true)) "true" := by decide +kernel
example : writes (ser J true tstr (s "qwe")) "\"qwe\"" := by decide +kernel
example : dumps (dump J true tstr (s "qwe")) "\"qwe\"" := by decide +kernel
example : writesY (ser Y true tstr (s "qwe")) "qwe" := by decide +kernel
example : dumpsY (dump Y true tstr (s "qwe")) "qwe" := by decide +kernel
example : writes (ser J true tdbl (d 1311 2)) "13.11" := by decide +kernel
example : dumps (dump J true tdbl (d 1311 2)) "13.11" := by decide +kernel
example : writesY (ser Y true tdbl (d 1311 2)) "13.11" := by decide +kernel
example : dumpsY (dump Y true tdbl (d 1311 2)) "13.11" := by decide +kernel
example : writes (ser J true (.rawEnum i32) (n 0)) "0" := by decide +kernel
example : dumps (dump J true (.rawEnum i32) (n 0)) "0" := by decide +kernel
example : writesY (ser Y true (.rawEnum i32) (n 0)) "0" := by decide +kernel
example : dumpsY (dump Y true (.rawEnum i32) (n 0)) "0" := by decide +kernel
example : writes (ser J true (.enum ordinaryReflectable) (n 0)) "\"oe_one_ref\"" := by decide +kernel
example : dumps (dump J true (.enum ordinaryReflectable) (n 0)) "\"oe_one_ref\"" := by decide +kernel
example : writesY (ser Y true (.enum ordinaryReflectable) (n 0)) "oe_one_ref" := by decide +kernel
example : dumpsY (dump Y true (.enum ordinaryReflectable) (n 0)) "oe_one_ref" := by decide +kernel
example : writes (ser J true (.leaf (.int u32)) (n 2147483648)) "2147483648" := by decide +kernel
example : dumps (dump J true (.leaf (.int u32)) (n 2147483648)) "2147483648" := by decide +kernel
example : writesY (ser Y true (.leaf (.int u32)) (n 2147483648)) "2147483648" := by decide +kernel
example : dumpsY (dump Y true (.leaf (.int u32)) (n 2147483648)) "2147483648" := by decide +kernel

/-! ### json_test.cpp:81-172, 948-956, yaml_test.cpp:68-153, 924-932: records -/

example : writes (ser J true inner (fresh inner)) "{\"r\":1337,\"d\":3.145926}" := by decide +kernel
example : dumps (dump J true inner (fresh inner)) "{\"r\":1337,\"d\":3.145926}" := by decide +kernel
example : writesY (ser Y true inner (fresh inner)) "r: 1337\nd: 3.145926" := by decide +kernel
example : dumpsY (dump Y true inner (fresh inner)) "r: 1337\nd: 3.145926" := by decide +kernel
example : writes (ser J true manual (fresh manual)) "{\"Ar\":1337,\"Ad\":3.145926,\"B\":416,\"C\":2.71828}" := by decide +kernel
example : dumps (dump J true manual (fresh manual)) "{\"Ar\":1337,\"Ad\":3.145926,\"B\":416,\"C\":2.71828}" := by decide +kernel
example : writesY (ser Y true manual (fresh manual)) "Ar: 1337\nAd: 3.145926\nB: 416\nC: 2.71828" := by decide +kernel
example : dumpsY (dump Y true manual (fresh manual)) "Ar: 1337\nAd: 3.145926\nB: 416\nC: 2.71828" := by decide +kernel
example : throws (deY inner "null") "type must be a sequence or map but is a Null\nerror when deserializing type inner_t" := by decide +kernel
example : throws (deJ inner "{\"d\": 1.0}") "type must be an integral but is a kNullType\nerror when deserializing field r\nerror when deserializing type inner_t" := by decide +kernel
example : throws (deY inner "{\"d\": 1.0}") "type must be a scalar but is a Null\nerror when deserializing field r\nerror when deserializing type inner_t" := by decide +kernel
example : both inner "{\"d\": 1.0, \"r\": 2, \"zzz\": null}" (.record [n 2, d 1 0]) := by decide +kernel
example : both inner "{\"d\": 1.0, \"r\": 2}" (.record [n 2, d 1 0]) := by decide +kernel
example : throws (deJ manual "{\"Ad\": 3.0, \"B\": 331, \"C\": 7.66}") "type must be an integral but is a kNullType\nerror when deserializing field Ar\nerror when deserializing type Manual" := by decide +kernel
example : throws (deY manual "{\"Ad\": 3.0, \"B\": 331, \"C\": 7.66}") "type must be a scalar but is a Null\nerror when deserializing field Ar\nerror when deserializing type Manual" := by decide +kernel
example : throws (deJ manual "{\"Ad\": 3.0, \"Ar\": 21, \"C\": 7.66}") "type must be an integral but is a kNullType\nerror when deserializing field B\nerror when deserializing type Manual" := by decide +kernel
example : throws (deY manual "{\"Ad\": 3.0, \"Ar\": 21, \"C\": 7.66}") "type must be a scalar but is a Null\nerror when deserializing field B\nerror when deserializing type Manual" := by decide +kernel
example : both manual "{\"Ad\": 3.0, \"Ar\": 21, \"B\": 331, \"C\": 7.66}" (.record [n 21, d 3 0, n 331, d 766 2]) := by decide +kernel

/-! ### json_test.cpp:189-308, 980-985, yaml_test.cpp:170-284, 964-969: tuples and wrong types -/

example : writes (ser J true tup4 (.seq [n 13, d 314 2, n 4, b true])) "[13,3.14,\"lab\",true]" := by decide +kernel
example : dumps (dump J true tup4 (.seq [n 13, d 314 2, n 4, b true])) "[13,3.14,\"lab\",true]" := by decide +kernel
example : writesY (ser Y true tup4 (.seq [n 13, d 314 2, n 4, b true])) "- 13\n- 3.14\n- lab\n- true" := by decide +kernel
example : dumpsY (dump Y true tup4 (.seq [n 13, d 314 2, n 4, b true])) "- 13\n- 3.14\n- lab\n- true" := by decide +kernel
example : writes (ser J true pair (.seq [n 13, n 4])) "[13,\"lab\"]" := by decide +kernel
example : dumps (dump J true pair (.seq [n 13, n 4])) "[13,\"lab\"]" := by decide +kernel
example : writesY (ser Y true pair (.seq [n 13, n 4])) "- 13\n- lab" := by decide +kernel
example : dumpsY (dump Y true pair (.seq [n 13, n 4])) "- 13\n- lab" := by decide +kernel
example : throws (deJ tint "null") "type must be an integral but is a kNullType" := by decide +kernel
example : throws (deY tint "null") "type must be a scalar but is a Null" := by decide +kernel
example : throws (deJ tbool "null") "type must be a boolean but is a kNullType" := by decide +kernel
example : throws (deY tbool "null") "type must be a scalar but is a Null" := by decide +kernel
example : throws (deJ tdbl "null") "type must be a number but is a kNullType" := by decide +kernel
example : throws (deY tdbl "null") "type must be a scalar but is a Null" := by decide +kernel
example : throws (deJ tstr "null") "type must be a string but is a kNullType" := by decide +kernel
example : throws (deY tstr "null") "type must be a scalar but is a Null" := by decide +kernel
example : throws (deJ (.tuple false (.cons tint .nil)) "null") "type must be an array but is a kNullType" := by decide +kernel
example : throws (deY (.tuple false (.cons tint .nil)) "null") "type must be a sequence but is a Null" := by decide +kernel
example : throws (deJ (.vec tint) "null") "type must be an array but is a kNullType" := by decide +kernel
example : throws (deY (.vec tint) "null") "type must be a sequence but is a Null" := by decide +kernel
example : throws (deJ (.map tint) "null") "type must be an object but is a kNullType" := by decide +kernel
example : throws (deY (.map tint) "null") "type must be a map but is a Null" := by decide +kernel
example : throws (deJ tint "\"text\"") "type must be an integral but is a kStringType" := by decide +kernel
example : throws (deY tint "\"text\"") "bad conversion" := by decide +kernel
example : throws (deJ tbool "\"text\"") "type must be a boolean but is a kStringType" := by decide +kernel
example : throws (deY tbool "\"text\"") "bad conversion" := by decide +kernel
example : throws (deJ tdbl "\"text\"") "type must be a number but is a kStringType" := by decide +kernel
example : throws (deY tdbl "\"text\"") "bad conversion" := by decide +kernel
example : both tstr "\"text\"" (s "text") := by decide +kernel
example : throws (deJ (.vec tint) "[true]") "type must be an integral but is a kTrueType\nerror when deserializing element 0" := by decide +kernel
example : throws (deY (.vec tint) "[true]") "bad conversion\nerror when deserializing element 0" := by decide +kernel
example : throws (deJ (.map tint) "{\"key0\": 3, \"key2\": true}") "type must be an integral but is a kTrueType\nerror when deserializing field key2" := by decide +kernel
example : throws (deY (.map tint) "{\"key0\": 3, \"key2\": true}") "bad conversion\nerror when deserializing field key2" := by decide +kernel
example : both tup4 "[13, 3.14, \"lab\", false]" (.seq [n 13, d 314 2, n 4, b false]) := by decide +kernel
example : both tup4 "[7, 13, \"rgb\", true]" (.seq [n 7, d 13 0, n 0, b true]) := by decide +kernel
example : throws (deJ tup4 "[7, 13, \"hls\"]") "type must be a boolean but is a kNullType" := by decide +kernel
example : throws (deY tup4 "[7, 13, \"hls\"]") "type must be a scalar but is a Null" := by decide +kernel
example : throws (deJ tup4 "[7, 13, \"rgb\", 1, true]") "sequence size is greater than declared tuple field count" := by decide +kernel
example : throws (deY tup4 "\"7, 13, rgb, 1, true\"") "type must be a sequence but is a Scalar" := by decide +kernel
example : both pair "[7, \"rgb\"]" (.seq [n 7, n 0]) := by decide +kernel
example : throws (deJ pair "[7]") "type must be a string but is a kNullType" := by decide +kernel
example : throws (deY pair "[7]") "type must be a scalar but is a Null" := by decide +kernel
example : throws (deJ pair "[7, 13, \"rgb\", 1, true]") "sequence size is greater than pair field count" := by decide +kernel

/-! ### json_test.cpp:310-352, 958-961, yaml_test.cpp:286-336, 934-937: enums -/

example : writes (ser J true enums (fresh enums)) "{\"e0\":0,\"e1\":0,\"e2\":\"oe_one_ref\",\"e3\":\"one\"}" := by decide +kernel
example : dumps (dump J true enums (fresh enums)) "{\"e0\":0,\"e1\":0,\"e2\":\"oe_one_ref\",\"e3\":\"one\"}" := by decide +kernel
example : writesY (ser Y true enums (fresh enums)) "e0: 0\ne1: 0\ne2: oe_one_ref\ne3: one" := by decide +kernel
example : dumpsY (dump Y true enums (fresh enums)) "e0: 0\ne1: 0\ne2: oe_one_ref\ne3: one" := by decide +kernel
example : both enums "{\"e0\": 0, \"e1\": 0, \"e2\": \"oe_one_ref\", \"e3\": \"one\"}" (fresh enums) := by decide +kernel
example : throws (deJ enums "{\"e0\": 0, \"e1\": 0, \"e2\": \"oe_one_ref\", \"e3\": 0}") "type must be a string but is a kNumberType\nerror when deserializing field e3\nerror when deserializing type enums" := by decide +kernel
example : throws (deY enums "{\"e0\": 0, \"e1\": 0, \"e2\": \"oe_one_ref\", \"e3\": 0}") "invalid enum value: 0\nerror when deserializing field e3\nerror when deserializing type enums" := by decide +kernel
example : throws (deJ enums "{\"e0\": 0, \"e1\": 0, \"e2\": \"oe_one_ref2\", \"e3\": 0}") "invalid enum value: oe_one_ref2\nerror when deserializing field e2\nerror when deserializing type enums" := by decide +kernel
example : throws (deY enums "{\"e0\": 0, \"e1\": 0, \"e2\": \"oe_one_ref2\", \"e3\": 0}") "invalid enum value: oe_one_ref2\nerror when deserializing field e2\nerror when deserializing type enums" := by decide +kernel
example : throws (deJ enums "{\"e0\": 0, \"e1\": true, \"e2\": \"oe_one_ref\", \"e3\": \"one\"}") "type must be an integral but is a kTrueType\nerror when deserializing field e1\nerror when deserializing type enums" := by decide +kernel
example : throws (deser Y E0 enums (fresh enums) (.obj [(txt "e0", ys "0"), (txt "e1", yat "true" 0 12), (txt "e2", ys "\"oe_one_ref\""), (txt "e3", ys "\"one\"")])) "yaml-cpp: error at line 1, column 13: bad conversion\nerror when deserializing field e1\nerror when deserializing type enums" := by decide +kernel
example : throws (deY enums "{\"e0\": 0, \"e1\": 0, \"e2\": \"oe_one_ref\", \"e3\": []}") "type must be a scalar but is a Sequence\nerror when deserializing field e3\nerror when deserializing type enums" := by decide +kernel

/-! ### json_test.cpp:354-419, 987-1020, yaml_test.cpp:338-403, 971-1001: optional fields -/

example : writes (ser J true optionalTest (.record [n 23, none'])) "{\"non_opt\":23}" := by decide +kernel
example : dumps (dump J true optionalTest (.record [n 23, none'])) "{\"non_opt\":23}" := by decide +kernel
example : writesY (ser Y true optionalTest (.record [n 23, none'])) "non_opt: 23" := by decide +kernel
example : dumpsY (dump Y true optionalTest (.record [n 23, none'])) "non_opt: 23" := by decide +kernel
example : writes (ser J true optionalTest (.record [n 23, some' (n 78)])) "{\"non_opt\":23,\"opt\":78}" := by decide +kernel
example : dumps (dump J true optionalTest (.record [n 23, some' (n 78)])) "{\"non_opt\":23,\"opt\":78}" := by decide +kernel
example : writesY (ser Y true optionalTest (.record [n 23, some' (n 78)])) "non_opt: 23\nopt: 78" := by decide +kernel
example : dumpsY (dump Y true optionalTest (.record [n 23, some' (n 78)])) "non_opt: 23\nopt: 78" := by decide +kernel
example : writes (ser J false optionalTest (.record [n 23, none'])) "{\"non_opt\":23,\"opt\":null}" := by decide +kernel
example : dumps (dump J false optionalTest (.record [n 23, none'])) "{\"non_opt\":23,\"opt\":null}" := by decide +kernel
example : writesY (ser Y false optionalTest (.record [n 23, none'])) "non_opt: 23\nopt: ~" := by decide +kernel
example : dumpsY (dump Y false optionalTest (.record [n 23, none'])) "non_opt: 23\nopt: ~" := by decide +kernel
example : writes (ser J false optionalTest (.record [n 23, some' (n 78)])) "{\"non_opt\":23,\"opt\":78}" := by decide +kernel
example : dumps (dump J false optionalTest (.record [n 23, some' (n 78)])) "{\"non_opt\":23,\"opt\":78}" := by decide +kernel
example : writesY (ser Y false optionalTest (.record [n 23, some' (n 78)])) "non_opt: 23\nopt: 78" := by decide +kernel
example : dumpsY (dump Y false optionalTest (.record [n 23, some' (n 78)])) "non_opt: 23\nopt: 78" := by decide +kernel
example : both optionalTest "{\"opt\": null, \"non_opt\": 3}" (.record [n 3, none']) := by decide +kernel
example : both optionalTest "{\"opt\": 4, \"non_opt\": 13}" (.record [n 13, some' (n 4)]) := by decide +kernel
example : both optionalTest "{\"non_opt\": 32}" (.record [n 32, none']) := by decide +kernel
example : throws (deJ optionalTest "{\"non_opt\": 32, \"opt\": \"QWE\"}") "type must be an integral but is a kStringType\nerror when deserializing field opt\nerror when deserializing type optional_test" := by decide +kernel
example : throws (deser Y E0 optionalTest (fresh optionalTest) (.obj [(txt "non_opt", yat "32" 0 10), (txt "opt", yat "QWE" 0 19)])) "yaml-cpp: error at line 1, column 20: bad conversion\nerror when deserializing field opt\nerror when deserializing type optional_test" := by decide +kernel

/-! ### json_test.cpp:421-533, 1022-1030, yaml_test.cpp:405-509, 1003-1036: a record with everything -/

example : writes (ser J true testT (fresh testT)) "{\"hello\":\"world\",\"t\":true,\"f\":false,\"i\":123,\"pi\":3.1416,\"a\":[1,2,3,4],\"ad\":[[1,2],[3,4,5]],\"space\":\"lab\",\"tup\":[1,3.14,\"QWE\"],\"map\":{\"1\":\"hls\",\"2\":\"rgb\"},\"inner\":{\"r\":1337,\"d\":3.145926}}" := by decide +kernel
example : dumps (dump J true testT (fresh testT)) "{\"hello\":\"world\",\"t\":true,\"f\":false,\"i\":123,\"pi\":3.1416,\"a\":[1,2,3,4],\"ad\":[[1,2],[3,4,5]],\"space\":\"lab\",\"tup\":[1,3.14,\"QWE\"],\"map\":{\"1\":\"hls\",\"2\":\"rgb\"},\"inner\":{\"r\":1337,\"d\":3.145926}}" := by decide +kernel
example : writesY (ser Y true testT (fresh testT)) "hello: world\nt: true\nf: false\ni: 123\npi: 3.1416\na:\n  - 1\n  - 2\n  - 3\n  - 4\nad:\n  -\n    - 1\n    - 2\n  -\n    - 3\n    - 4\n    - 5\nspace: lab\ntup:\n  - 1\n  - 3.14\n  - QWE\nmap:\n  1: hls\n  2: rgb\ninner:\n  r: 1337\n  d: 3.145926" := by decide +kernel
example : dumpsY (dump Y true testT (fresh testT)) "hello: world\nt: true\nf: false\ni: 123\npi: 3.1416\na:\n  - 1\n  - 2\n  - 3\n  - 4\nad:\n  -\n    - 1\n    - 2\n  -\n    - 3\n    - 4\n    - 5\nspace: lab\ntup:\n  - 1\n  - 3.14\n  - QWE\nmap:\n  1: hls\n  2: rgb\ninner:\n  r: 1337\n  d: 3.145926" := by decide +kernel
example : both testT "{\"a\": [10, 20, 30, 40], \"ad\": [[20], [30, 40, 50]], \"f\": true, \"hello\": \"new world\", \"i\": 456, \"inner\": {\"d\": 2.71, \"r\": 667}, \"map\": {\"10\": \"xyz\", \"20\": \"lab\"}, \"n\": 3, \"pi\": 3.1416, \"space\": \"rgb\", \"t\": false, \"tup\": [10, 31.4, \"ASD\"]}" (.record [s "new world", b false, b true, some' (n 3), n 456, d 31416 4, ints [10, 20, 30, 40],
      .seq [ints [20], ints [30, 40, 50]], n 0, .seq [n 10, d 314 1, s "ASD"], .map [(txt "10", n 1), (txt "20", n 4)],
      .record [n 667, d 271 2]]) := by decide +kernel

end Verif.Conform
