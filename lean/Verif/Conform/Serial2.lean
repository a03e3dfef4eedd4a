import Verif.Conform.Typedefs
/-
The models of the JSON and YAML serialization on the inputs of tests/json_test.cpp and
tests/yaml_test.cpp: integers, sequences, containers, builders and extractors.  Tests of the models, not proofs.
User serializers, `string_view` and `view` are left out.
-/
namespace Verif.Conform
open Verif.Path Verif.Serial Verif.Enums

/-! ### json_test.cpp:535-626, 674-679, yaml_test.cpp:511-616, 664-670: ranges of integers -/

example : writes (ser J true unsignedTest (fresh unsignedTest)) "{\"u8\":128,\"u16\":32768,\"u32\":4294967295,\"u64\":18446744073709551615}" := by decide +kernel
example : dumps (dump J true unsignedTest (fresh unsignedTest)) "{\"u8\":128,\"u16\":32768,\"u32\":4294967295,\"u64\":18446744073709551615}" := by decide +kernel
example : writesY (ser Y true unsignedTest (fresh unsignedTest)) "u8: 128\nu16: 32768\nu32: 4294967295\nu64: 18446744073709551615" := by decide +kernel
example : dumpsY (dump Y true unsignedTest (fresh unsignedTest)) "u8: 128\nu16: 32768\nu32: 4294967295\nu64: 18446744073709551615" := by decide +kernel
example : writesY (ser Y true signedTest (fresh signedTest)) "i8: -127\ni16: -13768\ni32: -2147483648\ni64: -9223372036854775808" := by decide +kernel
example : dumpsY (dump Y true signedTest (fresh signedTest)) "i8: -127\ni16: -13768\ni32: -2147483648\ni64: -9223372036854775808" := by decide +kernel
example : both unsignedTest "{\"u8\":128,\"u16\":32768,\"u32\":4294967295,\"u64\":18446744073709551615}" (fresh unsignedTest) := by decide +kernel
example : both signedTest "{\"i8\":-127,\"i16\":-13768,\"i32\":-2147483648,\"i64\":-9223372036854775808}" (fresh signedTest) := by decide +kernel
example : throws (deJ (.leaf (.int u8)) "500") "value cannot be losslessly stored in the variable" := by decide +kernel
example : throws (deJ (.leaf (.int u8)) "200000000000") "value cannot be losslessly stored in the variable" := by decide +kernel
example : throws (deJ (.leaf (.int u16)) "70000") "value cannot be losslessly stored in the variable" := by decide +kernel
example : throws (deJ (.leaf (.int u32)) "-70000") "value cannot be losslessly stored in the variable" := by decide +kernel
example : throws (deJ (.leaf (.int u64)) "-70000") "value cannot be losslessly stored in the variable" := by decide +kernel
example : throws (deJ (.leaf (.int u32)) "200000000000") "value cannot be losslessly stored in the variable" := by decide +kernel
example : throws (deJ (.leaf (.int i8)) "-500") "value cannot be losslessly stored in the variable" := by decide +kernel
example : throws (deJ (.leaf (.int i16)) "-70000") "value cannot be losslessly stored in the variable" := by decide +kernel
example : throws (deJ (.leaf (.int i32)) "-200000000000") "value cannot be losslessly stored in the variable" := by decide +kernel
example : throws (deJ (.leaf (.int i64)) "9443372036854775807") "value cannot be losslessly stored in the variable" := by decide +kernel
example : throws (deser J E0 (.leaf (.int u32)) (n 0) (.scalar (.dbl 0#64))) "type must be an integral but is a kNumberType" := by decide +kernel
example : throws (deser J E0 (.leaf (.int u64)) (n 0) (.scalar (.dbl 0#64))) "type must be an integral but is a kNumberType" := by decide +kernel
example : throws (deser J E0 (.leaf (.int i32)) (n 0) (.scalar (.dbl 0#64))) "type must be an integral but is a kNumberType" := by decide +kernel
example : throws (deser J E0 (.leaf (.int i64)) (n 0) (.scalar (.dbl 0#64))) "type must be an integral but is a kNumberType" := by decide +kernel
example : throws (deser Y E0 (.leaf (.int u8)) (n 0) (yat "500" 0 0)) "yaml-cpp: error at line 1, column 1: bad conversion" := by decide +kernel
example : throws (deser Y E0 (.leaf (.int u8)) (n 0) (yat "200000000000" 0 0)) "yaml-cpp: error at line 1, column 1: bad conversion" := by decide +kernel
example : throws (deser Y E0 (.leaf (.int u16)) (n 0) (yat "70000" 0 0)) "yaml-cpp: error at line 1, column 1: bad conversion" := by decide +kernel
example : throws (deser Y E0 (.leaf (.int u32)) (n 0) (yat "-70000" 0 0)) "yaml-cpp: error at line 1, column 1: bad conversion" := by decide +kernel
example : throws (deser Y E0 (.leaf (.int u64)) (n 0) (yat "-70000" 0 0)) "yaml-cpp: error at line 1, column 1: bad conversion" := by decide +kernel
example : throws (deser Y E0 (.leaf (.int u32)) (n 0) (yat "200000000000" 0 0)) "yaml-cpp: error at line 1, column 1: bad conversion" := by decide +kernel
example : throws (deser Y E0 (.leaf (.int u32)) (n 0) (yat "9022337203623423400234234234234854775807" 0 0)) "yaml-cpp: error at line 1, column 1: bad conversion" := by decide +kernel
example : throws (deser Y E0 (.leaf (.int u64)) (n 0) (yat "9022337203623423400234234234234854775807" 0 0)) "yaml-cpp: error at line 1, column 1: bad conversion" := by decide +kernel
example : throws (deser Y E0 (.leaf (.int i8)) (n 0) (yat "-500" 0 0)) "yaml-cpp: error at line 1, column 1: bad conversion" := by decide +kernel
example : throws (deser Y E0 (.leaf (.int i16)) (n 0) (yat "-70000" 0 0)) "yaml-cpp: error at line 1, column 1: bad conversion" := by decide +kernel
example : throws (deser Y E0 (.leaf (.int i32)) (n 0) (yat "-200000000000" 0 0)) "yaml-cpp: error at line 1, column 1: bad conversion" := by decide +kernel
example : throws (deser Y E0 (.leaf (.int i32)) (n 0) (yat "-9022337203623423400234234234234854775807" 0 0)) "yaml-cpp: error at line 1, column 1: bad conversion" := by decide +kernel
example : throws (deser Y E0 (.leaf (.int i64)) (n 0) (yat "-9022337203623423400234234234234854775807" 0 0)) "yaml-cpp: error at line 1, column 1: bad conversion" := by decide +kernel
example : throws (deser Y E0 (.leaf (.int i64)) (n 0) (yat "9443372036854775807" 0 0)) "yaml-cpp: error at line 1, column 1: bad conversion" := by decide +kernel
example : throws (deser Y E0 (.leaf (.int i32)) (n 0) (yat "3.0" 0 0)) "yaml-cpp: error at line 1, column 1: bad conversion" := by decide +kernel
example : throws (deJ tint "3.0") "type must be an integral but is a kNumberType" := by decide +kernel

/-! ### json_test.cpp:628-734, yaml_test.cpp:618-726: records and tuples from sequences -/

example : both inner "[3,4.0]" (.record [n 3, d 4 0]) := by decide +kernel
example : throws (deJ inner "[3,4.0,\"QWE\"]") "sequence size is greater than declared struct's field count\nerror when deserializing type inner_t" := by decide +kernel
example : throws (deJ skippedSeq "[1,2,3]") "sequence size is greater than declared struct's field count\nerror when deserializing type skipped" := by decide +kernel
example : throws (deJ tupOpt "[4,true,\"value\",\"extra\"]") "sequence size is greater than declared tuple field count" := by decide +kernel
example : throws (deJ (.arr 3 tint) "[1,2,3,4]") "sequence size is greater than declared range field count" := by decide +kernel
example : throws (deY inner "[3,4.0,\"QWE\"]") "sequence size is greater than declared struct's field count\nerror when deserializing type inner_t" := by decide +kernel
example : throws (deY skippedSeq "[1,2,3]") "sequence size is greater than declared struct's field count\nerror when deserializing type skipped" := by decide +kernel
example : throws (deY tupOpt "[4,true,\"value\",\"extra\"]") "sequence size is greater than declared tuple field count" := by decide +kernel
example : throws (deY (.arr 3 tint) "[1,2,3,4]") "sequence size is greater than declared range field count" := by decide +kernel
example : throws (deJ inner "[3]") "type must be a number but is a kNullType\nerror when deserializing element 1\nerror when deserializing type inner_t" := by decide +kernel
example : throws (deY inner "[3]") "type must be a scalar but is a Null\nerror when deserializing element 1\nerror when deserializing type inner_t" := by decide +kernel
example : both optionalTest "[234]" (.record [n 234, none']) := by decide +kernel
example : both skippedSeq "[1,2]" (.record [n 1, n 13, n 2]) := by decide +kernel
example : throws (deJ inner "[3,\"QWE\"]") "type must be a number but is a kStringType\nerror when deserializing element 1\nerror when deserializing type inner_t" := by decide +kernel
example : throws (deJ inner "[false,4]") "type must be an integral but is a kFalseType\nerror when deserializing element 0\nerror when deserializing type inner_t" := by decide +kernel
example : throws (deser Y E0 inner (fresh inner) (.arr [yat "3" 0 1, yat "QWE" 0 3])) "yaml-cpp: error at line 1, column 4: bad conversion\nerror when deserializing element 1\nerror when deserializing type inner_t" := by decide +kernel
example : throws (deser Y E0 inner (fresh inner) (.arr [yat "false" 0 1, yat "4" 0 7])) "yaml-cpp: error at line 1, column 2: bad conversion\nerror when deserializing element 0\nerror when deserializing type inner_t" := by decide +kernel
example : both (.opt tstr) "null" (none') := by decide +kernel
example : both (.opt tstr) "\"asd\"" (some' (s "asd")) := by decide +kernel
example : throws (deJ tupOpt "[4]") "type must be a boolean but is a kNullType" := by decide +kernel
example : throws (deY tupOpt "[4]") "type must be a scalar but is a Null" := by decide +kernel
example : both tupOpt "[4,true]" (.seq [n 4, b true, none']) := by decide +kernel
example : both tupOpt "[4,true,\"value\"]" (.seq [n 4, b true, some' (s "value")]) := by decide +kernel

/-! ### json_test.cpp:752-840, 1037-1052, yaml_test.cpp:728-805, 1043-1060: containers -/

example : writes (ser J true (.vec inner) (.seq [fresh inner])) "[{\"r\":1337,\"d\":3.145926}]" := by decide +kernel
example : dumps (dump J true (.vec inner) (.seq [fresh inner])) "[{\"r\":1337,\"d\":3.145926}]" := by decide +kernel
example : writesY (ser Y true (.vec inner) (.seq [fresh inner])) "- r: 1337\n  d: 3.145926" := by decide +kernel
example : dumpsY (dump Y true (.vec inner) (.seq [fresh inner])) "- r: 1337\n  d: 3.145926" := by decide +kernel
example : writes (ser J true (.map inner) (.map [(txt "inner1", fresh inner)])) "{\"inner1\":{\"r\":1337,\"d\":3.145926}}" := by decide +kernel
example : dumps (dump J true (.map inner) (.map [(txt "inner1", fresh inner)])) "{\"inner1\":{\"r\":1337,\"d\":3.145926}}" := by decide +kernel
example : writesY (ser Y true (.map inner) (.map [(txt "inner1", fresh inner)])) "inner1:\n  r: 1337\n  d: 3.145926" := by decide +kernel
example : dumpsY (dump Y true (.map inner) (.map [(txt "inner1", fresh inner)])) "inner1:\n  r: 1337\n  d: 3.145926" := by decide +kernel
example : writes (ser J true (.arr 3 tint) (ints [1, 2, 3])) "[1,2,3]" := by decide +kernel
example : dumps (dump J true (.arr 3 tint) (ints [1, 2, 3])) "[1,2,3]" := by decide +kernel
example : writesY (ser Y true (.arr 3 tint) (ints [1, 2, 3])) "- 1\n- 2\n- 3" := by decide +kernel
example : dumpsY (dump Y true (.arr 3 tint) (ints [1, 2, 3])) "- 1\n- 2\n- 3" := by decide +kernel
example : both (.vec inner) "[{\"d\":2,\"r\":648}]" (.seq [.record [n 648, d 2 0]]) := by decide +kernel
example : both (.map inner) "{\"inner\": {\"d\":3,\"r\":3648}}" (.map [(txt "inner", .record [n 3648, d 3 0])]) := by decide +kernel
example : both (.arr 3 tint) "[1,2,3]" (ints [1, 2, 3]) := by decide +kernel
example : both (.arr 2 (.opt tint)) "[1]" (.seq [some' (n 1), none']) := by decide +kernel
example : writes (ser J true (.vec tstr) (.seq [s "x", s "q", s "z"])) "[\"x\",\"q\",\"z\"]" := by decide +kernel
example : dumps (dump J true (.vec tstr) (.seq [s "x", s "q", s "z"])) "[\"x\",\"q\",\"z\"]" := by decide +kernel
example : writesY (ser Y true (.vec tstr) (.seq [s "x", s "q", s "z"])) "- x\n- q\n- z" := by decide +kernel
example : dumpsY (dump Y true (.vec tstr) (.seq [s "x", s "q", s "z"])) "- x\n- q\n- z" := by decide +kernel

/-! ### json_test.cpp:886-925, 969-978, yaml_test.cpp:863-902, 953-962: enum_set -/

example : writes (ser J true (.enumSet deviceType) (.bits 14)) "[\"cpu\",\"gpu\",\"accelerator\"]" := by decide +kernel
example : dumps (dump J true (.enumSet deviceType) (.bits 14)) "[\"cpu\",\"gpu\",\"accelerator\"]" := by decide +kernel
example : writesY (ser Y true (.enumSet deviceType) (.bits 14)) "- cpu\n- gpu\n- accelerator" := by decide +kernel
example : dumpsY (dump Y true (.enumSet deviceType) (.bits 14)) "- cpu\n- gpu\n- accelerator" := by decide +kernel
example : writes (ser J true (.enumSet deviceType) (.bits 6)) "[\"cpu\",\"gpu\"]" := by decide +kernel
example : dumps (dump J true (.enumSet deviceType) (.bits 6)) "[\"cpu\",\"gpu\"]" := by decide +kernel
example : writesY (ser Y true (.enumSet deviceType) (.bits 6)) "- cpu\n- gpu" := by decide +kernel
example : dumpsY (dump Y true (.enumSet deviceType) (.bits 6)) "- cpu\n- gpu" := by decide +kernel
example : throws (deJ (.enumSet deviceType) "{\"cpu\": 1}") "type must be an array but is a kObjectType" := by decide +kernel
example : throws (deY (.enumSet deviceType) "{\"cpu\": 1}") "type must be a sequence but is a Map" := by decide +kernel
example : both (.enumSet deviceType) "[]" (.bits 0) := by decide +kernel
example : both (.enumSet deviceType) "[\"cpu\", \"gpu\"]" (.bits 6) := by decide +kernel

/-! ### json_test.cpp:1233-1310, yaml_test.cpp:1219-1312: builders and extractors -/

def zxcBuilt {σ : Type} (B : Backend σ) (a : String) (i : Int) (c : Bool) (l : List Int) : Res (Doc σ) := do
  let o : ObjectBuilder σ := {}
  let o ← o.add B true (txt "a") tstr (s a)
  let o ← o.add B true (txt "b") tint (n i)
  let o ← o.add B true (txt "c") tbool (b c)
  let o ← o.add B true (txt "d") (.vec tint) (ints l)
  return o.done

def zxcRead {σ : Type} (B : Backend σ) (doc : Doc σ) : Res Value := do
  let x ← ObjectExtractor.new B doc
  let a ← x.extract B E0 (txt "a") tstr (s "")
  let i ← x.extract B E0 (txt "b") tint (n 0)
  let c ← x.extract B E0 (txt "c") tbool (b false)
  let l ← x.extract B E0 (txt "d") (.vec tint) (.seq [])
  return .record [a, i, c, l]

def builtDoc {σ : Type} (B : Backend σ) : Res (Doc σ) := do
  let x ← zxcBuilt B "asd" 3 true [1, 2, 34]
  let y ← zxcBuilt B "zxc" 222 false [1]
  let arr : ArrayBuilder σ := {}
  let o : ObjectBuilder σ := {}
  let o ← o.add B true (txt "ctx") tint (n 22)
  return (o.addDoc B (txt "values") ((arr.addDoc x).addDoc y).done).done

example : writes (zxcBuilt J "asd" 3 true [1, 2, 34]) "{\"a\":\"asd\",\"b\":3,\"c\":true,\"d\":[1,2,34]}" := by decide +kernel
example : writesY (zxcBuilt Y "asd" 3 true [1, 2, 34]) "a: asd\nb: 3\nc: true\nd:\n  - 1\n  - 2\n  - 34" := by decide +kernel
example : gives (zxcBuilt J "asd" 3 true [1, 2, 34] >>= zxcRead J) (.record [s "asd", n 3, b true, ints [1, 2, 34]]) := by decide +kernel
example : gives (zxcBuilt Y "asd" 3 true [1, 2, 34] >>= zxcRead Y) (.record [s "asd", n 3, b true, ints [1, 2, 34]]) := by decide +kernel
example : throws (zxcRead J (js "{\"a\":\"asd\",\"b\":3,\"c\":4,\"d\":[1,2,34]}")) "type must be a boolean but is a kNumberType\nerror when deserializing field c" := by decide +kernel
example : throws (zxcRead Y (.obj [(txt "a", yat "asd" 0 3), (txt "b", yat "3" 1 3), (txt "c", yat "3" 2 3), (txt "d", ys "[1,2,34]")])) "yaml-cpp: error at line 3, column 4: bad conversion\nerror when deserializing field c" := by decide +kernel
example : writes (builtDoc J) "{\"ctx\":22,\"values\":[{\"a\":\"asd\",\"b\":3,\"c\":true,\"d\":[1,2,34]},{\"a\":\"zxc\",\"b\":222,\"c\":false,\"d\":[1]}]}" := by decide +kernel

def arrayDoc : JDoc := js "[{\"r\":331,\"d\":5.6},{\"something\":true},3]"
def somethingT : Ty := .record (txt "x") (f "something" tbool .nil)

/-- The extractor of an array, or an empty one. -/
def extractor {σ : Type} (B : Backend σ) (doc : Doc σ) : ArrayExtractor σ :=
  match ArrayExtractor.new B doc with
  | .ok x => x
  | .error _ => ⟨[], 0⟩

example : ((extractor J arrayDoc).calls J E0 [.next inner (fresh inner), .at somethingT (fresh somethingT) 1, .next tint (n 0)]).map (fun r => r.toOption.map flat) = [.record [n 331, d 56 1], .record [b true], n 3].map (fun v => some (flat v)) := by decide +kernel
example : ((extractor Y (yamlOf arrayDoc)).calls Y E0 [.next inner (fresh inner), .at somethingT (fresh somethingT) 1, .next tint (n 0)]).map (fun r => r.toOption.map flat) = [.record [n 331, d 56 1], .record [b true], n 3].map (fun v => some (flat v)) := by decide +kernel
example : throws ((extractor J arrayDoc).extractAt J E0 tbool (b false) 2).1 "type must be a boolean but is a kNumberType\nerror when deserializing element 2" := by decide +kernel
example : throws ((extractor Y (.arr [.null, .null, yat "3" 5 4])).extractAt Y E0 tbool (b false) 2).1 "yaml-cpp: error at line 6, column 5: bad conversion\nerror when deserializing element 2" := by decide +kernel

end Verif.Conform
