import Verif.Serial.Json
import Verif.Serial.Yaml
/-
Tools for the conformance tests of the serialization models: a reader of JSON text, writers
of JSON and YAML text, and a decidable comparison of results.  Numbers with a fraction are
kept as decimals with sixteen places, in place of the bits of a `double`; the models do not
look inside.
-/
namespace Verif.Conform
open Verif.Path Verif.Serial Verif.Enums

/-! ### Decimals -/

/-- The places. -/
def places : Nat := 16

/-- The decimal `m / 10 ^ k`. -/
def decimal (m : Int) (k : Nat) : BitVec 64 := BitVec.ofInt 64 (m * 10 ^ (places - k))

/-- Without the zeros at the end. -/
def trimZeros (l : List Char) : List Char := (l.reverse.dropWhile (· == '0')).reverse

/-- A decimal as text, with one place at least. -/
def decimalText (b : BitVec 64) : String :=
  let n := b.toInt
  let q := n.natAbs / 10 ^ places
  let r := trimZeros (((toString (n.natAbs % 10 ^ places + 10 ^ places)).toList).drop 1)
  (if n < 0 then "-" else "") ++ toString q ++ "." ++ (if r = [] then "0" else String.ofList r)

/-! ### JSON text -/

def isWs (c : Char) : Bool := c == ' ' || c == '\n'
def skipWs (s : List Char) : List Char := s.dropWhile isWs
def isDig (c : Char) : Bool := c.isDigit
def natOfDigits (l : List Char) : Nat := l.foldl (fun n c => n * 10 + (c.toNat - 48)) 0

/-- A number: an integer, or a decimal. -/
def readNumber (s : List Char) : JDoc × List Char :=
  let neg := s.head? == some '-'
  let s := if neg then s.drop 1 else s
  let ip := s.takeWhile isDig
  let s := s.dropWhile isDig
  let sign (n : Int) : Int := if neg then -n else n
  match s with
  | '.' :: s =>
    let fp := s.takeWhile isDig
    (.scalar (.dbl (decimal (sign (natOfDigits (ip ++ fp))) fp.length)), s.dropWhile isDig)
  | s => (.scalar (.int (sign (natOfDigits ip))), s)

/-- A string, after its opening quote. -/
def readString : List Char → List Char × List Char
  | [] => ([], [])
  | '"' :: s => ([], s)
  | c :: s => let (t, r) := readString s; (c :: t, r)

mutual
/-- A document; `none` if the text is not one. -/
def read : Nat → List Char → Option (JDoc × List Char)
  | 0, _ => none
  | n + 1, s =>
    match skipWs s with
    | '"' :: s => let (t, r) := readString s; some (.scalar (.str (txt (String.ofList t))), r)
    | '[' :: s => (readItems n s).map fun x => (.arr x.1, x.2)
    | '{' :: s => (readMembers n s).map fun x => (.obj x.1, x.2)
    | 't' :: 'r' :: 'u' :: 'e' :: s => some (.scalar (.bool true), s)
    | 'f' :: 'a' :: 'l' :: 's' :: 'e' :: s => some (.scalar (.bool false), s)
    | 'n' :: 'u' :: 'l' :: 'l' :: s => some (.null, s)
    | c :: s => if isDig c || c == '-' then some (readNumber (c :: s)) else none
    | [] => none
termination_by structural n => n
def readItems : Nat → List Char → Option (List JDoc × List Char)
  | 0, _ => none
  | n + 1, s =>
    match skipWs s with
    | ']' :: s => some ([], s)
    | ',' :: s => readItems n s
    | s =>
      match read n s with
      | none => none
      | some (d, s) => (readItems n s).map fun x => (d :: x.1, x.2)
termination_by structural n => n
def readMembers : Nat → List Char → Option (List (Str × JDoc) × List Char)
  | 0, _ => none
  | n + 1, s =>
    match skipWs s with
    | '}' :: s => some ([], s)
    | ',' :: s => readMembers n s
    | '"' :: s =>
      match readString s with
      | (key, s) =>
        match skipWs s with
        | ':' :: s =>
          match read n s with
          | none => none
          | some (d, s) => (readMembers n s).map fun x => ((txt (String.ofList key), d) :: x.1, x.2)
        | _ => none
    | _ => none
termination_by structural n => n
end

/-- `"..."_json`. -/
def js (s : String) : JDoc :=
  match read 400 s.toList with
  | some (d, r) => if skipWs r = [] then d else .scalar (.str (txt "TRAILING"))
  | none => .scalar (.str (txt "UNREADABLE"))

/-- The same document for yaml-cpp, its scalars without places. -/
def yamlScalar : JScalar → YScalar
  | .bool b => ⟨if b then txt "true" else txt "false", none⟩
  | .int n => ⟨Yaml.intText n, none⟩
  | .dbl b => ⟨txt (decimalText b), none⟩
  | .str s => ⟨s, none⟩

mutual
def yamlOf : JDoc → YDoc
  | .null => .null
  | .scalar s => .scalar (yamlScalar s)
  | .arr l => .arr (yamlAll l)
  | .obj ms => .obj (yamlMembers ms)
def yamlAll : List JDoc → List YDoc
  | [] => []
  | d :: ds => yamlOf d :: yamlAll ds
def yamlMembers : List (Str × JDoc) → List (Str × YDoc)
  | [] => []
  | (k, d) :: ms => (k, yamlOf d) :: yamlMembers ms
end

def ys (s : String) : YDoc := yamlOf (js s)
/-- A scalar read at a line and a column. -/
def yat (s : String) (line column : Nat) : YDoc := .scalar ⟨txt s, some (line, column)⟩

/-! ### Writers -/

def str (s : Str) : String := String.ofList (s.map fun b => Char.ofNat b.toNat)

def jsonScalar : JScalar → String
  | .bool b => if b then "true" else "false"
  | .int n => toString n
  | .dbl b => decimalText b
  | .str s => "\"" ++ str s ++ "\""

mutual
/-- `rapidjson::Writer` over a document. -/
def jsonText : JDoc → String
  | .null => "null"
  | .scalar s => jsonScalar s
  | .arr l => "[" ++ ",".intercalate (jsonTexts l) ++ "]"
  | .obj ms => "{" ++ ",".intercalate (jsonMembers ms) ++ "}"
def jsonTexts : List JDoc → List String
  | [] => []
  | d :: ds => jsonText d :: jsonTexts ds
def jsonMembers : List (Str × JDoc) → List String
  | [] => []
  | (k, d) :: ms => ("\"" ++ str k ++ "\":" ++ jsonText d) :: jsonMembers ms
end

/-- `rapidjson::Writer` over events: a comma before every element but the first, a colon
after every key.  The state holds whether something was written at each level, and whether a
key was written last. -/
structure W where
  out : String := ""
  levels : List Bool := []
  afterKey : Bool := false

def W.before (w : W) : W :=
  if w.afterKey then { w with afterKey := false }
  else
    match w.levels with
    | true :: ls => { w with out := w.out ++ ",", levels := true :: ls }
    | false :: ls => { w with levels := true :: ls }
    | [] => w

def W.step (w : W) : Ev JScalar → W
  | .null => { w.before with out := w.before.out ++ "null" }
  | .scalar s => { w.before with out := w.before.out ++ jsonScalar s }
  | .key k => { w.before with out := w.before.out ++ "\"" ++ str k ++ "\":", afterKey := true }
  | .beginMap => { w.before with out := w.before.out ++ "{", levels := false :: w.before.levels }
  | .beginSeq => { w.before with out := w.before.out ++ "[", levels := false :: w.before.levels }
  | .endMap => { w with out := w.out ++ "}", levels := w.levels.drop 1 }
  | .endSeq => { w with out := w.out ++ "]", levels := w.levels.drop 1 }

def jsonEvents (evs : List (Ev JScalar)) : String := (evs.foldl W.step {}).out

/-- `YAML::Emitter` over events, as a document. -/
inductive Frame where
  | seq (l : List YDoc)
  | map (ms : List (Str × YDoc)) (key : Option Str)

def put (d : YDoc) : List Frame × Option YDoc → List Frame × Option YDoc
  | (.seq l :: fs, r) => (.seq (l ++ [d]) :: fs, r)
  | (.map ms (some k) :: fs, r) => (.map (ms ++ [(k, d)]) none :: fs, r)
  | (fs, _) => (fs, some d)

def docStep (s : List Frame × Option YDoc) : Ev YScalar → List Frame × Option YDoc
  | .null => put .null s
  | .scalar x => put (.scalar x) s
  | .key k =>
    match s with
    | (.map ms none :: fs, r) => (.map ms (some k) :: fs, r)
    | s => s
  | .beginMap => (.map [] none :: s.1, s.2)
  | .beginSeq => (.seq [] :: s.1, s.2)
  | .endMap =>
    match s with
    | (.map ms none :: fs, r) => put (.obj ms) (fs, r)
    | s => s
  | .endSeq =>
    match s with
    | (.seq l :: fs, r) => put (.arr l) (fs, r)
    | s => s

def yamlDoc (evs : List (Ev YScalar)) : YDoc := ((evs.foldl docStep ([], none)).2).getD .null

def indent (l : List String) : List String := l.map ("  " ++ ·)

mutual
/-- The lines of a document in block style. -/
def yamlLines : YDoc → List String
  | .null => ["~"]
  | .scalar s => [if s.text = [] then "\"\"" else str s.text]
  | .arr l => yamlItems l
  | .obj ms => yamlEntries ms
def yamlItems : List YDoc → List String
  | [] => []
  | .arr l :: ds => ("-" :: indent (yamlItems l)) ++ yamlItems ds
  | d :: ds =>
    (match yamlLines d with
    | [] => []
    | l :: ls => ("- " ++ l) :: indent ls) ++ yamlItems ds
def yamlEntries : List (Str × YDoc) → List String
  | [] => []
  | (k, .arr l) :: ms => (str k ++ ":") :: indent (yamlItems l) ++ yamlEntries ms
  | (k, .obj l) :: ms => (str k ++ ":") :: indent (yamlEntries l) ++ yamlEntries ms
  | (k, d) :: ms => (yamlLines d).map (fun l => str k ++ ": " ++ l) ++ yamlEntries ms
end

def yamlText (d : YDoc) : String := "\n".intercalate (yamlLines d)

/-! ### Comparison -/

mutual
def flat : Value → List Int
  | .atom (.bool b) => [0, if b then 1 else 0]
  | .atom (.int n) => [1, n]
  | .atom (.dbl b) => [2, b.toNat]
  | .atom (.str s) => 3 :: (s.length : Int) :: s.map fun b => (b.toNat : Int)
  | .bits n => [4, n]
  | .opt none => [5]
  | .opt (some v) => 6 :: flat v
  | .seq vs => 7 :: (vs.length : Int) :: flats vs
  | .map es => 8 :: (es.length : Int) :: flatEntries es
  | .record vs => 9 :: (vs.length : Int) :: flats vs
def flats : List Value → List Int
  | [] => []
  | v :: vs => flat v ++ flats vs
def flatEntries : List (Str × Value) → List Int
  | [] => []
  | (k, v) :: es => ((k.length : Int) :: k.map fun b => (b.toNat : Int)) ++ flat v ++ flatEntries es
end

/-- The call returned this value. -/
def gives (r : Res Value) (v : Value) : Bool :=
  match r with
  | .ok w => flat w == flat v
  | .error _ => false

/-- The call threw `deserialize_error` with this text. -/
def throws (r : Res Value) (msg : String) : Bool :=
  match r with
  | .error (.deser w) => w == txt msg
  | _ => false

/-- The call threw `std::logic_error` with this text. -/
def throwsLogic {α : Type} (r : Res α) (msg : String) : Bool :=
  match r with
  | .error (.logic w) => w == txt msg
  | _ => false

/-- The call wrote this JSON. -/
def writes (r : Res JDoc) (s : String) : Bool :=
  match r with
  | .ok d => (jsonText d).toList == s.toList
  | .error _ => false

def dumps (r : Res (List (Ev JScalar))) (s : String) : Bool :=
  match r with
  | .ok evs => (jsonEvents evs).toList == s.toList
  | .error _ => false

/-- The call wrote this YAML. -/
def writesY (r : Res YDoc) (s : String) : Bool :=
  match r with
  | .ok d => (yamlText d).toList == s.toList
  | .error _ => false

def dumpsY (r : Res (List (Ev YScalar))) (s : String) : Bool :=
  match r with
  | .ok evs => (yamlText (yamlDoc evs)).toList == s.toList
  | .error _ => false

/-! ### The backends -/

/-- rapidjson: an integer as a decimal. -/
def J : Backend JScalar := json fun n => decimal n 0

/-- yaml-cpp: decimals. -/
def asDecimal (s : Str) : Option (BitVec 64) :=
  match readNumber (str s).toList with
  | (.scalar (.int n), []) => if s = [] ∨ ¬ (str s).toList.any isDig then none else some (decimal n 0)
  | (.scalar (.dbl b), []) => some b
  | _ => none

def Y : Backend YScalar := yaml ⟨fun b => txt (decimalText b), asDecimal⟩

example : writes (.ok (js "{\"a\": [1, -2.50, null], \"b\": {\"c\": \"x\", \"d\": true}, \"e\": [], \"f\": {}}"))
    "{\"a\":[1,-2.5,null],\"b\":{\"c\":\"x\",\"d\":true},\"e\":[],\"f\":{}}" := by decide +kernel
example : writesY (.ok (ys "{\"a\": [1, [2, 3]], \"b\": {\"c\": null}, \"d\": [{\"e\": 1, \"f\": \"\"}]}"))
    "a:\n  - 1\n  -\n    - 2\n    - 3\nb:\n  c: ~\nd:\n  - e: 1\n    f: \"\"" := by decide +kernel

end Verif.Conform
