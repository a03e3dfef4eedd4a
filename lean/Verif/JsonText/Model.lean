/-
JSON as text: `json::dump` and `json::pretty_dump` (json.hpp:816-836), which hand what the stream backend is told
(json.hpp:356-411, 541-609) to a `rapidjson::Writer` or `rapidjson::PrettyWriter` and return the text of its buffer; and
`json::parse` (json.hpp:860-867), which is `rapidjson::Document::Parse`.

rapidjson is not part of the repository; its writers and its reader are modelled after the sources of the versions that
conanfile.py:41 and vcpkg.json:11 ask for: default flags, UTF-8 in and out, four spaces of indentation.  How a `double` is
printed and read is a parameter (`Floats`); a `double` that is infinite or not a number is not printed at all (`WriteDouble`
returns false, which nobody looks at).  Simplified: memory and the depth of recursion are not limited.
-/
import Verif.Serial.Json
import Verif.Serial.Spec

namespace Verif.JsonText
open Verif.Path Verif.Serial

/-- A character of ASCII. (the literals below) -/
def ch (c : Char) : Byte := BitVec.ofNat 8 c.toNat

/-- Printing and reading of `double`; numbers that are too big are refused. (`Double` at json.hpp:588, the reader behind
863) -/
structure Floats where
  print : BitVec 64 → Str
  read : Str → Option (BitVec 64)

/-- Neither infinite nor not a number. (what `Double` at json.hpp:588 prints) -/
def finite (b : BitVec 64) : Bool := (b >>> 52) &&& 0x7FF#64 != 0x7FF#64

/-! ### The writers -/

/-- An array or object that is being written, and how many values (keys included) it has so far. (in `wrt` at
json.hpp:820, 831) -/
structure Level where
  array : Bool
  count : Nat
deriving DecidableEq

/-- A writer: what it has written and where it is. (`wrt` and `buf` at json.hpp:819-820, 830-831) -/
structure Writer where
  out : Str
  levels : List Level
deriving DecidableEq

/-- `PrettyWriter::WriteIndent`. (json.hpp:820) -/
def indent (depth : Nat) : Str := List.replicate (4 * depth) 0x20#8

/-- `Writer::Prefix` and `PrettyWriter::PrettyPrefix`: what is written before a value. (json.hpp:820, 831) -/
def separator (pretty : Bool) (depth : Nat) (l : Level) : Str :=
  if pretty then
    if l.array then (if l.count = 0 then [] else [ch ',']) ++ [0x0A#8] ++ indent depth
    else if l.count = 0 then [0x0A#8] ++ indent depth
    else if l.count % 2 = 0 then [ch ',', 0x0A#8] ++ indent depth
    else [ch ':', ch ' ']
  else
    if l.count = 0 then []
    else if l.array then [ch ',']
    else if l.count % 2 = 0 then [ch ',']
    else [ch ':']

/-- A value begins. (json.hpp:820, 831) -/
def Writer.pre (pretty : Bool) (w : Writer) : Writer :=
  match w.levels with
  | [] => w
  | l :: ls => ⟨w.out ++ separator pretty (ls.length + 1) l, { l with count := l.count + 1 } :: ls⟩

/-- Text is appended. (`buf` at json.hpp:819, 830) -/
def Writer.put (w : Writer) (s : Str) : Writer := { w with out := w.out ++ s }

/-- The digits of hexadecimal numbers that `WriteString` uses. (`String` at json.hpp:594, 601, 608) -/
def hexDigit (n : Nat) : Byte := if n < 10 then BitVec.ofNat 8 (48 + n) else BitVec.ofNat 8 (55 + n)

/-- `Writer::WriteString`: one character. (json.hpp:594, 601, 608, 403, 409) -/
def escape (c : Byte) : Str :=
  if c = ch '"' then [ch '\\', ch '"']
  else if c = ch '\\' then [ch '\\', ch '\\']
  else if c = 0x08#8 then [ch '\\', ch 'b']
  else if c = 0x0C#8 then [ch '\\', ch 'f']
  else if c = 0x0A#8 then [ch '\\', ch 'n']
  else if c = 0x0D#8 then [ch '\\', ch 'r']
  else if c = 0x09#8 then [ch '\\', ch 't']
  else if c.toNat < 0x20 then [ch '\\', ch 'u', ch '0', ch '0', hexDigit (c.toNat / 16), hexDigit (c.toNat % 16)]
  else [c]

/-- `Writer::WriteString`. (json.hpp:594, 601, 608, 403, 409) -/
def quoted (s : Str) : Str := [ch '"'] ++ s.flatMap escape ++ [ch '"']

/-- The last `k` decimal digits of a number. (`Uint64` at json.hpp:582) -/
def lastDigits : Nat → Nat → Str
  | 0, _ => []
  | k + 1, n => if n < 10 then [BitVec.ofNat 8 (48 + n)] else lastDigits k (n / 10) ++ [BitVec.ofNat 8 (48 + n % 10)]

/-- The decimal digits of a number. (`Uint64` at json.hpp:582) -/
def digits (n : Nat) : Str := lastDigits (n + 1) n

/-- `Int`, `Uint`, `Int64` and `Uint64`. (json.hpp:561-583) -/
def number (n : Int) : Str := if n < 0 then ch '-' :: digits n.natAbs else digits n.natAbs

/-- A scalar after its prefix. (json.hpp:555-609) -/
def scalarText (F : Floats) : JScalar → Str
  | .bool true => txt "true"
  | .bool false => txt "false"
  | .int n => number n
  | .dbl b => if finite b then F.print b else []
  | .str s => quoted s

/-- The end of an array or object: `PrettyWriter` puts it on a line of its own unless it is empty. (json.hpp:376, 396) -/
def Writer.close (pretty : Bool) (c : Byte) (w : Writer) : Writer :=
  match w.levels with
  | [] => w
  | l :: ls => ⟨w.out ++ (if pretty && l.count != 0 then [0x0A#8] ++ indent ls.length else []) ++ [c], ls⟩

/-- A call of the writer. (json.hpp:365-411, 549-609) -/
def Writer.step (F : Floats) (pretty : Bool) (w : Writer) : Ev JScalar → Writer
  | .null => (w.pre pretty).put (txt "null")
  | .scalar s => (w.pre pretty).put (scalarText F s)
  | .key k => (w.pre pretty).put (quoted k)
  | .beginMap => { ((w.pre pretty).put [ch '{']) with levels := ⟨false, 0⟩ :: (w.pre pretty).levels }
  | .endMap => w.close pretty (ch '}')
  | .beginSeq => { ((w.pre pretty).put [ch '[']) with levels := ⟨true, 0⟩ :: (w.pre pretty).levels }
  | .endSeq => w.close pretty (ch ']')

/-- The calls of a `dump`. (json.hpp:823, 834) -/
def Writer.run (F : Floats) (pretty : Bool) (w : Writer) : List (Ev JScalar) → Writer
  | [] => w
  | e :: es => (w.step F pretty e).run F pretty es

/-- `return {buf.GetString()};` (json.hpp:824, 835): up to the first null character. -/
def cString (s : Str) : Str := s.takeWhile (· != 0#8)

/-- json.hpp:816-825 `pretty_dump`, 827-836 `dump`: the text, for what the stream backend is told. -/
def dumpText (F : Floats) (pretty : Bool) (evs : List (Ev JScalar)) : Str :=
  cString (Writer.run F pretty ⟨[], []⟩ evs).out

/-! ### The reader -/

/-- White space of JSON. (json.hpp:863) -/
def isSpace (c : Byte) : Bool := c == 0x20#8 || c == 0x0A#8 || c == 0x0D#8 || c == 0x09#8

/-- `SkipWhitespace`. (json.hpp:863) -/
def skip (s : Str) : Str := s.dropWhile isSpace

/-- A digit of `ParseHex4`. (json.hpp:863) -/
def hexVal (c : Byte) : Option Nat :=
  let n := c.toNat
  if 48 ≤ n ∧ n ≤ 57 then some (n - 48)
  else if 65 ≤ n ∧ n ≤ 70 then some (n - 55)
  else if 97 ≤ n ∧ n ≤ 102 then some (n - 87)
  else none

/-- `ParseHex4`. (json.hpp:863) -/
def hex4 (a b c d : Byte) : Option Nat :=
  match hexVal a, hexVal b, hexVal c, hexVal d with
  | some a, some b, some c, some d => some (((a * 16 + b) * 16 + c) * 16 + d)
  | _, _, _, _ => none

/-- `UTF8<>::Encode`. (json.hpp:863) -/
def utf8 (n : Nat) : Str :=
  if n < 0x80 then [BitVec.ofNat 8 n]
  else if n < 0x800 then [BitVec.ofNat 8 (0xC0 + n / 64), BitVec.ofNat 8 (0x80 + n % 64)]
  else if n < 0x10000 then
    [BitVec.ofNat 8 (0xE0 + n / 4096), BitVec.ofNat 8 (0x80 + n / 64 % 64), BitVec.ofNat 8 (0x80 + n % 64)]
  else [BitVec.ofNat 8 (0xF0 + n / 262144), BitVec.ofNat 8 (0x80 + n / 4096 % 64), BitVec.ofNat 8 (0x80 + n / 64 % 64),
    BitVec.ofNat 8 (0x80 + n % 64)]

/-- The characters after a backslash that stand for one character. (json.hpp:863) -/
def unescape (e : Byte) : Option Byte :=
  if e = ch '"' then some (ch '"')
  else if e = ch '\\' then some (ch '\\')
  else if e = ch '/' then some (ch '/')
  else if e = ch 'b' then some 0x08#8
  else if e = ch 'f' then some 0x0C#8
  else if e = ch 'n' then some 0x0A#8
  else if e = ch 'r' then some 0x0D#8
  else if e = ch 't' then some 0x09#8
  else none

/-- Characters in front of the rest of a string. (`ParseString`, json.hpp:863) -/
def consing (cs : Str) : Option (Str × Str) → Option (Str × Str)
  | some (s, r) => some (cs ++ s, r)
  | none => none

/-- `ParseString` after the quotation mark: the string and what follows its end. (json.hpp:863) -/
def chars : Nat → Str → Option (Str × Str)
  | 0, _ => none
  | _, [] => none
  | n + 1, c :: t =>
    if c = ch '"' then some ([], t)
    else if c = ch '\\' then
      match t with
      | [] => none
      | e :: t =>
        if e = ch 'u' then
          match t with
          | a :: b :: c :: d :: t =>
            match hex4 a b c d with
            | none => none
            | some u =>
              if 0xDC00 ≤ u ∧ u ≤ 0xDFFF then none
              else if 0xD800 ≤ u ∧ u ≤ 0xDBFF then
                match t with
                | x :: y :: a :: b :: c :: d :: t =>
                  if x = ch '\\' ∧ y = ch 'u' then
                    match hex4 a b c d with
                    | none => none
                    | some v =>
                      if 0xDC00 ≤ v ∧ v ≤ 0xDFFF then
                        consing (utf8 (0x10000 + (u - 0xD800) * 0x400 + (v - 0xDC00))) (chars n t)
                      else none
                  else none
                | _ => none
              else consing (utf8 u) (chars n t)
          | _ => none
        else match unescape e with
          | some c => consing [c] (chars n t)
          | none => none
    else if c.toNat < 0x20 then none
    else consing [c] (chars n t)

/-- A decimal digit. (`ParseNumber`, json.hpp:863) -/
def isDigit (c : Byte) : Bool := 48 ≤ c.toNat && c.toNat ≤ 57

/-- The value of digits. (`ParseNumber`, json.hpp:863) -/
def value (ds : Str) : Nat := ds.foldl (fun n c => n * 10 + (c.toNat - 48)) 0

/-- At least one digit. (`ParseNumber`, json.hpp:863) -/
def someDigits (s : Str) : Option (Str × Str) :=
  match s.takeWhile isDigit with
  | [] => none
  | d :: ds => some (d :: ds, s.dropWhile isDigit)

/-- The part before a point: a zero, or digits that do not begin with one. (`ParseNumber`, json.hpp:863) -/
def whole (s : Str) : Option (Str × Str) :=
  match s with
  | [] => none
  | c :: t => if c = ch '0' then some ([c], t) else someDigits s

/-- A point and digits, if there is a point. (`ParseNumber`, json.hpp:863) -/
def fraction (s : Str) : Option (Str × Str) :=
  match s with
  | [] => some ([], [])
  | c :: t => if c = ch '.' then (someDigits t).map fun (ds, r) => (c :: ds, r) else some ([], s)

/-- An exponent, if there is one. (`ParseNumber`, json.hpp:863) -/
def exponent (s : Str) : Option (Str × Str) :=
  match s with
  | [] => some ([], [])
  | c :: t =>
    if c = ch 'e' ∨ c = ch 'E' then
      match t with
      | [] => none
      | g :: t' =>
        if g = ch '+' ∨ g = ch '-' then (someDigits t').map fun (ds, r) => (c :: g :: ds, r)
        else (someDigits t).map fun (ds, r) => (c :: ds, r)
    else some ([], s)

/-- `ParseNumber`: an integer if it has neither fraction nor exponent and fits in 64 bits. (json.hpp:863) -/
def readNumber (F : Floats) (s : Str) : Option (JDoc × Str) :=
  let neg := s.head? == some (ch '-')
  let s' := if neg then s.tail else s
  match whole s' with
  | none => none
  | some (ds, r1) =>
    match fraction r1 with
    | none => none
    | some (fs, r2) =>
      match exponent r2 with
      | none => none
      | some (es, r3) =>
        let text := (if neg then [ch '-'] else []) ++ ds ++ fs ++ es
        let n : Int := if neg then - Int.ofNat (value ds) else Int.ofNat (value ds)
        if fs = [] ∧ es = [] ∧ - 2 ^ 63 ≤ n ∧ n < 2 ^ 64 then some (.scalar (.int n), r3)
        else (F.read text).map fun b => (.scalar (.dbl b), r3)

/-- `ParseNull`, `ParseTrue`, `ParseFalse`: a word. (json.hpp:863) -/
def word (w : Str) (d : JDoc) (s : Str) : Option (JDoc × Str) :=
  if w.isPrefixOf s then some (d, s.drop w.length) else none

mutual
/-- `ParseValue`. (json.hpp:863) -/
def readValue (F : Floats) : Nat → Str → Option (JDoc × Str)
  | 0, _ => none
  | _, [] => none
  | n + 1, c :: t =>
    if c = ch 'n' then word (txt "null") .null (c :: t)
    else if c = ch 't' then word (txt "true") (.scalar (.bool true)) (c :: t)
    else if c = ch 'f' then word (txt "false") (.scalar (.bool false)) (c :: t)
    else if c = ch '"' then (chars t.length t).map fun (s, r) => (.scalar (.str s), r)
    else if c = ch '[' then
      match skip t with
      | [] => none
      | c :: t =>
        if c = ch ']' then some (.arr [], t)
        else match readValue F n (c :: t) with
          | none => none
          | some (d, r) => (readTail F n r).map fun (ds, r) => (.arr (d :: ds), r)
    else if c = ch '{' then
      match skip t with
      | [] => none
      | c :: t =>
        if c = ch '}' then some (.obj [], t)
        else match readMember F n (c :: t) with
          | none => none
          | some (m, r) => (readMembers F n r).map fun (ms, r) => (.obj (m :: ms), r)
    else readNumber F (c :: t)
/-- `ParseArray` after a value. (json.hpp:863) -/
def readTail (F : Floats) : Nat → Str → Option (List JDoc × Str)
  | 0, _ => none
  | n + 1, s =>
    match skip s with
    | [] => none
    | c :: t =>
      if c = ch ',' then
        match readValue F n (skip t) with
        | none => none
        | some (d, r) => (readTail F n r).map fun (ds, r) => (d :: ds, r)
      else if c = ch ']' then some ([], t)
      else none
/-- `ParseObject`: a name, a colon and a value. (json.hpp:863) -/
def readMember (F : Floats) : Nat → Str → Option ((Str × JDoc) × Str)
  | 0, _ => none
  | _, [] => none
  | n + 1, c :: t =>
    if c = ch '"' then
      match chars t.length t with
      | none => none
      | some (k, r) =>
        match skip r with
        | [] => none
        | c :: t =>
          if c = ch ':' then (readValue F n (skip t)).map fun (d, r) => ((k, d), r)
          else none
    else none
/-- `ParseObject` after a member. (json.hpp:863) -/
def readMembers (F : Floats) : Nat → Str → Option (List (Str × JDoc) × Str)
  | 0, _ => none
  | n + 1, s =>
    match skip s with
    | [] => none
    | c :: t =>
      if c = ch ',' then
        match readMember F n (skip t) with
        | none => none
        | some (m, r) => (readMembers F n r).map fun (ms, r) => (m :: ms, r)
      else if c = ch '}' then some ([], t)
      else none
end

/-- `if (Peek() == c) Take();` (the constructor of `EncodedInputStream` behind json.hpp:863) -/
def dropOne (c : Byte) (s : Str) : Str :=
  match s with
  | [] => []
  | x :: t => if x = c then t else s

/-- The byte order mark that `EncodedInputStream` skips; each of its bytes is looked for by itself. (json.hpp:863) -/
def afterMark (s : Str) : Str := dropOne 0xBF#8 (dropOne 0xBB#8 (dropOne 0xEF#8 s))

/-- json.hpp:860-867 `parse`; `none` is a `parse_error`.  A null character is taken for the end. -/
def parse (F : Floats) (text : Str) : Option JDoc :=
  match readValue F text.length (skip (afterMark text)) with
  | none => none
  | some (d, r) =>
    match skip r with
    | [] => some d
    | c :: _ => if c = 0#8 then some d else none

end Verif.JsonText
