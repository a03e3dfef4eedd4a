/-
What a JSON text is (RFC 8259), independently of writers and readers: the texts of a document.
-/
import Verif.JsonText.Model

namespace Verif.JsonText.Spec
open Verif.Path Verif.Serial

/-- White space: spaces, tabs and ends of lines. -/
def Ws (s : Str) : Prop := ∀ c ∈ s, c = 0x20#8 ∨ c = 0x09#8 ∨ c = 0x0A#8 ∨ c = 0x0D#8

/-- A hexadecimal digit of either case. -/
inductive Hex : Byte → Nat → Prop where
  | digit : n < 10 → Hex (BitVec.ofNat 8 (48 + n)) n
  | upper : n < 6 → Hex (BitVec.ofNat 8 (65 + n)) (10 + n)
  | lower : n < 6 → Hex (BitVec.ofNat 8 (97 + n)) (10 + n)

/-- Four of them. -/
inductive Hex4 : Str → Nat → Prop where
  | mk : Hex a x → Hex b y → Hex c z → Hex d w → Hex4 [a, b, c, d] (4096 * x + 256 * y + 16 * z + w)

/-- The two-character escape sequences. -/
def escapes : List (Char × Byte) :=
  [('"', 0x22#8), ('\\', 0x5C#8), ('/', 0x2F#8), ('b', 0x08#8), ('f', 0x0C#8), ('n', 0x0A#8), ('r', 0x0D#8), ('t', 0x09#8)]

/-- UTF-8 (RFC 3629). -/
inductive Utf8 : Nat → Str → Prop where
  | one : n < 0x80 → Utf8 n [BitVec.ofNat 8 n]
  | two : a < 0x20 → b < 0x40 → 0x80 ≤ 64 * a + b → Utf8 (64 * a + b) [BitVec.ofNat 8 (0xC0 + a), BitVec.ofNat 8 (0x80 + b)]
  | three : a < 0x10 → b < 0x40 → c < 0x40 → 0x800 ≤ 4096 * a + 64 * b + c →
      Utf8 (4096 * a + 64 * b + c) [BitVec.ofNat 8 (0xE0 + a), BitVec.ofNat 8 (0x80 + b), BitVec.ofNat 8 (0x80 + c)]
  | four : a < 0x08 → b < 0x40 → c < 0x40 → d < 0x40 → 0x10000 ≤ 262144 * a + 4096 * b + 64 * c + d →
      Utf8 (262144 * a + 4096 * b + 64 * c + d)
        [BitVec.ofNat 8 (0xF0 + a), BitVec.ofNat 8 (0x80 + b), BitVec.ofNat 8 (0x80 + c), BitVec.ofNat 8 (0x80 + d)]

/-- The text between quotation marks and the string it stands for. -/
inductive IsChars : Str → Str → Prop where
  | nil : IsChars [] []
  /-- Everything but control characters, quotation marks and backslashes stands for itself. -/
  | plain : 0x20 ≤ c.toNat → c ≠ 0x22#8 → c ≠ 0x5C#8 → IsChars t s → IsChars (c :: t) (c :: s)
  | esc : (e, c) ∈ escapes → IsChars t s → IsChars (ch '\\' :: ch e :: t) (c :: s)
  | unicode : Hex4 h n → n < 0xD800 ∨ 0xE000 ≤ n → Utf8 n u → IsChars t s →
      IsChars (ch '\\' :: ch 'u' :: h ++ t) (u ++ s)
  | pair : Hex4 h m → Hex4 l n → 0xD800 ≤ m → m < 0xDC00 → 0xDC00 ≤ n → n < 0xE000 →
      Utf8 (0x10000 + (m - 0xD800) * 0x400 + (n - 0xDC00)) u → IsChars t s →
      IsChars (ch '\\' :: ch 'u' :: h ++ (ch '\\' :: ch 'u' :: l ++ t)) (u ++ s)

/-- A string in quotation marks. -/
inductive IsString : Str → Str → Prop where
  | mk : IsChars t s → IsString (ch '"' :: t ++ [ch '"']) s

/-- Digits, at least one, and their value. -/
inductive IsDigits : Str → Nat → Prop where
  | one : d < 10 → IsDigits [BitVec.ofNat 8 (48 + d)] d
  | more : IsDigits t n → d < 10 → IsDigits (t ++ [BitVec.ofNat 8 (48 + d)]) (10 * n + d)

/-- A natural number without leading zeros. -/
inductive IsNat : Str → Nat → Prop where
  | zero : IsNat [ch '0'] 0
  | pos : IsDigits t n → t.head? ≠ some (ch '0') → IsNat t n

inductive IsInt : Str → Int → Prop where
  | nat : IsNat t n → IsInt t n
  | neg : IsNat t n → IsInt (ch '-' :: t) (-n)

/-- A fraction, or nothing. -/
inductive IsFraction : Str → Prop where
  | none : IsFraction []
  | some : IsDigits t n → IsFraction (ch '.' :: t)

/-- An exponent, or nothing. -/
inductive IsExponent : Str → Prop where
  | none : IsExponent []
  | some : e = ch 'e' ∨ e = ch 'E' → sign = [] ∨ sign = [ch '+'] ∨ sign = [ch '-'] → IsDigits t n →
      IsExponent (e :: sign ++ t)

/-- A number that is not written as an integer. -/
inductive IsReal : Str → Prop where
  | mk : IsInt t n → IsFraction f → IsExponent e → f ≠ [] ∨ e ≠ [] → IsReal (t ++ f ++ e)

mutual
/-- The texts of a value.  Integers that do not fit in 64 bits are read as `double`. -/
inductive IsValue (F : Floats) : Str → JDoc → Prop where
  | null : IsValue F (txt "null") .null
  | true : IsValue F (txt "true") (.scalar (.bool true))
  | false : IsValue F (txt "false") (.scalar (.bool false))
  | str : IsString t s → IsValue F t (.scalar (.str s))
  | int : IsInt t n → - 2 ^ 63 ≤ n → n < 2 ^ 64 → IsValue F t (.scalar (.int n))
  | bigInt : IsInt t n → ¬ (- 2 ^ 63 ≤ n ∧ n < 2 ^ 64) → F.read t = some b → IsValue F t (.scalar (.dbl b))
  | real : IsReal t → F.read t = some b → IsValue F t (.scalar (.dbl b))
  | emptyArr : Ws a → IsValue F (ch '[' :: a ++ [ch ']']) (.arr [])
  | arr : Ws a → IsValue F t d → IsTail F u ds → Ws b → IsValue F (ch '[' :: a ++ t ++ u ++ b ++ [ch ']']) (.arr (d :: ds))
  | emptyObj : Ws a → IsValue F (ch '{' :: a ++ [ch '}']) (.obj [])
  | obj : Ws a → IsMember F t m → IsMembers F u ms → Ws b →
      IsValue F (ch '{' :: a ++ t ++ u ++ b ++ [ch '}']) (.obj (m :: ms))
/-- Further elements, each after a comma. -/
inductive IsTail (F : Floats) : Str → List JDoc → Prop where
  | nil : IsTail F [] []
  | cons : Ws a → Ws b → IsValue F t d → IsTail F u ds → IsTail F (a ++ ch ',' :: b ++ t ++ u) (d :: ds)
/-- A member: a name, a colon and a value. -/
inductive IsMember (F : Floats) : Str → Str × JDoc → Prop where
  | mk : IsString s k → Ws a → Ws b → IsValue F t d → IsMember F (s ++ a ++ ch ':' :: b ++ t) (k, d)
/-- Further members, each after a comma. -/
inductive IsMembers (F : Floats) : Str → List (Str × JDoc) → Prop where
  | nil : IsMembers F [] []
  | cons : Ws a → Ws b → IsMember F t m → IsMembers F u ms → IsMembers F (a ++ ch ',' :: b ++ t ++ u) (m :: ms)
end

/-- A JSON text: a value with white space around it. -/
inductive IsText (F : Floats) : Str → JDoc → Prop where
  | mk : Ws a → IsValue F t d → Ws b → IsText F (a ++ t ++ b) d

mutual
/-- The document with every `double` printed and read again; none if one of them is not finite or not read. -/
def reread (F : Floats) : JDoc → Option JDoc
  | .null => some .null
  | .scalar (.dbl b) => if finite b then (F.read (F.print b)).map fun b => .scalar (.dbl b) else none
  | .scalar s => some (.scalar s)
  | .arr ds => (rereadAll F ds).map .arr
  | .obj ms => (rereadMembers F ms).map .obj
def rereadAll (F : Floats) : List JDoc → Option (List JDoc)
  | [] => some []
  | d :: ds => match reread F d, rereadAll F ds with
    | some d, some ds => some (d :: ds)
    | _, _ => none
def rereadMembers (F : Floats) : List (Str × JDoc) → Option (List (Str × JDoc))
  | [] => some []
  | (k, d) :: ms => match reread F d, rereadMembers F ms with
    | some d, some ms => some ((k, d) :: ms)
    | _, _ => none
end

mutual
/-- Integers of the document fit in 64 bits, as those of `rapidjson::Value` do. -/
def fits : JDoc → Bool
  | .scalar (.int n) => - 2 ^ 63 ≤ n && n < 2 ^ 64
  | .arr ds => fitsAll ds
  | .obj ms => fitsMembers ms
  | _ => true
def fitsAll : List JDoc → Bool
  | [] => true
  | d :: ds => fits d && fitsAll ds
def fitsMembers : List (Str × JDoc) → Bool
  | [] => true
  | (_, d) :: ms => fits d && fitsMembers ms
end

/-- What is printed for finite numbers is a number, and not an integer (`rapidjson` prints `1.0` and `1e30`). -/
def Printable (F : Floats) : Prop := ∀ b, finite b = true → IsReal (F.print b)

/-- A new line at a depth of nesting, in the pretty layout. -/
def line (pretty : Bool) (depth : Nat) : Str := if pretty then 0x0A#8 :: List.replicate (4 * depth) 0x20#8 else []

/-- Between a name and its value. -/
def colon (pretty : Bool) : Str := if pretty then txt ": " else txt ":"

mutual
/-- The layout of a document: a line for each element and member in the pretty one, no white space in the other.  (How
scalars are written is said by `IsValue`.) -/
def render (F : Floats) (pretty : Bool) (depth : Nat) : JDoc → Str
  | .null => txt "null"
  | .scalar s => scalarText F s
  | .arr [] => txt "[]"
  | .arr (d :: ds) => txt "[" ++ line pretty (depth + 1) ++ render F pretty (depth + 1) d ++
      renderAll F pretty (depth + 1) ds ++ line pretty depth ++ txt "]"
  | .obj [] => txt "{}"
  | .obj ((k, d) :: ms) => txt "{" ++ line pretty (depth + 1) ++ quoted k ++ colon pretty ++ render F pretty (depth + 1) d ++
      renderMembers F pretty (depth + 1) ms ++ line pretty depth ++ txt "}"
def renderAll (F : Floats) (pretty : Bool) (depth : Nat) : List JDoc → Str
  | [] => []
  | d :: ds => txt "," ++ line pretty depth ++ render F pretty depth d ++ renderAll F pretty depth ds
def renderMembers (F : Floats) (pretty : Bool) (depth : Nat) : List (Str × JDoc) → Str
  | [] => []
  | (k, d) :: ms => txt "," ++ line pretty depth ++ quoted k ++ colon pretty ++ render F pretty depth d ++
      renderMembers F pretty depth ms
end

mutual
/-- All atoms of a value. -/
def atomsAll (q : Atom → Bool) : Value → Bool
  | .atom a => q a
  | .bits _ => true
  | .opt none => true
  | .opt (some v) => atomsAll q v
  | .seq vs => atomsList q vs
  | .map es => atomsMap q es
  | .record vs => atomsList q vs
def atomsList (q : Atom → Bool) : List Value → Bool
  | [] => true
  | v :: vs => atomsAll q v && atomsList q vs
def atomsMap (q : Atom → Bool) : List (Str × Value) → Bool
  | [] => true
  | (_, v) :: es => atomsAll q v && atomsMap q es
end

/-- A `double` is finite, and what is printed is read as the same `double`. -/
def exact (F : Floats) : Atom → Bool
  | .dbl b => finite b && F.read (F.print b) == some b
  | _ => true

end Verif.JsonText.Spec
