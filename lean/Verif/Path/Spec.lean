/-
Specification of URL-style path parsing, independent of the model's buffer and
offset table: a path denotes a list of segments.
-/
namespace Verif.Path.Spec

abbrev Seg := List (BitVec 8)

/-- Split at every '/'. -/
def split : List (BitVec 8) → List Seg
  | [] => [[]]
  | c :: cs =>
    if c = 0x2F#8 then [] :: split cs
    else match split cs with
      | [] => [[c]]
      | s :: ss => (c :: s) :: ss

/-- `l` joined with '/'. -/
def join : List Seg → List (BitVec 8)
  | [] => []
  | [s] => s
  | s :: ss => s ++ 0x2F#8 :: join ss

/-- The sixteen hexadecimal digits, lower and upper case. -/
def hexDigit (c : BitVec 8) (n : Nat) : Prop :=
  n < 16 ∧ ((['0','1','2','3','4','5','6','7','8','9','a','b','c','d','e','f'] : List Char)[n]? = some (Char.ofNat c.toNat) ∨
    (['0','1','2','3','4','5','6','7','8','9','A','B','C','D','E','F'] : List Char)[n]? = some (Char.ofNat c.toNat))

/-- `Decodes raw seg`: `seg` is the percent-decoding of `raw`; there is none when
an escape is malformed or denotes '/'. -/
inductive Decodes : List (BitVec 8) → Seg → Prop
  | nil : Decodes [] []
  | lit {c raw seg} : c ≠ 0x25#8 → Decodes raw seg → Decodes (c :: raw) (c :: seg)
  | esc {h l a b raw seg} : hexDigit h a → hexDigit l b → 16 * a + b ≠ 0x2F →
      Decodes raw seg →
      Decodes (0x25#8 :: h :: l :: raw) (BitVec.ofNat 8 (16 * a + b) :: seg)

/-- Raw segments that are not names. -/
def isDot (raw : List (BitVec 8)) : Prop := raw = [] ∨ raw = [0x2E#8]
def isDotDot (raw : List (BitVec 8)) : Prop := raw = [0x2E#8, 0x2E#8]

/-- Walking the raw segments from a current location. -/
inductive Walk : List Seg → List (List (BitVec 8)) → List Seg → Prop
  | done {loc} : Walk loc [] loc
  | stay {loc raw rest loc'} : isDot raw → Walk loc rest loc' → Walk loc (raw :: rest) loc'
  | up {loc raw rest loc'} : isDotDot raw → Walk loc.dropLast rest loc' →
      Walk loc (raw :: rest) loc'
  | down {loc raw seg rest loc'} : ¬ isDot raw → ¬ isDotDot raw → Decodes raw seg →
      Walk (loc ++ [seg]) rest loc' → Walk loc (raw :: rest) loc'

/-- A raw path denotes a location: the walk from the root. -/
def Denotes (s : List (BitVec 8)) (loc : List Seg) : Prop := Walk [] (split s) loc

/-- Valid segments and locations. -/
def ValidSeg (s : Seg) : Prop := s ≠ [] ∧ 0x2F#8 ∉ s
def Valid (loc : List Seg) : Prop := ∀ s ∈ loc, ValidSeg s

/-- Every '%' of `raw` starts an escape with two hex digits that is not '/'. -/
def WellEscaped (raw : List (BitVec 8)) : Prop :=
  ∀ pre post, raw = pre ++ 0x25#8 :: post →
    ∃ h l rest a b, post = h :: l :: rest ∧ hexDigit h a ∧ hexDigit l b ∧ 16 * a + b ≠ 0x2F

/-- Percent-encoding of every byte. -/
def hexChar (n : Nat) : BitVec 8 := if n < 10 then BitVec.ofNat 8 (48 + n) else BitVec.ofNat 8 (55 + n)
def percentEncode (s : Seg) : List (BitVec 8) :=
  s.flatMap fun c => [0x25#8, hexChar (c.toNat / 16), hexChar (c.toNat % 16)]

/-- `raws` are names (not dot segments) that decode to `segs`, one by one. -/
inductive Encodes : List (List (BitVec 8)) → List Seg → Prop
  | nil : Encodes [] []
  | cons {raw seg raws segs} : ¬ isDot raw → ¬ isDotDot raw → Decodes raw seg →
      Encodes raws segs → Encodes (raw :: raws) (seg :: segs)

end Verif.Path.Spec
