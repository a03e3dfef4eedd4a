/-
Specification of Base64 (RFC 4648) independent of the model: bit streams.
-/
namespace Verif.Base64.Spec

/-- The two alphabets of RFC 4648, tables 1 and 2, as character codes. -/
def symbols (urlSafe : Bool) : List Nat :=
  List.range' 65 26 ++ List.range' 97 26 ++ List.range' 48 10 ++
    (if urlSafe then [45, 95] else [43, 47])

/-- Bits of a byte, most significant first. -/
def bits (n : Nat) : List Nat :=
  [n / 128 % 2, n / 64 % 2, n / 32 % 2, n / 16 % 2, n / 8 % 2, n / 4 % 2, n / 2 % 2, n % 2]

/-- Number with the given bits, most significant first. -/
def ofBits (l : List Nat) : Nat := l.foldl (fun a b => 2 * a + b) 0

/-- Cut a bit stream in groups of six, padding the last with zero bits. -/
def sextets : List Nat → List Nat
  | [] => []
  | a :: b :: c :: d :: e :: f :: l => ofBits [a, b, c, d, e, f] :: sextets l
  | l => [ofBits (l ++ List.replicate (6 - l.length) 0)]

/-- The symbols of the encoding, without padding characters. -/
def body (urlSafe : Bool) (bytes : List Nat) : List Nat :=
  (sextets (bytes.flatMap bits)).map fun i => (symbols urlSafe).getD i 0

/-- The RFC 4648 encoding: padded with `=` (61) to a multiple of four characters
for the standard alphabet, unpadded for the URL-safe one. -/
def rfc4648 (urlSafe : Bool) (bytes : List Nat) : List Nat :=
  let b := body urlSafe bytes
  b ++ (if urlSafe then [] else List.replicate ((4 - b.length % 4) % 4) 61)

/-- A character is in the alphabet. -/
def InAlphabet (urlSafe : Bool) (c : Nat) : Prop := c ∈ symbols urlSafe

/-- Strings the decoder is supposed to accept: `body` is the part before at most
two `=` characters.  The standard variant wants a multiple of four characters. -/
def Accepts (urlSafe : Bool) (s : List Nat) : Prop :=
  ∃ (body : List Nat) (k : Nat), s = body ++ List.replicate k 61 ∧ k ≤ 2 ∧
    (∀ c ∈ body, InAlphabet urlSafe c) ∧ body.length % 4 ≠ 1 ∧
    (urlSafe = false → s.length % 4 = 0)

/-- Value of a symbol: its position in the alphabet. -/
def value (urlSafe : Bool) (c : Nat) : Nat := (symbols urlSafe).idxOf c

/-- Bits of a sextet, most significant first. -/
def bits6 (n : Nat) : List Nat :=
  [n / 32 % 2, n / 16 % 2, n / 8 % 2, n / 4 % 2, n / 2 % 2, n % 2]

/-- Cut a bit stream in groups of eight, dropping an incomplete last group. -/
def octets : List Nat → List Nat
  | a :: b :: c :: d :: e :: f :: g :: h :: l => ofBits [a, b, c, d, e, f, g, h] :: octets l
  | _ => []

/-- Decoding of the symbols of a string without its padding. -/
def decoded (urlSafe : Bool) (body : List Nat) : List Nat :=
  octets (body.flatMap fun c => bits6 (value urlSafe c))

end Verif.Base64.Spec
