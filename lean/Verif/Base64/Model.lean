/-
Model of `src/base64.cpp` (all of it).

Bytes and chars are `BitVec 8` (`static_cast<unsigned char>` is applied by the
code before each table lookup, so the signedness of `char` is irrelevant);
`std::uint32_t` is `BitVec 32`.  Output buffers are pre-sized by the code and
filled through an iterator; writing past the pre-computed size, or reading past
the end of the input, is the distinct outcome `Res.ub`.
-/
namespace Verif.Base64

/-- `std::byte` and `char`: base64.hpp:13-17. -/
abbrev Byte := BitVec 8

/-- Selects the template argument `IsUrlVariant` (base64.cpp:23, 33, 93, 135). -/
inductive Variant where
  | std
  | url
  deriving DecidableEq, Repr

/-- Outcome of a function that returns `std::optional`, or undefined behaviour. (base64.cpp:136-225, 239-247) -/
inductive Res (α : Type) where
  | ub
  | nullopt
  | ok (a : α)
  deriving DecidableEq, Repr

/-- A char literal as a byte. (such as `'='` in base64.cpp:81, 85, 152) -/
def ch (c : Char) : Byte := BitVec.ofNat 8 c.toNat

/-- base64.cpp:18-21 `base64_alphabet`, `base64url_alphabet` (without the
terminating NUL, which is unreachable because the index is masked by 0x3F). -/
def alphabet (v : Variant) : List Byte :=
  (['A','B','C','D','E','F','G','H','I','J','K','L','M','N','O','P','Q','R','S','T','U','V','W','X','Y','Z',
    'a','b','c','d','e','f','g','h','i','j','k','l','m','n','o','p','q','r','s','t','u','v','w','x','y','z',
    '0','1','2','3','4','5','6','7','8','9'] ++
    (match v with | .std => ['+', '/'] | .url => ['-', '_'])).map ch

/-- base64.cpp:23-31 `base64_lookup`. -/
def lookup (v : Variant) (c : Byte) : Byte :=
  (alphabet v).getD (c &&& 0x3F#8).toNat 0#8

/-- base64.cpp:38-50: size of the string allocated for the result. -/
def encodeAlloc (v : Variant) (n : Nat) : Nat :=
  let full_quad := n / 3
  let tail_size := n - full_quad * 3
  let out_tail_size :=
    if tail_size = 0 then 0
    else match v with
      | .std => 4
      | .url => tail_size + 1
  4 * full_quad + out_tail_size

/-- base64.cpp:56-64: the loop over full triples; returns the characters written
and the remaining input (`src` after the loop).  Reading past the end: `none`. -/
def encodeLoop (v : Variant) : Nat → List Byte → Option (List Byte × List Byte)
  | 0, src => some ([], src)
  | n + 1, s0 :: s1 :: s2 :: src =>
    match encodeLoop v n src with
    | none => none
    | some (out, rest) =>
      some (lookup v (s0 >>> 2)
        :: lookup v (((s0 &&& 0x3#8) <<< 4) ||| (s1 >>> 4))
        :: lookup v ((s1 <<< 2) ||| (s2 >>> 6))
        :: lookup v s2 :: out, rest)
  | _ + 1, _ => none

/-- base64.cpp:66-86: the tail.  Reading past the end: `none`. -/
def encodeTail (v : Variant) (tail_size : Nat) (src : List Byte) : Option (List Byte) :=
  if tail_size > 0 then
    match src with
    | [] => none
    | s0 :: src1 =>
      let c0 := [lookup v (s0 >>> 2)]
      let mid :=
        if tail_size = 2 then
          match src1 with
          | [] => none
          | s1 :: _ =>
            some [lookup v (((s0 &&& 0x3#8) <<< 4) ||| (s1 >>> 4)), lookup v (s1 <<< 2)]
        else
          some (lookup v ((s0 &&& 0x3#8) <<< 4) ::
            (match v with | .std => [ch '='] | .url => []))
      match mid with
      | none => none
      | some m => some (c0 ++ m ++ (match v with | .std => [ch '='] | .url => []))
  else some []

/-- Writing `out` through an iterator into a zero-initialised buffer of `size`
elements: too many writes is undefined behaviour, too few leaves zeros.
(base64.cpp:51-88 and 173-222: the buffers and the iterators `dst`) -/
def fillBuf (size : Nat) (out : List Byte) : Res (List Byte) :=
  if out.length ≤ size then .ok (out ++ List.replicate (size - out.length) 0#8) else .ub

/-- base64.cpp:33-89 `base64_encode_impl`; 229-237 are the two instances. -/
def encode (v : Variant) (s : List Byte) : Res (List Byte) :=
  let full_quad := s.length / 3
  let tail_size := s.length - full_quad * 3
  match encodeLoop v full_quad s with
  | none => .ub
  | some (out, src) =>
    match encodeTail v tail_size src with
    | none => .ub
    | some t => fillBuf (encodeAlloc v s.length) (out ++ t)

/-- base64.cpp:91 `bad_base64_char = 1U << 24`. -/
def bad : BitVec 32 := 1#32 <<< 24

/-- base64.cpp:93-107 `base64_decode_value`. -/
def decodeValue (v : Variant) (c : BitVec 32) : BitVec 32 :=
  if c ≥ 65#32 ∧ c ≤ 90#32 then c - 65#32
  else if c ≥ 97#32 ∧ c ≤ 122#32 then 26#32 + c - 97#32
  else if c ≥ 48#32 ∧ c ≤ 57#32 then 52#32 + c - 48#32
  else if c = (match v with | .url => 45#32 | .std => 43#32) then 62#32
  else if c = (match v with | .url => 95#32 | .std => 47#32) then 63#32
  else bad

/-- base64.cpp:109-128 `make_base64_decode_table` and `base64_decode_lookup`:
entry of the table for `Shift` at the (unsigned) character. -/
def decodeLookup (v : Variant) (shift : Nat) (c : Byte) : BitVec 32 :=
  let value := decodeValue v (c.setWidth 32)
  if value = bad then value else value <<< shift

/-- base64.cpp:130-133 `is_base64`. -/
def isBase64 (value : BitVec 32) : Bool := value ≤ 0x3F#32

/-- `static_cast<std::byte>` of a `uint32_t`. (base64.cpp:191-193, 207-221) -/
def toByte (x : BitVec 32) : Byte := x.setWidth 8

/-- base64.cpp:178-196: loop over full quadruples.  `ub` = read past the end,
`nullopt` = bad character; otherwise the bytes written and the rest of `src`. -/
def decodeLoop (v : Variant) : Nat → List Byte → Res (List Byte × List Byte)
  | 0, src => .ok ([], src)
  | n + 1, c0 :: c1 :: c2 :: c3 :: src =>
    let decoded := decodeLookup v 18 c0 ||| decodeLookup v 12 c1 |||
      decodeLookup v 6 c2 ||| decodeLookup v 0 c3
    if decoded ≥ bad then .nullopt
    else
      match decodeLoop v n src with
      | .ub => .ub
      | .nullopt => .nullopt
      | .ok (out, rest) =>
        .ok (toByte (decoded >>> 16) :: toByte (decoded >>> 8) :: toByte decoded :: out, rest)
  | _ + 1, _ => .ub

/-- base64.cpp:198-222: the tail of 0, 2 or 3 characters. -/
def decodeTail (v : Variant) (tail_size : Nat) (src : List Byte) : Res (List Byte) :=
  let lk := decodeLookup v 0
  if tail_size = 3 then
    match src with
    | c0 :: c1 :: c2 :: _ =>
      if !isBase64 (lk c0) || !isBase64 (lk c1) || !isBase64 (lk c2) then .nullopt
      else .ok [toByte ((lk c0 <<< 2) ||| (lk c1 >>> 4)), toByte ((lk c1 <<< 4) ||| (lk c2 >>> 2))]
    | _ => .ub
  else if tail_size = 2 then
    match src with
    | c0 :: c1 :: _ =>
      if !isBase64 (lk c0) || !isBase64 (lk c1) then .nullopt
      else .ok [toByte ((lk c0 <<< 2) ||| (lk c1 >>> 4))]
    | _ => .ub
  else .ok []

/-- base64.cpp:151-154: number of consecutive `=` at the end. -/
def numEqs (str : List Byte) : Nat := (str.reverse.takeWhile (· == ch '=')).length

/-- base64.cpp:135-225 `base64_decode_impl`; 239-247 are the two instances. -/
def decode (v : Variant) (str0 : List Byte) : Res (List Byte) :=
  if v = .std ∧ (str0.length / 4) * 4 ≠ str0.length then .nullopt
  else
    let num_eqs := numEqs str0
    if num_eqs > 2 then .nullopt
    else
      let str := if num_eqs > 0 then str0.take (str0.length - num_eqs) else str0
      let full_quad := str.length / 4
      let tail_size := str.length - full_quad * 4
      if tail_size = 1 then .nullopt
      else
        let ret_size := full_quad * 3 + (if tail_size = 0 then 0 else tail_size - 1)
        match decodeLoop v full_quad str with
        | .ub => .ub
        | .nullopt => .nullopt
        | .ok (out, src) =>
          match decodeTail v tail_size src with
          | .ub => .ub
          | .nullopt => .nullopt
          | .ok t => fillBuf ret_size (out ++ t)

end Verif.Base64
