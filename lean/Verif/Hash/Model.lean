/-
Model of `hash.hpp`.  A `char` is 8 bits; `sc` tells whether `char` is signed.  Pointers are
offsets into the byte list; a read outside of it is `none`.  Left shifts of negative values
(undefined before C++20 for bytes from 0x80 on with signed `char`) are modelled by what all
supported compilers do: shift the two's complement bits.
-/
namespace Verif.Hash

/-- `char`, hash.hpp:10, 40, 47. -/
abbrev Byte := BitVec 8

/-- Conversion of a `char` to a 32-bit integer (`int`, or `uint32_t` by way of it).
(hash.hpp:14, 42) -/
def charTo32 (sc : Bool) (c : Byte) : BitVec 32 := if sc then c.signExtend 32 else c.setWidth 32

/-- hash.hpp:14 one round. -/
def fnvStep (sc : Bool) (hash : BitVec 32) (c : Byte) : BitVec 32 :=
  (hash ^^^ charTo32 sc c) * 16777619#32

/-- hash.hpp:13-15 the loop. -/
def fnvLoop (sc : Bool) : BitVec 32 → List Byte → BitVec 32
  | hash, [] => hash
  | hash, c :: cs => fnvLoop sc (fnvStep sc hash c) cs

/-- hash.hpp:10-16 `fnv1a(data, length)`, 25-28 and 32-35. -/
def fnv1a (sc : Bool) (data : List Byte) : BitVec 32 := fnvLoop sc 2166136261#32 data

/-- hash.hpp:18-23 the array overload; `none`: `std::logic_error`. -/
def fnv1aArray (sc : Bool) (str : List Byte) (h : str ≠ []) : Option (BitVec 32) :=
  if str.getLast h ≠ 0#8 then none else some (fnv1a sc (str.take (str.length - 1)))

/-- hash.hpp:40-43 `get16bits`: computed in `int`, cut to 16 bits. -/
def get16bits (sc : Bool) (data : List Byte) (p : Nat) : Option (BitVec 16) := do
  let d0 ← data[p]?
  let d1 ← data[p + 1]?
  pure ((charTo32 sc d0 ||| (charTo32 sc d1 <<< 8)).setWidth 16)

/-- hash.hpp:58-65 main loop: hash and position afterwards. -/
def hsiehLoop (sc : Bool) (data : List Byte) : Nat → BitVec 32 → Nat → Option (BitVec 32 × Nat)
  | 0, hash, p => some (hash, p)
  | n + 1, hash, p => do
    let a ← get16bits sc data p
    let hash := hash + a.setWidth 32
    let b ← get16bits sc data (p + 2)
    let tmp := (b.setWidth 32 <<< 11) ^^^ hash
    let hash := (hash <<< 16) ^^^ tmp
    let hash := hash + (hash >>> 11)
    hsiehLoop sc data n hash (p + 4)

/-- hash.hpp:68-85 the end cases. -/
def hsiehEnd (sc : Bool) (data : List Byte) (rem : Nat) (hash : BitVec 32) (p : Nat) :
    Option (BitVec 32) :=
  match rem with
  | 3 => do
    let a ← get16bits sc data p
    let hash := hash + a.setWidth 32
    let hash := hash ^^^ (hash <<< 16)
    let c ← data[p + 2]?
    let hash := hash ^^^ (c.signExtend 32 <<< 18)
    pure (hash + (hash >>> 11))
  | 2 => do
    let a ← get16bits sc data p
    let hash := hash + a.setWidth 32
    let hash := hash ^^^ (hash <<< 11)
    pure (hash + (hash >>> 17))
  | 1 => do
    let c ← data[p]?
    let hash := hash + c.signExtend 32
    let hash := hash ^^^ (hash <<< 10)
    pure (hash + (hash >>> 1))
  | _ => some hash

/-- hash.hpp:87-93 avalanche. -/
def avalanche (hash : BitVec 32) : BitVec 32 :=
  let hash := hash ^^^ (hash <<< 3)
  let hash := hash + (hash >>> 5)
  let hash := hash ^^^ (hash <<< 4)
  let hash := hash + (hash >>> 17)
  let hash := hash ^^^ (hash <<< 25)
  hash + (hash >>> 6)

/-- hash.hpp:47-96 `hsieh`. -/
def hsieh (sc : Bool) (data : List Byte) : Option (BitVec 32) :=
  if data.length = 0 then some 0#32
  else do
    let (hash, p) ← hsiehLoop sc data (data.length / 4) (BitVec.ofNat 32 data.length) 0
    let hash ← hsiehEnd sc data (data.length % 4) hash p
    pure (avalanche hash)

end Verif.Hash
