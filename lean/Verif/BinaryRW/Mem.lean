import Verif.BinaryRW.Model
/-
The readers and writers of `include/kl/binary_rw.hpp` once more, with pointers into a memory of blocks: what `Model.lean` has as a list
of bytes is here a `gsl::span` into a block that may be shared, freed, or be the same as the destination. `none` is undefined behaviour:
`memcpy` with a null pointer (also of no bytes), outside of a block, in a freed block, or between regions that overlap; and
arithmetic on a null pointer.

Simplification: `std::size_t` of a region does not wrap (`size_bytes()` of an existing span); allocation never fails.
-/
namespace Verif.BinaryRW

/-- A pointer: null, or a place in a block. (binary_rw.hpp:60 `T*`) -/
abbrev Ptr := Option (Nat × Nat)

/-- The memory: `none` is a block that does not exist. (what binary_rw.hpp:63 `buffer_` points to) -/
structure Mem where
  blocks : Nat → Option (List Byte)

/-- Model only: creating, changing and freeing a block. (binary_rw/vector.hpp:40, 42, string.hpp:27) -/
def Mem.set (m : Mem) (b : Nat) (x : Option (List Byte)) : Mem := ⟨fun c => if c = b then x else m.blocks c⟩

/-- The bytes of a span; an empty span may be null. (binary_rw.hpp:63, 99-107, 219-227) -/
def Mem.bytes (m : Mem) : Ptr → Nat → Option (List Byte)
  | .none, n => if n = 0 then .some [] else .none
  | .some (b, off), n =>
    match m.blocks b with
    | .none => .none
    | .some l => if off + n ≤ l.length then .some ((l.drop off).take n) else .none

/-- binary_rw.hpp:60 `buffer_.data() + pos_`. -/
def Mem.advance (m : Mem) : Ptr → Nat → Option Ptr
  | .none, k => if k = 0 then .some .none else .none
  | .some (b, off), k =>
    match m.blocks b with
    | .none => .none
    | .some l => if off + k ≤ l.length then .some (.some (b, off + k)) else .none

/-- Writing bytes into a block. (binary_rw.hpp:158, 238) -/
def Mem.store (m : Mem) (d : Nat × Nat) (bs : List Byte) : Mem :=
  match m.blocks d.1 with
  | .none => m
  | .some l => m.set d.1 (.some (l.take d.2 ++ bs ++ l.drop (d.2 + bs.length)))

/-- `std::memcpy`. (binary_rw.hpp:158, 238) -/
def Mem.memcpy (m : Mem) (dst src : Ptr) (n : Nat) : Option Mem :=
  match dst, src with
  | .some d, .some s =>
    match m.bytes (.some s) n, m.bytes (.some d) n with
    | .some bs, .some _ => if d.1 = s.1 ∧ d.2 < s.2 + n ∧ s.2 < d.2 + n then .none else .some (m.store d bs)
    | _, _ => .none
  | _, _ => .none

/-- binary_rw.hpp:62-65 data members of `cursor_base`. -/
structure PCur where
  data : Ptr
  len : Nat
  pos : Nat := 0
  err : Bool := false

/-- binary_rw.hpp:47-50 `left`. -/
def PCur.left (c : PCur) : Nat := usub c.len c.pos

/-- binary_rw.hpp:153-160 `peek_impl`. -/
def PCur.peek (m : Mem) (c : PCur) (dst : Ptr) (n : Nat) : Option (Mem × Bool) :=
  if c.err || c.left < n then .some (m, false)
  else match m.advance c.data c.pos with
    | .none => .none
    | .some p =>
      match m.memcpy dst p n with
      | .none => .none
      | .some m' => .some (m', true)

/-- binary_rw.hpp:162-170 `read_impl`. -/
def PCur.read (m : Mem) (c : PCur) (dst : Ptr) (n : Nat) : Option (Mem × PCur × Bool) :=
  match c.peek m dst n with
  | .none => .none
  | .some (m', true) => .some (m', { c with pos := uadd c.pos n }, !c.err)
  | .some (m', false) => .some (m', { c with err := true }, false)

/-- binary_rw.hpp:138-150 `span`. -/
def PCur.span (m : Mem) (c : PCur) (count : Nat) (move : Bool) : Option ((Ptr × Nat) × PCur) :=
  let c := if count > c.left then { c with err := true } else c
  if c.err then .some ((.none, 0), c)
  else match m.advance c.data c.pos with
    | .none => .none
    | .some p => .some ((p, count), if move then { c with pos := uadd c.pos count } else c)

/-- binary_rw.hpp:230-242 `write_impl`. -/
def PCur.write (m : Mem) (c : PCur) (src : Ptr) (n : Nat) : Option (Mem × PCur × Bool) :=
  if c.err || c.left < n then .some (m, { c with err := true }, false)
  else match m.advance c.data c.pos with
    | .none => .none
    | .some p =>
      match m.memcpy p src n with
      | .none => .none
      | .some m' => .some (m', { c with pos := uadd c.pos n }, true)

/-- A `std::vector` of scalars, or a `std::string`: where its elements are, how many bytes they and the allocation have.
(binary_rw/vector.hpp:13-19, 31-51) -/
structure Vec where
  data : Ptr
  size : Nat
  cap : Nat

/-- binary_rw/vector.hpp:14-19 `encode_vector` of scalars of `n` bytes; the converted size is a temporary at block `tmp`. -/
def encodeVec (m : Mem) (w : PCur) (tmp : Nat) (v : Vec) (n : Nat) : Option (Mem × PCur) :=
  match w.write (m.set tmp (.some (toLE 4 (v.size / n % 2 ^ 32)))) (.some (tmp, 0)) 4 with
  | .none => .none
  | .some (m1, w1, _) =>
    match w1.write (m1.set tmp .none) v.data v.size with
    | .none => .none
    | .some (m2, w2, _) => .some (m2, w2)

/-- binary_rw.hpp:119-126 `read<std::uint32_t>()`: a local variable at block `tmp`. -/
def readU32 (m : Mem) (r : PCur) (tmp : Nat) : Option (Nat × Mem × PCur) :=
  if r.err then .some (0, m, r)
  else match r.read (m.set tmp (.some (List.replicate 4 0))) (.some (tmp, 0)) 4 with
    | .none => .none
    | .some (m1, r1, _) =>
      match m1.bytes (.some (tmp, 0)) 4 with
      | .none => .none
      | .some b => .some (fromLE b, m1.set tmp .none, r1)

/-- `resize` of an empty vector, which has a block of its own of `cap` bytes or none: the block is used again if it is large enough.
(binary_rw/vector.hpp:42) -/
def Vec.grow (m : Mem) (v : Vec) (fresh k : Nat) : Mem × Vec :=
  if k ≤ v.cap then
    match v.data with
    | .some d => (m.store d (List.replicate k 0), { v with size := k })
    | .none => (m, { v with size := k })
  else
    let m1 := match v.data with
      | .some d => m.set d.1 .none
      | .none => m
    (m1.set fresh (.some (List.replicate k 0)), ⟨.some (fresh, 0), k, k⟩)

/-- binary_rw/vector.hpp:31-51 `decode_vector` of scalars of `n` bytes; `tmp` and `fresh` are the blocks of the local variable and of the
allocation, if there is one. -/
def decodeVec (m : Mem) (r : PCur) (tmp fresh : Nat) (v : Vec) (n : Nat) : Option (Mem × PCur × Vec) :=
  match readU32 m r tmp with
  | .none => .none
  | .some (size, m1, r1) =>
    let v1 : Vec := { v with size := 0 }
    if size = 0 then .some (m1, r1, v1)
    else
      let g := v1.grow m1 fresh (size * n)
      match r1.read g.1 g.2.data g.2.size with
      | .none => .none
      | .some (m3, r3, _) => .some (m3, r3, if r3.err then { g.2 with size := 0 } else g.2)

end Verif.BinaryRW
