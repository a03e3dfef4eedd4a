/-
Model of `include/kl/binary_rw.hpp` and `include/kl/binary_rw/*.hpp`.

A byte is `BitVec 8`; `std::size_t` arithmetic wraps modulo 2^64.  The supported types are
a universe `Ty` of type codes, their values are `Val`.  Scalars (arithmetic types, enums,
`endian_arithmetic`) are their object representation, a list of bytes; the 8/32-bit
prefixes are little endian, as on the platforms kl supports.

The result `none` of an operation stands for undefined behaviour: a byte outside of the
buffer is touched, or a signed overflow happens.  Simplifications: allocation never fails
(`Alloc.lean` drops this; the code reserves up to 2^32 elements before checking the buffer);
every byte pattern of a scalar is a value (for `bool` see `C133_bool_violated`).
-/
namespace Verif.BinaryRW

/-- `std::byte`, binary_rw.hpp:74 and 202. -/
abbrev Byte := BitVec 8

/-- Values of the supported types. (binary_rw.hpp:68-70 and binary_rw/*.hpp) -/
inductive Val where
  | scalar (b : List Byte)
  | str (b : List Byte)
  | vec (l : List Val)
  | map (l : List (Val × Val))     -- ascending by key
  | set (l : List Val)             -- ascending
  | none
  | some (v : Val)
  | pair (a b : Val)
  | var (index : Nat) (v : Val)

/-- Type codes: scalars of `n` bytes, `std::string`, `std::vector`, `std::map`, `std::set`
(with the comparison of the key type), `std::optional`, `std::pair`, `std::variant`.
(binary_rw.hpp:68-70; binary_rw/string.hpp:11, vector.hpp:81, map.hpp:10,
set.hpp:10, optional.hpp:10, pair.hpp:10, variant.hpp:36) -/
inductive Ty where
  | scalar (n : Nat)
  | str
  | vec (t : Ty)
  | map (lt : Val → Val → Bool) (k v : Ty)
  | set (lt : Val → Val → Bool) (t : Ty)
  | opt (t : Ty)
  | pair (a b : Ty)
  | variant (ts : List Ty)

/-- Value-initialisation `T{}`.
(binary_rw.hpp:123, 132; binary_rw/map.hpp:29, set.hpp:26, optional.hpp:22) -/
def default : Ty → Val
  | .scalar n => .scalar (List.replicate n 0)
  | .str => .str []
  | .vec _ => .vec []
  | .map .. => .map []
  | .set .. => .set []
  | .opt _ => .none
  | .pair a b => .pair (default a) (default b)
  | .variant [] => .var 0 (.str [])      -- std::variant<> does not exist
  | .variant (t :: _) => .var 0 (default t)

/-- `std::set::insert` / `std::map::insert` on the ascending sequence of elements: nothing
happens when an equivalent key is present. (binary_rw/set.hpp:26, map.hpp:29) -/
def insertSorted {α} (lt : α → α → Bool) : List α → α → List α
  | [], x => [x]
  | y :: ys, x =>
    if lt x y then x :: y :: ys
    else if lt y x then y :: insertSorted lt ys x
    else y :: ys

/-! ### Machine arithmetic -/

/-- `a - b` and `a + b` on `std::size_t`. (binary_rw.hpp:49, 147, 165) -/
def usub (a b : Nat) : Nat := (a + (2 ^ 64 - b)) % 2 ^ 64
/-- `a + b` on `std::size_t`: binary_rw.hpp:147, 165, 239. -/
def uadd (a b : Nat) : Nat := (a + b) % 2 ^ 64

/-- `memcpy` from `buf[pos .. pos+n)`. (binary_rw.hpp:158) -/
def slice (buf : List Byte) (pos n : Nat) : Option (List Byte) :=
  if pos + n ≤ buf.length then .some ((buf.drop pos).take n) else .none

/-- `memcpy` to `buf[pos .. pos+b.size())`. (binary_rw.hpp:238) -/
def overwrite (buf : List Byte) (pos : Nat) (b : List Byte) : Option (List Byte) :=
  if pos + b.length ≤ buf.length then .some (buf.take pos ++ b ++ buf.drop (pos + b.length))
  else .none

/-- Little endian representation.
(the representation that `memcpy` at binary_rw.hpp:158 and 238 copies,
on a little endian machine; binary_rw/endian.hpp:11-26) -/
def toLE : Nat → Nat → List Byte
  | 0, _ => []
  | k + 1, n => BitVec.ofNat 8 n :: toLE k (n / 256)
/-- A number from its representation: binary_rw.hpp:158; binary_rw/endian.hpp:20-26. -/
def fromLE : List Byte → Nat
  | [] => 0
  | b :: bs => b.toNat + 256 * fromLE bs

/-! ### cursor_base -/

/-- binary_rw.hpp:62-65 data members of `cursor_base`. -/
structure Cursor where
  buf : List Byte
  pos : Nat := 0
  err : Bool := false
  deriving DecidableEq

/-- binary_rw.hpp:47-50 `left`. -/
def Cursor.left (c : Cursor) : Nat := usub c.buf.length c.pos

/-- binary_rw.hpp:45 `empty`. -/
def Cursor.empty (c : Cursor) : Bool := c.left ≤ 0

/-- binary_rw.hpp:33-43 `skip`. `-off` overflows for PTRDIFF_MIN. -/
def Cursor.skip (c : Cursor) (off : Int) : Option Cursor :=
  let err := if off > 0 ∧ off.toNat > c.left then true else c.err
  if off = -(2 ^ 63) then .none
  else
    let err := if off < 0 ∧ (-off).toNat > c.pos then true else err
    if !err then .some { c with pos := (((c.pos : Int) + off) % 2 ^ 64).toNat, err := err }
    else .some { c with err := err }

/-- binary_rw.hpp:57 `notify_error`. -/
def Cursor.notifyError (c : Cursor) : Cursor := { c with err := true }

/-! ### binary_reader -/

/-- binary_rw.hpp:153-160 `peek_impl`: `some none` is the result `false`. -/
def Cursor.peekImpl (c : Cursor) (n : Nat) : Option (Option (List Byte)) :=
  if c.err || c.left < n then .some .none
  else match slice c.buf c.pos n with
    | .none => .none
    | .some b => .some (.some b)

/-- binary_rw.hpp:162-170 `read_impl`. -/
def Cursor.readImpl (c : Cursor) (n : Nat) : Option (Option (List Byte) × Cursor) :=
  match c.peekImpl n with
  | .none => .none
  | .some (.some b) => .some (.some b, { c with pos := uadd c.pos n })
  | .some .none => .some (.none, { c with err := true })

/-- binary_rw.hpp:138-150 `span`. -/
def Cursor.span (c : Cursor) (count : Nat) (move : Bool := true) :
    Option (List Byte × Cursor) :=
  let c := if count > c.left then { c with err := true } else c
  if c.err then .some ([], c)
  else match slice c.buf c.pos count with
    | .none => .none
    | .some b => .some (b, if move then { c with pos := uadd c.pos count } else c)

/-- binary_rw.hpp:119-126 `read<T>()` for an unsigned integer of `n` bytes (with 110-117
`read` and 174-178 `read_binary`). -/
def Cursor.readUInt (c : Cursor) (n : Nat) : Option (Nat × Cursor) :=
  if c.err then .some (0, c)
  else match c.readImpl n with
    | .none => .none
    | .some (.none, c') => .some (0, c')
    | .some (.some b, c') => .some (fromLE b, c')

/-- The loops of vector.hpp:62-70, set.hpp:24-32 and map.hpp:27-35: read an element, add
it with `ins`, clear and stop on an error. -/
def readLoop {α} (rd : Cursor → Option (α × Cursor)) (ins : List α → α → List α) :
    Nat → List α → Cursor → Option (List α × Cursor)
  | 0, acc, c => .some (acc, c)
  | n + 1, acc, c =>
    match rd c with
    | .none => .none
    | .some (v, c') =>
      if c'.err then .some ([], c')
      else readLoop rd ins n (ins acc v) c'

/-- `size` consecutive scalars of `n` bytes. (binary_rw/vector.hpp:31-51 with binary_rw.hpp:99-107) -/
def chunks (n : Nat) : Nat → List Byte → List Val
  | 0, _ => []
  | k + 1, b => .scalar (b.take n) :: chunks n k (b.drop n)

/-- The two reads in `map.insert({r.read<K>(), r.read<V>()})`, map.hpp:29, in order. -/
def readPair {α β} (ra : Cursor → Option (α × Cursor)) (rb : Cursor → Option (β × Cursor))
    (c : Cursor) : Option ((α × β) × Cursor) :=
  match ra c with
  | .none => .none
  | .some (a, c1) =>
    match rb c1 with
    | .none => .none
    | .some (b, c2) => .some ((a, b), c2)

mutual
/-- `read_binary(r, value)` for every type; `old` is the previous value of the
destination.  `none` also if `old` has not the shape of the type.
(binary_rw.hpp:173-185; binary_rw/string.hpp:19, vector.hpp:87, map.hpp:22,
set.hpp:19, optional.hpp:18, pair.hpp:17, variant.hpp:43) -/
def readInto : Ty → Val → Cursor → Option (Val × Cursor)
  -- binary_rw.hpp:174-178 and endian.hpp:18-25
  | .scalar n, .scalar old, c =>
    match c.readImpl n with
    | .none => .none
    | .some (.none, c') => .some (.scalar old, c')
    | .some (.some b, c') => .some (.scalar b, c')
  -- string.hpp:19-32
  | .str, .str _, c =>
    match c.readUInt 4 with
    | .none => .none
    | .some (size, c1) =>
      if size = 0 then .some (.str [], c1)
      else match c1.readImpl size with
        | .none => .none
        | .some (b, c2) =>
          .some (.str (if c2.err then [] else b.getD (List.replicate size 0)), c2)
  | .vec t, .vec _, c =>
    match c.readUInt 4 with
    | .none => .none
    | .some (size, c1) =>
      match t with
      -- vector.hpp:32-51, trivially deserializable element type
      | .scalar n =>
        if size = 0 then .some (.vec [], c1)
        else match c1.readImpl (size * n) with
          | .none => .none
          | .some (b, c2) =>
            .some (.vec (if c2.err then []
              else chunks n size (b.getD (List.replicate (size * n) 0))), c2)
      -- vector.hpp:53-71
      | t =>
        match readLoop (fun c => if c.err then .some (default t, c)
            else readInto t (default t) c) (fun acc v => acc ++ [v]) size [] c1 with
        | .none => .none
        | .some (l, c2) => .some (.vec l, c2)
  -- map.hpp:21-36
  | .map lt k v, .map _, c =>
    match c.readUInt 4 with
    | .none => .none
    | .some (size, c1) =>
      match readLoop (readPair
          (fun c => if c.err then .some (default k, c) else readInto k (default k) c)
          (fun c => if c.err then .some (default v, c) else readInto v (default v) c))
          (insertSorted (fun a b => lt a.1 b.1)) size [] c1 with
      | .none => .none
      | .some (l, c2) => .some (.map l, c2)
  -- set.hpp:18-33
  | .set lt t, .set _, c =>
    match c.readUInt 4 with
    | .none => .none
    | .some (size, c1) =>
      match readLoop (fun c => if c.err then .some (default t, c)
          else readInto t (default t) c) (insertSorted lt) size [] c1 with
      | .none => .none
      | .some (l, c2) => .some (.set l, c2)
  -- optional.hpp:17-25
  | .opt t, _, c =>
    match c.readUInt 1 with
    | .none => .none
    | .some (flag, c1) =>
      if !c1.err && flag != 0 then
        match (if c1.err then .some (default t, c1) else readInto t (default t) c1) with
        | .none => .none
        | .some (v, c2) => .some (.some v, c2)
      else .some (.none, c1)
  -- pair.hpp:16-25
  | .pair a b, .pair x y, c =>
    if !c.err then
      match readInto a x c with
      | .none => .none
      | .some (x', c1) =>
        if !c1.err then
          match readInto b y c1 with
          | .none => .none
          | .some (y', c2) => .some (.pair x' y', c2)
        else .some (.pair x' y, c1)
    else .some (.pair x y, c)
  -- variant.hpp:42-50
  | .variant ts, old, c =>
    match c.readUInt 1 with
    | .none => .none
    | .some (index, c1) =>
      if !c1.err then readAlt ts old 0 index c1 else .some (old, c1)
  | _, _, _ => .none
/-- variant.hpp:11-32 `visit_by_index`; `base` is the index of the head of the list. -/
def readAlt : List Ty → Val → Nat → Nat → Cursor → Option (Val × Cursor)
  | [], old, _, _, c => .some (old, c.notifyError)
  | t :: ts, old, base, index, c =>
    if index = 0 then
      match (if c.err then .some (default t, c) else readInto t (default t) c) with
      | .none => .none
      | .some (v, c') => if !c'.err then .some (.var base v, c') else .some (old, c')
    else readAlt ts old (base + 1) (index - 1) c
end

/-- binary_rw.hpp:110-117 `bool read(T&)`: destination, cursor and result. -/
def Cursor.read (c : Cursor) (t : Ty) (old : Val) : Option (Val × Cursor × Bool) :=
  if c.err then .some (old, c, false)
  else match readInto t old c with
    | .none => .none
    | .some (v, c') => .some (v, c', !c'.err)

/-- binary_rw.hpp:119-126 `T read<T>()`. -/
def Cursor.readNew (c : Cursor) (t : Ty) : Option (Val × Cursor) :=
  (c.read t (default t)).map fun r => (r.1, r.2.1)

/-- binary_rw.hpp:79-88 `bool peek(T&)` for an object of `n` bytes with the old bytes `old`. -/
def Cursor.peek (c : Cursor) (n : Nat) (old : List Byte) : Option (List Byte × Cursor × Bool) :=
  match c.peekImpl n with
  | .none => .none
  | .some (.some b) => .some (b, c, true)
  | .some .none => .some (old, c, false)

/-- binary_rw.hpp:90-107 `read_raw` and `read_span` of `n` bytes into memory holding `old`. -/
def Cursor.readRaw (c : Cursor) (n : Nat) (old : List Byte) :
    Option (List Byte × Cursor × Bool) :=
  match c.readImpl n with
  | .none => .none
  | .some (b, c') => .some (b.getD old, c', !c'.err)

/-! ### binary_writer -/

/-- binary_rw.hpp:230-242 `write_impl`. -/
def Cursor.writeImpl (c : Cursor) (b : List Byte) : Option Cursor :=
  if c.err || c.left < b.length then .some { c with err := true }
  else match overwrite c.buf c.pos b with
    | .none => .none
    | .some buf => .some { c with buf := buf, pos := uadd c.pos b.length }

/-- A range-for loop of writes. (binary_rw/map.hpp:10-19, set.hpp:10-16, vector.hpp:21-29) -/
def writeLoop {α} (wr : α → Cursor → Option Cursor) : List α → Cursor → Option Cursor
  | [], c => .some c
  | v :: vs, c =>
    match wr v c with
    | .none => .none
    | .some c' => writeLoop wr vs c'

/-- Object representation of a scalar. (binary_rw.hpp:207-217) -/
def scalarBytes : Val → List Byte
  | .scalar b => b
  | _ => []

mutual
/-- `write_binary(w, value)` for every type; `none` also if the value has not the shape of
the type.
(binary_rw.hpp:245-257; binary_rw/string.hpp:11, vector.hpp:81, map.hpp:10,
set.hpp:10, optional.hpp:10, pair.hpp:10, variant.hpp:36) -/
def write : Ty → Val → Cursor → Option Cursor
  -- binary_rw.hpp:246-250 and endian.hpp:9-16
  | .scalar _, .scalar b, c => c.writeImpl b
  -- string.hpp:11-17
  | .str, .str b, c =>
    match c.writeImpl (toLE 4 (b.length % 2 ^ 32)) with
    | .none => .none
    | .some c1 => if b ≠ [] then c1.writeImpl b else .some c1
  | .vec t, .vec l, c =>
    match c.writeImpl (toLE 4 (l.length % 2 ^ 32)) with
    | .none => .none
    | .some c1 =>
      match t with
      -- vector.hpp:13-19
      | .scalar _ => c1.writeImpl (l.flatMap scalarBytes)
      -- vector.hpp:21-29
      | t => writeLoop (write t) l c1
  -- map.hpp:9-19
  | .map _ k v, .map l, c =>
    match c.writeImpl (toLE 4 (l.length % 2 ^ 32)) with
    | .none => .none
    | .some c1 => writeLoop (fun kv c => match write k kv.1 c with
        | .none => .none
        | .some c' => write v kv.2 c') l c1
  -- set.hpp:9-16
  | .set _ t, .set l, c =>
    match c.writeImpl (toLE 4 (l.length % 2 ^ 32)) with
    | .none => .none
    | .some c1 => writeLoop (write t) l c1
  -- optional.hpp:9-15
  | .opt _, .none, c => c.writeImpl [0]
  | .opt t, .some v, c =>
    match c.writeImpl [1] with
    | .none => .none
    | .some c1 => write t v c1
  -- pair.hpp:9-14
  | .pair a b, .pair x y, c =>
    match write a x c with
    | .none => .none
    | .some c1 => write b y c1
  -- variant.hpp:35-40
  | .variant ts, .var i v, c =>
    match c.writeImpl (toLE 1 (i % 2 ^ 8)) with
    | .none => .none
    | .some c1 => writeAlt ts i v c1
  | _, _, _ => .none
/-- variant.hpp:39 `std::visit`: write with the type of the active alternative. -/
def writeAlt : List Ty → Nat → Val → Cursor → Option Cursor
  | [], _, _, _ => .none
  | t :: _, 0, v, c => write t v c
  | _ :: ts, i + 1, v, c => writeAlt ts i v c
end

end Verif.BinaryRW
