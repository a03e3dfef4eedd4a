/-
Model of `include/kl/path.hpp` and `src/path.cpp` (all of both).

`char` is a byte (`BitVec 8`); `std::string` is a list of bytes;
`boost::container::small_vector` is a list.  Exceptions are returned together
with the object state they leave behind, so that exception safety can be stated.
Capacities and allocation failure are in `Alloc.lean`; objects, views as pointers and a `set` argument
that is part of the path's own buffer in `Objects.lean`.
-/
namespace Verif.Path

/-- `char`, path.hpp:94-137. -/
abbrev Byte := BitVec 8
/-- `std::string` and `std::string_view`, path.hpp:94-137. -/
abbrev Str := List Byte

/-- '/' '%' '.' (path.cpp:16, 21, 78, 84, 99) -/
abbrev slash : Byte := 0x2F#8
/-- '%': path.cpp:84. -/
abbrev percent : Byte := 0x25#8
/-- '.': path.cpp:27-34, the segments `.` and `..`. -/
abbrev dot : Byte := 0x2E#8

/-- path.hpp:13-17 `path_segment`. -/
structure Segment where
  offset : Nat
  length : Nat
  deriving DecidableEq, Repr

/-- path.hpp:77-92 `path_parse_error`; the two messages thrown in path.cpp. -/
inductive ParseError where
  | invalidPercent
  | containsSlash
  deriving DecidableEq, Repr

/-- path.hpp:94-137 data members of `path`. -/
structure Path where
  value : Str
  segments : List Segment
  deriving DecidableEq, Repr

/-- path.hpp:100 `path() = default`. -/
def Path.default : Path := ⟨[], []⟩

/-- `std::string_view::substr(pos, n)` for `pos <= size()`. (path.hpp:21-26) -/
def substr (s : Str) (pos n : Nat) : Str := (s.drop pos).take n

/-- path.hpp:21-26 `path_segment_at`: element `i` of the segment array, `none` if
`i` is out of bounds (undefined behaviour) or `substr` would throw. -/
def segmentAt (value : Str) (segments : List Segment) (i : Nat) : Option Str :=
  match segments[i]? with
  | none => none
  | some s => if s.offset ≤ value.length then some (substr value s.offset s.length) else none

/-- path.hpp:110-111 `empty`, `size`. -/
def Path.size (p : Path) : Nat := p.segments.length
/-- path.hpp:110 `empty`. -/
def Path.empty (p : Path) : Bool := p.segments.isEmpty

/-- path.hpp:117-120 `operator[]`. -/
def Path.at (p : Path) (i : Nat) : Option Str := segmentAt p.value p.segments i

/-- path.hpp:122-127 `joined`. -/
def Path.joined (p : Path) (offset : Nat) : Str :=
  match p.segments[offset]? with
  | none => []
  | some s => p.value.drop s.offset

/-- path.hpp:30-75 `path_view`: the buffer and the array slice it points to. -/
structure View where
  value : Str
  segments : List Segment
  deriving DecidableEq, Repr

/-- path.hpp:112-115 `view`. -/
def Path.view (p : Path) : View := ⟨p.value, p.segments⟩

/-- path.hpp:33 default constructed view. -/
def View.default : View := ⟨[], []⟩

/-- path.hpp:35-36. -/
def View.size (w : View) : Nat := w.segments.length
/-- path.hpp:35 `path_view::empty`. -/
def View.empty (w : View) : Bool := w.segments.isEmpty

/-- path.hpp:38-41 `operator[]`. -/
def View.at (w : View) (i : Nat) : Option Str := segmentAt w.value w.segments i

/-- path.hpp:43 `front`. -/
def View.front (w : View) : Option Str := w.at 0

/-- path.hpp:44-47 `drop_front`; `none`: called on an empty view. -/
def View.dropFront (w : View) : Option View :=
  match w.segments with
  | [] => none
  | _ :: l => some ⟨w.value, l⟩

/-- path.hpp:49-52 `drop_back`; `none`: called on an empty view. -/
def View.dropBack (w : View) : Option View :=
  match w.segments with
  | [] => none
  | l => some ⟨w.value, l.take (l.length - 1)⟩

/-- path.hpp:54-62 `prefix`; `none`: `count > size()` (assertion / out of bounds). -/
def View.prefix (w : View) (count : Nat) : Option Str :=
  if count > w.segments.length then none
  else if count = 0 then some []
  else match w.segments[count - 1]? with
    | none => none
    | some s => some (w.value.take (s.offset + s.length))

/-- path.cpp:54-63 `from_xdigit`. -/
def fromXDigit (c : Byte) : Int :=
  if c.toNat ≥ 48 ∧ c.toNat ≤ 57 then (c.toNat : Int) - 48
  else if c.toNat ≥ 65 ∧ c.toNat ≤ 70 then 10 + ((c.toNat : Int) - 65)
  else if c.toNat ≥ 97 ∧ c.toNat ≤ 102 then 10 + ((c.toNat : Int) - 97)
  else -1

/-- path.cpp:48-52 `clear`. -/
def Path.clear (_ : Path) : Path := ⟨[], []⟩

/-- path.cpp:65-73 `pop_segment`. -/
def Path.pop (p : Path) : Path :=
  match p.segments.getLast? with
  | none => p
  | some s =>
    ⟨p.value.take (if s.offset = 0 then s.offset else s.offset - 1), p.segments.dropLast⟩

/-- path.cpp:82-104: the decoding loop of `push_decoded_segment`, appending to
`value`; on a throw the text appended so far stays in `value`. -/
def decodeInto (value : Str) : Str → Str × Option ParseError
  | [] => (value, none)
  | c :: rest =>
    if c ≠ percent then decodeInto (value ++ [c]) rest
    else match rest with
      | h :: l :: rest' =>
        if fromXDigit h < 0 ∨ fromXDigit l < 0 then (value, some .invalidPercent)
        else
          let ch : Byte := BitVec.ofNat 8 ((fromXDigit h).toNat * 16 + (fromXDigit l).toNat)
          if ch = slash then (value, some .containsSlash)
          else decodeInto (value ++ [ch]) rest'
      | _ => (value, some .invalidPercent)

/-- path.cpp:75-107 `push_decoded_segment`. -/
def Path.push (p : Path) (segment : Str) : Path × Option ParseError :=
  let value := if !p.value.isEmpty then p.value ++ [slash] else p.value
  let offset := value.length
  match decodeInto value segment with
  | (value', some e) => (⟨value', p.segments⟩, some e)
  | (value', none) => (⟨value', p.segments ++ [⟨offset, value'.length - offset⟩]⟩, none)

/-- path.cpp:25-39: body of the loop of `set` for one raw segment. -/
def Path.stepSegment (p : Path) (segment : Str) : Path × Option ParseError :=
  if segment ≠ [] then
    if segment = [dot] then (p, none)
    else if segment = [dot, dot] then (p.pop, none)
    else p.push segment
  else (p, none)

/-- path.cpp:19-45: the `while (true)` loop of `set`. -/
def Path.setLoop (p : Path) (value : Str) : Path × Option ParseError :=
  let segment := value.takeWhile (· != slash)
  match p.stepSegment segment with
  | (p', some e) => (p', some e)
  | (p', none) =>
    match _h : value.dropWhile (· != slash) with
    | [] => (p', none)
    | _ :: rest => p'.setLoop rest
termination_by value.length
decreasing_by
  have h1 : (value.dropWhile (· != slash)).length ≤ value.length := by
    have := List.dropWhile_suffix (l := value) (· != slash)
    exact this.length_le
  have h2 := congrArg List.length _h
  simp only [List.length_cons] at h2
  omega

/-- path.cpp:8-46 `set`. -/
def Path.set (p : Path) (value : Str) : Path × Option ParseError :=
  let p := p.clear
  if value.isEmpty || value == [slash] then (p, none)
  else
    let value := match value with
      | [] => []
      | c :: rest => if c = slash then rest else c :: rest
    p.setLoop value

/-- path.hpp:101-104: construction from a string (`none`: the constructor threw). -/
def Path.ofString (value : Str) : Option Path :=
  match Path.default.set value with
  | (p, none) => some p
  | (_, some _) => none

end Verif.Path
