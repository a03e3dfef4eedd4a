import Verif.Path.Model
/-
`path::set` of `src/path.cpp` when memory may run out. `value_` (`std::string`) and `segments_` (`small_vector<path_segment, 15>`) have a
capacity: what fits into it is stored without asking for memory; otherwise the allocator, any automaton `σ → Bool × σ`, is asked once. If it
refuses, `std::bad_alloc` leaves the container as it was and passes through `set`. If it grants, the new capacity is what is needed or more,
as the library likes. Clearing, erasing and popping keep the capacity.
-/
namespace Verif.Path

/-- What memory is asked for: the text (path.cpp:15, 78, 86, 102) or the array of segments (path.cpp:106). -/
inductive Ask where
  | text
  | segments
  deriving DecidableEq, Repr

/-- The allocator and the growth of the containers: `more old need` is what they would like to have. (path.hpp:135-136) -/
structure Heap (σ : Type) where
  next : σ → Bool × σ
  more : Nat → Nat → Nat

/-- A path with the capacities of its two containers (path.hpp:135-136), the state of the allocator, and what it has been asked for. -/
structure Store (σ : Type) where
  path : Path
  textRoom : Nat
  segRoom : Nat
  heap : σ
  asked : List Ask
  deriving DecidableEq, Repr

/-- How a call of `set` ends (path.cpp:8-46). -/
inductive SetEnd where
  | done
  | parse (e : ParseError)
  | noMemory
  deriving DecidableEq, Repr

/-- Room for `need` characters: path.cpp:15 `reserve`, and the growth in `operator+=` of path.cpp:78, 86, 102. -/
def Store.needText {σ} (H : Heap σ) (m : Store σ) (need : Nat) : Store σ × Bool :=
  if need ≤ m.textRoom then (m, true)
  else
    let a := H.next m.heap
    if a.1 then
      ({ m with textRoom := max need (H.more m.textRoom need), heap := a.2, asked := m.asked ++ [.text] }, true)
    else ({ m with heap := a.2, asked := m.asked ++ [.text] }, false)

/-- Room for `need` segments: the growth in `push_back` of path.cpp:106. -/
def Store.needSegs {σ} (H : Heap σ) (m : Store σ) (need : Nat) : Store σ × Bool :=
  if need ≤ m.segRoom then (m, true)
  else
    let a := H.next m.heap
    if a.1 then
      ({ m with segRoom := max need (H.more m.segRoom need), heap := a.2, asked := m.asked ++ [.segments] }, true)
    else ({ m with heap := a.2, asked := m.asked ++ [.segments] }, false)

/-- path.cpp:78, 86, 102 `value_ += c`. -/
def Store.append {σ} (H : Heap σ) (m : Store σ) (c : Byte) : Store σ × Bool :=
  match m.needText H (m.path.value.length + 1) with
  | (m, false) => (m, false)
  | (m, true) => ({ m with path := ⟨m.path.value ++ [c], m.path.segments⟩ }, true)

/-- path.cpp:48-52 `clear`. -/
def Store.clear {σ} (m : Store σ) : Store σ := { m with path := m.path.clear }

/-- path.cpp:65-73 `pop_segment`. -/
def Store.pop {σ} (m : Store σ) : Store σ := { m with path := m.path.pop }

/-- path.cpp:82-104: the decoding loop. -/
def Store.decode {σ} (H : Heap σ) (m : Store σ) : Str → Store σ × SetEnd
  | [] => (m, .done)
  | c :: rest =>
    if c ≠ percent then
      match m.append H c with
      | (m, false) => (m, .noMemory)
      | (m, true) => m.decode H rest
    else match rest with
      | h :: l :: rest' =>
        if fromXDigit h < 0 ∨ fromXDigit l < 0 then (m, .parse .invalidPercent)
        else
          let ch : Byte := BitVec.ofNat 8 ((fromXDigit h).toNat * 16 + (fromXDigit l).toNat)
          if ch = slash then (m, .parse .containsSlash)
          else match m.append H ch with
            | (m, false) => (m, .noMemory)
            | (m, true) => m.decode H rest'
      | _ => (m, .parse .invalidPercent)

/-- path.cpp:77-78: the separator. -/
def Store.separate {σ} (H : Heap σ) (m : Store σ) : Store σ × Bool :=
  if !m.path.value.isEmpty then m.append H slash else (m, true)

/-- path.cpp:106 `segments_.push_back`. -/
def Store.pushBack {σ} (H : Heap σ) (m : Store σ) (offset : Nat) : Store σ × SetEnd :=
  match m.needSegs H (m.path.segments.length + 1) with
  | (m, false) => (m, .noMemory)
  | (m, true) =>
    ({ m with path := ⟨m.path.value, m.path.segments ++ [⟨offset, m.path.value.length - offset⟩]⟩ }, .done)

/-- path.cpp:75-107 `push_decoded_segment`. -/
def Store.push {σ} (H : Heap σ) (m : Store σ) (segment : Str) : Store σ × SetEnd :=
  match m.separate H with
  | (m, false) => (m, .noMemory)
  | (m, true) =>
    let offset := m.path.value.length
    match m.decode H segment with
    | (m, .done) => m.pushBack H offset
    | (m, e) => (m, e)

/-- path.cpp:25-39: one raw segment. -/
def Store.step {σ} (H : Heap σ) (m : Store σ) (segment : Str) : Store σ × SetEnd :=
  if segment ≠ [] then
    if segment = [dot] then (m, .done)
    else if segment = [dot, dot] then (m.pop, .done)
    else m.push H segment
  else (m, .done)

/-- path.cpp:19-45: the loop of `set`. -/
def Store.loop {σ} (H : Heap σ) (m : Store σ) (value : Str) : Store σ × SetEnd :=
  let segment := value.takeWhile (· != slash)
  match m.step H segment with
  | (m', .done) =>
    match _h : value.dropWhile (· != slash) with
    | [] => (m', .done)
    | _ :: rest => m'.loop H rest
  | (m', e) => (m', e)
termination_by value.length
decreasing_by
  have h1 : (value.dropWhile (· != slash)).length ≤ value.length := by
    have := List.dropWhile_suffix (l := value) (· != slash)
    exact this.length_le
  have h2 := congrArg List.length _h
  simp only [List.length_cons] at h2
  omega

/-- path.cpp:8-46 `set`. -/
def Store.set {σ} (H : Heap σ) (m : Store σ) (value : Str) : Store σ × SetEnd :=
  let m := m.clear
  if value.isEmpty || value == [slash] then (m, .done)
  else
    match m.needText H value.length with
    | (m, false) => (m, .noMemory)
    | (m, true) =>
      let value := match value with
        | [] => []
        | c :: rest => if c = slash then rest else c :: rest
      m.loop H value

/-- path.hpp:100, 135-136: a new path; both containers hold fifteen elements inside the object (`std::string` of libstdc++: fifteen
characters). -/
def Store.new {σ} (s : σ) : Store σ := ⟨Path.default, 15, 15, s, []⟩

/-- Calls of `set`, one after the other; exceptions are caught. (path.hpp:106) -/
def Store.run {σ} (H : Heap σ) (m : Store σ) : List Str → Store σ × List SetEnd
  | [] => (m, [])
  | v :: vs =>
    let a := m.set H v
    let b := a.1.run H vs
    (b.1, a.2 :: b.2)

end Verif.Path
