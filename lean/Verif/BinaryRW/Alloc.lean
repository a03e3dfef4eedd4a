import Verif.BinaryRW.Model
/-
The reader of `include/kl/binary_rw.hpp` with the memory it asks for. `Model.lean` assumes that memory is always there; here
every request goes to an allocator, which is any automaton: it grants a request of so many bytes and changes its state, or it
fails, and then `std::bad_alloc` (or `std::length_error`) leaves the reading function.

Simplified: requests are made even if the destination has enough capacity already (the allocator may grant them without doing
anything); copies of constant keys inside of `std::map::insert` ask for nothing.
-/
namespace Verif.BinaryRW

/-- An allocator, and what elements take: `sizeof(T)` in a vector (vector.hpp:42, 60), the node of a set (set.hpp:26) and the node
of a map (map.hpp:29). -/
structure Memory (σ : Type) where
  alloc : σ → Nat → Option σ
  size : Ty → Nat
  setNode : Ty → Nat
  mapNode : Ty → Ty → Nat

/-- Outcomes: undefined behaviour; an exception, with what the destination holds then; the end of the function.
(binary_rw.hpp:110-117) -/
inductive Out (σ α : Type) where
  | ub
  | threw (v : α) (c : Cursor) (s : σ)
  | ok (v : α) (c : Cursor) (s : σ)

/-- The loops of vector.hpp:62-70, set.hpp:24-32 and map.hpp:27-35. The element is read, then inserted, for which `put` asks for
memory; only then the error is looked at. -/
def loopA {σ α : Type} (rd : Cursor → σ → Out σ α) (put : σ → Option σ) (ins : List α → α → List α) :
    Nat → List α → Cursor → σ → Out σ (List α)
  | 0, acc, c, s => .ok acc c s
  | n + 1, acc, c, s =>
    match rd c s with
    | .ub => .ub
    | .threw _ c' s' => .threw acc c' s'
    | .ok v c' s' =>
      match put s' with
      | .none => .threw acc c' s'
      | .some s'' => if c'.err then .ok [] c' s'' else loopA rd put ins n (ins acc v) c' s''

/-- map.hpp:29: the two reads, in order; `d` stands for what is lost when one throws. -/
def pairA {σ α β : Type} (d : α × β) (ra : Cursor → σ → Out σ α) (rb : Cursor → σ → Out σ β) (c : Cursor) (s : σ) :
    Out σ (α × β) :=
  match ra c s with
  | .ub => .ub
  | .threw _ c1 s1 => .threw d c1 s1
  | .ok a c1 s1 =>
    match rb c1 s1 with
    | .ub => .ub
    | .threw _ c2 s2 => .threw d c2 s2
    | .ok b c2 s2 => .ok (a, b) c2 s2

mutual
/-- `read_binary(r, value)` for every type. (binary_rw.hpp:173-185; binary_rw/string.hpp:19, vector.hpp:87, map.hpp:22,
set.hpp:19, optional.hpp:18, pair.hpp:17, variant.hpp:43) -/
def readA {σ : Type} (M : Memory σ) : Ty → Val → Cursor → σ → Out σ Val
  -- binary_rw.hpp:174-178 and endian.hpp:18-25
  | .scalar n, .scalar old, c, s =>
    match c.readImpl n with
    | .none => .ub
    | .some (.none, c') => .ok (.scalar old) c' s
    | .some (.some b, c') => .ok (.scalar b) c' s
  -- string.hpp:19-32; `resize` and the terminating null
  | .str, .str _, c, s =>
    match c.readUInt 4 with
    | .none => .ub
    | .some (size, c1) =>
      if size = 0 then .ok (.str []) c1 s
      else match M.alloc s (size + 1) with
        | .none => .threw (.str []) c1 s
        | .some s1 =>
          match c1.readImpl size with
          | .none => .ub
          | .some (b, c2) => .ok (.str (if c2.err then [] else b.getD (List.replicate size 0))) c2 s1
  | .vec t, .vec _, c, s =>
    match c.readUInt 4 with
    | .none => .ub
    | .some (size, c1) =>
      -- vector.hpp:42 `resize` (only if there is something), 60 `reserve`
      match (if size = 0 then .some s else M.alloc s (size * M.size t)) with
      | .none => .threw (.vec []) c1 s
      | .some s1 =>
        match t with
        -- vector.hpp:32-51
        | .scalar n =>
          if size = 0 then .ok (.vec []) c1 s1
          else match c1.readImpl (size * n) with
            | .none => .ub
            | .some (b, c2) =>
              .ok (.vec (if c2.err then [] else chunks n size (b.getD (List.replicate (size * n) 0)))) c2 s1
        -- vector.hpp:53-71
        | t =>
          match loopA (fun c s => if c.err then .ok (default t) c s else readA M t (default t) c s) .some
              (fun acc v => acc ++ [v]) size [] c1 s1 with
          | .ub => .ub
          | .threw l c2 s2 => .threw (.vec l) c2 s2
          | .ok l c2 s2 => .ok (.vec l) c2 s2
  -- map.hpp:21-36
  | .map lt k v, .map _, c, s =>
    match c.readUInt 4 with
    | .none => .ub
    | .some (size, c1) =>
      match loopA (pairA (default k, default v)
          (fun c s => if c.err then .ok (default k) c s else readA M k (default k) c s)
          (fun c s => if c.err then .ok (default v) c s else readA M v (default v) c s))
          (fun s => M.alloc s (M.mapNode k v)) (insertSorted (fun a b => lt a.1 b.1)) size [] c1 s with
      | .ub => .ub
      | .threw l c2 s2 => .threw (.map l) c2 s2
      | .ok l c2 s2 => .ok (.map l) c2 s2
  -- set.hpp:18-33
  | .set lt t, .set _, c, s =>
    match c.readUInt 4 with
    | .none => .ub
    | .some (size, c1) =>
      match loopA (fun c s => if c.err then .ok (default t) c s else readA M t (default t) c s)
          (fun s => M.alloc s (M.setNode t)) (insertSorted lt) size [] c1 s with
      | .ub => .ub
      | .threw l c2 s2 => .threw (.set l) c2 s2
      | .ok l c2 s2 => .ok (.set l) c2 s2
  -- optional.hpp:17-25
  | .opt t, old, c, s =>
    match c.readUInt 1 with
    | .none => .ub
    | .some (flag, c1) =>
      if !c1.err && flag != 0 then
        match (if c1.err then .ok (default t) c1 s else readA M t (default t) c1 s) with
        | .ub => .ub
        | .threw _ c2 s2 => .threw old c2 s2
        | .ok v c2 s2 => .ok (.some v) c2 s2
      else .ok .none c1 s
  -- pair.hpp:16-25
  | .pair a b, .pair x y, c, s =>
    if !c.err then
      match readA M a x c s with
      | .ub => .ub
      | .threw x' c1 s1 => .threw (.pair x' y) c1 s1
      | .ok x' c1 s1 =>
        if !c1.err then
          match readA M b y c1 s1 with
          | .ub => .ub
          | .threw y' c2 s2 => .threw (.pair x' y') c2 s2
          | .ok y' c2 s2 => .ok (.pair x' y') c2 s2
        else .ok (.pair x' y) c1 s1
    else .ok (.pair x y) c s
  -- variant.hpp:42-50
  | .variant ts, old, c, s =>
    match c.readUInt 1 with
    | .none => .ub
    | .some (index, c1) =>
      if !c1.err then readAltA M ts old 0 index c1 s else .ok old c1 s
  | _, _, _, _ => .ub
/-- variant.hpp:11-32 `visit_by_index`. -/
def readAltA {σ : Type} (M : Memory σ) : List Ty → Val → Nat → Nat → Cursor → σ → Out σ Val
  | [], old, _, _, c, s => .ok old c.notifyError s
  | t :: ts, old, base, index, c, s =>
    if index = 0 then
      match (if c.err then .ok (default t) c s else readA M t (default t) c s) with
      | .ub => .ub
      | .threw _ c' s' => .threw old c' s'
      | .ok v c' s' => if !c'.err then .ok (.var base v) c' s' else .ok old c' s'
    else readAltA M ts old (base + 1) (index - 1) c s
end

end Verif.BinaryRW
