import Verif.BinaryRW.Mem
/-
C137: what the bytes of a cursor are, and which regions have nothing to do with each other.
-/
namespace Verif.BinaryRW

/-- The cursor of `Model.lean` that a cursor into memory is. -/
def PCur.abs (m : Mem) (c : PCur) : Option Cursor := (m.bytes c.data c.len).map fun b => ⟨b, c.pos, c.err⟩

/-- Two regions have no byte in common. -/
def Apart (p : Ptr) (n : Nat) (q : Ptr) (k : Nat) : Prop :=
  match p, q with
  | .some a, .some b => a.1 ≠ b.1 ∨ a.2 + n ≤ b.2 ∨ b.2 + k ≤ a.2
  | _, _ => True

/-- The two memories are equal outside of a region. -/
def Same (m m' : Mem) (p : Ptr) (n : Nat) : Prop := ∀ q k, Apart p n q k → m'.bytes q k = m.bytes q k

/-- A cursor as the constructors and functions leave it (C06). -/
def PCur.Inside (c : PCur) : Prop := c.pos ≤ c.len ∧ c.len < 2 ^ 63

/-- Where a cursor stands. -/
def PCur.at (c : PCur) : Ptr := c.data.map fun d => (d.1, d.2 + c.pos)

/-- A vector has no block, or a block of its own, with room for its elements. -/
def Vec.Own (m : Mem) (v : Vec) : Prop :=
  v.size ≤ v.cap ∧ match v.data with
    | .none => v.cap = 0
    | .some d => d.2 = 0 ∧ ∃ l, m.blocks d.1 = .some l ∧ l.length = v.cap

end Verif.BinaryRW
