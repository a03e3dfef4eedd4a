import Verif.Path.Alloc
import Verif.Path.Props
/-
What to expect of `path::set` when memory may run out (C140), in terms of the segments of the text.
-/
namespace Verif.Path.Spec

/-- Walking through the parts of the text from the root, one is at `loc` at some time. -/
def Passes (v : List (BitVec 8)) (loc : List Seg) : Prop := ∃ before after, split v = before ++ after ∧ Walk [] before loc

/-- Walking through the parts of the text, one is at `loc` and `seg` is the next name to be entered. -/
def Enters (v : List (BitVec 8)) (loc : List Seg) (seg : Seg) : Prop :=
  ∃ before raw after, split v = before ++ raw :: after ∧ Walk [] before loc ∧ ¬ isDot raw ∧ ¬ isDotDot raw ∧ Decodes raw seg

/-- Texts for which nothing is stored. -/
def Blank (v : List (BitVec 8)) : Prop := v = [] ∨ v = [0x2F#8]

instance (v : List (BitVec 8)) : Decidable (Blank v) := by unfold Blank; infer_instance

/-- The containers are large enough for `v`. -/
def Enough (textRoom segRoom : Nat) (v : List (BitVec 8)) : Prop :=
  Blank v ∨ (v.length ≤ textRoom ∧ ∀ loc, Passes v loc → loc.length ≤ segRoom)

/-- The path can be read: it shows the segments of `loc`, one by one and as prefixes. -/
structure Readable (p : Path) (loc : List Seg) : Prop where
  valid : Valid loc
  size : p.size = loc.length
  at' : ∀ i, p.at i = loc[i]?
  pre : ∀ k, p.view.prefix k = if k > loc.length then none else some (join (loc.take k))

end Verif.Path.Spec
