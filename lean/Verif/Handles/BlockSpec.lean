import Verif.Handles.Block
import Verif.Handles.Spec
/-
C136: blockers. What is in an object is said by C134's `Post`, for the function of a connection that does the same to `slot_`; how often
a slot is blocked is the number of blockers that have it.
-/
namespace Verif.Handles

/-- What a function of a blocker does to `slot_` and to references. -/
def asConn : BOp → Op
  | .conn op => op
  | .blank => .new false
  | .ofConn o => .copy o
  | .copy o => .copy o
  | .move o => .move o false
  | .assign o p => .assign o p
  | .swap o p => .swap o p
  | .destroy o => .destroy o

/-- Functions of blockers take blockers, and the rule of C134. -/
def BAllowed (W : BWorld) (op : BOp) : Prop :=
  Allowed W.base (asConn op) ∧ match op with
    | .conn op => plain W op = true
    | .blank => True
    | .ofConn o => W.isB o = false
    | .copy o | .move o | .destroy o => W.isB o = true
    | .assign o p | .swap o p => W.isB o = true ∧ W.isB p = true

/-- The blockers of a slot. -/
def blockers (W : BWorld) (a : Addr) : List Obj :=
  (List.range W.base.objs.length).filter fun q => W.isB q && match W.base.obj? q with
    | some c => c.slot == some a
    | none => false

/-- No slot has 2^32 blockers. -/
def Few (W : BWorld) : Prop := ∀ a, (blockers W a).length < 2 ^ 32

/-- The objects that a function makes are blockers iff it is a constructor of blockers. -/
def makesB : BOp → Bool
  | .blank | .ofConn _ | .copy _ | .move _ => true
  | _ => false

/-- States that are reached when all keep to the rule. -/
inductive BReach : BWorld → Prop where
  | init : BReach .empty
  | step {W W' : BWorld} {op : BOp} : BReach W → BAllowed W op → BDoes W op (some W') → BReach W'

end Verif.Handles
