import Verif.Signal.Model
/-
What the events of a history say, without reference to lists, pointers or counters.
Histories are newest first.
-/
namespace Verif.Signal.Spec
open Verif.Signal

/-- The slots ever connected to a signal, in calling order: a slot connected at the back comes
after, one connected at the front before all the others.  Moving and swapping signals carries
the slots along. -/
def order : List Ev → Nat → List Nat
  | [], _ => []
  | .connect s g .back :: l, x => if x = g then order l x ++ [s] else order l x
  | .connect s g .front :: l, x => if x = g then s :: order l x else order l x
  | .move g n :: l, x => if x = n then order l g else if x = g then [] else order l x
  | .swap a b :: l, x => if x = a then order l b else if x = b then order l a else order l x
  | _ :: l, x => order l x

/-- The signal a slot is connected to. -/
def conn : List Ev → Nat → Option Nat
  | [], _ => none
  | .connect s g _ :: l, x => if x = s then some g else conn l x
  | .disc s :: l, x => if x = s then none else conn l x
  | .move g n :: l, x => (conn l x).map fun y => if y = g then n else y
  | .swap a b :: l, x => (conn l x).map fun y => if y = a then b else if y = b then a else y
  | _ :: l, x => conn l x

/-- The number of blockers of a slot. -/
def blockers : List Ev → Nat → Nat
  | [], _ => 0
  | .blk s :: l, x => if x = s then blockers l x + 1 else blockers l x
  | .unblk s :: l, x => if x = s then blockers l x - 1 else blockers l x
  | _ :: l, x => blockers l x

/-- The slots that an emission has dealt with, oldest first. -/
def proc : List Ev → Nat → List Nat
  | [], _ => []
  | .call e s :: l, x => if x = e then proc l x ++ [s] else proc l x
  | .skipBlocked e s :: l, x => if x = e then proc l x ++ [s] else proc l x
  | .skipInvalid e s :: l, x => if x = e then proc l x ++ [s] else proc l x
  | _ :: l, x => proc l x

/-- The slots that an emission has called, oldest first. -/
def calls : List Ev → Nat → List Nat
  | [], _ => []
  | .call e s :: l, x => if x = e then calls l x ++ [s] else calls l x
  | _ :: l, x => calls l x

/-- The history when an emission began. -/
def before : List Ev → Nat → List Ev
  | [], _ => []
  | .begin e _ :: l, x => if x = e then l else before l x
  | _ :: l, x => before l x

/-- The signal of an emission. -/
def sigOf : List Ev → Nat → Nat
  | [], _ => 0
  | .begin e g :: l, x => if x = e then g else sigOf l x
  | _ :: l, x => sigOf l x

/-- The emission of an event. -/
def evEm : Ev → Option Nat
  | .begin e _ => some e
  | .call e _ => some e
  | .pass e _ => some e
  | .skipBlocked e _ => some e
  | .skipInvalid e _ => some e
  | .stop e => some e
  | .throw e => some e
  | .end_ e _ => some e
  | _ => none

/-- The slot of an event. -/
def evSlot : Ev → Option Nat
  | .connect s _ _ => some s
  | .disc s => some s
  | .call _ s => some s
  | .pass _ s => some s
  | .skipBlocked _ s => some s
  | .skipInvalid _ s => some s
  | .blk s => some s
  | .unblk s => some s
  | _ => none

/-- Neither stopped, nor left by an exception, nor over. -/
def Going (l : List Ev) (e : Nat) : Prop :=
  Ev.stop e ∉ l ∧ Ev.throw e ∉ l ∧ ∀ b, Ev.end_ e b ∉ l

/-- The latest event of an emission. -/
def latest : List Ev → Nat → Option Ev
  | [], _ => none
  | ev :: l, e => if evEm ev = some e then some ev else latest l e

end Verif.Signal.Spec
