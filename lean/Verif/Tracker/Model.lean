import Verif.Path.Model
/-
Model of `modification_tracker` in `include/kl/resource.hpp` (lines 16-123).

`generation` (a 64-bit counter) is an unbounded `Nat`: it moves by one per call, so it
cannot wrap in any feasible run.  `std::map<std::string, generation>` is an association
list; its order is not observable through this class.  `none` means that a view was read
out of bounds.
-/
namespace Verif.Tracker
open Verif.Path

/-- resource.hpp:118 `std::map<std::string, generation>`. -/
abbrev GenMap := List (Str × Nat)

/-- resource.hpp:120-122 data members. -/
structure Tracker where
  current : Nat := 1
  node : GenMap := []
  subtree : GenMap := []

/-- resource.hpp:100-105 `lookup`. -/
def lookup (m : GenMap) (key : Str) : Nat :=
  match m.find? (·.1 == key) with
  | some e => e.2
  | none => 0

/-- resource.hpp:86-98 `assign`: overwrite the entry found, or insert a new one. -/
def assign (m : GenMap) (key : Str) (v : Nat) : GenMap :=
  match m.find? (·.1 == key) with
  | some _ => m.map fun e => if e.1 == key then (e.1, v) else e
  | none => m ++ [(key, v)]

/-- resource.hpp:34-35: the loop over all prefixes of the notified path. -/
def markPrefixes (m : GenMap) (w : View) (gen : Nat) : List Nat → Option GenMap
  | [] => some m
  | i :: is =>
    match w.prefix i with
    | none => none
    | some key => markPrefixes (assign m key gen) w gen is

/-- resource.hpp:28-43 `notify_changed`; returns the generation it handed out. -/
def Tracker.notify (t : Tracker) (w : View) (subtree : Bool) : Option (Tracker × Nat) :=
  let gen := t.current + 1
  match markPrefixes t.node w gen (List.range (w.size + 1)) with
  | none => none
  | some node =>
    if subtree then
      match w.prefix w.size with
      | none => none
      | some key => some (⟨gen, node, assign t.subtree key gen⟩, gen)
    else some (⟨gen, node, t.subtree⟩, gen)

/-- resource.hpp:55-70: loop body of `changed_at`. -/
def Tracker.changedAtLoop (t : Tracker) (w : View) (result : Nat) : List Nat → Option Nat
  | [] => some result
  | i :: is =>
    match w.prefix i with
    | none => none
    | some key =>
      let result :=
        if i = w.size then
          let node := lookup t.node key
          if node > result then node else result
        else result
      let sub := lookup t.subtree key
      let result := if sub > result then sub else result
      changedAtLoop t w result is

/-- resource.hpp:50-73 `changed_at`. -/
def Tracker.changedAt (t : Tracker) (w : View) : Option Nat :=
  t.changedAtLoop w 0 (List.range (w.size + 1))

/-- resource.hpp:80-83 `changed_since`. -/
def Tracker.changedSince (t : Tracker) (w : View) (old : Nat) : Option Bool :=
  (t.changedAt w).map (· > old)

/-- A history of notifications applied to a fresh tracker. (resource.hpp:16-82) -/
def runFrom (t : Tracker) : List (View × Bool) → Option Tracker
  | [] => some t
  | (w, s) :: rest =>
    match t.notify w s with
    | none => none
    | some (t', _) => runFrom t' rest

end Verif.Tracker
