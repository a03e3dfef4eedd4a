import Verif.Tracker.Model
/-
`modification_tracker` of `include/kl/resource.hpp` when memory may run out. The allocator is any automaton `σ → Bool × σ`, asked once per
entry that is inserted (a node of `std::map`, and the string in it if it is long: if either cannot be had, `emplace` throws and the map is
as before). Looking up and overwriting asks for nothing: the keys are compared as `std::string_view`.
-/
namespace Verif.Tracker
open Verif.Path

/-- resource.hpp:86-98 `assign`; `false`: `std::bad_alloc`. -/
def assignA {σ} (M : σ → Bool × σ) (m : GenMap) (key : Str) (v : Nat) (s : σ) : GenMap × Bool × σ :=
  match m.find? (·.1 == key) with
  | some _ => (m.map fun e => if e.1 == key then (e.1, v) else e, true, s)
  | none =>
    let a := M s
    if a.1 then (m ++ [(key, v)], true, a.2) else (m, false, a.2)

/-- resource.hpp:34-35: the loop over all prefixes; the map as it is when the exception leaves. `none`: outside of the view. -/
def markPrefixesA {σ} (M : σ → Bool × σ) (m : GenMap) (w : View) (gen : Nat) (s : σ) : List Nat → Option (GenMap × Bool × σ)
  | [] => some (m, true, s)
  | i :: is =>
    match w.prefix i with
    | none => none
    | some key =>
      match assignA M m key gen s with
      | (m', true, s') => markPrefixesA M m' w gen s' is
      | (m', false, s') => some (m', false, s')

/-- resource.hpp:28-43 `notify_changed`: the tracker afterwards, whether it returned (and not threw), the allocator. -/
def Tracker.notifyA {σ} (M : σ → Bool × σ) (t : Tracker) (w : View) (subtree : Bool) (s : σ) : Option (Tracker × Bool × σ) :=
  let gen := t.current + 1
  match markPrefixesA M t.node w gen s (List.range (w.size + 1)) with
  | none => none
  | some (node, false, s') => some (⟨gen, node, t.subtree⟩, false, s')
  | some (node, true, s') =>
    if subtree then
      match w.prefix w.size with
      | none => none
      | some key =>
        let a := assignA M t.subtree key gen s'
        some (⟨gen, node, a.1⟩, a.2.1, a.2.2)
    else some (⟨gen, node, t.subtree⟩, true, s')

/-- Calls of `notify_changed`, one after the other; the exceptions are caught. (resource.hpp:23-43) -/
def runA {σ} (M : σ → Bool × σ) (t : Tracker) (s : σ) : List (View × Bool) → Option (Tracker × List Bool × σ)
  | [] => some (t, [], s)
  | (w, b) :: rest =>
    match t.notifyA M w b s with
    | none => none
    | some (t', ok, s') =>
      match runA M t' s' rest with
      | none => none
      | some (t'', oks, s'') => some (t'', ok :: oks, s'')

end Verif.Tracker
