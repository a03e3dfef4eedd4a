import Verif.Text.Objects
/-
What to expect of joiners (C142), said in terms of what has happened, newest first: no objects, no members.
-/
namespace Verif.Text.Spec

/-- The elements of a container: as it was made or changed last. -/
def contents (c : Nat) : List Act → Option (List String)
  | [] => none
  | .cont c' o :: past => if c' = c then o else contents c past
  | _ :: past => contents c past

/-- The text in a buffer: likewise. -/
def characters (b : Nat) : List Act → Option String
  | [] => none
  | .buf b' o :: past => if b' = b then o else characters b past
  | _ :: past => characters b past

/-- What a pointer shows at this moment. -/
def shows (p : Ptr) (past : List Act) : Option String :=
  match p with
  | .lit t => some t
  | .buf b => characters b past

/-- Is there such a stream? -/
def open' (s : Nat) : List Act → Bool
  | [] => false
  | .stream s' on :: past => if s' = s then on else open' s past
  | _ :: past => open' s past

/-- Which container a `stream_joiner` is about. -/
def about (j : Nat) : List Act → Option Nat
  | [] => none
  | .join j' c :: past => if j' = j then some c else about j past
  | .copyView d j' :: past => if d = j then about j' past else about j past
  | .endView j' :: past => if j' = j then none else about j past
  | _ :: past => about j past

/-- The delimiter that was chosen for it, or for the one it is a copy of. -/
def between (j : Nat) : List Act → Ptr
  | [] => .lit ", "
  | .join j' _ :: past => if j' = j then .lit ", " else between j past
  | .delim j' p :: past => if j' = j then p else between j past
  | .copyView d j' :: past => if d = j then between j' past else between j past
  | _ :: past => between j past

/-- The text that was chosen for an empty range. -/
def instead (j : Nat) : List Act → Ptr
  | [] => .lit "."
  | .join j' _ :: past => if j' = j then .lit "." else instead j past
  | .empty j' p :: past => if j' = j then p else instead j past
  | .copyView d j' :: past => if d = j then instead j' past else instead j past
  | _ :: past => instead j past

/-- The stream an `outstream_joiner` writes to. -/
def target (i : Nat) : List Act → Option Nat
  | [] => none
  | .iter i' s _ :: past => if i' = i then some s else target i past
  | .copyIter d i' :: past => if d = i then target i' past else target i past
  | .moveIter d i' :: past => if d = i then target i' past else target i past
  | .endIter i' :: past => if i' = i then none else target i past
  | _ :: past => target i past

/-- How many values were written through it, or through those it descends from before it was copied or moved from them. -/
def lineage (i : Nat) : List Act → Nat
  | [] => 0
  | .iter i' _ _ :: past => if i' = i then 0 else lineage i past
  | .copyIter d i' :: past => if d = i then lineage i' past else lineage i past
  | .moveIter d i' :: past => if d = i then lineage i' past else lineage i past
  | .write i' _ :: past => if i' = i then lineage i past + 1 else lineage i past
  | _ :: past => lineage i past

/-- What it puts between values: given at the start; gone (if it was a text of its own) when it was moved to another one. -/
def separator (i : Nat) : List Act → Held
  | [] => .text ""
  | .iter i' _ h :: past => if i' = i then h else separator i past
  | .copyIter d i' :: past => if d = i then separator i' past else separator i past
  | .moveIter d i' :: past =>
    if d = i then separator i' past
    else if i' = i then (match separator i past with | .text _ => .text "" | .ptr p => .ptr p)
    else separator i past
  | _ :: past => separator i past

/-- What the separator is at this moment. -/
def separates (h : Held) (past : List Act) : Option String :=
  match h with
  | .text t => some t
  | .ptr p => shows p past

/-- The text of a stream. -/
def text (s : Nat) : List Act → List String
  | [] => []
  | .stream s' _ :: past => if s' = s then [] else text s past
  | .print s' j :: past =>
    if s' = s then
      let xs := ((about j past).bind fun c => contents c past).getD []
      text s past ++
        (if xs = [] then [(shows (instead j past) past).getD ""] else xs.intersperse ((shows (between j past) past).getD ""))
    else text s past
  | .write i v :: past =>
    if target i past = some s then
      text s past ++ (if 0 < lineage i past then [(separates (separator i past) past).getD "", v] else [v])
    else text s past
  | _ :: past => text s past

/-- Nothing is used that does not exist at this moment: the condition for an action after a past. -/
def Safe (past : List Act) : Act → Prop
  | .cont _ _ => True
  | .buf _ _ => True
  | .stream _ _ => True
  | .join _ c => ∃ xs, contents c past = some xs
  | .delim j _ => ∃ c, about j past = some c
  | .empty j _ => ∃ c, about j past = some c
  | .copyView _ j => ∃ c, about j past = some c
  | .endView j => ∃ c, about j past = some c
  | .print s j => open' s past = true ∧ ∃ c xs, about j past = some c ∧ contents c past = some xs ∧
      (xs = [] → shows (instead j past) past ≠ none) ∧ (2 ≤ xs.length → shows (between j past) past ≠ none)
  | .iter _ s _ => open' s past = true
  | .copyIter _ i => ∃ s, target i past = some s
  | .moveIter d i => d ≠ i ∧ ∃ s, target i past = some s
  | .endIter i => ∃ s, target i past = some s
  | .write i _ => ∃ s, target i past = some s ∧ open' s past = true ∧
      (0 < lineage i past → separates (separator i past) past ≠ none)

/-- All of them are, each after the ones before. -/
def AllSafe (past : List Act) : List Act → Prop
  | [] => True
  | a :: as => Safe past a ∧ AllSafe (a :: past) as

/-- The action neither writes to stream `s` nor takes joiner `b` away. -/
def Elsewhere (s : Nat) (past : List Act) (b : Nat) : Act → Prop
  | .stream s' _ => s' ≠ s
  | .print s' _ => s' ≠ s
  | .iter i _ _ => i ≠ b
  | .copyIter d _ => d ≠ b
  | .moveIter d i => d ≠ b ∧ i ≠ b
  | .endIter i => i ≠ b
  | .write i _ => target i past ≠ some s
  | _ => True

/-- The values `vs` are written to stream `s`, always through the joiner whose turn it is: at first `b`; when it is copied or moved, it may
be the turn of the new one. Anything may happen elsewhere. -/
inductive Relay (s : Nat) : List Act → Nat → List Act → List String → Prop
  | nil {past b} : Relay s past b [] []
  | write {past b v as vs} : Relay s (.write b v :: past) b as vs → Relay s past b (.write b v :: as) (v :: vs)
  | copy {past b d as vs} : Relay s (.copyIter d b :: past) d as vs → Relay s past b (.copyIter d b :: as) vs
  | move {past b d as vs} : Relay s (.moveIter d b :: past) d as vs → Relay s past b (.moveIter d b :: as) vs
  | other {past b a as vs} : Elsewhere s past b a → Relay s (a :: past) b as vs → Relay s past b (a :: as) vs

/-- The separator is `d` from now on. -/
def Steady (h : Held) (d : String) (past as : List Act) : Prop :=
  h = .text d ∨ h = .ptr (.lit d) ∨ ∃ k, h = .ptr (.buf k) ∧ characters k past = some d ∧ ∀ o, Act.buf k o ∉ as

end Verif.Text.Spec
