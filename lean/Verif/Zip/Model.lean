/-
Model of `zip.hpp` and `tuple.hpp`.  A tuple of iterators is a list of iterators.  `none` is
undefined behaviour: reading or advancing past the end of a container range.
-/
namespace Verif.Zip

/-- What an iterator refers to: an element of a container, or a number of an iota range. (zip.hpp:107-140, 160-197) -/
inductive Elem (α : Type)
  | val (a : α)
  | num (n : Nat)

/-- The kinds of ranges that are zipped: a container, `iota_range` and
`unbounded_iota_range` (zip.hpp:160-197) over a 64-bit unsigned type. -/
inductive Seq (α : Type)
  | list (xs : List α)
  | iota (b e : Nat)
  | unbounded (b : Nat)

variable {α : Type}

/-- An iterator: a position in a container, or the current value of an `iota_iterator`
(zip.hpp:107-140). -/
structure It (α : Type) where
  seq : Seq α
  pos : Nat

/-- A sentinel: an end position or value, or `unbounded_sentinel` (zip.hpp:105). -/
inductive Sent
  | at_ (pos : Nat)
  | never

/-- `std::begin`: containers, and zip.hpp:166-169, 189-192. -/
def Seq.begin_ (s : Seq α) : It α :=
  match s with
  | .list _ => ⟨s, 0⟩
  | .iota b _ => ⟨s, b⟩
  | .unbounded b => ⟨s, b⟩

/-- `std::end`: containers, and zip.hpp:170-173, 193. -/
def Seq.end_ (s : Seq α) : Sent :=
  match s with
  | .list xs => .at_ xs.length
  | .iota _ e => .at_ e
  | .unbounded _ => .never

/-- `*it`: a container element must exist; zip.hpp:120 for iota. -/
def It.deref (i : It α) : Option (Elem α) :=
  match i.seq with
  | .list xs => (xs[i.pos]?).map .val
  | _ => some (.num i.pos)

/-- `++it`: not past the end of a container; zip.hpp:122-126 for iota, wrapping. -/
def It.inc (i : It α) : Option (It α) :=
  match i.seq with
  | .list xs => if i.pos < xs.length then some ⟨i.seq, i.pos + 1⟩ else none
  | _ => some ⟨i.seq, (i.pos + 1) % 2 ^ 64⟩

/-- `it != sentinel`; zip.hpp:128-136 for iota. -/
def It.ne (i : It α) (e : Sent) : Bool :=
  match e with
  | .at_ p => i.pos != p
  | .never => true

/-- tuple.hpp:20-36 `for_each_fn` with a function that advances one iterator
(zip.hpp:89-93). -/
def incAll : List (It α) → Option (List (It α))
  | [] => some []
  | i :: is => do
    let i' ← i.inc
    let is' ← incAll is
    pure (i' :: is')

/-- tuple.hpp:41-58 `transform_ref_fn` (zip.hpp:87). -/
def derefAll : List (It α) → Option (List (Elem α))
  | [] => some []
  | i :: is => do
    let v ← i.deref
    let vs ← derefAll is
    pure (v :: vs)

/-- tuple.hpp:62-83 `not_equal_fn` (zip.hpp:95-99): all components differ. -/
def neAll : List (It α) → List Sent → Bool
  | i :: is, e :: es => i.ne e && neAll is es
  | _, _ => true

/-- zip.hpp:143-158 `zipped_range`: the pair of iterator tuple and sentinel tuple. -/
def zipped (seqs : List (Seq α)) : List (It α) × List Sent :=
  (seqs.map Seq.begin_, seqs.map Seq.end_)

/-- zip.hpp:221-229 `enumerated`. -/
def enumerated (s : Seq α) : List (It α) × List Sent := zipped [.unbounded 0, s]

/-- A range-based for loop: `Visits es is l`: from the iterators `is` to the sentinels `es`
the loop sees the tuples `l` and ends, without undefined behaviour. (over zip.hpp:87-99) -/
inductive Visits (es : List Sent) : List (It α) → List (List (Elem α)) → Prop
  | done {is} : neAll is es = false → Visits es is []
  | step {is v is' l} : neAll is es = true → derefAll is = some v → incAll is = some is' →
      Visits es is' l → Visits es is (v :: l)

end Verif.Zip
