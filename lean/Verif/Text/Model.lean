/-
Model of `split.hpp` and `stream_join.hpp`.  A character range is a list; a pair of
iterators `first, last` is the list between them.
-/
namespace Verif.Text

variable {α : Type} [DecidableEq α]

/-- `std::find_first_of(first, last, s_first, s_last)`: the part before the position found and
the part from it on. (split.hpp:18) -/
def findFirstOf (s delims : List α) : List α × List α :=
  (s.takeWhile fun c => !delims.contains c, s.dropWhile fun c => !delims.contains c)

/-- split.hpp:11-24 `for_each_token`: the list of ranges `binary_op` is called with. -/
def tokens (delims : List α) (s : List α) : List (List α) :=
  match h : s with
  | [] => []
  | _ :: _ =>
    let r := findFirstOf s delims
    match hr : r.2 with
    | [] => [r.1]
    | _ :: next => r.1 :: tokens delims next
termination_by s.length
decreasing_by
  have h1 : s = r.1 ++ r.2 := by
    simp only [r, findFirstOf]
    exact (List.takeWhile_append_dropWhile).symm
  rw [hr] at h1
  have := congrArg List.length h1
  subst h
  simp at this ⊢
  omega

/-- split.hpp:26-40 `split`. -/
def split (s delims : List α) (skipEmpty : Bool := true) : List (List α) :=
  (tokens delims s).filter fun t => !t.isEmpty || !skipEmpty

/-- `split` with string literals: `cbegin`/`cend` of a `const char[N]` include the
terminating NUL (split.hpp:29-34). -/
def splitLit (nul : α) (s delims : List α) (skipEmpty : Bool := true) : List (List α) :=
  split (s ++ [nul]) (delims ++ [nul]) skipEmpty

/-! ### stream_join.hpp -/

/-- stream_join.hpp:34-36: the loop after the first element. -/
def joinRest {β : Type} (delim : β) : List β → List β
  | [] => []
  | x :: xs => delim :: x :: joinRest delim xs

/-- stream_join.hpp:25-44 `operator<<(os, stream_joiner)`: the items written to the stream. -/
def streamJoin {β : Type} (delim empty : β) (xs : List β) : List β :=
  match xs with
  | x :: rest => x :: joinRest delim rest
  | [] => [empty]

/-- stream_join.hpp:46-49 the settings, changed by `set_delimiter`, `set_empty_string` (12-23). -/
structure Joiner (β : Type) where
  xs : List β
  delim : β
  empty : β

/-- stream_join.hpp:13-17 `set_delimiter`. -/
def Joiner.setDelimiter {β : Type} (j : Joiner β) (d : β) : Joiner β := { j with delim := d }
/-- stream_join.hpp:19-23 `set_empty_string`. -/
def Joiner.setEmptyString {β : Type} (j : Joiner β) (e : β) : Joiner β := { j with empty := e }
/-- stream_join.hpp:25-44 `operator<<`. -/
def Joiner.print {β : Type} (j : Joiner β) : List β := streamJoin j.delim j.empty j.xs

/-- stream_join.hpp:102-105 the state of an `outstream_joiner`, with what it wrote. -/
structure OutJoiner (β : Type) where
  out : List β
  delimiter : β
  first : Bool

/-- stream_join.hpp:71-74 construction on a stream that already holds `out`. -/
def OutJoiner.mk' {β : Type} (out : List β) (d : β) : OutJoiner β := ⟨out, d, true⟩

/-- stream_join.hpp:92-100 assignment of a value. -/
def OutJoiner.assign {β : Type} (j : OutJoiner β) (v : β) : OutJoiner β :=
  let j := if !j.first then { j with out := j.out ++ [j.delimiter] } else j
  let j := { j with first := false }
  { j with out := j.out ++ [v] }

end Verif.Text
