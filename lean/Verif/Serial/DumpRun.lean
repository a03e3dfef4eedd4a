import Verif.Serial.DumpLemmas
/-
What `dump` has written when it is left by an exception: the calls of the stream backend that were made before it was thrown.
-/
namespace Verif.Serial
open Verif.Path Verif.Enums Spec

variable {σ : Type}

/-- What a function of detail/serialization.hpp:529-567, 614-715 has written, and the exception that ended it. -/
abbrev Output (σ : Type) := List (Ev σ) × Option Exc

/-- One statement after another: what was written stays written; after an exception nothing more is.
(the sequence points of detail/serialization.hpp:623-632) -/
def Output.andThen (a b : Output σ) : Output σ :=
  match a.2 with
  | none => (a.1 ++ b.1, b.2)
  | some e => (a.1, some e)

/-- One call of the writer: `Backend::write_key`, `begin_map` and the others; json.hpp:354-405. -/
def tell (x : Ev σ) : Output σ := ([x], none)

/-- An exception before anything is written. (detail/serialization.hpp:511-525) -/
def raise (e : Exc) : Output σ := ([], some e)

/-- Something that writes nothing and may throw. (detail/serialization.hpp:545, 654) -/
def ifFine {α : Type} (r : Res α) (k : α → Output σ) : Output σ :=
  match r with
  | .error e => raise e
  | .ok a => k a

/-- detail/serialization.hpp:641-642: the loop over the elements. -/
def writeEach {α : Type} (f : α → Output σ) : List α → Output σ
  | [] => ([], none)
  | x :: xs => (f x).andThen (writeEach f xs)

/-- detail/serialization.hpp:640-643, 674-681, 688-690: `begin_sequence`, the elements, `end_sequence`. -/
def writeSeq (r : Output σ) : Output σ := (tell .beginSeq).andThen (r.andThen (tell .endSeq))

/-- detail/serialization.hpp:623-632, 653-655: `begin_map`, the members, `end_map`. -/
def writeMap (r : Output σ) : Output σ := (tell .beginMap).andThen (r.andThen (tell .endMap))

/-- detail/serialization.hpp:624-631 (map), 543-555 (extra fields): the loop over entries. -/
def writeEntries (skipNull : Bool) (check : Str → Res Unit) (f : Value → Output σ) : List (Str × Value) → Output σ
  | [] => ([], none)
  | (k, v) :: es =>
    ifFine (check k) fun () =>
      if skipNull && isNullValue v then writeEntries skipNull check f es
      else ((tell (.key k)).andThen (f v)).andThen (writeEntries skipNull check f es)

mutual
/-- detail/serialization.hpp:614-715 `dump_adl`. The names of the fields are collected after `begin_map` (653-654). -/
def dumpRun (B : Backend σ) (skipNull : Bool) : Ty → Value → Output σ
  | .leaf l, v =>
    match v with
    | .atom a => tell (.scalar (B.dumpLeaf l a))
    | _ => raise .stuck
  | .enum e, v =>
    match v with
    | .atom (.int n) => ifFine (enumName e n) fun s => tell (.scalar (B.dumpLeaf .str (.str s)))
    | _ => raise .stuck
  | .rawEnum t, v =>
    match v with
    | .atom a => tell (.scalar (B.dumpLeaf (.int t) a))
    | _ => raise .stuck
  | .enumSet e, v =>
    match v with
    | .bits n =>
      writeSeq (writeEach (fun m => ifFine (enumName e m) fun s => tell (.scalar (B.dumpLeaf .str (.str s))))
        (setMembers e n))
    | _ => raise .stuck
  | .opt t, v =>
    match v with
    | .opt none => tell .null
    | .opt (some w) => dumpRun B skipNull t w
    | _ => raise .stuck
  | .vec t, v =>
    match v with
    | .seq vs => writeSeq (writeEach (dumpRun B skipNull t) vs)
    | _ => raise .stuck
  | .arr _ t, v =>
    match v with
    | .seq vs => writeSeq (writeEach (dumpRun B skipNull t) vs)
    | _ => raise .stuck
  | .map t, v =>
    match v with
    | .map es => writeMap (writeEntries skipNull (fun _ => .ok ()) (dumpRun B skipNull t) es)
    | _ => raise .stuck
  | .tuple _ ts, v =>
    match v with
    | .seq vs => writeSeq (writeTuple B skipNull ts vs)
    | _ => raise .stuck
  | .record _ fs, v =>
    match v with
    | .record vs => writeMap (ifFine (reservedNames fs) fun reserved => writeFields B skipNull reserved fs vs)
    | _ => raise .stuck
/-- detail/serialization.hpp:685-691 `dump_tuple`. -/
def writeTuple (B : Backend σ) (skipNull : Bool) : Tys → List Value → Output σ
  | .nil, vs =>
    match vs with
    | [] => ([], none)
    | _ => raise .stuck
  | .cons t ts, vs =>
    match vs with
    | v :: vs => (dumpRun B skipNull t v).andThen (writeTuple B skipNull ts vs)
    | [] => raise .stuck
/-- detail/serialization.hpp:529-567 `dump_reflected_fields`. -/
def writeFields (B : Backend σ) (skipNull : Bool) (reserved : Option (List Str)) : Fields → List Value → Output σ
  | .nil, vs =>
    match vs with
    | [] => ([], none)
    | _ => raise .stuck
  | .cons f t fs, vs =>
    match vs with
    | v :: vs =>
      Output.andThen (if f.skipSer then ([], none)
        else if skipField f skipNull v then ([], none)
        else if f.extra then writeExtras B skipNull reserved t v
        else if f.flatten then writeFlat B skipNull reserved t v
        else (tell (.key f.key)).andThen (dumpRun B skipNull t v)) (writeFields B skipNull reserved fs vs)
    | [] => raise .stuck
/-- detail/serialization.hpp:543-555: the entries of an `extra_fields` map. -/
def writeExtras (B : Backend σ) (skipNull : Bool) (reserved : Option (List Str)) : Ty → Value → Output σ
  | .map t, v =>
    match v with
    | .map es => writeEntries skipNull (checkExtraKey reserved) (dumpRun B skipNull t) es
    | _ => raise .stuck
  | _, _ => raise .stuck
/-- detail/serialization.hpp:557-560: a flattened field. -/
def writeFlat (B : Backend σ) (skipNull : Bool) (reserved : Option (List Str)) : Ty → Value → Output σ
  | .record _ fs, v =>
    match v with
    | .record vs => writeFields B skipNull reserved fs vs
    | _ => raise .stuck
  | _, _ => raise .stuck
end

end Verif.Serial
