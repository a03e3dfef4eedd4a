import Verif.BinaryRW.Model
/-
The binary format on its own, without cursors, error flags or destinations: an encoder and
a list parser, and the typing of values.  From the model this uses only the type codes,
the values and the behaviour of `std::set::insert` (`insertSorted`).
-/
namespace Verif.BinaryRW.Spec
open Verif.BinaryRW

/-- `n` as `k` little endian bytes. -/
def le (k n : Nat) : List Byte := (List.range k).map fun i => BitVec.ofNat 8 (n / 256 ^ i)

mutual
def encode : Ty → Val → List Byte
  | .scalar _, .scalar b => b
  | .str, .str b => le 4 b.length ++ b
  | .vec t, .vec l => le 4 l.length ++ l.flatMap (encode t)
  | .map _ k v, .map l => le 4 l.length ++ l.flatMap fun e => encode k e.1 ++ encode v e.2
  | .set _ t, .set l => le 4 l.length ++ l.flatMap (encode t)
  | .opt _, .none => [0]
  | .opt t, .some v => 1 :: encode t v
  | .pair a b, .pair x y => encode a x ++ encode b y
  | .variant ts, .var i v => BitVec.ofNat 8 i :: encodeAlt ts i v
  | _, _ => []
def encodeAlt : List Ty → Nat → Val → List Byte
  | [], _, _ => []
  | t :: _, 0, v => encode t v
  | _ :: ts, i + 1, v => encodeAlt ts i v
end

/-- The first `n` bytes and the rest. -/
def take? (n : Nat) (b : List Byte) : Option (List Byte × List Byte) :=
  if n ≤ b.length then some (b.take n, b.drop n) else none

/-- A little endian number of `k` bytes. -/
def num? (k : Nat) (b : List Byte) : Option (Nat × List Byte) :=
  match take? k b with
  | none => none
  | some (x, rest) => some (x.foldr (fun b n => b.toNat + 256 * n) 0, rest)

def many? {α} (p : List Byte → Option (α × List Byte)) :
    Nat → List Byte → Option (List α × List Byte)
  | 0, b => some ([], b)
  | n + 1, b =>
    match p b with
    | none => none
    | some (v, rest) =>
      match many? p n rest with
      | none => none
      | some (vs, rest') => some (v :: vs, rest')

def both? {α β} (p : List Byte → Option (α × List Byte)) (q : List Byte → Option (β × List Byte))
    (b : List Byte) : Option ((α × β) × List Byte) :=
  match p b with
  | none => none
  | some (x, rest) =>
    match q rest with
    | none => none
    | some (y, rest') => some ((x, y), rest')

mutual
/-- The value at the beginning of a byte string and the bytes after it. -/
def parse : Ty → List Byte → Option (Val × List Byte)
  | .scalar n, b => (take? n b).map fun r => (.scalar r.1, r.2)
  | .str, b => (num? 4 b).bind fun r => (take? r.1 r.2).map fun r => (.str r.1, r.2)
  | .vec t, b => (num? 4 b).bind fun r => (many? (parse t) r.1 r.2).map fun r => (.vec r.1, r.2)
  | .map lt k v, b => (num? 4 b).bind fun r => (many? (both? (parse k) (parse v)) r.1 r.2).map
      fun r => (.map (r.1.foldl (insertSorted fun a b => lt a.1 b.1) []), r.2)
  | .set lt t, b => (num? 4 b).bind fun r => (many? (parse t) r.1 r.2).map
      fun r => (.set (r.1.foldl (insertSorted lt) []), r.2)
  | .opt t, b => (num? 1 b).bind fun r =>
      if r.1 = 0 then some (.none, r.2) else (parse t r.2).map fun r => (.some r.1, r.2)
  | .pair s t, b => (both? (parse s) (parse t) b).map fun r => (.pair r.1.1 r.1.2, r.2)
  | .variant ts, b => (num? 1 b).bind fun r =>
      (parseAlt ts r.1 r.2).map fun x => (.var r.1 x.1, x.2)
/-- The `i`-th alternative, if it exists. -/
def parseAlt : List Ty → Nat → List Byte → Option (Val × List Byte)
  | [], _, _ => none
  | t :: _, 0, b => parse t b
  | _ :: ts, i + 1, b => parseAlt ts i b
end

/-! ### Well-formedness -/

/-- Comparisons are strict orders and variants have alternatives. -/
def OrdOK (lt : Val → Val → Bool) : Prop :=
  (∀ a, lt a a = false) ∧ ∀ a b c, lt a b = true → lt b c = true → lt a c = true

mutual
def TyOK : Ty → Prop
  | .scalar _ => True
  | .str => True
  | .vec t => TyOK t
  | .map lt k v => OrdOK lt ∧ TyOK k ∧ TyOK v
  | .set lt t => OrdOK lt ∧ TyOK t
  | .opt t => TyOK t
  | .pair a b => TyOK a ∧ TyOK b
  | .variant ts => ts ≠ [] ∧ AllOK ts
def AllOK : List Ty → Prop
  | [] => True
  | t :: ts => TyOK t ∧ AllOK ts
end

mutual
/-- `v` is a value of type `t`. -/
def HasTy : Ty → Val → Prop
  | .scalar n, .scalar b => b.length = n
  | .str, .str _ => True
  | .vec t, .vec l => ∀ v ∈ l, HasTy t v
  | .map lt k v, .map l => l.Pairwise (fun a b => lt a.1 b.1 = true) ∧
      ∀ e ∈ l, HasTy k e.1 ∧ HasTy v e.2
  | .set lt t, .set l => l.Pairwise (fun a b => lt a b = true) ∧ ∀ v ∈ l, HasTy t v
  | .opt _, .none => True
  | .opt t, .some v => HasTy t v
  | .pair a b, .pair x y => HasTy a x ∧ HasTy b y
  | .variant ts, .var i v => HasAlt ts i v
  | _, _ => False
def HasAlt : List Ty → Nat → Val → Prop
  | [], _, _ => False
  | t :: _, 0, v => HasTy t v
  | _ :: ts, i + 1, v => HasAlt ts i v
end

mutual
/-- Every container has fewer than 2^32 elements, every variant index is below 256. -/
def Fits : Ty → Val → Prop
  | .str, .str b => b.length < 2 ^ 32
  | .vec t, .vec l => l.length < 2 ^ 32 ∧ ∀ v ∈ l, Fits t v
  | .map _ k v, .map l => l.length < 2 ^ 32 ∧ ∀ e ∈ l, Fits k e.1 ∧ Fits v e.2
  | .set _ t, .set l => l.length < 2 ^ 32 ∧ ∀ v ∈ l, Fits t v
  | .opt t, .some v => Fits t v
  | .pair a b, .pair x y => Fits a x ∧ Fits b y
  | .variant ts, .var i v => i < 2 ^ 8 ∧ FitsAlt ts i v
  | _, _ => True
def FitsAlt : List Ty → Nat → Val → Prop
  | [], _, _ => True
  | t :: _, 0, v => Fits t v
  | _ :: ts, i + 1, v => FitsAlt ts i v
end

end Verif.BinaryRW.Spec
