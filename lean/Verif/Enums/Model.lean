/-
Model of `enum_set.hpp`, `enum_reflector.hpp`, `enum_traits.hpp`, `enum_range.hpp` and
`iterator_facade.hpp`.

`enum_set` works on the bits of the underlying type (`BitVec w`), with the integral
promotions the compiler inserts.  The other files work on integer values: a value of an
integer type is its mathematical value, and every arithmetic operation is done at the
promoted type.  `none` is undefined behaviour (signed overflow, access out of bounds).
Conversions to a signed type wrap (C++20; implementation-defined with the same result on
all supported compilers before).
-/
namespace Verif.Enums

/-! ### enum_set.hpp -/

/-- enum_set.hpp:186 the data member: bits of the underlying value.  `s` tells whether the
underlying type is signed. -/
structure EnumSet (s : Bool) (w : Nat) where
  value : BitVec w
  deriving DecidableEq

variable {s : Bool} {w : Nat}

/-- Integral promotion of an operand: to 32 bits if narrower.
(the operands at enum_set.hpp:54-75 and enum_traits.hpp:99-190) -/
def promo (s : Bool) (x : BitVec w) : BitVec (max w 32) :=
  if s then x.signExtend (max w 32) else x.setWidth (max w 32)

/-- `static_cast<Enum>` of the promoted result. (enum_set.hpp:54-75; enum_traits.hpp:107-190) -/
def demo (x : BitVec (max w 32)) : BitVec w := x.setWidth w

/-- enum_set.hpp:17 -/
def EnumSet.empty : EnumSet s w := ⟨0#w⟩
/-- enum_set.hpp:18 -/
def EnumSet.of (e : BitVec w) : EnumSet s w := ⟨e⟩
/-- enum_set.hpp:20-23 `underlying_value` -/
def EnumSet.underlying (x : EnumSet s w) : BitVec w := x.value
/-- enum_set.hpp:27-30 `operator bool` -/
def EnumSet.toBool (x : EnumSet s w) : Bool := promo s x.underlying != 0
/-- enum_set.hpp:54-57 `operator~` -/
def EnumSet.not (x : EnumSet s w) : EnumSet s w := ⟨demo (~~~ promo s x.underlying)⟩
/-- enum_set.hpp:59-63 `operator&` -/
def EnumSet.and (x y : EnumSet s w) : EnumSet s w :=
  ⟨demo (promo s x.underlying &&& promo s y.underlying)⟩
/-- enum_set.hpp:65-69 `operator|` -/
def EnumSet.or (x y : EnumSet s w) : EnumSet s w :=
  ⟨demo (promo s x.underlying ||| promo s y.underlying)⟩
/-- enum_set.hpp:71-75 `operator^` -/
def EnumSet.xor (x y : EnumSet s w) : EnumSet s w :=
  ⟨demo (promo s x.underlying ^^^ promo s y.underlying)⟩
/-- enum_set.hpp:77-80 `operator==` -/
def EnumSet.beq (x y : EnumSet s w) : Bool := promo s x.value == promo s y.value
/-- enum_set.hpp:82-85 `operator<` (comparison of enum values) -/
def EnumSet.lt (x y : EnumSet s w) : Bool :=
  if s then (x.value).slt y.value else (x.value).ult y.value
/-- enum_set.hpp:87-90 `operator!=` -/
def EnumSet.bne (x y : EnumSet s w) : Bool := !(x.beq y)
/-- enum_set.hpp:39-42 `has_any(enum_set)` -/
def EnumSet.hasAny (x y : EnumSet s w) : Bool := (x.and y).bne .empty
/-- enum_set.hpp:49-52 `has_all(enum_set)` -/
def EnumSet.hasAll (x y : EnumSet s w) : Bool := (x.and y).beq y
/-- enum_set.hpp:34-37 `has_any(Enum)` -/
def EnumSet.hasAnyE (x : EnumSet s w) (e : BitVec w) : Bool := x.hasAny (.of e)
/-- enum_set.hpp:44-47 `has_all(Enum)` -/
def EnumSet.hasAllE (x : EnumSet s w) (e : BitVec w) : Bool := x.hasAll (.of e)
/-- enum_set.hpp:32 `test` -/
def EnumSet.test (x : EnumSet s w) (e : BitVec w) : Bool := x.hasAllE e
/-- enum_set.hpp:92-105 operators with an `Enum` on the right -/
def EnumSet.orE (x : EnumSet s w) (e : BitVec w) : EnumSet s w := x.or (.of e)
/-- enum_set.hpp:92-105. -/
def EnumSet.andE (x : EnumSet s w) (e : BitVec w) : EnumSet s w := x.and (.of e)
/-- enum_set.hpp:92-105. -/
def EnumSet.xorE (x : EnumSet s w) (e : BitVec w) : EnumSet s w := x.xor (.of e)
/-- enum_set.hpp:107-120 operators with an `Enum` on the left -/
def EnumSet.eOr (e : BitVec w) (x : EnumSet s w) : EnumSet s w := x.orE e
/-- enum_set.hpp:107-120. -/
def EnumSet.eAnd (e : BitVec w) (x : EnumSet s w) : EnumSet s w := x.andE e
/-- enum_set.hpp:107-120. -/
def EnumSet.eXor (e : BitVec w) (x : EnumSet s w) : EnumSet s w := x.xorE e
/-- enum_set.hpp:122-138 compound assignments: the new value of the left operand -/
def EnumSet.andAssign (x y : EnumSet s w) : EnumSet s w := x.and y
/-- enum_set.hpp:122-138. -/
def EnumSet.orAssign (x y : EnumSet s w) : EnumSet s w := x.or y
/-- enum_set.hpp:122-138. -/
def EnumSet.xorAssign (x y : EnumSet s w) : EnumSet s w := x.xor y
/-- enum_set.hpp:140-153 -/
def EnumSet.andAssignE (x : EnumSet s w) (e : BitVec w) : EnumSet s w := x.andAssign (.of e)
/-- enum_set.hpp:140-153. -/
def EnumSet.orAssignE (x : EnumSet s w) (e : BitVec w) : EnumSet s w := x.orAssign (.of e)
/-- enum_set.hpp:140-153. -/
def EnumSet.xorAssignE (x : EnumSet s w) (e : BitVec w) : EnumSet s w := x.xorAssign (.of e)
/-- enum_set.hpp:155-183 comparisons with an `Enum` -/
def EnumSet.beqE (x : EnumSet s w) (e : BitVec w) : Bool := x.beq (.of e)
/-- enum_set.hpp:155-183. -/
def EnumSet.ltE (x : EnumSet s w) (e : BitVec w) : Bool := x.lt (.of e)
/-- enum_set.hpp:155-183. -/
def EnumSet.bneE (x : EnumSet s w) (e : BitVec w) : Bool := !(x.beq (.of e))
/-- enum_set.hpp:155-183. -/
def EnumSet.eBeq (e : BitVec w) (x : EnumSet s w) : Bool := x.beqE e
/-- enum_set.hpp:155-183. -/
def EnumSet.eLt (e : BitVec w) (x : EnumSet s w) : Bool := (EnumSet.of e : EnumSet s w).lt x
/-- enum_set.hpp:155-183. -/
def EnumSet.eBne (e : BitVec w) (x : EnumSet s w) : Bool := x.bneE e

/-! ### enum_traits.hpp: bit mask operators of plain enums -/

/-- enum_traits.hpp:122-126 `operator|`, used by 224-227 and 128-132. -/
def maskOr (s : Bool) (x y : BitVec w) : BitVec w := demo (promo s x ||| promo s y)
/-- enum_traits.hpp:134-138 `operator&`. -/
def maskAnd (s : Bool) (x y : BitVec w) : BitVec w := demo (promo s x &&& promo s y)
/-- enum_traits.hpp:146-150 `operator^`. -/
def maskXor (s : Bool) (x y : BitVec w) : BitVec w := demo (promo s x ^^^ promo s y)
/-- enum_traits.hpp:158-162 `operator~`. -/
def maskNot (s : Bool) (x : BitVec w) : BitVec w := demo (~~~ promo s x)
/-- enum_traits.hpp:271-276 `check_mask`. -/
def checkMask (s : Bool) (v mask : BitVec w) : Bool := (promo s v &&& promo s mask) != 0

/-- enum_traits.hpp:164-168 and 176-181 `operator<<`, `<<=` (C++17 rules): undefined for a
count that is negative or not below the promoted width, for a negative left operand, and
when the value does not fit the unsigned counterpart of a signed promoted type.  The
promoted type of a narrow operand is `int`. -/
def shl (s : Bool) (x : BitVec w) (k : Int) : Option (BitVec w) :=
  if k < 0 ∨ (max w 32 : Nat) ≤ k then none
  else if (s || w < 32) && ((s && x.msb) || 2 ^ max w 32 ≤ (promo s x).toNat * 2 ^ k.toNat) then none
  else some (demo (promo s x <<< k.toNat))

/-- enum_traits.hpp:170-174 and 183-188 `operator>>`, `>>=`: arithmetic for signed types. -/
def shr (s : Bool) (x : BitVec w) (k : Int) : Option (BitVec w) :=
  if k < 0 ∨ (max w 32 : Nat) ≤ k then none
  else if s then some (demo ((promo s x).sshiftRight k.toNat))
  else some (demo (promo s x >>> k.toNat))

/-- enum_traits.hpp:107-120 `++e`, `e++`: the new value of `e`. -/
def enumInc (s : Bool) (x : BitVec w) : Option (BitVec w) :=
  if (s || w < 32) && (promo s x).toInt + 1 ≥ 2 ^ (max w 32 - 1) then none
  else some (demo (promo s x + 1))

/-! ### Integer types -/

/-- An integer type: signedness and width. (the underlying types of enum_range.hpp:13-47 and enum_traits.hpp:92-96) -/
structure IT where
  signed : Bool
  w : Nat
  deriving DecidableEq

/-- The numbers a type holds; signed overflow in enum_range.hpp:13-47 is undefined. -/
def IT.InRange (t : IT) (v : Int) : Prop :=
  if t.signed then -2 ^ (t.w - 1) ≤ v ∧ v < 2 ^ (t.w - 1) else 0 ≤ v ∧ v < 2 ^ t.w

instance (t : IT) (v : Int) : Decidable (t.InRange v) := by unfold IT.InRange; infer_instance

/-- `static_cast<T>`. (enum_range.hpp:13-47, enum_traits.hpp:92-96) -/
def IT.conv (t : IT) (v : Int) : Int := if t.signed then v.bmod (2 ^ t.w) else v % 2 ^ t.w

/-- Integral promotion. (the operands in enum_range.hpp:13-47) -/
def IT.promote (t : IT) : IT := if t.w < 32 then ⟨true, 32⟩ else t

/-- `std::ptrdiff_t`, iterator_facade.hpp:93-132. -/
def ptrdiff : IT := ⟨true, 64⟩
/-- `std::size_t`, enum_traits.hpp:79-82. -/
def sizeT : IT := ⟨false, 64⟩

/-- Usual arithmetic conversions. (the operands in enum_range.hpp:13-47, enum_traits.hpp:92-96) -/
def IT.common (a b : IT) : IT :=
  let a := a.promote
  let b := b.promote
  if a.signed = b.signed then (if a.w < b.w then b else a)
  else
    let u := if a.signed then b else a
    let i := if a.signed then a else b
    if u.w < i.w then i else u

/-- The result `r` of an operation performed in type `t`. (enum_range.hpp:13-47; iterator_facade.hpp:101-107) -/
def IT.arith (t : IT) (r : Int) : Option Int :=
  if t.signed then (if t.InRange r then some r else none) else some (t.conv r)

/-! ### enum_reflector.hpp -/

/-- reflect_enum.hpp:87-92 `enum_reflection_pair`; names as strings. -/
structure Entry where
  value : Int
  name : String
  deriving DecidableEq

/-- enum_reflector.hpp:108-114: the loop over neighbours. -/
def sortedFrom : Int → List Entry → Bool
  | _, [] => true
  | cur, next :: rest => if cur ≥ next.value then false else sortedFrom next.value rest

/-- enum_reflector.hpp:94-116 `is_ordinary_enum`; `none`: empty table (no such array). -/
def isOrdinary (t : IT) (rng : List Entry) : Option Bool :=
  match rng with
  | [] => none
  | first :: rest =>
    match rng[rng.length - 1]? with
    | none => none
    | some last =>
      if first.value ≠ t.conv 0 ∨ last.value ≠ t.conv (rng.length - 1 : Nat) then some false
      else some (sortedFrom first.value rest)

/-- enum_reflector.hpp:75-80: the linear search. -/
def searchName (value : Int) (def_ : String) : List Entry → String
  | [] => def_
  | vn :: rest => if vn.value = value then vn.name else searchName value def_ rest

/-- enum_reflector.hpp:60-82 `to_string`. -/
def toStr (t : IT) (rng : List Entry) (value : Int) (def_ : String) : Option String :=
  match isOrdinary t rng with
  | none => none
  | some true =>
    let num_value := sizeT.conv value
    if num_value < rng.length then
      match rng[num_value.toNat]? with
      | none => none
      | some e => some e.name
    else some def_
  | some false => some (searchName value def_ rng)

/-- enum_reflector.hpp:119-132 `from_string_impl` (52-58 `from_string`). -/
def fromStr (rng : List Entry) (str : String) : Option Int :=
  rng.foldl (fun ret p => if ret.isNone && str == p.name then some p.value else ret) none

/-- enum_reflector.hpp:134-145 `values_impl` (84-92 `values`): copies entry by entry. -/
def values (rng : List Entry) : List Int := rng.map (·.value)

/-- enum_reflector.hpp:47-50 `count`. -/
def count (rng : List Entry) : Nat := rng.length

/-! ### enum_traits.hpp ranges -/

/-- enum_traits.hpp:13-18 `for_each_enum`: `ForEach t last i l` means that the loop started
at `i` calls the function on `l` and ends.  `++i` is done in the promoted type and stored
back. -/
inductive ForEach (t : IT) (last : Int) : Int → List Int → Prop
  | done {i} : ¬ i < last → ForEach t last i []
  | step {i r l} : i < last → t.promote.arith (i + 1) = some r → ForEach t last (t.conv r) l →
      ForEach t last i (i :: l)

/-- enum_traits.hpp:52-53 the template arguments of `enum_trait_support_range`; the flag
`open_closed` is true for a range that excludes `Max`. -/
structure Trait where
  t : IT
  min : Int
  max : Int
  openClosed : Bool

/-- enum_traits.hpp:59-62 `min_value`. -/
def Trait.minValue (r : Trait) : Int := r.min

/-- enum_traits.hpp:63-69 `max_value`; `none`: overflow in a constant expression. -/
def Trait.maxValue (r : Trait) : Option Int :=
  if r.openClosed then some r.max
  else (r.t.promote.arith (r.max + 1)).map r.t.conv

/-- enum_traits.hpp:79-82 `count`. -/
def Trait.count (r : Trait) : Option Int :=
  r.maxValue.bind fun mx => (r.t.promote.arith (mx - r.minValue)).map sizeT.conv

/-- enum_traits.hpp:65-67 and 84: what the static assertions check. -/
def Trait.Compiles (r : Trait) : Prop :=
  (r.openClosed = true ∨ ∃ m, r.t.promote.arith (r.max + 1) = some m ∧ m > r.max) ∧
  ∃ c, r.count = some c ∧ c > 0

/-- enum_traits.hpp:86-90 `in_range(Enum)`. -/
def Trait.inRange (r : Trait) (e : Int) : Option Bool :=
  r.maxValue.map fun mx => decide (e ≥ r.minValue) && decide (e < mx)

/-- enum_traits.hpp:92-96 `in_range(Integral)` for an argument of type `a`: both
comparisons are done in the common type. -/
def Trait.inRangeI (r : Trait) (a : IT) (v : Int) : Option Bool :=
  r.maxValue.map fun mx =>
    let c := a.common r.t
    decide (c.conv v ≥ c.conv r.minValue) && decide (c.conv v < c.conv mx)

/-! ### iterator_facade.hpp -/

/-- What a class derived from `iterator_facade` provides. (called at iterator_facade.hpp:42-168) -/
structure Impl (σ ρ : Type) where
  increment : σ → Option σ
  decrement : σ → Option σ
  advance : σ → Int → Option σ
  equalTo : σ → σ → Bool
  distanceTo : σ → σ → Option Int
  dereference : σ → Option ρ

variable {σ ρ : Type}

/-- iterator_facade.hpp:42-45 `operator*` -/
def Impl.deref (F : Impl σ ρ) (a : σ) : Option ρ := F.dereference a
/-- iterator_facade.hpp:63-67 `++it`: the iterator afterwards -/
def Impl.preInc (F : Impl σ ρ) (a : σ) : Option σ := F.increment a
/-- iterator_facade.hpp:69-74 `it++`: result and iterator afterwards -/
def Impl.postInc (F : Impl σ ρ) (a : σ) : Option (σ × σ) := (F.increment a).map fun a' => (a, a')
/-- iterator_facade.hpp:76-82 `--it` -/
def Impl.preDec (F : Impl σ ρ) (a : σ) : Option σ := F.decrement a
/-- iterator_facade.hpp:84-91 `it--` -/
def Impl.postDec (F : Impl σ ρ) (a : σ) : Option (σ × σ) := (F.decrement a).map fun a' => (a, a')
/-- iterator_facade.hpp:93-99 `it += n` -/
def Impl.addAssign (F : Impl σ ρ) (a : σ) (n : Int) : Option σ := F.advance a n
/-- iterator_facade.hpp:101-107 `it -= n`; `-n` overflows for the minimum -/
def Impl.subAssign (F : Impl σ ρ) (a : σ) (n : Int) : Option σ :=
  (ptrdiff.arith (-n)).bind fun m => F.advance a m
/-- iterator_facade.hpp:109-118 `it + n`, `n + it` -/
def Impl.add (F : Impl σ ρ) (a : σ) (n : Int) : Option σ := F.addAssign a n
/-- iterator_facade.hpp:120-124 `it - n` -/
def Impl.sub (F : Impl σ ρ) (a : σ) (n : Int) : Option σ := F.subAssign a n
/-- iterator_facade.hpp:55-61 `it[n]` -/
def Impl.index (F : Impl σ ρ) (a : σ) (n : Int) : Option ρ := (F.add a n).bind F.deref
/-- iterator_facade.hpp:126-132 `left - right` -/
def Impl.diff (F : Impl σ ρ) (l r : σ) : Option Int := F.distanceTo l r
/-- iterator_facade.hpp:134-138 `==` -/
def Impl.eq (F : Impl σ ρ) (l r : σ) : Bool := F.equalTo l r
/-- iterator_facade.hpp:140-144 `!=` -/
def Impl.ne (F : Impl σ ρ) (l r : σ) : Bool := !F.eq l r
/-- iterator_facade.hpp:146-150 `<` -/
def Impl.lt (F : Impl σ ρ) (l r : σ) : Option Bool := (F.diff r l).map fun d => decide (d > 0)
/-- iterator_facade.hpp:152-156 `>` -/
def Impl.gt (F : Impl σ ρ) (l r : σ) : Option Bool := (F.diff l r).map fun d => decide (d > 0)
/-- iterator_facade.hpp:158-162 `<=` -/
def Impl.le (F : Impl σ ρ) (l r : σ) : Option Bool := (F.gt l r).map (!·)
/-- iterator_facade.hpp:164-168 `>=` -/
def Impl.ge (F : Impl σ ρ) (l r : σ) : Option Bool := (F.lt l r).map (!·)

/-! ### enum_range.hpp -/

/-- enum_range.hpp:13-47 `enum_iterator`: the state is `index_`. -/
def enumIter (t : IT) : Impl Int Int where
  increment i := (t.promote.arith (i + 1)).map t.conv
  decrement i := (t.promote.arith (i - 1)).map t.conv
  advance i n := ((t.common ptrdiff).arith ((t.common ptrdiff).conv i + (t.common ptrdiff).conv n)).map t.conv
  equalTo a b := decide (b = a)
  distanceTo a b := (t.promote.arith (b - a)).map ptrdiff.conv
  dereference i := some i

/-- enum_range.hpp:49-58 `begin` and `end` of `enum_range`. -/
def Trait.begin (r : Trait) : Int := r.minValue
/-- enum_range.hpp:49-58 `end`. -/
def Trait.end_ (r : Trait) : Option Int := r.maxValue

/-- A range-based for loop over an implementation: `Visits F e a l` means that the loop
from `a` to `e` sees `l` and ends. (uses iterator_facade.hpp:42-45, 63-67, 140-144 and enum_range.hpp:49-58) -/
inductive Visits (F : Impl σ ρ) (e : σ) : σ → List ρ → Prop
  | done {a} : F.ne a e = false → Visits F e a []
  | step {a v a' l} : F.ne a e = true → F.deref a = some v → F.preInc a = some a' →
      Visits F e a' l → Visits F e a (v :: l)

end Verif.Enums
