import Verif.Serial.Json
import Verif.Enums.Lemmas
/-
What serialisation should do: typing, names, lookup of members, validity, the documents
events describe.  Only the data types of the model and the static assertions
`serNamesOk`, `deserNamesOk` are used.
-/
namespace Verif.Serial.Spec
open Verif.Path Verif.Enums

/-! ### Types -/

def hasLeaf : Leaf → Atom → Bool
  | .bool, .bool _ => true
  | .int t, .int n => decide (t.InRange n)
  | .dbl, .dbl _ => true
  | .str, .str _ => true
  | _, _ => false

/-- The keys of a `std::map` are strictly increasing. -/
def sorted {α : Type} (es : List (Str × α)) : Bool :=
  decide (es.Pairwise fun a b => a.1 < b.1)

mutual
/-- The value is of the type. -/
def hasTy : Ty → Value → Bool
  | .leaf l, .atom a => hasLeaf l a
  | .enum e, .atom (.int n) => decide (e.under.InRange n)
  | .rawEnum t, .atom (.int n) => decide (t.InRange n)
  | .enumSet e, .bits n => decide (n < 2 ^ e.under.w)
  | .opt _, .opt none => true
  | .opt t, .opt (some v) => hasTy t v
  | .vec t, .seq vs => vs.all (hasTy t)
  | .arr n t, .seq vs => decide (vs.length = n) && vs.all (hasTy t)
  | .map t, .map es => sorted es && es.all fun e => hasTy t e.2
  | .tuple _ ts, .seq vs => hasTys ts vs
  | .record _ fs, .record vs => hasFields fs vs
  | _, _ => false
def hasTys : Tys → List Value → Bool
  | .nil, [] => true
  | .cons t ts, v :: vs => hasTy t v && hasTys ts vs
  | _, _ => false
def hasFields : Fields → List Value → Bool
  | .nil, [] => true
  | .cons _ t fs, v :: vs => hasTy t v && hasFields fs vs
  | _, _ => false
end

abbrev HasTy (t : Ty) (v : Value) : Prop := hasTy t v = true

def enumOk (e : EnumTy) : Bool :=
  decide e.under.WF && !e.entries.isEmpty && e.entries.all fun x => decide (e.under.InRange x.value)

def isRecord : Ty → Bool
  | .record _ _ => true
  | _ => false

def isMap : Ty → Bool
  | .map _ => true
  | _ => false

/-- The attributes of a field compile; 106-142. -/
def fieldOk (f : Field) (t : Ty) : Bool :=
  hasTy t f.init && f.defaults.all (hasTy t) && (!f.flatten || isRecord t) && (!f.extra || isMap t)

mutual
/-- The type compiles with all four operations. -/
def tyOk : Ty → Bool
  | .leaf (.int t) => decide t.WF
  | .leaf _ => true
  | .enum e => enumOk e
  | .rawEnum t => decide t.WF
  | .enumSet e => enumOk e
  | .opt t => tyOk t
  | .vec t => tyOk t
  | .arr _ t => tyOk t
  | .map t => tyOk t
  | .tuple _ ts => tysOk ts
  | .record _ fs => fieldsOk fs && serNamesOk fs && deserNamesOk fs
def tysOk : Tys → Bool
  | .nil => true
  | .cons t ts => tyOk t && tysOk ts
def fieldsOk : Fields → Bool
  | .nil => true
  | .cons f t fs => fieldOk f t && tyOk t && fieldsOk fs
end

/-- The fields as a list. -/
def fieldList : Fields → List (Field × Ty)
  | .nil => []
  | .cons f t fs => (f, t) :: fieldList fs

/-! ### Names -/

mutual
/-- Every name under which a field of the record is known, those of flattened records
included. -/
def allNames : Fields → List Str
  | .nil => []
  | .cons f t fs =>
    (if f.extra then [] else if f.flatten then allNamesTy t else f.key :: f.aliases) ++ allNames fs
def allNamesTy : Ty → List Str
  | .record _ fs => allNames fs
  | _ => []
end

mutual
/-- The names under which fields are written. -/
def outNames : Fields → List Str
  | .nil => []
  | .cons f t fs =>
    (if f.skipSer || f.extra then [] else if f.flatten then outNamesTy t else [f.key]) ++ outNames fs
def outNamesTy : Ty → List Str
  | .record _ fs => outNames fs
  | _ => []
end

mutual
/-- The names under which fields are read. -/
def inNames : Fields → List Str
  | .nil => []
  | .cons f t fs =>
    (if f.skipDeser || f.extra then [] else if f.flatten then inNamesTy t else f.key :: f.aliases) ++
      inNames fs
def inNamesTy : Ty → List Str
  | .record _ fs => inNames fs
  | _ => []
end

mutual
/-- The number of `extra_fields` maps, flattened records included. -/
def extraCount : Fields → Nat
  | .nil => 0
  | .cons f t fs => (if f.extra then 1 else if f.flatten then extraCountTy t else 0) + extraCount fs
def extraCountTy : Ty → Nat
  | .record _ fs => extraCount fs
  | _ => 0
end

/-- The relation holds element by element. -/
inductive Each {α β : Type} (R : α → β → Prop) : List α → List β → Prop
  | nil : Each R [] []
  | cons {x y xs ys} : R x y → Each R xs ys → Each R (x :: xs) (y :: ys)

/-! ### Documents -/

variable {σ : Type}

mutual
/-- What a writer is told to write the document (`rapidjson::Value::Accept`). -/
def events : Doc σ → List (Ev σ)
  | .null => [.null]
  | .scalar s => [.scalar s]
  | .arr l => .beginSeq :: eventsArr l ++ [.endSeq]
  | .obj ms => .beginMap :: eventsObj ms ++ [.endMap]
def eventsArr : List (Doc σ) → List (Ev σ)
  | [] => []
  | d :: ds => events d ++ eventsArr ds
def eventsObj : List (Str × Doc σ) → List (Ev σ)
  | [] => []
  | (k, d) :: ms => .key k :: events d ++ eventsObj ms
end

mutual
/-- No object of the document has two members of one name. -/
def uniqueNames : Doc σ → Bool
  | .null => true
  | .scalar _ => true
  | .arr l => uniqueArr l
  | .obj ms => decide (ms.map (·.1)).Nodup && uniqueObj ms
def uniqueArr : List (Doc σ) → Bool
  | [] => true
  | d :: ds => uniqueNames d && uniqueArr ds
def uniqueObj : List (Str × Doc σ) → Bool
  | [] => true
  | (_, d) :: ms => uniqueNames d && uniqueObj ms
end

/-- `d` is the first member of that name. -/
def First {α : Type} (ms : List (Str × α)) (name : Str) (d : α) : Prop :=
  ∃ before after, ms = before ++ (name, d) :: after ∧ ∀ m ∈ before, m.1 ≠ name

/-- No member has the name. -/
def NoMember {α : Type} (ms : List (Str × α)) (name : Str) : Prop := ∀ m ∈ ms, m.1 ≠ name

/-- `d` is the member under the first of the names that is present. -/
def Picks (ms : List (Str × Doc σ)) (names : List Str) (d : Doc σ) : Prop :=
  ∃ before n after, names = before ++ n :: after ∧ (∀ m ∈ before, NoMember ms m) ∧ First ms n d

/-- The requirements of a backend's treatment of leaves. -/
structure Lawful (B : Backend σ) : Prop where
  add : ∀ out k d, B.addField out k d = out ++ [(k, d)]
  dump : ∀ l a, B.dumpLeaf l a = B.serLeaf l a
  leaf : ∀ l a, tyOk (.leaf l) = true → hasLeaf l a = true → B.deserLeaf l (.scalar (B.serLeaf l a)) = .ok a
  null : ∀ l, ∃ w, B.deserLeaf l .null = .error (.deser w)
  typed : ∀ l d a, tyOk (.leaf l) = true → B.deserLeaf l d = .ok a → hasLeaf l a = true
  polite : ∀ l d e, B.deserLeaf l d = .error e → ∃ w, e = .deser w

/-! ### Validity -/

/-- The value meets a bound: an absent value is below every bound. -/
def AtLeast (lo : Int) : Value → Prop
  | .atom (.int n) => lo ≤ n
  | .opt (some (.atom (.int n))) => lo ≤ n
  | .opt none => False
  | _ => True
def AtMost (hi : Int) : Value → Prop
  | .atom (.int n) => n ≤ hi
  | .opt (some (.atom (.int n))) => n ≤ hi
  | _ => True

def Meets (E : Env) (v : Value) : Validator → Prop
  | .range lo hi => AtLeast lo v ∧ AtMost hi v
  | .ge lo => AtLeast lo v
  | .le hi => AtMost hi v
  | .user id => E.validator id v = .ok ()

def MeetsAll (E : Env) (f : Field) (v : Value) : Prop := ∀ x ∈ f.validators, Meets E v x

/-! ### Reading a record -/

/-- The relation holds field by field. -/
inductive EachField (R : Field → Ty → Value → Value → Prop) : Fields → List Value → List Value → Prop
  | nil : EachField R .nil [] []
  | cons {f t fs o v os vs} : R f t o v → EachField R fs os vs →
      EachField R (.cons f t fs) (o :: os) (v :: vs)

/-- Read as a member of its own. -/
def plain (f : Field) : Bool := !f.skipDeser && !f.extra && !f.flatten

/-- All names of the field are absent. -/
def Missing (ms : List (Str × Doc σ)) (f : Field) : Prop := ∀ n ∈ f.key :: f.aliases, NoMember ms n

/-- The member the field is read from. -/
def ReadFrom (ms : List (Str × Doc σ)) (f : Field) (d : Doc σ) : Prop := Picks ms (f.key :: f.aliases) d

/-- What a plain field reads when it is there: a default for null, else what `read` makes of
it if that is valid. -/
def PresentReads (E : Env) (read : Doc σ → Value → Prop) (f : Field) (d : Doc σ) (v : Value) : Prop :=
  (d = .null ∧ f.defaults.head? = some v) ∨
  ((d ≠ .null ∨ f.defaults = []) ∧ read d v ∧ MeetsAll E f v)

/-- What a plain field reads when it is missing: a default, else the old value if
`allow_missing`, else what `read` makes of null. -/
def MissingReads (E : Env) (read : Doc σ → Value → Prop) (f : Field) (old v : Value) : Prop :=
  f.defaults.head? = some v ∨
  (f.defaults = [] ∧ f.allowMissing = true ∧ v = old) ∨
  (f.defaults = [] ∧ f.allowMissing = false ∧ read .null v ∧ MeetsAll E f v)

/-- The map of extra fields: the first members of each name outside `names`. -/
def Captures (read : Ty → Doc σ → Value → Prop) (ms : List (Str × Doc σ)) (names : List Str)
    (t : Ty) (v : Value) : Prop :=
  ∃ u es, t = .map u ∧ v = .map es ∧ sorted es = true ∧
    (∀ m ∈ ms, m.1 ∉ names → ∃ w, read u m.2 w) ∧
    ∀ k w, (k, w) ∈ es ↔ k ∉ names ∧ ∃ d, First ms k d ∧ read u d w

/-- The field of a record read from an object. -/
def FieldReads (E : Env) (read : Ty → Value → Doc σ → Value → Prop) (ms : List (Str × Doc σ))
    (names : List Str) (f : Field) (t : Ty) (old v : Value) : Prop :=
  (f.skipDeser = true → v = old) ∧
  (f.skipDeser = false → f.extra = true → Captures (fun u d w => read u (fresh u) d w) ms names t v) ∧
  (f.skipDeser = false → f.extra = false → f.flatten = true → read t old (.obj ms) v) ∧
  (plain f = true →
    (∀ d, ReadFrom ms f d → PresentReads E (read t old) f d v) ∧
    (Missing ms f → MissingReads E (read t old) f old v))

/-- The names of a record with `extra_fields` or `flatten` are checked when it is used. -/
def NamesChecked (fs : Fields) : Prop :=
  hasExtraOrFlatten fs = true → (allNames fs).Nodup ∧ extraCount fs ≤ 1

def isOpt : Ty → Bool
  | .opt _ => true
  | _ => false

/-! ### Patching a record -/

/-- The field of a record patched with an object. -/
def FieldPatches (E : Env) (patch : Ty → Value → Doc σ → Value → Prop) (ms : List (Str × Doc σ))
    (names : List Str) (f : Field) (t : Ty) (old v : Value) : Prop :=
  (f.skipDeser = true → v = old) ∧
  (f.skipDeser = false → f.extra = true → ∃ u es es', t = .map u ∧ old = .map es ∧ v = .map es' ∧
    sorted es' = true ∧
    (∀ k d, First ms k d → k ∉ names → ∃ w, (k, w) ∈ es') ∧
    ∀ k w, (k, w) ∈ es' ↔
      ((k ∈ names ∨ NoMember ms k) ∧ (k, w) ∈ es) ∨
      (k ∉ names ∧ ∃ d, First ms k d ∧
        ((∃ o, (k, o) ∈ es ∧ patch u o d w) ∨ (NoMember es k ∧ patch u (fresh u) d w)))) ∧
  (f.skipDeser = false → f.extra = false → f.flatten = true → patch t old (.obj ms) v) ∧
  (plain f = true →
    (∀ d, ReadFrom ms f d → PresentReads E (patch t old) f d v) ∧ (Missing ms f → v = old))

mutual
/-- Whatever the document does not name, at any depth, is as before. -/
def Kept : Ty → Doc σ → Value → Value → Prop
  | .record _ fs, .obj ms, .record os, .record vs => KeptFields fs ms os vs
  | .opt t, .obj ms, .opt (some o), w => ∃ v, w = .opt (some v) ∧ Kept t (.obj ms) o v
  | _, _, _, _ => True
def KeptFields : Fields → List (Str × Doc σ) → List Value → List Value → Prop
  | .cons f t fs, ms, o :: os, v :: vs =>
    (f.skipDeser = true → v = o) ∧
    (f.skipDeser = false → f.extra = true → ∀ es es', o = .map es → v = .map es' →
      ∀ k w, NoMember ms k → ((k, w) ∈ es' ↔ (k, w) ∈ es)) ∧
    (f.skipDeser = false → f.extra = false → f.flatten = true → Kept t (.obj ms) o v) ∧
    (plain f = true → (Missing ms f → v = o) ∧ ∀ d, ReadFrom ms f d → Kept t d o v) ∧
    KeptFields fs ms os vs
  | _, _, _, _ => True
end

/-! ### Enums -/

/-- Bit `i` of the number as an object of the underlying type. -/
def bit (e : EnumTy) (v : Int) (i : Nat) : Bool := (BitVec.ofInt e.under.w v).getLsbD i

/-- All bits of `v` are in the set. -/
def includes (e : EnumTy) (n : Nat) (v : Int) : Bool :=
  (List.range e.under.w).all fun i => !bit e v i || n.testBit i

/-- Every bit of the set belongs to an enumerator that is included. -/
def Covered (e : EnumTy) (n : Nat) : Prop :=
  ∀ i, n.testBit i = true → ∃ x ∈ e.entries, includes e n x.value = true ∧ bit e x.value i = true

/-- No two enumerators have one name. -/
def namesOnce (e : EnumTy) : Prop := (e.entries.map fun x => txt x.name).Nodup

/-- The name of the first enumerator with the value. -/
def nameOf (e : EnumTy) (v : Int) : Str :=
  txt (((e.entries.find? fun x => x.value = v).map Entry.name).getD e.unknown)

/-! ### Round trips -/

/-- Left out when the record is written. -/
def omitted (s : Bool) (f : Field) (v : Value) : Bool :=
  f.skipSer || (!f.emitNull && (f.skipIfNull || s) && isNullValue v) || (f.skipIfEmpty && isEmptyValue v)

mutual
/-- Nothing of the value is lost when it is written and read back into `old`. -/
def Keeps (E : Env) (s : Bool) : Ty → Value → Value → Prop
  | .enum e, _, .atom (.int n) => namesOnce e ∧ ∃ x ∈ e.entries, x.value = n
  | .enumSet e, _, .bits n => namesOnce e ∧ Covered e n
  | .opt t, _, .opt (some v) => isNullValue v = false ∧ Keeps E s t (fresh t) v
  | .vec t, _, .seq vs => ∀ v ∈ vs, Keeps E s t (fresh t) v
  | .arr _ t, .seq os, .seq vs =>
    ∀ (i : Nat) (o v : Value), os[i]? = some o → vs[i]? = some v → Keeps E s t o v
  | .map t, _, .map es => ∀ e ∈ es, (s = true → isNullValue e.2 = false) ∧ Keeps E s t (fresh t) e.2
  | .tuple _ ts, .seq os, .seq vs => KeepsAll E s ts os vs
  | .record _ fs, .record os, .record vs => (allNames fs).Nodup ∧ KeepsFields E s fs os vs
  | _, _, _ => True
def KeepsAll (E : Env) (s : Bool) : Tys → List Value → List Value → Prop
  | .cons t ts, o :: os, v :: vs => Keeps E s t o v ∧ KeepsAll E s ts os vs
  | _, _, _ => True
def KeepsFields (E : Env) (s : Bool) : Fields → List Value → List Value → Prop
  | .cons f t fs, o :: os, v :: vs =>
    (f.skipDeser = true → v = o) ∧
    (f.skipDeser = false → f.extra = true → KeepsExtras E s f t v) ∧
    (f.skipDeser = false → f.extra = false → f.flatten = true →
      f.skipSer = false ∧ extraCountTy t = 0 ∧ KeepsFlat E s t o v) ∧
    (plain f = true → omitted s f v = true →
      MissingReads (σ := Unit) E (fun _ w => isOpt t = true ∧ w = .opt none) f o v) ∧
    (plain f = true → omitted s f v = false →
      (isNullValue v = true ∧ f.defaults.head? = some v) ∨
      ((isNullValue v = false ∨ f.defaults = []) ∧ Keeps E s t o v ∧ MeetsAll E f v)) ∧
    KeepsFields E s fs os vs
  | _, _, _ => True
def KeepsExtras (E : Env) (s : Bool) (f : Field) : Ty → Value → Prop
  | .map t, .map es => (es ≠ [] → f.skipSer = false) ∧
    ∀ e ∈ es, (s = true → isNullValue e.2 = false) ∧ Keeps E s t (fresh t) e.2
  | _, _ => True
def KeepsFlat (E : Env) (s : Bool) : Ty → Value → Value → Prop
  | .record _ fs, .record os, .record vs => KeepsFields E s fs os vs
  | _, _, _ => True
end

/-! ### What can be written -/

mutual
/-- No record that is written uses one name twice or has an extra field under the name of
another field. -/
def Writable (s : Bool) : Ty → Value → Prop
  | .opt t, .opt (some v) => Writable s t v
  | .vec t, .seq vs => ∀ v ∈ vs, Writable s t v
  | .arr _ t, .seq vs => ∀ v ∈ vs, Writable s t v
  | .map t, .map es => ∀ e ∈ es, (s && isNullValue e.2) = false → Writable s t e.2
  | .tuple _ ts, .seq vs => WritableAll s ts vs
  | .record _ fs, .record vs => NamesChecked fs ∧ WritableFields s (allNames fs) fs vs
  | _, _ => True
def WritableAll (s : Bool) : Tys → List Value → Prop
  | .cons t ts, v :: vs => Writable s t v ∧ WritableAll s ts vs
  | _, _ => True
def WritableFields (s : Bool) (names : List Str) : Fields → List Value → Prop
  | .cons f t fs, v :: vs =>
    (omitted s f v = false → f.extra = true → WritableExtras s names t v) ∧
    (omitted s f v = false → f.extra = false → f.flatten = true → WritableFlat s names t v) ∧
    (omitted s f v = false → f.extra = false → f.flatten = false → Writable s t v) ∧
    WritableFields s names fs vs
  | _, _ => True
def WritableExtras (s : Bool) (names : List Str) : Ty → Value → Prop
  | .map t, .map es =>
    ∀ e ∈ es, e.1 ∉ names ∧ ((s && isNullValue e.2) = false → Writable s t e.2)
  | _, _ => True
def WritableFlat (s : Bool) (names : List Str) : Ty → Value → Prop
  | .record _ fs, .record vs => WritableFields s names fs vs
  | _, _ => True
end

/-! ### Sequences -/

/-- The element at the index; a missing one counts as null. -/
def element (l : List (Doc σ)) (i : Nat) : Doc σ := (l[i]?).getD .null

/-- The index in a sequence of the field at position `j`: the fields that are not read do
not count. -/
def slot (fs : Fields) (j : Nat) : Nat := ((fieldList fs).take j).countP fun p => !p.1.skipDeser

/-- A field of a record read from the element of a sequence. -/
def SlotReads (E : Env) (read : Ty → Value → Doc σ → Value → Prop) (d : Doc σ) (f : Field) (t : Ty)
    (old v : Value) : Prop :=
  (f.skipDeser = true → v = old) ∧
  (f.skipDeser = false → f.extra = false ∧ f.flatten = false ∧ read t old d v ∧ MeetsAll E f v)

/-! ### Types that round trip without further ado -/

mutual
/-- No optional in an optional, no nulls left out of maps, and no fields that are skipped,
validated, or that mean something else than null when they are missing. -/
def easy (s : Bool) : Ty → Bool
  | .leaf _ => true
  | .enum _ => true
  | .rawEnum _ => true
  | .enumSet _ => true
  | .opt t => !isOpt t && easy s t
  | .vec t => easy s t
  | .arr _ t => easy s t
  | .map t => (!s || !isOpt t) && easy s t
  | .tuple _ ts => easyAll s ts
  | .record _ fs => decide (allNames fs).Nodup && easyFields s fs
def easyAll (s : Bool) : Tys → Bool
  | .nil => true
  | .cons t ts => easy s t && easyAll s ts
def easyFields (s : Bool) : Fields → Bool
  | .nil => true
  | .cons f t fs =>
    !f.skipSer && !f.skipDeser && !f.skipIfEmpty && !f.extra && f.validators.isEmpty &&
    (!isOpt t || (f.defaults.isEmpty && (!f.allowMissing || f.emitNull || (!f.skipIfNull && !s)))) &&
    easy s t && easyFields s fs
end

mutual
/-- Every enum in the value is one of the enumerators, every set is covered by some. -/
def Listed : Ty → Value → Prop
  | .enum e, .atom (.int n) => namesOnce e ∧ ∃ x ∈ e.entries, x.value = n
  | .enumSet e, .bits n => namesOnce e ∧ Covered e n
  | .opt t, .opt (some v) => Listed t v
  | .vec t, .seq vs => ∀ v ∈ vs, Listed t v
  | .arr _ t, .seq vs => ∀ v ∈ vs, Listed t v
  | .map t, .map es => ∀ e ∈ es, Listed t e.2
  | .tuple _ ts, .seq vs => ListedAll ts vs
  | .record _ fs, .record vs => ListedFields fs vs
  | _, _ => True
def ListedAll : Tys → List Value → Prop
  | .cons t ts, v :: vs => Listed t v ∧ ListedAll ts vs
  | _, _ => True
def ListedFields : Fields → List Value → Prop
  | .cons _ t fs, v :: vs => Listed t v ∧ ListedFields fs vs
  | _, _ => True
end

/-! ### The text of errors -/

/-- A message with the lines added to it. -/
def text (base : Str) (lines : List Str) : Str := lines.foldl (fun w l => w ++ [0x0A#8] ++ l) base

def elementLine (i : Nat) : Str := txt "error when deserializing element " ++ numText i
def memberLine (k : Str) : Str := txt "error when deserializing field " ++ k
def extraLine (k : Str) : Str := txt "error when deserializing extra field " ++ k
def typeLine (n : Str) : Str := txt "error when deserializing type " ++ n

/-- `x` is at index `i` and all before it are `ok`. -/
def FirstAt {α : Type} (ok : Nat → α → Prop) (l : List α) (i : Nat) (x : α) : Prop :=
  l[i]? = some x ∧ ∀ j y, j < i → l[j]? = some y → ok j y

def tyList : Tys → List Ty
  | .nil => []
  | .cons t ts => t :: tyList ts

/-- The validator rejects the value with this message. -/
def Rejects (E : Env) (v : Value) : Validator → Str → Prop
  | .range lo hi, w => ¬ (AtLeast lo v ∧ AtMost hi v) ∧
    w = txt "value is outside allowed range [" ++ numText lo ++ txt ", " ++ numText hi ++ txt "]"
  | .ge lo, w => ¬ AtLeast lo v ∧ w = txt "value is less than allowed limit of " ++ numText lo
  | .le hi, w => ¬ AtMost hi v ∧ w = txt "value is greater than allowed limit of " ++ numText hi
  | .user id, w => E.validator id v = .error (.deser w)

/-- The first validator the value does not meet rejects it with this message. -/
def Invalid (E : Env) (f : Field) (v : Value) (w : Str) : Prop :=
  ∃ i x, FirstAt (fun _ y => Meets E v y) f.validators i x ∧ Rejects E v x w

/-- The field is read from this document: the member, or null if there is none. -/
def Consulted (ms : List (Str × Doc σ)) (f : Field) (d : Doc σ) : Prop :=
  (ReadFrom ms f d ∧ (d ≠ .null ∨ f.defaults = [])) ∨
  (Missing ms f ∧ d = .null ∧ f.defaults = [] ∧ f.allowMissing = false)

/-! ### Writing a record -/

mutual
/-- The members written for the fields, in order: none for what is left out, those of the
fields of a flattened record, one per entry of a map of extra fields, else one. -/
def WritesFields (write : Ty → Value → Doc σ → Prop) (s : Bool) :
    Fields → List Value → List (Str × Doc σ) → Prop
  | .nil, vs, out => vs = [] ∧ out = []
  | .cons f t fs, vs, out => ∃ v ws o1 o2, vs = v :: ws ∧ out = o1 ++ o2 ∧
    (omitted s f v = true → o1 = []) ∧
    (omitted s f v = false → f.extra = true → WritesExtras write s t v o1) ∧
    (omitted s f v = false → f.extra = false → f.flatten = true → WritesFlat write s t v o1) ∧
    (omitted s f v = false → f.extra = false → f.flatten = false →
      ∃ d, write t v d ∧ o1 = [(f.key, d)]) ∧
    WritesFields write s fs ws o2
def WritesExtras (write : Ty → Value → Doc σ → Prop) (s : Bool) :
    Ty → Value → List (Str × Doc σ) → Prop
  | .map u, .map es, out =>
    Each (fun e m => m.1 = e.1 ∧ write u e.2 m.2) (es.filter fun e => !(s && isNullValue e.2)) out
  | _, _, _ => False
def WritesFlat (write : Ty → Value → Doc σ → Prop) (s : Bool) :
    Ty → Value → List (Str × Doc σ) → Prop
  | .record _ fs, .record vs, out => WritesFields write s fs vs out
  | _, _, _ => False
end

/-! ### What reading leaves -/

mutual
/-- Every field is as it was if it is not read or allowed to be missing, is the default, or
is valid. -/
def Legit (E : Env) : Ty → Value → Value → Prop
  | .opt t, _, .opt (some v) => Legit E t (fresh t) v
  | .vec t, _, .seq vs => ∀ v ∈ vs, Legit E t (fresh t) v
  | .arr _ t, .seq os, .seq vs =>
    ∀ (i : Nat) (o v : Value), os[i]? = some o → vs[i]? = some v → Legit E t o v
  | .map t, _, .map es => ∀ e ∈ es, Legit E t (fresh t) e.2
  | .tuple _ ts, .seq os, .seq vs => LegitAll E ts os vs
  | .record _ fs, .record os, .record vs => LegitFields E fs os vs
  | _, _, _ => True
def LegitAll (E : Env) : Tys → List Value → List Value → Prop
  | .cons t ts, o :: os, v :: vs => Legit E t o v ∧ LegitAll E ts os vs
  | _, _, _ => True
def LegitFields (E : Env) : Fields → List Value → List Value → Prop
  | .cons f t fs, o :: os, v :: vs =>
    (f.skipDeser = true → v = o) ∧
    (f.skipDeser = false → f.extra = true → Legit E t o v) ∧
    (f.skipDeser = false → f.extra = false → f.flatten = true → Legit E t o v) ∧
    (plain f = true → f.defaults.head? = some v ∨ (f.allowMissing = true ∧ v = o) ∨
      (MeetsAll E f v ∧ Legit E t o v)) ∧
    LegitFields E fs os vs
  | _, _, _ => True
end

/-! ### Which exceptions -/

mutual
/-- The names of every record in the type pass the check made when it is used. -/
def AllChecked : Ty → Prop
  | .opt t => AllChecked t
  | .vec t => AllChecked t
  | .arr _ t => AllChecked t
  | .map t => AllChecked t
  | .tuple _ ts => AllCheckedTys ts
  | .record _ fs => NamesChecked fs ∧ AllCheckedFields fs
  | _ => True
def AllCheckedTys : Tys → Prop
  | .nil => True
  | .cons t ts => AllChecked t ∧ AllCheckedTys ts
def AllCheckedFields : Fields → Prop
  | .nil => True
  | .cons _ t fs => AllChecked t ∧ AllCheckedFields fs
end

/-- What reading may throw: `deserialize_error`; `logic_error` if `checked` does not hold;
what a user's validator throws. -/
def Throwable (E : Env) (checked : Prop) (e : Exc) : Prop :=
  (∃ w, e = .deser w) ∨ ((∃ w, e = .logic w) ∧ ¬ checked) ∨ ∃ id v, E.validator id v = .error e

end Verif.Serial.Spec
