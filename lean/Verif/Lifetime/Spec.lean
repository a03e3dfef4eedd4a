import Verif.Lifetime.Model
/-
What the properties of `Lifetime` say, apart from the functions of the model.
-/
namespace Verif.Lifetime
open Verif.Path

/-! ### Contents -/

mutual
/-- What a value says, wherever its strings are. -/
def Doc.plain : Doc → Plain
  | .null => .null
  | .num n => .num n
  | .str s => .str s.text
  | .arr _ l => .arr l.plain
  | .obj _ ms => .obj ms.plain
def Docs.plain : Docs → Plains
  | .nil => .nil
  | .cons d l => .cons d.plain l.plain
def Mems.plain : Mems → PMems
  | .nil => .nil
  | .cons k d ms => .cons k.text d.plain ms.plain
end

def Key.text : Key → Str
  | .own s => s
  | .cstr _ s => s
  | .sv _ s => s

def PMems.append : PMems → PMems → PMems
  | .nil, r => r
  | .cons k d ms, r => .cons k d (ms.append r)

mutual
/-- What an object says; `look` is what views show. -/
inductive Says (look : Loc → Option Plain) (skipNull : Bool) : Val → Plain → Prop
  | none : Says look skipNull .none .null
  | num (n : Int) : Says look skipNull (.num n) (.num n)
  | str (s : Str) : Says look skipNull (.str s) (.str s)
  | sv (m : Mem) (s : Str) : Says look skipNull (.sv m s) (.str s)
  | sref (m : Mem) (s : Str) : Says look skipNull (.sref m s) (.str s)
  | view {l : Loc} {p : Plain} : look l = some p → Says look skipNull (.view (some l)) p
  | seq {l : Vals} {ps : Plains} : SaysAll look skipNull l ps → Says look skipNull (.seq l) (.arr ps)
  | map {es : Ents} {ms : PMems} : SaysEnts look skipNull es ms → Says look skipNull (.map es) (.obj ms)
  | record {fs : Flds} {ms : PMems} : SaysFlds look skipNull fs ms → Says look skipNull (.record fs) (.obj ms)
inductive SaysAll (look : Loc → Option Plain) (skipNull : Bool) : Vals → Plains → Prop
  | nil : SaysAll look skipNull .nil .nil
  | cons {v : Val} {l : Vals} {p : Plain} {ps : Plains} : Says look skipNull v p → SaysAll look skipNull l ps →
      SaysAll look skipNull (.cons v l) (.cons p ps)
inductive SaysEnts (look : Loc → Option Plain) (skipNull : Bool) : Ents → PMems → Prop
  | nil : SaysEnts look skipNull .nil .nil
  /-- members that are null are left out -/
  | skip {k : Key} {es : Ents} {ms : PMems} : skipNull = true → SaysEnts look skipNull es ms →
      SaysEnts look skipNull (.cons k .none es) ms
  | cons {k : Key} {v : Val} {es : Ents} {p : Plain} {ms : PMems} : ¬ (skipNull = true ∧ v = .none) →
      Says look skipNull v p → SaysEnts look skipNull es ms →
      SaysEnts look skipNull (.cons k v es) (.cons k.text p ms)
inductive SaysFlds (look : Loc → Option Plain) (skipNull : Bool) : Flds → PMems → Prop
  | nil : SaysFlds look skipNull .nil .nil
  | skip {n : Str} {v : Val} {fs : Flds} {ms : PMems} : SaysFlds look skipNull fs ms →
      SaysFlds look skipNull (.cons n .skip v fs) ms
  | null {n : Str} {k : Kind} {fs : Flds} {ms : PMems} : skipNull = true → SaysFlds look skipNull fs ms →
      SaysFlds look skipNull (.cons n k .none fs) ms
  | plain {n : Str} {v : Val} {fs : Flds} {p : Plain} {ms : PMems} : ¬ (skipNull = true ∧ v = .none) →
      Says look skipNull v p → SaysFlds look skipNull fs ms →
      SaysFlds look skipNull (.cons n .plain v fs) (.cons n p ms)
  | extra {n : Str} {es : Ents} {fs : Flds} {ms ms' : PMems} : SaysEnts look skipNull es ms →
      SaysFlds look skipNull fs ms' →
      SaysFlds look skipNull (.cons n .extra (.map es) fs) (ms.append ms')
  | flatten {n : Str} {fs' fs : Flds} {ms ms' : PMems} : SaysFlds look skipNull fs' ms →
      SaysFlds look skipNull fs ms' →
      SaysFlds look skipNull (.cons n .flatten (.record fs') fs) (ms.append ms')
end

/-! ### Pointers -/

def Key.lends : Key → List Mem
  | .cstr m _ => [m]
  | _ => []

mutual
/-- The characters an object hands to rapidjson by pointer: its `StringRefType`s and the
`const char*` keys of its maps. -/
def Val.lends : Val → List Mem
  | .sref m _ => [m]
  | .seq l => l.lends
  | .map es => es.lends
  | .record fs => fs.lends
  | _ => []
def Vals.lends : Vals → List Mem
  | .nil => []
  | .cons v l => v.lends ++ l.lends
def Ents.lends : Ents → List Mem
  | .nil => []
  | .cons k v es => k.lends ++ (v.lends ++ es.lends)
def Flds.lends : Flds → List Mem
  | .nil => []
  | .cons _ _ v fs => v.lends ++ fs.lends
end

/-- The characters an operation hands over by pointer: also the names given to
`object_builder::add`. -/
def Op.lends : Op → List Mem
  | .object v => v.lends
  | .build ms _ => (ms.filter fun m => !m.dynamic).map (·.mem)
  | _ => []

mutual
/-- The type has no `string_view`s and no views. -/
def Ty.owning : Ty → Bool
  | .num => true
  | .str => true
  | .sv => false
  | .view => false
  | .opt t => t.owning
  | .vec t => t.owning
  | .map borrow t => !borrow && t.owning
  | .record fs => fs.owning
def TFlds.owning : TFlds → Bool
  | .nil => true
  | .cons _ _ _ t fs => t.owning && fs.owning
end

/-- The type is not a `string_view` or a view itself. -/
def Ty.deep : Ty → Bool
  | .sv => false
  | .view => false
  | .opt t => t.deep
  | _ => true

mutual
/-- The views of an object. -/
def Val.views : Val → List Loc
  | .view (some l) => [l]
  | .seq l => l.views
  | .map es => es.views
  | .record fs => fs.views
  | _ => []
def Vals.views : Vals → List Loc
  | .nil => []
  | .cons v l => v.views ++ l.views
def Ents.views : Ents → List Loc
  | .nil => []
  | .cons _ v es => v.views ++ es.views
def Flds.views : Flds → List Loc
  | .nil => []
  | .cons _ _ v fs => v.views ++ fs.views
end

/-! ### Reading -/

/-- The first member with a name. -/
inductive First (name : Str) : PMems → Plain → Prop
  | here (p : Plain) (ms : PMems) : First name (.cons name p ms) p
  | next {k : Str} {q p : Plain} {ms : PMems} : k ≠ name → First name ms p → First name (.cons k q ms) p

/-- `n` is the name of a field of the record or of a record that is flattened into it. -/
inductive Named : TFlds → Str → Prop
  | here {n : Str} {k : Kind} {miss : Bool} {t : Ty} {fs : TFlds} : k = .plain ∨ k = .skip →
      Named (.cons n k miss t fs) n
  | flat {n n' : Str} {miss : Bool} {fs' fs : TFlds} : Named fs' n → Named (.cons n' .flatten miss (.record fs') fs) n
  | next {n n' : Str} {k : Kind} {miss : Bool} {t : Ty} {fs : TFlds} : Named fs n → Named (.cons n' k miss t fs) n

mutual
/-- The object is what the value says, read as a type; `look` is what views show. -/
inductive Fits (look : Loc → Option Plain) : Ty → Plain → Val → Prop
  | num (n : Int) : Fits look .num (.num n) (.num n)
  | str (s : Str) : Fits look .str (.str s) (.str s)
  | sv (m : Mem) (s : Str) : Fits look .sv (.str s) (.sv m s)
  | view {l : Loc} {p : Plain} : look l = some p → Fits look .view p (.view (some l))
  | null {t : Ty} : Fits look (.opt t) .null .none
  | opt {t : Ty} {p : Plain} {v : Val} : p ≠ .null → Fits look t p v → Fits look (.opt t) p v
  | vec {t : Ty} {ps : Plains} {l : Vals} : FitsAll look t ps l → Fits look (.vec t) (.arr ps) (.seq l)
  | map {b : Bool} {t : Ty} {ms : PMems} {es : Ents} : FitsEnts look (fun _ => False) t ms es →
      Fits look (.map b t) (.obj ms) (.map es)
  | record {fs : TFlds} {ms : PMems} {r : Flds} : FitsFlds look (Named fs) fs ms r →
      Fits look (.record fs) (.obj ms) (.record r)
inductive FitsAll (look : Loc → Option Plain) : Ty → Plains → Vals → Prop
  | nil {t : Ty} : FitsAll look t .nil .nil
  | cons {t : Ty} {p : Plain} {ps : Plains} {v : Val} {l : Vals} : Fits look t p v → FitsAll look t ps l →
      FitsAll look t (.cons p ps) (.cons v l)
/-- Members whose names are in `ex` are left out. -/
inductive FitsEnts (look : Loc → Option Plain) : (Str → Prop) → Ty → PMems → Ents → Prop
  | nil {ex : Str → Prop} {t : Ty} : FitsEnts look ex t .nil .nil
  | skip {ex : Str → Prop} {t : Ty} {k : Str} {p : Plain} {ms : PMems} {es : Ents} : ex k →
      FitsEnts look ex t ms es → FitsEnts look ex t (.cons k p ms) es
  | cons {ex : Str → Prop} {t : Ty} {k : Key} {p : Plain} {ms : PMems} {v : Val} {es : Ents} : ¬ ex k.text →
      Fits look t p v → FitsEnts look ex t ms es → FitsEnts look ex t (.cons k.text p ms) (.cons k v es)
inductive FitsFlds (look : Loc → Option Plain) : (Str → Prop) → TFlds → PMems → Flds → Prop
  | nil {ex : Str → Prop} {ms : PMems} : FitsFlds look ex .nil ms .nil
  | found {ex : Str → Prop} {n : Str} {k : Kind} {miss : Bool} {t : Ty} {fs : TFlds} {ms : PMems} {p : Plain} {v : Val}
      {r : Flds} : k = .plain ∨ k = .skip → First n ms p → Fits look t p v → FitsFlds look ex fs ms r →
      FitsFlds look ex (.cons n k miss t fs) ms (.cons n k v r)
  /-- without the member, a field that may be missing is left as it is -/
  | missing {ex : Str → Prop} {n : Str} {k : Kind} {t : Ty} {fs : TFlds} {ms : PMems} {r : Flds} :
      k = .plain ∨ k = .skip → (∀ p, ¬ First n ms p) → FitsFlds look ex fs ms r →
      FitsFlds look ex (.cons n k true t fs) ms (.cons n k (fresh t) r)
  /-- and another is read as if the member was null -/
  | absent {ex : Str → Prop} {n : Str} {k : Kind} {t : Ty} {fs : TFlds} {ms : PMems} {v : Val} {r : Flds} :
      k = .plain ∨ k = .skip → (∀ p, ¬ First n ms p) → Fits look t .null v → FitsFlds look ex fs ms r →
      FitsFlds look ex (.cons n k false t fs) ms (.cons n k v r)
  | extra {ex : Str → Prop} {n : Str} {miss b : Bool} {t : Ty} {fs : TFlds} {ms : PMems} {es : Ents} {r : Flds} :
      FitsEnts look ex t ms es → FitsFlds look ex fs ms r →
      FitsFlds look ex (.cons n .extra miss (.map b t) fs) ms (.cons n .extra (.map es) r)
  | flatten {ex : Str → Prop} {n : Str} {miss : Bool} {fs' fs : TFlds} {ms : PMems} {r' r : Flds} :
      FitsFlds look (Named fs') fs' ms r' → FitsFlds look ex fs ms r →
      FitsFlds look ex (.cons n .flatten miss (.record fs') fs) ms (.cons n .flatten (.record r') r)
end

/-! ### Programs -/

/-- The empty world. -/
def start (short : Nat) : World := ⟨short, [], 0, [], []⟩

/-- A program: operations that throw or are not possible leave the world as it is. -/
inductive Runs : World → List Op → World → Prop
  | nil (w : World) : Runs w [] w
  | ok {w w' w'' : World} {op : Op} {ops : List Op} : step w op = .ok w' → Runs w' ops w'' → Runs w (op :: ops) w''
  | threw {w w'' : World} {op : Op} {ops : List Op} : step w op = .threw → Runs w ops w'' → Runs w (op :: ops) w''
  | off {w w'' : World} {op : Op} {ops : List Op} : step w op = .off → Runs w ops w'' → Runs w (op :: ops) w''

/-- Document `d` holds `x`. -/
def Has (w : World) (d : Nat) (x : Document) : Prop := w.docs[d]? = some x ∧ x.status = .intact

end Verif.Lifetime
