/-
Model of `ctti.hpp` and `reflect_struct.hpp`.  A reflected type is the tree its macros
declare.  Attribute types are numbers and `m q a` is `attribute_matches_v<q, a>`
(ctti.hpp:18-20: same type or pointer convertible).  A visitor is a function on a state.
-/
namespace Verif.Ctti

/-- An attribute object: its type and its value. (ctti.hpp:101 `std::tuple<Attributes...> attributes_`) -/
structure Attr where
  type : Nat
  value : Nat
  deriving DecidableEq, Repr

/-- ctti.hpp:26-102 `field_data`: name and attributes. -/
structure Field where
  name : String
  attrs : List Attr
  deriving DecidableEq, Repr

/-- A type reflected by `KL_REFLECT_STRUCT` (no bases) or `KL_REFLECT_STRUCT_DERIVED`
(reflect_struct.hpp:120-132): bases and own fields in the order of the macro arguments. -/
inductive Rec
  | mk (bases : List Rec) (fields : List Field)

variable {σ : Type}

/-- What the factory makes of a declared field. (ctti.hpp:225-250 and 288-299) -/
abbrev Factory := Field → Field

/-- reflect_struct.hpp:182-183, 191-200 `VIS_MEMBERS`. -/
def visMembers (fac : Factory) (vis : σ → Field → σ) : List Field → σ → σ
  | [], s => s
  | f :: fs, s => visMembers fac vis fs (vis s (fac f))

mutual
/-- reflect_struct.hpp:144-150, 166-173 `reflect_struct_fields`. -/
def reflectFields (fac : Factory) (vis : σ → Field → σ) : Rec → σ → σ
  | .mk bases fields, s => visMembers fac vis fields (visBases fac vis bases s)

/-- reflect_struct.hpp:185-186, 202-203 `VIS_BASES`. -/
def visBases (fac : Factory) (vis : σ → Field → σ) : List Rec → σ → σ
  | [], s => s
  | b :: bs, s => visBases fac vis bs (reflectFields fac vis b s)
end

mutual
/-- reflect_struct.hpp:152-156, 175-180 `reflect_num_fields`; ctti.hpp:372-381. -/
def numFields : Rec → Nat
  | .mk bases fields => fields.length + numBaseFields bases

/-- reflect_struct.hpp:188-189, 205-206 `NUM_BASE_FIELDS`. -/
def numBaseFields : List Rec → Nat
  | [] => 0
  | b :: bs => numFields b + numBaseFields bs
end

/-- ctti.hpp:280-303, 325-334 `reflect_object`: the runtime factory keeps all attributes. -/
def reflectObject (r : Rec) (vis : σ → Field → σ) (s : σ) : σ := reflectFields id vis r s

/-- ctti.hpp:254-267 `filter_one_attribute`. -/
def filterOne (keep : Nat → Bool) (a : Attr) : List Attr := if keep a.type then [a] else []

/-- ctti.hpp:269-274 `filter_attributes` (`tuple_cat`). -/
def filterAttributes (keep : Nat → Bool) : List Attr → List Attr
  | [] => []
  | a :: as => filterOne keep a ++ filterAttributes keep as

/-- ctti.hpp:225-233 `type_field_factory::field`. -/
def typeFactory (keep : Nat → Bool) : Factory := fun f => { f with attrs := filterAttributes keep f.attrs }

/-- ctti.hpp:359-370 `reflect_type`. -/
def reflectType (keep : Nat → Bool) (r : Rec) (vis : σ → Field → σ) (s : σ) : σ :=
  reflectFields (typeFactory keep) vis r s

/-- ctti.hpp:337-344 `all_attributes_filter`. -/
def allFilter : Nat → Bool := fun _ => true

/-- ctti.hpp:346-357 `any_attribute_filter`. -/
def anyFilter (m : Nat → Nat → Bool) (qs : List Nat) : Nat → Bool := fun a => qs.any fun q => m q a

/-- ctti.hpp:40-44 `has`. -/
def Field.has (m : Nat → Nat → Bool) (f : Field) (q : Nat) : Bool := f.attrs.any fun a => m q a.type

/-- ctti.hpp:77-97 `get_impl` (46-50 `get`); `none` is the null pointer. -/
def getImpl (m : Nat → Nat → Bool) (q : Nat) : List Attr → Option Attr
  | [] => none
  | a :: as => if m q a.type then some a else getImpl m q as

/-- ctti.hpp:46-50 `get`. -/
def Field.get (m : Nat → Nat → Bool) (f : Field) (q : Nat) : Option Attr := getImpl m q f.attrs

/-- ctti.hpp:58-74 `visit_attributes<Attribute>`: the attributes visited, in order. -/
def visitLoop (m : Nat → Nat → Bool) (q : Nat) : List Attr → List Attr
  | [] => []
  | a :: as => if m q a.type then a :: visitLoop m q as else visitLoop m q as

/-- ctti.hpp:58-74 `visit_attributes<Attribute>`. -/
def Field.visitAttributes (m : Nat → Nat → Bool) (f : Field) (q : Nat) : List Attr :=
  if f.has m q then visitLoop m q f.attrs else []

/-- ctti.hpp:383-401 `has_any_attribute`. -/
def hasAnyAttribute (m : Nat → Nat → Bool) (r : Rec) (qs : List Nat) : Bool :=
  reflectType (anyFilter m qs) r (fun result f => if qs.any (fun q => f.has m q) then true else result)
    false

end Verif.Ctti
