import Verif.Ctti.Model

/-! C67: reflection visits each field once, bases first; attribute lookup. -/

namespace Verif.Ctti

variable {σ : Type}

/-! ### Specification: places of fields in the hierarchy -/

/-- Where a field is: the way down the bases, and its index among the own fields there. -/
structure Place where
  way : List Nat
  index : Nat
  deriving DecidableEq, Repr

/-- The field at a place. -/
def fieldAt : Rec → List Nat → Nat → Option Field
  | .mk _ fields, [], i => fields[i]?
  | .mk bases _, b :: way, i =>
    match bases[b]? with
    | none => none
    | some r => fieldAt r way i

/-- Declaration order: everything of an earlier base, then of a later base, then the own fields
in their order. -/
def before : List Nat → Nat → List Nat → Nat → Prop
  | [], i, [], j => i < j
  | [], _, _ :: _, _ => False
  | _ :: _, _, [], _ => True
  | b :: p, i, c :: q, j => b < c ∨ (b = c ∧ before p i q j)

/-! ### The traversal with places -/

mutual
def places : Rec → List (Place × Field)
  | .mk bases fields => basePlaces 0 bases ++ (fields.zipIdx.map fun x => (⟨[], x.2⟩, x.1))
def basePlaces (k : Nat) : List Rec → List (Place × Field)
  | [] => []
  | b :: bs => ((places b).map fun x => (⟨k :: x.1.way, x.1.index⟩, x.2)) ++ basePlaces (k + 1) bs
end

theorem visMembers_foldl (fac : Factory) (vis : σ → Field → σ) (fs : List Field) (s : σ) :
    visMembers fac vis fs s = fs.foldl (fun s f => vis s (fac f)) s := by
  induction fs generalizing s with
  | nil => rfl
  | cons f fs ih => simp [visMembers, ih]

theorem zipIdx_fst (l : List Field) (k : Nat) : (l.zipIdx k).map (·.1) = l := by
  induction l generalizing k with
  | nil => rfl
  | cons f l ih => simp [List.zipIdx_cons, ih]

mutual
theorem reflect_places (fac : Factory) (vis : σ → Field → σ) : ∀ (r : Rec) (s : σ),
    reflectFields fac vis r s = (places r).foldl (fun s x => vis s (fac x.2)) s
  | .mk bases fields, s => by
    simp only [reflectFields, places, List.foldl_append, visMembers_foldl, bases_places fac vis bases 0]
    rw [List.foldl_map]
    generalize (basePlaces 0 bases).foldl _ _ = s'
    conv => lhs; rw [← zipIdx_fst fields 0, List.foldl_map]
theorem bases_places (fac : Factory) (vis : σ → Field → σ) : ∀ (bs : List Rec) (k : Nat) (s : σ),
    visBases fac vis bs s = (basePlaces k bs).foldl (fun s x => vis s (fac x.2)) s
  | [], k, s => rfl
  | b :: bs, k, s => by
    simp only [visBases, basePlaces, List.foldl_append, List.foldl_map]
    rw [bases_places fac vis bs (k + 1), reflect_places fac vis b]
end

mutual
theorem places_mem : ∀ (r : Rec) (way : List Nat) (i : Nat) (f : Field),
    (⟨way, i⟩, f) ∈ places r ↔ fieldAt r way i = some f
  | .mk bases fields, way, i, f => by
    simp only [places, List.mem_append, List.mem_map, Prod.mk.injEq, Place.mk.injEq]
    rw [bases_mem bases 0 way i f]
    cases way with
    | nil =>
      simp only [fieldAt]
      constructor
      · rintro (⟨b, p, h, _⟩ | ⟨⟨g, j⟩, h, ⟨-, rfl⟩, rfl⟩)
        · cases h
        · have := List.mem_zipIdx_iff_getElem?.mp h
          simpa using this
      · intro h
        right
        exact ⟨(f, i), List.mem_zipIdx_iff_getElem?.mpr (by simpa using h), by simp⟩
    | cons b p =>
      simp only [fieldAt]
      constructor
      · rintro (⟨b', p', h, r, hr, hf⟩ | ⟨_, _, ⟨h, -⟩, -⟩)
        · simp only [List.cons.injEq] at h
          obtain ⟨rfl, rfl⟩ := h
          rw [Nat.zero_add, hr]; exact hf
        · cases h
      · intro h
        left
        cases hb : bases[b]? with
        | none => simp [hb] at h
        | some r =>
          simp [hb] at h
          exact ⟨b, p, by simp, r, hb, h⟩
theorem bases_mem : ∀ (bs : List Rec) (k : Nat) (way : List Nat) (i : Nat) (f : Field),
    (⟨way, i⟩, f) ∈ basePlaces k bs ↔
      ∃ b p, way = (k + b) :: p ∧ ∃ r, bs[b]? = some r ∧ fieldAt r p i = some f
  | [], k, way, i, f => by simp [basePlaces]
  | r :: bs, k, way, i, f => by
    simp only [basePlaces, List.mem_append, List.mem_map, Prod.mk.injEq, Place.mk.injEq]
    rw [bases_mem bs (k + 1) way i f]
    constructor
    · rintro (⟨⟨⟨w, j⟩, g⟩, h, ⟨h1, h2⟩, h3⟩ | ⟨b, p, h1, r', h2, h3⟩)
      · simp only at h1 h2 h3
        subst h1 h2 h3
        exact ⟨0, w, by simp, r, by simp, (places_mem r w j g).mp h⟩
      · exact ⟨b + 1, p, by rw [h1]; congr 1; omega, r', by simpa using h2, h3⟩
    · rintro ⟨b, p, h1, r', h2, h3⟩
      cases b with
      | zero =>
        simp at h2
        subst h2
        left
        exact ⟨(⟨p, i⟩, f), (places_mem r p i f).mpr h3, by simp [h1]⟩
      | succ b =>
        right
        exact ⟨b, p, by rw [h1]; congr 1; omega, r', by simpa using h2, h3⟩
end

def Before (x y : Place × Field) : Prop := before x.1.way x.1.index y.1.way y.1.index

theorem zipIdx_pairwise (l : List Field) (k : Nat) : (l.zipIdx k).Pairwise fun a b => a.2 < b.2 := by
  induction l generalizing k with
  | nil => simp
  | cons f l ih =>
    rw [List.zipIdx_cons, List.pairwise_cons]
    refine ⟨?_, ih (k + 1)⟩
    intro a ha
    have := List.le_snd_of_mem_zipIdx ha
    simp at this ⊢
    omega

mutual
theorem places_order : ∀ r : Rec, (places r).Pairwise Before
  | .mk bases fields => by
    simp only [places, List.pairwise_append, List.pairwise_map]
    refine ⟨bases_order bases 0, ?_, ?_⟩
    · exact (zipIdx_pairwise fields 0).imp (fun h => h)
    · intro x hx y hy
      obtain ⟨b, p, h, -⟩ := (bases_mem bases 0 x.1.way x.1.index x.2).mp hx
      simp only [List.mem_map] at hy
      obtain ⟨z, -, rfl⟩ := hy
      simp [Before, h, before]
theorem bases_order : ∀ (bs : List Rec) (k : Nat), (basePlaces k bs).Pairwise Before
  | [], k => by simp [basePlaces]
  | r :: bs, k => by
    simp only [basePlaces, List.pairwise_append, List.pairwise_map]
    refine ⟨?_, bases_order bs (k + 1), ?_⟩
    · exact (places_order r).imp (fun h => Or.inr ⟨rfl, h⟩)
    · intro x hx y hy
      simp only [List.mem_map] at hx
      obtain ⟨z, -, rfl⟩ := hx
      obtain ⟨b, p, h, -⟩ := (bases_mem bs (k + 1) y.1.way y.1.index y.2).mp hy
      simp only [Before, h, before]
      left; omega
end

theorem before_irrefl : ∀ (p : List Nat) (i : Nat), ¬ before p i p i
  | [], i => by simp [before]
  | b :: p, i => by simp [before, before_irrefl p i]

mutual
theorem places_length : ∀ r : Rec, (places r).length = numFields r
  | .mk bases fields => by simp [places, numFields, bases_length bases 0]; omega
theorem bases_length : ∀ (bs : List Rec) (k : Nat), (basePlaces k bs).length = numBaseFields bs
  | [], k => rfl
  | r :: bs, k => by simp [basePlaces, numBaseFields, places_length r, bases_length bs (k + 1)]
end

/-- C67: there is a list `ps` of places with: every place that holds a field of the hierarchy is
in it exactly once, with its field; places come in declaration order, bases first; any visitor
run by `reflect_object` is called exactly on these fields in this order; `num_fields` is the
number of calls. -/
theorem C67_visits (r : Rec) : ∃ ps : List (Place × Field),
    (∀ p f, (p, f) ∈ ps ↔ fieldAt r p.way p.index = some f) ∧
    (ps.map (·.1)).Nodup ∧
    ps.Pairwise (fun x y => before x.1.way x.1.index y.1.way y.1.index) ∧
    (∀ {σ : Type} (vis : σ → Field → σ) (s : σ),
      reflectObject r vis s = (ps.map (·.2)).foldl vis s) ∧
    numFields r = ps.length := by
  refine ⟨places r, fun p f => places_mem r p.way p.index f, ?_, places_order r, ?_, (places_length r).symm⟩
  · rw [List.Nodup, List.pairwise_map]
    refine (places_order r).imp ?_
    intro a b h e
    rw [Before, e] at h
    exact before_irrefl _ _ h
  · intro σ vis s
    simp [reflectObject, reflect_places, List.foldl_map]

/-- The names visited, in order. -/
def visitedNames (r : Rec) : List String := reflectObject r (fun l f => l ++ [f.name]) []

example :
    let a := Rec.mk [] [⟨"i", []⟩, ⟨"b", []⟩]
    let b := Rec.mk [a, .mk [] [⟨"x", []⟩]] [⟨"str", []⟩]
    visitedNames b = ["i", "b", "x", "str"] ∧ numFields b = 4 := by
  decide +kernel

theorem filterAttributes_eq (keep : Nat → Bool) (l : List Attr) :
    filterAttributes keep l = l.filter fun a => keep a.type := by
  induction l with
  | nil => rfl
  | cons a l ih =>
    simp only [filterAttributes, filterOne, ih, List.filter_cons]
    split <;> simp

/-- C67: `reflect_type` visits the same fields in the same order; each carries exactly those
of its attributes the filter keeps, in order; without a filter nothing changes. -/
theorem C67_type (keep : Nat → Bool) (r : Rec) (vis : σ → Field → σ) (s : σ) :
    reflectType keep r vis s =
      reflectObject r (fun s f => vis s ⟨f.name, f.attrs.filter fun a => keep a.type⟩) s ∧
    reflectType allFilter r vis s = reflectObject r vis s := by
  constructor
  · simp [reflectType, reflectObject, reflect_places, typeFactory, filterAttributes_eq]
  · simp [reflectType, reflectObject, reflect_places, typeFactory, filterAttributes_eq, allFilter,
      (fun l => List.filter_eq_self.mpr (by simp) : ∀ l : List Attr, l.filter (fun _ => true) = l)]

example : reflectType (fun t => t == 1) (.mk [] [⟨"i", [⟨1, 5⟩, ⟨2, 6⟩]⟩]) (fun l f => l ++ [f]) [] =
    [⟨"i", [⟨1, 5⟩]⟩] := by decide +kernel

theorem getImpl_eq (m : Nat → Nat → Bool) (q : Nat) (l : List Attr) :
    getImpl m q l = l.find? fun a => m q a.type := by
  induction l with
  | nil => rfl
  | cons a l ih =>
    simp only [getImpl, List.find?_cons]
    split <;> simp_all

theorem visitLoop_eq (m : Nat → Nat → Bool) (q : Nat) (l : List Attr) :
    visitLoop m q l = l.filter fun a => m q a.type := by
  induction l with
  | nil => rfl
  | cons a l ih =>
    simp only [visitLoop, List.filter_cons, ih]

/-- C67: `has` is true iff an attribute that matches was given, `get` finds one exactly then,
the first that was given, and `visit_attributes` visits all of them in order. -/
theorem C67_attributes (m : Nat → Nat → Bool) (f : Field) (q : Nat) :
    (f.has m q = true ↔ ∃ a ∈ f.attrs, m q a.type = true) ∧
    ((f.get m q).isSome = f.has m q) ∧
    (∀ a, f.get m q = some a ↔ m q a.type = true ∧ ∃ as bs, f.attrs = as ++ a :: bs ∧
      ∀ b ∈ as, m q b.type = false) ∧
    f.visitAttributes m q = f.attrs.filter (fun a => m q a.type) := by
  refine ⟨by simp [Field.has], ?_, ?_, ?_⟩
  · rw [Field.get, getImpl_eq, Bool.eq_iff_iff, List.find?_isSome]
    simp [Field.has]
  · intro a
    rw [Field.get, getImpl_eq, List.find?_eq_some_iff_append]
    simp
  · rw [Field.visitAttributes, visitLoop_eq]
    split
    · rfl
    · rename_i h
      symm
      rw [List.filter_eq_nil_iff]
      intro a ha h2
      exact h (by simp only [Field.has, List.any_eq_true]; exact ⟨a, ha, h2⟩)

example : (⟨"i", [⟨1, 5⟩, ⟨2, 6⟩, ⟨2, 7⟩]⟩ : Field).get (· == ·) 2 = some ⟨2, 6⟩ := by decide

/-- C67: `has_any_attribute` is true iff some field anywhere in the hierarchy has an attribute
that matches one of the queries.  The filter it uses does not hide any of them. -/
theorem C67_any (m : Nat → Nat → Bool) (r : Rec) (qs : List Nat) :
    hasAnyAttribute m r qs = true ↔
      ∃ way i f, fieldAt r way i = some f ∧ ∃ q ∈ qs, ∃ a ∈ f.attrs, m q a.type = true := by
  have key : ∀ (l : List (Place × Field)) (g : Field → Bool) (s : Bool),
      l.foldl (fun result x => if g x.2 then true else result) s = (s || l.any fun x => g x.2) := by
    intro l g
    induction l with
    | nil => intro s; simp
    | cons x l ih =>
      intro s
      simp only [List.foldl_cons, ih, List.any_cons]
      cases g x.2 <;> cases s <;> simp
  unfold hasAnyAttribute reflectType
  rw [reflect_places]
  rw [key (places r) (fun f => qs.any fun q => (typeFactory (anyFilter m qs) f).has m q) false]
  simp only [Bool.false_or, List.any_eq_true]
  constructor
  · rintro ⟨⟨p, f⟩, hx, q, hq, h⟩
    simp only [Field.has, typeFactory, filterAttributes_eq, List.any_eq_true, List.mem_filter] at h
    obtain ⟨a, ⟨ha, -⟩, h⟩ := h
    exact ⟨p.way, p.index, f, (places_mem r p.way p.index f).mp hx, q, hq, a, ha, h⟩
  · rintro ⟨way, i, f, hf, q, hq, a, ha, h⟩
    refine ⟨(⟨way, i⟩, f), (places_mem r way i f).mpr hf, q, hq, ?_⟩
    simp only [Field.has, typeFactory, filterAttributes_eq, List.any_eq_true, List.mem_filter]
    exact ⟨a, ⟨ha, by simp only [anyFilter, List.any_eq_true]; exact ⟨q, hq, h⟩⟩, h⟩

example : hasAnyAttribute (· == ·) (.mk [.mk [] [⟨"i", [⟨1, 5⟩]⟩]] []) [3, 1] = true := by
  decide +kernel

end Verif.Ctti
