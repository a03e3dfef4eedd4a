import Verif.Lifetime.Lemmas
/-
Lemmas on deserialization for the properties of `Lifetime`.
-/
namespace Verif.Lifetime
open Verif.Path

/-! ### Members -/

/-- Member `i` of an object. -/
inductive MemAt : Mems → Nat → JStr → Doc → Prop
  | head (k : JStr) (d : Doc) (ms : Mems) : MemAt (.cons k d ms) 0 k d
  | tail {k' : JStr} {d' : Doc} {ms : Mems} {i : Nat} {k : JStr} {d : Doc} : MemAt ms i k d →
      MemAt (.cons k' d' ms) (i + 1) k d

inductive ElemAt : Docs → Nat → Doc → Prop
  | head (d : Doc) (l : Docs) : ElemAt (.cons d l) 0 d
  | tail {d' : Doc} {l : Docs} {i : Nat} {d : Doc} : ElemAt l i d → ElemAt (.cons d' l) (i + 1) d

theorem MemAt.get {ms : Mems} {i : Nat} {k : JStr} {d : Doc} (h : MemAt ms i k d) : ms.get? i = some d := by
  induction h with
  | head => rfl
  | tail _ ih => exact ih

theorem ElemAt.get {l : Docs} {i : Nat} {d : Doc} (h : ElemAt l i d) : l.get? i = some d := by
  induction h with
  | head => rfl
  | tail _ ih => exact ih

theorem MemAt.mems {ms : Mems} {i : Nat} {k : JStr} {d : Doc} (h : MemAt ms i k d) (a : Nat) :
    (∀ m ∈ d.mems (.pool a), m ∈ ms.mems a) ∧ k.mem (.pool a) ∈ ms.mems a := by
  induction h with
  | head k d ms =>
    refine ⟨fun m hm => ?_, ?_⟩
    · simp [Mems.mems, hm]
    · simp [Mems.mems]
  | tail _ ih =>
    refine ⟨fun m hm => ?_, ?_⟩
    · simp [Mems.mems, ih.1 m hm]
    · simp [Mems.mems, ih.2]

theorem ElemAt.mems {l : Docs} {i : Nat} {d : Doc} (h : ElemAt l i d) (a : Nat) :
    ∀ m ∈ d.mems (.pool a), m ∈ l.mems a := by
  induction h with
  | head d l => intro m hm; simp [Docs.mems, hm]
  | tail _ ih => intro m hm; simp [Docs.mems, ih m hm]

theorem MemAt.within {a : Nat} {ms : Mems} {i : Nat} {k : JStr} {d : Doc} (h : MemAt ms i k d) (hw : ms.within a) :
    d.within a := by
  induction h with
  | head => exact hw.2.1
  | tail _ ih => exact ih hw.2.2

theorem ElemAt.within {a : Nat} {l : Docs} {i : Nat} {d : Doc} (h : ElemAt l i d) (hw : l.within a) :
    d.within a := by
  induction h with
  | head => exact hw.1
  | tail _ ih => exact ih hw.2

theorem findMem_some {a : Nat} {p : List Nat} {name : Str} {l' : Loc} {d' : Doc} :
    ∀ {ms : Mems} {i : Nat}, findMem a p name ms i = some (l', d') →
      ∃ j k, l' = .node a (p ++ [i + j]) ∧ MemAt ms j k d'
  | .nil, i, h => by simp [findMem] at h
  | .cons k d ms, i, h => by
    simp only [findMem] at h
    split at h
    · cases h
      exact ⟨0, k, rfl, .head _ _ _⟩
    · obtain ⟨j, k', h1, h2⟩ := findMem_some h
      refine ⟨j + 1, k', ?_, .tail h2⟩
      rw [h1, Nat.add_assoc, Nat.add_comm 1 j]

/-! ### What holds of the parts holds of what is read -/

/-- `P` is kept by putting objects together. -/
structure Closed (P : Val → Prop) (K : Key → Prop) : Prop where
  none : P .none
  num (n : Int) : P (.num n)
  str (s : Str) : P (.str s)
  sv0 : P (.sv .static [])
  view0 : P (.view Option.none)
  own (s : Str) : K (.own s)

mutual
/-- All leaves of an object satisfy `P`, all keys `K`. -/
def Val.all (P : Val → Prop) (K : Key → Prop) : Val → Prop
  | .seq l => l.all P K
  | .map es => es.all P K
  | .record fs => fs.all P K
  | v => P v
def Vals.all (P : Val → Prop) (K : Key → Prop) : Vals → Prop
  | .nil => True
  | .cons v l => v.all P K ∧ l.all P K
def Ents.all (P : Val → Prop) (K : Key → Prop) : Ents → Prop
  | .nil => True
  | .cons k v es => K k ∧ v.all P K ∧ es.all P K
def Flds.all (P : Val → Prop) (K : Key → Prop) : Flds → Prop
  | .nil => True
  | .cons _ _ v fs => v.all P K ∧ fs.all P K
end

mutual
theorem fresh_all {P : Val → Prop} {K : Key → Prop} (hc : Closed P K) : ∀ t : Ty, (fresh t).all P K
  | .num => hc.num 0
  | .str => hc.str []
  | .sv => hc.sv0
  | .view => hc.view0
  | .opt _ => hc.none
  | .vec _ => trivial
  | .map _ _ => trivial
  | .record fs => freshFlds_all hc fs
theorem freshFlds_all {P : Val → Prop} {K : Key → Prop} (hc : Closed P K) : ∀ fs : TFlds, (freshFlds fs).all P K
  | .nil => trivial
  | .cons _ _ _ t fs => ⟨fresh_all hc t, freshFlds_all hc fs⟩
end

theorem deserVec_all {P : Val → Prop} {K : Key → Prop} {f : Loc → Doc → Option Val} {a : Nat} {p : List Nat} :
    ∀ {l : Docs} {i : Nat} {r : Vals},
      (∀ j d v, ElemAt l j d → f (.node a (p ++ [i + j])) d = some v → v.all P K) →
      deserVec f a p l i = some r → r.all P K
  | .nil, i, r, _, h => by
    simp only [deserVec, Option.some.injEq] at h
    subst h
    trivial
  | .cons d l, i, r, hf, h => by
    simp only [deserVec] at h
    split at h
    · cases h
    · next v hv =>
      simp only [Option.map_eq_some_iff] at h
      obtain ⟨r', h1, rfl⟩ := h
      refine ⟨hf 0 d v (.head _ _) hv, deserVec_all (fun j d v hd hv => ?_) h1⟩
      refine hf (j + 1) d v (.tail hd) ?_
      rw [← hv, Nat.add_assoc, Nat.add_comm 1 j]

theorem deserMap_all {P : Val → Prop} {K : Key → Prop} {f : Loc → Doc → Option Val} {a : Nat} {p : List Nat}
    {borrow : Bool} {ex : List Str} (hown : ∀ s, K (.own s)) :
    ∀ {l : Mems} {i : Nat} {r : Ents},
      (∀ j k d v, MemAt l j k d → f (.node a (p ++ [i + j])) d = some v → v.all P K) →
      (borrow = true → ∀ j k d, MemAt l j k d → K (.sv (k.mem (.pool a)) k.text)) →
      deserMap f a p borrow ex l i = some r → r.all P K
  | .nil, i, r, _, _, h => by
    simp only [deserMap, Option.some.injEq] at h
    subst h
    trivial
  | .cons k d l, i, r, hf, hk, h => by
    have ih : ∀ {r : Ents}, deserMap f a p borrow ex l (i + 1) = some r → r.all P K := by
      intro r h1
      refine deserMap_all hown (fun j k d v hd hv => ?_) (fun hb j k d hd => hk hb (j + 1) k d (.tail hd)) h1
      refine hf (j + 1) k d v (.tail hd) ?_
      rw [← hv, Nat.add_assoc, Nat.add_comm 1 j]
    simp only [deserMap] at h
    split at h
    · exact ih h
    · split at h
      · cases h
      · next v hv =>
        simp only [Option.map_eq_some_iff] at h
        obtain ⟨r', h1, rfl⟩ := h
        refine ⟨?_, hf 0 k d v (.head _ _ _) hv, ih h1⟩
        cases hb : borrow
        · exact hown _
        · exact hk hb 0 k d (.head _ _ _)

/-- `Q l d` says that the value `d` is at `l`; it holds of the elements of a value for which
it holds. -/
structure Walks (Q : Loc → Doc → Prop) : Prop where
  null : Q .null .null
  elem {l : Loc} {a : Nat} {ds : Docs} {i : Nat} {d : Doc} : Q l (.arr a ds) → ElemAt ds i d →
    Q (.node a (l.path ++ [i])) d
  member {l : Loc} {a : Nat} {ms : Mems} {i : Nat} {k : JStr} {d : Doc} : Q l (.obj a ms) → MemAt ms i k d →
    Q (.node a (l.path ++ [i])) d

/-- What `P` and `K` say holds of the leaves and keys that are read at `Q`. -/
structure Leaves (Q : Loc → Doc → Prop) (P : Val → Prop) (K : Key → Prop) : Prop extends Closed P K where
  sv {l : Loc} {s : JStr} : Q l (.str s) → P (.sv (s.mem l.mem) s.text)
  view {l : Loc} {d : Doc} : Q l d → P (.view (some l))
  key {l : Loc} {a : Nat} {ms : Mems} {i : Nat} {k : JStr} {d : Doc} : Q l (.obj a ms) → MemAt ms i k d →
    K (.sv (k.mem (.pool a)) k.text)

mutual
theorem deser_all {Q : Loc → Doc → Prop} {P : Val → Prop} {K : Key → Prop} (hw : Walks Q) (hl : Leaves Q P K) :
    ∀ {t : Ty} {l : Loc} {d : Doc} {v : Val}, Q l d → deser t l d = some v → v.all P K
  | .num, l, d, v, hq, h => by
    cases d <;> simp only [deser, reduceCtorEq, Option.some.injEq] at h
    subst h
    exact hl.num _
  | .str, l, d, v, hq, h => by
    cases d <;> simp only [deser, reduceCtorEq, Option.some.injEq] at h
    subst h
    exact hl.str _
  | .sv, l, d, v, hq, h => by
    cases d <;> simp only [deser, reduceCtorEq, Option.some.injEq] at h
    subst h
    exact hl.sv hq
  | .view, l, d, v, hq, h => by
    simp only [deser, Option.some.injEq] at h
    subst h
    exact hl.view hq
  | .opt t, l, d, v, hq, h => by
    simp only [deser] at h
    split at h
    · cases h; exact hl.none
    · exact deser_all hw hl hq h
  | .vec t, l, d, v, hq, h => by
    cases d <;> simp only [deser, reduceCtorEq, Option.map_eq_some_iff] at h
    obtain ⟨r, h1, rfl⟩ := h
    refine deserVec_all (r := r) (fun j d v hd hv => ?_) h1
    rw [Nat.zero_add] at hv
    exact deser_all hw hl (hw.elem hq hd) hv
  | .map b t, l, d, v, hq, h => by
    cases d <;> simp only [deser, reduceCtorEq, Option.map_eq_some_iff] at h
    obtain ⟨r, h1, rfl⟩ := h
    refine deserMap_all (r := r) hl.own (fun j k d v hd hv => ?_) (fun _ j k d hd => hl.key hq hd) h1
    rw [Nat.zero_add] at hv
    exact deser_all hw hl (hw.member hq hd) hv
  | .record fs, l, d, v, hq, h => by
    cases d <;> simp only [deser, reduceCtorEq, Option.map_eq_some_iff] at h
    obtain ⟨r, h1, rfl⟩ := h
    exact deserFlds_all hw hl hq h1
theorem deserFlds_all {Q : Loc → Doc → Prop} {P : Val → Prop} {K : Key → Prop} (hw : Walks Q) (hl : Leaves Q P K)
    {ex : List Str} :
    ∀ {fs : TFlds} {a : Nat} {l : Loc} {ms : Mems} {v : Flds}, Q l (.obj a ms) → deserFlds ex fs a l ms = some v →
      v.all P K
  | .nil, a, l, ms, v, hq, h => by
    simp only [deserFlds, Option.some.injEq] at h
    subst h
    trivial
  | .cons name kind miss t fs, a, l, ms, v, hq, h => by
    have plain : ∀ {v : Val}, (match findMem a l.path name ms 0 with
        | some (l', d') => deser t l' d'
        | none => if miss then some (fresh t) else deser t .null .null) = some v → v.all P K := by
      intro v h
      split at h
      · next l' d' hf =>
        obtain ⟨j, k, rfl, hm⟩ := findMem_some hf
        rw [Nat.zero_add] at h
        exact deser_all hw hl (hw.member hq hm) h
      · split at h
        · cases h; exact fresh_all hl.toClosed t
        · exact deser_all hw hl hw.null h
    simp only [deserFlds] at h
    split at h
    · cases h
    · next x hx =>
      simp only [Option.map_eq_some_iff] at h
      obtain ⟨r, h1, rfl⟩ := h
      refine ⟨?_, deserFlds_all hw hl hq h1⟩
      cases kind with
      | extra => exact deserExtra_all hw hl hq hx
      | flatten => exact deserFlat_all hw hl hq hx
      | plain => exact plain hx
      | skip => exact plain hx
theorem deserExtra_all {Q : Loc → Doc → Prop} {P : Val → Prop} {K : Key → Prop} (hw : Walks Q) (hl : Leaves Q P K)
    {ex : List Str} :
    ∀ {t : Ty} {a : Nat} {l : Loc} {ms : Mems} {v : Val}, Q l (.obj a ms) → deserExtra ex t a l ms = some v →
      v.all P K
  | .map _ t, a, l, ms, v, hq, h => by
    simp only [deserExtra, Option.map_eq_some_iff] at h
    obtain ⟨r, h1, rfl⟩ := h
    refine deserMap_all (r := r) hl.own (fun j k d v hd hv => ?_) (fun _ j k d hd => hl.key hq hd) h1
    rw [Nat.zero_add] at hv
    exact deser_all hw hl (hw.member hq hd) hv
  | .num, _, _, _, _, _, h | .str, _, _, _, _, _, h | .sv, _, _, _, _, _, h | .view, _, _, _, _, _, h
  | .opt _, _, _, _, _, _, h | .vec _, _, _, _, _, _, h | .record _, _, _, _, _, _, h => by simp [deserExtra] at h
theorem deserFlat_all {Q : Loc → Doc → Prop} {P : Val → Prop} {K : Key → Prop} (hw : Walks Q) (hl : Leaves Q P K) :
    ∀ {t : Ty} {a : Nat} {l : Loc} {ms : Mems} {v : Val}, Q l (.obj a ms) → deserFlat t a l ms = some v →
      v.all P K
  | .record fs, a, l, ms, v, hq, h => by
    simp only [deserFlat, Option.map_eq_some_iff] at h
    obtain ⟨r, h1, rfl⟩ := h
    exact deserFlds_all hw hl hq h1
  | .num, _, _, _, _, _, h | .str, _, _, _, _, _, h | .sv, _, _, _, _, _, h | .view, _, _, _, _, _, h
  | .opt _, _, _, _, _, _, h | .vec _, _, _, _, _, _, h | .map _ _, _, _, _, _, _, h => by simp [deserFlat] at h
end

end Verif.Lifetime
