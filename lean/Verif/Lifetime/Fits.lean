import Verif.Lifetime.Inv
/-
Deserialization reads what the document says.
-/
namespace Verif.Lifetime
open Verif.Path

mutual
theorem named_iff : ∀ {fs : TFlds} {n : Str}, n ∈ reserved fs ↔ Named fs n
  | .nil, n => by simp only [reserved, List.not_mem_nil, false_iff]; intro h; cases h
  | .cons n' .plain miss t fs, n => by
    simp only [reserved, List.mem_cons, named_iff (fs := fs)]
    constructor
    · rintro (rfl | h)
      · exact .here (.inl rfl)
      · exact .next h
    · intro h
      cases h with
      | here => exact .inl rfl
      | next h => exact .inr h
  | .cons n' .skip miss t fs, n => by
    simp only [reserved, List.mem_cons, named_iff (fs := fs)]
    constructor
    · rintro (rfl | h)
      · exact .here (.inr rfl)
      · exact .next h
    · intro h
      cases h with
      | here => exact .inl rfl
      | next h => exact .inr h
  | .cons n' .extra miss t fs, n => by
    simp only [reserved, named_iff (fs := fs)]
    constructor
    · exact .next
    · intro h
      cases h with
      | here h => simp at h
      | next h => exact h
  | .cons n' .flatten miss t fs, n => by
    simp only [reserved, List.mem_append, named_iff (fs := fs), namedTy_iff (t := t)]
    constructor
    · rintro (⟨fs', rfl, h⟩ | h)
      · exact .flat h
      · exact .next h
    · intro h
      cases h with
      | here h => simp at h
      | flat h => exact .inl ⟨_, rfl, h⟩
      | next h => exact .inr h
theorem namedTy_iff : ∀ {t : Ty} {n : Str}, n ∈ reservedTy t ↔ ∃ fs, t = .record fs ∧ Named fs n
  | .record fs, n => by
    simp only [reservedTy, named_iff (fs := fs), Ty.record.injEq]
    constructor
    · exact fun h => ⟨_, rfl, h⟩
    · rintro ⟨_, rfl, h⟩; exact h
  | .num, n | .str, n | .sv, n | .view, n | .opt _, n | .vec _, n | .map _ _, n => by simp [reservedTy]
end

theorem findMem_first {a : Nat} {p : List Nat} {name : Str} {l' : Loc} {d' : Doc} :
    ∀ {ms : Mems} {i : Nat}, findMem a p name ms i = some (l', d') → First name ms.plain d'.plain
  | .nil, i, h => by simp [findMem] at h
  | .cons k d ms, i, h => by
    simp only [findMem] at h
    simp only [Mems.plain]
    split at h
    · next hk => cases h; rw [hk]; exact .here _ _
    · next hk => exact .next hk (findMem_first h)

theorem findMem_none {a : Nat} {p : List Nat} {name : Str} :
    ∀ {ms : Mems} {i : Nat}, findMem a p name ms i = none → ∀ q, ¬ First name ms.plain q
  | .nil, i, h, q, hf => by cases hf
  | .cons k d ms, i, h, q, hf => by
    simp only [findMem] at h
    simp only [Mems.plain] at hf
    split at h
    · cases h
    · next hk =>
      generalize hk' : k.text = kt at hf hk
      cases hf with
      | here => exact hk rfl
      | next _ hf => exact findMem_none h q hf

theorem deserVec_fits {look : Loc → Option Plain} {t : Ty} {f : Loc → Doc → Option Val} {a : Nat} {p : List Nat} :
    ∀ {l : Docs} {i : Nat} {r : Vals},
      (∀ j d v, ElemAt l j d → f (.node a (p ++ [i + j])) d = some v → Fits look t d.plain v) →
      deserVec f a p l i = some r → FitsAll look t l.plain r
  | .nil, i, r, _, h => by
    simp only [deserVec, Option.some.injEq] at h
    subst h
    exact .nil
  | .cons d l, i, r, hf, h => by
    simp only [deserVec] at h
    split at h
    · cases h
    · next v hv =>
      simp only [Option.map_eq_some_iff] at h
      obtain ⟨r', h1, rfl⟩ := h
      refine .cons (hf 0 d v (.head _ _) hv) (deserVec_fits (fun j d v hd hv => ?_) h1)
      refine hf (j + 1) d v (.tail hd) ?_
      rw [← hv, Nat.add_assoc, Nat.add_comm 1 j]

theorem deserMap_fits {look : Loc → Option Plain} {t : Ty} {f : Loc → Doc → Option Val} {a : Nat} {p : List Nat}
    {borrow : Bool} {ex : List Str} {E : Str → Prop} (hE : ∀ n, n ∈ ex ↔ E n) :
    ∀ {l : Mems} {i : Nat} {r : Ents},
      (∀ j k d v, MemAt l j k d → f (.node a (p ++ [i + j])) d = some v → Fits look t d.plain v) →
      deserMap f a p borrow ex l i = some r → FitsEnts look E t l.plain r
  | .nil, i, r, _, h => by
    simp only [deserMap, Option.some.injEq] at h
    subst h
    exact .nil
  | .cons k d l, i, r, hf, h => by
    have ih : ∀ {r : Ents}, deserMap f a p borrow ex l (i + 1) = some r → FitsEnts look E t l.plain r := by
      intro r h1
      refine deserMap_fits hE (fun j k d v hd hv => ?_) h1
      refine hf (j + 1) k d v (.tail hd) ?_
      rw [← hv, Nat.add_assoc, Nat.add_comm 1 j]
    simp only [deserMap] at h
    simp only [Mems.plain]
    split at h
    · next hx => exact .skip ((hE _).1 (by simpa using hx)) (ih h)
    · next hx =>
      split at h
      · cases h
      · next v hv =>
        simp only [Option.map_eq_some_iff] at h
        obtain ⟨r', h1, rfl⟩ := h
        have hk : ∀ k' : Key, k'.text = k.text → FitsEnts look E t (.cons k.text d.plain l.plain) (.cons k' v r') := by
          intro k' hk'
          rw [← hk']
          refine .cons ?_ (hf 0 k d v (.head _ _ _) hv) (ih h1)
          rw [hk', ← hE]
          simpa using hx
        cases borrow
        · exact hk (.own k.text) rfl
        · exact hk (.sv _ k.text) rfl

mutual
theorem deser_fits {Q : Loc → Doc → Prop} {look : Loc → Option Plain} (hw : Walks Q)
    (hq : ∀ {l d}, Q l d → look l = some d.plain) :
    ∀ {t : Ty} {l : Loc} {d : Doc} {v : Val}, Q l d → deser t l d = some v → Fits look t d.plain v
  | .num, l, d, v, hd, h => by
    cases d <;> simp only [deser, reduceCtorEq, Option.some.injEq] at h
    subst h
    exact .num _
  | .str, l, d, v, hd, h => by
    cases d <;> simp only [deser, reduceCtorEq, Option.some.injEq] at h
    subst h
    exact .str _
  | .sv, l, d, v, hd, h => by
    cases d <;> simp only [deser, reduceCtorEq, Option.some.injEq] at h
    subst h
    exact .sv _ _
  | .view, l, d, v, hd, h => by
    simp only [deser, Option.some.injEq] at h
    subst h
    exact .view (hq hd)
  | .opt t, l, d, v, hd, h => by
    simp only [deser] at h
    split at h
    · cases h; exact .null
    · next hn =>
      refine .opt (fun hp => ?_) (deser_fits hw hq hd h)
      cases d <;> simp_all [Doc.plain]
  | .vec t, l, d, v, hd, h => by
    cases d <;> simp only [deser, reduceCtorEq, Option.map_eq_some_iff] at h
    obtain ⟨r, h1, rfl⟩ := h
    refine .vec (deserVec_fits (fun j d v he hv => ?_) h1)
    rw [Nat.zero_add] at hv
    exact deser_fits hw hq (hw.elem hd he) hv
  | .map b t, l, d, v, hd, h => by
    cases d <;> simp only [deser, reduceCtorEq, Option.map_eq_some_iff] at h
    obtain ⟨r, h1, rfl⟩ := h
    refine .map (deserMap_fits (by simp) (fun j k d v he hv => ?_) h1)
    rw [Nat.zero_add] at hv
    exact deser_fits hw hq (hw.member hd he) hv
  | .record fs, l, d, v, hd, h => by
    cases d <;> simp only [deser, reduceCtorEq, Option.map_eq_some_iff] at h
    obtain ⟨r, h1, rfl⟩ := h
    exact .record (deserFlds_fits hw hq (fun n => named_iff) hd h1)
theorem deserFlds_fits {Q : Loc → Doc → Prop} {look : Loc → Option Plain} (hw : Walks Q)
    (hq : ∀ {l d}, Q l d → look l = some d.plain) {ex : List Str} {E : Str → Prop} (hE : ∀ n, n ∈ ex ↔ E n) :
    ∀ {fs : TFlds} {a : Nat} {l : Loc} {ms : Mems} {v : Flds}, Q l (.obj a ms) → deserFlds ex fs a l ms = some v →
      FitsFlds look E fs ms.plain v
  | .nil, a, l, ms, v, hd, h => by
    simp only [deserFlds, Option.some.injEq] at h
    subst h
    exact .nil
  | .cons name kind miss t fs, a, l, ms, v, hd, h => by
    have plain : ∀ {v : Val} {r : Flds}, kind = .plain ∨ kind = .skip → FitsFlds look E fs ms.plain r →
        (match findMem a l.path name ms 0 with
        | some (l', d') => deser t l' d'
        | none => if miss then some (fresh t) else deser t .null .null) = some v →
        FitsFlds look E (.cons name kind miss t fs) ms.plain (.cons name kind v r) := by
      clear h
      intro v r hk hr h
      split at h
      · next l' d' hf =>
        obtain ⟨j, k, rfl, hm⟩ := findMem_some hf
        rw [Nat.zero_add] at h
        exact .found hk (findMem_first hf) (deser_fits hw hq (hw.member hd hm) h) hr
      · next hf =>
        cases miss with
        | true => cases h; exact .missing hk (findMem_none hf) hr
        | false => exact .absent hk (findMem_none hf) (deser_fits hw hq hw.null h) hr
    simp only [deserFlds] at h
    split at h
    · cases h
    · next x hx =>
      simp only [Option.map_eq_some_iff] at h
      obtain ⟨r, h1, rfl⟩ := h
      have hr := deserFlds_fits hw hq hE hd h1
      cases kind with
      | extra =>
        obtain ⟨b, t', es, rfl, rfl, h2⟩ := deserExtra_fits hw hq hE hd hx
        exact .extra h2 hr
      | flatten =>
        obtain ⟨fs', r', rfl, rfl, h2⟩ := deserFlat_fits hw hq hd hx
        exact .flatten h2 hr
      | plain => exact plain (.inl rfl) hr hx
      | skip => exact plain (.inr rfl) hr hx
theorem deserExtra_fits {Q : Loc → Doc → Prop} {look : Loc → Option Plain} (hw : Walks Q)
    (hq : ∀ {l d}, Q l d → look l = some d.plain) {ex : List Str} {E : Str → Prop} (hE : ∀ n, n ∈ ex ↔ E n) :
    ∀ {t : Ty} {a : Nat} {l : Loc} {ms : Mems} {v : Val}, Q l (.obj a ms) → deserExtra ex t a l ms = some v →
      ∃ b t' es, t = .map b t' ∧ v = .map es ∧ FitsEnts look E t' ms.plain es
  | .map b t, a, l, ms, v, hd, h => by
    simp only [deserExtra, Option.map_eq_some_iff] at h
    obtain ⟨r, h1, rfl⟩ := h
    refine ⟨b, t, r, rfl, rfl, deserMap_fits hE (fun j k d v he hv => ?_) h1⟩
    rw [Nat.zero_add] at hv
    exact deser_fits hw hq (hw.member hd he) hv
  | .num, _, _, _, _, _, h | .str, _, _, _, _, _, h | .sv, _, _, _, _, _, h | .view, _, _, _, _, _, h
  | .opt _, _, _, _, _, _, h | .vec _, _, _, _, _, _, h | .record _, _, _, _, _, _, h => by simp [deserExtra] at h
theorem deserFlat_fits {Q : Loc → Doc → Prop} {look : Loc → Option Plain} (hw : Walks Q)
    (hq : ∀ {l d}, Q l d → look l = some d.plain) :
    ∀ {t : Ty} {a : Nat} {l : Loc} {ms : Mems} {v : Val}, Q l (.obj a ms) → deserFlat t a l ms = some v →
      ∃ fs r, t = .record fs ∧ v = .record r ∧ FitsFlds look (Named fs) fs ms.plain r
  | .record fs, a, l, ms, v, hd, h => by
    simp only [deserFlat, Option.map_eq_some_iff] at h
    obtain ⟨r, h1, rfl⟩ := h
    exact ⟨fs, r, rfl, rfl, deserFlds_fits hw hq (fun n => named_iff) hd h1⟩
  | .num, _, _, _, _, _, h | .str, _, _, _, _, _, h | .sv, _, _, _, _, _, h | .view, _, _, _, _, _, h
  | .opt _, _, _, _, _, _, h | .vec _, _, _, _, _, _, h | .map _ _, _, _, _, _, _, h => by simp [deserFlat] at h
end

/-! ### Where the parts of a document are -/

/-- `e` is at `l` and part of document `d`, which holds `x`. -/
def Part (x : Document) (d : Nat) (l : Loc) (e : Doc) : Prop :=
  (l = .null ∧ e = .null) ∨ (e.within x.alloc ∧ x.root.follow l.path = some e ∧ (l = .root d ∨ ∃ p, l = .node x.alloc p))

theorem part_walks (x : Document) (d : Nat) : Walks (Part x d) where
  null := .inl ⟨rfl, rfl⟩
  elem {l a ds i e} h he := by
    rcases h with ⟨_, h⟩ | ⟨h1, h2, h3⟩
    · cases h
    · cases h1.1
      refine .inr ⟨he.within h1.2, ?_, .inr ⟨_, rfl⟩⟩
      show x.root.follow (l.path ++ [i]) = some e
      rw [follow_append h2]
      simp [Doc.follow, he.get]
  member {l a ms i k e} h he := by
    rcases h with ⟨_, h⟩ | ⟨h1, h2, h3⟩
    · cases h
    · cases h1.1
      refine .inr ⟨he.within h1.2, ?_, .inr ⟨_, rfl⟩⟩
      show x.root.follow (l.path ++ [i]) = some e
      rw [follow_append h2]
      simp [Doc.follow, he.get]

theorem part_deref {w : World} {lent : List Mem} (hi : Inv w lent) {x : Document} {d : Nat} (hx : Has w d x) {l : Loc}
    {e : Doc} (h : Part x d l e) : deref w l = some e := by
  rcases h with ⟨rfl, rfl⟩ | ⟨_, h2, rfl | ⟨p, rfl⟩⟩
  · rfl
  · simp only [Loc.path, Doc.follow, Option.some.injEq] at h2
    simp [deref, hx.1, hx.2, h2]
  · simp only [deref, owner_has hi hx]
    exact h2

end Verif.Lifetime
