import Verif.Serial.Kinds
import Verif.Serial.JsonLemmas
/-
Lemmas: what is read and written for each kind of type.
-/
namespace Verif.Serial
open Verif.Path Verif.Enums Spec

variable {σ : Type}

/-! ### Reading -/

theorem deserTuple_ok {B : Backend σ} {E : Env} (l : List (Doc σ)) : ∀ (ts : Tys) (i : Nat) (os vs : List Value),
    deserTuple B E l ts i os = .ok vs ↔ (tyList ts).length = os.length ∧ os.length = vs.length ∧
      ∀ j t o v, (tyList ts)[j]? = some t → os[j]? = some o → vs[j]? = some v →
        deser B E t o (element l (i + j)) = .ok v
  | .nil, i, os, vs => by
    cases os with
    | nil =>
      simp only [deserTuple, Except.ok.injEq, tyList, List.length_nil, true_and]
      constructor
      · rintro rfl; simp
      · intro h; exact (List.length_eq_zero_iff.1 h.1.symm).symm
    | cons o os => simp [deserTuple, tyList]
  | .cons t ts, i, os, vs => by
    cases os with
    | nil => simp [deserTuple, tyList]
    | cons o os =>
      simp only [deserTuple]
      have ih := deserTuple_ok (B := B) (E := E) l ts (i + 1) os
      have h0 : ∀ j, element l (i + 1 + j) = element l (i + (j + 1)) := fun j => by
        rw [show i + 1 + j = i + (j + 1) by omega]
      have ha : atIndex l i = element l i := rfl
      cases vs with
      | nil =>
        simp only [tyList, List.length_cons, List.length_nil]
        constructor
        · intro h
          split at h
          · cases h
          · rw [map_ok] at h
            obtain ⟨_, -, h⟩ := h
            cases h
        · rintro ⟨-, h, -⟩; cases h
      | cons v vs =>
        constructor
        · intro h
          split at h
          · cases h
          · rename_i w hw
            rw [map_ok] at h
            obtain ⟨vs', h, h'⟩ := h
            cases h'
            obtain ⟨h1, h2, h3⟩ := (ih _).1 h
            refine ⟨by simp [tyList, h1], by simp [h2], ?_⟩
            intro j t' o' v' ht ho hv
            cases j with
            | zero =>
              simp only [tyList, List.getElem?_cons_zero, Option.some.injEq] at ht ho hv
              subst ht ho hv
              rw [Nat.add_zero, ← ha]; exact hw
            | succ j =>
              simp only [tyList, List.getElem?_cons_succ] at ht ho hv
              rw [← h0]
              exact h3 j t' o' v' ht ho hv
        · rintro ⟨h1, h2, h3⟩
          have hw := h3 0 t o v (by simp [tyList]) (by simp) (by simp)
          rw [Nat.add_zero, ← ha] at hw
          rw [hw]
          simp only [map_ok]
          refine ⟨vs, (ih vs).2 ⟨by simpa [tyList] using h1, by simpa using h2, ?_⟩, rfl⟩
          intro j t' o' v' ht ho hv
          rw [h0]
          exact h3 (j + 1) t' o' v' (by simpa [tyList] using ht) (by simpa using ho) (by simpa using hv)

theorem tys_length : ∀ ts : Tys, ts.length = (tyList ts).length
  | .nil => rfl
  | .cons _ ts => by simp [Tys.length, tyList, tys_length ts]

theorem deser_tuple {B : Backend σ} {E : Env} {p : Bool} {ts : Tys} {os : List Value} {v : Value} {d : Doc σ} :
    deser B E (.tuple p ts) (.seq os) d = .ok v ↔ ∃ l vs, d = .arr l ∧ v = .seq vs ∧
      l.length ≤ (tyList ts).length ∧ (tyList ts).length = os.length ∧ os.length = vs.length ∧
      ∀ j t o w, (tyList ts)[j]? = some t → os[j]? = some o → vs[j]? = some w →
        deser B E t o (element l j) = .ok w := by
  simp only [deser, tys_length]
  cases d with
  | arr l =>
    simp only [elements]
    by_cases hl : (tyList ts).length < l.length
    · rw [if_pos hl]
      simp only [reduceCtorEq, false_iff]
      rintro ⟨l', vs, h1, -, h2, -⟩
      cases h1; omega
    · rw [if_neg hl, map_ok]
      simp only [deserTuple_ok, Nat.zero_add]
      constructor
      · rintro ⟨vs, h, rfl⟩; exact ⟨l, vs, rfl, rfl, by omega, h⟩
      · rintro ⟨l', vs, h1, rfl, -, h⟩; cases h1; exact ⟨vs, h, rfl⟩
  | _ => simp [elements]

theorem deser_map {B : Backend σ} {E : Env} {t : Ty} {old v : Value} {d : Doc σ} :
    deser B E (.map t) old d = .ok v ↔ ∃ ms es, d = .obj ms ∧ v = .map es ∧
      (∀ m ∈ ms, ∃ w, deser B E t (fresh t) m.2 = .ok w) ∧ sorted es = true ∧
      ∀ k w, (k, w) ∈ es ↔ ∃ d, First ms k d ∧ deser B E t (fresh t) d = .ok w := by
  simp only [deser]
  cases d with
  | obj ms =>
    simp only [members, map_ok, deserEntries_ok]
    constructor
    · rintro ⟨es, h, rfl⟩; exact ⟨ms, es, rfl, rfl, h⟩
    · rintro ⟨l', vs, h1, rfl, h⟩; cases h1; exact ⟨vs, h, rfl⟩
  | _ => simp [members]

theorem deser_opt {B : Backend σ} {E : Env} {t : Ty} {old v : Value} {d : Doc σ} :
    deser B E (.opt t) old d = .ok v ↔ (d = .null ∧ v = .opt none) ∨
      (d ≠ .null ∧ ∃ w, deser B E t (fresh t) d = .ok w ∧ v = .opt (some w)) := by
  simp only [deser]
  by_cases h : d.isNull = true
  · rw [if_pos h]
    rw [isNull_iff] at h
    subst h
    simp only [Except.ok.injEq, true_and, ne_eq, not_true_eq_false, false_and, or_false]
    exact eq_comm
  · rw [if_neg h]
    rw [isNull_iff] at h
    simp only [h, false_and, false_or, ne_eq, not_false_eq_true, true_and, map_ok]
    constructor
    · rintro ⟨w, h, rfl⟩; exact ⟨w, h, rfl⟩
    · rintro ⟨w, h, rfl⟩; exact ⟨w, h, rfl⟩

theorem find_name {l : List Entry} {s : Str} {n : Int} :
    (∃ x, l.find? (fun x => txt x.name == s) = some x ∧ x.value = n) ↔
    ∃ i x, FirstAt (fun _ y => txt y.name ≠ s) l i x ∧ txt x.name = s ∧ x.value = n := by
  induction l with
  | nil => simp [FirstAt]
  | cons y l ih =>
    simp only [List.find?_cons]
    by_cases h : txt y.name = s
    · simp only [h, BEq.rfl, Option.some.injEq]
      constructor
      · rintro ⟨x, rfl, hx⟩
        exact ⟨0, y, ⟨rfl, by omega⟩, h, hx⟩
      · rintro ⟨i, x, ⟨h1, h2⟩, h3, h4⟩
        cases i with
        | zero => simp at h1; subst h1; exact ⟨y, rfl, h4⟩
        | succ i => exact absurd h (h2 0 y (by omega) rfl)
    · have : (txt y.name == s) = false := by simpa using h
      simp only [this]
      rw [ih]
      constructor
      · rintro ⟨i, x, ⟨h1, h2⟩, h3⟩
        refine ⟨i + 1, x, ⟨by simpa using h1, ?_⟩, h3⟩
        intro j z hj hz
        cases j with
        | zero => simp at hz; subst hz; exact h
        | succ j => exact h2 j z (by omega) (by simpa using hz)
      · rintro ⟨i, x, ⟨h1, h2⟩, h3⟩
        cases i with
        | zero => simp at h1; subst h1; exact absurd h3.1 h
        | succ i =>
          refine ⟨i, x, ⟨by simpa using h1, fun j z hj hz => h2 (j + 1) z (by omega) (by simpa using hz)⟩, h3⟩

theorem deser_enum {B : Backend σ} {E : Env} {e : EnumTy} {old v : Value} {d : Doc σ} :
    deser B E (.enum e) old d = .ok v ↔ ∃ s i x, B.deserLeaf .str d = .ok (.str s) ∧
      FirstAt (fun _ y => txt y.name ≠ s) e.entries i x ∧ txt x.name = s ∧ v = .atom (.int x.value) := by
  simp only [deser, map_ok, deserEnum_ok]
  constructor
  · rintro ⟨n, ⟨s, h1, h2⟩, rfl⟩
    obtain ⟨i, x, h3, h4, rfl⟩ := find_name.1 h2
    exact ⟨s, i, x, h1, h3, h4, rfl⟩
  · rintro ⟨s, i, x, h1, h2, h3, rfl⟩
    exact ⟨x.value, ⟨s, h1, find_name.2 ⟨i, x, h2, h3, rfl⟩⟩, rfl⟩

theorem deser_set {B : Backend σ} {E : Env} {e : EnumTy} {old v : Value} {d : Doc σ} :
    deser B E (.enumSet e) old d = .ok v ↔ ∃ l xs m, d = .arr l ∧ v = .bits m ∧
      Each (fun d w => deser B E (.enum e) (.atom (.int 0)) d = .ok (.atom (.int w))) l xs ∧
      m < 2 ^ e.under.w ∧ ∀ i, i < e.under.w → (m.testBit i = true ↔ ∃ n ∈ xs, bit e n i = true) := by
  have hE : ∀ d w, deser B E (.enum e) (.atom (.int 0)) d = .ok (.atom (.int w)) ↔ deserEnum B e d = .ok w := by
    intro d w
    simp only [deser, map_ok, Value.atom.injEq, Atom.int.injEq]
    constructor
    · rintro ⟨n, h, rfl⟩; exact h
    · intro h; exact ⟨w, h, rfl⟩
  simp only [hE]
  have hdef : deser B E (.enumSet e) old d = (match elements B d with
    | .error x => .error x
    | .ok l => (deserSet B e l .empty).map fun s => .bits s.value.toNat) := by simp only [deser]; rfl
  rw [hdef]
  cases d with
  | arr l =>
    simp only [elements, map_ok, deserSet_ok]
    constructor
    · rintro ⟨s, ⟨ns, h1, h2⟩, rfl⟩
      refine ⟨l, ns, _, rfl, rfl, h1, s.value.isLt, ?_⟩
      intro i hi
      have := h2 i hi
      simp only [EnumSet.Mem, EnumSet.empty] at this
      rw [BitVec.testBit_toNat, this]
      simp
    · rintro ⟨l', ns, m, h1, rfl, h2, h3, h4⟩
      cases h1
      refine ⟨⟨BitVec.ofNat _ m⟩, ⟨ns, h2, ?_⟩, by simp [Nat.mod_eq_of_lt h3]⟩
      intro i hi
      simp only [EnumSet.Mem, EnumSet.empty, BitVec.getLsbD_ofNat, hi, decide_true, Bool.true_and, h4 i hi]
      simp
  | _ => simp [elements]

/-! ### Writing -/

theorem ser_vec {B : Backend σ} {s : Bool} {t : Ty} {vs : List Value} {d : Doc σ} :
    ser B s (.vec t) (.seq vs) = .ok d ↔ ∃ l, d = .arr l ∧ Each (fun v d => ser B s t v = .ok d) vs l := by
  simp only [ser, map_ok, mapAll_ok]
  constructor
  · rintro ⟨l, h, rfl⟩; exact ⟨l, rfl, h⟩
  · rintro ⟨l, rfl, h⟩; exact ⟨l, h, rfl⟩

theorem ser_arr {B : Backend σ} {s : Bool} {n : Nat} {t : Ty} {vs : List Value} {d : Doc σ} :
    ser B s (.arr n t) (.seq vs) = .ok d ↔ ∃ l, d = .arr l ∧ Each (fun v d => ser B s t v = .ok d) vs l := by
  simp only [ser, map_ok, mapAll_ok]
  constructor
  · rintro ⟨l, h, rfl⟩; exact ⟨l, rfl, h⟩
  · rintro ⟨l, rfl, h⟩; exact ⟨l, h, rfl⟩

theorem serEntries_iff {B : Backend σ} (hB : Lawful B) {s : Bool} {f : Value → Res (Doc σ)} :
    ∀ {es : List (Str × Value)} {out : List (Str × Doc σ)},
    serEntries B s (fun _ => .ok ()) f es [] = .ok out ↔
    Each (fun e m => m.1 = e.1 ∧ f e.2 = .ok m.2) (es.filter fun e => !(s && isNullValue e.2)) out := by
  intro es out
  refine ⟨fun h => (serEntries_ok hB h).2, ?_⟩
  intro h
  induction es generalizing out with
  | nil => cases h; rfl
  | cons e es ih =>
    obtain ⟨k, v⟩ := e
    simp only [serEntries]
    by_cases hn : (s && isNullValue v) = true
    · rw [if_pos hn]
      simp only [List.filter_cons, hn, Bool.not_true, Bool.false_eq_true, if_false] at h
      exact ih h
    · rw [if_neg hn]
      have hn' : (s && isNullValue v) = false := by simpa using hn
      simp only [List.filter_cons, hn', Bool.not_false, if_true] at h
      cases h with
      | cons h1 h2 =>
        rename_i m ms
        obtain ⟨h1, h3⟩ := h1
        simp only at h1 h3
        rw [h3]
        simp only [hB.add]
        rw [serEntries_acc hB, map_ok]
        refine ⟨ms, ih h2, ?_⟩
        rw [← h1]; rfl

theorem ser_map {B : Backend σ} (hB : Lawful B) {s : Bool} {t : Ty} {es : List (Str × Value)} {d : Doc σ} :
    ser B s (.map t) (.map es) = .ok d ↔ ∃ out, d = .obj out ∧
      Each (fun e m => m.1 = e.1 ∧ ser B s t e.2 = .ok m.2)
        (es.filter fun e => !(s && isNullValue e.2)) out := by
  simp only [ser, map_ok, serEntries_iff hB]
  constructor
  · rintro ⟨l, h, rfl⟩; exact ⟨l, rfl, h⟩
  · rintro ⟨l, rfl, h⟩; exact ⟨l, h, rfl⟩

theorem serTuple_ok {B : Backend σ} {s : Bool} : ∀ (ts : Tys) (vs : List Value) (l : List (Doc σ)),
    serTuple B s ts vs = .ok l ↔ (tyList ts).length = vs.length ∧ vs.length = l.length ∧
      ∀ (j : Nat) t v d, (tyList ts)[j]? = some t → vs[j]? = some v → l[j]? = some d → ser B s t v = .ok d
  | .nil, vs, l => by
    cases vs with
    | nil =>
      simp only [serTuple, Except.ok.injEq, tyList, List.length_nil, true_and]
      constructor
      · rintro rfl; simp
      · intro h; exact (List.length_eq_zero_iff.1 h.1.symm).symm
    | cons o os => simp [serTuple, tyList]
  | .cons t ts, vs, l => by
    cases vs with
    | nil => simp [serTuple, tyList]
    | cons v vs =>
      have ih := serTuple_ok (B := B) (s := s) ts vs
      have hdef : serTuple B s (.cons t ts) (v :: vs) = (match ser B s t v with
        | .error e => .error e
        | .ok d => match serTuple B s ts vs with
          | .error e => .error e
          | .ok ds => .ok (d :: ds)) := by simp only [serTuple]; rfl
      rw [hdef]
      cases l with
      | nil =>
        constructor
        · intro h
          split at h
          · cases h
          · split at h <;> cases h
        · rintro ⟨-, h, -⟩; cases h
      | cons d l =>
        constructor
        · intro h
          split at h
          · cases h
          · rename_i d' hd
            split at h
            · cases h
            · rename_i ds hds
              cases h
              obtain ⟨h1, h2, h3⟩ := (ih _).1 hds
              refine ⟨by simp [tyList, h1], by simp [h2], ?_⟩
              intro j t' v' d' ht hv hd'
              cases j with
              | zero =>
                simp only [tyList, List.getElem?_cons_zero, Option.some.injEq] at ht hv hd'
                subst ht hv hd'
                exact hd
              | succ j => exact h3 j t' v' d' (by simpa [tyList] using ht) (by simpa using hv) (by simpa using hd')
        · rintro ⟨h1, h2, h3⟩
          rw [h3 0 t v d (by simp [tyList]) (by simp) (by simp)]
          simp only
          rw [(ih l).2 ⟨by simpa [tyList] using h1, by simpa using h2, fun j t' v' d' ht hv hd =>
            h3 (j + 1) t' v' d' (by simpa [tyList] using ht) (by simpa using hv) (by simpa using hd)⟩]

theorem ser_tuple {B : Backend σ} {s : Bool} {p : Bool} {ts : Tys} {vs : List Value} {d : Doc σ} :
    ser B s (.tuple p ts) (.seq vs) = .ok d ↔ ∃ l, d = .arr l ∧ (tyList ts).length = vs.length ∧
      vs.length = l.length ∧ ∀ (j : Nat) t v d, (tyList ts)[j]? = some t → vs[j]? = some v → l[j]? = some d →
        ser B s t v = .ok d := by
  simp only [ser, map_ok, serTuple_ok]
  constructor
  · rintro ⟨l, h, rfl⟩; exact ⟨l, rfl, h⟩
  · rintro ⟨l, rfl, h⟩; exact ⟨l, h, rfl⟩

/-! ### New values and names -/

theorem freshs_eq : ∀ ts : Tys, freshs ts = (tyList ts).map fresh
  | .nil => by simp [freshs, tyList]
  | .cons t ts => by simp [freshs, tyList, freshs_eq ts]

theorem inits_eq : ∀ fs : Fields, inits fs = (fieldList fs).map fun f => f.1.init
  | .nil => by simp [inits, fieldList]
  | .cons f t fs => by simp [inits, fieldList, inits_eq fs]

theorem hasExtraOrFlatten_iff : ∀ fs : Fields,
    hasExtraOrFlatten fs = true ↔ ∃ p ∈ fieldList fs, p.1.extra = true ∨ p.1.flatten = true
  | .nil => by simp [hasExtraOrFlatten, fieldList]
  | .cons f t fs => by simp [hasExtraOrFlatten, fieldList, hasExtraOrFlatten_iff fs]

end Verif.Serial
