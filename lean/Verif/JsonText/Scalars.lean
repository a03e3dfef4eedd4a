/-
The scalars of what `serialize` makes: integers fit in 64 bits, and the other scalars are those of the value or names of
enumerators.
-/
import Verif.JsonText.Layout
import Verif.Serial.Unique
import Verif.Serial.Props

namespace Verif.JsonText
open Verif.Path Verif.Enums Verif.Serial Verif.Serial.Spec Spec

mutual
/-- All scalars of a document. -/
def scalarsAll (p : JScalar → Bool) : JDoc → Bool
  | .null => true
  | .scalar s => p s
  | .arr ds => scalarsList p ds
  | .obj ms => scalarsObj p ms
def scalarsList (p : JScalar → Bool) : List JDoc → Bool
  | [] => true
  | d :: ds => scalarsAll p d && scalarsList p ds
def scalarsObj (p : JScalar → Bool) : List (Str × JDoc) → Bool
  | [] => true
  | (_, d) :: ms => scalarsAll p d && scalarsObj p ms
end

theorem scalarsList_iff {p : JScalar → Bool} : ∀ {l : List JDoc}, scalarsList p l = true ↔ ∀ d ∈ l, scalarsAll p d = true
  | [] => by simp [scalarsList]
  | d :: ds => by simp [scalarsList, scalarsList_iff (l := ds)]

theorem scalarsObj_iff {p : JScalar → Bool} : ∀ {l : List (Str × JDoc)}, scalarsObj p l = true ↔
    ∀ m ∈ l, scalarsAll p m.2 = true
  | [] => by simp [scalarsObj]
  | (k, d) :: ds => by simp [scalarsObj, scalarsObj_iff (l := ds)]

theorem atomsList_iff {q : Atom → Bool} : ∀ {l : List Value}, atomsList q l = true ↔ ∀ v ∈ l, atomsAll q v = true
  | [] => by simp [atomsList]
  | v :: vs => by simp [atomsList, atomsList_iff (l := vs)]

theorem atomsMap_iff {q : Atom → Bool} : ∀ {l : List (Str × Value)}, atomsMap q l = true ↔ ∀ e ∈ l, atomsAll q e.2 = true
  | [] => by simp [atomsMap]
  | (k, v) :: es => by simp [atomsMap, atomsMap_iff (l := es)]

/-- What of a typed atom becomes a scalar. -/
structure Carries (q : Atom → Bool) (p : JScalar → Bool) : Prop where
  leaf : ∀ l a, tyOk (.leaf l) = true → hasLeaf l a = true → q a = true → p (Json.serLeaf l a) = true
  str : ∀ s, p (.str s) = true

mutual
theorem ser_scalars {q : Atom → Bool} {p : JScalar → Bool} (hc : Carries q p) {f : Int → BitVec 64} {s : Bool} :
    ∀ (t : Ty), tyOk t = true → ∀ (v : Value) (d : JDoc), HasTy t v → atomsAll q v = true →
    ser (json f) s t v = .ok d → scalarsAll p d = true
  | .leaf l, ht, v, d, hv, hq, h => by
    cases v <;> simp [ser] at h
    subst h
    simp only [scalarsAll, json]
    simp only [HasTy, hasTy] at hv
    simp only [atomsAll] at hq
    exact hc.leaf l _ ht hv hq
  | .enum e, _, v, d, hv, hq, h => by
    cases v <;> try simp [ser] at h
    rename_i a
    cases a <;> simp [ser] at h
    obtain ⟨x, -, rfl⟩ := h
    simp only [scalarsAll, json, Json.serLeaf, hc.str]
  | .rawEnum l, ht, v, d, hv, hq, h => by
    cases v <;> simp [ser] at h
    subst h
    rename_i a
    simp only [atomsAll] at hq
    simp only [scalarsAll, json]
    cases a <;> simp only [HasTy, hasTy, Bool.false_eq_true] at hv
    exact hc.leaf (.int l) _ (by simpa only [tyOk] using ht) (by simpa only [hasLeaf] using hv) hq
  | .enumSet e, _, v, d, hv, hq, h => by
    cases v <;> try simp [ser] at h
    obtain ⟨l, hl, rfl⟩ := h
    simp only [scalarsAll]
    rw [mapAll_ok] at hl
    rw [scalarsList_iff]
    intro d hd
    obtain ⟨x, -, hx⟩ := hl.right d hd
    rw [map_ok] at hx
    obtain ⟨y, -, rfl⟩ := hx
    simp only [scalarsAll, json, Json.serLeaf, hc.str]
  | .opt t, ht, v, d, hv, hq, h => by
    simp only [tyOk] at ht
    rcases hasTy_opt hv with rfl | ⟨w, rfl, hw⟩
    · simp only [ser, Except.ok.injEq] at h; subst h; simp [scalarsAll]
    · simp only [ser] at h
      simp only [atomsAll] at hq
      exact ser_scalars hc t ht w d hw hq h
  | .vec t, ht, v, d, hv, hq, h => by
    simp only [tyOk] at ht
    obtain ⟨vs, rfl, hvs⟩ := hasTy_seq hv
    simp only [ser, map_ok] at h
    obtain ⟨l, hl, rfl⟩ := h
    simp only [scalarsAll]
    simp only [atomsAll, atomsList_iff] at hq
    rw [mapAll_ok] at hl
    rw [scalarsList_iff]
    intro d hd
    obtain ⟨x, hx, hx'⟩ := hl.right d hd
    exact ser_scalars hc t ht x d (hvs x hx) (hq x hx) hx'
  | .arr n t, ht, v, d, hv, hq, h => by
    simp only [tyOk] at ht
    obtain ⟨vs, rfl, -, hvs⟩ := hasTy_arr hv
    simp only [ser, map_ok] at h
    obtain ⟨l, hl, rfl⟩ := h
    simp only [scalarsAll]
    simp only [atomsAll, atomsList_iff] at hq
    rw [mapAll_ok] at hl
    rw [scalarsList_iff]
    intro d hd
    obtain ⟨x, hx, hx'⟩ := hl.right d hd
    exact ser_scalars hc t ht x d (hvs x hx) (hq x hx) hx'
  | .map t, ht, v, d, hv, hq, h => by
    simp only [tyOk] at ht
    obtain ⟨es, rfl, hs, hes⟩ := hasTy_map hv
    simp only [ser, map_ok] at h
    obtain ⟨ms, h, rfl⟩ := h
    have := serEntries_names (json_lawful f) hs h
    simp only [scalarsAll, scalarsObj_iff]
    simp only [atomsAll, atomsMap_iff] at hq
    intro m hm
    obtain ⟨-, w, hw, hd⟩ := this.2 m hm
    exact ser_scalars hc t ht w m.2 (hes _ hw) (hq _ hw) hd
  | .tuple b ts, ht, v, d, hv, hq, h => by
    simp only [tyOk] at ht
    obtain ⟨vs, rfl, hvs⟩ := hasTy_tuple hv
    simp only [ser, map_ok] at h
    obtain ⟨l, h, rfl⟩ := h
    simp only [atomsAll] at hq
    simp only [scalarsAll, scalarsList_iff]
    exact serTuple_scalars hc ts ht vs l hvs hq h
  | .record n fs, ht, v, d, hv, hq, h => by
    simp only [tyOk, Bool.and_eq_true] at ht
    obtain ⟨vs, rfl, hvs⟩ := hasTy_record hv
    simp only [ser] at h
    cases hr : reservedNames fs with
    | error e => rw [hr] at h; cases h
    | ok r =>
      rw [hr] at h
      simp only [map_ok] at h
      obtain ⟨ms, h, rfl⟩ := h
      simp only [atomsAll] at hq
      simp only [scalarsAll, scalarsObj_iff]
      exact addFields_scalars hc fs ht.1.1 vs ms hvs hq h
theorem serTuple_scalars {q : Atom → Bool} {p : JScalar → Bool} (hc : Carries q p) {f : Int → BitVec 64} {s : Bool} :
    ∀ (ts : Tys), tysOk ts = true → ∀ (vs : List Value) (l : List JDoc), hasTys ts vs = true → atomsList q vs = true →
    serTuple (json f) s ts vs = .ok l → ∀ d ∈ l, scalarsAll p d = true
  | .nil, _, vs, l, hv, _, h => by
    rw [hasTys_nil hv] at h
    simp only [serTuple, Except.ok.injEq] at h; subst h; simp
  | .cons t ts, ht, vs, l, hv, hq, h => by
    simp only [tysOk, Bool.and_eq_true] at ht
    obtain ⟨v, ws, rfl, h1, h2⟩ := hasTys_cons hv
    simp only [atomsList, Bool.and_eq_true] at hq
    simp only [serTuple] at h
    cases hd : ser (json f) s t v with
    | error e => rw [hd] at h; cases h
    | ok d =>
      rw [hd] at h
      simp only at h
      cases hs : serTuple (json f) s ts ws with
      | error e => rw [hs] at h; cases h
      | ok ds =>
        rw [hs] at h
        simp only [Except.ok.injEq] at h
        subst h
        intro x hx
        rcases List.mem_cons.1 hx with rfl | hx
        · exact ser_scalars hc t ht.1 v _ h1 hq.1 hd
        · exact serTuple_scalars hc ts ht.2 ws ds h2 hq.2 hs x hx
theorem addFields_scalars {q : Atom → Bool} {p : JScalar → Bool} (hc : Carries q p) {f : Int → BitVec 64} {s : Bool}
    {r : Option (List Str)} :
    ∀ (fs : Fields), fieldsOk fs = true → ∀ (vs : List Value) (out : List (Str × JDoc)),
    hasFields fs vs = true → atomsList q vs = true → addFields (json f) s r fs vs [] = .ok out →
    ∀ m ∈ out, scalarsAll p m.2 = true
  | .nil, _, vs, out, ht, _, h => by
    rw [hasFields_nil ht] at h
    simp only [addFields, Except.ok.injEq] at h; subst h; simp
  | .cons fd t fs, hf, vs, out, ht, hq, h => by
    simp only [fieldsOk, Bool.and_eq_true] at hf
    obtain ⟨v, ws, rfl, h1, h2⟩ := hasFields_cons ht
    simp only [atomsList, Bool.and_eq_true] at hq
    simp only [addFields] at h
    split at h
    · cases h
    rename_i o1 ho1
    rw [addFields_acc (json_lawful f), map_ok] at h
    obtain ⟨o2, h, rfl⟩ := h
    intro m hm
    rcases List.mem_append.1 hm with hm | hm
    · by_cases c1 : fd.skipSer = true
      · rw [if_pos c1] at ho1; cases ho1; cases hm
      rw [if_neg c1] at ho1
      by_cases c2 : skipField fd s v = true
      · rw [if_pos c2] at ho1; cases ho1; cases hm
      rw [if_neg c2] at ho1
      by_cases c3 : fd.extra = true
      · rw [if_pos c3] at ho1
        exact addExtras_scalars hc t hf.1.2 v o1 h1 hq.1 ho1 m hm
      rw [if_neg c3] at ho1
      by_cases c4 : fd.flatten = true
      · rw [if_pos c4] at ho1
        exact addFlat_scalars hc t hf.1.2 v o1 h1 hq.1 ho1 m hm
      · rw [if_neg c4, map_ok] at ho1
        obtain ⟨d, hd, rfl⟩ := ho1
        rw [(json_lawful f).add] at hm
        simp only [List.nil_append, List.mem_singleton] at hm
        subst hm
        exact ser_scalars hc t hf.1.2 v d h1 hq.1 hd
    · exact addFields_scalars hc fs hf.2 ws o2 h2 hq.2 h m hm
theorem addExtras_scalars {q : Atom → Bool} {p : JScalar → Bool} (hc : Carries q p) {f : Int → BitVec 64} {s : Bool}
    {r : Option (List Str)} :
    ∀ (t : Ty), tyOk t = true → ∀ (v : Value) (out : List (Str × JDoc)),
    HasTy t v → atomsAll q v = true → addExtras (json f) s r t v [] = .ok out → ∀ m ∈ out, scalarsAll p m.2 = true
  | .map t, ht, v, out, hv, hq, h => by
    simp only [tyOk] at ht
    obtain ⟨es, rfl, hs, hes⟩ := hasTy_map hv
    simp only [addExtras] at h
    simp only [atomsAll, atomsMap_iff] at hq
    intro m hm
    obtain ⟨-, w, hw, hd⟩ := (serEntries_names (json_lawful f) hs h).2 m hm
    exact ser_scalars hc t ht w m.2 (hes _ hw) (hq _ hw) hd
  | .leaf _, _, _, _, _, _, h | .enum _, _, _, _, _, _, h | .rawEnum _, _, _, _, _, _, h
  | .enumSet _, _, _, _, _, _, h | .opt _, _, _, _, _, _, h | .vec _, _, _, _, _, _, h
  | .arr _ _, _, _, _, _, _, h | .record _ _, _, _, _, _, _, h | .tuple _ _, _, _, _, _, _, h => by cases h
theorem addFlat_scalars {q : Atom → Bool} {p : JScalar → Bool} (hc : Carries q p) {f : Int → BitVec 64} {s : Bool}
    {r : Option (List Str)} :
    ∀ (t : Ty), tyOk t = true → ∀ (v : Value) (out : List (Str × JDoc)),
    HasTy t v → atomsAll q v = true → addFlat (json f) s r t v [] = .ok out → ∀ m ∈ out, scalarsAll p m.2 = true
  | .record _ fs, ht, v, out, hv, hq, h => by
    simp only [tyOk, Bool.and_eq_true] at ht
    obtain ⟨vs, rfl, hvs⟩ := hasTy_record hv
    simp only [addFlat] at h
    simp only [atomsAll] at hq
    exact addFields_scalars hc fs ht.1.1 vs out hvs hq h
  | .leaf _, _, _, _, _, _, h | .enum _, _, _, _, _, _, h | .rawEnum _, _, _, _, _, _, h
  | .enumSet _, _, _, _, _, _, h | .opt _, _, _, _, _, _, h | .vec _, _, _, _, _, _, h
  | .arr _ _, _, _, _, _, _, h | .map _, _, _, _, _, _, h | .tuple _ _, _, _, _, _, _, h => by cases h
end

theorem wf_range {t : IT} (h : t.WF) {n : Int} (hn : t.InRange n) : - 2 ^ 63 ≤ n ∧ n < 2 ^ 64 := by
  rcases t with ⟨s, w⟩
  simp only [IT.WF] at h
  rcases h with rfl | rfl | rfl | rfl <;> cases s <;> simp [IT.InRange] at hn <;> omega

/-- A scalar that fits. -/
def fitsScalar : JScalar → Bool
  | .int n => - 2 ^ 63 ≤ n && n < 2 ^ 64
  | _ => true

/-- A scalar that is written and read exactly. -/
def exactScalar (F : Floats) : JScalar → Bool
  | .dbl b => finite b && F.read (F.print b) == some b
  | _ => true

theorem carries_fits : Carries (fun _ => true) fitsScalar where
  leaf l a ht hv _ := by
    cases a <;> try rfl
    cases l <;> simp only [hasLeaf, Bool.false_eq_true, decide_eq_true_eq] at hv
    simp only [tyOk, decide_eq_true_eq] at ht
    simpa only [Json.serLeaf, fitsScalar, Bool.and_eq_true, decide_eq_true_eq] using wf_range ht hv
  str _ := rfl

theorem carries_exact (F : Floats) : Carries (exact F) (exactScalar F) where
  leaf l a _ _ hq := by cases a <;> first | rfl | exact hq
  str _ := rfl

mutual
theorem fits_scalars : ∀ {d : JDoc}, scalarsAll fitsScalar d = true → fits d = true
  | .null, _ => rfl
  | .scalar (.bool _), _ => rfl
  | .scalar (.int _), h => by simpa only [scalarsAll, fitsScalar, fits] using h
  | .scalar (.dbl _), _ => rfl
  | .scalar (.str _), _ => rfl
  | .arr ds, h => by simp only [scalarsAll] at h; simp only [fits]; exact fits_list h
  | .obj ms, h => by simp only [scalarsAll] at h; simp only [fits]; exact fits_obj h
theorem fits_list : ∀ {ds : List JDoc}, scalarsList fitsScalar ds = true → fitsAll ds = true
  | [], _ => rfl
  | d :: ds, h => by
    simp only [scalarsList, Bool.and_eq_true] at h
    simp only [fitsAll, Bool.and_eq_true]
    exact ⟨fits_scalars h.1, fits_list h.2⟩
theorem fits_obj : ∀ {ms : List (Str × JDoc)}, scalarsObj fitsScalar ms = true → fitsMembers ms = true
  | [], _ => rfl
  | (k, d) :: ms, h => by
    simp only [scalarsObj, Bool.and_eq_true] at h
    simp only [fitsMembers, Bool.and_eq_true]
    exact ⟨fits_scalars h.1, fits_obj h.2⟩
end

mutual
theorem exact_scalars {F : Floats} : ∀ {d : JDoc}, scalarsAll (exactScalar F) d = true → reread F d = some d
  | .null, _ => rfl
  | .scalar (.bool _), _ => rfl
  | .scalar (.int _), _ => rfl
  | .scalar (.dbl b), h => by
    simp only [scalarsAll, exactScalar, Bool.and_eq_true, beq_iff_eq] at h
    simp only [reread, h.1, h.2, if_true, Option.map_some]
  | .scalar (.str _), _ => rfl
  | .arr ds, h => by simp only [scalarsAll] at h; simp only [reread, exact_list h, Option.map_some]
  | .obj ms, h => by simp only [scalarsAll] at h; simp only [reread, exact_obj h, Option.map_some]
theorem exact_list {F : Floats} : ∀ {ds : List JDoc}, scalarsList (exactScalar F) ds = true → rereadAll F ds = some ds
  | [], _ => rfl
  | d :: ds, h => by
    simp only [scalarsList, Bool.and_eq_true] at h
    simp only [rereadAll, exact_scalars h.1, exact_list h.2]
theorem exact_obj {F : Floats} : ∀ {ms : List (Str × JDoc)}, scalarsObj (exactScalar F) ms = true →
    rereadMembers F ms = some ms
  | [], _ => rfl
  | (k, d) :: ms, h => by
    simp only [scalarsObj, Bool.and_eq_true] at h
    simp only [rereadMembers, exact_scalars h.1, exact_obj h.2]
end

theorem ser_fits {f : Int → BitVec 64} {s : Bool} {t : Ty} (ht : tyOk t = true) {v : Value} (hv : HasTy t v) {d : JDoc}
    (h : ser (json f) s t v = .ok d) : fits d = true := by
  have hq : ∀ v, atomsAll (fun _ => true) v = true := by
    intro v
    exact atoms_true v
  exact fits_scalars (ser_scalars carries_fits t ht v d hv (hq v) h)
where
  atoms_true : ∀ v, atomsAll (fun _ => true) v = true
    | .atom _ => rfl
    | .bits _ => rfl
    | .opt none => rfl
    | .opt (some v) => by rw [atomsAll]; exact atoms_true v
    | .seq vs => by rw [atomsAll]; exact atoms_list vs
    | .map es => by rw [atomsAll]; exact atoms_map es
    | .record vs => by rw [atomsAll]; exact atoms_list vs
  atoms_list : ∀ vs, atomsList (fun _ => true) vs = true
    | [] => rfl
    | v :: vs => by rw [atomsList, atoms_true v, atoms_list vs]; rfl
  atoms_map : ∀ es, atomsMap (fun _ => true) es = true
    | [] => rfl
    | (_, v) :: es => by rw [atomsMap, atoms_true v, atoms_map es]; rfl

end Verif.JsonText
