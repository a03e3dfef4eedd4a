import Verif.Serial.TrailResume
/-
Which states there are: prefixes of sequences and maps, and the order in which parts are read.
-/
namespace Verif.Serial.Spec
open Verif.Serial

/-- Up to some place as at the end, and after it as before. -/
def Partway (ends befores ws : List Value) : Prop :=
  ws.length = befores.length ∧ ∃ j : Nat, ∀ i : Nat, (i < j → ws[i]? = ends[i]?) ∧ (j < i → ws[i]? = befores[i]?)

end Verif.Serial.Spec

namespace Verif.Serial
open Verif.Path Verif.Enums Spec

variable {σ : Type}

theorem setTrail_mem {B : Backend σ} {e : EnumTy} : ∀ {l : List (Doc σ)} {out w : EnumSet e.under.signed e.under.w},
    w ∈ setTrail B e l out ↔ ∃ pre post, l = pre ++ post ∧ deserSet B e pre out = .ok w
  | [], out, w => by
    simp only [setTrail, List.mem_singleton]
    constructor
    · rintro rfl; exact ⟨[], [], rfl, rfl⟩
    · rintro ⟨pre, post, h, h'⟩
      simp only [List.nil_eq, List.append_eq_nil_iff] at h
      rw [h.1] at h'
      simp only [deserSet, Except.ok.injEq] at h'
      exact h'.symm
  | d :: ds, out, w => by
    simp only [setTrail, List.mem_cons]
    constructor
    · rintro (rfl | h)
      · exact ⟨[], d :: ds, rfl, rfl⟩
      · cases hd : deserEnum B e d with
        | error x => rw [hd] at h; cases h
        | ok n =>
          rw [hd] at h
          obtain ⟨pre, post, rfl, h2⟩ := setTrail_mem.1 h
          exact ⟨d :: pre, post, rfl, by simp only [deserSet, hd]; exact h2⟩
    · rintro ⟨_ | ⟨d', pre⟩, post, h, h'⟩
      · simp only [deserSet, Except.ok.injEq] at h'
        exact .inl h'.symm
      · simp only [List.cons_append, List.cons.injEq] at h
        obtain ⟨rfl, rfl⟩ := h
        right
        simp only [deserSet] at h'
        cases hd : deserEnum B e d with
        | error x => rw [hd] at h'; cases h'
        | ok n => rw [hd] at h'; exact setTrail_mem.2 ⟨pre, post, rfl, h'⟩

theorem itemsTrail_mem {f : Doc σ → Res Value} : ∀ {l : List (Doc σ)} {out w : List Value},
    w ∈ itemsTrail f l out ↔ ∃ pre post vs, l = pre ++ post ∧ Each (fun d v => f d = .ok v) pre vs ∧ w = out ++ vs
  | [], out, w => by
    simp only [itemsTrail, List.mem_singleton]
    constructor
    · rintro rfl; exact ⟨[], [], [], rfl, .nil, by simp⟩
    · rintro ⟨pre, post, vs, h, h', rfl⟩
      simp only [List.nil_eq, List.append_eq_nil_iff] at h
      rw [h.1] at h'
      cases h'
      simp
  | d :: ds, out, w => by
    simp only [itemsTrail, List.mem_cons]
    constructor
    · rintro (rfl | h)
      · exact ⟨[], d :: ds, [], rfl, .nil, by simp⟩
      · cases hd : f d with
        | error x => rw [hd] at h; cases h
        | ok n =>
          rw [hd] at h
          obtain ⟨pre, post, vs, rfl, h2, rfl⟩ := itemsTrail_mem.1 h
          exact ⟨d :: pre, post, n :: vs, rfl, .cons hd h2, by simp⟩
    · rintro ⟨pre, post, vs, h, h', rfl⟩
      cases h' with
      | nil => exact .inl (by simp)
      | @cons d' v pre vs h1 h2 =>
        simp only [List.cons_append, List.cons.injEq] at h
        obtain ⟨rfl, rfl⟩ := h
        right
        rw [h1]
        exact itemsTrail_mem.2 ⟨pre, post, vs, rfl, h2, by simp⟩

theorem entriesTrail_mem {f : Doc σ → Res Value} : ∀ {ms : List (Str × Doc σ)} {out w : List (Str × Value)},
    w ∈ entriesTrail f ms out ↔ ∃ pre post, ms = pre ++ post ∧ deserEntries f pre out = .ok w
  | [], out, w => by
    simp only [entriesTrail, List.mem_singleton]
    constructor
    · rintro rfl; exact ⟨[], [], rfl, rfl⟩
    · rintro ⟨pre, post, h, h'⟩
      simp only [List.nil_eq, List.append_eq_nil_iff] at h
      rw [h.1] at h'
      simp only [deserEntries, Except.ok.injEq] at h'
      exact h'.symm
  | (k, d) :: ds, out, w => by
    simp only [entriesTrail, List.mem_cons]
    constructor
    · rintro (rfl | h)
      · exact ⟨[], (k, d) :: ds, rfl, rfl⟩
      · cases hd : f d with
        | error x => rw [hd] at h; cases h
        | ok n =>
          rw [hd] at h
          obtain ⟨pre, post, rfl, h2⟩ := entriesTrail_mem.1 h
          exact ⟨(k, d) :: pre, post, rfl, by simp only [deserEntries, hd, note]; exact h2⟩
    · rintro ⟨_ | ⟨d', pre⟩, post, h, h'⟩
      · simp only [deserEntries, Except.ok.injEq] at h'
        exact .inl h'.symm
      · simp only [List.cons_append, List.cons.injEq] at h
        obtain ⟨rfl, rfl⟩ := h
        right
        simp only [deserEntries] at h'
        cases hd : f d with
        | error x => rw [hd] at h'; cases h'
        | ok n => rw [hd] at h'; exact entriesTrail_mem.2 ⟨pre, post, rfl, h'⟩

theorem stopped_cons {done broke : Nat → Value → Value → Prop} {o : Value} {os ws : List Value} :
    Stopped done broke (o :: os) ws ↔ ∃ w ws', ws = w :: ws' ∧
      ((broke 0 o w ∧ ws' = os) ∨ (done 0 o w ∧ Stopped (fun i => done (i + 1)) (fun i => broke (i + 1)) os ws')) := by
  constructor
  · rintro ⟨j, hj, hl, h⟩
    cases ws with
    | nil => simp at hl
    | cons w ws =>
      refine ⟨w, ws, rfl, ?_⟩
      simp only [List.length_cons, Nat.add_right_cancel_iff] at hl
      obtain ⟨h1, h2, -⟩ := h 0 o w rfl rfl
      cases j with
      | zero =>
        refine .inl ⟨h2 rfl, List.ext_getElem hl.symm fun i hi hi' => ?_⟩
        exact (h (i + 1) os[i] ws[i] (by simp) (by simp)).2.2 (by omega)
      | succ j =>
        refine .inr ⟨h1 (by omega), j, by simpa using hj, hl, fun i o' w' ho hw => ?_⟩
        obtain ⟨h1, h2, h3⟩ := h (i + 1) o' w' (by simpa using ho) (by simpa using hw)
        exact ⟨fun h => h1 (by omega), fun h => h2 (by omega), fun h => h3 (by omega)⟩
  · rintro ⟨w, ws, rfl, ⟨h, rfl⟩ | ⟨h, h'⟩⟩
    · exact stopped_here h
    · exact stopped_later h h'

theorem inPlace_iff {r : Run Value} {tr olds : List Value} {others : List (List Value)} {w : List Value} :
    w ∈ inPlace r tr olds others ↔
      (∃ v ∈ tr, w = v :: olds) ∨ (r.2 = none ∧ ∃ vs ∈ others, w = r.1 :: vs) := by
  refine ⟨inPlace_mem, ?_⟩
  unfold inPlace
  rintro (⟨v, hv, rfl⟩ | ⟨h, vs, hvs, rfl⟩)
  · exact List.mem_append_left _ (List.mem_map.2 ⟨v, hv, rfl⟩)
  · rw [h]
    exact List.mem_append_right _ (List.mem_map.2 ⟨vs, hvs, rfl⟩)

theorem stopped_nil {done broke : Nat → Value → Value → Prop} {ws : List Value} : ¬ Stopped done broke [] ws := by
  rintro ⟨j, hj, -⟩; simp at hj

/-- A list that is read in place: it is untouched and empty, or some part is being read. -/
theorem fixedTrail_mem {P : Value → Prop} {f : Value → Doc σ → Run Value} {tr : Value → Doc σ → List Value}
    (hl : ∀ o d, P o → (f o d).1 ∈ tr o d) {l : List (Doc σ)} :
    ∀ {os : List Value} {k : Nat} {w : List Value}, (∀ o ∈ os, P o) → (w ∈ fixedTrail f tr l k os ↔ (os = [] ∧ w = []) ∨
      Stopped (fun i o w => f o (atIndex l (k + i)) = (w, none)) (fun i o w => w ∈ tr o (atIndex l (k + i))) os w)
  | [], k, w, _ => by simp [fixedTrail, stopped_nil]
  | o :: os, k, w, ho => by
    have ih := fun w => fixedTrail_mem hl (l := l) (os := os) (k := k + 1) (w := w) (fun x hx => ho x (by simp [hx]))
    simp only [fixedTrail, inPlace_iff, stopped_cons, ih, List.cons_ne_nil, false_and, false_or, Nat.add_zero]
    have e : ∀ i, k + 1 + i = k + (i + 1) := fun i => by omega
    simp only [e]
    constructor
    · rintro (⟨v, hv, rfl⟩ | ⟨hn, vs, h, rfl⟩)
      · exact ⟨v, os, rfl, .inl ⟨hv, rfl⟩⟩
      · have hr : f o (atIndex l k) = ((f o (atIndex l k)).1, none) := Prod.ext rfl hn
        rcases h with ⟨rfl, rfl⟩ | h
        · exact ⟨_, _, rfl, .inl ⟨hl _ _ (ho o (by simp)), rfl⟩⟩
        · exact ⟨_, _, rfl, .inr ⟨hr, h⟩⟩
    · rintro ⟨v, vs, rfl, ⟨hv, rfl⟩ | ⟨hd, h⟩⟩
      · exact .inl ⟨v, hv, rfl⟩
      · exact .inr ⟨by rw [hd], vs, .inr h, by rw [hd]⟩

theorem tupleTrail_mem {B : Backend σ} (hB : Lawful B) {E : Env} {l : List (Doc σ)} :
    ∀ {ts : Tys} {os : List Value} {k : Nat} {w : List Value}, tysOk ts = true → hasTys ts os = true →
      (w ∈ tupleTrail B E l ts k os ↔ (os = [] ∧ w = []) ∨
      Stopped (fun i o w => ∀ t, (tyList ts)[i]? = some t → deserRun B E t o (atIndex l (k + i)) = (w, none))
        (fun i o w => ∀ t, (tyList ts)[i]? = some t → w ∈ deserTrail B E t o (atIndex l (k + i))) os w)
  | .nil, os, k, w, _, ho => by
    rw [hasTys_nil ho]
    simp [tupleTrail, stopped_nil]
  | .cons t ts, os, k, w, ht, ho => by
    simp only [tysOk, Bool.and_eq_true] at ht
    obtain ⟨o, os, rfl, h1, h2⟩ := hasTys_cons ho
    have ih := fun w => tupleTrail_mem hB (E := E) (l := l) (ts := ts) (os := os) (k := k + 1) (w := w) ht.2 h2
    simp only [tupleTrail, inPlace_iff, stopped_cons, ih, List.cons_ne_nil, false_and, false_or, Nat.add_zero, tyList,
      List.getElem?_cons_zero, List.getElem?_cons_succ, Option.some.injEq, forall_eq']
    have e : ∀ i, k + 1 + i = k + (i + 1) := fun i => by omega
    simp only [e]
    constructor
    · rintro (⟨v, hv, rfl⟩ | ⟨hn, vs, h, rfl⟩)
      · exact ⟨v, os, rfl, .inl ⟨hv, rfl⟩⟩
      · have hr : deserRun B E t o (atIndex l k) = ((deserRun B E t o (atIndex l k)).1, none) := Prod.ext rfl hn
        rcases h with ⟨rfl, rfl⟩ | h
        · exact ⟨_, _, rfl, .inl ⟨deserTrail_last hB ht.1 h1 _, rfl⟩⟩
        · exact ⟨_, _, rfl, .inr ⟨hr, h⟩⟩
    · rintro ⟨v, vs, rfl, ⟨hv, rfl⟩ | ⟨hd, h⟩⟩
      · exact .inl ⟨v, hv, rfl⟩
      · exact .inr ⟨by rw [hd], vs, .inr h, by rw [hd]⟩

/-! ### The order of the fields -/

/-- All states are on the way from `befores` to the last one. -/
def AllPartway (befores : List Value) (tr : List (List Value)) : Prop :=
  ∀ fin, tr.getLast? = some fin → ∀ w ∈ tr, Partway fin befores w

theorem partway_here {o v : Value} {os fin : List Value} : Partway fin (o :: os) (v :: os) :=
  ⟨rfl, 0, fun i => ⟨fun h => absurd h (by omega), fun h => by
    cases i with
    | zero => omega
    | succ i => rfl⟩⟩

theorem partway_later {o v : Value} {os fin ws : List Value} (h : Partway fin os ws) : Partway (v :: fin) (o :: os) (v :: ws) := by
  obtain ⟨hl, j, h⟩ := h
  refine ⟨by simp [hl], j + 1, fun i => ?_⟩
  cases i with
  | zero => exact ⟨fun _ => rfl, fun h => absurd h (by omega)⟩
  | succ i => exact ⟨fun h' => by simpa using (h i).1 (by omega), fun h' => by simpa using (h i).2 (by omega)⟩

theorem partway_self {os fin : List Value} : Partway fin os os := ⟨rfl, 0, fun _ => ⟨fun h => absurd h (by omega), fun _ => rfl⟩⟩

theorem allPartway_one (os : List Value) : AllPartway os [os] := by
  intro fin _ w hw
  rw [List.mem_singleton] at hw; subst hw
  exact partway_self

theorem allPartway_map {o : Value} {os : List Value} {tr : List (List Value)} (h : AllPartway os tr) :
    AllPartway (o :: os) (tr.map fun vs => o :: vs) := by
  intro fin hf w hw
  rw [List.getLast?_map] at hf
  obtain ⟨fin', hf', rfl⟩ := Option.map_eq_some_iff.1 hf
  obtain ⟨vs, hvs, rfl⟩ := List.mem_map.1 hw
  exact partway_later (h fin' hf' vs hvs)

theorem allPartway_inPlace {r : Run Value} {o : Value} {os tr : List Value} {others : List (List Value)} (h : AllPartway os others) :
    AllPartway (o :: os) (inPlace r tr os others) := by
  intro fin hf w hw
  rcases inPlace_mem hw with ⟨v, -, rfl⟩ | ⟨hn, vs, hvs, rfl⟩
  · exact partway_here
  · unfold inPlace at hf
    rw [hn, List.getLast?_append, List.getLast?_map] at hf
    obtain ⟨fin', hf'⟩ : ∃ x, others.getLast? = some x := by
      cases hx : others.getLast? with
      | some x => exact ⟨x, rfl⟩
      | none => rw [List.getLast?_eq_none_iff.1 hx] at hvs; cases hvs
    rw [hf'] at hf
    simp only [Option.map_some, Option.some_or, Option.some.injEq] at hf
    subst hf
    exact partway_later (h fin' hf' vs hvs)

theorem fieldsTrail_order {B : Backend σ} {E : Env} {r : Option (List Str)} {ms : List (Str × Doc σ)} :
    ∀ (fs : Fields) (os : List Value), AllPartway os (fieldsTrail B E r ms fs os)
  | .nil, os => by simp only [fieldsTrail]; exact allPartway_one os
  | .cons f t fs, [] => by simp only [fieldsTrail]; exact allPartway_one []
  | .cons f t fs, o :: os => by
    simp only [fieldsTrail]
    exact allPartway_inPlace (fieldsTrail_order fs os)

theorem seqFieldsTrail_order {B : Backend σ} {E : Env} {l : List (Doc σ)} :
    ∀ (fs : Fields) (i : Nat) (os : List Value), AllPartway os (seqFieldsTrail B E l fs i os)
  | .nil, i, os => by simp only [seqFieldsTrail]; exact allPartway_one os
  | .cons f t fs, i, [] => by simp only [seqFieldsTrail]; exact allPartway_one []
  | .cons f t fs, i, o :: os => by
    simp only [seqFieldsTrail]
    split
    · exact allPartway_map (seqFieldsTrail_order fs i os)
    · split
      · exact allPartway_one _
      · exact allPartway_inPlace (seqFieldsTrail_order fs (i + 1) os)

theorem patchFieldsTrail_order {B : Backend σ} {E : Env} {r : Option (List Str)} {ms : List (Str × Doc σ)} :
    ∀ (fs : Fields) (os : List Value), AllPartway os (patchFieldsTrail B E r ms fs os)
  | .nil, os => by simp only [patchFieldsTrail]; exact allPartway_one os
  | .cons f t fs, [] => by simp only [patchFieldsTrail]; exact allPartway_one []
  | .cons f t fs, o :: os => by
    simp only [patchFieldsTrail]
    exact allPartway_inPlace (patchFieldsTrail_order fs os)

/-! ### Fields that are not read -/

theorem fieldsTrail_skips {B : Backend σ} {E : Env} {r : Option (List Str)} {ms : List (Str × Doc σ)} :
    ∀ {fs : Fields} {os ws : List Value}, ws ∈ fieldsTrail B E r ms fs os → ∀ {i : Nat} {f : Field} {t : Ty},
      (fieldList fs)[i]? = some (f, t) → f.skipDeser = true → ws[i]? = os[i]?
  | .nil, os, ws, h, i, f, t, hf, hs => by simp [fieldList] at hf
  | .cons g u fs, [], ws, h, i, f, t, hf, hs => by simp only [fieldsTrail, List.mem_singleton] at h; rw [h]
  | .cons g u fs, o :: os, ws, h, i, f, t, hf, hs => by
    simp only [fieldsTrail] at h
    cases i with
    | zero =>
      simp only [fieldList, List.getElem?_cons_zero, Option.some.injEq, Prod.mk.injEq] at hf
      obtain ⟨rfl, rfl⟩ := hf
      simp only [if_pos hs] at h
      rcases inPlace_mem h with ⟨v, hv, rfl⟩ | ⟨-, vs, -, rfl⟩
      · rw [List.mem_singleton] at hv; rw [hv]
      · rfl
    | succ i =>
      simp only [fieldList, List.getElem?_cons_succ] at hf
      rcases inPlace_mem h with ⟨v, hv, rfl⟩ | ⟨-, vs, hvs, rfl⟩
      · rfl
      · simpa using fieldsTrail_skips hvs hf hs

theorem seqFieldsTrail_skips {B : Backend σ} {E : Env} {l : List (Doc σ)} :
    ∀ {fs : Fields} {k : Nat} {os ws : List Value}, ws ∈ seqFieldsTrail B E l fs k os → ∀ {i : Nat} {f : Field} {t : Ty},
      (fieldList fs)[i]? = some (f, t) → f.skipDeser = true → ws[i]? = os[i]?
  | .nil, k, os, ws, h, i, f, t, hf, hs => by simp [fieldList] at hf
  | .cons g u fs, k, [], ws, h, i, f, t, hf, hs => by simp only [seqFieldsTrail, List.mem_singleton] at h; rw [h]
  | .cons g u fs, k, o :: os, ws, h, i, f, t, hf, hs => by
    simp only [seqFieldsTrail] at h
    by_cases c1 : g.skipDeser = true
    · rw [if_pos c1] at h
      obtain ⟨vs, hvs, rfl⟩ := List.mem_map.1 h
      cases i with
      | zero => rfl
      | succ i =>
        simp only [fieldList, List.getElem?_cons_succ] at hf
        simpa using seqFieldsTrail_skips hvs hf hs
    rw [if_neg c1] at h
    cases i with
    | zero =>
      simp only [fieldList, List.getElem?_cons_zero, Option.some.injEq, Prod.mk.injEq] at hf
      rw [hf.1] at c1
      exact absurd hs c1
    | succ i =>
      simp only [fieldList, List.getElem?_cons_succ] at hf
      split at h
      · rw [List.mem_singleton] at h; rw [h]
      · rcases inPlace_mem h with ⟨v, hv, rfl⟩ | ⟨-, vs, hvs, rfl⟩
        · rfl
        · simpa using seqFieldsTrail_skips hvs hf hs

end Verif.Serial
