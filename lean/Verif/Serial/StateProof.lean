import Verif.Serial.StateTyped
import Verif.Serial.Blame
import Verif.Serial.Again
/-
What a failed read or patch should leave behind, and the proofs.
-/
namespace Verif.Serial.Spec
open Verif.Path Verif.Enums

variable {σ : Type}

/-- Done up to some position, broken there, and as before after it. -/
def Stopped (done broke : Nat → Value → Value → Prop) (os ws : List Value) : Prop :=
  ∃ j, j < os.length ∧ os.length = ws.length ∧ ∀ i o w, os[i]? = some o → ws[i]? = some w →
    (i < j → done i o w) ∧ (i = j → broke i o w) ∧ (j < i → w = o)

/-- Nothing of the type can be read from a document of this kind. -/
def wrongKind : Ty → Doc σ → Bool
  | .enumSet _, .arr _ => false
  | .vec _, .arr _ => false
  | .arr _ _, .arr _ => false
  | .tuple _ _, .arr _ => false
  | .map _, .obj _ => false
  | .record _ _, .obj _ => false
  | .record _ _, .arr _ => false
  | .enumSet _, _ => true
  | .vec _, _ => true
  | .arr _ _, _ => true
  | .tuple _ _, _ => true
  | .map _, _ => true
  | .record _ _, _ => true
  | _, _ => false

/-- Read into a temporary that is moved to the target. -/
def whole : Ty → Bool
  | .leaf _ => true
  | .enum _ => true
  | .rawEnum _ => true
  | .opt _ => true
  | _ => false

/-- Cleared, then filled element by element. -/
def growing : Ty → Bool
  | .vec _ => true
  | .enumSet _ => true
  | _ => false

/-- The field at which reading an object stops: a map of extra fields holds the members
before the one that cannot be read; any other field is left as its own reading leaves it,
or holds the value a validator rejects. -/
def FieldBreaks (E : Env) (read broken : Ty → Value → Doc σ → Value → Prop) (ms : List (Str × Doc σ))
    (names : List Str) (f : Field) (t : Ty) (old w : Value) : Prop :=
  f.skipDeser = false ∧
  (f.extra = true → ∃ u pre m post, t = .map u ∧ ms = pre ++ m :: post ∧ m.1 ∉ names ∧
    (∀ v, ¬ read u (fresh u) m.2 v) ∧ Captures (fun u d w => read u (fresh u) d w) pre names t w) ∧
  (f.extra = false → f.flatten = true → broken t old (.obj ms) w) ∧
  (plain f = true → ∃ d, Consulted ms f d ∧ (broken t old d w ∨ (read t old d w ∧ ¬ MeetsAll E f w)))

/-- The field at which reading a sequence stops. -/
def SlotBreaks (E : Env) (read broken : Ty → Value → Doc σ → Value → Prop) (d : Doc σ) (f : Field) (t : Ty)
    (old w : Value) : Prop :=
  f.skipDeser = false ∧
  ((f.extra = true ∨ f.flatten = true) → w = old) ∧
  (f.extra = false → f.flatten = false → broken t old d w ∨ (read t old d w ∧ ¬ MeetsAll E f w))

/-- The field at which patching stops: of a map of extra fields, the members before the one
that cannot be patched are done, and that one is as its own patching leaves it. -/
def PatchBreaks (E : Env) (patch broken : Ty → Value → Doc σ → Value → Prop) (ms : List (Str × Doc σ))
    (names : List Str) (f : Field) (t : Ty) (old w : Value) : Prop :=
  f.skipDeser = false ∧
  (f.extra = true → ∃ u es mid es' pre m post, t = .map u ∧ old = .map es ∧ w = .map es' ∧
    ms = pre ++ m :: post ∧ m.1 ∉ names ∧ FieldPatches E patch pre names f t old (.map mid) ∧
    (NoMember mid m.1 → ∀ v, ¬ patch u (fresh u) m.2 v) ∧
    ∀ k y, (k, y) ∈ es' ↔ (k ≠ m.1 ∧ (k, y) ∈ mid) ∨ (k = m.1 ∧ ∃ o, (k, o) ∈ mid ∧ broken u o m.2 y)) ∧
  (f.extra = false → f.flatten = true → broken t old (.obj ms) w) ∧
  (plain f = true → ∃ d, ReadFrom ms f d ∧ (d ≠ .null ∨ f.defaults = []) ∧
    (broken t old d w ∨ (patch t old d w ∧ ¬ MeetsAll E f w)))

mutual
/-- What is read does not depend on what was there before. -/
def forgetful : Ty → Bool
  | .arr _ t => forgetful t
  | .tuple _ ts => forgetfulAll ts
  | .record _ fs => forgetfulFields fs
  | _ => true
def forgetfulAll : Tys → Bool
  | .nil => true
  | .cons t ts => forgetful t && forgetfulAll ts
def forgetfulFields : Fields → Bool
  | .nil => true
  | .cons f t fs =>
    !f.skipDeser && (f.extra || f.flatten || !f.defaults.isEmpty || !f.allowMissing) &&
      (f.extra || forgetful t) && forgetfulFields fs
end

end Verif.Serial.Spec

namespace Verif.Serial
open Verif.Path Verif.Enums Spec

variable {σ : Type}

theorem stopped_here {done broke : Nat → Value → Value → Prop} {o w : Value} {os : List Value}
    (h : broke 0 o w) : Stopped done broke (o :: os) (w :: os) := by
  refine ⟨0, by simp, by simp, ?_⟩
  intro i o' w' ho hw
  cases i with
  | zero => simp at ho hw; subst ho hw; exact ⟨fun h => absurd h (by omega), fun _ => h, fun h => absurd h (by omega)⟩
  | succ i =>
    simp only [List.getElem?_cons_succ] at ho hw
    rw [ho] at hw; cases hw
    exact ⟨fun h => absurd h (by omega), fun h => absurd h (by omega), fun _ => rfl⟩

theorem stopped_later {done broke : Nat → Value → Value → Prop} {o w : Value} {os ws : List Value}
    (h : done 0 o w) (hs : Stopped (fun i => done (i + 1)) (fun i => broke (i + 1)) os ws) :
    Stopped done broke (o :: os) (w :: ws) := by
  obtain ⟨j, hj, hl, hs⟩ := hs
  refine ⟨j + 1, by simp; omega, by simp [hl], ?_⟩
  intro i o' w' ho hw
  cases i with
  | zero => simp at ho hw; subst ho hw; exact ⟨fun _ => h, fun h => absurd h (by omega), fun h => absurd h (by omega)⟩
  | succ i =>
    obtain ⟨h1, h2, h3⟩ := hs i o' w' (by simpa using ho) (by simpa using hw)
    exact ⟨fun h => h1 (by omega), fun h => h2 (by omega), fun h => h3 (by omega)⟩

theorem stopped_imp {done broke done' broke' : Nat → Value → Value → Prop} {os ws : List Value}
    (hd : ∀ i o w, done i o w → done' i o w) (hb : ∀ i o w, broke i o w → broke' i o w)
    (h : Stopped done broke os ws) : Stopped done' broke' os ws := by
  obtain ⟨j, hj, hl, h⟩ := h
  refine ⟨j, hj, hl, fun i o w ho hw => ?_⟩
  obtain ⟨h1, h2, h3⟩ := h i o w ho hw
  exact ⟨fun h => hd _ _ _ (h1 h), fun h => hb _ _ _ (h2 h), h3⟩

theorem run_ok {α : Type} {r : Run α} {v : α} : r.res = .ok v ↔ r = (v, none) := by
  rcases r with ⟨w, _ | e⟩ <;> simp [Run.res]

theorem run_error {α : Type} {r : Run α} {e : Exc} : r.res = .error e ↔ ∃ w, r = (w, some e) := by
  rcases r with ⟨w, _ | e⟩ <;> simp [Run.res]

theorem deserRun_ok {B : Backend σ} {E : Env} {t : Ty} {old v : Value} {d : Doc σ} :
    deserRun B E t old d = (v, none) ↔ deser B E t old d = .ok v := by
  rw [← deserRun_res, run_ok]

theorem patchRun_ok {B : Backend σ} {E : Env} {t : Ty} {old v : Value} {d : Doc σ} :
    patchRun B E t old d = (v, none) ↔ patch B E t old d = .ok v := by
  rw [← patchRun_res, run_ok]

theorem note_run {α : Type} {m : Str} {r : Run α} {w : α} {e : Exc} (h : r.note m = (w, some e)) :
    ∃ e', r = (w, some e') := by
  rcases r with ⟨v, _ | e'⟩
  · cases h
  · simp only [Run.note, Option.map_some, Prod.mk.injEq] at h
    exact ⟨e', by rw [h.1]⟩

theorem note_run_ok {α : Type} {m : Str} {r : Run α} {w : α} (h : r.note m = (w, none)) :
    r = (w, none) := by
  rcases r with ⟨v, _ | e'⟩
  · simp only [Run.note, Option.map_none, Prod.mk.injEq] at h; rw [h.1]
  · cases h

theorem assign_error {α : Type} {old w : α} {r : Res α} {e : Exc} (h : assign old r = (w, some e)) :
    w = old := by
  cases r <;> cases h
  rfl

/-! ### Growing -/

theorem setRun_prefix {B : Backend σ} {e : EnumTy} : ∀ {l : List (Doc σ)} {out w x},
    setRun B e l out = (w, some x) → ∃ pre d post, l = pre ++ d :: post ∧
      deserSet B e pre out = .ok w ∧ ∀ n, deserEnum B e d ≠ .ok n
  | [], out, w, x, h => by cases h
  | d :: ds, out, w, x, h => by
    simp only [setRun] at h
    cases hd : deserEnum B e d with
    | error y => rw [hd] at h; cases h; exact ⟨[], d, ds, rfl, rfl, by simp [hd]⟩
    | ok n =>
      rw [hd] at h
      obtain ⟨pre, d', post, rfl, h2, h3⟩ := setRun_prefix h
      exact ⟨d :: pre, d', post, rfl, by simp only [deserSet, hd]; exact h2, h3⟩

theorem itemsRun_prefix {f : Doc σ → Res Value} : ∀ {l : List (Doc σ)} {out w x},
    itemsRun f l out = (w, some x) → ∃ pre d post vs, l = pre ++ d :: post ∧ w = out ++ vs ∧
      Each (fun d v => f d = .ok v) pre vs ∧ ∀ n, f d ≠ .ok n
  | [], out, w, x, h => by cases h
  | d :: ds, out, w, x, h => by
    simp only [itemsRun] at h
    cases hd : f d with
    | error y =>
      rw [hd] at h
      simp only [note, Prod.mk.injEq] at h
      exact ⟨[], d, ds, [], rfl, by simp [h.1], .nil, by simp [hd]⟩
    | ok n =>
      rw [hd] at h
      obtain ⟨pre, d', post, vs, rfl, h2, h3, h4⟩ := itemsRun_prefix h
      exact ⟨d :: pre, d', post, n :: vs, rfl, by simp [h2], .cons hd h3, h4⟩

theorem entriesRun_prefix {f : Doc σ → Res Value} : ∀ {ms : List (Str × Doc σ)} {out w x},
    entriesRun f ms out = (w, some x) → ∃ pre m post, ms = pre ++ m :: post ∧
      deserEntries f pre out = .ok w ∧ ∀ n, f m.2 ≠ .ok n
  | [], out, w, x, h => by cases h
  | (k, d) :: ms, out, w, x, h => by
    simp only [entriesRun] at h
    cases hd : f d with
    | error y => rw [hd] at h; cases h; exact ⟨[], (k, d), ms, rfl, rfl, by simp [hd]⟩
    | ok n =>
      rw [hd] at h
      obtain ⟨pre, m, post, rfl, h2, h3⟩ := entriesRun_prefix h
      exact ⟨(k, d) :: pre, m, post, rfl, by simp only [deserEntries, hd, note]; exact h2, h3⟩

theorem extraEntriesRun_prefix {f : Doc σ → Res Value} {r : List Str} : ∀ {ms : List (Str × Doc σ)} {out w x},
    extraEntriesRun f r ms out = (w, some x) → ∃ pre m post, ms = pre ++ m :: post ∧ m.1 ∉ r ∧
      deserExtraEntries f r pre out = .ok w ∧ ∀ n, f m.2 ≠ .ok n
  | [], out, w, x, h => by cases h
  | (k, d) :: ms, out, w, x, h => by
    simp only [extraEntriesRun] at h
    by_cases hk : r.contains k = true
    · rw [if_pos hk] at h
      obtain ⟨pre, m, post, rfl, h1, h2, h3⟩ := extraEntriesRun_prefix h
      refine ⟨(k, d) :: pre, m, post, rfl, h1, ?_, h3⟩
      simp only [deserExtraEntries]
      rw [if_pos hk]; exact h2
    · rw [if_neg hk] at h
      have hk' : k ∉ r := by simpa using hk
      cases hd : f d with
      | error y => rw [hd] at h; cases h; exact ⟨[], (k, d), ms, rfl, hk', rfl, by simp [hd]⟩
      | ok n =>
        rw [hd] at h
        obtain ⟨pre, m, post, rfl, h1, h2, h3⟩ := extraEntriesRun_prefix h
        refine ⟨(k, d) :: pre, m, post, rfl, h1, ?_, h3⟩
        simp only [deserExtraEntries, hd, note]
        rw [if_neg hk]; exact h2

/-! ### In place -/

theorem fixedRun_stopped {f : Value → Doc σ → Run Value} {l : List (Doc σ)} :
    ∀ {k : Nat} {os ws : List Value} {e : Exc}, fixedRun f l k os = (ws, some e) →
      Stopped (fun i o w => f o (atIndex l (k + i)) = (w, none))
        (fun i o w => ∃ e, f o (atIndex l (k + i)) = (w, some e)) os ws
  | k, [], ws, e, h => by cases h
  | k, o :: os, ws, e, h => by
    simp only [fixedRun] at h
    split at h
    · rename_i w e' hx
      cases h
      exact stopped_here (note_run hx)
    · rename_i w hx
      simp only [Prod.mk.injEq] at h
      obtain ⟨rfl, h⟩ := h
      have := fixedRun_stopped (Prod.ext rfl h : fixedRun f l (k + 1) os = (_, some e))
      refine stopped_later (note_run_ok hx) (stopped_imp ?_ ?_ this)
      · intro i o w h; rwa [Nat.add_assoc, Nat.add_comm 1 i] at h
      · intro i o w h; rwa [Nat.add_assoc, Nat.add_comm 1 i] at h

theorem tupleRun_stopped {B : Backend σ} {E : Env} {l : List (Doc σ)} :
    ∀ {ts : Tys} {k : Nat} {os ws : List Value} {e : Exc}, hasTys ts os = true →
    tupleRun B E l ts k os = (ws, some e) →
      Stopped (fun i o w => ∀ t, (tyList ts)[i]? = some t → deserRun B E t o (atIndex l (k + i)) = (w, none))
        (fun i o w => ∀ t, (tyList ts)[i]? = some t → ∃ e, deserRun B E t o (atIndex l (k + i)) = (w, some e))
        os ws
  | .nil, k, os, ws, e, ho, h => by
    rw [hasTys_nil ho] at h
    simp [tupleRun] at h
  | .cons t ts, k, os, ws, e, ho, h => by
    obtain ⟨o, os, rfl, h1, h2⟩ := hasTys_cons ho
    simp only [tupleRun] at h
    split at h
    · rename_i w e' hx
      cases h
      refine stopped_here ?_
      intro t' ht'
      simp only [tyList, List.getElem?_cons_zero, Option.some.injEq] at ht'
      subst ht'
      exact ⟨e, hx⟩
    · rename_i w hx
      simp only [Prod.mk.injEq] at h
      obtain ⟨rfl, h⟩ := h
      have := tupleRun_stopped h2 (Prod.ext rfl h : tupleRun B E l ts (k + 1) os = (_, some e))
      refine stopped_later ?_ (stopped_imp ?_ ?_ this)
      · intro t' ht'
        simp only [tyList, List.getElem?_cons_zero, Option.some.injEq] at ht'
        subst ht'
        exact hx
      · intro i o w h t' ht'
        have := h t' (by simpa [tyList] using ht')
        rwa [Nat.add_assoc, Nat.add_comm 1 i] at this
      · intro i o w h t' ht'
        have := h t' (by simpa [tyList] using ht')
        rwa [Nat.add_assoc, Nat.add_comm 1 i] at this

theorem validateRun_error {E : Env} {f : Field} {r : Run Value} {w : Value} {e : Exc}
    (h : validateRun E f r = (w, some e)) : (∃ e, r = (w, some e)) ∨ (r = (w, none) ∧ ¬ MeetsAll E f w) := by
  rcases r with ⟨v, _ | e'⟩
  · simp only [validateRun] at h
    cases hv : validateField E v f.validators with
    | error x =>
      rw [hv] at h
      cases h
      refine .inr ⟨rfl, fun hm => ?_⟩
      rw [validateField_ok.2 hm] at hv; cases hv
    | ok u => rw [hv] at h; cases h
  · cases h; exact .inl ⟨_, rfl⟩

theorem readPlainRun_error {E : Env} {f : Field} {ms : List (Str × Doc σ)} {o w : Value}
    {p : Doc σ → Run Value} {e : Exc} (h : readPlainRun E f ms o p = (w, some e)) :
    ∃ d, Consulted ms f d ∧ ((∃ e, p d = (w, some e)) ∨ (p d = (w, none) ∧ ¬ MeetsAll E f w)) := by
  unfold readPlainRun at h
  rcases missing_or ms f with ⟨n, hn, hrf⟩ | ⟨hn, hm⟩
  · rw [hn] at h
    simp only at h
    refine ⟨_, .inl ⟨hrf, ?_⟩, ?_⟩
    · by_cases hnl : (atField ms n).isNull = true
      · rw [if_pos hnl] at h
        refine .inr ?_
        unfold applyDefault at h
        cases hh : f.defaults.head? with
        | some v => rw [hh] at h; cases h
        | none => exact head?_none.1 hh
      · exact .inl fun h' => hnl (isNull_iff.2 h')
    · split at h
      · cases h
      · exact validateRun_error h
  · rw [hn] at h
    simp only [missingPolicy, applyDefault] at h
    cases hh : f.defaults.head? with
    | some v => rw [hh] at h; cases h
    | none =>
      rw [hh] at h
      simp only at h
      cases ha : f.allowMissing with
      | true => rw [ha] at h; cases h
      | false =>
        rw [ha] at h
        simp only [Bool.false_eq_true, if_false] at h
        rw [atField_none (hm f.key (by simp))] at h
        exact ⟨.null, .inr ⟨hm, rfl, head?_none.1 hh, ha⟩, validateRun_error h⟩

theorem ReservedFor.head {r : Option (List Str)} {names : List Str} {f : Field} {t : Ty} {fs : Fields}
    (h : ReservedFor r names (.cons f t fs)) : ReservedFor r names (.cons f t .nil) := by
  rcases h with h | ⟨h1, h2⟩
  · exact .inl h
  · refine .inr ⟨h1, ?_⟩
    simp only [hasExtraOrFlatten, Bool.or_eq_false_iff] at h2 ⊢
    exact ⟨h2.1, trivial⟩

theorem fieldsRun_stopped {B : Backend σ} {E : Env} {r : Option (List Str)} {names : List Str}
    {ms : List (Str × Doc σ)} :
    ∀ {fs : Fields} {os ws : List Value} {e : Exc}, fieldsOk fs = true → ReservedFor r names fs →
    hasFields fs os = true → fieldsRun B E r ms fs os = (ws, some e) →
      Stopped (fun i o w => ∀ f t, (fieldList fs)[i]? = some (f, t) →
          FieldReads E (fun t o d v => deser B E t o d = .ok v) ms names f t o w)
        (fun i o w => ∀ f t, (fieldList fs)[i]? = some (f, t) →
          FieldBreaks E (fun t o d v => deser B E t o d = .ok v)
            (fun t o d w => ∃ e, deserRun B E t o d = (w, some e)) ms names f t o w) os ws
  | .nil, os, ws, e, _, _, ho, h => by
    rw [hasFields_nil ho] at h
    simp [fieldsRun] at h
  | .cons f t fs, os, ws, e, hf, hr, ho, h => by
    have hf1 := hf
    simp only [fieldsOk, Bool.and_eq_true] at hf
    obtain ⟨o, os, rfl, h1, h2⟩ := hasFields_cons ho
    simp only [fieldsRun] at h
    split at h
    · rename_i w e' hx
      cases h
      refine stopped_here ?_
      intro f' t' ht'
      simp only [fieldList, List.getElem?_cons_zero, Option.some.injEq, Prod.mk.injEq] at ht'
      obtain ⟨rfl, rfl⟩ := ht'
      unfold FieldBreaks plain
      by_cases c1 : f.skipDeser = true
      · rw [if_pos c1] at hx; cases hx
      rw [if_neg c1] at hx
      have c1' : f.skipDeser = false := by simpa using c1
      by_cases c2 : f.extra = true
      · rw [if_pos c2] at hx
        simp only [c1', c2, forall_const, Bool.true_eq_false, false_implies, Bool.not_true,
          Bool.and_false, Bool.false_and, Bool.false_eq_true, and_true, true_and]
        obtain ⟨l, rfl, hl⟩ := hr.extra c2
        obtain ⟨u, rfl⟩ := isMap_iff.1 ((fieldOk_iff.1 hf.1.1).2.2.2 c2)
        simp only [extrasRun, Prod.mk.injEq] at hx
        obtain ⟨rfl, hx⟩ := hx
        obtain ⟨pre, m, post, rfl, h3, h4, h5⟩ := extraEntriesRun_prefix
          (Prod.ext rfl hx : extraEntriesRun (deser B E u (fresh u)) l ms [] = (_, some e))
        refine ⟨u, pre, m, post, rfl, rfl, by rwa [← hl], h5, ?_⟩
        rw [deserExtraEntries_ok] at h4
        simp only [hl] at h4
        exact ⟨u, _, rfl, rfl, h4.2.1, h4.1, h4.2.2⟩
      rw [if_neg c2] at hx
      have c2' : f.extra = false := by simpa using c2
      obtain ⟨e1, hx⟩ := note_run hx
      by_cases c3 : f.flatten = true
      · rw [if_pos c3] at hx
        simp only [c1', c2', c3, Bool.false_eq_true, false_implies, forall_const, Bool.not_true,
          Bool.and_false, and_true, true_and]
        exact ⟨e1, hx⟩
      rw [if_neg c3] at hx
      have c3' : f.flatten = false := by simpa using c3
      simp only [c1', c2', c3', Bool.false_eq_true, false_implies, Bool.not_false, Bool.and_self,
        forall_const, true_and, implies_true]
      obtain ⟨d, hd, h⟩ := readPlainRun_error hx
      refine ⟨d, hd, h.imp id fun h => ⟨deserRun_ok.1 h.1, h.2⟩⟩
    · rename_i w hx
      simp only [Prod.mk.injEq] at h
      obtain ⟨rfl, h⟩ := h
      have := fieldsRun_stopped hf.2 hr.tail h2
        (Prod.ext rfl h : fieldsRun B E r ms fs os = (_, some e))
      refine stopped_later ?_ (stopped_imp ?_ ?_ this)
      · intro f' t' ht'
        simp only [fieldList, List.getElem?_cons_zero, Option.some.injEq, Prod.mk.injEq] at ht'
        obtain ⟨rfl, rfl⟩ := ht'
        have one : fieldsRun B E r ms (.cons f t .nil) [o] = ([w], none) := by
          simp only [fieldsRun, hx]
        have := (deserFields_ok (B := B) (E := E) (r := r) (names := names) ms (.cons f t .nil) [o] [w]
          (by simp only [fieldsOk, Bool.and_eq_true]; exact ⟨hf.1, trivial⟩) hr.head).1
          (by rw [← fieldsRun_res, run_ok]; exact one)
        cases this with
        | cons h _ => exact h
      · intro i o w h f' t' ht'
        exact h f' t' (by simpa [fieldList] using ht')
      · intro i o w h f' t' ht'
        exact h f' t' (by simpa [fieldList] using ht')

end Verif.Serial
