import Verif.Serial.Props4
import Verif.Serial.StateKeep
/-
The properties C91 to C93: what `deserialize` and `patch` leave behind when they throw.
-/
namespace Verif.Serial
open Verif.Path Verif.Enums Spec Sample

variable {σ : Type}

/-! ### C91 The target of a read that throws -/

/-- C91: what is left after a call that succeeds is its result, and a call that throws
throws what it always threw. -/
theorem C91_same {B : Backend σ} {E : Env} {t : Ty} {old : Value} {d : Doc σ} :
    (∀ v, deserRun B E t old d = (v, none) ↔ deser B E t old d = .ok v) ∧
    (∀ e, (∃ w, deserRun B E t old d = (w, some e)) ↔ deser B E t old d = .error e) ∧
    (∀ v, patchRun B E t old d = (v, none) ↔ patch B E t old d = .ok v) ∧
    ∀ e, (∃ w, patchRun B E t old d = (w, some e)) ↔ patch B E t old d = .error e :=
  ⟨fun _ => deserRun_ok, fun _ => by rw [← deserRun_res, run_error], fun _ => patchRun_ok,
    fun _ => by rw [← patchRun_res, run_error]⟩

/-- C91: the target holds a value of its type whether or not the call throws. -/
theorem C91_typed {B : Backend σ} (hB : Lawful B) {E : Env} {t : Ty} (ht : tyOk t = true) {old : Value}
    (ho : HasTy t old) (d : Doc σ) :
    HasTy t (deserRun B E t old d).1 ∧ HasTy t (patchRun B E t old d).1 :=
  ⟨deserRun_typed hB t ht old d ho, patchRun_typed hB t ht old d ho⟩

/-- C91: leaves, enums and optionals are as before if reading throws. -/
theorem C91_whole {B : Backend σ} {E : Env} {t : Ty} (ht : whole t = true) {old w : Value} {d : Doc σ}
    {e : Exc} (h : deserRun B E t old d = (w, some e)) : w = old := by
  cases t with
  | leaf => exact assign_error h
  | enum => exact assign_error h
  | rawEnum => exact assign_error h
  | opt t =>
    simp only [deserRun] at h
    split at h
    · cases h
    · exact assign_error h
  | _ => cases ht

/-- C91: so is everything that is read from a document of the wrong kind. -/
theorem C91_wrong_kind {B : Backend σ} {E : Env} {t : Ty} {old : Value} {d : Doc σ}
    (hd : wrongKind t d = true) : (deserRun B E t old d).1 = old ∧ (deserRun B E t old d).2 ≠ none := by
  cases t <;> cases d <;> first
    | (simp [wrongKind] at hd; done)
    | exact ⟨rfl, nofun⟩
    | (simp only [deserRun]; cases old <;> exact ⟨rfl, nofun⟩)

/-- C91: and what is read from a sequence that is too long. -/
theorem C91_too_long {B : Backend σ} {E : Env} {l : List (Doc σ)} {old : Value} :
    (∀ n t, HasTy (.arr n t) old → n < l.length →
      (deserRun B E (.arr n t) old (.arr l)).1 = old ∧ (deserRun B E (.arr n t) old (.arr l)).2 ≠ none) ∧
    (∀ b ts, (tyList ts).length < l.length →
      (deserRun B E (.tuple b ts) old (.arr l)).1 = old ∧ (deserRun B E (.tuple b ts) old (.arr l)).2 ≠ none) ∧
    ∀ n fs, (fieldList fs).countP (fun p => !p.1.skipDeser) < l.length →
      (deserRun B E (.record n fs) old (.arr l)).1 = old ∧
      (deserRun B E (.record n fs) old (.arr l)).2 ≠ none := by
  refine ⟨fun n t ho hl => ?_, fun b ts hl => ?_, fun n fs hl => ?_⟩
  · obtain ⟨os, rfl, h1, -⟩ := hasTy_arr ho
    simp only [deserRun, elements]
    rw [if_pos (by omega)]
    exact ⟨rfl, nofun⟩
  · simp only [deserRun, elements]
    rw [if_pos (by rw [tys_length]; exact hl)]
    exact ⟨rfl, nofun⟩
  · simp only [deserRun]
    cases old with
    | record os =>
      simp only
      rw [if_pos (by rw [seqFieldCount_eq]; exact hl)]
      exact ⟨rfl, nofun⟩
    | _ => exact ⟨rfl, nofun⟩

/-- C91: a vector or a set of enumerators holds the elements before the one that cannot be
read. -/
theorem C91_sequence {B : Backend σ} {E : Env} {t : Ty} (ht : growing t = true) {old w : Value}
    {l : List (Doc σ)} {e : Exc} (h : deserRun B E t old (.arr l) = (w, some e)) :
    ∃ pre d post, l = pre ++ d :: post ∧ deser B E t old (.arr pre) = .ok w ∧
      ∀ v, deser B E t old (.arr [d]) ≠ .ok v := by
  cases t with
  | vec t =>
    simp only [deserRun, elements, Prod.mk.injEq] at h
    obtain ⟨rfl, h⟩ := h
    obtain ⟨pre, d, post, vs, rfl, h1, h2, h3⟩ := itemsRun_prefix
      (Prod.ext rfl h : itemsRun (deser B E t (fresh t)) l [] = (_, some e))
    refine ⟨pre, d, post, rfl, ?_, ?_⟩
    · simp only [deser, elements, map_ok]
      exact ⟨vs, (deserItems_ok _ _ _ _).2 h2, congrArg Value.seq h1.symm⟩
    · intro v hv
      simp only [deser, elements, map_ok] at hv
      obtain ⟨vs, hv, -⟩ := hv
      cases (deserItems_ok _ _ _ _).1 hv with
      | cons hd _ => exact h3 _ hd
  | enumSet x =>
    simp only [deserRun, elements, Prod.mk.injEq] at h
    obtain ⟨rfl, h⟩ := h
    obtain ⟨pre, d, post, rfl, h1, h2⟩ := setRun_prefix
      (Prod.ext rfl h : setRun B x l .empty = (_, some e))
    refine ⟨pre, d, post, rfl, ?_, ?_⟩
    · simp only [deser, elements, map_ok]
      exact ⟨_, h1, rfl⟩
    · intro v hv
      simp only [deser, elements, map_ok, deserSet] at hv
      obtain ⟨s, hv, -⟩ := hv
      cases hd : deserEnum B x d with
      | error y => rw [hd] at hv; cases hv
      | ok n => exact h2 n hd
  | _ => cases ht

/-- C91: a map holds the members before the one that cannot be read. -/
theorem C91_map {B : Backend σ} {E : Env} {t : Ty} {old w : Value} {ms : List (Str × Doc σ)} {e : Exc}
    (h : deserRun B E (.map t) old (.obj ms) = (w, some e)) :
    ∃ pre m post, ms = pre ++ m :: post ∧ deser B E (.map t) old (.obj pre) = .ok w ∧
      ∀ v, deser B E t (fresh t) m.2 ≠ .ok v := by
  simp only [deserRun, members, Prod.mk.injEq] at h
  obtain ⟨rfl, h⟩ := h
  obtain ⟨pre, m, post, rfl, h1, h2⟩ := entriesRun_prefix
    (Prod.ext rfl h : entriesRun (deser B E t (fresh t)) ms [] = (_, some e))
  refine ⟨pre, m, post, rfl, ?_, h2⟩
  simp only [deser, members, map_ok]
  exact ⟨_, h1, rfl⟩

/-- C91: an array is read in place: the elements before the one that cannot be read are
new, that one is as its own reading leaves it, and the ones after it are as before. -/
theorem C91_array {B : Backend σ} {E : Env} {n : Nat} {t : Ty} {os : List Value} {w : Value}
    (ho : HasTy (.arr n t) (.seq os)) {l : List (Doc σ)} (hl : l.length ≤ n) {e : Exc}
    (h : deserRun B E (.arr n t) (.seq os) (.arr l) = (w, some e)) :
    ∃ ws, w = .seq ws ∧ Stopped (fun i o w => deser B E t o (element l i) = .ok w)
      (fun i o w => ∃ e, deserRun B E t o (element l i) = (w, some e)) os ws := by
  obtain ⟨os', hos, h1, -⟩ := hasTy_arr ho
  cases hos
  simp only [deserRun, elements] at h
  rw [if_neg (by omega)] at h
  simp only [Prod.mk.injEq] at h
  obtain ⟨rfl, h⟩ := h
  refine ⟨_, rfl, stopped_imp ?_ ?_ (fixedRun_stopped
    (Prod.ext rfl h : fixedRun (deserRun B E t) l 0 os = (_, some e)))⟩
  · intro i o w h; rw [Nat.zero_add] at h; exact deserRun_ok.1 h
  · intro i o w h; rw [Nat.zero_add] at h; exact h

/-- C91: so is a tuple. -/
theorem C91_tuple {B : Backend σ} {E : Env} {b : Bool} {ts : Tys} {os : List Value} {w : Value}
    (ho : HasTy (.tuple b ts) (.seq os)) {l : List (Doc σ)} (hl : l.length ≤ (tyList ts).length) {e : Exc}
    (h : deserRun B E (.tuple b ts) (.seq os) (.arr l) = (w, some e)) :
    ∃ ws, w = .seq ws ∧ Stopped
      (fun i o w => ∀ t, (tyList ts)[i]? = some t → deser B E t o (element l i) = .ok w)
      (fun i o w => ∀ t, (tyList ts)[i]? = some t → ∃ e, deserRun B E t o (element l i) = (w, some e)) os ws := by
  obtain ⟨os', hos, h1⟩ := hasTy_tuple ho
  cases hos
  simp only [deserRun, elements] at h
  rw [if_neg (by rw [tys_length]; omega)] at h
  simp only [Prod.mk.injEq] at h
  obtain ⟨rfl, h⟩ := h
  refine ⟨_, rfl, stopped_imp ?_ ?_ (tupleRun_stopped h1
    (Prod.ext rfl h : tupleRun B E l ts 0 os = (_, some e)))⟩
  · intro i o w h t ht; have := h t ht; rw [Nat.zero_add] at this; exact deserRun_ok.1 this
  · intro i o w h t ht; have := h t ht; rw [Nat.zero_add] at this; exact this

/-- C91: so is a record that is read from an object, unless its names clash. -/
theorem C91_object {B : Backend σ} {E : Env} {n : Str} {fs : Fields} (ht : tyOk (.record n fs) = true)
    {os : List Value} {w : Value} (ho : HasTy (.record n fs) (.record os)) {ms : List (Str × Doc σ)} {e : Exc}
    (h : deserRun B E (.record n fs) (.record os) (.obj ms) = (w, some e)) :
    ∃ ws, w = .record ws ∧ ((¬ NamesChecked fs ∧ ws = os) ∨ (NamesChecked fs ∧ Stopped
      (fun i o w => ∀ f t, (fieldList fs)[i]? = some (f, t) →
        FieldReads E (fun t o d v => deser B E t o d = .ok v) ms (allNames fs) f t o w)
      (fun i o w => ∀ f t, (fieldList fs)[i]? = some (f, t) →
        FieldBreaks E (fun t o d v => deser B E t o d = .ok v)
          (fun t o d w => ∃ e, deserRun B E t o d = (w, some e)) ms (allNames fs) f t o w) os ws)) := by
  simp only [tyOk, Bool.and_eq_true] at ht
  obtain ⟨os', hos, h1⟩ := hasTy_record ho
  cases hos
  simp only [deserRun] at h
  obtain ⟨e1, hx⟩ := note_run h
  clear h
  cases hr : reservedNames fs with
  | ok r =>
    obtain ⟨hn, hf⟩ := reservedFor ht.1.1 hr
    rw [hr] at hx
    simp only [Prod.mk.injEq] at hx
    obtain ⟨rfl, h⟩ := hx
    exact ⟨_, rfl, .inr ⟨hn, fieldsRun_stopped ht.1.1 hf h1
      (Prod.ext rfl h : fieldsRun B E r ms fs os = (_, some e1))⟩⟩
  | error x =>
    rw [hr] at hx
    cases hx
    refine ⟨_, rfl, .inl ⟨fun hn => ?_, rfl⟩⟩
    obtain ⟨r, hr'⟩ := namesChecked_ok ht.1.1 hn
    rw [hr'] at hr; cases hr

/-- C91: and a record that is read from a sequence. -/
theorem C91_slots {B : Backend σ} {E : Env} {n : Str} {fs : Fields} {os : List Value} {w : Value}
    (ho : HasTy (.record n fs) (.record os)) {l : List (Doc σ)}
    (hl : l.length ≤ (fieldList fs).countP fun p => !p.1.skipDeser) {e : Exc}
    (h : deserRun B E (.record n fs) (.record os) (.arr l) = (w, some e)) :
    ∃ ws, w = .record ws ∧ Stopped
      (fun i o w => ∀ f t, (fieldList fs)[i]? = some (f, t) →
        SlotReads E (fun t o d v => deser B E t o d = .ok v) (element l (slot fs i)) f t o w)
      (fun i o w => ∀ f t, (fieldList fs)[i]? = some (f, t) →
        SlotBreaks E (fun t o d v => deser B E t o d = .ok v)
          (fun t o d w => ∃ e, deserRun B E t o d = (w, some e)) (element l (slot fs i)) f t o w) os ws := by
  obtain ⟨os', hos, h1⟩ := hasTy_record ho
  cases hos
  simp only [deserRun] at h
  obtain ⟨e1, hx⟩ := note_run h
  clear h
  rw [if_neg (by rw [seqFieldCount_eq]; omega)] at hx
  simp only [Prod.mk.injEq] at hx
  obtain ⟨rfl, h⟩ := hx
  refine ⟨_, rfl, stopped_imp ?_ ?_ (seqFieldsRun_stopped h1
    (Prod.ext rfl h : seqFieldsRun B E l fs 0 os = (_, some e1)))⟩
  · intro i o w h f t hf; have := h f t hf; rwa [Nat.zero_add] at this
  · intro i o w h f t hf; have := h f t hf; rwa [Nat.zero_add] at this

/-- C91: a field that is not read is as before, however the call ends. -/
theorem C91_skipped {B : Backend σ} {E : Env} {n : Str} {fs : Fields} (ht : tyOk (.record n fs) = true)
    {os : List Value} (ho : HasTy (.record n fs) (.record os)) (d : Doc σ) {i : Nat} {f : Field} {t : Ty}
    (hf : (fieldList fs)[i]? = some (f, t)) (hs : f.skipDeser = true) :
    ∃ ws, (deserRun B E (.record n fs) (.record os) d).1 = .record ws ∧ ws[i]? = os[i]? := by
  have stop : ∀ {done broke : Nat → Value → Value → Prop} {ws : List Value},
      (∀ o w, done i o w → w = o) → (∀ o w, ¬ broke i o w) → Stopped done broke os ws → ws[i]? = os[i]? := by
    rintro done broke ws hd hb ⟨j, hj, hl, h⟩
    cases ho' : os[i]? with
    | none => simp only [List.getElem?_eq_none_iff] at ho' ⊢; omega
    | some o =>
      have : i < ws.length := by rw [← hl]; exact (List.getElem?_eq_some_iff.1 ho').1
      have hw := List.getElem?_eq_getElem this
      obtain ⟨h1, h2, h3⟩ := h i o _ ho' hw
      rw [hw]
      rcases Nat.lt_trichotomy i j with hij | hij | hij
      · rw [hd _ _ (h1 hij)]
      · exact absurd (h2 hij) (hb _ _)
      · rw [h3 hij]
  generalize hx : deserRun B E (.record n fs) (.record os) d = x
  obtain ⟨w, e⟩ := x
  cases e with
  | none =>
    have hx := deserRun_ok.1 hx
    cases d with
    | obj ms =>
      obtain ⟨-, olds, vs, ho, rfl, hr⟩ := (C43_object ht).1 hx
      cases ho
      obtain ⟨o, w, ho, hw, hr⟩ := eachField_at hr hf
      exact ⟨vs, rfl, by rw [ho, hw, hr.1 hs]⟩
    | arr l =>
      obtain ⟨-, olds, vs, ho, rfl, h1, h2, hr⟩ := C49_sequence.1 hx
      cases ho
      have hi : i < os.length := by rw [← h1]; exact (List.getElem?_eq_some_iff.1 hf).1
      refine ⟨vs, rfl, ?_⟩
      have hw := List.getElem?_eq_getElem (l := vs) (h2 ▸ hi)
      have hv := List.getElem?_eq_getElem hi
      rw [hv, hw, (hr i f t _ _ hf hv hw).1 hs]
    | _ => simp [deser, note] at hx
  | some e =>
    cases hk : wrongKind (.record n fs) d with
    | true =>
      have := (C91_wrong_kind (B := B) (E := E) (old := .record os) hk).1
      rw [hx] at this
      exact ⟨os, this, rfl⟩
    | false =>
      cases d with
      | obj ms =>
        obtain ⟨ws, rfl, ⟨-, rfl⟩ | ⟨-, h⟩⟩ := C91_object ht ho hx
        · exact ⟨_, rfl, rfl⟩
        · refine ⟨ws, rfl, stop (fun o w h => (h f t hf).1 hs) (fun o w h => ?_) h⟩
          have := (h f t hf).1
          rw [hs] at this; cases this
      | arr l =>
        by_cases hl : l.length ≤ (fieldList fs).countP fun p => !p.1.skipDeser
        · obtain ⟨ws, rfl, h⟩ := C91_slots ho hl hx
          refine ⟨ws, rfl, stop (fun o w h => (h f t hf).1 hs) (fun o w h => ?_) h⟩
          have := (h f t hf).1
          rw [hs] at this; cases this
        · have := ((C91_too_long (B := B) (E := E) (l := l) (old := .record os)).2.2 n fs (by omega)).1
          rw [hx] at this
          exact ⟨os, this, rfl⟩
      | _ => cases hk

example : deserRun J E (.vec (int i8)) (.seq [num 7]) (.arr [jint 1, jint 2, jint 300, jint 4]) =
    (.seq [num 1, num 2], some (.deser (text (txt "value cannot be losslessly stored in the variable")
      [elementLine 2]))) := rfl
example : (deserRun J E (.map (int i8)) (.map [(txt "z", num 9)])
    (obj [("b", jint 1), ("a", jint 2), ("c", .null), ("d", jint 4)])).1 =
    .map [(txt "a", num 2), (txt "b", num 1)] := rfl
example : (deserRun J E (.arr 3 (.opt (int i8))) (.seq [.opt none, .opt (some (num 5)), .opt (some (num 6))])
    (.arr [jint 1, jstr "x", jint 3])).1 =
    .seq [.opt (some (num 1)), .opt (some (num 5)), .opt (some (num 6))] := rfl
example : (deserRun J E (.record (txt "gap") gapFields) (.record [num 3, num 7, .opt (some (num 4))])
    (obj [("a", jint 1), ("b", jint 2), ("c", jstr "x")])).1 =
    .record [num 1, num 7, .opt (some (num 4))] := rfl
example : (deserRun J E (.record (txt "gap") gapFields) (.record [num 3, num 7, .opt (some (num 4))])
    (.arr [jint 1, jint 300])).1 = .record [num 1, num 7, .opt (some (num 4))] := rfl

/-- There is no strong guarantee: a read that throws may change its target. -/
theorem C91_strong_violated : ∃ t old d, tyOk t = true ∧ HasTy t old ∧ (deserRun J E t old d).2 ≠ none ∧
    (deserRun J E t old d).1 ≠ old :=
  ⟨.record (txt "pair") pairFields, .record [num 3, num 4], obj [("a", jint 1), ("b", jstr "x")],
    by decide +kernel, by decide +kernel, nofun, by simp [deserRun, pairFields]; exact nofun⟩

/-- The value a validator rejects stays in the field: after a read that throws, a target that
met its validators need not. -/
theorem C91_invalid_violated : ∃ old d, HasTy inner old ∧
    (∃ x, old = .record [x] ∧
      MeetsAll E { name := txt "x", init := num 0, validators := [.range 1 9] } x) ∧
    (deserRun J E inner old d).2 ≠ none ∧ (deserRun J E inner old d).1 = .record [num 200] :=
  ⟨.record [num 5], obj [("x", jint 200)], by decide +kernel, ⟨_, rfl, by
    simp [MeetsAll, Meets, AtLeast, AtMost, num]⟩, nofun, rfl⟩

/-! ### C92 What a patch that throws keeps -/

/-- C92: however the call ends, what the document does not name, at any depth, is as
before. -/
theorem C92_kept {B : Backend σ} {E : Env} {t : Ty} (ht : tyOk t = true) {old : Value} (ho : HasTy t old)
    (d : Doc σ) : Kept t d old (patchRun B E t old d).1 :=
  patchRun_keeps t ht old d ho

/-- C92: the fields before the one that cannot be patched are patched, the ones after it are
as before. -/
theorem C92_object {B : Backend σ} {E : Env} {n : Str} {fs : Fields} (ht : tyOk (.record n fs) = true)
    {os : List Value} {w : Value} (ho : HasTy (.record n fs) (.record os)) {ms : List (Str × Doc σ)}
    (hu : (ms.map (·.1)).Nodup) {e : Exc}
    (h : patchRun B E (.record n fs) (.record os) (.obj ms) = (w, some e)) :
    ∃ ws, w = .record ws ∧ ((¬ NamesChecked fs ∧ ws = os) ∨ (NamesChecked fs ∧ Stopped
      (fun i o w => ∀ f t, (fieldList fs)[i]? = some (f, t) →
        FieldPatches E (fun t o d v => patch B E t o d = .ok v) ms (allNames fs) f t o w)
      (fun i o w => ∀ f t, (fieldList fs)[i]? = some (f, t) →
        PatchBreaks E (fun t o d v => patch B E t o d = .ok v)
          (fun t o d w => ∃ e, patchRun B E t o d = (w, some e)) ms (allNames fs) f t o w) os ws)) := by
  simp only [tyOk, Bool.and_eq_true] at ht
  obtain ⟨os', hos, h1⟩ := hasTy_record ho
  cases hos
  simp only [patchRun] at h
  obtain ⟨e1, hx⟩ := note_run h
  clear h
  cases hr : reservedNames fs with
  | ok r =>
    obtain ⟨hn, hf⟩ := reservedFor ht.1.1 hr
    rw [hr] at hx
    simp only [Prod.mk.injEq] at hx
    obtain ⟨rfl, h⟩ := hx
    exact ⟨_, rfl, .inr ⟨hn, patchFieldsRun_stopped hu ht.1.1 hf h1
      (Prod.ext rfl h : patchFieldsRun B E r ms fs os = (_, some e1))⟩⟩
  | error x =>
    rw [hr] at hx
    cases hx
    refine ⟨_, rfl, .inl ⟨fun hn => ?_, rfl⟩⟩
    obtain ⟨r, hr'⟩ := namesChecked_ok ht.1.1 hn
    rw [hr'] at hr; cases hr

/-- C92: an optional is patched in place; it is as before if it was empty. -/
theorem C92_optional {B : Backend σ} {E : Env} {t : Ty} {d : Doc σ} (hd : d ≠ .null) :
    (∀ v w e, patchRun B E t v d = (w, some e) →
      patchRun B E (.opt t) (.opt (some v)) d = (.opt (some w), some e)) ∧
    ∀ w e, patchRun B E (.opt t) (.opt none) d = (w, some e) → w = .opt none := by
  have hn : ¬ d.isNull = true := fun h => hd (isNull_iff.1 h)
  refine ⟨fun v w e h => ?_, fun w e h => ?_⟩
  · simp only [patchRun, if_neg hn, h]
  · simp only [patchRun, if_neg hn] at h
    exact assign_error h

example : (patchRun J E point somePoint (obj [("nick", jstr "p"), ("tags", .arr [jstr "red", jint 7]),
      ("ID", jint 6), ("z", jint 3)])).1 =
    .record [num 6, .opt (some (.atom (.str (txt "p")))), .seq [num 1], .record [num 200]] := rfl
example : (patchRun J E bag (.record [.map []]) (obj [("p", obj [("r", obj [("a", jint 1)])]),
    ("q", obj [("r", obj [("a", jint 11)])])])).1 =
    .record [.map [(txt "p", .record [.record [num 1, num 0]])]] := rfl
example : (patchRun J E bag (.record [.map [(txt "q", .record [.record [num 1, num 2]])]])
    (obj [("q", obj [("r", obj [("a", jint 11)])])])).1 =
    .record [.map [(txt "q", .record [.record [num 11, num 2]])]] := rfl

/-! ### C93 Reading again after a failure -/

/-- C93: what is read into a value does not depend on it, unless there are fields that are
not read or may be missing. -/
theorem C93_forgets {B : Backend σ} {E : Env} {t : Ty} (ht : tyOk t = true) (hf : forgetful t = true)
    {o p : Value} (ho : HasTy t o) (hp : HasTy t p) (d : Doc σ) : deser B E t o d = deser B E t p d :=
  deser_forgets t ht hf o p d ho hp

/-- C93: so nothing of a read or a patch that threw is seen by the next read. -/
theorem C93_retry {B : Backend σ} (hB : Lawful B) {E : Env} {t : Ty} (ht : tyOk t = true)
    (hf : forgetful t = true) {o : Value} (ho : HasTy t o) (d d' : Doc σ) :
    deser B E t (deserRun B E t o d).1 d' = deser B E t o d' ∧
    deser B E t (patchRun B E t o d).1 d' = deser B E t o d' :=
  ⟨C93_forgets ht hf (C91_typed hB ht ho d).1 ho d', C93_forgets ht hf (C91_typed hB ht ho d).2 ho d'⟩

example : forgetful (.record (txt "pair") pairFields) = true := rfl
example : deser J E (.record (txt "pair") pairFields) (deserRun J E (.record (txt "pair") pairFields)
    (.record [num 3, num 4]) (obj [("a", jint 1), ("b", jstr "x")])).1 (obj [("b", jint 2), ("a", jint 8)]) =
    .ok (.record [num 8, num 2]) := rfl

/-- With `allow_missing` the rest of a read that threw is taken for the old value. -/
theorem C93_missing_violated : ∃ t o d d' v w, tyOk t = true ∧ HasTy t o ∧ (deserRun J E t o d).2 ≠ none ∧
    deser J E t (deserRun J E t o d).1 d' = .ok v ∧ deser J E t o d' = .ok w ∧ v ≠ w :=
  ⟨.record (txt "m") (.cons { name := txt "a", init := num 0, allowMissing := true } (int i8)
      (.cons { name := txt "b", init := num 0 } (int i8) .nil)),
    .record [num 3, num 4], obj [("a", jint 1), ("b", jstr "x")], obj [("b", jint 2)],
    .record [num 1, num 2], .record [num 3, num 2], by decide +kernel, by decide +kernel, nofun, rfl, rfl,
    by simp [num]⟩

end Verif.Serial
