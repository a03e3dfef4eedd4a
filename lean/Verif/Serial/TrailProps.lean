import Verif.Serial.Props5
import Verif.Serial.TrailOrder
import Verif.Serial.TrailYaml
/-
The property C143: every state of a target while it is read or patched, and so what an exception from elsewhere (`std::bad_alloc`) leaves.
-/
namespace Verif.Serial
open Verif.Path Verif.Enums Spec Sample

variable {σ : Type}

/-- C143: the first state is the old value and the last one is what the call leaves. -/
theorem C143_ends {B : Backend σ} (hB : Lawful B) {E : Env} {t : Ty} (ht : tyOk t = true) {old : Value} (ho : HasTy t old) (d : Doc σ) :
    ((deserTrail B E t old d).head? = some old ∧ (deserTrail B E t old d).getLast? = some (deserRun B E t old d).1) ∧
    (patchTrail B E t old d).head? = some old ∧ (patchTrail B E t old d).getLast? = some (patchRun B E t old d).1 :=
  ⟨⟨(deserTrail_good hB t ht old d ho).head, (deserTrail_good hB t ht old d ho).last⟩,
    (patchTrail_good hB t ht old d ho).head, (patchTrail_good hB t ht old d ho).last⟩

/-- C143: in all states the target holds a value of its type. -/
theorem C143_typed {B : Backend σ} (hB : Lawful B) {E : Env} {t : Ty} (ht : tyOk t = true) {old w : Value} (ho : HasTy t old) {d : Doc σ}
    (h : w ∈ deserTrail B E t old d ∨ w ∈ patchTrail B E t old d) : HasTy t w := by
  rcases h with h | h
  · exact (deserTrail_good hB t ht old d ho).all w h
  · exact ((patchTrail_good hB t ht old d ho).all w h).1

/-- C143: in all states of a patch, what the document does not name, at any depth, is as before. -/
theorem C143_kept {B : Backend σ} (hB : Lawful B) {E : Env} {t : Ty} (ht : tyOk t = true) {old w : Value} (ho : HasTy t old) {d : Doc σ}
    (h : w ∈ patchTrail B E t old d) : Kept t d old w :=
  ((patchTrail_good hB t ht old d ho).all w h).2

example : (deserTrail J E (.record (txt "pair") pairFields) (.record [num 3, num 4]) (obj [("a", jint 1), ("b", jstr "x")])) =
    [.record [num 3, num 4], .record [num 1, num 4], .record [num 1, num 4]] := rfl
example : tyOk (.record (txt "pair") pairFields) = true ∧ HasTy (.record (txt "pair") pairFields) (.record [num 3, num 4]) := by
  decide +kernel
example : patchTrail J E (.record (txt "pair") pairFields) (.record [num 3, num 4]) (obj [("b", jint 8)]) =
    [.record [num 3, num 4], .record [num 3, num 4], .record [num 3, num 8], .record [num 3, num 8]] := rfl

/-- C143: leaves, enums and optionals are old or new. -/
theorem C143_whole {B : Backend σ} {E : Env} {t : Ty} (ht : whole t = true) {old w : Value} {d : Doc σ} :
    w ∈ deserTrail B E t old d ↔ w = old ∨ deser B E t old d = .ok w := by
  have key : ∀ r : Res Value, w ∈ assignTrail old r ↔ w = old ∨ r = .ok w := by
    intro r
    refine ⟨assignTrail_mem, ?_⟩
    rintro (rfl | rfl)
    · cases r <;> simp [assignTrail]
    · simp [assignTrail]
  cases t with
  | leaf => simp only [deserTrail, deser]; exact key _
  | enum => simp only [deserTrail, deser]; exact key _
  | rawEnum => simp only [deserTrail, deser]; exact key _
  | opt t =>
    simp only [deserTrail, deser]
    split
    · simp [eq_comm]
    · exact key _
  | _ => cases ht

/-- C143: a document of the wrong kind changes nothing at any time. -/
theorem C143_wrong_kind {B : Backend σ} {E : Env} {t : Ty} {old w : Value} {d : Doc σ} (hd : wrongKind t d = true)
    (h : w ∈ deserTrail B E t old d) : w = old := by
  cases t <;> cases d <;> first
    | (simp [wrongKind] at hd; done)
    | (simpa [deserTrail, elements, members] using h)
    | (simp only [deserTrail] at h; cases old <;> simpa using h)

/-- C143: the states of a vector or a set of enumerators are the old one and the readings of the beginnings of the document. -/
theorem C143_sequence {B : Backend σ} {E : Env} {t : Ty} (ht : growing t = true) {old w : Value} {l : List (Doc σ)} :
    w ∈ deserTrail B E t old (.arr l) ↔ w = old ∨ ∃ pre post, l = pre ++ post ∧ deser B E t old (.arr pre) = .ok w := by
  cases t with
  | vec t =>
    simp only [deserTrail, elements, List.mem_cons, List.mem_map, deser, map_ok, itemsTrail_mem, deserItems_ok, List.nil_append]
    constructor
    · rintro (rfl | ⟨vs, ⟨pre, post, vs', rfl, h, rfl⟩, rfl⟩)
      · exact .inl rfl
      · exact .inr ⟨pre, post, rfl, _, h, rfl⟩
    · rintro (rfl | ⟨pre, post, rfl, vs, h, rfl⟩)
      · exact .inl rfl
      · exact .inr ⟨vs, ⟨pre, post, vs, rfl, h, rfl⟩, rfl⟩
  | enumSet e =>
    simp only [deserTrail, elements, List.mem_cons, List.mem_map, deser, map_ok, setTrail_mem]
    constructor
    · rintro (rfl | ⟨s, ⟨pre, post, rfl, h⟩, rfl⟩)
      · exact .inl rfl
      · exact .inr ⟨pre, post, rfl, s, h, rfl⟩
    · rintro (rfl | ⟨pre, post, rfl, s, h, rfl⟩)
      · exact .inl rfl
      · exact .inr ⟨s, ⟨pre, post, rfl, h⟩, rfl⟩
  | _ => cases ht

/-- C143: so are those of a map. -/
theorem C143_map {B : Backend σ} {E : Env} {t : Ty} {old w : Value} {ms : List (Str × Doc σ)} :
    w ∈ deserTrail B E (.map t) old (.obj ms) ↔
      w = old ∨ ∃ pre post, ms = pre ++ post ∧ deser B E (.map t) old (.obj pre) = .ok w := by
  simp only [deserTrail, members, List.mem_cons, List.mem_map, deser, map_ok, entriesTrail_mem]
  constructor
  · rintro (rfl | ⟨s, ⟨pre, post, rfl, h⟩, rfl⟩)
    · exact .inl rfl
    · exact .inr ⟨pre, post, rfl, s, h, rfl⟩
  · rintro (rfl | ⟨pre, post, rfl, s, h, rfl⟩)
    · exact .inl rfl
    · exact .inr ⟨s, ⟨pre, post, rfl, h⟩, rfl⟩

example : deserTrail J E (.vec (int i8)) (.seq [num 7]) (.arr [jint 1, jint 2, jint 300, jint 4]) =
    [.seq [num 7], .seq [], .seq [num 1], .seq [num 1, num 2]] := rfl
example : deserTrail J E (.map (int i8)) (.map [(txt "z", num 9)]) (obj [("b", jint 1), ("a", jint 2)]) =
    [.map [(txt "z", num 9)], .map [], .map [(txt "b", num 1)], .map [(txt "a", num 2), (txt "b", num 1)]] := rfl

/-- C143: an array is read in place: in each state the elements before some place are new, the one there is in a state of its own
reading, and the ones after it are old; and all these states occur. -/
theorem C143_array {B : Backend σ} (hB : Lawful B) {E : Env} {n : Nat} {t : Ty} (ht : tyOk t = true) {os : List Value} {w : Value}
    (ho : HasTy (.arr n t) (.seq os)) {l : List (Doc σ)} (hl : l.length ≤ n) (h0 : 0 < n) :
    w ∈ deserTrail B E (.arr n t) (.seq os) (.arr l) ↔
      ∃ ws, w = .seq ws ∧ Stopped (fun i o w => deser B E t o (element l i) = .ok w)
        (fun i o w => w ∈ deserTrail B E t o (element l i)) os ws := by
  obtain ⟨os', hos, h1, h2⟩ := hasTy_arr ho
  cases hos
  have hne : os ≠ [] := by rintro rfl; simp at h1; omega
  simp only [deserTrail, elements]
  rw [if_neg (by omega)]
  simp only [List.mem_map]
  have e := fun ws => fixedTrail_mem (P := HasTy t) (f := deserRun B E t) (tr := deserTrail B E t)
    (fun o d ho => deserTrail_last hB ht ho d) (l := l) (k := 0) (w := ws) h2
  simp only [e, hne, false_and, false_or, Nat.zero_add, deserRun_ok]
  constructor
  · rintro ⟨ws, h, rfl⟩; exact ⟨ws, rfl, h⟩
  · rintro ⟨ws, rfl, h⟩; exact ⟨ws, h, rfl⟩

/-- C143: so is a tuple. -/
theorem C143_tuple {B : Backend σ} (hB : Lawful B) {E : Env} {b : Bool} {ts : Tys} (ht : tyOk (.tuple b ts) = true) {os : List Value}
    {w : Value} (ho : HasTy (.tuple b ts) (.seq os)) {l : List (Doc σ)} (hl : l.length ≤ (tyList ts).length) (h0 : os ≠ []) :
    w ∈ deserTrail B E (.tuple b ts) (.seq os) (.arr l) ↔
      ∃ ws, w = .seq ws ∧ Stopped
        (fun i o w => ∀ t, (tyList ts)[i]? = some t → deser B E t o (element l i) = .ok w)
        (fun i o w => ∀ t, (tyList ts)[i]? = some t → w ∈ deserTrail B E t o (element l i)) os ws := by
  obtain ⟨os', hos, h1⟩ := hasTy_tuple ho
  cases hos
  simp only [tyOk, Bool.and_eq_true] at ht
  simp only [deserTrail, elements]
  rw [if_neg (by rw [tys_length]; omega)]
  simp only [List.mem_map]
  have e := fun ws => tupleTrail_mem hB (E := E) (l := l) (k := 0) (w := ws) (by first | exact ht | exact ht.1) h1
  simp only [e, h0, false_and, false_or, Nat.zero_add, deserRun_ok]
  constructor
  · rintro ⟨ws, h, rfl⟩; exact ⟨ws, rfl, h⟩
  · rintro ⟨ws, rfl, h⟩; exact ⟨ws, h, rfl⟩

example : deserTrail J E (.arr 2 (.vec (int i8))) (.seq [.seq [num 7], .seq [num 8]]) (.arr [.arr [jint 1], .arr []]) =
    [.seq [.seq [num 7], .seq [num 8]], .seq [.seq [], .seq [num 8]], .seq [.seq [num 1], .seq [num 8]],
      .seq [.seq [num 1], .seq [num 8]], .seq [.seq [num 1], .seq []], .seq [.seq [num 1], .seq []]] := rfl

/-- C143: the fields of a record are read and patched in their order: in each state those before some place are as the call leaves
them and those after it are old. -/
theorem C143_order {B : Backend σ} (hB : Lawful B) {E : Env} {n : Str} {fs : Fields} (ht : tyOk (.record n fs) = true) {os : List Value}
    (ho : HasTy (.record n fs) (.record os)) {d : Doc σ} {w : Value} :
    (w ∈ deserTrail B E (.record n fs) (.record os) d →
      ∃ ws ends, w = .record ws ∧ (deserRun B E (.record n fs) (.record os) d).1 = .record ends ∧ Partway ends os ws) ∧
    (w ∈ patchTrail B E (.record n fs) (.record os) d →
      ∃ ws ends, w = .record ws ∧ (patchRun B E (.record n fs) (.record os) d).1 = .record ends ∧ Partway ends os ws) := by
  have key : ∀ (tr : List (List Value)) (fin : Value), AllPartway os tr → (tr.map Value.record).getLast? = some fin →
      w ∈ tr.map Value.record → ∃ ws ends, w = .record ws ∧ fin = .record ends ∧ Partway ends os ws := by
    intro tr fin ha hf hw
    obtain ⟨ws, hws, rfl⟩ := List.mem_map.1 hw
    rw [List.getLast?_map] at hf
    obtain ⟨ends, he, rfl⟩ := Option.map_eq_some_iff.1 hf
    exact ⟨ws, ends, rfl, rfl, ha ends he ws hws⟩
  have one : ∀ fin : Value, [Value.record os].getLast? = some fin → w ∈ [Value.record os] →
      ∃ ws ends, w = .record ws ∧ fin = .record ends ∧ Partway ends os ws :=
    fun fin hf hw => key [os] fin (allPartway_one os) hf hw
  have hd : ∀ d : Doc σ, w ∈ deserTrail B E (.record n fs) (.record os) d →
      ∃ ws ends, w = .record ws ∧ (deserRun B E (.record n fs) (.record os) d).1 = .record ends ∧ Partway ends os ws := by
    intro d
    have hlast := (deserTrail_good hB (E := E) _ ht _ d ho).last
    generalize (deserRun B E (.record n fs) (.record os) d).1 = fin at hlast ⊢
    simp only [deserTrail] at hlast ⊢
    cases d with
    | obj ms =>
      simp only at hlast ⊢
      cases hr : reservedNames fs with
      | error e => rw [hr] at hlast; exact one fin hlast
      | ok r => rw [hr] at hlast; exact key _ fin (fieldsTrail_order fs os) hlast
    | arr l =>
      simp only at hlast ⊢
      by_cases hc : seqFieldCount fs < l.length
      · rw [if_pos hc] at hlast ⊢; exact one fin hlast
      · rw [if_neg hc] at hlast ⊢; exact key _ fin (seqFieldsTrail_order fs 0 os) hlast
    | null => exact one fin hlast
    | scalar s => exact one fin hlast
  refine ⟨hd d, ?_⟩
  have hlast := (patchTrail_good hB (E := E) _ ht _ d ho).last
  cases d with
  | obj ms =>
    generalize (patchRun B E (.record n fs) (.record os) (.obj ms)).1 = fin at hlast ⊢
    simp only [patchTrail] at hlast ⊢
    cases hr : reservedNames fs with
    | error e => rw [hr] at hlast; exact one fin hlast
    | ok r => rw [hr] at hlast; exact key _ fin (patchFieldsTrail_order fs os) hlast
  | arr l => intro h; simpa only [patchRun, note_left] using hd _ (by simpa only [patchTrail] using h)
  | null => intro h; simpa only [patchRun, note_left] using hd _ (by simpa only [patchTrail] using h)
  | scalar s => intro h; simpa only [patchRun, note_left] using hd _ (by simpa only [patchTrail] using h)

/-- C143: a field that is not read is as before in all states. -/
theorem C143_skipped {B : Backend σ} {E : Env} {n : Str} {fs : Fields} {os : List Value} {d : Doc σ} {w : Value}
    (h : w ∈ deserTrail B E (.record n fs) (.record os) d) {i : Nat} {f : Field} {t : Ty}
    (hf : (fieldList fs)[i]? = some (f, t)) (hs : f.skipDeser = true) : ∃ ws, w = .record ws ∧ ws[i]? = os[i]? := by
  simp only [deserTrail] at h
  cases d with
  | obj ms =>
    simp only at h
    cases hr : reservedNames fs with
    | error e => rw [hr] at h; rw [List.mem_singleton.1 h]; exact ⟨os, rfl, rfl⟩
    | ok r =>
      rw [hr] at h
      obtain ⟨ws, hws, rfl⟩ := List.mem_map.1 h
      exact ⟨ws, rfl, fieldsTrail_skips hws hf hs⟩
  | arr l =>
    simp only at h
    split at h
    · rw [List.mem_singleton.1 h]; exact ⟨os, rfl, rfl⟩
    · obtain ⟨ws, hws, rfl⟩ := List.mem_map.1 h
      exact ⟨ws, rfl, seqFieldsTrail_skips hws hf hs⟩
  | null => rw [List.mem_singleton.1 h]; exact ⟨os, rfl, rfl⟩
  | scalar s => rw [List.mem_singleton.1 h]; exact ⟨os, rfl, rfl⟩

example : deserTrail J E (.record (txt "gap") gapFields) (.record [num 3, num 7, .opt (some (num 4))])
    (obj [("a", jint 1), ("b", jint 2), ("c", jint 5)]) =
    [.record [num 3, num 7, .opt (some (num 4))], .record [num 1, num 7, .opt (some (num 4))],
      .record [num 1, num 7, .opt (some (num 4))], .record [num 1, num 7, .opt (some (num 4))],
      .record [num 1, num 7, .opt (some (num 5))], .record [num 1, num 7, .opt (some (num 5))]] := rfl

/-- C143: a read that was cut short, in whatever state, and is made again with the same document ends as it would have: with the same
value or the same error. -/
theorem C143_resume {B : Backend σ} (hB : Lawful B) {E : Env} {t : Ty} (ht : tyOk t = true) {old w : Value} (ho : HasTy t old) {d : Doc σ}
    (h : w ∈ deserTrail B E t old d) : deser B E t w d = deser B E t old d :=
  deser_resume hB t ht old w d ho h

/-- C143: so does a patch, if no object in the document has two members of the same name. -/
theorem C143_resume_patch {B : Backend σ} (hB : Lawful B) {E : Env} {t : Ty} (ht : tyOk t = true) {old w : Value} (ho : HasTy t old)
    {d : Doc σ} (hu : uniqueNames d = true) (h : w ∈ patchTrail B E t old d) : patch B E t w d = patch B E t old d :=
  patch_resume hB t ht old w d ho hu h

/-- C143: and any other document is read as if nothing had happened, unless there are fields that are not read or may be missing. -/
theorem C143_retry {B : Backend σ} (hB : Lawful B) {E : Env} {t : Ty} (ht : tyOk t = true) (hf : forgetful t = true) {old w : Value}
    (ho : HasTy t old) {d : Doc σ} (h : w ∈ deserTrail B E t old d ∨ w ∈ patchTrail B E t old d) (d' : Doc σ) :
    deser B E t w d' = deser B E t old d' :=
  C93_forgets ht hf (C143_typed hB ht ho h) ho d'

example : patchTrail J E bag (.record [.map [(txt "q", .record [.record [num 1, num 2]])]])
    (obj [("q", obj [("r", obj [("a", jint 5)])]), ("s", obj [("r", obj [("a", jint 6)])])]) =
    [.record [.map [(txt "q", .record [.record [num 1, num 2]])]],
      .record [.map [(txt "q", .record [.record [num 5, num 2]])]],
      .record [.map [(txt "q", .record [.record [num 5, num 2]])]],
      .record [.map [(txt "q", .record [.record [num 5, num 2]])]],
      .record [.map [(txt "q", .record [.record [num 5, num 2]])]],
      .record [.map [(txt "q", .record [.record [num 5, num 2]])]],
      .record [.map [(txt "q", .record [.record [num 5, num 2]]), (txt "s", .record [.record [num 6, num 0]])]],
      .record [.map [(txt "q", .record [.record [num 5, num 2]]), (txt "s", .record [.record [num 6, num 0]])]]] := rfl
example : uniqueNames (obj [("q", obj [("r", obj [("a", jint 5)])]), ("s", obj [("r", obj [("a", jint 6)])])]) = true := by
  decide +kernel

/-- An exception from elsewhere may leave what is neither old nor new, although the document can be read. -/
theorem C143_torn_violated : ∃ t old d v w, tyOk t = true ∧ HasTy t old ∧ deser J E t old d = .ok v ∧ w ∈ deserTrail J E t old d ∧
    w ≠ old ∧ w ≠ v :=
  ⟨.record (txt "pair") pairFields, .record [num 3, num 4], obj [("a", jint 1), ("b", jint 2)], .record [num 1, num 2],
    .record [num 1, num 4], by decide +kernel, by decide +kernel, rfl, by
      show _ ∈ [Value.record [num 3, num 4], .record [num 1, num 4], .record [num 1, num 4], .record [num 1, num 2],
        .record [num 1, num 2]]
      simp, by simp [num], by simp [num]⟩

/-- With members of the same name a patch that was cut short cannot always be made again. -/
theorem C143_repeated_names_violated : ∃ t old d v w e, tyOk t = true ∧ HasTy t old ∧ patch J E t old d = .ok v ∧
    w ∈ patchTrail J E t old d ∧ patch J E t w d = .error e := by
  have hok : tyOk bag = true := by decide +kernel
  have hty : HasTy bag (fresh bag) := by decide +kernel
  obtain ⟨-, v, e, h1, h2⟩ := C45_repeated_names_violated
  refine ⟨bag, fresh bag, twiceDoc, v, v, e, hok, hty, h1, ?_, h2⟩
  have := List.mem_of_getLast? (patchTrail_good (show Lawful J from json_lawful _) (E := E) bag hok (fresh bag) twiceDoc hty).last
  rwa [patchRun_ok.2 h1] at this

/-- C143: all this holds of YAML too. -/
theorem C143_yaml {c : Yaml.Conv} (hc : Faithful c) {E : Env} {t : Ty} (ht : tyOk t = true) {old w : Value} (ho : HasTy t old)
    {d : YDoc} :
    (w ∈ deserTrail (yaml c) E t old d → HasTy t w ∧ deser (yaml c) E t w d = deser (yaml c) E t old d) ∧
    (w ∈ patchTrail (yaml c) E t old d → HasTy t w ∧ Kept t d old w ∧
      (uniqueNames d = true → patch (yaml c) E t w d = patch (yaml c) E t old d)) ∧
    (deserTrail (yaml c) E t old d).head? = some old ∧
    (deserTrail (yaml c) E t old d).getLast? = some (deserRun (yaml c) E t old d).1 ∧
    (patchTrail (yaml c) E t old d).head? = some old ∧
    (patchTrail (yaml c) E t old d).getLast? = some (patchRun (yaml c) E t old d).1 := by
  rw [← deserTrail_appending, ← patchTrail_appending, ← deser_appending, ← patch_appending, ← deserRun_appending,
    ← patchRun_appending]
  have hB := yaml_lawful hc
  have he := C143_ends hB (E := E) ht ho d
  exact ⟨fun h => ⟨C143_typed hB ht ho (.inl h), C143_resume hB ht ho h⟩,
    fun h => ⟨C143_typed hB ht ho (.inr h), C143_kept hB ht ho h, fun hu => C143_resume_patch hB ht ho hu h⟩,
    he.1.1, he.1.2, he.2.1, he.2.2⟩

example : deserTrail Y E (.record (txt "pair") pairFields) (.record [num 3, num 4]) (yobj [("a", ystr "1"), ("b", .null)]) =
    [.record [num 3, num 4], .record [num 1, num 4], .record [num 1, num 4]] := rfl

end Verif.Serial
