import Verif.Serial.Props3
import Verif.Serial.DumpRunLemmas
/-
The property C144: what `dump` has written when it throws.
-/
namespace Verif.Serial
open Verif.Path Verif.Enums Spec Sample

variable {σ : Type}

/-- C144: a run that is not ended by an exception has written what `dump` writes. -/
theorem C144_whole {B : Backend σ} {s : Bool} {t : Ty} {v : Value} {w : List (Ev σ)} :
    dumpRun B s t v = (w, none) ↔ dump B s t v = .ok w := by
  rw [← res_dumpRun]
  obtain ⟨x, _ | e⟩ := dumpRun B s t v <;> simp [Output.res]

/-- C144: the others end with the exception of `dump`. -/
theorem C144_exception {B : Backend σ} {s : Bool} {t : Ty} {v : Value} {e : Exc} :
    (∃ w, dumpRun B s t v = (w, some e)) ↔ dump B s t v = .error e := by
  rw [← res_dumpRun]
  obtain ⟨x, _ | e⟩ := dumpRun B s t v <;> simp [Output.res]

example : dumpRun J true point somePoint = (events (obj [("ID", jint 5),
    ("tags", .arr [jstr "yellow", jstr "red"]), ("x", jint 200)]), none) := rfl

/-- C144: only names that collide make it throw (JSON). -/
theorem C144_reason {B : Backend σ} (hB : Lawful B) {s : Bool} {t : Ty} (ht : tyOk t = true) {v : Value} (hv : HasTy t v)
    {w : List (Ev σ)} {e : Exc} (h : dumpRun B s t v = (w, some e)) : ¬ Writable s t v ∧ ∃ x, e = .logic x := by
  have h1 := (C42_throws hB s t v e).1 (C144_exception.1 ⟨w, h⟩)
  rcases C75_serialize hB (s := s) ht hv with ⟨-, d, h2⟩ | ⟨h2, x, h3⟩
  · rw [h1] at h2; cases h2
  · rw [h1] at h3; cases h3; exact ⟨h2, x, rfl⟩

/-- C144: only names that collide make it throw (YAML). -/
theorem C144_reason_yaml {c : Yaml.Conv} (hc : Faithful c) {s : Bool} {t : Ty} (ht : tyOk t = true) {v : Value} (hv : HasTy t v)
    {w : List (Ev _)} {e : Exc} (h : dumpRun (yaml c) s t v = (w, some e)) : ¬ Writable s t v ∧ ∃ x, e = .logic x := by
  have h1 := C144_exception.1 ⟨w, h⟩
  rw [C86_dump hc ht hv] at h1
  rcases C86_serialize hc (s := s) ht hv with ⟨-, d, h2⟩ | ⟨h2, x, h3⟩
  · rw [h2] at h1; cases h1
  · rw [h3] at h1; cases h1; exact ⟨h2, x, rfl⟩

namespace Sample
/-- The extra field is named as an alias. -/
def colliding : Value := .record [num 1, .map [(txt "0", num 7), (txt "A", num 2)]]
/-- Its message. -/
def collides : Exc := .logic (txt "serialization extra_fields key collides with reflected field: A")
end Sample

example : dumpRun J true «open» colliding =
    ([.beginMap, .key (txt "a"), .scalar (J.dumpLeaf (.int i32) (.int 1)), .key (txt "0"), .scalar (J.dumpLeaf (.int i8) (.int 7))],
      some collides) := rfl
example : tyOk «open» = true ∧ HasTy «open» colliding := by decide +kernel

/-- C144: when it throws, closing what is open makes what is written a document; the innermost that is open is a map and between two
members of it. -/
theorem C144_closable {B : Backend σ} {s : Bool} {t : Ty} {v : Value} {w : List (Ev σ)} {x : Str}
    (h : dumpRun B s t v = (w, some (.logic x))) :
    ∃ d rest, (∀ y ∈ rest, y = .endMap ∨ y = .endSeq) ∧ w ++ .endMap :: rest = events d := by
  have hf := fine_dumpRun B s t v
  rw [h] at hf
  obtain ⟨d, rest, h1, h2⟩ := hf
  refine ⟨d, rest, fun y hy => ?_, h2⟩
  have h3 := List.all_eq_true.1 h1 y hy
  cases y <;> first | exact .inl rfl | exact .inr rfl | cases h3

/-- The failing record in an array in a map: two more to close. -/
example : dumpRun J true (.map (.vec «open»)) (.map [(txt "k", .seq [.record [num 0, .map []], colliding])]) =
    ([.beginMap, .key (txt "k"), .beginSeq, .beginMap, .key (txt "a"), .scalar (J.dumpLeaf (.int i32) (.int 0)), .endMap,
      .beginMap, .key (txt "a"), .scalar (J.dumpLeaf (.int i32) (.int 1)), .key (txt "0"), .scalar (J.dumpLeaf (.int i8) (.int 7))],
      some collides) := rfl
example : ([.beginMap, .key (txt "a"), .scalar (J.dumpLeaf (.int i32) (.int 1)), .key (txt "0"),
    .scalar (J.dumpLeaf (.int i8) (.int 7))] : List (Ev _)) ++ [.endMap] = events (obj [("a", jint 1), ("0", jint 7)]) := rfl

/-- C144: so something was written before, and it never is a whole document. -/
theorem C144_unfinished {B : Backend σ} {s : Bool} {t : Ty} {v : Value} {w : List (Ev σ)} {x : Str}
    (h : dumpRun B s t v = (w, some (.logic x))) : w ≠ [] ∧ ∀ d, w ≠ events d := by
  obtain ⟨d, rest, -, h2⟩ := C144_closable h
  obtain ⟨st, h3⟩ := hears_open h2
  refine ⟨fun hw => ?_, fun d' hw => ?_⟩
  · rw [hw] at h3; cases h3
  · rw [hw, hears_events] at h3; cases h3

/-- C144: the writer cannot be used for another value: whatever is written after it, it never becomes a document. -/
theorem C144_spoilt {B : Backend σ} {s : Bool} {t : Ty} {v : Value} {w : List (Ev σ)} {x : Str}
    (h : dumpRun B s t v = (w, some (.logic x))) (d : Doc σ) (rest : List (Ev σ)) (d' : Doc σ) : w ++ events d ++ rest ≠ events d' := by
  intro he
  obtain ⟨d0, r0, -, h2⟩ := C144_closable h
  obtain ⟨st, h3⟩ := hears_open h2
  have := congrArg (hears [.one]) he
  rw [hears_append, hears_append, hears_events, h3] at this
  simp [hears_events, put] at this

/-- C144: this is so wherever a dump is cut short (`std::bad_alloc` in the writer): a beginning of what is written for a value is never what is
written for another one. -/
theorem C144_cut {B B' : Backend σ} (hB : Lawful B) (hB' : Lawful B') {s s' : Bool} {t t' : Ty} {v v' : Value} {w r : List (Ev σ)}
    (h : dump B s t v = .ok (w ++ r)) (hr : r ≠ []) : dump B' s' t' v' ≠ .ok w := by
  intro h'
  rw [C42_same hB] at h
  rw [C42_same hB'] at h'
  cases h1 : ser B s t v with
  | error e => rw [h1] at h; cases h
  | ok d =>
    cases h2 : ser B' s' t' v' with
    | error e => rw [h2] at h'; cases h'
    | ok d' =>
      rw [h1] at h; rw [h2] at h'
      simp only [Except.map, Except.ok.injEq] at h h'
      rw [← h'] at h
      exact hr (events_prefix_free h.symm)

example : dump J true point somePoint = .ok (.beginMap :: (events (obj [("ID", jint 5),
    ("tags", .arr [jstr "yellow", jstr "red"]), ("x", jint 200)])).tail) := rfl

/-- C144: of a sequence, the elements before the one that throws are written, and of that one what was written of it. -/
theorem C144_sequence {B : Backend σ} {s : Bool} {t : Ty} {vs : List Value} {w : List (Ev σ)} {e : Exc}
    (h : dumpRun B s (.vec t) (.seq vs) = (w, some e)) :
    ∃ i v m wi, vs[i]? = some v ∧ dump B s (.vec t) (.seq (vs.take i)) = .ok (.beginSeq :: m ++ [.endSeq]) ∧
      dumpRun B s t v = (wi, some e) ∧ w = .beginSeq :: m ++ wi := by
  have key : ∀ (vs : List Value) (w : List (Ev σ)), writeEach (dumpRun B s t) vs = (w, some e) →
      ∃ i v m wi, vs[i]? = some v ∧ writeEach (dumpRun B s t) (vs.take i) = (m, none) ∧
        dumpRun B s t v = (wi, some e) ∧ w = m ++ wi := by
    intro vs
    induction vs with
    | nil => intro w h; cases h
    | cons v vs ih =>
      intro w h
      simp only [writeEach, Output.andThen] at h
      cases hv : (dumpRun B s t v).2 with
      | some e' =>
        rw [hv] at h; cases h
        exact ⟨0, v, [], (dumpRun B s t v).1, rfl, rfl, Prod.ext rfl hv, rfl⟩
      | none =>
        rw [hv] at h
        simp only [Prod.mk.injEq] at h
        obtain ⟨i, u, m, wi, h1, h2, h3, h4⟩ := ih _ (Prod.ext rfl h.2)
        refine ⟨i + 1, u, (dumpRun B s t v).1 ++ m, wi, h1, ?_, h3, ?_⟩
        · simp only [List.take_succ_cons, writeEach, Output.andThen, hv, h2]
        · exact h.1.symm.trans ((congrArg (_ ++ ·) h4).trans (List.append_assoc ..).symm)
  simp only [dumpRun, writeSeq, tell, Output.andThen] at h
  cases hr : (writeEach (dumpRun B s t) vs).2 with
  | none => rw [hr] at h; cases h
  | some e' =>
    rw [hr] at h
    simp only [Prod.mk.injEq, Option.some.injEq] at h
    obtain ⟨i, v, m, wi, h1, h2, h3, h4⟩ := key vs _ (Prod.ext rfl (hr.trans (congrArg some h.2)))
    refine ⟨i, v, m, wi, h1, C144_whole.1 ?_, h3, ?_⟩
    · simp [dumpRun, writeSeq, h2, Output.andThen, tell]
    · exact h.1.symm.trans (congrArg (_ ++ ·) h4)

example : ∃ w, dumpRun J true (.vec «open») (.seq [.record [num 0, .map []], colliding]) = (w, some collides) := ⟨_, rfl⟩

/-- C144: of a map, the members before the one that throws are written, its name, and what was written of its value. -/
theorem C144_map {B : Backend σ} {s : Bool} {t : Ty} {es : List (Str × Value)} {w : List (Ev σ)} {e : Exc}
    (h : dumpRun B s (.map t) (.map es) = (w, some e)) :
    ∃ i k v m wi, es[i]? = some (k, v) ∧ dump B s (.map t) (.map (es.take i)) = .ok (.beginMap :: m ++ [.endMap]) ∧
      dumpRun B s t v = (wi, some e) ∧ w = .beginMap :: m ++ .key k :: wi := by
  have key : ∀ (es : List (Str × Value)) (w : List (Ev σ)), writeEntries s (fun _ => .ok ()) (dumpRun B s t) es = (w, some e) →
      ∃ i k v m wi, es[i]? = some (k, v) ∧ writeEntries s (fun _ => .ok ()) (dumpRun B s t) (es.take i) = (m, none) ∧
        dumpRun B s t v = (wi, some e) ∧ w = m ++ .key k :: wi := by
    intro es
    induction es with
    | nil => intro w h; cases h
    | cons kv es ih =>
      obtain ⟨k, v⟩ := kv
      intro w h
      simp only [writeEntries, ifFine] at h
      split at h
      · rename_i hs
        obtain ⟨i, k', u, m, wi, h1, h2, h3, h4⟩ := ih _ h
        refine ⟨i + 1, k', u, m, wi, h1, ?_, h3, h4⟩
        simp only [List.take_succ_cons, writeEntries, ifFine, hs, if_true, h2]
      · rename_i hs
        simp only [tell, Output.andThen] at h
        cases hv : (dumpRun B s t v).2 with
        | some e' =>
          rw [hv] at h; cases h
          exact ⟨0, k, v, [], (dumpRun B s t v).1, rfl, rfl, Prod.ext rfl hv, rfl⟩
        | none =>
          rw [hv] at h
          simp only [Prod.mk.injEq] at h
          obtain ⟨i, k', u, m, wi, h1, h2, h3, h4⟩ := ih _ (Prod.ext rfl h.2)
          refine ⟨i + 1, k', u, .key k :: (dumpRun B s t v).1 ++ m, wi, h1, ?_, h3, ?_⟩
          · simp [List.take_succ_cons, writeEntries, ifFine, hs, tell, Output.andThen, hv, h2]
          · exact h.1.symm.trans ((congrArg (_ ++ ·) h4).trans (by simp))
  simp only [dumpRun, writeMap, tell, Output.andThen] at h
  cases hr : (writeEntries s (fun _ => .ok ()) (dumpRun B s t) es).2 with
  | none => rw [hr] at h; cases h
  | some e' =>
    rw [hr] at h
    simp only [Prod.mk.injEq, Option.some.injEq] at h
    obtain ⟨i, k, v, m, wi, h1, h2, h3, h4⟩ := key es _ (Prod.ext rfl (hr.trans (congrArg some h.2)))
    refine ⟨i, k, v, m, wi, h1, C144_whole.1 ?_, h3, ?_⟩
    · simp [dumpRun, writeMap, h2, Output.andThen, tell]
    · exact h.1.symm.trans (congrArg (_ ++ ·) h4)

example : ∃ w, dumpRun J true (.map «open») (.map [(txt "k", .record [num 0, .map []]), (txt "l", colliding)]) = (w, some collides) :=
  ⟨_, rfl⟩

/-- C144: of the extra fields of a record, those before the one that throws are written; if it is its name that collides, nothing of it is. -/
theorem C144_extra {B : Backend σ} {s : Bool} {names : List Str} {t : Ty} {es : List (Str × Value)} {w : List (Ev σ)} {e : Exc}
    (h : writeExtras B s (some names) (.map t) (.map es) = (w, some e)) :
    ∃ i k v m, es[i]? = some (k, v) ∧ (∀ kv ∈ es.take i, kv.1 ∉ names) ∧
      dump B s (.map t) (.map (es.take i)) = .ok (.beginMap :: m ++ [.endMap]) ∧
      ((k ∈ names ∧ w = m) ∨ (k ∉ names ∧ ∃ wi, dumpRun B s t v = (wi, some e) ∧ w = m ++ .key k :: wi)) := by
  suffices key : ∀ (es : List (Str × Value)) (w : List (Ev σ)),
      writeEntries s (checkExtraKey (some names)) (dumpRun B s t) es = (w, some e) →
      ∃ i k v m, es[i]? = some (k, v) ∧ (∀ kv ∈ es.take i, kv.1 ∉ names) ∧
        writeEntries s (fun _ => .ok ()) (dumpRun B s t) (es.take i) = (m, none) ∧
        ((k ∈ names ∧ w = m) ∨ (k ∉ names ∧ ∃ wi, dumpRun B s t v = (wi, some e) ∧ w = m ++ .key k :: wi)) by
    obtain ⟨i, k, v, m, h1, h2, h3, h4⟩ := key es w h
    refine ⟨i, k, v, m, h1, h2, C144_whole.1 ?_, h4⟩
    simp [dumpRun, writeMap, h3, Output.andThen, tell]
  intro es
  induction es with
  | nil => intro w h; cases h
  | cons kv es ih =>
    obtain ⟨k, v⟩ := kv
    intro w h
    simp only [writeEntries, checkExtraKey] at h
    by_cases hk : k ∈ names
    · rw [if_pos (by simpa using hk)] at h
      cases h
      exact ⟨0, k, v, [], rfl, by simp, rfl, .inl ⟨hk, rfl⟩⟩
    rw [if_neg (by simpa using hk)] at h
    simp only [ifFine] at h
    have hall : ∀ {i : Nat}, (∀ kv ∈ es.take i, kv.1 ∉ names) → ∀ kv ∈ ((k, v) :: es).take (i + 1), kv.1 ∉ names := by
      intro i hi kv hkv
      rw [List.take_succ_cons] at hkv
      rcases List.mem_cons.1 hkv with rfl | hkv
      · exact hk
      · exact hi kv hkv
    split at h
    · rename_i hs
      obtain ⟨i, k', u, m, h1, h2, h3, h4⟩ := ih _ h
      refine ⟨i + 1, k', u, m, h1, hall h2, ?_, h4⟩
      simp only [List.take_succ_cons, writeEntries, ifFine, hs, if_true, h3]
    · rename_i hs
      simp only [tell, Output.andThen] at h
      cases hv : (dumpRun B s t v).2 with
      | some e' =>
        rw [hv] at h; cases h
        exact ⟨0, k, v, [], rfl, by simp, rfl, .inr ⟨hk, (dumpRun B s t v).1, Prod.ext rfl hv, rfl⟩⟩
      | none =>
        rw [hv] at h
        simp only [Prod.mk.injEq] at h
        obtain ⟨i, k', u, m, h1, h2, h3, h4⟩ := ih _ (Prod.ext rfl h.2)
        refine ⟨i + 1, k', u, .key k :: (dumpRun B s t v).1 ++ m, h1, hall h2, ?_, ?_⟩
        · simp [List.take_succ_cons, writeEntries, ifFine, hs, tell, Output.andThen, hv, h3]
        · rcases h4 with ⟨h4, h5⟩ | ⟨h4, wi, h5, h6⟩
          · exact .inl ⟨h4, h.1.symm.trans (congrArg (_ ++ ·) h5)⟩
          · exact .inr ⟨h4, wi, h5, h.1.symm.trans ((congrArg (_ ++ ·) h6).trans (by simp))⟩

example : writeExtras J true (some [txt "a", txt "A"]) (.map (int i8)) (.map [(txt "0", num 7), (txt "A", num 2)]) =
    ([.key (txt "0"), .scalar (J.dumpLeaf (.int i8) (.int 7))], some collides) := rfl

/-- C144: the fields of a record are written one after another: those before the one that throws are written, and of that one what was. -/
theorem C144_fields {B : Backend σ} {s : Bool} {r : Option (List Str)} {fs : Fields} {vs : List Value} {w : List (Ev σ)} {x : Str}
    (h : writeFields B s r fs vs = (w, some (.logic x))) :
    ∃ i f t v m wi, (fieldList fs)[i]? = some (f, t) ∧ vs[i]? = some v ∧
      (∃ as, fieldList as = (fieldList fs).take i ∧ dumpFields B s r as (vs.take i) = .ok m) ∧ w = m ++ wi ∧
      f.skipSer = false ∧ skipField f s v = false ∧
      ((f.extra = true ∧ writeExtras B s r t v = (wi, some (.logic x))) ∨
        (f.extra = false ∧ f.flatten = true ∧ writeFlat B s r t v = (wi, some (.logic x))) ∨
        (f.extra = false ∧ f.flatten = false ∧ ∃ u, wi = .key f.key :: u ∧ dumpRun B s t v = (u, some (.logic x)))) := by
  suffices key : ∀ (vs : List Value) (fs : Fields) (w : List (Ev σ)), writeFields B s r fs vs = (w, some (.logic x)) →
      ∃ i f t v m wi, (fieldList fs)[i]? = some (f, t) ∧ vs[i]? = some v ∧
      (∃ as, fieldList as = (fieldList fs).take i ∧ writeFields B s r as (vs.take i) = (m, none)) ∧ w = m ++ wi ∧
      f.skipSer = false ∧ skipField f s v = false ∧
      ((f.extra = true ∧ writeExtras B s r t v = (wi, some (.logic x))) ∨
        (f.extra = false ∧ f.flatten = true ∧ writeFlat B s r t v = (wi, some (.logic x))) ∨
        (f.extra = false ∧ f.flatten = false ∧ ∃ u, wi = .key f.key :: u ∧ dumpRun B s t v = (u, some (.logic x)))) by
    obtain ⟨i, f, t, v, m, wi, h1, h2, ⟨as, h3, h4⟩, h5⟩ := key vs fs w h
    refine ⟨i, f, t, v, m, wi, h1, h2, ⟨as, h3, ?_⟩, h5⟩
    rw [← res_wfieldsRun, h4]; rfl
  intro vs
  induction vs with
  | nil => intro fs w h; cases fs <;> cases h
  | cons v vs ih =>
    intro fs w h
    cases fs with
    | nil => cases h
    | cons f t fs =>
      simp only [writeFields] at h
      generalize ha : (if f.skipSer = true then (([], none) : Output σ)
        else if skipField f s v = true then ([], none)
        else if f.extra = true then writeExtras B s r t v
        else if f.flatten = true then writeFlat B s r t v
        else (tell (.key f.key)).andThen (dumpRun B s t v)) = a at h
      obtain ⟨a, ea⟩ := a
      cases ea with
      | some e =>
        simp only [Output.andThen, Prod.mk.injEq, Option.some.injEq] at h
        obtain ⟨rfl, rfl⟩ := h
        refine ⟨0, f, t, v, [], a, rfl, rfl, ⟨.nil, rfl, rfl⟩, rfl, ?_⟩
        split at ha
        · cases ha
        rename_i h1
        split at ha
        · cases ha
        rename_i h2
        refine ⟨by simpa using h1, by simpa using h2, ?_⟩
        split at ha
        · rename_i h3; exact .inl ⟨h3, ha⟩
        rename_i h3
        split at ha
        · rename_i h4; exact .inr (.inl ⟨by simpa using h3, h4, ha⟩)
        rename_i h4
        refine .inr (.inr ⟨by simpa using h3, by simpa using h4, (dumpRun B s t v).1, ?_, ?_⟩)
        · exact (congrArg Prod.fst ha).symm
        · have h5 : (dumpRun B s t v).2 = some (.logic x) := congrArg Prod.snd ha
          exact Prod.ext rfl h5
      | none =>
        simp only [Output.andThen, Prod.mk.injEq] at h
        obtain ⟨i, f', t', v', m, wi, h1, h2, ⟨as, h3, h4⟩, h5, h6⟩ := ih fs _ (Prod.ext rfl h.2)
        refine ⟨i + 1, f', t', v', a ++ m, wi, h1, h2, ⟨.cons f t as, ?_, ?_⟩, ?_, h6⟩
        · simp [fieldList, h3]
        · simp only [List.take_succ_cons, writeFields, h4]
          rw [ha]; rfl
        · exact h.1.symm.trans ((congrArg (_ ++ ·) h5).trans (List.append_assoc ..).symm)

example : writeFields J true (some [txt "a", txt "A"]) openFields [num 1, .map [(txt "0", num 7), (txt "A", num 2)]] =
    ([.key (txt "a"), .scalar (J.dumpLeaf (.int i32) (.int 1)), .key (txt "0"), .scalar (J.dumpLeaf (.int i8) (.int 7))],
      some collides) := rfl

/-- C144: of a record whose own names collide only the opening is written. -/
theorem C144_names {B : Backend σ} {s : Bool} {n : Str} {fs : Fields} {vs : List Value} {e : Exc} (h : reservedNames fs = .error e) :
    dumpRun B s (.record n fs) (.record vs) = ([.beginMap], some e) := by
  simp [dumpRun, ifFine, h, raise, writeMap, tell, Output.andThen]

example : dumpRun J true clash (.record [num 1, num 2, .map []]) =
    ([.beginMap], some (.logic (txt "serialization reflected field name collision: a"))) := rfl

/-- C144: the beginning of a record stays in the writer although `serialize` leaves nothing, and although what was written before can be
read back as a record of its own when it is closed. -/
theorem C144_torn_violated :
    tyOk «open» = true ∧ HasTy «open» colliding ∧
    (∃ w, dumpRun J true «open» colliding = (w, some collides) ∧ w ≠ [] ∧
      ∃ d, w ++ [.endMap] = events d ∧ deser J E «open» (.record [num 0, .map []]) d =
        .ok (.record [num 1, .map [(txt "0", num 7)]])) ∧
    ser J true «open» colliding = .error collides :=
  ⟨by decide +kernel, by decide +kernel,
    ⟨_, rfl, (C144_unfinished (rfl : dumpRun J true «open» colliding = (_, some collides))).1, obj [("a", jint 1), ("0", jint 7)], rfl, rfl⟩, rfl⟩

end Verif.Serial
