import Verif.Serial.Shapes
/-
The properties C41-C52 and C75-C78 of serialisation.
-/
namespace Verif.Serial
open Verif.Path Verif.Enums Spec

variable {σ : Type}

/-! ### Samples -/

namespace Sample

def i8 : IT := ⟨true, 8⟩
def u8 : IT := ⟨false, 8⟩
def i32 : IT := ⟨true, 32⟩

def int (t : IT) : Ty := .leaf (.int t)
def num (n : Int) : Value := .atom (.int n)

def J : Backend JScalar := json fun _ => 0#64
def E : Env := ⟨fun id v => match id, v with
  | 0, .record [.atom (.int a), .atom (.int b)] =>
    if a + b ≤ 10 then .ok () else .error (.deser (txt "too much"))
  | 1, _ => .error (.other 7)
  | _, _ => .ok ()⟩

def jint (n : Int) : JDoc := .scalar (.int n)
def jstr (s : String) : JDoc := .scalar (.str (txt s))
def obj (ms : List (String × JDoc)) : JDoc := .obj (ms.map fun m => (txt m.1, m.2))

def color : EnumTy := ⟨u8, [⟨1, "red"⟩, ⟨2, "green"⟩, ⟨3, "yellow"⟩], "unknown"⟩

def innerFields : Fields := .cons { name := txt "x", init := num 0, validators := [.range 1 9] } (int u8) .nil
def inner : Ty := .record (txt "inner") innerFields

/-- A record with a renamed field, an optional, a vector and a flattened record. -/
def pointFields : Fields :=
  .cons { name := txt "id", init := num 0, rename := some (txt "ID"), aliases := [txt "ident", txt "no"] } (int i32)
  (.cons { name := txt "nick", init := .opt none } (.opt (.leaf .str))
  (.cons { name := txt "tags", init := .seq [], allowMissing := true } (.vec (.enum color))
  (.cons { name := txt "at", init := .record [num 0], flatten := true }
    (.record (txt "pos") (.cons { name := txt "x", init := num 0 } (int u8) .nil)) .nil)))
def point : Ty := .record (txt "point") pointFields

/-- A record with a map for other members. -/
def openFields : Fields :=
  .cons { name := txt "a", init := num 0, aliases := [txt "A"] } (int i32)
  (.cons { name := txt "rest", init := .map [], extra := true } (.map (int i8)) .nil)
def «open» : Ty := .record (txt "open") openFields

def somePoint : Value := .record [num 5, .opt none, .seq [num 3, num 1], .record [num 200]]

end Sample
open Sample

/-! ### C41 Round trip -/

/-- C41 for the types without further conditions on values. -/
theorem C41_round_trip {B : Backend σ} (hB : Lawful B) {E : Env} {s : Bool} {t : Ty} (ht : tyOk t = true)
    (he : easy s t = true) {old v : Value} (ho : HasTy t old) (hv : HasTy t v) (hl : Listed t v) :
    ∃ d, ser B s t v = .ok d ∧ deser B E t old d = .ok v := by
  rcases ser_decides hB (s := s) t ht v hv with ⟨-, d, hd⟩ | ⟨h, -⟩
  · exact ⟨d, hd, (ser_back hB t ht old v d ho hv (easy_keeps t ht he old v ho hv hl) hd).2⟩
  · exact absurd (easy_writable t he v hv) h

example : ∃ d, ser J true point somePoint = .ok d ∧ deser J E point (fresh point) d = .ok somePoint := by
  refine C41_round_trip (json_lawful _) (by decide +kernel) (by decide +kernel)
    (fresh_typed _ (by decide +kernel)) (by decide +kernel) ?_
  have h : namesOnce color := by simp [namesOnce, color, txt]
  simp only [color] at h
  simp [Listed, point, pointFields, somePoint, ListedFields, num, int, h, color]

/-- C41 for every type, of values nothing of which is lost: with skipped fields, defaults,
validators and extra fields. -/
theorem C41_kept {B : Backend σ} (hB : Lawful B) {E : Env} {s : Bool} {t : Ty} (ht : tyOk t = true)
    {old v : Value} (ho : HasTy t old) (hv : HasTy t v) (hk : Keeps E s t old v) {d : Doc σ}
    (h : ser B s t v = .ok d) : deser B E t old d = .ok v :=
  (ser_back hB t ht old v d ho hv hk h).2

example : deser J E «open» (.record [num 1, .map []])
    (obj [("a", jint 4), ("b", jint 5), ("c", jint 6)]) =
      .ok (.record [num 4, .map [(txt "b", num 5), (txt "c", num 6)]]) := by
  refine C41_kept (json_lawful _) (s := true) (by decide +kernel) (by decide +kernel) (by decide +kernel) ?_ rfl
  simp [Keeps, «open», openFields, KeepsFields, KeepsExtras, allNames, txt, Field.key, plain, omitted, num,
    isNullValue, isEmptyValue, MeetsAll, int]

/-- An optional in an optional does not come back. -/
theorem C41_nested_optional_violated : ¬ ∀ (v : Value), HasTy (.opt (.opt (int i8))) v →
    ∀ d, ser J true (.opt (.opt (int i8))) v = .ok d →
      deser J E (.opt (.opt (int i8))) (.opt none) d = .ok v := by
  intro h
  have := h (.opt (some (.opt none))) (by decide +kernel) .null rfl
  simp [deser, Doc.isNull] at this

/-! ### C42 dump and serialize -/

/-- C42: `dump` writes what writing the tree of `serialize` does, and throws when it does. -/
theorem C42_same {B : Backend σ} (hB : Lawful B) (s : Bool) (t : Ty) (v : Value) :
    dump B s t v = (ser B s t v).map events := dump_eq hB s t v

example : dump J true point somePoint = .ok (events (obj [("ID", jint 5),
    ("tags", .arr [jstr "yellow", jstr "red"]), ("x", jint 200)])) := by
  rw [C42_same (B := J) (json_lawful _)]; rfl

/-- C42 for failures. -/
theorem C42_throws {B : Backend σ} (hB : Lawful B) (s : Bool) (t : Ty) (v : Value) (e : Exc) :
    dump B s t v = .error e ↔ ser B s t v = .error e := by
  rw [C42_same hB]
  cases ser B s t v <;> simp [Except.map]

example : dump J true «open» (.record [num 1, .map [(txt "A", num 2)]]) =
    .error (.logic (txt "serialization extra_fields key collides with reflected field: A")) :=
  (C42_throws (json_lawful _) _ _ _ _).2 rfl

/-! ### C43 Lookup of fields -/

/-- C43: what a record reads from an object, field by field. -/
theorem C43_object {B : Backend σ} {E : Env} {n : Str} {fs : Fields} (ht : tyOk (.record n fs) = true)
    {old v : Value} {ms : List (Str × Doc σ)} :
    deser B E (.record n fs) old (.obj ms) = .ok v ↔ NamesChecked fs ∧ ∃ olds vs,
      old = .record olds ∧ v = .record vs ∧
      EachField (FieldReads E (fun t o d v => deser B E t o d = .ok v) ms (allNames fs)) fs olds vs := by
  simp only [tyOk, Bool.and_eq_true] at ht
  exact deser_record_obj ht.1.1

/-- C43: a plain field is read from the member of its name, else of the first alias that is
there. -/
theorem C43_present {B : Backend σ} {E : Env} {n : Str} {fs : Fields} (ht : tyOk (.record n fs) = true)
    {old v : Value} {ms : List (Str × Doc σ)} (h : deser B E (.record n fs) old (.obj ms) = .ok v)
    {j : Nat} {f : Field} {t : Ty} (hj : (fieldList fs)[j]? = some (f, t)) (hp : plain f = true)
    {d : Doc σ} (hd : ReadFrom ms f d) (hn : d ≠ .null ∨ f.defaults = []) :
    ∃ olds vs o w, old = .record olds ∧ v = .record vs ∧ olds[j]? = some o ∧ vs[j]? = some w ∧
      deser B E t o d = .ok w := by
  obtain ⟨-, olds, vs, rfl, rfl, hr⟩ := (C43_object ht).1 h
  obtain ⟨o, w, ho, hw, hr⟩ := eachField_at hr hj
  refine ⟨olds, vs, o, w, rfl, rfl, ho, hw, ?_⟩
  rcases (hr.2.2.2 hp).1 d hd with ⟨h1, h2⟩ | ⟨-, h2, -⟩
  · rcases hn with hn | hn
    · exact absurd h1 hn
    · rw [hn] at h2; cases h2
  · exact h2

/- The second alias counts when the name and the first alias are absent. -/
example : deser J E point (fresh point) (obj [("x", jint 1), ("no", jint 3)]) =
    .ok (.record [num 3, .opt none, .seq [], .record [num 1]]) := rfl
example : deser J E point (fresh point) (obj [("x", jint 1), ("no", jint 3), ("ident", jint 4)]) =
    .ok (.record [num 4, .opt none, .seq [], .record [num 1]]) := rfl
example : deser J E point (fresh point) (obj [("ident", jint 4), ("x", jint 1), ("ID", jint 5)]) =
    .ok (.record [num 5, .opt none, .seq [], .record [num 1]]) := rfl
example : ReadFrom (σ := JScalar) [(txt "x", jint 1), (txt "no", jint 3)]
    { name := txt "id", init := num 0, rename := some (txt "ID"), aliases := [txt "ident", txt "no"] }
    (jint 3) :=
  ⟨[txt "ID", txt "ident"], txt "no", [], rfl, by simp [NoMember, txt],
    [(txt "x", jint 1)], [], rfl, by simp [txt]⟩

/-- C43: with a missing field the record is read iff the field has a default, may be missing
or is optional, and the rest allows it. -/
theorem C43_missing {B : Backend σ} (hB : Lawful B) {E : Env} {n : Str} {fs : Fields}
    (ht : tyOk (.record n fs) = true) {old v : Value} {ms : List (Str × Doc σ)}
    (h : deser B E (.record n fs) old (.obj ms) = .ok v)
    {j : Nat} {f : Field} {t : Ty} (hj : (fieldList fs)[j]? = some (f, t)) (hp : plain f = true)
    (hm : Missing ms f) : ∃ olds vs o w, old = .record olds ∧ v = .record vs ∧ olds[j]? = some o ∧
      vs[j]? = some w ∧
      (f.defaults.head? = some w ∨
       (f.defaults = [] ∧ f.allowMissing = true ∧ w = o) ∨
       (f.defaults = [] ∧ f.allowMissing = false ∧ isOpt t = true ∧ w = .opt none ∧ MeetsAll E f w)) := by
  obtain ⟨-, olds, vs, rfl, rfl, hr⟩ := (C43_object ht).1 h
  obtain ⟨o, w, ho, hw, hr⟩ := eachField_at hr hj
  refine ⟨olds, vs, o, w, rfl, rfl, ho, hw, ?_⟩
  rcases (hr.2.2.2 hp).2 hm with h1 | h1 | ⟨h1, h2, h3, h4⟩
  · exact .inl h1
  · exact .inr (.inl h1)
  · obtain ⟨h5, rfl⟩ := (deser_null hB).1 h3
    exact .inr (.inr ⟨h1, h2, h5, rfl, h4⟩)

/-- C43: a missing field that has no default, must not be missing and is not optional is an
error. -/
theorem C43_required {B : Backend σ} (hB : Lawful B) {E : Env} {n : Str} {fs : Fields}
    (ht : tyOk (.record n fs) = true) {old : Value} {ms : List (Str × Doc σ)}
    {j : Nat} {f : Field} {t : Ty} (hj : (fieldList fs)[j]? = some (f, t)) (hp : plain f = true)
    (hm : Missing ms f) (h1 : f.defaults = []) (h2 : f.allowMissing = false) (h3 : isOpt t = false) :
    ∃ e, deser B E (.record n fs) old (.obj ms) = .error e := by
  cases h : deser B E (.record n fs) old (.obj ms) with
  | error e => exact ⟨e, rfl⟩
  | ok v =>
    obtain ⟨olds, vs, o, w, -, -, -, -, h4⟩ := C43_missing hB ht h hj hp hm
    rcases h4 with h4 | ⟨-, h4, -⟩ | ⟨-, -, h4, -⟩
    · rw [h1] at h4; cases h4
    · rw [h2] at h4; cases h4
    · rw [h3] at h4; cases h4

example : ∃ e, deser J E point (fresh point) (obj [("x", jint 1), ("id", jint 3)]) = .error e :=
  C43_required (json_lawful _) (by decide +kernel) (j := 0) (hj := rfl) (hp := rfl)
    (by simp [Missing, NoMember, txt, Field.key]) rfl rfl rfl

/-! ### C44 Extra fields -/

/-- C44: the map of extra fields holds exactly the members under names the record does not
know, of each name the first. -/
theorem C44_captured {B : Backend σ} {E : Env} {n : Str} {fs : Fields} (ht : tyOk (.record n fs) = true)
    {old v : Value} {ms : List (Str × Doc σ)} (h : deser B E (.record n fs) old (.obj ms) = .ok v)
    {j : Nat} {f : Field} {t : Ty} (hj : (fieldList fs)[j]? = some (f, t)) (he : f.extra = true)
    (hs : f.skipDeser = false) : ∃ vs u es, v = .record vs ∧ t = .map u ∧ vs[j]? = some (.map es) ∧
      sorted es = true ∧ ∀ k w, (k, w) ∈ es ↔
        k ∉ allNames fs ∧ ∃ d, First ms k d ∧ deser B E u (fresh u) d = .ok w := by
  obtain ⟨-, olds, vs, rfl, rfl, hr⟩ := (C43_object ht).1 h
  obtain ⟨o, w, ho, hw, hr⟩ := eachField_at hr hj
  obtain ⟨u, es, rfl, rfl, h1, -, h2⟩ := hr.2.1 hs he
  exact ⟨vs, u, es, rfl, rfl, hw, h1, h2⟩

example : deser J E «open» (fresh «open») (obj [("b", jint 5), ("A", jint 4), ("b", jint 6), ("", jint 7)]) =
    .ok (.record [num 4, .map [(txt "", num 7), (txt "b", num 5)]]) := rfl

/-- C44: every unknown member is there again, once, when the record that was read is written
(a null only if nulls are written). -/
theorem C44_written {B : Backend σ} (hB : Lawful B) {E : Env} {s : Bool} {n : Str} {fs : Fields}
    (ht : tyOk (.record n fs) = true) {old v : Value} (ho : HasTy (.record n fs) old)
    {ms : List (Str × Doc σ)} (h : deser B E (.record n fs) old (.obj ms) = .ok v)
    {j : Nat} {f : Field} {u : Ty} (hj : (fieldList fs)[j]? = some (f, .map u)) (he : f.extra = true)
    (hs : f.skipDeser = false) (hs' : f.skipSer = false)
    {dd : Doc σ} (hw : ser B s (.record n fs) v = .ok dd) {k : Str} {d : Doc σ} (hk : k ∉ allNames fs)
    (hd : First ms k d) : ∃ out w, dd = .obj out ∧ deser B E u (fresh u) d = .ok w ∧
      (out.map (·.1)).Nodup ∧ ((s && isNullValue w) = false → ∃ d', ser B s u w = .ok d' ∧ (k, d') ∈ out) := by
  obtain ⟨vs, u', es, rfl, hu, hv, -, hc⟩ := C44_captured ht h hj he hs
  cases hu
  have hcap : ∃ w, deser B E u (fresh u) d = .ok w := by
    obtain ⟨-, olds, vs', h1, h2, h⟩ := (C43_object ht).1 h
    obtain ⟨o, w, ho, hw, hr⟩ := eachField_at h hj
    obtain ⟨u', es', h3, -, -, h4, -⟩ := hr.2.1 hs he
    cases h3
    exact h4 _ (Spec.First.mem hd) hk
  obtain ⟨w, hrd⟩ := hcap
  have hm : (k, w) ∈ es := (hc k w).2 ⟨hk, d, hd, hrd⟩
  obtain ⟨vs', out, h1, rfl, hwr⟩ := ser_record hB hw
  cases h1
  refine ⟨out, w, rfl, hrd, ?_, fun hnull => ?_⟩
  · have := ser_unique hB _ ht _ _ (deser_typed hB _ ht old _ _ ho h) hw
    simp only [uniqueNames, Bool.and_eq_true, decide_eq_true_eq] at this
    exact this.1
  · refine writes_extra hwr j f u es hj hv he ?_ k w hm hnull
    cases es with
    | nil => cases hm
    | cons e es => simp [omitted, hs', isNullValue, isEmptyValue]

example : ser J true «open» (.record [num 4, .map [(txt "b", num 5), (txt "c", num 6)]]) =
    .ok (obj [("a", jint 4), ("b", jint 5), ("c", jint 6)]) := rfl

/-- C44: nothing else is written: a member of another name is an unknown one that was read. -/
theorem C44_no_more {B : Backend σ} (hB : Lawful B) {E : Env} {s : Bool} {n : Str} {fs : Fields}
    (ht : tyOk (.record n fs) = true) {old v : Value}
    {ms : List (Str × Doc σ)} (h : deser B E (.record n fs) old (.obj ms) = .ok v)
    {j : Nat} {f : Field} {u : Ty} (hj : (fieldList fs)[j]? = some (f, .map u)) (he : f.extra = true)
    (hs : f.skipDeser = false) {out : List (Str × Doc σ)}
    (hw : ser B s (.record n fs) v = .ok (.obj out)) {m : Str × Doc σ} (hm : m ∈ out)
    (hk : m.1 ∉ outNames fs) : m.1 ∉ allNames fs ∧ ∃ d w, First ms m.1 d ∧
      deser B E u (fresh u) d = .ok w ∧ ser B s u w = .ok m.2 := by
  obtain ⟨vs, u', es, rfl, hu, hv, -, hc⟩ := C44_captured ht h hj he hs
  cases hu
  obtain ⟨vs', out', h1, h2, hwr⟩ := ser_record hB hw
  cases h1
  cases h2
  obtain ⟨hn, -⟩ := (C43_object ht).1 h
  have hx : hasExtraOrFlatten fs = true := hasExtra_mem (List.mem_of_getElem? hj) he
  rcases writes_rest hwr (hn hx).2 j f u es hj hv he m hm with h3 | ⟨w, h3, h4⟩
  · exact absurd h3 hk
  · obtain ⟨h5, d, h6, h7⟩ := (hc _ _).1 h3
    exact ⟨h5, d, w, h6, h7, h4⟩

/-- C44: extra fields that were read never keep the record from being written: it can be
if it can be without them and each of them can. -/
theorem C44_writes {B : Backend σ} (hB : Lawful B) {E : Env} {s : Bool} {n : Str} {fs : Fields}
    (ht : tyOk (.record n fs) = true) {old v : Value} (ho : HasTy (.record n fs) old)
    {ms : List (Str × Doc σ)} (h : deser B E (.record n fs) old (.obj ms) = .ok v)
    {j : Nat} {f : Field} {u : Ty} (hj : (fieldList fs)[j]? = some (f, .map u)) (he : f.extra = true)
    (hs : f.skipDeser = false) : ∃ vs es, v = .record vs ∧ vs[j]? = some (.map es) ∧
      ((∃ d, ser B s (.record n fs) (.record (vs.set j (.map []))) = .ok d) →
       (∀ e ∈ es, ∃ d, ser B s u e.2 = .ok d) → ∃ d, ser B s (.record n fs) v = .ok d) := by
  have hty := deser_typed hB _ ht old _ _ ho h
  obtain ⟨vs, u', es, rfl, hu, hv, hsort, hc⟩ := C44_captured ht h hj he hs
  cases hu
  refine ⟨vs, es, rfl, hv, ?_⟩
  rintro ⟨d, hd⟩ hes
  have htu : tyOk u = true ∧ ∀ e ∈ es, HasTy u e.2 := by
    obtain ⟨vs', h1, h2⟩ := hasTy_record hty
    cases h1
    have hmem : ((f, .map u), .map es) ∈ (fieldList fs).zip vs := by
      refine List.mem_of_getElem? (i := j) ?_
      rw [List.getElem?_zip_eq_some]
      exact ⟨hj, hv⟩
    obtain ⟨h3, h4⟩ := (zip_typed h2).2 _ _ _ hmem
    simp only [tyOk, Bool.and_eq_true] at ht
    have h5 := (fieldsOk_mem ht.1.1 _ _ h4).2
    obtain ⟨es', h6, -, h7⟩ := hasTy_map h3
    cases h6
    exact ⟨by simpa [tyOk] using h5, h7⟩
  have hset : HasTy (.record n fs) (.record (vs.set j (.map []))) := by
    have : ∀ {fs : Fields} {vs : List Value} {j : Nat}, hasFields fs vs = true →
        (fieldList fs)[j]? = some (f, .map u) → hasFields fs (vs.set j (.map [])) = true := by
      intro fs vs j hv hj
      induction vs generalizing fs j with
      | nil => cases fs with
        | nil => simp [fieldList] at hj
        | cons g t fs => simp [hasFields] at hv
      | cons v vs ih => cases fs with
        | nil => simp [fieldList] at hj
        | cons g t fs =>
          simp only [hasFields, Bool.and_eq_true] at hv
          cases j with
          | zero =>
            simp only [fieldList, List.getElem?_cons_zero, Option.some.injEq, Prod.mk.injEq] at hj
            obtain ⟨rfl, rfl⟩ := hj
            simp [hasFields, hasTy, sorted, hv.2]
          | succ j =>
            simp only [fieldList, List.getElem?_cons_succ] at hj
            simp [hasFields, hv.1, ih hv.2 hj]
    obtain ⟨vs', h1, h2⟩ := hasTy_record hty
    cases h1
    simp only [HasTy, hasTy]
    exact this h2 hj
  rcases ser_decides hB (s := s) _ ht _ hty with ⟨-, h⟩ | ⟨h, -⟩
  · exact h
  exfalso
  apply h
  have w0 : Writable s (.record n fs) (.record (vs.set j (.map []))) := by
    rcases ser_decides hB (s := s) _ ht _ hset with ⟨h, -⟩ | ⟨-, w, h⟩
    · exact h
    · rw [hd] at h; cases h
  simp only [Writable] at w0 ⊢
  refine ⟨w0.1, writable_fields hj hv he ?_ w0.2⟩
  intro e hmem
  refine ⟨((hc e.1 e.2).1 hmem).1, fun _ => ?_⟩
  obtain ⟨d, hd⟩ := hes e hmem
  rcases ser_decides hB (s := s) u htu.1 e.2 (htu.2 e hmem) with ⟨h, -⟩ | ⟨-, w, h⟩
  · exact h
  · rw [hd] at h; cases h

namespace Sample
/-- The map of extra fields is in a flattened record. -/
def outer : Ty := .record (txt "outer")
  (.cons { name := txt "in", init := .record [num 0, .map []], flatten := true } «open»
  (.cons { name := txt "y", init := num 0 } (int i8) .nil))
end Sample

/-- C44 does not hold for a map of extra fields in a flattened record: it takes the members
of the record around it too, and what was read cannot be written. -/
theorem C44_flattened_violated : tyOk outer = true ∧ ∃ v e,
    deser J E outer (fresh outer) (obj [("a", jint 1), ("y", jint 2)]) = .ok v ∧
    v = .record [.record [num 1, .map [(txt "y", num 2)]], num 2] ∧ ser J true outer v = .error e :=
  ⟨by decide +kernel, _, _, rfl, rfl, rfl⟩

/-! ### C45 patch -/

/-- C45: what the document does not name, at any depth, is as before. -/
theorem C45_kept {B : Backend σ} (hB : Lawful B) {E : Env} {t : Ty} (ht : tyOk t = true) {old v : Value}
    {d : Doc σ} (ho : HasTy t old) (h : patch B E t old d = .ok v) : Kept t d old v :=
  patch_keeps hB t ht old v d ho h

/-- C45: what a record is patched to, field by field. -/
theorem C45_object {B : Backend σ} {E : Env} {n : Str} {fs : Fields} (ht : tyOk (.record n fs) = true)
    {old v : Value} (ho : HasTy (.record n fs) old) {ms : List (Str × Doc σ)} (hn : (ms.map (·.1)).Nodup) :
    patch B E (.record n fs) old (.obj ms) = .ok v ↔ NamesChecked fs ∧ ∃ olds vs,
      old = .record olds ∧ v = .record vs ∧
      EachField (FieldPatches E (fun t o d v => patch B E t o d = .ok v) ms (allNames fs)) fs olds vs := by
  simp only [tyOk, Bool.and_eq_true] at ht
  exact patch_record_obj ht.1.1 ho hn

example : patch J E point somePoint (obj [("nick", jstr "p"), ("z", jint 3)]) =
    .ok (.record [num 5, .opt (some (.atom (.str (txt "p")))), .seq [num 3, num 1], .record [num 200]]) := rfl
example : patch J E «open» (.record [num 4, .map [(txt "b", num 5), (txt "c", num 6)]])
    (obj [("d", jint 1), ("b", jint 2)]) =
    .ok (.record [num 4, .map [(txt "b", num 2), (txt "c", num 6), (txt "d", num 1)]]) := rfl

/-- C45: patching again with the same document changes nothing. -/
theorem C45_twice {B : Backend σ} (hB : Lawful B) {E : Env} {t : Ty} (ht : tyOk t = true) {old v : Value}
    {d : Doc σ} (ho : HasTy t old) (hu : uniqueNames d = true) (h : patch B E t old d = .ok v) :
    patch B E t v d = .ok v := patch_again hB t ht old v d ho hu h

example : uniqueNames (obj [("nick", jstr "p"), ("z", jint 3)]) = true := by decide +kernel

namespace Sample
def pairFields : Fields := .cons { name := txt "a", init := num 0 } (int i8)
  (.cons { name := txt "b", init := num 0 } (int i8) .nil)
def checked : Ty := .record (txt "checked")
  (.cons { name := txt "r", init := .record [num 0, num 0], validators := [.user 0] }
    (.record (txt "pair") pairFields) .nil)
def bag : Ty := .record (txt "bag") (.cons { name := txt "rest", init := .map [], extra := true } (.map checked) .nil)
def twiceDoc : JDoc := obj [("k", obj [("r", obj [("a", jint 9)])]),
  ("k", obj [("r", obj [("a", jint 1), ("b", jint 8)])])]
end Sample

/-- Without unique names C45 does not hold: members of the same name are patched in turn, and
the second time a validator may reject the state in between. -/
theorem C45_repeated_names_violated : tyOk bag = true ∧ ∃ v e,
    patch J E bag (fresh bag) twiceDoc = .ok v ∧ patch J E bag v twiceDoc = .error e :=
  ⟨by decide +kernel, _, _, rfl, rfl⟩

/-- C45: if the document is no object, patching a record is reading it. -/
theorem C45_no_object {B : Backend σ} {E : Env} {n : Str} {fs : Fields} {old v : Value} {d : Doc σ}
    (hd : ∀ ms, d ≠ .obj ms) :
    patch B E (.record n fs) old d = .ok v ↔ deser B E (.record n fs) old d = .ok v := by
  cases d with
  | obj ms => exact absurd rfl (hd ms)
  | _ => simp only [patch, note_ok]

example : patch J E (.record (txt "pair") pairFields) (.record [num 1, num 2]) (.arr [jint 3, jint 4]) =
    .ok (.record [num 3, num 4]) :=
  (C45_no_object (by simp)).2 rfl

/-- C45: types other than records and optionals are read. -/
theorem C45_other {B : Backend σ} {E : Env} {t : Ty} (h1 : isRecord t = false) (h2 : isOpt t = false)
    (old : Value) (d : Doc σ) : patch B E t old d = deser B E t old d := by
  cases t <;> simp [isRecord, isOpt] at h1 h2 <;> simp only [patch]

example : patch J E (.vec (int i8)) (.seq [num 1, num 2]) (.arr [jint 3]) = .ok (.seq [num 3]) := by
  rw [C45_other rfl rfl]; rfl

/-! ### C46 Integers -/

/-- C46: a JSON document is read into an integer iff it is an integer representable in the
type, which is the result. -/
theorem C46_exact (ofInt : Int → BitVec 64) {E : Env} {t : IT} (hw : t.WF) (old v : Value) (d : JDoc) :
    deser (json ofInt) E (.leaf (.int t)) old d = .ok v ↔
      ∃ m, d = .scalar (.int m) ∧ t.InRange m ∧ v = .atom (.int m) := by
  simp only [deser, json, Json.deserLeaf, map_ok, Json.deserInt_ok hw]
  constructor
  · rintro ⟨a, ⟨m, ⟨h1, h2⟩, rfl⟩, rfl⟩; exact ⟨m, h1, h2, rfl⟩
  · rintro ⟨m, h1, h2, rfl⟩; exact ⟨_, ⟨m, ⟨h1, h2⟩, rfl⟩, rfl⟩

/-- C46: otherwise `deserialize_error` is thrown. -/
theorem C46_error (ofInt : Int → BitVec 64) {E : Env} {t : IT} (old : Value) (d : JDoc) (e : Exc)
    (h : deser (json ofInt) E (.leaf (.int t)) old d = .error e) : ∃ w, e = .deser w := by
  simp only [deser, map_error] at h
  exact (json_lawful ofInt).polite _ _ _ h

example : deser J E (int i8) (num 0) (jint (-128)) = .ok (num (-128)) :=
  (C46_exact _ (by decide) _ _ _).2 ⟨_, rfl, by decide, rfl⟩
example : deser J E (int u8) (num 0) (jint 256) =
    .error (.deser (txt "value cannot be losslessly stored in the variable")) := rfl

/-! ### C47 Validators -/

/-- C47: at any depth, a field that was read is its default, may be missing and is as it was,
or meets its validators. -/
theorem C47_legit {B : Backend σ} (hB : Lawful B) {E : Env} {t : Ty} (ht : tyOk t = true) {old v : Value}
    {d : Doc σ} (ho : HasTy t old) (h : deser B E t old d = .ok v) : Legit E t old v :=
  deser_legit hB t ht old v d ho h

example : deser J E (.vec inner) (.seq []) (.arr [obj [("x", jint 9)]]) = .ok (.seq [.record [num 9]]) := rfl
example : ¬ Legit E (.vec inner) (.seq []) (.seq [.record [num 10]]) := by
  simp [Legit, inner, innerFields, LegitFields, fresh, inits, plain, MeetsAll, Meets, AtLeast, AtMost, num]

/-- C47: a field whose member is there meets its validators, unless the member is null and
there is a default. -/
theorem C47_present {B : Backend σ} {E : Env} {n : Str} {fs : Fields} (ht : tyOk (.record n fs) = true)
    {old v : Value} {ms : List (Str × Doc σ)} (h : deser B E (.record n fs) old (.obj ms) = .ok v)
    {j : Nat} {f : Field} {t : Ty} (hj : (fieldList fs)[j]? = some (f, t)) (hp : plain f = true)
    {d : Doc σ} (hd : ReadFrom ms f d) (hn : d ≠ .null ∨ f.defaults = []) :
    ∃ vs w, v = .record vs ∧ vs[j]? = some w ∧ MeetsAll E f w := by
  obtain ⟨-, olds, vs, rfl, rfl, hr⟩ := (C43_object ht).1 h
  obtain ⟨o, w, ho, hw, hr⟩ := eachField_at hr hj
  refine ⟨vs, w, rfl, hw, ?_⟩
  rcases (hr.2.2.2 hp).1 d hd with ⟨h1, h2⟩ | ⟨-, -, h2⟩
  · rcases hn with hn | hn
    · exact absurd h1 hn
    · rw [hn] at h2; cases h2
  · exact h2

/-- C47 for records read from sequences. -/
theorem C47_sequence {B : Backend σ} {E : Env} {n : Str} {fs : Fields} {old v : Value} {l : List (Doc σ)}
    (h : deser B E (.record n fs) old (.arr l) = .ok v) {j : Nat} {f : Field} {t : Ty}
    (hj : (fieldList fs)[j]? = some (f, t)) (hs : f.skipDeser = false) :
    ∃ vs w, v = .record vs ∧ vs[j]? = some w ∧ MeetsAll E f w := by
  obtain ⟨-, olds, vs, rfl, rfl, h1, h2, h3⟩ := deser_record_arr.1 h
  have hlt : j < (fieldList fs).length := (List.getElem?_eq_some_iff.1 hj).1
  refine ⟨vs, vs[j]'(by omega), rfl, by rw [List.getElem?_eq_getElem], ?_⟩
  exact ((h3 j f t (olds[j]'(by omega)) _ hj (by rw [List.getElem?_eq_getElem])
    (by rw [List.getElem?_eq_getElem])).2 hs).2.2.2

/-- C47 for patched fields. -/
theorem C47_patched {B : Backend σ} {E : Env} {n : Str} {fs : Fields} (ht : tyOk (.record n fs) = true)
    {old v : Value} (ho : HasTy (.record n fs) old) {ms : List (Str × Doc σ)} (hu : (ms.map (·.1)).Nodup)
    (h : patch B E (.record n fs) old (.obj ms) = .ok v)
    {j : Nat} {f : Field} {t : Ty} (hj : (fieldList fs)[j]? = some (f, t)) (hp : plain f = true)
    {d : Doc σ} (hd : ReadFrom ms f d) (hn : d ≠ .null ∨ f.defaults = []) :
    ∃ vs w, v = .record vs ∧ vs[j]? = some w ∧ MeetsAll E f w := by
  obtain ⟨-, olds, vs, rfl, rfl, hr⟩ := (C45_object ht ho hu).1 h
  obtain ⟨o, w, ho, hw, hr⟩ := eachField_at hr hj
  refine ⟨vs, w, rfl, hw, ?_⟩
  rcases (hr.2.2.2 hp).1 d hd with ⟨h1, h2⟩ | ⟨-, -, h2⟩
  · rcases hn with hn | hn
    · exact absurd h1 hn
    · rw [hn] at h2; cases h2
  · exact h2

example : deser J E inner (.record [num 0]) (obj [("x", jint 10)]) = .error (.deser (text
    (txt "value is outside allowed range [1, 9]")
    [memberLine (txt "x"), typeLine (txt "inner")])) := rfl
example : deser J E inner (.record [num 0]) (.arr [jint 9]) = .ok (.record [num 9]) := rfl

/-- The validators of a flattened field are not run. -/
theorem C47_flattened_violated : ∃ fs : Fields, tyOk (.record [] fs) = true ∧
    (∃ v, deser J E (.record [] fs) (.record [.record [num 0, num 0]])
        (obj [("a", jint 9), ("b", jint 9)]) = .ok v ∧ v = .record [.record [num 9, num 9]]) ∧
    ∃ f t, (fieldList fs)[0]? = some (f, t) ∧ ¬ MeetsAll E f (.record [num 9, num 9]) :=
  ⟨.cons { name := txt "r", init := .record [num 0, num 0], flatten := true, validators := [.user 0] }
    (.record (txt "pair") pairFields) .nil, by decide +kernel, ⟨_, rfl, rfl⟩, _, _, rfl, by
      intro h
      have := h (.user 0) (by simp)
      simp [Meets, E, num] at this⟩

/-! ### C48 Names of members -/

/-- C48: no object in a serialised value has two members of the same name. -/
theorem C48_unique {B : Backend σ} (hB : Lawful B) {s : Bool} {t : Ty} (ht : tyOk t = true) {v : Value}
    (hv : HasTy t v) {d : Doc σ} (h : ser B s t v = .ok d) : uniqueNames d = true :=
  ser_unique hB t ht v d hv h

/-- C48 for `dump`. -/
theorem C48_dump {B : Backend σ} (hB : Lawful B) {s : Bool} {t : Ty} (ht : tyOk t = true) {v : Value}
    (hv : HasTy t v) {w : List (Ev σ)} (h : dump B s t v = .ok w) : ∃ d, w = events d ∧ uniqueNames d = true := by
  rw [C42_same hB, map_ok] at h
  obtain ⟨d, h, rfl⟩ := h
  exact ⟨d, rfl, C48_unique hB ht hv h⟩

example : ser J true point somePoint = .ok (obj [("ID", jint 5),
    ("tags", .arr [jstr "yellow", jstr "red"]), ("x", jint 200)]) := rfl
/- A map of extra fields cannot add a name that is taken. -/
example : ser J true «open» (.record [num 1, .map [(txt "a", num 2)]]) =
    .error (.logic (txt "serialization extra_fields key collides with reflected field: a")) := rfl

/-! ### C49 Records from sequences -/

/-- C49: element `i` goes to the `i`-th field that is read; missing ones count as null; a
sequence that is too long is rejected, as are extra and flattened fields. -/
theorem C49_sequence {B : Backend σ} {E : Env} {n : Str} {fs : Fields} {old v : Value} {l : List (Doc σ)} :
    deser B E (.record n fs) old (.arr l) = .ok v ↔
    l.length ≤ (fieldList fs).countP (fun p => !p.1.skipDeser) ∧ ∃ olds vs, old = .record olds ∧
      v = .record vs ∧ (fieldList fs).length = olds.length ∧ olds.length = vs.length ∧
      ∀ j f t o v, (fieldList fs)[j]? = some (f, t) → olds[j]? = some o → vs[j]? = some v →
        SlotReads E (fun t o d v => deser B E t o d = .ok v) (element l (slot fs j)) f t o v :=
  deser_record_arr

namespace Sample
def gapFields : Fields := .cons { name := txt "a", init := num 0 } (int i8)
  (.cons { name := txt "b", init := num 0, skipDeser := true } (int i8)
  (.cons { name := txt "c", init := .opt none } (.opt (int i8)) .nil))
end Sample

example : deser J E (.record (txt "gap") gapFields) (.record [num 0, num 7, .opt none]) (.arr [jint 1, jint 2]) =
    .ok (.record [num 1, num 7, .opt (some (num 2))]) := rfl
example : deser J E (.record (txt "gap") gapFields) (.record [num 0, num 7, .opt none]) (.arr [jint 1]) =
    .ok (.record [num 1, num 7, .opt none]) := rfl
example : deser J E (.record (txt "gap") gapFields) (.record [num 0, num 7, .opt none])
    (.arr [jint 1, jint 2, jint 3]) = .error (.deser (text
      (txt "sequence size is greater than declared struct's field count") [typeLine (txt "gap")])) := rfl

/-! ### C50 Sets of enumerators -/

/-- C50: a set is written as the names of the enumerators all bits of which are in it, in the
order of the enum. -/
theorem C50_written {B : Backend σ} {s : Bool} {e : EnumTy} (he : enumOk e = true) (n : Nat) :
    ser B s (.enumSet e) (.bits n) = .ok (.arr ((e.entries.filter fun x => includes e n x.value).map
      fun x => .scalar (B.serLeaf .str (.str (nameOf e x.value))))) := ser_set he n

/-- C50: it is read back as the set of the bits of these enumerators. -/
theorem C50_read {B : Backend σ} (hB : Lawful B) {E : Env} {s : Bool} {e : EnumTy} (he : enumOk e = true)
    (hn : namesOnce e) {n : Nat} {old : Value} {d : Doc σ} (h : ser B s (.enumSet e) (.bits n) = .ok d) :
    ∃ m, deser B E (.enumSet e) old d = .ok (.bits m) ∧ m < 2 ^ e.under.w ∧
      ∀ i, m.testBit i = true ↔ ∃ x ∈ e.entries, includes e n x.value = true ∧ bit e x.value i = true :=
  set_back hB he hn h

/-- C50: the set comes back iff its bits are covered by the enumerators it includes. -/
theorem C50_same_iff {B : Backend σ} (hB : Lawful B) {E : Env} {s : Bool} {e : EnumTy} (he : enumOk e = true)
    (hn : namesOnce e) {n : Nat} {old : Value} {d : Doc σ} (h : ser B s (.enumSet e) (.bits n) = .ok d) :
    deser B E (.enumSet e) old d = .ok (.bits n) ↔ Covered e n := set_back_iff hB he hn h

example : ser J true (.enumSet color) (.bits 3) = .ok (.arr [jstr "red", jstr "green", jstr "yellow"]) := rfl
example : ser J true (.enumSet color) (.bits 6) = .ok (.arr [jstr "green"]) := rfl

/-! ### C51 Ranges -/

/-- C51: a growable range gets one element per element of the array; what it held does not
matter. -/
theorem C51_growable {B : Backend σ} {E : Env} {t : Ty} {old v : Value} {d : Doc σ} :
    deser B E (.vec t) old d = .ok v ↔ ∃ l vs, d = .arr l ∧ v = .seq vs ∧
      Each (fun d v => deser B E t (fresh t) d = .ok v) l vs := deser_vec

/-- C51: a range of fixed size reads each of its elements; missing ones count as null. -/
theorem C51_fixed {B : Backend σ} {E : Env} {n : Nat} {t : Ty} {os : List Value} {v : Value} {d : Doc σ} :
    deser B E (.arr n t) (.seq os) d = .ok v ↔ ∃ l vs, d = .arr l ∧ v = .seq vs ∧ l.length ≤ os.length ∧
      os.length = vs.length ∧ ∀ (i : Nat) (o v : Value), os[i]? = some o → vs[i]? = some v →
        deser B E t o (element l i) = .ok v := deser_arr

/-- C51: reading it succeeds iff the array is not too long, is not too short unless the
elements are optional, and every element there is can be read. -/
theorem C51_fixed_succeeds {B : Backend σ} (hB : Lawful B) {E : Env} {n : Nat} {t : Ty} {os : List Value}
    {l : List (Doc σ)} :
    (∃ v, deser B E (.arr n t) (.seq os) (.arr l) = .ok v) ↔ l.length ≤ os.length ∧
      (l.length < os.length → isOpt t = true) ∧
      ∀ (i : Nat) (o : Value) (d : Doc σ), os[i]? = some o → l[i]? = some d →
        ∃ v, deser B E t o d = .ok v := deser_arr_some hB

example : deser J E (.vec (int i8)) (.seq [num 1, num 2]) (.arr [jint 3]) = .ok (.seq [num 3]) := rfl
example : deser J E (.arr 2 (.opt (int i8))) (.seq [.opt (some (num 1)), .opt (some (num 2))]) (.arr [jint 3]) =
    .ok (.seq [.opt (some (num 3)), .opt none]) := rfl
example : ¬ ∃ v, deser J E (.arr 2 (int i8)) (.seq [num 1, num 2]) (.arr [jint 3]) = .ok v := by
  rw [C51_fixed_succeeds (B := J) (json_lawful _)]
  simp [isOpt, int]

/-! ### C52 Error messages -/

/-- C52: the text of an error is the message of the failure, then a line for each element,
member, field and record around it, from the inside out.  `Blames` tells which.  (The
elements of tuples, pairs and enum sets have no line.) -/
theorem C52_text {B : Backend σ} {E : Env} {t : Ty} (ht : tyOk t = true) {old : Value} {d : Doc σ}
    (ho : HasTy t old) (w : Str) :
    deser B E t old d = .error (.deser w) ↔ ∃ base lines, Blames B E t old d base lines ∧ w = text base lines := by
  constructor
  · exact explains t ht old d w ho
  · rintro ⟨base, lines, h, rfl⟩
    exact blames_throws h ht ho

example : deser J E (.vec point) (.seq []) (.arr [obj [("ID", jint 1), ("x", jint 1)],
    obj [("ID", jint 1), ("tags", .arr [jstr "red", jstr "blue"])]]) = .error (.deser (text
      (txt "invalid enum value: blue")
      [elementLine 1, memberLine (txt "tags"), typeLine (txt "point"), elementLine 1])) := rfl

/-- The elements of a tuple have no line. -/
theorem C52_tuple_violated : deser J E (.tuple false (.cons (int i8) (.cons (.leaf .bool) .nil)))
    (.seq [num 0, .atom (.bool false)]) (.arr [jint 1, jint 2]) =
      .error (.deser (txt "type must be a boolean but is a kNumberType")) := rfl

/-! ### C75 Exceptions -/

/-- C75: `deserialize` throws `deserialize_error`, what a validator throws, or, if a record of
the type has colliding names, `logic_error`. -/
theorem C75_deserialize {B : Backend σ} (hB : Lawful B) {E : Env} {t : Ty} (ht : tyOk t = true) {old : Value}
    (ho : HasTy t old) {d : Doc σ} {e : Exc} (h : deser B E t old d = .error e) :
    Throwable E (AllChecked t) e := deser_kind hB t ht old d e ho h

/-- C75: so does `patch`. -/
theorem C75_patch {B : Backend σ} (hB : Lawful B) {E : Env} {t : Ty} (ht : tyOk t = true) {old : Value}
    (ho : HasTy t old) {d : Doc σ} {e : Exc} (h : patch B E t old d = .error e) :
    Throwable E (AllChecked t) e := patch_kind hB t ht old d e ho h

/-- C75: `serialize` succeeds iff the names of the records and of their extra fields do not
collide; otherwise it throws `logic_error`. -/
theorem C75_serialize {B : Backend σ} (hB : Lawful B) {s : Bool} {t : Ty} (ht : tyOk t = true) {v : Value}
    (hv : HasTy t v) :
    (Writable s t v ∧ ∃ d, ser B s t v = .ok d) ∨ (¬ Writable s t v ∧ ∃ w, ser B s t v = .error (.logic w)) :=
  ser_decides hB t ht v hv

example : deser J E (.record [] (.cons { name := txt "a", init := num 0, validators := [.user 1] } (int i8) .nil))
    (.record [num 0]) (obj [("a", jint 1)]) = .error (.other 7) := rfl
example : AllChecked point := by
  simp [AllChecked, AllCheckedFields, point, pointFields, NamesChecked, allNames, allNamesTy, extraCount,
    extraCountTy, txt, Field.key, hasExtraOrFlatten, int]

namespace Sample
/-- Passes the static assertions as `b` is skipped, but not the check made when it is used. -/
def clash : Ty := .record (txt "clash")
  (.cons { name := txt "a", init := num 0 } (int i8)
  (.cons { name := txt "b", init := num 0, rename := some (txt "a"), skipSer := true, skipDeser := true } (int i8)
  (.cons { name := txt "rest", init := .map [], extra := true } (.map (int i8)) .nil)))
end Sample

/-- A skipped field can make every use of a record throw: the static assertions leave it out,
the names collected for `extra_fields` and `flatten` do not. -/
theorem C75_skipped_name_violated : tyOk clash = true ∧ (∀ s v d, ser J s clash v ≠ .ok d) ∧
    ∀ old d v, deser J E clash old (.obj d) ≠ .ok v := by
  refine ⟨by decide +kernel, ?_, ?_⟩
  · intro s v d h
    cases v with
    | record vs =>
      have : reservedNames (.cons { name := txt "a", init := num 0 } (int i8)
        (.cons { name := txt "b", init := num 0, rename := some (txt "a"), skipSer := true, skipDeser := true }
          (int i8)
        (.cons { name := txt "rest", init := .map [], extra := true } (.map (int i8)) .nil))) =
        .error (.logic (txt "serialization reflected field name collision: a")) := rfl
      simp [ser, clash, this] at h
    | _ => cases h
  · intro old ms v h
    rw [clash, C43_object (by decide +kernel)] at h
    have := (h.1 (by simp [hasExtraOrFlatten])).1
    simp [allNames, Field.key, txt] at this

/-! ### C76 What is written for a record -/

/-- C76: the members of a serialised record are those of its fields in the order of
declaration: one under the serialised name, those of a flattened record, the entries of a map
of extra fields, or none if the field is left out. -/
theorem C76_members {B : Backend σ} (hB : Lawful B) {s : Bool} {n : Str} {fs : Fields} {v : Value} {d : Doc σ}
    (h : ser B s (.record n fs) v = .ok d) : ∃ vs out, v = .record vs ∧ d = .obj out ∧
      WritesFields (fun t v d => ser B s t v = .ok d) s fs vs out := ser_record hB h

/- A null is left out unless nulls are written or the field says so. -/
example : ser J true point somePoint = .ok (obj [("ID", jint 5),
    ("tags", .arr [jstr "yellow", jstr "red"]), ("x", jint 200)]) := rfl
example : ser J false point somePoint = .ok (obj [("ID", jint 5), ("nick", .null),
    ("tags", .arr [jstr "yellow", jstr "red"]), ("x", jint 200)]) := rfl

/-! ### C77 Types -/

/-- C77: what is read is of the type. -/
theorem C77_deserialize {B : Backend σ} (hB : Lawful B) {E : Env} {t : Ty} (ht : tyOk t = true) {old v : Value}
    {d : Doc σ} (ho : HasTy t old) (h : deser B E t old d = .ok v) : HasTy t v :=
  deser_typed hB t ht old v d ho h

/-- C77: so is what is patched. -/
theorem C77_patch {B : Backend σ} (hB : Lawful B) {E : Env} {t : Ty} (ht : tyOk t = true) {old v : Value}
    {d : Doc σ} (ho : HasTy t old) (h : patch B E t old d = .ok v) : HasTy t v :=
  patch_typed hB t ht old v d ho h

example : tyOk point = true ∧ HasTy point (fresh point) ∧ HasTy point somePoint := by decide +kernel

/-- C77: reading the same document again changes nothing. -/
theorem C77_again {B : Backend σ} {E : Env} {t : Ty} (ht : tyOk t = true) {old v : Value} {d : Doc σ}
    (h : deser B E t old d = .ok v) : deser B E t v d = .ok v := deser_again t ht old v d h

/-! ### C78 Static assertions -/

/-- C78: the assertion on the names written holds iff they are different. -/
theorem C78_serialize {fs : Fields} (hf : fieldsOk fs = true) : serNamesOk fs = true ↔ (outNames fs).Nodup :=
  serNamesOk_iff hf

/-- C78: the assertion on the names read holds iff they are different. -/
theorem C78_deserialize {fs : Fields} (hf : fieldsOk fs = true) : deserNamesOk fs = true ↔ (inNames fs).Nodup :=
  deserNamesOk_iff hf

example : fieldsOk pointFields = true ∧ serNamesOk pointFields = true ∧ deserNamesOk pointFields = true := by
  decide +kernel
example : serNamesOk (.cons { name := txt "x", init := num 0 } (int u8) pointFields) = false := by
  decide +kernel

/-! ### C79 Reading, kind by kind -/

/-- C79: null is an empty optional, everything else is read into a new value. -/
theorem C79_optional {B : Backend σ} {E : Env} {t : Ty} {old v : Value} {d : Doc σ} :
    deser B E (.opt t) old d = .ok v ↔ (d = .null ∧ v = .opt none) ∨
      (d ≠ .null ∧ ∃ w, deser B E t (fresh t) d = .ok w ∧ v = .opt (some w)) := deser_opt

/-- C79: a map holds the first member of each name; all members must be readable. -/
theorem C79_map {B : Backend σ} {E : Env} {t : Ty} {old v : Value} {d : Doc σ} :
    deser B E (.map t) old d = .ok v ↔ ∃ ms es, d = .obj ms ∧ v = .map es ∧
      (∀ m ∈ ms, ∃ w, deser B E t (fresh t) m.2 = .ok w) ∧ sorted es = true ∧
      ∀ k w, (k, w) ∈ es ↔ ∃ d, First ms k d ∧ deser B E t (fresh t) d = .ok w := deser_map

example : deser J E (.map (int i8)) (.map []) (obj [("b", jint 1), ("a", jint 2), ("b", jint 3)]) =
    .ok (.map [(txt "a", num 2), (txt "b", num 1)]) := rfl
/- The member that is shadowed must be readable too. -/
example : (deser J E (.map (int i8)) (.map []) (obj [("b", jint 1), ("b", jint 300)])).isOk = false := rfl

/-- C79: a tuple or pair reads element by element; missing elements count as null, more
elements than components are rejected. -/
theorem C79_tuple {B : Backend σ} {E : Env} {p : Bool} {ts : Tys} {os : List Value} {v : Value} {d : Doc σ} :
    deser B E (.tuple p ts) (.seq os) d = .ok v ↔ ∃ l vs, d = .arr l ∧ v = .seq vs ∧
      l.length ≤ (tyList ts).length ∧ (tyList ts).length = os.length ∧ os.length = vs.length ∧
      ∀ j t o w, (tyList ts)[j]? = some t → os[j]? = some o → vs[j]? = some w →
        deser B E t o (element l j) = .ok w := deser_tuple

example : deser J E (.tuple true (.cons (int i8) (.cons (.opt (int u8)) .nil))) (.seq [num 0, .opt none])
    (.arr [jint 4]) = .ok (.seq [num 4, .opt none]) := rfl

/-- C79: an enum is read from the name of one of its enumerators, the first of that name. -/
theorem C79_enum {B : Backend σ} {E : Env} {e : EnumTy} {old v : Value} {d : Doc σ} :
    deser B E (.enum e) old d = .ok v ↔ ∃ s i x, B.deserLeaf .str d = .ok (.str s) ∧
      FirstAt (fun _ y => txt y.name ≠ s) e.entries i x ∧ txt x.name = s ∧ v = .atom (.int x.value) :=
  deser_enum

/-- C79: a set of enumerators is the union of the bits of the enumerators listed. -/
theorem C79_enum_set {B : Backend σ} {E : Env} {e : EnumTy} {old v : Value} {d : Doc σ} :
    deser B E (.enumSet e) old d = .ok v ↔ ∃ l xs m, d = .arr l ∧ v = .bits m ∧
      Each (fun d w => deser B E (.enum e) (.atom (.int 0)) d = .ok (.atom (.int w))) l xs ∧
      m < 2 ^ e.under.w ∧ ∀ i, i < e.under.w → (m.testBit i = true ↔ ∃ n ∈ xs, bit e n i = true) :=
  deser_set

example : deser J E (.enumSet color) (.bits 4) (.arr [jstr "green", jstr "red"]) = .ok (.bits 3) := rfl

/-- C79: a record is read from objects and sequences only. -/
theorem C79_record {B : Backend σ} {E : Env} {n : Str} {fs : Fields} {old v : Value} {d : Doc σ}
    (h : deser B E (.record n fs) old d = .ok v) : (∃ ms, d = .obj ms) ∨ ∃ l, d = .arr l := by
  cases d with
  | obj ms => exact .inl ⟨ms, rfl⟩
  | arr l => exact .inr ⟨l, rfl⟩
  | null => cases old <;> simp [deser, note] at h
  | scalar s => cases old <;> simp [deser, note] at h

/-- C79: reading into a leaf or an enum without names is up to the backend. -/
theorem C79_leaf {B : Backend σ} {E : Env} {old v : Value} {d : Doc σ} :
    (∀ l, deser B E (.leaf l) old d = .ok v ↔ ∃ a, B.deserLeaf l d = .ok a ∧ v = .atom a) ∧
    (∀ t, deser B E (.rawEnum t) old d = .ok v ↔ ∃ a, B.deserLeaf (.int t) d = .ok a ∧ v = .atom a) := by
  constructor <;> intro t <;> simp only [deser, map_ok]
  · exact ⟨fun ⟨a, h, h'⟩ => ⟨a, h, h'.symm⟩, fun ⟨a, h, h'⟩ => ⟨a, h, h'.symm⟩⟩
  · exact ⟨fun ⟨a, h, h'⟩ => ⟨a, h, h'.symm⟩, fun ⟨a, h, h'⟩ => ⟨a, h, h'.symm⟩⟩

/-- C79: an optional is patched in place; an empty one as a new value. -/
theorem C79_patch_optional {B : Backend σ} {E : Env} {t : Ty} {o : Option Value} {v : Value} {d : Doc σ} :
    patch B E (.opt t) (.opt o) d = .ok v ↔ (d = .null ∧ v = .opt none) ∨
      (d ≠ .null ∧ ∃ w, patch B E t (o.getD (fresh t)) d = .ok w ∧ v = .opt (some w)) := by
  simp only [patch]
  by_cases h : d.isNull = true
  · rw [if_pos h]
    rw [isNull_iff] at h
    subst h
    simp only [Except.ok.injEq, true_and, ne_eq, not_true_eq_false, false_and, or_false]
    exact eq_comm
  · rw [if_neg h]
    rw [isNull_iff] at h
    simp only [h, false_and, false_or, ne_eq, not_false_eq_true, true_and]
    cases o <;> simp only [Option.getD, map_ok]
    · exact ⟨fun ⟨a, h, h'⟩ => ⟨a, h, h'.symm⟩, fun ⟨a, h, h'⟩ => ⟨a, h, h'.symm⟩⟩
    · exact ⟨fun ⟨a, h, h'⟩ => ⟨a, h, h'.symm⟩, fun ⟨a, h, h'⟩ => ⟨a, h, h'.symm⟩⟩

example : patch J E (.opt point) (.opt (some somePoint)) (obj [("x", jint 1)]) =
    .ok (.opt (some (.record [num 5, .opt none, .seq [num 3, num 1], .record [num 1]]))) := rfl

/-- C79: the new values: zero, false, the empty string, no value, nothing, the initial values
of the fields. -/
theorem C79_new (l : Leaf) (e : EnumTy) (i : IT) (t : Ty) (n : Nat) (p : Bool) (ts : Tys) (m : Str) (fs : Fields) :
    fresh (.leaf l) = .atom (match l with | .bool => .bool false | .int _ => .int 0 | .dbl => .dbl 0 | .str => .str []) ∧
    fresh (.enum e) = .atom (.int 0) ∧ fresh (.rawEnum i) = .atom (.int 0) ∧ fresh (.enumSet e) = .bits 0 ∧
    fresh (.opt t) = .opt none ∧ fresh (.vec t) = .seq [] ∧ fresh (.map t) = .map [] ∧
    (∃ vs, fresh (.arr n t) = .seq vs ∧ vs.length = n ∧ ∀ v ∈ vs, v = fresh t) ∧
    fresh (.tuple p ts) = .seq ((tyList ts).map fresh) ∧
    fresh (.record m fs) = .record ((fieldList fs).map fun f => f.1.init) := by
  refine ⟨by cases l <;> simp [fresh], by simp [fresh], by simp [fresh], by simp [fresh], by simp [fresh],
    by simp [fresh], by simp [fresh], ?_, by simp [fresh, freshs_eq], by simp [fresh, inits_eq]⟩
  exact ⟨_, by rw [fresh], by simp, fun v hv => List.eq_of_mem_replicate hv⟩

/-! ### C80 Writing, kind by kind -/

/-- C80: leaves are written by the backend; an enum as the name of the first enumerator of
its value (or the name for unknown ones). -/
theorem C80_leaf {B : Backend σ} {s : Bool} (l : Leaf) (a : Atom) (t : IT) :
    ser B s (.leaf l) (.atom a) = .ok (.scalar (B.serLeaf l a)) ∧
    ser B s (.rawEnum t) (.atom a) = .ok (.scalar (B.serLeaf (.int t) a)) := by
  simp [ser]

theorem C80_enum {B : Backend σ} {s : Bool} {e : EnumTy} (he : enumOk e = true) {n : Int}
    (hn : e.under.InRange n) :
    ser B s (.enum e) (.atom (.int n)) = .ok (.scalar (B.serLeaf .str (.str (nameOf e n)))) := by
  simp only [ser, enumName_eq he hn, nameOf]; rfl

example : ser J true (.enum color) (num 9) = .ok (jstr "unknown") := rfl

/-- C80: an empty optional is null, another one its value. -/
theorem C80_optional {B : Backend σ} {s : Bool} {t : Ty} (v : Value) :
    ser B s (.opt t) (.opt none) = .ok .null ∧ ser B s (.opt t) (.opt (some v)) = ser B s t v := by
  simp [ser]

/-- C80: ranges are arrays of their elements. -/
theorem C80_range {B : Backend σ} {s : Bool} {n : Nat} {t : Ty} {vs : List Value} {d : Doc σ} :
    (ser B s (.vec t) (.seq vs) = .ok d ↔ ∃ l, d = .arr l ∧ Each (fun v d => ser B s t v = .ok d) vs l) ∧
    (ser B s (.arr n t) (.seq vs) = .ok d ↔ ∃ l, d = .arr l ∧ Each (fun v d => ser B s t v = .ok d) vs l) :=
  ⟨ser_vec, ser_arr⟩

/-- C80: maps are objects of their entries in the order of the keys, nulls left out when they
are not to be written. -/
theorem C80_map {B : Backend σ} (hB : Lawful B) {s : Bool} {t : Ty} {es : List (Str × Value)} {d : Doc σ} :
    ser B s (.map t) (.map es) = .ok d ↔ ∃ out, d = .obj out ∧
      Each (fun e m => m.1 = e.1 ∧ ser B s t e.2 = .ok m.2)
        (es.filter fun e => !(s && isNullValue e.2)) out := ser_map hB

example : ser J true (.map (.opt (int i8))) (.map [(txt "a", .opt none), (txt "b", .opt (some (num 1)))]) =
    .ok (obj [("b", jint 1)]) := rfl

/-- C80: tuples and pairs are arrays of their components. -/
theorem C80_tuple {B : Backend σ} {s : Bool} {p : Bool} {ts : Tys} {vs : List Value} {d : Doc σ} :
    ser B s (.tuple p ts) (.seq vs) = .ok d ↔ ∃ l, d = .arr l ∧ (tyList ts).length = vs.length ∧
      vs.length = l.length ∧ ∀ (j : Nat) t v d, (tyList ts)[j]? = some t → vs[j]? = some v → l[j]? = some d →
        ser B s t v = .ok d := ser_tuple

example : ser J true (.tuple true (.cons (int i8) (.cons (.opt (int u8)) .nil))) (.seq [num 4, .opt none]) =
    .ok (.arr [jint 4, .null]) := rfl

/-- C80: the values that count as null and as empty. -/
theorem C80_null_empty (v : Value) :
    (isNullValue v = true ↔ v = .opt none) ∧
    (isEmptyValue v = true ↔ v = .seq [] ∨ v = .map [] ∨ v = .atom (.str [])) := by
  constructor
  · cases v with
    | opt o => cases o <;> simp [isNullValue]
    | _ => simp [isNullValue]
  · cases v with
    | atom a => cases a <;> simp [isEmptyValue]
    | _ => simp [isEmptyValue]

/-- C80: the name of a field is its new name, if it has one; the names are checked for records
with a flattened field or a map of extra fields. -/
theorem C80_names (f : Field) (fs : Fields) :
    (∀ n, f.rename = some n → f.key = n) ∧ (f.rename = none → f.key = f.name) ∧
    (hasExtraOrFlatten fs = true ↔ ∃ p ∈ fieldList fs, p.1.extra = true ∨ p.1.flatten = true) := by
  refine ⟨fun n h => by simp [Field.key, h], fun h => by simp [Field.key, h],
    hasExtraOrFlatten_iff fs⟩

/-! ### C81 JSON leaves -/

/-- C81: booleans and strings are read from booleans and strings only, `double` from any
number. -/
theorem C81_exact (ofInt : Int → BitVec 64) (d : JDoc) (a : Atom) :
    ((json ofInt).deserLeaf .bool d = .ok a ↔ ∃ b, d = .scalar (.bool b) ∧ a = .bool b) ∧
    ((json ofInt).deserLeaf .str d = .ok a ↔ ∃ s, d = .scalar (.str s) ∧ a = .str s) ∧
    ((json ofInt).deserLeaf .dbl d = .ok a ↔
      (∃ b, d = .scalar (.dbl b) ∧ a = .dbl b) ∨ ∃ n, d = .scalar (.int n) ∧ a = .dbl (ofInt n)) := by
  simp only [json, Json.deserLeaf, map_ok]
  refine ⟨?_, ?_, ?_⟩
  · cases d with
    | scalar s => cases s <;> simp [Json.deserBool, eq_comm]
    | _ => simp [Json.deserBool]
  · cases d with
    | scalar s => cases s <;> simp [Json.deserStr, eq_comm]
    | _ => simp [Json.deserStr]
  · cases d with
    | scalar s => cases s <;> simp [Json.deserDbl, eq_comm]
    | _ => simp [Json.deserDbl]

/-- C81: everything is written as what it is. -/
theorem C81_written (ofInt : Int → BitVec 64) (l : Leaf) (a : Atom) :
    (json ofInt).serLeaf l a = (match a with
      | .bool b => .bool b | .int n => .int n | .dbl b => .dbl b | .str s => .str s) ∧
    (json ofInt).dumpLeaf l a = (json ofInt).serLeaf l a := by
  constructor
  · cases a <;> rfl
  · exact (json_lawful ofInt).dump l a

/-- C81: the messages for documents of the wrong kind name the kind expected and found. -/
theorem C81_wrong_kind (ofInt : Int → BitVec 64) :
    (∀ d, (∀ b, d ≠ .scalar (.bool b)) → (json ofInt).deserLeaf .bool d =
      .error (.deser (txt "type must be a boolean but is a " ++ (json ofInt).typeName d))) ∧
    (∀ d, (∀ s, d ≠ .scalar (.str s)) → (json ofInt).deserLeaf .str d =
      .error (.deser (txt "type must be a string but is a " ++ (json ofInt).typeName d))) ∧
    (∀ d, (∀ b, d ≠ .scalar (.dbl b)) → (∀ n, d ≠ .scalar (.int n)) → (json ofInt).deserLeaf .dbl d =
      .error (.deser (txt "type must be a number but is a " ++ (json ofInt).typeName d))) ∧
    (∀ t d, (∀ n, d ≠ .scalar (.int n)) → (json ofInt).deserLeaf (.int t) d =
      .error (.deser (txt "type must be an integral but is a " ++ (json ofInt).typeName d))) := by
  refine ⟨?_, ?_, ?_, ?_⟩
  · intro d h
    cases d with
    | scalar s => cases s <;> first | rfl | (exact absurd rfl (h _))
    | _ => rfl
  · intro d h
    cases d with
    | scalar s => cases s <;> first | rfl | (exact absurd rfl (h _))
    | _ => rfl
  · intro d h h'
    cases d with
    | scalar s => cases s <;> first | rfl | (exact absurd rfl (h _)) | (exact absurd rfl (h' _))
    | _ => rfl
  · intro t d h
    cases d with
    | scalar s => cases s <;> first | rfl | (exact absurd rfl (h _))
    | _ => rfl

example : deser J E (.leaf .str) (.atom (.str [])) (.arr []) =
    .error (.deser (txt "type must be a string but is a kArrayType")) := rfl

end Verif.Serial
