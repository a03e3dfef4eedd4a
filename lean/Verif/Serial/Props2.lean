import Verif.Serial.Props
import Verif.Serial.Clash
import Verif.Serial.Unknown
import Verif.Serial.Order
/-
The properties C82 to C85 of serialisation.
-/
namespace Verif.Serial
open Verif.Path Verif.Enums Spec Sample

variable {σ : Type}

/-! ### C82 Error messages of patch -/

/-- C82: the text of an error of `patch` is the message of the failure, then a line for each
element, member, field and record around it, from the inside out.  `PatchBlames` tells
which. -/
theorem C82_text {B : Backend σ} {E : Env} {t : Ty} (ht : tyOk t = true) {old : Value} {d : Doc σ}
    (ho : HasTy t old) (hu : uniqueNames d = true) (w : Str) :
    patch B E t old d = .error (.deser w) ↔
      ∃ base lines, PatchBlames B E t old d base lines ∧ w = text base lines := by
  constructor
  · exact patch_explains t ht old d w ho hu
  · rintro ⟨base, lines, h, rfl⟩
    exact patch_throws h ht ho hu

example : patch J E bag (.record [.map [(txt "k", .record [.record [num 3, num 4]])]])
    (obj [("j", obj []), ("k", obj [("r", obj [("a", jint 7)])])]) =
    .error (.deser (text (txt "too much") [patchMemberLine (txt "r"), patchTypeLine (txt "checked"),
      patchExtraLine (txt "k"), patchTypeLine (txt "bag")])) := rfl
example : patch J E point somePoint (obj [("x", jint 256)]) =
    .error (.deser (text (txt "value cannot be losslessly stored in the variable")
      [patchMemberLine (txt "x"), patchTypeLine (txt "pos"), patchMemberLine (txt "at"),
        patchTypeLine (txt "point")])) := rfl
example : uniqueNames (obj [("j", obj []), ("k", obj [("r", obj [("a", jint 7)])])]) = true := by
  decide +kernel

/-! ### C83 Colliding names -/

/-- C83: the names of a record with `extra_fields` or `flatten` collide iff something is
declared twice. -/
theorem C83_collides {n : Str} {fs : Fields} (ht : tyOk (.record n fs) = true) :
    ¬ NamesChecked fs ↔ hasExtraOrFlatten fs = true ∧ ∃ x, FirstRepeated (declared fs) x := by
  simp only [tyOk, Bool.and_eq_true] at ht
  constructor
  · intro h
    cases hr : reservedNames fs with
    | ok r => exact absurd (reservedFor ht.1.1 hr).1 h
    | error e =>
      obtain ⟨w, rfl⟩ := reservedNames_err ht.1.1 hr
      obtain ⟨h1, x, h2, -⟩ := (reservedNames_logic ht.1.1).1 hr
      exact ⟨h1, x, h2⟩
  · rintro ⟨h1, x, h2⟩ hn
    obtain ⟨r, hr⟩ := namesChecked_ok ht.1.1 hn
    rw [(reservedNames_logic ht.1.1).2 ⟨h1, x, h2, rfl⟩] at hr
    cases hr

/-- C83: then all four operations throw a `logic_error` that names the first repetition. -/
theorem C83_named {B : Backend σ} {E : Env} {n : Str} {fs : Fields} (ht : tyOk (.record n fs) = true)
    (hc : hasExtraOrFlatten fs = true) {x : Option Str} (hx : FirstRepeated (declared fs) x)
    {vs : List Value} :
    (∀ s, ser B s (.record n fs) (.record vs) = .error (.logic (clashText x))) ∧
    (∀ s, dump B s (.record n fs) (.record vs) = .error (.logic (clashText x))) ∧
    (∀ ms, deser B E (.record n fs) (.record vs) (.obj ms) = .error (.logic (clashText x))) ∧
    (∀ ms, patch B E (.record n fs) (.record vs) (.obj ms) = .error (.logic (clashText x))) := by
  simp only [tyOk, Bool.and_eq_true] at ht
  have h := (reservedNames_logic ht.1.1).2 ⟨hc, x, hx, rfl⟩
  refine ⟨fun s => ?_, fun s => ?_, fun ms => ?_, fun ms => ?_⟩
  · simp only [ser, h]
  · simp only [dump, h]
  · simp only [deser, h, note, Exc.add]
  · simp only [patch, h, note, Exc.add]

namespace Sample
/-- An alias that is never read is the name of another field. -/
def clashing : Ty := .record (txt "clashing")
  (.cons { name := txt "a", init := num 0 } (int i8)
  (.cons { name := txt "b", init := num 0, aliases := [txt "a"], skipDeser := true } (int i8)
  (.cons { name := txt "rest", init := .map [], extra := true } (.map (int i8)) .nil)))
end Sample

example : tyOk clashing = true := by decide +kernel
example : ser J false clashing (.record [num 1, num 2, .map []]) =
    .error (.logic (txt "serialization reflected field name collision: a")) := rfl
example : FirstRepeated [some (txt "a"), some (txt "b"), some (txt "a"), none] (some (txt "a")) :=
  ⟨[some (txt "a"), some (txt "b")], [none], rfl, by decide +kernel, by simp⟩

/-! ### C84 Unknown members -/

/-- C84: reading and patching a record without `extra_fields` depend on the members with
names of its fields only. -/
theorem C84_ignored {B : Backend σ} {E : Env} {n : Str} {fs : Fields} (ht : tyOk (.record n fs) = true)
    (hx : extraCount fs = 0) {ms ms' : List (Str × Doc σ)}
    (h : ∀ k ∈ inNames fs, ∀ d, First ms k d ↔ First ms' k d) (old : Value) :
    deser B E (.record n fs) old (.obj ms) = deser B E (.record n fs) old (.obj ms') ∧
    patch B E (.record n fs) old (.obj ms) = patch B E (.record n fs) old (.obj ms') := by
  have h' : ∀ k ∈ inNames fs, findMember ms k = findMember ms' k := by
    intro k hk
    cases hm : findMember ms' k with
    | some d => exact (findMember_some ms k d).2 ((h k hk d).2 ((findMember_some ms' k d).1 hm))
    | none =>
      cases hm' : findMember ms k with
      | none => rfl
      | some d =>
        have := (findMember_some ms' k d).2 ((h k hk d).1 ((findMember_some ms k d).1 hm'))
        rw [hm] at this; cases this
  exact ⟨deserTy_agree (.record n fs) old ht (by simpa only [extraCountTy] using hx)
      (by simpa only [inNamesTy] using h') rfl,
    patchTy_agree (.record n fs) old ht (by simpa only [extraCountTy] using hx)
      (by simpa only [inNamesTy] using h') rfl⟩

/-- C84: a member with a name of its own can be added anywhere. -/
theorem C84_added {B : Backend σ} {E : Env} {n : Str} {fs : Fields} (ht : tyOk (.record n fs) = true)
    (hx : extraCount fs = 0) {ms ms' : List (Str × Doc σ)} {k : Str} (hk : k ∉ inNames fs) (d : Doc σ)
    (old : Value) :
    deser B E (.record n fs) old (.obj (ms ++ (k, d) :: ms')) = deser B E (.record n fs) old (.obj (ms ++ ms')) ∧
    patch B E (.record n fs) old (.obj (ms ++ (k, d) :: ms')) =
      patch B E (.record n fs) old (.obj (ms ++ ms')) := by
  refine C84_ignored ht hx ?_ old
  intro j hj
  have hne : k ≠ j := fun h => hk (h ▸ hj)
  induction ms with
  | nil => intro d'; simp [First.cons, hne]
  | cons m ms ih => intro d'; simp [First.cons, ih]

example : extraCount pointFields = 0 ∧ txt "z" ∉ inNames pointFields := by decide +kernel
example : deser J E point somePoint (obj [("z", jint 1), ("ID", jint 1), ("x", jint 1), ("z", .null)]) =
    deser J E point somePoint (obj [("ID", jint 1), ("x", jint 1)]) := rfl

/-! ### C85 The order of members -/

theorem json_scalarLeaves (ofInt : Int → BitVec 64) : ScalarLeaves (json ofInt) := by
  intro l d a h
  cases d with
  | scalar s => exact ⟨s, rfl⟩
  | _ => cases l <;> simp [json, Json.deserLeaf, Json.deserBool, Json.deserInt, Json.deserDbl, Json.deserStr] at h

/-- C85: documents that differ in the order of members only, at any depth, give the same
results. -/
theorem C85_order {B : Backend σ} (hB : ScalarLeaves B) {E : Env} {t : Ty} (ht : tyOk t = true) {old : Value}
    (ho : HasTy t old) {d d' : Doc σ} (h : Same d d') (hu : uniqueNames d = true) (v : Value) :
    (deser B E t old d = .ok v ↔ deser B E t old d' = .ok v) ∧
    (patch B E t old d = .ok v ↔ patch B E t old d' = .ok v) := by
  have h1 := (same_le hB (E := E) h hu).2 t old v ht ho
  have h2 := (same_le hB (E := E) (same_symm h) ((same_unique h).1 hu)).2 t old v ht ho
  exact ⟨⟨h1.1, h2.1⟩, ⟨h1.2, h2.2⟩⟩

theorem C85_json {E : Env} {t : Ty} (ht : tyOk t = true) {old : Value} (ho : HasTy t old)
    {ofInt : Int → BitVec 64} {d d' : JDoc} (h : Same d d') (hu : uniqueNames d = true) (v : Value) :
    (deser (json ofInt) E t old d = .ok v ↔ deser (json ofInt) E t old d' = .ok v) ∧
    (patch (json ofInt) E t old d = .ok v ↔ patch (json ofInt) E t old d' = .ok v) :=
  C85_order (json_scalarLeaves ofInt) ht ho h hu v

/-- C85: of members of one name the first counts, so the order of these does matter. -/
theorem C85_repeated_violated : ∃ (t : Ty) (old : Value) (d d' : JDoc), tyOk t = true ∧ HasTy t old ∧
    Same d d' ∧ ∃ v, deser J E t old d = .ok v ∧ deser J E t old d' ≠ .ok v :=
  ⟨.map (int i8), .map [], obj [("a", jint 1), ("a", jint 2)], obj [("a", jint 2), ("a", jint 1)],
    by decide +kernel, by decide +kernel, .order (List.Perm.swap _ _ _), .map [(txt "a", num 1)], rfl, by
    intro h
    have h' : deser J E (.map (int i8)) (.map []) (obj [("a", jint 2), ("a", jint 1)]) =
      .ok (.map [(txt "a", num 2)]) := rfl
    rw [h'] at h
    simp [num] at h⟩

example : Same (obj [("a", .arr [obj [("b", .null), ("c", jint 1)]]), ("d", .null)])
    (obj [("d", .null), ("a", .arr [obj [("c", jint 1), ("b", .null)]])] : JDoc) :=
  .trans (.member (l := []) (.element (l := []) (m := []) (.order (List.Perm.swap _ _ _))))
    (.order (List.Perm.swap _ _ _))
example :
    let v := .record [.map [(txt "i", .record [.record [num 1, num 2]]), (txt "k", .record [.record [num 3, num 4]])]]
    deser J E bag (.record [.map []]) (obj [("k", obj [("r", obj [("b", jint 4), ("a", jint 3)])]),
      ("i", obj [("r", obj [("a", jint 1), ("b", jint 2)])])]) = .ok v ∧
    deser J E bag (.record [.map []]) (obj [("i", obj [("r", obj [("b", jint 2), ("a", jint 1)])]),
      ("k", obj [("r", obj [("a", jint 3), ("b", jint 4)])])]) = .ok v := ⟨rfl, rfl⟩

end Verif.Serial
