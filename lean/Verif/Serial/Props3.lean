import Verif.Serial.Props2
import Verif.Serial.Translate
import Verif.Serial.YamlText
/-
The properties C86 to C88 of serialisation: YAML.
-/
namespace Verif.Serial
open Verif.Path Verif.Enums Spec Sample

/-! ### Samples -/

namespace Sample

/-- Some conversion of `double`. -/
def conv : Yaml.Conv := ⟨fun b => Yaml.digits b.toNat, fun s => (Yaml.natOf s).map (BitVec.ofNat 64)⟩

theorem conv_faithful : Faithful conv := by
  intro b
  simp [conv, Yaml.natOf_digits]

def Y : Backend YScalar := yaml conv

def ystr (s : String) : YDoc := .scalar ⟨txt s, none⟩
/-- A scalar of a parsed document. -/
def yat (s : String) (line column : Nat) : YDoc := .scalar ⟨txt s, some (line, column)⟩
def yobj (ms : List (String × YDoc)) : YDoc := .obj (ms.map fun m => (txt m.1, m.2))

end Sample

/-! ### C86 YAML -/

/-- C86: what is written is read back, for types without further conditions on values. -/
theorem C86_round_trip {c : Yaml.Conv} (hc : Faithful c) {E : Env} {s : Bool} {t : Ty} (ht : tyOk t = true)
    (he : easy s t = true) {old v : Value} (ho : HasTy t old) (hv : HasTy t v) (hl : Listed t v) :
    ∃ d, ser (yaml c) s t v = .ok d ∧ deser (yaml c) E t old d = .ok v := by
  obtain ⟨d, h1, h2⟩ := C41_round_trip (yaml_lawful hc) (E := E) ht he ho hv hl
  exact ⟨d, by rw [ser_appending (yaml_lawful hc) (yaml_appends c) t ht v hv]; exact h1,
    by rw [deser_appending] at h2; exact h2⟩

example : ∃ d, ser Y true point somePoint = .ok d ∧ deser Y E point (fresh point) d = .ok somePoint := by
  refine C86_round_trip conv_faithful (by decide +kernel) (by decide +kernel)
    (fresh_typed _ (by decide +kernel)) (by decide +kernel) ?_
  have h : namesOnce color := by simp [namesOnce, color, txt]
  simp only [color] at h
  simp [Listed, point, pointFields, somePoint, ListedFields, num, Sample.int, h, color]

/-- C86: for all other types, under the conditions on the value. -/
theorem C86_kept {c : Yaml.Conv} (hc : Faithful c) {E : Env} {s : Bool} {t : Ty} (ht : tyOk t = true)
    {old v : Value} (ho : HasTy t old) (hv : HasTy t v) (hk : Keeps E s t old v) {d : YDoc}
    (h : ser (yaml c) s t v = .ok d) : deser (yaml c) E t old d = .ok v := by
  rw [ser_appending (yaml_lawful hc) (yaml_appends c) t ht v hv] at h
  rw [← deser_appending]
  exact C41_kept (yaml_lawful hc) ht ho hv hk h

/-- C86: `dump` emits the events of the node `serialize` makes, and throws what it throws. -/
theorem C86_dump {c : Yaml.Conv} (hc : Faithful c) {s : Bool} {t : Ty} (ht : tyOk t = true) {v : Value}
    (hv : HasTy t v) : dump (yaml c) s t v = (ser (yaml c) s t v).map events := by
  rw [ser_appending (yaml_lawful hc) (yaml_appends c) t ht v hv, ← dump_appending]
  exact C42_same (yaml_lawful hc) s t v

/-- C86: `serialize` succeeds iff the names of the records and of their extra fields do not
collide; otherwise it throws `logic_error`. -/
theorem C86_serialize {c : Yaml.Conv} (hc : Faithful c) {s : Bool} {t : Ty} (ht : tyOk t = true) {v : Value}
    (hv : HasTy t v) : (Writable s t v ∧ ∃ d, ser (yaml c) s t v = .ok d) ∨
      (¬ Writable s t v ∧ ∃ w, ser (yaml c) s t v = .error (.logic w)) := by
  rw [ser_appending (yaml_lawful hc) (yaml_appends c) t ht v hv]
  exact C75_serialize (yaml_lawful hc) ht hv

/-- C86: no member is written twice, that is `add_field`, which assigns, never overwrites. -/
theorem C86_unique {c : Yaml.Conv} (hc : Faithful c) {s : Bool} {t : Ty} (ht : tyOk t = true) {v : Value}
    (hv : HasTy t v) {d : YDoc} (h : ser (yaml c) s t v = .ok d) : uniqueNames d = true := by
  rw [ser_appending (yaml_lawful hc) (yaml_appends c) t ht v hv] at h
  exact C48_unique (yaml_lawful hc) ht hv h

/-- C86: what is read is of the type and valid. -/
theorem C86_legit {c : Yaml.Conv} (hc : Faithful c) {E : Env} {t : Ty} (ht : tyOk t = true) {old v : Value}
    {d : YDoc} (ho : HasTy t old) (h : deser (yaml c) E t old d = .ok v) : HasTy t v ∧ Legit E t old v := by
  rw [← deser_appending] at h
  exact ⟨C77_deserialize (yaml_lawful hc) ht ho h, C47_legit (yaml_lawful hc) ht ho h⟩

/-- C86: what is patched is of the type, and what the document does not name is as before. -/
theorem C86_patch {c : Yaml.Conv} (hc : Faithful c) {E : Env} {t : Ty} (ht : tyOk t = true) {old v : Value}
    {d : YDoc} (ho : HasTy t old) (h : patch (yaml c) E t old d = .ok v) : HasTy t v ∧ Kept t d old v := by
  rw [← patch_appending] at h
  exact ⟨C77_patch (yaml_lawful hc) ht ho h, C45_kept (yaml_lawful hc) ht ho h⟩

/-- C86: patching twice is patching once. -/
theorem C86_twice {c : Yaml.Conv} (hc : Faithful c) {E : Env} {t : Ty} (ht : tyOk t = true) {old v : Value}
    {d : YDoc} (ho : HasTy t old) (hu : uniqueNames d = true) (h : patch (yaml c) E t old d = .ok v) :
    patch (yaml c) E t v d = .ok v := by
  rw [← patch_appending] at h ⊢
  exact C45_twice (yaml_lawful hc) ht ho hu h

/-- C86: `deserialize` and `patch` throw `deserialize_error`, what a validator throws, or, if a
record of the type has colliding names, `logic_error`. -/
theorem C86_throws {c : Yaml.Conv} (hc : Faithful c) {E : Env} {t : Ty} (ht : tyOk t = true) {old : Value}
    (ho : HasTy t old) {d : YDoc} {e : Exc}
    (h : deser (yaml c) E t old d = .error e ∨ patch (yaml c) E t old d = .error e) :
    Throwable E (AllChecked t) e := by
  rcases h with h | h
  · rw [← deser_appending] at h; exact C75_deserialize (yaml_lawful hc) ht ho h
  · rw [← patch_appending] at h; exact C75_patch (yaml_lawful hc) ht ho h

example : ser Y true point somePoint = .ok (yobj [("ID", ystr "5"),
    ("tags", .arr [ystr "yellow", ystr "red"]), ("x", ystr "200")]) := by
  have h1 : Yaml.intText 5 = txt "5" := by decide +kernel
  have h2 : Yaml.intText 200 = txt "200" := by decide +kernel
  simp only [ystr, ← h1, ← h2]
  rfl
example : deser Y E «open» (.record [num 1, .map []]) (yobj [("A", ystr "0x10"), ("b", ystr "-5")]) =
    .ok (.record [num 16, .map [(txt "b", num (-5))]]) := rfl
example : patch Y E point somePoint (yobj [("x", yat "256" 2 4)]) =
    .error (.deser (text (txt "yaml-cpp: error at line 3, column 5: bad conversion")
      [patchMemberLine (txt "x"), patchTypeLine (txt "pos"), patchMemberLine (txt "at"),
        patchTypeLine (txt "point")])) := rfl

/-! ### C87 YAML scalars -/

/-- C87: an integer is read iff the node is a scalar whose text is a number that fits; a minus
sign does not fit an unsigned type. -/
theorem C87_integer {c : Yaml.Conv} {E : Env} {t : IT} (old v : Value) (d : YDoc) :
    deser (yaml c) E (.leaf (.int t)) old d = .ok v ↔ ∃ s n, d = .scalar s ∧ Number s.text n ∧ t.InRange n ∧
      (t.signed = false → s.text.head? ≠ some 0x2D#8) ∧ v = .atom (.int n) := by
  simp only [deser, yaml, Yaml.deserLeaf, map_ok, Yaml.convert_ok, Yaml.asInt_iff]
  constructor
  · rintro ⟨a, ⟨n, ⟨s, rfl, h1, h2, h3⟩, rfl⟩, rfl⟩; exact ⟨s, n, rfl, h1, h2, h3, rfl⟩
  · rintro ⟨s, n, rfl, h1, h2, h3, rfl⟩; exact ⟨_, ⟨n, ⟨s, rfl, h1, h2, h3⟩, rfl⟩, rfl⟩

/-- C87: a text is at most one number. -/
theorem C87_one_number {s : Str} {m n : Int} (hm : Number s m) (hn : Number s n) : m = n := by
  rw [← Yaml.intOf_iff] at hm hn
  rw [hm] at hn
  exact Option.some.inj hn

/-- C87: an integer is written as the decimal number it is, without leading zero. -/
theorem C87_integer_written {c : Yaml.Conv} {s : Bool} {t : IT} (n : Int) : ∃ ds,
    ser (yaml c) s (.leaf (.int t)) (.atom (.int n)) =
      .ok (.scalar ⟨if n < 0 then 0x2D#8 :: ds else ds, none⟩) ∧ Numeral 10 ds n.natAbs ∧
      (ds.head? = some 0x30#8 → n = 0) := by
  refine ⟨Yaml.digits n.natAbs, ?_, ?_, ?_⟩
  · simp only [ser, yaml, Yaml.serLeaf, Yaml.intText]
  · refine (Yaml.numeral_iff (by omega)).2 ⟨?_, ?_, (Yaml.digits_value _).symm⟩
    · obtain ⟨k, r, -, h, -⟩ := Yaml.digits_head n.natAbs
      rw [h]; simp
    · intro x hx
      obtain ⟨k, hk, rfl⟩ := Yaml.digits_all _ x hx
      rw [Yaml.dchar_val hk]; exact hk
  · intro h
    obtain ⟨k, r, hk, h1, h2, -⟩ := Yaml.digits_head n.natAbs
    rw [h1] at h
    simp only [List.head?_cons, Option.some.injEq] at h
    rcases Classical.em (n.natAbs = 0) with h0 | h0
    · omega
    · exact absurd h (Yaml.dchar_zero hk (h2 h0))

/-- C87: a Boolean is read iff the text is one of its spellings. -/
theorem C87_bool {c : Yaml.Conv} {E : Env} (old v : Value) (d : YDoc) :
    deser (yaml c) E (.leaf .bool) old d = .ok v ↔ ∃ s b, d = .scalar s ∧
      (if b then s.text ∈ yes else s.text ∈ no) ∧ v = .atom (.bool b) := by
  simp only [deser, yaml, Yaml.deserLeaf, map_ok, Yaml.convert_ok, Yaml.asBool_iff]
  constructor
  · rintro ⟨a, ⟨b, ⟨s, rfl, h1⟩, rfl⟩, rfl⟩; exact ⟨s, b, rfl, h1, rfl⟩
  · rintro ⟨s, b, rfl, h1, rfl⟩; exact ⟨_, ⟨b, ⟨s, rfl, h1⟩, rfl⟩, rfl⟩

/-- C87: a string is the text of any scalar. -/
theorem C87_string {c : Yaml.Conv} {E : Env} (old v : Value) (d : YDoc) :
    deser (yaml c) E (.leaf .str) old d = .ok v ↔ ∃ s, d = .scalar s ∧ v = .atom (.str s.text) := by
  simp only [deser, yaml, Yaml.deserLeaf, map_ok]
  constructor
  · rintro ⟨a, ⟨s, h, rfl⟩, rfl⟩
    cases d <;> simp [Yaml.expectScalar] at h
    subst h
    exact ⟨_, rfl, rfl⟩
  · rintro ⟨s, rfl, rfl⟩; exact ⟨_, ⟨s, rfl, rfl⟩, rfl⟩

/-- C87: what is no scalar is rejected by its type; what cannot be converted by its place. -/
theorem C87_rejected {c : Yaml.Conv} {E : Env} {l : Leaf} {old : Value} {d : YDoc} {e : Exc}
    (h : deser (yaml c) E (.leaf l) old d = .error e) :
    (d = .null ∧ e = .deser (txt "type must be a scalar but is a Null")) ∨
    (∃ a, d = .arr a ∧ e = .deser (txt "type must be a scalar but is a Sequence")) ∨
    (∃ m, d = .obj m ∧ e = .deser (txt "type must be a scalar but is a Map")) ∨
    ∃ s, d = .scalar s ∧ l ≠ .str ∧
      ((s.mark = none ∧ e = .deser (txt "bad conversion")) ∨
       ∃ line column, s.mark = some (line, column) ∧ e = .deser (txt "yaml-cpp: error at line " ++
         numText (line + 1) ++ txt ", column " ++ numText (column + 1) ++ txt ": bad conversion")) := by
  suffices key : (∃ (α : Type) (f : Str → Option α), Yaml.convert f d = .error e ∧ l ≠ .str) ∨
      (l = .str ∧ ∃ x, Yaml.expectScalar d = .error x ∧ e = x) by
    rcases key with ⟨α, f, h, hl⟩ | ⟨rfl, x, h, rfl⟩
    rotate_left
    · cases d with
      | null => exact .inl ⟨rfl, by cases h; decide +kernel⟩
      | scalar s => simp [Yaml.expectScalar] at h
      | arr a => exact .inr (.inl ⟨a, rfl, by cases h; simp only [Yaml.typeName]; decide +kernel⟩)
      | obj m => exact .inr (.inr (.inl ⟨m, rfl, by cases h; simp only [Yaml.typeName]; decide +kernel⟩))
    rcases Yaml.convert_err.1 h with ⟨hd, rfl⟩ | ⟨s, rfl, -, rfl⟩
    · cases d with
      | null => exact .inl ⟨rfl, by decide +kernel⟩
      | scalar s => exact absurd rfl (hd s)
      | arr a => exact .inr (.inl ⟨a, rfl, by simp only [Yaml.typeName]; decide +kernel⟩)
      | obj m => exact .inr (.inr (.inl ⟨m, rfl, by simp only [Yaml.typeName]; decide +kernel⟩))
    · refine .inr (.inr (.inr ⟨s, rfl, hl, ?_⟩))
      rcases hm : s.mark with _ | ⟨line, column⟩
      · exact .inl ⟨rfl, by simp [Yaml.badConversion, hm]⟩
      · exact .inr ⟨line, column, rfl, by simp [Yaml.badConversion, hm]⟩
  simp only [deser, map_error, yaml] at h
  cases l with
  | str => simp only [Yaml.deserLeaf, map_error] at h; exact .inr ⟨rfl, e, h, rfl⟩
  | _ => simp only [Yaml.deserLeaf, map_error] at h; exact .inl ⟨_, _, h, by simp⟩

example : deser Y E (Sample.int i8) (num 0) (ystr "-0x80 ") = .ok (num (-128)) := rfl
example : deser Y E (Sample.int u8) (num 0) (ystr "017") = .ok (num 15) := rfl
example : deser Y E (Sample.int u8) (num 0) (ystr "-0") = .error (.deser (txt "bad conversion")) := rfl
example : deser Y E (Sample.int u8) (num 0) (ystr "018") = .error (.deser (txt "bad conversion")) := rfl
example : deser Y E (.leaf .bool) (num 0) (ystr "On") = .ok (.atom (.bool true)) := rfl
example : deser Y E (.leaf .bool) (num 0) (yat "oN" 0 7) =
    .error (.deser (txt "yaml-cpp: error at line 1, column 8: bad conversion")) := rfl
example : deser Y E (.leaf .str) (num 0) (ystr "5") = .ok (.atom (.str (txt "5"))) := rfl
example : Number (txt "-0x80 ") (-128) :=
  .minus (.hex (.inl rfl) (.more (n := 8) (v := 0) (.one (v := 8) (.inl (by decide)) (by decide))
    (.inl (by decide)) (by decide)) (ws := txt " ") (by simp [txt, White]))

/-! ### C88 JSON and YAML -/

/-- The YAML scalar for a JSON scalar. -/
def Spec.toYaml (c : Yaml.Conv) : JScalar → YScalar
  | .bool b => ⟨if b then txt "true" else txt "false", none⟩
  | .int n => ⟨Yaml.intText n, none⟩
  | .dbl b => ⟨c.dblText b, none⟩
  | .str s => ⟨s, none⟩

/-- C88: what is written as YAML is what is written as JSON, up to the scalars; both fail alike. -/
theorem C88_same {c : Yaml.Conv} (hc : Faithful c) (ofInt : Int → BitVec 64) {s : Bool} {t : Ty}
    (ht : tyOk t = true) {v : Value} (hv : HasTy t v) :
    ser (yaml c) s t v = (ser (json ofInt) s t v).map (relabel (toYaml c)) := by
  rw [ser_appending (yaml_lawful hc) (yaml_appends c) t ht v hv]
  refine ser_relabel ?_ (json_lawful ofInt).add (yaml_lawful hc).add t v
  intro l a
  cases a <;> rfl

/-- C88: so nothing is written in one format only. -/
theorem C88_fails {c : Yaml.Conv} (hc : Faithful c) (ofInt : Int → BitVec 64) {s : Bool} {t : Ty}
    (ht : tyOk t = true) {v : Value} (hv : HasTy t v) (e : Exc) :
    ser (yaml c) s t v = .error e ↔ ser (json ofInt) s t v = .error e := by
  rw [C88_same hc ofInt ht hv, map_error]

example : relabel (toYaml conv) (obj [("ID", jint 5), ("tags", .arr [jstr "yellow", jstr "red"]), ("x", jint (-200))]) =
    yobj [("ID", ystr "5"), ("tags", .arr [ystr "yellow", ystr "red"]), ("x", ystr "-200")] := by
  have h1 : Yaml.intText 5 = txt "5" := by decide +kernel
  have h2 : Yaml.intText (-200) = txt "-200" := by decide +kernel
  simp only [ystr, ← h1, ← h2]
  rfl
example : ser Y true «open» (.record [num 1, .map [(txt "A", num 2)]]) =
    .error (.logic (txt "serialization extra_fields key collides with reflected field: A")) := by
  refine (C88_fails conv_faithful (fun _ => 0#64) ?_ ?_ _).2 rfl <;> decide +kernel

end Verif.Serial
