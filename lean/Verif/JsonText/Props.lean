/-
The property C131 of JSON as text.
-/
import Verif.JsonText.Scalars
import Verif.JsonText.Sound

namespace Verif.JsonText
open Verif.Path Verif.Enums Verif.Serial Verif.Serial.Spec Spec

/-! ### Samples -/

namespace Sample

def one : BitVec 64 := 0x3FF0000000000000#64
def half : BitVec 64 := 0x3FE0000000000000#64
def nan : BitVec 64 := 0x7FF8000000000000#64

/-- Prints and reads 1 and 0.5; everything else is taken for one of them. -/
def floats : Floats where
  print b := if b = one then txt "1.0" else txt "5e-1"
  read s := if s = txt "1.0" then some one else some half

theorem printable : Printable floats := by
  intro b _
  simp only [floats]
  split
  · exact IsReal.mk (t := txt "1") (f := txt ".0") (e := []) (.nat (.pos (.one (d := 1) (by omega)) (by decide)))
      (.some (.one (d := 0) (by omega))) .none (.inl (by decide))
  · exact IsReal.mk (t := txt "5") (f := []) (e := txt "e-1") (.nat (.pos (.one (d := 5) (by omega)) (by decide)))
      .none (.some (e := ch 'e') (sign := [ch '-']) (.inl rfl) (.inr (.inr rfl)) (.one (d := 1) (by omega)))
      (.inr (by decide))

/-- A string with a quotation mark, a line feed, a null character and the bytes of an umlaut, and numbers. -/
def mixed : JDoc := .obj [(txt "a", .arr [.scalar (.str [0x22#8, 0x0A#8, 0x00#8, 0xC3#8, 0xA4#8]), .scalar (.int (-120))]),
  (txt "b", .scalar (.dbl half)), (txt "c", .arr [])]

end Sample
open Sample Verif.Serial.Sample

/-! ### Reading -/

/-- C131: `parse` accepts exactly the JSON texts and makes the documents they are texts of, except that it skips what there
is of a byte order mark and takes a null character for the end. -/
theorem C131_reader (F : Floats) (s : Str) (d : JDoc) : parse F s = some d ↔
    ∃ mark t rest, s = mark ++ t ++ rest ∧ mark.Sublist [0xEF#8, 0xBB#8, 0xBF#8] ∧ IsText F t d ∧
      (rest = [] ∨ rest.head? = some 0#8) :=
  ⟨parse_sound, fun ⟨_, _, _, hs, hm, ht, hr⟩ => hs ▸ parse_of hm ht hr⟩

/-- A text is a text of one document only. -/
theorem C131_unambiguous (F : Floats) {t : Str} {d d' : JDoc} (h : IsText F t d) (h' : IsText F t d') : d = d' := by
  have h1 := parse_of (mark := []) (by simp) h (.inl rfl)
  have h2 := parse_of (mark := []) (by simp) h' (.inl rfl)
  rw [h1] at h2
  exact Option.some.inj h2

example : (parse floats (txt " { \"a\" : [ \"x\\n\" , -12, true ], \"b\": {} }")).map (render floats false 0) =
    some (txt "{\"a\":[\"x\\n\",-12,true],\"b\":{}}") := by decide +kernel

example : chars 30 (txt "\\u00e4\\uD83D\\ude00\"...") = some ([0xC3#8, 0xA4#8, 0xF0#8, 0x9F#8, 0x98#8, 0x80#8], txt "...") := by
  decide +kernel

example : parse floats (txt "[01]") = none ∧ parse floats (txt "[1,]") = none ∧ parse floats (txt "{\"a\" 1}") = none ∧
    parse floats (txt "\"\\uD800\"") = none ∧ parse floats (txt "1 2") = none ∧ parse floats [] = none :=
  ⟨rfl, rfl, rfl, rfl, rfl, rfl⟩

/-- `parse` accepts texts that are no JSON: whatever follows a null character is not looked at. -/
theorem C131_null_violated : ¬ ∀ (F : Floats) (s : Str) (d : JDoc), parse F s = some d → IsText F s d := by
  intro h
  have h1 := h floats (txt "1" ++ 0#8 :: txt "]") (.scalar (.int 1)) rfl
  have h2 : ∀ {s : Str} {d : JDoc}, IsText floats s d → NoNull s := by
    intro s d hs
    cases hs with
    | mk ha hv hb => exact noNull_append (noNull_append (noNull_ws ha) (noNull_value hv)) (noNull_ws hb)
  exact h2 h1 0#8 (by decide) rfl

/-! ### Writing -/

/-- C131: what `dump` and `pretty_dump` return is the text of the tree that `serialize` makes, laid out without white space
or with a line for every element and member. -/
theorem C131_layout {F : Floats} (hF : Printable F) {f : Int → BitVec 64} {s : Bool} {t : Ty} {v : Value}
    {evs : List (Ev JScalar)} (h : dump (json f) s t v = .ok evs) (pretty : Bool) :
    ∃ d, ser (json f) s t v = .ok d ∧ dumpText F pretty evs = render F pretty 0 d := by
  rw [C42_same (json_lawful f)] at h
  cases hd : ser (json f) s t v with
  | error e => rw [hd] at h; cases h
  | ok d =>
    rw [hd] at h
    cases h
    exact ⟨d, rfl, dumpText_render hF pretty d⟩

example : dumpText floats false (events mixed) =
    txt "{\"a\":[\"\\\"\\n\\u0000" ++ [0xC3#8, 0xA4#8] ++ txt "\",-120],\"b\":5e-1,\"c\":[]}" := by rfl

example : dumpText floats true (events (.obj [(txt "a", .arr [jint 1, jint 2]), (txt "c", .arr [])])) =
    txt "{\n    \"a\": [\n        1,\n        2\n    ],\n    \"c\": []\n}" := by rfl

/-- C131: that text is a JSON text of the document, with every `double` as it is read back. -/
theorem C131_writer {F : Floats} (hF : Printable F) {f : Int → BitVec 64} {s : Bool} {t : Ty} (ht : tyOk t = true) {v : Value}
    (hv : HasTy t v) {evs : List (Ev JScalar)} (h : dump (json f) s t v = .ok evs) (pretty : Bool) :
    ∃ d, ser (json f) s t v = .ok d ∧ ∀ d', reread F d = some d' → IsText F (dumpText F pretty evs) d' := by
  rw [C42_same (json_lawful f)] at h
  cases hd : ser (json f) s t v with
  | error e => rw [hd] at h; cases h
  | ok d =>
    rw [hd] at h
    cases h
    refine ⟨d, rfl, fun d' hr => ?_⟩
    have := IsText.mk ws_nil (dumpText_of hF pretty (ser_fits ht hv hd) hr) ws_nil
    simpa using this

example : ∃ d, ser J true (.vec (.leaf .dbl)) (.seq [.atom (.dbl one), .atom (.dbl half)]) = .ok d ∧
    reread floats d = some d := ⟨_, rfl, rfl⟩

/-! ### There and back -/

/-- C131 for `json::view`, which is written with `Accept`: for every document whose integers are of 64 bits. -/
theorem C131_view {F : Floats} (hF : Printable F) (pretty : Bool) {d d' : JDoc} (hf : fits d = true)
    (hr : reread F d = some d') : parse F (dumpText F pretty (events d)) = some d' := by
  have := parse_of (mark := []) (rest := []) (by simp) (.mk ws_nil (dumpText_of hF pretty hf hr) ws_nil) (.inl rfl)
  simpa using this

example : parse floats (dumpText floats true (events mixed)) = some mixed := C131_view printable true rfl rfl

/-- C131: `parse(dump(v))` is the tree `serialize(v)` if no `double` of the value is changed by printing and reading. -/
theorem C131_parse_dump {F : Floats} (hF : Printable F) {f : Int → BitVec 64} {s : Bool} {t : Ty} (ht : tyOk t = true)
    {v : Value} (hv : HasTy t v) (hx : atomsAll (exact F) v = true) {evs : List (Ev JScalar)}
    (h : dump (json f) s t v = .ok evs) (pretty : Bool) :
    ∃ d, ser (json f) s t v = .ok d ∧ parse F (dumpText F pretty evs) = some d := by
  obtain ⟨d, hd, htext⟩ := C131_writer hF ht hv h pretty
  have hr := exact_scalars (ser_scalars (carries_exact F) t ht v d hv hx hd)
  have := parse_of (mark := []) (rest := []) (by simp) (htext d hr) (.inl rfl)
  exact ⟨d, hd, by simpa using this⟩

/-- C131: `deserialize(parse(dump(v)))` gives the value back, for types without further conditions on values. -/
theorem C131_round_trip {F : Floats} (hF : Printable F) {f : Int → BitVec 64} {E : Env} {s : Bool} {t : Ty}
    (ht : tyOk t = true) (he : easy s t = true) {old v : Value} (ho : HasTy t old) (hv : HasTy t v) (hl : Listed t v)
    (hx : atomsAll (exact F) v = true) (pretty : Bool) :
    ∃ evs d, dump (json f) s t v = .ok evs ∧ parse F (dumpText F pretty evs) = some d ∧ deser (json f) E t old d = .ok v := by
  obtain ⟨d, hd, hb⟩ := C41_round_trip (json_lawful f) (E := E) ht he ho hv hl
  have hdump : dump (json f) s t v = .ok (events d) := by rw [C42_same (json_lawful f), hd]; rfl
  obtain ⟨d', hd', hp⟩ := C131_parse_dump hF ht hv hx hdump pretty
  rw [hd] at hd'
  cases hd'
  exact ⟨_, d, hdump, hp, hb⟩

example : ∃ evs d, dump J true (.vec (.leaf .dbl)) (.seq [.atom (.dbl one), .atom (.dbl half)]) = .ok evs ∧
    parse floats (dumpText floats true evs) = some d ∧
    deser J E (.vec (.leaf .dbl)) (.seq []) d = .ok (.seq [.atom (.dbl one), .atom (.dbl half)]) :=
  C131_round_trip printable (by decide) (by decide) (by decide) (by decide) (by simp [Listed]) (by decide) true

/-- C131 for every type, of values nothing of which is lost (C41). -/
theorem C131_kept {F : Floats} (hF : Printable F) {f : Int → BitVec 64} {E : Env} {s : Bool} {t : Ty} (ht : tyOk t = true)
    {old v : Value} (ho : HasTy t old) (hv : HasTy t v) (hk : Keeps E s t old v) (hx : atomsAll (exact F) v = true)
    {evs : List (Ev JScalar)} (h : dump (json f) s t v = .ok evs) (pretty : Bool) :
    ∃ d, parse F (dumpText F pretty evs) = some d ∧ deser (json f) E t old d = .ok v := by
  obtain ⟨d, hd, hp⟩ := C131_parse_dump hF ht hv hx h pretty
  exact ⟨d, hp, C41_kept (json_lawful f) ht ho hv hk hd⟩

example : ∃ d, parse floats (txt "{\"a\":4,\"b\":5,\"c\":6}") = some d ∧ deser J E «open» (.record [num 1, .map []]) d =
    .ok (.record [num 4, .map [(txt "b", num 5), (txt "c", num 6)]]) := by
  refine C131_kept printable (s := true) (evs := events (obj [("a", jint 4), ("b", jint 5), ("c", jint 6)]))
    (by decide +kernel) (by decide +kernel) (by decide +kernel) ?_ (by decide +kernel) rfl false
  simp [Keeps, «open», openFields, KeepsFields, KeepsExtras, allNames, txt, Field.key, plain, omitted, num,
    isNullValue, isEmptyValue, MeetsAll, int]

/-- A `double` that is not finite is left out of the text: `dump` returns no JSON, or JSON of another document. -/
theorem C131_nonfinite_violated : ¬ ∀ (t : Ty) (v : Value), tyOk t = true → HasTy t v → ∀ evs, dump J true t v = .ok evs →
    ∃ d, parse floats (dumpText floats false evs) = some d := by
  intro h
  obtain ⟨d, hd⟩ := h (.leaf .dbl) (.atom (.dbl nan)) rfl rfl _ rfl
  cases hd

/-- The text of a vector of one such number is the text of an empty vector, in both layouts. -/
theorem C131_vanishes_violated : ¬ ∀ (v : Value), HasTy (.vec (.leaf .dbl)) v → ∀ evs, dump J true (.vec (.leaf .dbl)) v = .ok evs →
    ∀ pretty d, parse floats (dumpText floats pretty evs) = some d → ∀ w, deser J E (.vec (.leaf .dbl)) (.seq []) d = .ok w →
      w = v := by
  intro h
  have := h (.seq [.atom (.dbl nan)]) rfl _ rfl true (.arr []) rfl (.seq []) rfl
  cases this

end Verif.JsonText
