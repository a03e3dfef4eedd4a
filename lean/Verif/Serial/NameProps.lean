import Verif.Serial.NameCheck

/-! C127: the check of field names at compile time. -/
namespace Verif.Serial
open Verif.Path Spec Sample

/-- The check of the names that are written is a constant expression (its buffer is large enough, and no string is
read past its end), and it holds iff the names, as C strings, are different. -/
theorem C127_serialize {fs : Fields} (hf : flatOk (fun f => f.skipSer || f.extra) fs = true) :
    ∃ b, validateNames serPass fs = .ok b ∧ (b = true ↔ ((outNames fs).map cText).Nodup) := by
  rw [← passNames_ser]
  exact validate_spec serPass hf (serEnough fs)

/-- … and so is that of the names, with aliases, that are read. -/
theorem C127_deserialize {fs : Fields} (hf : flatOk (fun f => f.skipDeser || f.extra) fs = true)
    (ha : aliasesFit fs = true) :
    ∃ b, validateNames deserPass fs = .ok b ∧ (b = true ↔ ((inNames fs).map cText).Nodup) := by
  rw [← passNames_deser]
  exact validate_spec deserPass hf (deserEnough fs ha)

/-- What is flattened and not skipped has to be a struct, else the program is ill-formed. -/
theorem C127_flatten (p : Pass) {fs : Fields} (hf : flatOk p.skip fs = false) :
    validateNames p fs = .error .notReflectable := by
  simp only [validateNames, count_bad p fs hf]

/-- `cstring_equal` compares texts, and never reads past a terminating zero. -/
theorem C127_equal (a b : Str) : cstringEqual (cString a) (cString b) = some (cText a == cText b) :=
  cstringEqual_eq a b

deriving instance DecidableEq for Except

namespace Sample

/-- `struct { int32_t x; struct { int32_t y, z; } flat; int8_t w; }`, with `flat` flattened and aliases for `w`. -/
def flatFields : Fields := .cons { name := txt "y", init := num 0 } (int i32)
  (.cons { name := txt "z", init := num 0, rename := some (txt "zz") } (int i32) .nil)
def aliased (w : String) (al : List Str) : Fields := .cons { name := txt "x", init := num 0 } (int i32)
  (.cons { name := txt "flat", init := num 0, flatten := true } (.record (txt "inner") flatFields)
  (.cons { name := txt w, init := num 0, aliases := al } (int i8) .nil))
end Sample
open Sample

example : flatOk (fun f => f.skipSer || f.extra) (aliased "w" []) = true ∧
    aliasesFit (aliased "w" (List.replicate 8 (txt "a"))) = true := by decide +kernel
example : validateNames serPass (aliased "w" []) = .ok true := by decide +kernel
/- The name of a flattened field again. -/
example : validateNames serPass (aliased "zz" []) = .ok false := by decide +kernel
/- … which is fine for the member that is renamed. -/
example : validateNames serPass (aliased "z" []) = .ok true := by decide +kernel
/- Aliases count for reading only. -/
example : validateNames serPass (aliased "w" [txt "x"]) = .ok true ∧
    validateNames deserPass (aliased "w" [txt "x"]) = .ok false := by decide +kernel
/- As many aliases as there may be. -/
example : validateNames deserPass (aliased "w" (["1", "2", "3", "4", "5", "6", "7", "8"].map txt)) = .ok true := by
  decide +kernel
/- What `aliases_t` prevents: with nine the buffer would overflow (there are no other fields with aliases). -/
example : validateNames deserPass
    (.cons { name := txt "w", init := num 0, aliases := ["1", "2", "3", "4", "5", "6", "7", "8", "9"].map txt } (int i8) .nil) =
      .error .overflow := by decide +kernel
example : validateNames serPass (.cons { name := txt "v", init := num 0, flatten := true } (int i8) .nil) =
    .error .notReflectable := by decide +kernel
/- Strings count up to their first zero. -/
example : validateNames serPass (.cons { name := txt "x", init := num 0 } (int i32)
    (.cons { name := txt "y", init := num 0, rename := some [120#8, 0#8, 121#8] } (int i32) .nil)) = .ok false := by
  decide +kernel

end Verif.Serial
