import Verif.Bounds.Props2
import Verif.Serial.Props
import Verif.Serial.Yaml

/-!
The attributes on fields of records that are read from documents (`Verif/Serial`).
-/

namespace Verif.Bounds
open Spec Verif.Enums

/-- The value of a field as `value` in the validators (serialization_attributes.hpp:137, 150, 162). -/
def heldOf : Serial.Value → Option Held
  | .atom (.bool b) => some (.plain (.int (if b then 1 else 0)))
  | .atom (.int n) => some (.plain (.int n))
  | .atom (.dbl b) => some (.plain (.dbl b))
  | .opt none => some (.opt none)
  | .opt (some (.atom (.bool b))) => some (.opt (some (.int (if b then 1 else 0))))
  | .opt (some (.atom (.int n))) => some (.opt (some (.int n)))
  | .opt (some (.atom (.dbl b))) => some (.opt (some (.dbl b)))
  | _ => none

/-- The arithmetic type of a field. -/
def typeOf : Serial.Leaf → Option Num
  | .bool => some .bool
  | .int t => some (.int t)
  | .dbl => some .dbl
  | .str => none

/-- What a validator throws, as an exception. -/
def thrown : Option String → Serial.Res Unit
  | none => .ok ()
  | some m => .error (.deser (Serial.txt m))

/-- The validator that an attribute stands for, for a field of type `t` or `std::optional<t>`
(serialization_attributes.hpp:133-169); it does not compile for other fields. -/
def validator (t : Num) (a : Attr) (v : Serial.Value) : Serial.Res Unit :=
  match heldOf v with
  | none => .error .stuck
  | some h => thrown (check t h a)

theorem txt_append (a b : String) : Serial.txt (a ++ b) = Serial.txt a ++ Serial.txt b := by
  simp [Serial.txt]

/-- A bound of the type of the field. -/
def same (t : IT) (n : Int) : Bound := ⟨.int t, .int n⟩

theorem thrown_ite {p : Bool} {m : String} : thrown (if p = true then some m else none) =
    if p = true then .error (.deser (Serial.txt m)) else .ok () := by
  cases p <;> rfl

theorem safe_self (t : IT) : Safe (.int t) (.int t) := by simp [Safe]

theorem msg_range (t : IT) (lo hi : Int) :
    Serial.txt ("value is outside allowed range [" ++ text (same t lo).val ++ ", " ++ text (same t hi).val ++
      "]") = Serial.txt "value is outside allowed range [" ++ Serial.numText lo ++ Serial.txt ", " ++
        Serial.numText hi ++ Serial.txt "]" := by
  rw [txt_append, txt_append, txt_append, txt_append]; rfl

theorem msg_ge (t : IT) (lo : Int) :
    Serial.txt ("value is less than allowed limit of " ++ text (same t lo).val) =
      Serial.txt "value is less than allowed limit of " ++ Serial.numText lo := by
  rw [txt_append]; rfl

theorem msg_le (t : IT) (hi : Int) :
    Serial.txt ("value is greater than allowed limit of " ++ text (same t hi).val) =
      Serial.txt "value is greater than allowed limit of " ++ Serial.numText hi := by
  rw [txt_append]; rfl

/-- C119: for bounds of the type of the field, the validators are those of `Verif/Serial`. -/
theorem C119_serial {E : Serial.Env} {t : IT} (ht : Known (.int t)) {n lo hi : Int} (hn : t.InRange n)
    (hl : t.InRange lo) (hh : t.InRange hi) (v : Serial.Value)
    (hv : v = .atom (.int n) ∨ v = .opt (some (.atom (.int n))) ∨ v = .opt none) :
    Serial.runValidator E v (.range lo hi) = validator (.int t) (.range (same t lo) (same t hi)) v ∧
      Serial.runValidator E v (.ge lo) = validator (.int t) (.ge (same t lo)) v ∧
      Serial.runValidator E v (.le hi) = validator (.int t) (.le (same t hi)) v := by
  have h1 : less (.int t) (.int n) (.int t) (.int lo) = decide (n < lo) := by
    rw [Bool.eq_iff_iff, less_ints ht ht hn hl (safe_self t)]; simp
  have h2 : less (.int t) (.int hi) (.int t) (.int n) = decide (n > hi) := by
    rw [Bool.eq_iff_iff, less_ints ht ht hh hn (safe_self t)]; simp
  have g1 : ∀ h, heldOf v = some h → heldLess (.int t) (same t lo) h = Serial.valueLt v lo := by
    rcases hv with rfl | rfl | rfl <;> intro h hh <;> cases hh <;>
      first | exact h1 | rfl
  have g2 : ∀ h, heldOf v = some h → heldGreater (.int t) (same t hi) h = Serial.valueGt v hi := by
    rcases hv with rfl | rfl | rfl <;> intro h hh <;> cases hh <;>
      first | exact h2 | rfl
  obtain ⟨h, hh⟩ : ∃ h, heldOf v = some h := by
    rcases hv with rfl | rfl | rfl <;> exact ⟨_, rfl⟩
  refine ⟨?_, ?_, ?_⟩
  · rw [validator, hh]
    simp only [check]
    rw [thrown_ite, g1 h hh, g2 h hh, msg_range]; rfl
  · rw [validator, hh]
    simp only [check]
    rw [thrown_ite, g1 h hh, msg_ge]; rfl
  · rw [validator, hh]
    simp only [check]
    rw [thrown_ite, g2 h hh, msg_le]; rfl

example : Known (.int ⟨false, 8⟩) ∧ (⟨false, 8⟩ : IT).InRange 200 := ⟨.inl rfl, by decide⟩

theorem leaf_typed : ∀ {fs : Serial.Fields} {vs : List Serial.Value} {j : Nat} {f : Serial.Field}
    {t : Serial.Ty} {w : Serial.Value}, Serial.Spec.hasFields fs vs = true →
    (Serial.Spec.fieldList fs)[j]? = some (f, t) → vs[j]? = some w → Serial.Spec.HasTy t w
  | .nil, _, _, _, _, _, _, h, _ => by simp [Serial.Spec.fieldList] at h
  | .cons f t fs, vs, j, _, _, w, h, hj, hw => by
    obtain ⟨v, ws, rfl, h1, h2⟩ := Serial.hasFields_cons h
    cases j with
    | zero =>
      simp [Serial.Spec.fieldList] at hj hw
      obtain ⟨-, rfl⟩ := hj
      exact hw ▸ h1
    | succ j =>
      simp [Serial.Spec.fieldList] at hj hw
      exact leaf_typed h2 hj hw

/-- C119: a field that was read, from a member that is there, is within its bounds or `nan`. -/
theorem C119_field {σ : Type} {B : Serial.Backend σ} (hB : Serial.Spec.Lawful B) {E : Serial.Env} {n : Path.Str}
    {fs : Serial.Fields} (ht : Serial.Spec.tyOk (.record n fs) = true) {old v : Serial.Value}
    {ms : List (Path.Str × Serial.Doc σ)} (ho : Serial.Spec.HasTy (.record n fs) old)
    (h : Serial.deser B E (.record n fs) old (.obj ms) = .ok v) {j : Nat} {f : Serial.Field} {l : Serial.Leaf}
    (hj : (Serial.Spec.fieldList fs)[j]? = some (f, .leaf l)) (hp : Serial.Spec.plain f = true)
    {d : Serial.Doc σ} (hd : Serial.Spec.ReadFrom ms f d) (hn : d ≠ .null ∨ f.defaults = [])
    {t : Num} (hl : typeOf l = some t) (hk : Known t) {id : Nat} {a : Attr} (hf : Fit t a)
    (hid : .user id ∈ f.validators) (hE : E.validator id = validator t a) :
    ∃ vs w x, v = .record vs ∧ vs[j]? = some w ∧ heldOf w = some (.plain x) ∧
      (Within (exact x) a ∨ exact x = .nan) := by
  obtain ⟨vs, w, rfl, hw, hm⟩ := Serial.C47_present ht h hj hp hd hn
  have hty := Serial.C77_deserialize hB ht ho h
  have hwt : Serial.Spec.HasTy (.leaf l) w := leaf_typed hty hj hw
  have hok := hm _ hid
  simp only [Serial.Spec.Meets, hE, validator] at hok
  have key : ∃ x, heldOf w = some (.plain x) ∧ HasType x t := by
    cases w with
    | atom b =>
      cases l <;> cases b <;> simp [Serial.Spec.HasTy, Serial.Spec.hasTy, Serial.Spec.hasLeaf] at hwt <;>
        simp [typeOf] at hl <;> subst hl
      · exact ⟨_, rfl, .bool (by split <;> simp)⟩
      · exact ⟨_, rfl, .int hwt⟩
      · exact ⟨_, rfl, .dbl⟩
    | _ => simp [Serial.Spec.HasTy, Serial.Spec.hasTy] at hwt
  obtain ⟨x, hx, hxt⟩ := key
  refine ⟨vs, w, x, rfl, hw, hx, ?_⟩
  rw [hx] at hok
  by_cases hnan : exact x = .nan
  · exact .inr hnan
  · refine .inl ((C119_accepts hxt hk hf hnan).1 ?_)
    cases hc : check t (.plain x) a with
    | none => rfl
    | some m => simp [hc, thrown] at hok

/-- A record with `(ratio, range(0.0, 1.0))` (serialization_test.cpp:279). -/
def ratio : Serial.Fields :=
  .cons { name := Serial.txt "ratio", init := .atom (.dbl 0#64), validators := [.user 0] } (.leaf .dbl) .nil

def ratioEnv : Serial.Env := ⟨fun _ => validator .dbl unitInterval⟩

/-- What is read for `{"ratio": x}`. -/
def readRatio (x : BitVec 64) : Except Serial.Exc (Option Serial.Atom) :=
  (Serial.deser (Serial.json fun _ => 0#64) ratioEnv (.record [] ratio) (.record [.atom (.dbl 0#64)])
    (.obj [(Serial.txt "ratio", .scalar (.dbl x))])).map fun
      | .record [.atom a] => some a
      | _ => none

/-- 0.5 is read and 1.5 is not. -/
example : (readRatio 0x3FE0000000000000#64).toOption = some (some (.dbl 0x3FE0000000000000#64)) ∧
    (readRatio 0x3FF8000000000000#64).toOption = none := by decide +kernel

example : Serial.Spec.tyOk (.record [] ratio) = true ∧
    ratioEnv.validator 0 = validator .dbl unitInterval :=
  ⟨by decide +kernel, rfl⟩

/-- Conversions of `double`s that know `.nan` as yaml-cpp's do. -/
def nanConv : Serial.Yaml.Conv where
  dblText _ := Serial.txt "0"
  asDbl s := if s = Serial.txt ".nan" then some 0x7FF8000000000000#64 else none

/-- C119 (violated): `ratio: .nan` is read from YAML in spite of `range(0.0, 1.0)`. -/
theorem C119_yaml_nan_violated :
    Serial.deser (Serial.yaml nanConv) ratioEnv (.record [] ratio) (.record [.atom (.dbl 0#64)])
      (.obj [(Serial.txt "ratio", .scalar ⟨Serial.txt ".nan", none⟩)]) =
      .ok (.record [.atom (.dbl 0x7FF8000000000000#64)]) ∧
    ¬ Within (exact (.dbl 0x7FF8000000000000#64)) unitInterval :=
  ⟨rfl, (C119_nan_violated .dbl (by decide +kernel) (a := unitInterval) (by
    intro b hb
    simp [bounds, unitInterval] at hb
    rcases hb with rfl | rfl <;> exact .dbl)).2⟩

end Verif.Bounds
