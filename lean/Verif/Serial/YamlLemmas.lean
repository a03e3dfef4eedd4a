import Verif.Serial.Yaml
import Verif.Serial.Append
import Verif.Serial.JsonLemmas
/-
Lemmas: the YAML backend's leaves.
-/
namespace Verif.Serial
open Verif.Path Verif.Enums Spec

namespace Yaml

/-! ### Integers -/

/-- The character of a decimal digit. -/
def dchar (n : Nat) : BitVec 8 := BitVec.ofNat 8 (48 + n)

theorem dchar_toNat {n : Nat} (h : n < 10) : (dchar n).toNat = 48 + n := by
  simp only [dchar, BitVec.toNat_ofNat]
  omega

theorem dchar_val {n : Nat} (h : n < 10) : digitVal (dchar n) = n := by
  unfold digitVal
  rw [dchar_toNat h, if_pos (by omega)]
  omega

theorem dchar_zero {n : Nat} (h : n < 10) (h0 : n ≠ 0) : dchar n ≠ 0x30#8 := by
  intro hc
  have := congrArg BitVec.toNat hc
  rw [dchar_toNat h] at this
  simp at this
  exact h0 this

theorem dchar_sign {n : Nat} (h : n < 10) : dchar n ≠ 0x2D#8 ∧ dchar n ≠ 0x2B#8 := by
  constructor <;> intro hc <;> have := congrArg BitVec.toNat hc <;> rw [dchar_toNat h] at this <;> simp at this <;>
    omega

theorem digits_eq (n : Nat) : digits n = if n < 10 then [dchar n] else digits (n / 10) ++ [dchar (n % 10)] := by
  rw [digits]; rfl

theorem digits_all (n : Nat) : ∀ c ∈ digits n, ∃ k, k < 10 ∧ c = dchar k := by
  induction n using Nat.strongRecOn with
  | ind n ih =>
    rw [digits_eq]
    split
    · rename_i h
      intro c hc
      simp only [List.mem_singleton] at hc
      exact ⟨n, h, hc⟩
    · intro c hc
      simp only [List.mem_append, List.mem_singleton] at hc
      rcases hc with hc | hc
      · exact ih (n / 10) (by omega) c hc
      · exact ⟨n % 10, by omega, hc⟩

theorem digits_head (n : Nat) : ∃ k r, k < 10 ∧ digits n = dchar k :: r ∧ (n ≠ 0 → k ≠ 0) ∧ (n = 0 → r = []) := by
  induction n using Nat.strongRecOn with
  | ind n ih =>
    rw [digits_eq]
    split
    · rename_i h; exact ⟨n, [], h, rfl, id, fun _ => rfl⟩
    · obtain ⟨k, r, h1, h2, h3, h4⟩ := ih (n / 10) (by omega)
      exact ⟨k, r ++ [dchar (n % 10)], h1, by rw [h2]; simp, fun _ => h3 (by omega), fun h => by omega⟩

theorem digits_value (n : Nat) : (digits n).foldl (fun m c => m * 10 + digitVal c) 0 = n := by
  induction n using Nat.strongRecOn with
  | ind n ih =>
    rw [digits_eq]
    split
    · rename_i h; simp [dchar_val h]
    · rw [List.foldl_append, ih (n / 10) (by omega)]
      simp only [List.foldl_cons, List.foldl_nil, dchar_val (show n % 10 < 10 by omega)]
      omega

theorem takeWhile_all {α : Type} {p : α → Bool} : ∀ {l : List α}, (∀ x ∈ l, p x = true) → l.takeWhile p = l
  | [], _ => rfl
  | x :: l, h => by
    rw [List.takeWhile_cons, if_pos (h x (by simp)), takeWhile_all fun y hy => h y (by simp [hy])]

theorem natOf_digits (n : Nat) : natOf (digits n) = some n := by
  obtain ⟨k, r, h1, h2, h3, h4⟩ := digits_head n
  have hb : baseOf (digits n) = (10, digits n) := by
    rw [h2]
    cases r with
    | nil => rfl
    | cons x r =>
      have : n ≠ 0 := fun h => by cases h4 h
      simp only [baseOf]
      rw [if_neg (dchar_zero h1 (h3 this))]
  have ht : (digits n).takeWhile (fun c => decide (digitVal c < 10)) = digits n := by
    apply takeWhile_all
    intro c hc
    obtain ⟨j, hj, rfl⟩ := digits_all n c hc
    simp [dchar_val hj, hj]
  simp only [natOf, hb, ht]
  rw [if_neg (by rw [h2]; simp)]
  simp [digits_value]

theorem intOf_text (n : Int) : intOf (intText n) = some n := by
  unfold intText
  by_cases hn : n < 0
  · rw [if_pos hn]
    have h : intOf (0x2D#8 :: digits n.natAbs) = some (-(n.natAbs : Int)) := by simp [intOf, natOf_digits]
    refine h.trans ?_
    congr 1; omega
  · rw [if_neg hn]
    obtain ⟨k, r, h1, h2, -, -⟩ := digits_head n.natAbs
    have h := natOf_digits n.natAbs
    rw [h2] at h ⊢
    simp only [intOf]
    rw [if_neg (dchar_sign h1).1, if_neg (dchar_sign h1).2, h]
    show some (n.natAbs : Int) = some n
    congr 1; omega

theorem intText_minus {n : Int} (h : ¬ n < 0) : (intText n).head? ≠ some 0x2D#8 := by
  obtain ⟨k, r, h1, h2, -, -⟩ := digits_head n.natAbs
  rw [intText, if_neg h, h2]
  simpa using (dchar_sign h1).1

theorem asInt_text {t : IT} {n : Int} (h : t.InRange n) : asInt t (intText n) = some n := by
  unfold asInt
  rw [if_neg]
  · simp [intOf_text, h]
  · rintro ⟨h1, h2⟩
    refine intText_minus ?_ h2
    unfold IT.InRange at h
    rw [h1] at h
    simp only [Bool.false_eq_true, if_false] at h
    omega

theorem asInt_range {t : IT} {s : Str} {n : Int} (h : asInt t s = some n) : t.InRange n := by
  unfold asInt at h
  split at h
  · cases h
  · split at h
    · cases h
    · split at h
      · cases h; assumption
      · cases h

/-! ### The backend -/

theorem convert_ok {α : Type} {f : Str → Option α} {d : YDoc} {a : α} :
    convert f d = .ok a ↔ ∃ s, d = .scalar s ∧ f s.text = some a := by
  cases d with
  | scalar s =>
    simp only [convert, expectScalar]
    cases hf : f s.text with
    | none => simp [hf]
    | some b =>
      simp only [Except.ok.injEq]
      constructor
      · rintro rfl; exact ⟨s, rfl, hf⟩
      · rintro ⟨s', h, h'⟩; cases h; rw [hf] at h'; cases h'; rfl
  | _ => simp [convert, expectScalar]

theorem convert_err {α : Type} {f : Str → Option α} {d : YDoc} {e : Exc} :
    convert f d = .error e ↔
      ((∀ s, d ≠ .scalar s) ∧ e = .deser (txt "type must be a scalar but is a " ++ typeName d)) ∨
      ∃ s, d = .scalar s ∧ f s.text = none ∧ e = .deser (badConversion s) := by
  cases d with
  | scalar s =>
    simp only [convert, expectScalar]
    cases hf : f s.text with
    | none => simp [hf, eq_comm]
    | some b => simp [hf]
  | _ => simp [convert, expectScalar, eq_comm]

theorem asBool_text (b : Bool) : asBool (if b then txt "true" else txt "false") = some b := by
  cases b <;> decide +kernel

theorem setField_new {ms : List (Str × YDoc)} {k : Str} {d : YDoc} (h : NoMember ms k) :
    setField ms k d = ms ++ [(k, d)] := by
  induction ms with
  | nil => rfl
  | cons m ms ih =>
    have h' := NoMember.cons.1 h
    simp only [setField]
    rw [if_neg h'.1, ih h'.2]; rfl

end Yaml

/-- Doubles survive: what `dblText` writes, `asDbl` reads. -/
def Spec.Faithful (c : Yaml.Conv) : Prop := ∀ b, c.asDbl (c.dblText b) = some b

theorem yaml_appends (c : Yaml.Conv) : AppendsNew (yaml c) := fun _ _ _ h => Yaml.setField_new h

theorem yaml_lawful {c : Yaml.Conv} (hc : Faithful c) : Lawful (appending (yaml c)) where
  add _ _ _ := rfl
  dump _ _ := rfl
  leaf l a hl ha := by
    cases l with
    | bool =>
      cases a <;> simp [hasLeaf] at ha
      simp [appending, yaml, Yaml.deserLeaf, Yaml.serLeaf, Yaml.convert, Yaml.expectScalar, Yaml.asBool_text,
        Except.map]
    | int t =>
      cases a <;> simp [hasLeaf] at ha
      simp [appending, yaml, Yaml.deserLeaf, Yaml.serLeaf, Yaml.convert, Yaml.expectScalar, Yaml.asInt_text ha,
        Except.map]
    | dbl =>
      cases a <;> simp [hasLeaf] at ha
      rename_i b
      simp [appending, yaml, Yaml.deserLeaf, Yaml.serLeaf, Yaml.convert, Yaml.expectScalar, hc b, Except.map]
    | str =>
      cases a <;> simp [hasLeaf] at ha
      simp [appending, yaml, Yaml.deserLeaf, Yaml.serLeaf, Yaml.expectScalar, Except.map]
  null l := by
    cases l <;> exact ⟨_, rfl⟩
  typed l d a hl h := by
    cases l with
    | bool =>
      simp only [appending, yaml, Yaml.deserLeaf, map_ok] at h
      obtain ⟨b, -, rfl⟩ := h; rfl
    | int t =>
      simp only [appending, yaml, Yaml.deserLeaf, map_ok, Yaml.convert_ok] at h
      obtain ⟨n, ⟨s, -, hs⟩, rfl⟩ := h
      simpa [hasLeaf] using Yaml.asInt_range hs
    | dbl =>
      simp only [appending, yaml, Yaml.deserLeaf, map_ok] at h
      obtain ⟨b, -, rfl⟩ := h; rfl
    | str =>
      simp only [appending, yaml, Yaml.deserLeaf, map_ok] at h
      obtain ⟨b, -, rfl⟩ := h; rfl
  polite l d e h := by
    cases l with
    | str =>
      simp only [appending, yaml, Yaml.deserLeaf, map_error] at h
      cases d <;> simp [Yaml.expectScalar] at h <;> exact ⟨_, h.symm⟩
    | _ =>
      simp only [appending, yaml, Yaml.deserLeaf, map_error, Yaml.convert_err] at h
      rcases h with ⟨-, h⟩ | ⟨s, -, -, h⟩ <;> exact ⟨_, h⟩

end Verif.Serial
