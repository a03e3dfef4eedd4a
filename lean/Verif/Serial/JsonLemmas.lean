import Verif.Serial.DumpLemmas
/-
Lemmas: the JSON backend's leaves.
-/
namespace Verif.Serial
open Verif.Path Verif.Enums Spec

namespace Json

theorem sub_int32 {t : IT} (hw : t.WF) (hs : t.signed = true) (h8 : t.w / 8 < 8) {n : Int}
    (h : t.InRange n) : int32.InRange n := by
  obtain ⟨sg, w⟩ := t
  simp only at hs h8
  subst hs
  simp only [IT.InRange, if_true, int32] at h ⊢
  rcases hw with hw | hw | hw | hw <;> simp only at hw <;> subst hw <;>
    simp only [Nat.reduceSub, Nat.reducePow, Int.reducePow, Int.reduceNeg] at h ⊢ <;> omega

theorem sub_uint32 {t : IT} (hw : t.WF) (hs : t.signed = false) (h8 : t.w / 8 < 8) {n : Int}
    (h : t.InRange n) : uint32.InRange n := by
  obtain ⟨sg, w⟩ := t
  simp only at hs h8
  subst hs
  simp only [IT.InRange, Bool.false_eq_true, if_false, uint32] at h ⊢
  rcases hw with hw | hw | hw | hw <;> simp only at hw <;> subst hw <;>
    simp only [Nat.reducePow, Int.reducePow] at h ⊢ <;> omega

theorem conv_inRange {t : IT} (hw : t.WF) (n : Int) : t.InRange (t.conv n) := by
  obtain ⟨sg, w⟩ := t
  unfold IT.conv IT.InRange
  cases sg
  · simp only [Bool.false_eq_true, if_false]
    rcases hw with hw | hw | hw | hw <;> simp only at hw <;> subst hw <;>
      simp only [Nat.reducePow, Int.reducePow] <;> omega
  · simp only [if_true]
    rcases hw with hw | hw | hw | hw <;> simp only at hw <;> subst hw <;>
      simp only [Int.bmod_def, Nat.reduceSub, Nat.reducePow, Int.reducePow] <;> omega

theorem narrow_ok {t s : IT} (hw : t.WF) (hsw : s.WF) (sub : ∀ m, t.InRange m → s.InRange m)
    {n m : Int} : narrow t s n = .ok m ↔ m = n ∧ t.InRange n := by
  unfold narrow lossy
  have hc := conv_inRange hw n
  have h1 : s.conv (t.conv n) = t.conv n := conv_of_inRange hsw (sub _ hc)
  rw [h1]
  by_cases h : t.conv n = n
  · rw [if_neg (by simp [h])]
    simp only [Except.ok.injEq]
    constructor
    · rintro rfl; exact ⟨h, by rw [← h]; exact hc⟩
    · rintro ⟨rfl, -⟩; exact h
  · rw [if_pos h]
    simp only [reduceCtorEq, false_iff]
    rintro ⟨rfl, hr⟩
    exact h (conv_of_inRange hw hr)

theorem narrow_err {t s : IT} {n : Int} {e : Exc} (h : narrow t s n = .error e) : ∃ w, e = .deser w := by
  unfold narrow lossy at h
  split at h
  · cases h; exact ⟨_, rfl⟩
  · cases h

theorem deserInt_ok {t : IT} (hw : t.WF) (d : JDoc) (m : Int) :
    deserInt t d = .ok m ↔ d = .scalar (.int m) ∧ t.InRange m := by
  unfold deserInt
  split
  case h_2 d hd =>
    simp only [reduceCtorEq, false_iff]
    rintro ⟨rfl, -⟩
    exact hd m rfl
  case h_1 n =>
    have key : ∀ r : Res Int, (r = .ok m ↔ m = n ∧ t.InRange n) →
        (r = .ok m ↔ (Doc.scalar (.int n) : JDoc) = .scalar (.int m) ∧ t.InRange m) := by
      intro r h
      rw [h]
      constructor
      · rintro ⟨rfl, h'⟩; exact ⟨rfl, h'⟩
      · rintro ⟨h1, h'⟩; cases h1; exact ⟨rfl, h'⟩
    apply key
    have hsg : t.signed = true ∨ t.signed = false := by cases t.signed <;> simp
    have hle : t.w / 8 < 8 ∨ t.w / 8 = 8 := by
      rcases hw with hw | hw | hw | hw <;> rw [hw] <;> decide
    have eq64 : t.w / 8 = 8 → t.w = 64 := by
      intro h; rcases hw with hw | hw | hw | hw <;> rw [hw] at h ⊢ <;> revert h <;> decide
    rcases hsg with hs | hs <;> rcases hle with h8 | h8
    · have sub := fun m => sub_int32 hw hs h8 (n := m)
      simp only [hs, h8, and_self, if_true]
      by_cases hr : int32.InRange n
      · simp only [hr, true_or, if_true]
        exact narrow_ok hw (by simp [IT.WF, int32]) sub
      · simp only [hr, if_false]
        have hn : ¬ t.InRange n := fun h => hr (sub _ h)
        split <;> simp [hn, lossy]
    · have e64 : t = int64 := by
        obtain ⟨a, b⟩ := t
        simp only at hs h8 eq64
        rw [hs, eq64 h8]; rfl
      subst e64
      simp only [hs, h8, Nat.lt_irrefl, and_false, if_false, true_and, and_self, if_true,
        Bool.false_eq_true, false_and, not_false_eq_true]
      by_cases hr : int64.InRange n
      · simp only [hr, true_or, or_true, if_true, Except.ok.injEq, and_true]
        exact eq_comm
      · simp only [hr, if_false, lossy, and_false, iff_false]
        split <;> simp
    · have sub := fun m => sub_uint32 hw hs h8 (n := m)
      simp only [hs, h8, Bool.false_eq_true, false_and, not_false_eq_true, and_self, if_true, if_false]
      by_cases hr : uint32.InRange n
      · simp only [hr, true_or, or_true, if_true]
        exact narrow_ok hw (by simp [IT.WF, uint32]) sub
      · simp only [hr, if_false]
        have hn : ¬ t.InRange n := fun h => hr (sub _ h)
        split <;> simp [hn, lossy]
    · have e64 : t = uint64 := by
        obtain ⟨a, b⟩ := t
        simp only at hs h8 eq64
        rw [hs, eq64 h8]; rfl
      subst e64
      simp only [hs, h8, Nat.lt_irrefl, and_false, if_false, true_and, and_self, if_true,
        Bool.false_eq_true, false_and, not_false_eq_true]
      by_cases hr : uint64.InRange n
      · simp only [hr, true_or, or_true, if_true, Except.ok.injEq, and_true]
        exact eq_comm
      · simp only [hr, if_false, lossy, and_false, iff_false]
        split <;> simp

theorem deserInt_err {t : IT} {d : JDoc} {e : Exc} (h : deserInt t d = .error e) : ∃ w, e = .deser w := by
  unfold deserInt lossy at h
  repeat' split at h
  all_goals first
    | cases h; exact ⟨_, rfl⟩
    | exact narrow_err h
    | cases h

end Json

theorem json_lawful (ofInt : Int → BitVec 64) : Lawful (json ofInt) where
  add _ _ _ := rfl
  dump l a := by cases l <;> cases a <;> rfl
  leaf l a hl h := by
    cases l <;> cases a <;> simp only [hasLeaf, Bool.false_eq_true] at h <;> try rfl
    case int t n =>
      simp only [tyOk, decide_eq_true_eq] at hl h
      show (Json.deserInt t (.scalar (.int n))).map Atom.int = _
      rw [(Json.deserInt_ok hl _ n).2 ⟨rfl, h⟩]; rfl
  null l := by cases l <;> exact ⟨_, rfl⟩
  typed l d a hl h := by
    cases l <;> simp only [json, Json.deserLeaf] at h
    case int t =>
      cases hr : Json.deserInt t d with
      | error e => rw [hr] at h; cases h
      | ok n =>
        rw [hr] at h; cases h
        simp only [tyOk, decide_eq_true_eq] at hl
        simp [hasLeaf, ((Json.deserInt_ok hl d n).1 hr).2]
    all_goals
      revert h
      first
        | cases Json.deserBool d <;> intro h <;> cases h <;> rfl
        | cases Json.deserDbl ofInt d <;> intro h <;> cases h <;> rfl
        | cases Json.deserStr d <;> intro h <;> cases h <;> rfl
  polite l d e h := by
    cases l <;> simp only [json, Json.deserLeaf] at h
    case int t =>
      cases hr : Json.deserInt t d with
      | error e => rw [hr] at h; cases h; exact Json.deserInt_err hr
      | ok n => rw [hr] at h; cases h
    case bool =>
      unfold Json.deserBool at h
      split at h <;> cases h
      exact ⟨_, rfl⟩
    case dbl =>
      unfold Json.deserDbl at h
      split at h <;> cases h
      exact ⟨_, rfl⟩
    case str =>
      unfold Json.deserStr at h
      split at h <;> cases h
      exact ⟨_, rfl⟩

end Verif.Serial
