import Verif.Enums.Model

/-! Auxiliary facts about the enum model. -/

namespace Verif.Enums

variable {s : Bool} {w : Nat}

/-! ### Bits of promoted operands -/

theorem getLsbD_promo (x : BitVec w) {i : Nat} (h : i < w) :
    (promo s x).getLsbD i = x.getLsbD i := by
  unfold promo
  cases s <;> simp [BitVec.getLsbD_setWidth, BitVec.getLsbD_signExtend, h] <;> omega

theorem demo_promo (x : BitVec w) : demo (promo s x) = x := by
  apply BitVec.eq_of_getLsbD_eq
  intro i h
  simp [demo, getLsbD_promo, h]

theorem promo_inj {x y : BitVec w} : promo s x = promo s y ↔ x = y := by
  constructor
  · intro h
    rw [← demo_promo (s := s) x, h, demo_promo]
  · intro h; rw [h]

theorem promo_zero : promo s (0#w) = 0 := by
  unfold promo
  cases s
  · simp
  · apply BitVec.eq_of_getLsbD_eq
    intro i h
    simp [BitVec.getLsbD_signExtend, BitVec.msb_zero]

theorem promo_eq_zero {x : BitVec w} : promo s x = 0 ↔ x = 0#w := by
  rw [← promo_zero (s := s) (w := w), promo_inj]

theorem and_eq (x y : EnumSet s w) : x.and y = ⟨x.value &&& y.value⟩ := by
  unfold EnumSet.and EnumSet.underlying
  congr 1
  apply BitVec.eq_of_getLsbD_eq
  intro i h
  simp [demo, getLsbD_promo, h]

theorem or_eq (x y : EnumSet s w) : x.or y = ⟨x.value ||| y.value⟩ := by
  unfold EnumSet.or EnumSet.underlying
  congr 1
  apply BitVec.eq_of_getLsbD_eq
  intro i h
  simp [demo, getLsbD_promo, h]

theorem xor_eq (x y : EnumSet s w) : x.xor y = ⟨x.value ^^^ y.value⟩ := by
  unfold EnumSet.xor EnumSet.underlying
  congr 1
  apply BitVec.eq_of_getLsbD_eq
  intro i h
  simp [demo, getLsbD_promo, h]

theorem not_eq (x : EnumSet s w) : x.not = ⟨~~~ x.value⟩ := by
  unfold EnumSet.not EnumSet.underlying
  congr 1
  apply BitVec.eq_of_getLsbD_eq
  intro i h
  simp [demo, getLsbD_promo, h]
  omega

theorem maskOr_eq (x y : BitVec w) : maskOr s x y = x ||| y := by
  apply BitVec.eq_of_getLsbD_eq
  intro i h
  simp [maskOr, demo, getLsbD_promo, h]

theorem maskAnd_eq (x y : BitVec w) : maskAnd s x y = x &&& y := by
  apply BitVec.eq_of_getLsbD_eq
  intro i h
  simp [maskAnd, demo, getLsbD_promo, h]

theorem maskXor_eq (x y : BitVec w) : maskXor s x y = x ^^^ y := by
  apply BitVec.eq_of_getLsbD_eq
  intro i h
  simp [maskXor, demo, getLsbD_promo, h]

theorem maskNot_eq (x : BitVec w) : maskNot s x = ~~~ x := by
  apply BitVec.eq_of_getLsbD_eq
  intro i h
  simp [maskNot, demo, getLsbD_promo, h]
  omega

theorem promo_and (x y : BitVec w) : promo s x &&& promo s y = promo s (x &&& y) := by
  unfold promo
  cases s
  · simp [BitVec.setWidth_and]
  · simp [BitVec.signExtend_and]

theorem beq_iff (x y : EnumSet s w) : x.beq y = true ↔ x = y := by
  cases x; cases y
  simp [EnumSet.beq, promo_inj]

/-! ### Integer conversions -/

theorem conv_nonneg_le (t : IT) (n : Nat) : t.conv n ≤ n := by
  unfold IT.conv
  split
  · have hp : 0 < 2 ^ t.w := Nat.two_pow_pos _
    rw [Int.bmod_def]
    have h1 : (n : Int) % ((2 ^ t.w : Nat) : Int) ≤ n := by
      exact_mod_cast Nat.mod_le n (2 ^ t.w)
    split <;> omega
  · exact_mod_cast Nat.mod_le n (2 ^ t.w)

theorem conv_zero (t : IT) : t.conv 0 = 0 := by
  unfold IT.conv
  split <;> simp

/-- Widths of the integer types an enum can have as underlying type. -/
def IT.WF (t : IT) : Prop := t.w = 8 ∨ t.w = 16 ∨ t.w = 32 ∨ t.w = 64

instance (t : IT) : Decidable t.WF := by unfold IT.WF; infer_instance

theorem conv_of_inRange {t : IT} (hw : t.WF) {v : Int} (h : t.InRange v) : t.conv v = v := by
  obtain ⟨sg, w⟩ := t
  unfold IT.conv
  unfold IT.InRange at h
  cases sg
  · simp only [Bool.false_eq_true, if_false] at h ⊢
    exact Int.emod_eq_of_lt h.1 h.2
  · simp only [if_true] at h ⊢
    rcases hw with hw | hw | hw | hw <;> simp only at hw <;> subst hw <;>
      simp only [Int.bmod_def, Nat.reduceSub, Nat.reducePow, Int.reducePow] at h ⊢ <;> omega

/-! ### Ordinary tables -/

theorem sortedFrom_get : ∀ (l : List Entry) (c : Int), sortedFrom c l = true →
    (∀ i (hi : i < l.length), c + i + 1 ≤ l[i].value) ∧
    (∀ i j (hi : i < l.length) (hj : j < l.length), i ≤ j →
      l[i].value + (j - i : Int) ≤ l[j].value)
  | [], _, _ => ⟨by simp, by simp⟩
  | e :: rest, c, h => by
    unfold sortedFrom at h
    split at h
    · cases h
    · rename_i hlt
      obtain ⟨h1, h2⟩ := sortedFrom_get rest e.value h
      refine ⟨?_, ?_⟩
      · intro i hi
        cases i with
        | zero => simp; omega
        | succ k =>
          have := h1 k (by simpa using hi)
          simp only [List.getElem_cons_succ]
          omega
      · intro i j hi hj hij
        cases i with
        | zero =>
          cases j with
          | zero => simp
          | succ k =>
            have := h1 k (by simpa using hj)
            simp only [List.getElem_cons_zero, List.getElem_cons_succ]
            omega
        | succ k =>
          cases j with
          | zero => omega
          | succ m =>
            have := h2 k m (by simpa using hi) (by simpa using hj) (by omega)
            simp only [List.getElem_cons_succ]
            omega

theorem isOrdinary_get {t : IT} {rng : List Entry} (h : isOrdinary t rng = some true) :
    ∀ i (hi : i < rng.length), rng[i].value = i := by
  cases rng with
  | nil => simp
  | cons e rest =>
    unfold isOrdinary at h
    simp only at h
    have hlast : (e :: rest)[(e :: rest).length - 1]? =
        some ((e :: rest)[(e :: rest).length - 1]'(by simp)) := List.getElem?_eq_getElem (by simp)
    rw [hlast] at h
    simp only at h
    split at h
    · cases h
    · rename_i hne
      simp only [not_or, Decidable.not_not] at hne
      obtain ⟨h0, hl⟩ := hne
      rw [conv_zero] at h0
      have hle := conv_nonneg_le t ((e :: rest).length - 1)
      rw [← hl] at hle
      have hs : sortedFrom (-1) (e :: rest) = true := by
        unfold sortedFrom
        rw [if_neg (by omega)]
        simpa using h
      obtain ⟨h1, h2⟩ := sortedFrom_get _ _ hs
      intro i hi
      have a := h1 i hi
      have b := h2 i ((e :: rest).length - 1) hi (by simp) (by omega)
      omega

theorem searchName_eq (v : Int) (d : String) (rng : List Entry) :
    searchName v d rng = ((rng.find? fun e => e.value = v).map Entry.name).getD d := by
  induction rng with
  | nil => rfl
  | cons e rest ih =>
    unfold searchName
    by_cases h : e.value = v <;> simp [List.find?_cons, h, ih]

theorem isOrdinary_some {t : IT} {rng : List Entry} (h : rng ≠ []) :
    ∃ b, isOrdinary t rng = some b := by
  cases rng with
  | nil => exact absurd rfl h
  | cons e rest =>
    have hlast : (e :: rest)[(e :: rest).length - 1]? =
        some ((e :: rest)[(e :: rest).length - 1]'(by simp)) := List.getElem?_eq_getElem (by simp)
    unfold isOrdinary
    simp only [hlast]
    split <;> exact ⟨_, rfl⟩

theorem fromStr_acc (str : String) (rng : List Entry) (v : Int) :
    rng.foldl (fun ret p => if ret.isNone && str == p.name then some p.value else ret) (some v) =
      some v := by
  induction rng with
  | nil => rfl
  | cons e rest ih => simpa using ih

theorem fromStr_eq (str : String) (rng : List Entry) :
    fromStr rng str = (rng.find? fun e => e.name = str).map Entry.value := by
  unfold fromStr
  induction rng with
  | nil => rfl
  | cons e rest ih =>
    by_cases h : e.name = str
    · simp only [List.foldl_cons, List.find?_cons, h]
      simpa using fromStr_acc str rest e.value
    · have h' : ¬ str = e.name := fun hh => h hh.symm
      simp only [List.foldl_cons, List.find?_cons, h]
      simpa [h'] using ih

end Verif.Enums
