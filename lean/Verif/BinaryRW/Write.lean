import Verif.BinaryRW.Lemmas
/- Lemmas about the writer, and typing of what the reader produces. -/
namespace Verif.BinaryRW
open Spec

/-! ### Writer -/

/-- `wr` writes the bytes `e`, or a part of them and then fails. -/
def Wr (wr : Cursor → Option Cursor) (e : List Byte) : Prop :=
  ∀ buf pos, pos ≤ buf.length → buf.length < 2 ^ 63 →
    wr ⟨buf, pos, true⟩ = some ⟨buf, pos, true⟩ ∧
    (pos + e.length ≤ buf.length → wr ⟨buf, pos, false⟩ =
      some ⟨buf.take pos ++ e ++ buf.drop (pos + e.length), pos + e.length, false⟩) ∧
    (buf.length < pos + e.length → ∃ k, k ≤ e.length ∧ pos + k ≤ buf.length ∧
      wr ⟨buf, pos, false⟩ = some ⟨buf.take pos ++ e.take k ++ buf.drop (pos + k), pos + k, true⟩)

theorem wr_impl (e : List Byte) : Wr (fun c => c.writeImpl e) e := by
  intro buf pos hp hs
  have hl : ∀ err, Cursor.left ⟨buf, pos, err⟩ = buf.length - pos := fun err =>
    left_eq (c := ⟨buf, pos, err⟩) ⟨hp, hs⟩
  refine ⟨by simp [Cursor.writeImpl], ?_, ?_⟩
  · intro h
    have h1 : ¬ buf.length - pos < e.length := by omega
    have h2 : uadd pos e.length = pos + e.length := by unfold uadd; omega
    simp [Cursor.writeImpl, hl, h1, h2, overwrite, h]
  · intro h
    have h1 : buf.length - pos < e.length := by omega
    exact ⟨0, by simp, by simpa using hp, by simp [Cursor.writeImpl, hl, h1]⟩

theorem wr_nil : Wr some [] := by
  intro buf pos hp hs
  refine ⟨rfl, ?_, ?_⟩
  · intro _; simp
  · intro h; simp at h; omega

theorem splice_splice (buf : List Byte) (pos : Nat) (e f : List Byte) (hp : pos ≤ buf.length)
    (h : pos + e.length ≤ buf.length) (k : Nat) :
    (buf.take pos ++ e ++ buf.drop (pos + e.length)).take (pos + e.length) ++ f ++
      (buf.take pos ++ e ++ buf.drop (pos + e.length)).drop (pos + e.length + k) =
    buf.take pos ++ (e ++ f) ++ buf.drop (pos + (e.length + k)) := by
  have h1 : (buf.take pos ++ e).length = pos + e.length := by
    simp [Nat.min_eq_left hp]
  rw [List.take_append_of_le_length (by omega), List.take_of_length_le (by omega),
    List.drop_append, h1]
  rw [List.drop_of_length_le (by omega)]
  have h2 : pos + e.length + k - (pos + e.length) = k := by omega
  rw [h2, List.drop_drop]
  simp [List.append_assoc, Nat.add_assoc]

theorem wr_seq {a b : Cursor → Option Cursor} {e f : List Byte} (ha : Wr a e) (hb : Wr b f) :
    Wr (fun c => match a c with | none => none | some c' => b c') (e ++ f) := by
  intro buf pos hp hs
  obtain ⟨a1, a2, a3⟩ := ha buf pos hp hs
  refine ⟨?_, ?_, ?_⟩
  · simp only [a1]; exact (hb buf pos hp hs).1
  · intro h
    rw [List.length_append] at h
    have hl : (buf.take pos ++ e ++ buf.drop (pos + e.length)).length = buf.length := by
      simp [Nat.min_eq_left hp]; omega
    have := (hb (buf.take pos ++ e ++ buf.drop (pos + e.length)) (pos + e.length) (by omega)
      (by omega)).2.1 (by omega)
    rw [splice_splice buf pos e f hp (by omega)] at this
    simp only [a2 (by omega), this, List.length_append, Nat.add_assoc]
  · intro h
    rw [List.length_append] at h
    by_cases he : pos + e.length ≤ buf.length
    · have hl : (buf.take pos ++ e ++ buf.drop (pos + e.length)).length = buf.length := by
        simp [Nat.min_eq_left hp]; omega
      obtain ⟨k, k1, k2, k3⟩ := (hb (buf.take pos ++ e ++ buf.drop (pos + e.length))
        (pos + e.length) (by omega) (by omega)).2.2 (by omega)
      refine ⟨e.length + k, by rw [List.length_append]; omega, by omega, ?_⟩
      simp only [a2 he, k3]
      have := splice_splice buf pos e (f.take k) hp he k
      rw [this]
      have ht : List.take (e.length + k) (e ++ f) = e ++ f.take k := by
        rw [List.take_append, List.take_of_length_le (by omega), Nat.add_sub_cancel_left]
      rw [ht, Nat.add_assoc]
    · obtain ⟨k, k1, k2, k3⟩ := a3 (by omega)
      refine ⟨k, by rw [List.length_append]; omega, k2, ?_⟩
      have hl : (buf.take pos ++ e.take k ++ buf.drop (pos + k)).length = buf.length := by
        simp [Nat.min_eq_left hp, Nat.min_eq_left k1]; omega
      have ht : List.take k (e ++ f) = e.take k := List.take_append_of_le_length k1
      simp only [k3, ht]
      exact (hb _ _ (by omega) (by omega)).1

theorem wr_congr {a b : Cursor → Option Cursor} {e f : List Byte} (h : Wr a e)
    (h1 : ∀ c, b c = a c) (h2 : f = e) : Wr b f := by
  have : b = a := funext h1
  rw [this, h2]; exact h

theorem wr_loop {α} {wr : α → Cursor → Option Cursor} {enc : α → List Byte} (l : List α)
    (h : ∀ v ∈ l, Wr (wr v) (enc v)) : Wr (writeLoop wr l) (l.flatMap enc) := by
  induction l with
  | nil => exact wr_congr wr_nil (fun _ => by simp only [writeLoop]) rfl
  | cons x xs ih =>
    refine wr_congr (wr_seq (h x (by simp)) (ih fun v hv => h v (by simp [hv]))) ?_ (by simp)
    intro c; simp only [writeLoop]; rfl

theorem toLE_mod (k n : Nat) : toLE k (n % 256 ^ k) = toLE k n := by
  induction k generalizing n with
  | zero => rfl
  | succ k ih =>
    simp only [toLE]
    have h1 : n % 256 ^ (k + 1) / 256 = n / 256 % 256 ^ k := by
      rw [Nat.pow_succ, Nat.mul_comm, Nat.mod_mul_right_div_self]
    have h2 : BitVec.ofNat 8 (n % 256 ^ (k + 1)) = BitVec.ofNat 8 n := by
      apply BitVec.eq_of_toNat_eq
      simp only [BitVec.toNat_ofNat]
      have : (256 : Nat) ^ (k + 1) = 2 ^ 8 * 256 ^ k := by rw [Nat.pow_succ, Nat.mul_comm]
      rw [this, Nat.mod_mul_right_mod]
    rw [h1, h2, ih]

theorem flatMap_scalarBytes (n : Nat) (l : List Val) (h : ∀ v ∈ l, HasTy (.scalar n) v) :
    l.flatMap scalarBytes = l.flatMap (encode (.scalar n)) := by
  induction l with
  | nil => rfl
  | cons x xs ih =>
    have hx := h x (by simp)
    cases x <;> simp only [HasTy] at hx
    simp [scalarBytes, encode, ih fun v hv => h v (by simp [hv])]

theorem writeAlt_eq (ts : List Ty) (i : Nat) (v : Val) (c : Cursor) :
    writeAlt ts i v c = match ts[i]? with | some t => write t v c | none => none := by
  induction ts generalizing i with
  | nil => simp [writeAlt]
  | cons t ts ih => cases i <;> simp [writeAlt, ih]

theorem le4 (n : Nat) : toLE 4 (n % 2 ^ 32) = le 4 n := by
  rw [le_eq_toLE]; exact toLE_mod 4 n

theorem wr_write (t : Ty) (v : Val) (ht : HasTy t v) : Wr (write t v) (encode t v) := by
  induction t using Ty.ind generalizing v with
  | hscalar n =>
    cases v <;> simp only [HasTy] at ht
    rename_i b
    exact wr_congr (wr_impl b) (fun _ => by simp only [write]) (by simp only [encode])
  | hstr =>
    cases v <;> simp only [HasTy] at ht
    rename_i b
    refine wr_congr (wr_seq (wr_impl (le 4 b.length)) (f := b)
      (b := fun c1 => if b ≠ [] then c1.writeImpl b else .some c1) ?_) ?_ (by simp only [encode])
    · by_cases hb : b = []
      · subst hb; exact wr_congr wr_nil (by simp) rfl
      · exact wr_congr (wr_impl b) (by simp [hb]) rfl
    · intro c; simp only [write, le4]; rfl
  | hvec t ih =>
    cases v <;> simp only [HasTy] at ht
    rename_i l
    by_cases hsc : ∃ n, t = .scalar n
    · obtain ⟨n, rfl⟩ := hsc
      refine wr_congr (wr_seq (wr_impl (le 4 l.length)) (wr_impl (l.flatMap scalarBytes))) ?_
        (by simp only [encode, flatMap_scalarBytes n l ht])
      intro c; simp only [write, le4]; rfl
    · refine wr_congr (wr_seq (wr_impl (le 4 l.length))
        (wr_loop l fun v hv => ih v (ht v hv))) ?_ (by simp only [encode])
      intro c
      cases t <;> first | exact absurd ⟨_, rfl⟩ hsc | (simp only [write, le4]; rfl)
  | hmap lt k w ihk ihv =>
    cases v <;> simp only [HasTy] at ht
    rename_i l
    refine wr_congr (wr_seq (wr_impl (le 4 l.length))
      (wr_loop (wr := fun kv c => match write k kv.1 c with
        | .none => .none
        | .some c' => write w kv.2 c') (enc := fun e => encode k e.1 ++ encode w e.2) l
        fun e he => wr_congr (wr_seq (ihk e.1 (ht.2 e he).1) (ihv e.2 (ht.2 e he).2))
          (fun _ => rfl) rfl)) ?_ (by simp only [encode])
    intro c; simp only [write, le4]; rfl
  | hset lt t ih =>
    cases v <;> simp only [HasTy] at ht
    rename_i l
    refine wr_congr (wr_seq (wr_impl (le 4 l.length))
      (wr_loop l fun v hv => ih v (ht.2 v hv))) ?_ (by simp only [encode])
    intro c; simp only [write, le4]; rfl
  | hopt t ih =>
    cases v <;> simp only [HasTy] at ht
    · exact wr_congr (wr_impl [0]) (fun _ => by simp only [write]) (by simp only [encode])
    · refine wr_congr (wr_seq (wr_impl [1]) (ih _ ht)) ?_ (by simp only [encode]; rfl)
      intro c; simp only [write]; rfl
  | hpair a b iha ihb =>
    cases v <;> simp only [HasTy] at ht
    refine wr_congr (wr_seq (iha _ ht.1) (ihb _ ht.2)) ?_ (by simp only [encode])
    intro c; simp only [write]; rfl
  | hvariant ts ih =>
    cases v <;> simp only [HasTy] at ht
    rename_i i v
    obtain ⟨t, h1, h2⟩ := (hasAlt_eq ts i v).1 ht
    refine wr_congr (wr_seq (wr_impl [BitVec.ofNat 8 i]) (ih t (List.mem_of_getElem? h1) v h2)) ?_
      (by simp only [encode, encodeAlt_eq, h1]; rfl)
    intro c
    have : toLE 1 (i % 2 ^ 8) = [BitVec.ofNat 8 i] := toLE_mod 1 i
    simp only [write, this, writeAlt_eq, h1]; rfl

end Verif.BinaryRW
