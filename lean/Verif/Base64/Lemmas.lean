import Verif.Base64.Model
import Verif.Base64.Spec
/-
Helper lemmas for the Base64 properties.
-/
namespace Verif.Base64

def Variant.isUrl : Variant → Bool
  | .std => false
  | .url => true

/-! ### Finite tables -/

theorem lookup_table : ∀ v ∈ [Variant.std, Variant.url], ∀ n < 256,
    (lookup v (BitVec.ofNat 8 n)).toNat = (Spec.symbols v.isUrl).getD (n % 64) 0 := by
  decide +kernel

theorem decode_table : ∀ v ∈ [Variant.std, Variant.url], ∀ n < 256,
    decodeValue v ((BitVec.ofNat 8 n).setWidth 32) =
      if n ∈ Spec.symbols v.isUrl then BitVec.ofNat 32 ((Spec.symbols v.isUrl).idxOf n) else bad := by
  decide +kernel

theorem symbols_idx : ∀ u ∈ [false, true], ∀ n < 64,
    (Spec.symbols u).idxOf ((Spec.symbols u).getD n 0) = n ∧
    (Spec.symbols u).getD n 0 ∈ Spec.symbols u ∧ (Spec.symbols u).getD n 0 < 256 := by
  decide +kernel

theorem symbols_lt : ∀ u ∈ [false, true], ∀ c ∈ Spec.symbols u,
    (Spec.symbols u).idxOf c < 64 ∧ c ≠ 61 ∧ c < 256 ∧
    (Spec.symbols u).getD ((Spec.symbols u).idxOf c) 0 = c := by
  decide +kernel

theorem lookup_toNat (v : Variant) (c : Byte) :
    (lookup v c).toNat = (Spec.symbols v.isUrl).getD (c.toNat % 64) 0 := by
  have h := lookup_table v (by cases v <;> simp) c.toNat c.isLt
  simpa using h

theorem decodeValue_eq (v : Variant) (c : Byte) :
    decodeValue v (c.setWidth 32) =
      if c.toNat ∈ Spec.symbols v.isUrl then
        BitVec.ofNat 32 (Spec.value v.isUrl c.toNat) else bad := by
  have h := decode_table v (by cases v <;> simp) c.toNat c.isLt
  simpa [Spec.value] using h

theorem value_lt {u : Bool} {c : Nat} (h : c ∈ Spec.symbols u) : Spec.value u c < 64 :=
  (symbols_lt u (by cases u <;> simp) c h).1

theorem sym_ne_eq {u : Bool} {c : Nat} (h : c ∈ Spec.symbols u) : c ≠ 61 :=
  (symbols_lt u (by cases u <;> simp) c h).2.1

theorem sym_lt {u : Bool} {c : Nat} (h : c ∈ Spec.symbols u) : c < 256 :=
  (symbols_lt u (by cases u <;> simp) c h).2.2.1

theorem sym_value {u : Bool} {c : Nat} (h : c ∈ Spec.symbols u) :
    (Spec.symbols u).getD (Spec.value u c) 0 = c :=
  (symbols_lt u (by cases u <;> simp) c h).2.2.2

theorem value_sym (u : Bool) {n : Nat} (h : n < 64) :
    Spec.value u ((Spec.symbols u).getD n 0) = n :=
  (symbols_idx u (by cases u <;> simp) n h).1

theorem sym_mem (u : Bool) {n : Nat} (h : n < 64) :
    (Spec.symbols u).getD n 0 ∈ Spec.symbols u :=
  (symbols_idx u (by cases u <;> simp) n h).2.1

/-! ### Bit arithmetic -/

theorem or_shl {a b : Nat} (k : Nat) (h : b < 2 ^ k) : (a * 2 ^ k) ||| b = a * 2 ^ k + b := by
  rw [← Nat.shiftLeft_eq]
  exact (Nat.shiftLeft_add_eq_or_of_lt h a).symm

theorem enc0 (s0 : Byte) : (s0 >>> 2).toNat % 64 = s0.toNat / 4 := by
  have := s0.isLt
  simp [Nat.shiftRight_eq_div_pow]; omega

theorem enc1' (s0 : Byte) : ((s0 &&& 0x3#8) <<< 4).toNat = s0.toNat % 4 * 16 := by
  have h3 : s0.toNat &&& 3 = s0.toNat % 4 := Nat.and_two_pow_sub_one_eq_mod s0.toNat 2
  simp [Nat.shiftLeft_eq, h3]; omega

theorem enc1 (s0 s1 : Byte) :
    (((s0 &&& 0x3#8) <<< 4) ||| (s1 >>> 4)).toNat % 64 = s0.toNat % 4 * 16 + s1.toNat / 16 := by
  have := s0.isLt
  have := s1.isLt
  rw [BitVec.toNat_or, enc1']
  have h : (s1 >>> 4).toNat = s1.toNat / 16 := by simp [Nat.shiftRight_eq_div_pow]
  rw [h, or_shl 4 (by omega)]
  omega

theorem enc2' (s1 : Byte) : (s1 <<< 2).toNat = s1.toNat % 64 * 4 := by
  have := s1.isLt
  simp [Nat.shiftLeft_eq]; omega

theorem enc2 (s1 s2 : Byte) :
    ((s1 <<< 2) ||| (s2 >>> 6)).toNat % 64 = s1.toNat % 16 * 4 + s2.toNat / 64 := by
  have := s1.isLt
  have := s2.isLt
  rw [BitVec.toNat_or, enc2']
  have h : (s2 >>> 6).toNat = s2.toNat / 64 := by simp [Nat.shiftRight_eq_div_pow]
  rw [h, or_shl 2 (by omega)]
  omega

/-! ### The encoder as one recursion -/

def pad (v : Variant) (k : Nat) : List Byte :=
  match v with | .std => List.replicate k (ch '=') | .url => []

/-- All characters of the encoding. -/
def enc (v : Variant) : List Byte → List Byte
  | [] => []
  | [s0] => [lookup v (s0 >>> 2), lookup v ((s0 &&& 0x3#8) <<< 4)] ++ pad v 2
  | [s0, s1] => [lookup v (s0 >>> 2), lookup v (((s0 &&& 0x3#8) <<< 4) ||| (s1 >>> 4)),
      lookup v (s1 <<< 2)] ++ pad v 1
  | s0 :: s1 :: s2 :: rest =>
    lookup v (s0 >>> 2)
        :: lookup v (((s0 &&& 0x3#8) <<< 4) ||| (s1 >>> 4))
        :: lookup v ((s1 <<< 2) ||| (s2 >>> 6))
        :: lookup v s2 :: enc v rest

theorem enc_length (v : Variant) (s : List Byte) : (enc v s).length = encodeAlloc v s.length := by
  fun_induction enc v s with
  | case1 => simp [encodeAlloc]
  | case2 s0 => cases v <;> simp [encodeAlloc, pad]
  | case3 s0 s1 => cases v <;> simp [encodeAlloc, pad]
  | case4 s0 s1 s2 rest ih =>
    simp only [List.length_cons, ih, encodeAlloc]
    have : (rest.length + 1 + 1 + 1) / 3 = rest.length / 3 + 1 := by omega
    have h2 : rest.length + 1 + 1 + 1 - (rest.length + 1 + 1 + 1) / 3 * 3
        = rest.length - rest.length / 3 * 3 := by omega
    rw [h2, this]; omega

theorem encodeRaw (v : Variant) (s : List Byte) :
    ∃ out src t, encodeLoop v (s.length / 3) s = some (out, src) ∧
      encodeTail v (s.length - s.length / 3 * 3) src = some t ∧ out ++ t = enc v s := by
  fun_induction enc v s with
  | case1 => exact ⟨[], [], [], rfl, rfl, rfl⟩
  | case2 s0 => cases v <;> exact ⟨[], [s0], enc _ [s0], by simp [encodeLoop], by simp [encodeTail, pad, enc], rfl⟩
  | case3 s0 s1 => cases v <;> exact ⟨[], [s0, s1], enc _ [s0, s1], by simp [encodeLoop], by simp [encodeTail, pad, enc], rfl⟩
  | case4 s0 s1 s2 rest ih =>
    obtain ⟨out, src, t, h1, h2, h3⟩ := ih
    have e1 : (s0 :: s1 :: s2 :: rest).length / 3 = rest.length / 3 + 1 := by
      simp only [List.length_cons]; omega
    have e2 : (s0 :: s1 :: s2 :: rest).length - (rest.length / 3 + 1) * 3
        = rest.length - rest.length / 3 * 3 := by
      simp only [List.length_cons]; omega
    rw [e1, e2]
    refine ⟨lookup v (s0 >>> 2) :: lookup v (((s0 &&& 0x3#8) <<< 4) ||| (s1 >>> 4))
        :: lookup v ((s1 <<< 2) ||| (s2 >>> 6)) :: lookup v s2 :: out, src, t, ?_, h2, ?_⟩
    · simp only [encodeLoop, h1]
    · simp [h3]

theorem encode_eq (v : Variant) (s : List Byte) : encode v s = .ok (enc v s) := by
  obtain ⟨out, src, t, h1, h2, h3⟩ := encodeRaw v s
  simp only [encode, h1, h2, h3, fillBuf, enc_length]
  simp

/-! ### The encoder against RFC 4648 -/

theorem flatMap_bits3 (a b c : Nat) (l : List Nat) :
    (a :: b :: c :: l).flatMap Spec.bits =
      Spec.bits a ++ (Spec.bits b ++ (Spec.bits c ++ l.flatMap Spec.bits)) := by
  simp [List.flatMap_cons]

theorem sextets3 (a b c : Nat) (ha : a < 256) (hb : b < 256) (hc : c < 256) (l : List Nat) :
    Spec.sextets ((a :: b :: c :: l).flatMap Spec.bits) =
      [a / 4, a % 4 * 16 + b / 16, b % 16 * 4 + c / 64, c % 64] ++
        Spec.sextets (l.flatMap Spec.bits) := by
  rw [flatMap_bits3]
  simp only [Spec.bits, List.cons_append, List.nil_append, Spec.sextets, Spec.ofBits,
    List.foldl_cons, List.foldl_nil, List.cons.injEq, and_true]
  refine ⟨?_, ?_, ?_, ?_⟩ <;> omega

theorem sextets2 (a b : Nat) (ha : a < 256) (hb : b < 256) :
    Spec.sextets ([a, b].flatMap Spec.bits) =
      [a / 4, a % 4 * 16 + b / 16, b % 16 * 4] := by
  simp only [List.flatMap_cons, List.flatMap_nil, Spec.bits, List.cons_append, List.nil_append,
    List.append_nil, Spec.sextets, Spec.ofBits, List.length_cons, List.length_nil,
    List.foldl_cons, List.foldl_nil, List.cons.injEq, and_true,
    List.replicate]
  refine ⟨?_, ?_, ?_⟩ <;> omega

theorem sextets1 (a : Nat) (ha : a < 256) :
    Spec.sextets ([a].flatMap Spec.bits) = [a / 4, a % 4 * 16] := by
  simp only [List.flatMap_cons, List.flatMap_nil, Spec.bits, List.cons_append, List.nil_append,
    List.append_nil, Spec.sextets, Spec.ofBits, List.length_cons, List.length_nil,
    List.foldl_cons, List.foldl_nil, List.cons.injEq, and_true,
    List.replicate]
  refine ⟨?_, ?_⟩ <;> omega

theorem pad_toNat (v : Variant) (k : Nat) :
    (pad v k).map BitVec.toNat = if v.isUrl then [] else List.replicate k 61 := by
  cases v <;> simp [pad, Variant.isUrl, ch]

theorem enc_rfc (v : Variant) (s : List Byte) :
    (enc v s).map BitVec.toNat = Spec.rfc4648 v.isUrl (s.map BitVec.toNat) := by
  fun_induction enc v s with
  | case1 => cases v <;> simp [Spec.rfc4648, Spec.body, Spec.sextets, Variant.isUrl]
  | case2 s0 =>
    have h0 := s0.isLt
    have e0 := enc0 s0
    have e1 : ((s0 &&& 0x3#8) <<< 4).toNat % 64 = s0.toNat % 4 * 16 := by rw [enc1']; omega
    simp only [List.map_append, List.map_cons, List.map_nil, lookup_toNat, e0, e1, pad_toNat,
      Spec.rfc4648, Spec.body, sextets1 _ h0]
    cases v <;> rfl
  | case3 s0 s1 =>
    have h0 := s0.isLt
    have h1 := s1.isLt
    have e0 := enc0 s0
    have e1 := enc1 s0 s1
    have e2 : (s1 <<< 2).toNat % 64 = s1.toNat % 16 * 4 := by rw [enc2']; omega
    simp only [List.map_append, List.map_cons, List.map_nil, lookup_toNat, e0, e1, e2, pad_toNat,
      Spec.rfc4648, Spec.body, sextets2 _ _ h0 h1]
    cases v <;> rfl
  | case4 s0 s1 s2 rest ih =>
    have h0 := s0.isLt
    have h1 := s1.isLt
    have h2 := s2.isLt
    simp only [List.map_cons, lookup_toNat, enc0, enc1, enc2, ih, Spec.rfc4648, Spec.body,
      sextets3 _ _ _ h0 h1 h2, List.cons_append, List.nil_append,
      List.length_cons]
    have : ∀ n : Nat, (n + 1 + 1 + 1 + 1) % 4 = n % 4 := by omega
    simp only [List.length_map, this]

/-! ### The decoder -/

theorem decodeLookup_mem {v : Variant} {c : Byte} (h : c.toNat ∈ Spec.symbols v.isUrl) {k : Nat}
    (hk : k ≤ 18) :
    (decodeLookup v k c).toNat = Spec.value v.isUrl c.toNat * 2 ^ k := by
  have hv := value_lt h
  have h2 : (2 : Nat) ^ k ≤ 2 ^ 18 := Nat.pow_le_pow_right (by omega) hk
  have hne : BitVec.ofNat 32 (Spec.value v.isUrl c.toNat) ≠ bad := by
    intro he
    have := congrArg BitVec.toNat he
    simp [bad] at this
    omega
  have hb : Spec.value v.isUrl c.toNat * 2 ^ k < 64 * 2 ^ 18 :=
    Nat.lt_of_lt_of_le (Nat.mul_lt_mul_of_pos_right hv (Nat.two_pow_pos k))
      (Nat.mul_le_mul_left _ h2)
  simp only [decodeLookup, decodeValue_eq, h, if_true, hne, if_false, BitVec.toNat_shiftLeft,
    BitVec.toNat_ofNat, Nat.shiftLeft_eq]
  rw [Nat.mod_eq_of_lt (a := Spec.value v.isUrl c.toNat) (by omega)]
  apply Nat.mod_eq_of_lt
  omega

theorem decodeLookup_not_mem {v : Variant} {c : Byte} (h : c.toNat ∉ Spec.symbols v.isUrl)
    (k : Nat) : decodeLookup v k c = bad := by
  simp [decodeLookup, decodeValue_eq, h]

theorem isBase64_iff (v : Variant) (c : Byte) :
    isBase64 (decodeLookup v 0 c) = decide (c.toNat ∈ Spec.symbols v.isUrl) := by
  by_cases h : c.toNat ∈ Spec.symbols v.isUrl
  · have := decodeLookup_mem h (k := 0) (by omega)
    have hv := value_lt h
    simp only [h, decide_true, isBase64, decide_eq_true_eq, BitVec.le_def, this]
    simp; omega
  · rw [decodeLookup_not_mem h 0]
    simp [h, isBase64, bad]

theorem or4 {x0 x1 x2 x3 : Nat} (_ : x0 < 64) (h1 : x1 < 64) (h2 : x2 < 64) (h3 : x3 < 64) :
    x0 * 2 ^ 18 ||| x1 * 2 ^ 12 ||| x2 * 2 ^ 6 ||| x3 * 2 ^ 0 =
      x0 * 2 ^ 18 + x1 * 2 ^ 12 + x2 * 2 ^ 6 + x3 := by
  have a0 : x0 * 2 ^ 18 ||| x1 * 2 ^ 12 = x0 * 2 ^ 18 + x1 * 2 ^ 12 := or_shl 18 (by omega)
  have a1 : x0 * 2 ^ 18 + x1 * 2 ^ 12 = (x0 * 64 + x1) * 2 ^ 12 := by omega
  have b1 : (x0 * 64 + x1) * 2 ^ 12 ||| x2 * 2 ^ 6 = (x0 * 64 + x1) * 2 ^ 12 + x2 * 2 ^ 6 :=
    or_shl 12 (by omega)
  have a2 : (x0 * 64 + x1) * 2 ^ 12 + x2 * 2 ^ 6 = ((x0 * 64 + x1) * 64 + x2) * 2 ^ 6 := by
    clear a0 a1 b1
    generalize x0 * 64 + x1 = y
    omega
  have b2 : ((x0 * 64 + x1) * 64 + x2) * 2 ^ 6 ||| x3 = ((x0 * 64 + x1) * 64 + x2) * 2 ^ 6 + x3 :=
    or_shl 6 (by omega)
  rw [a0, a1, b1, a2, show x3 * 2 ^ 0 = x3 from Nat.mul_one _, b2]

theorem quad_good {v : Variant} {c0 c1 c2 c3 : Byte}
    (h0 : c0.toNat ∈ Spec.symbols v.isUrl) (h1 : c1.toNat ∈ Spec.symbols v.isUrl)
    (h2 : c2.toNat ∈ Spec.symbols v.isUrl) (h3 : c3.toNat ∈ Spec.symbols v.isUrl) :
    (decodeLookup v 18 c0 ||| decodeLookup v 12 c1 ||| decodeLookup v 6 c2 |||
      decodeLookup v 0 c3).toNat =
    Spec.value v.isUrl c0.toNat * 2 ^ 18 + Spec.value v.isUrl c1.toNat * 2 ^ 12 +
      Spec.value v.isUrl c2.toNat * 2 ^ 6 + Spec.value v.isUrl c3.toNat := by
  have v0 := value_lt h0
  have v1 := value_lt h1
  have v2 := value_lt h2
  have v3 := value_lt h3
  simp only [BitVec.toNat_or, decodeLookup_mem h0 (k := 18) (by omega),
    decodeLookup_mem h1 (k := 12) (by omega), decodeLookup_mem h2 (k := 6) (by omega),
    decodeLookup_mem h3 (k := 0) (by omega)]
  exact or4 v0 v1 v2 v3

theorem quad_bad_iff (v : Variant) (c0 c1 c2 c3 : Byte) :
    (decodeLookup v 18 c0 ||| decodeLookup v 12 c1 ||| decodeLookup v 6 c2 |||
      decodeLookup v 0 c3) ≥ bad ↔
    ¬ (c0.toNat ∈ Spec.symbols v.isUrl ∧ c1.toNat ∈ Spec.symbols v.isUrl ∧
       c2.toNat ∈ Spec.symbols v.isUrl ∧ c3.toNat ∈ Spec.symbols v.isUrl) := by
  constructor
  · rintro hb ⟨h0, h1, h2, h3⟩
    have := quad_good h0 h1 h2 h3
    have v0 := value_lt h0
    have v1 := value_lt h1
    have v2 := value_lt h2
    have v3 := value_lt h3
    rw [ge_iff_le, BitVec.le_def, this] at hb
    simp [bad] at hb
    omega
  · intro h
    rw [ge_iff_le, BitVec.le_def]
    simp only [BitVec.toNat_or]
    by_cases h0 : c0.toNat ∈ Spec.symbols v.isUrl
    · by_cases h1 : c1.toNat ∈ Spec.symbols v.isUrl
      · by_cases h2 : c2.toNat ∈ Spec.symbols v.isUrl
        · have h3 : c3.toNat ∉ Spec.symbols v.isUrl := fun h3 => h ⟨h0, h1, h2, h3⟩
          rw [decodeLookup_not_mem h3]
          exact Nat.right_le_or
        · rw [decodeLookup_not_mem h2]
          exact Nat.le_trans Nat.right_le_or Nat.left_le_or
      · rw [decodeLookup_not_mem h1]
        exact Nat.le_trans Nat.right_le_or (Nat.le_trans Nat.left_le_or Nat.left_le_or)
    · rw [decodeLookup_not_mem h0]
      exact Nat.le_trans Nat.left_le_or (Nat.le_trans Nat.left_le_or Nat.left_le_or)

/-- Whether all characters are symbols (decidable form used in the helper). -/
def allSym (v : Variant) (s : List Byte) : Bool :=
  s.all fun c => decide (c.toNat ∈ Spec.symbols v.isUrl)

def v0 (v : Variant) (c : Byte) : Nat := Spec.value v.isUrl c.toNat

/-- All bytes of the decoding of a string of symbols whose length is not 1 mod 4. -/
def dec (v : Variant) : List Byte → List Byte
  | c0 :: c1 :: c2 :: c3 :: rest =>
    BitVec.ofNat 8 (v0 v c0 * 4 + v0 v c1 / 16) ::
    BitVec.ofNat 8 (v0 v c1 % 16 * 16 + v0 v c2 / 4) ::
    BitVec.ofNat 8 (v0 v c2 % 4 * 64 + v0 v c3) :: dec v rest
  | [c0, c1, c2] =>
    [BitVec.ofNat 8 (v0 v c0 * 4 + v0 v c1 / 16), BitVec.ofNat 8 (v0 v c1 % 16 * 16 + v0 v c2 / 4)]
  | [c0, c1] => [BitVec.ofNat 8 (v0 v c0 * 4 + v0 v c1 / 16)]
  | _ => []

theorem dec_length (v : Variant) (s : List Byte) (h : s.length % 4 ≠ 1) :
    (dec v s).length = s.length / 4 * 3 + (if s.length - s.length / 4 * 4 = 0 then 0 else
      s.length - s.length / 4 * 4 - 1) := by
  fun_induction dec v s with
  | case1 c0 c1 c2 c3 rest ih =>
    simp only [List.length_cons] at *
    rw [ih (by omega)]
    split <;> split <;> omega
  | case2 => simp
  | case3 => simp
  | case4 s h1 h2 h3 =>
    match s, h1, h2, h3 with
    | [], _, _, _ => simp
    | [_], _, _, _ => simp at h
    | [a, b], _, _, h3 => exact absurd rfl (h3 a b)
    | [a, b, c], _, h2, _ => exact absurd rfl (h2 a b c)
    | a :: b :: c :: d :: r, h1, _, _ => exact absurd rfl (h1 a b c d r)

theorem toByte_lem (x : BitVec 32) (n : Nat) (h : x.toNat % 256 = n % 256) :
    toByte x = BitVec.ofNat 8 n := by
  apply BitVec.eq_of_toNat_eq
  simp [toByte, h]

theorem tail_byte0 {v : Variant} {c0 c1 : Byte} (h0 : c0.toNat ∈ Spec.symbols v.isUrl)
    (h1 : c1.toNat ∈ Spec.symbols v.isUrl) :
    toByte ((decodeLookup v 0 c0 <<< 2) ||| (decodeLookup v 0 c1 >>> 4)) =
      BitVec.ofNat 8 (v0 v c0 * 4 + v0 v c1 / 16) := by
  have e0 := decodeLookup_mem h0 (k := 0) (by omega)
  have e1 := decodeLookup_mem h1 (k := 0) (by omega)
  have w0 := value_lt h0
  have w1 := value_lt h1
  apply toByte_lem
  simp only [BitVec.toNat_or, BitVec.toNat_shiftLeft, BitVec.toNat_ushiftRight, e0, e1,
    Nat.shiftLeft_eq, Nat.shiftRight_eq_div_pow, v0]
  have : Spec.value v.isUrl c0.toNat * 2 ^ 0 * 2 ^ 2 % 2 ^ 32 =
    Spec.value v.isUrl c0.toNat * 2 ^ 2 := by omega
  rw [this, or_shl 2 (by omega)]
  omega

theorem tail_byte1 {v : Variant} {c0 c1 : Byte} (h0 : c0.toNat ∈ Spec.symbols v.isUrl)
    (h1 : c1.toNat ∈ Spec.symbols v.isUrl) :
    toByte ((decodeLookup v 0 c0 <<< 4) ||| (decodeLookup v 0 c1 >>> 2)) =
      BitVec.ofNat 8 (v0 v c0 % 16 * 16 + v0 v c1 / 4) := by
  have e0 := decodeLookup_mem h0 (k := 0) (by omega)
  have e1 := decodeLookup_mem h1 (k := 0) (by omega)
  have w0 := value_lt h0
  have w1 := value_lt h1
  apply toByte_lem
  simp only [BitVec.toNat_or, BitVec.toNat_shiftLeft, BitVec.toNat_ushiftRight, e0, e1,
    Nat.shiftLeft_eq, Nat.shiftRight_eq_div_pow, v0]
  have : Spec.value v.isUrl c0.toNat * 2 ^ 0 * 2 ^ 4 % 2 ^ 32 =
    Spec.value v.isUrl c0.toNat * 2 ^ 4 := by omega
  rw [this, or_shl 4 (by omega)]
  omega

/-- The part of `decode` after padding removal. -/
def decodeBody (v : Variant) (str : List Byte) : Res (List Byte) :=
  let full_quad := str.length / 4
  let tail_size := str.length - full_quad * 4
  if tail_size = 1 then .nullopt
  else
    let ret_size := full_quad * 3 + (if tail_size = 0 then 0 else tail_size - 1)
    match decodeLoop v full_quad str with
    | .ub => .ub
    | .nullopt => .nullopt
    | .ok (out, src) =>
      match decodeTail v tail_size src with
      | .ub => .ub
      | .nullopt => .nullopt
      | .ok t => fillBuf ret_size (out ++ t)

theorem decode_unfold (v : Variant) (s : List Byte) :
    decode v s = if v = .std ∧ (s.length / 4) * 4 ≠ s.length then .nullopt
      else if numEqs s > 2 then .nullopt
      else decodeBody v (if numEqs s > 0 then s.take (s.length - numEqs s) else s) := rfl

/-- Loop and tail together. -/
def rawBody (v : Variant) (str : List Byte) : Res (List Byte) :=
  match decodeLoop v (str.length / 4) str with
  | .ub => .ub
  | .nullopt => .nullopt
  | .ok (out, src) =>
    match decodeTail v (str.length - str.length / 4 * 4) src with
    | .ub => .ub
    | .nullopt => .nullopt
    | .ok t => .ok (out ++ t)

theorem rawBody_eq (v : Variant) (s : List Byte) (h : s.length % 4 ≠ 1) :
    rawBody v s = if allSym v s then .ok (dec v s) else .nullopt := by
  fun_induction dec v s with
  | case1 c0 c1 c2 c3 rest ih =>
    have hl : rest.length % 4 ≠ 1 := by simp only [List.length_cons] at h; omega
    have ih := ih hl
    have e1 : (c0 :: c1 :: c2 :: c3 :: rest).length / 4 = rest.length / 4 + 1 := by
      simp only [List.length_cons]; omega
    have e2 : (c0 :: c1 :: c2 :: c3 :: rest).length - (rest.length / 4 + 1) * 4
        = rest.length - rest.length / 4 * 4 := by
      simp only [List.length_cons]; omega
    unfold rawBody
    rw [e1, e2]
    simp only [decodeLoop]
    by_cases hb : (decodeLookup v 18 c0 ||| decodeLookup v 12 c1 ||| decodeLookup v 6 c2 |||
      decodeLookup v 0 c3) ≥ bad
    · have := (quad_bad_iff v c0 c1 c2 c3).1 hb
      have hns : allSym v (c0 :: c1 :: c2 :: c3 :: rest) = false := by
        simp only [allSym, List.all_cons, Bool.eq_false_iff, ne_eq, Bool.and_eq_true,
          decide_eq_true_eq]
        rintro ⟨a, b, c, d, -⟩
        exact this ⟨a, b, c, d⟩
      simp only [if_pos hb, hns]
      rfl
    · have hq : c0.toNat ∈ Spec.symbols v.isUrl ∧ c1.toNat ∈ Spec.symbols v.isUrl ∧
        c2.toNat ∈ Spec.symbols v.isUrl ∧ c3.toNat ∈ Spec.symbols v.isUrl := by
        apply Classical.byContradiction
        intro hh
        exact hb ((quad_bad_iff v c0 c1 c2 c3).2 hh)
      obtain ⟨h0, h1, h2, h3⟩ := hq
      have hs : allSym v (c0 :: c1 :: c2 :: c3 :: rest) = allSym v rest := by
        simp [allSym, h0, h1, h2, h3]
      have g := quad_good h0 h1 h2 h3
      have w0 := value_lt h0
      have w1 := value_lt h1
      have w2 := value_lt h2
      have w3 := value_lt h3
      rw [if_neg hb, hs]
      have b0 : toByte ((decodeLookup v 18 c0 ||| decodeLookup v 12 c1 ||| decodeLookup v 6 c2 |||
          decodeLookup v 0 c3) >>> 16) = BitVec.ofNat 8 (v0 v c0 * 4 + v0 v c1 / 16) := by
        apply toByte_lem
        rw [BitVec.toNat_ushiftRight, g, Nat.shiftRight_eq_div_pow]
        simp only [v0]; omega
      have b1 : toByte ((decodeLookup v 18 c0 ||| decodeLookup v 12 c1 ||| decodeLookup v 6 c2 |||
          decodeLookup v 0 c3) >>> 8) = BitVec.ofNat 8 (v0 v c1 % 16 * 16 + v0 v c2 / 4) := by
        apply toByte_lem
        rw [BitVec.toNat_ushiftRight, g, Nat.shiftRight_eq_div_pow]
        simp only [v0]; omega
      have b2 : toByte (decodeLookup v 18 c0 ||| decodeLookup v 12 c1 ||| decodeLookup v 6 c2 |||
          decodeLookup v 0 c3) = BitVec.ofNat 8 (v0 v c2 % 4 * 64 + v0 v c3) := by
        apply toByte_lem
        rw [g]
        simp only [v0]; omega
      rw [b0, b1, b2]
      unfold rawBody at ih
      cases hloop : decodeLoop v (rest.length / 4) rest with
      | ub =>
        rw [hloop] at ih
        by_cases hr : allSym v rest <;> simp [hr] at ih
      | nullopt =>
        rw [hloop] at ih
        by_cases hr : allSym v rest
        · simp [hr] at ih
        · simp [hr]
      | ok p =>
        obtain ⟨out, src⟩ := p
        rw [hloop] at ih
        simp only at ih ⊢
        cases ht : decodeTail v (rest.length - rest.length / 4 * 4) src with
        | ub =>
          rw [ht] at ih
          by_cases hr : allSym v rest <;> simp [hr] at ih
        | nullopt =>
          rw [ht] at ih
          by_cases hr : allSym v rest
          · simp [hr] at ih
          · simp [hr]
        | ok t =>
          rw [ht] at ih
          by_cases hr : allSym v rest
          · simp [hr] at ih ⊢
            exact ih
          · simp [hr] at ih
  | case2 c0 c1 c2 =>
    simp only [rawBody, List.length_cons, List.length_nil]
    simp only [show (0 + 1 + 1 + 1) / 4 = 0 from rfl, decodeLoop, decodeTail]
    simp only [isBase64_iff]
    by_cases h0 : c0.toNat ∈ Spec.symbols v.isUrl <;> by_cases h1 : c1.toNat ∈ Spec.symbols v.isUrl <;>
      by_cases h2 : c2.toNat ∈ Spec.symbols v.isUrl <;>
      simp [allSym, h0, h1, h2]
    exact ⟨tail_byte0 h0 h1, tail_byte1 h1 h2⟩
  | case3 c0 c1 =>
    simp only [rawBody, List.length_cons, List.length_nil]
    simp only [show (0 + 1 + 1) / 4 = 0 from rfl, decodeLoop, decodeTail]
    simp only [isBase64_iff]
    by_cases h0 : c0.toNat ∈ Spec.symbols v.isUrl <;> by_cases h1 : c1.toNat ∈ Spec.symbols v.isUrl <;>
      simp [allSym, h0, h1]
    exact tail_byte0 h0 h1
  | case4 s h1 h2 h3 =>
    match s, h1, h2, h3 with
    | [], _, _, _ => simp [rawBody, decodeLoop, decodeTail, allSym]
    | [_], _, _, _ => simp at h
    | [a, b], _, _, h3 => exact absurd rfl (h3 a b)
    | [a, b, c], _, h2, _ => exact absurd rfl (h2 a b c)
    | a :: b :: c :: d :: r, h1, _, _ => exact absurd rfl (h1 a b c d r)

theorem decodeBody_eq (v : Variant) (s : List Byte) :
    decodeBody v s = if s.length % 4 ≠ 1 ∧ allSym v s then .ok (dec v s) else .nullopt := by
  by_cases h : s.length % 4 = 1
  · have : s.length - s.length / 4 * 4 = 1 := by omega
    simp [decodeBody, this, h]
  · have h' : ¬ (s.length - s.length / 4 * 4 = 1) := by omega
    have r := rawBody_eq v s h
    have l := dec_length v s h
    unfold rawBody at r
    simp only [decodeBody, h', if_false]
    cases hloop : decodeLoop v (s.length / 4) s with
    | ub => rw [hloop] at r; by_cases hr : allSym v s <;> simp [hr] at r
    | nullopt =>
      rw [hloop] at r
      by_cases hr : allSym v s
      · simp [hr] at r
      · simp [hr]
    | ok p =>
      obtain ⟨out, src⟩ := p
      rw [hloop] at r
      simp only at r ⊢
      cases ht : decodeTail v (s.length - s.length / 4 * 4) src with
      | ub => rw [ht] at r; by_cases hr : allSym v s <;> simp [hr] at r
      | nullopt =>
        rw [ht] at r
        by_cases hr : allSym v s
        · simp [hr] at r
        · simp [hr]
      | ok t =>
        rw [ht] at r
        by_cases hr : allSym v s
        · simp only [hr, if_true, Res.ok.injEq] at r
          simp only [hr, h, ne_eq, not_false_eq_true, and_self, if_true, fillBuf, r]
          rw [l]
          simp
        · simp [hr] at r

/-! ### Padding removal -/

theorem numEqs_spec (s : List Byte) :
    ∃ body, s = body ++ List.replicate (numEqs s) (ch '=') ∧
      (∀ c, body.getLast? = some c → c ≠ ch '=') := by
  refine ⟨(s.reverse.dropWhile (· == ch '=')).reverse, ?_, ?_⟩
  · have h1 : s.reverse.takeWhile (· == ch '=') = List.replicate (numEqs s) (ch '=') := by
      rw [List.eq_replicate_iff]
      refine ⟨rfl, fun b hb => ?_⟩
      have := List.all_takeWhile (p := (· == ch '=')) (l := s.reverse)
      rw [List.all_eq_true] at this
      simpa using this b hb
    have h2 := List.takeWhile_append_dropWhile (p := (· == ch '=')) (l := s.reverse)
    have h3 := congrArg List.reverse h2
    rw [List.reverse_append, h1] at h3
    simp at h3
    exact h3.symm
  · intro c hc
    rw [List.getLast?_reverse] at hc
    have := List.head?_dropWhile_not (· == ch '=') s.reverse
    rw [hc] at this
    simpa using this

theorem numEqs_append {body : List Byte} (h : ∀ c ∈ body, c ≠ ch '=') (k : Nat) :
    numEqs (body ++ List.replicate k (ch '=')) = k := by
  simp only [numEqs, List.reverse_append, List.reverse_replicate]
  rw [List.takeWhile_append_of_pos (by simp)]
  have : List.takeWhile (· == ch '=') body.reverse = [] := by
    cases hb : body.reverse with
    | nil => rfl
    | cons a l =>
      have : a ∈ body := by
        rw [← List.mem_reverse, hb]; simp
      have := h a this
      simp [this]
  simp [this]

end Verif.Base64

namespace Verif.Base64

theorem ch_eq_toNat : (ch '=').toNat = 61 := by decide

theorem ne_of_sym {v : Variant} {c : Byte} (h : c.toNat ∈ Spec.symbols v.isUrl) : c ≠ ch '=' := by
  intro hc
  rw [hc, ch_eq_toNat] at h
  exact sym_ne_eq h rfl

theorem allSym_iff (v : Variant) (s : List Byte) :
    allSym v s = true ↔ ∀ c ∈ s, c.toNat ∈ Spec.symbols v.isUrl := by
  simp [allSym]

theorem decode_good {v : Variant} {body : List Byte} {k : Nat}
    (hs : ∀ c ∈ body, c.toNat ∈ Spec.symbols v.isUrl) (hk : k ≤ 2) (hl : body.length % 4 ≠ 1)
    (hv : v = .std → (body.length + k) % 4 = 0) :
    decode v (body ++ List.replicate k (ch '=')) = .ok (dec v body) := by
  have hn := numEqs_append (body := body) (fun c hc => ne_of_sym (hs c hc)) k
  rw [decode_unfold, hn]
  have h1 : ¬ (v = .std ∧ ((body ++ List.replicate k (ch '=')).length / 4) * 4 ≠
      (body ++ List.replicate k (ch '=')).length) := by
    rintro ⟨hv', h⟩
    have := hv hv'
    simp at h
    omega
  rw [if_neg h1, if_neg (by omega)]
  have h2 : (if k > 0 then List.take ((body ++ List.replicate k (ch '=')).length - k)
      (body ++ List.replicate k (ch '=')) else body ++ List.replicate k (ch '=')) = body := by
    split
    · simp
    · have : k = 0 := by omega
      simp [this]
  rw [h2, decodeBody_eq]
  simp [hl, (allSym_iff v body).2 hs]

theorem decode_cases (v : Variant) (s : List Byte) :
    decode v s = .nullopt ∨
    ∃ body k, s = body ++ List.replicate k (ch '=') ∧ k ≤ 2 ∧
      (∀ c ∈ body, c.toNat ∈ Spec.symbols v.isUrl) ∧ body.length % 4 ≠ 1 ∧
      (v = .std → s.length % 4 = 0) ∧ decode v s = .ok (dec v body) := by
  obtain ⟨body, hb, -⟩ := numEqs_spec s
  by_cases h1 : v = .std ∧ (s.length / 4) * 4 ≠ s.length
  · left; rw [decode_unfold, if_pos h1]
  by_cases h2 : numEqs s > 2
  · left; rw [decode_unfold, if_neg h1, if_pos h2]
  have h3 : (if numEqs s > 0 then List.take (s.length - numEqs s) s else s) = body := by
    have hl : s.length = body.length + numEqs s := by
      have := congrArg List.length hb
      simpa using this
    split
    · have : s.length - numEqs s = body.length := by omega
      rw [this]
      have h := congrArg (List.take body.length) hb
      simpa using h
    · have h0 : numEqs s = 0 := by omega
      rw [h0] at hb
      simpa using hb
  have hd : decode v s = decodeBody v body := by
    rw [decode_unfold, if_neg h1, if_neg h2, h3]
  rw [hd, decodeBody_eq]
  by_cases h4 : body.length % 4 ≠ 1 ∧ allSym v body
  · right
    refine ⟨body, numEqs s, hb, by omega, (allSym_iff v body).1 h4.2, h4.1, ?_, ?_⟩
    · intro hv
      have : ¬ ((s.length / 4) * 4 ≠ s.length) := fun h => h1 ⟨hv, h⟩
      omega
    · rw [if_pos h4]
  · left; rw [if_neg h4]

theorem octets_bits4 {a b c d : Nat} (ha : a < 64) (hb : b < 64) (hc : c < 64) (hd : d < 64)
    (l : List Nat) :
    Spec.octets (Spec.bits6 a ++ (Spec.bits6 b ++ (Spec.bits6 c ++ (Spec.bits6 d ++ l)))) =
      (a * 4 + b / 16) :: (b % 16 * 16 + c / 4) :: (c % 4 * 64 + d) :: Spec.octets l := by
  simp only [Spec.bits6, List.cons_append, List.nil_append, Spec.octets, Spec.ofBits,
    List.foldl_cons, List.foldl_nil, List.cons.injEq, and_true]
  refine ⟨?_, ?_, ?_⟩ <;> omega

theorem octets_bits3 {a b c : Nat} (ha : a < 64) (hb : b < 64) (hc : c < 64) :
    Spec.octets (Spec.bits6 a ++ (Spec.bits6 b ++ (Spec.bits6 c ++ []))) =
      [a * 4 + b / 16, b % 16 * 16 + c / 4] := by
  simp only [Spec.bits6, List.cons_append, List.nil_append, Spec.octets, Spec.ofBits,
    List.foldl_cons, List.foldl_nil, List.cons.injEq, and_true, List.append_nil]
  refine ⟨?_, ?_⟩ <;> omega

theorem octets_bits2 {a b : Nat} (ha : a < 64) (hb : b < 64) :
    Spec.octets (Spec.bits6 a ++ (Spec.bits6 b ++ [])) = [a * 4 + b / 16] := by
  simp only [Spec.bits6, List.cons_append, List.nil_append, Spec.octets, Spec.ofBits,
    List.foldl_cons, List.foldl_nil, List.cons.injEq, and_true, List.append_nil]
  omega

theorem dec_decoded (v : Variant) (s : List Byte) (hl : s.length % 4 ≠ 1)
    (hs : ∀ c ∈ s, c.toNat ∈ Spec.symbols v.isUrl) :
    (dec v s).map BitVec.toNat = Spec.decoded v.isUrl (s.map BitVec.toNat) := by
  fun_induction dec v s with
  | case1 c0 c1 c2 c3 rest ih =>
    have w0 := value_lt (hs c0 (by simp))
    have w1 := value_lt (hs c1 (by simp))
    have w2 := value_lt (hs c2 (by simp))
    have w3 := value_lt (hs c3 (by simp))
    have ih := ih (by simp only [List.length_cons] at hl; omega)
      (fun c hc => hs c (by simp [hc]))
    simp only [Spec.decoded] at ih
    simp only [Spec.decoded, List.map_cons, List.flatMap_cons, octets_bits4 w0 w1 w2 w3,
      ih, BitVec.toNat_ofNat, List.cons.injEq, and_true, v0]
    refine ⟨?_, ?_, ?_⟩ <;> omega
  | case2 c0 c1 c2 =>
    have w0 := value_lt (hs c0 (by simp))
    have w1 := value_lt (hs c1 (by simp))
    have w2 := value_lt (hs c2 (by simp))
    simp only [Spec.decoded, List.map_cons, List.map_nil, List.flatMap_cons, List.flatMap_nil,
      octets_bits3 w0 w1 w2, BitVec.toNat_ofNat, List.cons.injEq, and_true, v0]
    refine ⟨?_, ?_⟩ <;> omega
  | case3 c0 c1 =>
    have w0 := value_lt (hs c0 (by simp))
    have w1 := value_lt (hs c1 (by simp))
    simp only [Spec.decoded, List.map_cons, List.map_nil, List.flatMap_cons, List.flatMap_nil,
      octets_bits2 w0 w1, BitVec.toNat_ofNat, List.cons.injEq, and_true, v0]
    omega
  | case4 s h1 h2 h3 =>
    match s, h1, h2, h3 with
    | [], _, _, _ => simp [Spec.decoded, Spec.octets]
    | [_], _, _, _ => simp at hl
    | [a, b], _, _, h3 => exact absurd rfl (h3 a b)
    | [a, b, c], _, h2, _ => exact absurd rfl (h2 a b c)
    | a :: b :: c :: d :: r, h1, _, _ => exact absurd rfl (h1 a b c d r)

/-- The symbols of the encoding, without padding. -/
def encBody (v : Variant) : List Byte → List Byte
  | [] => []
  | [s0] => [lookup v (s0 >>> 2), lookup v ((s0 &&& 0x3#8) <<< 4)]
  | [s0, s1] => [lookup v (s0 >>> 2), lookup v (((s0 &&& 0x3#8) <<< 4) ||| (s1 >>> 4)),
      lookup v (s1 <<< 2)]
  | s0 :: s1 :: s2 :: rest =>
    lookup v (s0 >>> 2)
        :: lookup v (((s0 &&& 0x3#8) <<< 4) ||| (s1 >>> 4))
        :: lookup v ((s1 <<< 2) ||| (s2 >>> 6))
        :: lookup v s2 :: encBody v rest

theorem lookup_mem (v : Variant) (c : Byte) : (lookup v c).toNat ∈ Spec.symbols v.isUrl := by
  rw [lookup_toNat]
  exact sym_mem _ (Nat.mod_lt _ (by omega))

theorem v0_lookup (v : Variant) (c : Byte) : v0 v (lookup v c) = c.toNat % 64 := by
  rw [v0, lookup_toNat]
  exact value_sym _ (Nat.mod_lt _ (by omega))

theorem encBody_spec (v : Variant) (s : List Byte) :
    (∀ c ∈ encBody v s, c.toNat ∈ Spec.symbols v.isUrl) ∧
    (encBody v s).length = (8 * s.length + 5) / 6 ∧
    enc v s = encBody v s ++ pad v ((4 - (encBody v s).length % 4) % 4) ∧
    dec v (encBody v s) = s := by
  fun_induction encBody v s with
  | case1 => cases v <;> simp [enc, pad, dec]
  | case2 s0 =>
    have l0 := s0.isLt
    refine ⟨?_, by simp, by simp [enc], ?_⟩
    · intro c hc
      simp only [List.mem_cons, List.not_mem_nil, or_false] at hc
      rcases hc with rfl | rfl <;> exact lookup_mem _ _
    · have e1 : ((s0 &&& 0x3#8) <<< 4).toNat % 64 = s0.toNat % 4 * 16 := by rw [enc1']; omega
      simp only [dec, v0_lookup, enc0, e1, List.cons.injEq, and_true]
      apply BitVec.eq_of_toNat_eq
      simp only [BitVec.toNat_ofNat]; omega
  | case3 s0 s1 =>
    have l0 := s0.isLt
    have l1 := s1.isLt
    refine ⟨?_, by simp, by simp [enc], ?_⟩
    · intro c hc
      simp only [List.mem_cons, List.not_mem_nil, or_false] at hc
      rcases hc with rfl | rfl | rfl <;> exact lookup_mem _ _
    · have e2 : (s1 <<< 2).toNat % 64 = s1.toNat % 16 * 4 := by rw [enc2']; omega
      simp only [dec, v0_lookup, enc0, enc1, e2, List.cons.injEq, and_true]
      refine ⟨?_, ?_⟩ <;> apply BitVec.eq_of_toNat_eq <;> simp only [BitVec.toNat_ofNat] <;> omega
  | case4 s0 s1 s2 rest ih =>
    obtain ⟨i1, i2, i3, i4⟩ := ih
    have l0 := s0.isLt
    have l1 := s1.isLt
    have l2 := s2.isLt
    refine ⟨?_, ?_, ?_, ?_⟩
    · intro c hc
      simp only [List.mem_cons] at hc
      rcases hc with rfl | rfl | rfl | rfl | hc
      · exact lookup_mem _ _
      · exact lookup_mem _ _
      · exact lookup_mem _ _
      · exact lookup_mem _ _
      · exact i1 c hc
    · simp only [List.length_cons, i2]; omega
    · have : ∀ n : Nat, (n + 1 + 1 + 1 + 1) % 4 = n % 4 := by omega
      simp only [enc, List.length_cons, this, i3, List.cons_append]
    · simp only [dec, v0_lookup, enc0, enc1, enc2, i4, List.cons.injEq, and_true]
      refine ⟨?_, ?_, ?_⟩ <;> apply BitVec.eq_of_toNat_eq <;> simp only [BitVec.toNat_ofNat] <;> omega

theorem decode_enc (v : Variant) (s : List Byte) : decode v (enc v s) = .ok s := by
  obtain ⟨h1, h2, h3, h4⟩ := encBody_spec v s
  rw [h3]
  cases v with
  | url =>
    have := decode_good (v := .url) (k := 0) h1 (by omega) (by omega) (by simp)
    simpa [pad, h4] using this
  | std =>
    have := decode_good (v := .std) (k := (4 - (encBody .std s).length % 4) % 4) h1 (by omega)
      (by omega) (by intro; omega)
    simpa [pad, h4] using this

/-- Unused low bits of the last symbol of a group are zero. -/
def canon (v : Variant) : List Byte → Prop
  | _ :: _ :: _ :: _ :: rest => canon v rest
  | [_, _, c2] => v0 v c2 % 4 = 0
  | [_, c1] => v0 v c1 % 16 = 0
  | _ => True

theorem lookup_eq_iff {v : Variant} {c : Byte} (hc : c.toNat ∈ Spec.symbols v.isUrl) (b : Byte) :
    lookup v b = c ↔ b.toNat % 64 = v0 v c := by
  constructor
  · intro h
    rw [← h, v0_lookup]
  · intro h
    apply BitVec.eq_of_toNat_eq
    rw [lookup_toNat, h]
    exact sym_value hc

theorem enc_dec (v : Variant) (s : List Byte) (hl : s.length % 4 ≠ 1)
    (hs : ∀ c ∈ s, c.toNat ∈ Spec.symbols v.isUrl) :
    enc v (dec v s) = s ++ pad v ((4 - s.length % 4) % 4) ↔ canon v s := by
  fun_induction dec v s with
  | case1 c0 c1 c2 c3 rest ih =>
    have ih := ih (by simp only [List.length_cons] at hl; omega)
      (fun c hc => hs c (by simp [hc]))
    have w0 : v0 v c0 < 64 := value_lt (hs c0 (by simp))
    have w1 : v0 v c1 < 64 := value_lt (hs c1 (by simp))
    have w2 : v0 v c2 < 64 := value_lt (hs c2 (by simp))
    have w3 : v0 v c3 < 64 := value_lt (hs c3 (by simp))
    simp only [enc, canon, List.cons_append, List.length_cons, List.cons.injEq]
    have : ∀ n : Nat, (n + 1 + 1 + 1 + 1) % 4 = n % 4 := by omega
    rw [lookup_eq_iff (hs c0 (by simp)), lookup_eq_iff (hs c1 (by simp)),
      lookup_eq_iff (hs c2 (by simp)), lookup_eq_iff (hs c3 (by simp)), this, ih, enc0, enc1, enc2]
    simp only [BitVec.toNat_ofNat]
    constructor
    · rintro ⟨-, -, -, -, h⟩; exact h
    · intro h
      refine ⟨?_, ?_, ?_, ?_, h⟩ <;> omega
  | case2 c0 c1 c2 =>
    have w0 : v0 v c0 < 64 := value_lt (hs c0 (by simp))
    have w1 : v0 v c1 < 64 := value_lt (hs c1 (by simp))
    have w2 : v0 v c2 < 64 := value_lt (hs c2 (by simp))
    simp only [enc, canon, List.cons_append, List.length_cons, List.length_nil, List.nil_append,
      List.cons.injEq]
    rw [lookup_eq_iff (hs c0 (by simp)), lookup_eq_iff (hs c1 (by simp)),
      lookup_eq_iff (hs c2 (by simp)), enc0, enc1, enc2']
    simp only [BitVec.toNat_ofNat]
    constructor
    · rintro ⟨-, -, h, -⟩; omega
    · intro h
      refine ⟨?_, ?_, ?_, trivial⟩ <;> omega
  | case3 c0 c1 =>
    have w0 : v0 v c0 < 64 := value_lt (hs c0 (by simp))
    have w1 : v0 v c1 < 64 := value_lt (hs c1 (by simp))
    simp only [enc, canon, List.cons_append, List.length_cons, List.length_nil, List.nil_append,
      List.cons.injEq]
    rw [lookup_eq_iff (hs c0 (by simp)), lookup_eq_iff (hs c1 (by simp)), enc0, enc1']
    simp only [BitVec.toNat_ofNat]
    constructor
    · rintro ⟨-, h, -⟩; omega
    · intro h
      refine ⟨?_, ?_, trivial⟩ <;> omega
  | case4 s h1 h2 h3 =>
    match s, h1, h2, h3 with
    | [], _, _, _ => cases v <;> simp [enc, pad, canon]
    | [_], _, _, _ => simp at hl
    | [a, b], _, _, h3 => exact absurd rfl (h3 a b)
    | [a, b, c], _, h2, _ => exact absurd rfl (h2 a b c)
    | a :: b :: c :: d :: r, h1, _, _ => exact absurd rfl (h1 a b c d r)

/-- Spec-side canonicity from the last symbol only. -/
theorem canon_iff (v : Variant) (s : List Byte) (hl : s.length % 4 ≠ 1) :
    canon v s ↔ (∀ c, s.getLast? = some c →
      (s.length % 4 = 2 → v0 v c % 16 = 0) ∧ (s.length % 4 = 3 → v0 v c % 4 = 0)) := by
  fun_induction canon v s with
  | case1 c0 c1 c2 c3 rest ih =>
    have hl' : rest.length % 4 ≠ 1 := by simp only [List.length_cons] at hl; omega
    rw [ih hl']
    have hm : (c0 :: c1 :: c2 :: c3 :: rest).length % 4 = rest.length % 4 := by
      simp only [List.length_cons]; omega
    rw [hm]
    cases rest with
    | nil => simp
    | cons a l => simp [List.getLast?_cons_cons]
  | case2 => simp
  | case3 => simp
  | case4 s h1 h2 h3 =>
    match s, h1, h2, h3 with
    | [], _, _, _ => simp
    | [_], _, _, _ => simp at hl
    | [a, b], _, _, h3 => exact absurd rfl (h3 a b)
    | [a, b, c], _, h2, _ => exact absurd rfl (h2 a b c)
    | a :: b :: c :: d :: r, h1, _, _ => exact absurd rfl (h1 a b c d r)

end Verif.Base64
