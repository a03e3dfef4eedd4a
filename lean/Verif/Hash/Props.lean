import Verif.Hash.Model

/-! C59 and C60: the two string hashes. -/

namespace Verif.Hash

/-! ### Specifications -/

/-- 32-bit FNV-1a as published: for every octet, xor it into the low byte and multiply by the
prime, starting from the offset basis; on natural numbers. -/
def stdStep (h : Nat) (b : Byte) : Nat := ((h ^^^ b.toNat) * 0x01000193) % 2 ^ 32

def stdFnv1a (bytes : List Byte) : Nat := bytes.foldl stdStep 0x811C9DC5

/-- A byte is ASCII. -/
def Ascii (b : Byte) : Prop := b.toNat < 128

instance (b : Byte) : Decidable (Ascii b) := by unfold Ascii; infer_instance

/-- Two octets read as a little-endian 16-bit number. -/
def le16 (a b : Byte) : BitVec 32 := BitVec.ofNat 32 (a.toNat + 256 * b.toNat)

/-- Paul Hsieh's SuperFastHash, by recursion on the octets: blocks of four, then the rest. -/
def sfhBlocks : BitVec 32 → List Byte → BitVec 32
  | h, a :: b :: c :: d :: rest =>
    let h := h + le16 a b
    let h := (h <<< 16) ^^^ ((le16 c d <<< 11) ^^^ h)
    sfhBlocks (h + (h >>> 11)) rest
  | h, [a, b, c] =>
    let h := h + le16 a b
    let h := h ^^^ (h <<< 16)
    let h := h ^^^ (c.signExtend 32 <<< 18)
    h + (h >>> 11)
  | h, [a, b] =>
    let h := h + le16 a b
    let h := h ^^^ (h <<< 11)
    h + (h >>> 17)
  | h, [a] =>
    let h := h + a.signExtend 32
    let h := h ^^^ (h <<< 10)
    h + (h >>> 1)
  | h, [] => h

def superFastHash (bytes : List Byte) : BitVec 32 :=
  if bytes = [] then 0#32
  else
    let h := sfhBlocks (BitVec.ofNat 32 bytes.length) bytes
    let h := h ^^^ (h <<< 3)
    let h := h + (h >>> 5)
    let h := h ^^^ (h <<< 4)
    let h := h + (h >>> 17)
    let h := h ^^^ (h <<< 25)
    h + (h >>> 6)

/-! ### C59 -/

theorem charTo32_toNat {sc : Bool} {b : Byte} (h : sc = false ∨ Ascii b) :
    (charTo32 sc b).toNat = b.toNat := by
  have hb := b.isLt
  unfold charTo32
  cases sc
  · simp; omega
  · simp only [Bool.true_eq_false, false_or, Ascii] at h
    have hm : b.msb = false := by rw [BitVec.msb_eq_false_iff_two_mul_lt]; omega
    rw [if_pos rfl, BitVec.signExtend_eq_setWidth_of_msb_false hm]
    simp; omega

theorem fnvStep_eq {sc : Bool} {b : Byte} (h : sc = false ∨ Ascii b) (x : BitVec 32) :
    (fnvStep sc x b).toNat = stdStep x.toNat b := by
  have hp : (16777619#32).toNat = 0x01000193 := by decide
  unfold fnvStep stdStep
  rw [BitVec.toNat_mul, BitVec.toNat_xor, charTo32_toNat h, hp]

theorem fnvLoop_eq {sc : Bool} {bs : List Byte} (h : sc = false ∨ ∀ b ∈ bs, Ascii b) :
    ∀ x : BitVec 32, (fnvLoop sc x bs).toNat = bs.foldl stdStep x.toNat := by
  induction bs with
  | nil => intro x; rfl
  | cons b rest ih =>
    intro x
    have hr : sc = false ∨ ∀ b ∈ rest, Ascii b :=
      h.imp id fun hh c hc => hh c (List.mem_cons_of_mem _ hc)
    rw [fnvLoop, List.foldl_cons, ih hr,
      fnvStep_eq (h.imp id fun hh => hh b (List.mem_cons_self ..))]

/-- C59: on ASCII data, and on any data if `char` is unsigned, `fnv1a` is FNV-1a. -/
theorem C59_standard (sc : Bool) (bs : List Byte) (h : sc = false ∨ ∀ b ∈ bs, Ascii b) :
    (fnv1a sc bs).toNat = stdFnv1a bs := by
  have hp : (2166136261#32).toNat = 0x811C9DC5 := by decide
  rw [fnv1a, fnvLoop_eq h, hp, stdFnv1a]

/-- The published test vectors for "" and "a" and "foobar". -/
example : stdFnv1a [] = 0x811c9dc5 ∧ stdFnv1a [0x61#8] = 0xe40c292c ∧
    stdFnv1a [0x66#8, 0x6f#8, 0x6f#8, 0x62#8, 0x61#8, 0x72#8] = 0xbf9cf968 ∧
    (∀ b ∈ [0x66#8, 0x6f#8, 0x6f#8, 0x62#8, 0x61#8, 0x72#8], Ascii b) := by decide +kernel

/-- C59, beyond ASCII with signed `char`: not the standard hash. -/
theorem C59_high_bytes_violated : (fnv1a true [0x80#8]).toNat ≠ stdFnv1a [0x80#8] := by
  decide +kernel

/-- C59: hashing a concatenation continues from the hash of the first part. -/
theorem C59_incremental (sc : Bool) (a b : List Byte) :
    fnv1a sc (a ++ b) = fnvLoop sc (fnv1a sc a) b := by
  unfold fnv1a
  generalize (2166136261#32) = x
  induction a generalizing x with
  | nil => rfl
  | cons c cs ih => simp [fnvLoop, ih]

theorem prime_inj {x y : BitVec 32} (h : x * 16777619#32 = y * 16777619#32) : x = y := by
  have hinv : 16777619#32 * 899433627#32 = 1#32 := by decide
  have : x * 16777619#32 * 899433627#32 = y * 16777619#32 * 899433627#32 := by rw [h]
  rwa [BitVec.mul_assoc, BitVec.mul_assoc, hinv, BitVec.mul_one, BitVec.mul_one] at this

theorem charTo32_inj {sc : Bool} {a b : Byte} (h : charTo32 sc a = charTo32 sc b) : a = b := by
  apply BitVec.eq_of_getLsbD_eq
  intro i hi
  have := congrArg (fun x : BitVec 32 => x.getLsbD i) h
  unfold charTo32 at this
  have h32 : i < 32 := by omega
  cases sc <;> simp only [BitVec.getLsbD_signExtend, BitVec.getLsbD_setWidth, hi, h32, if_true,
    decide_true, Bool.true_and, Bool.false_eq_true, if_false] at this <;> exact this

theorem fnvLoop_inj {sc : Bool} {bs : List Byte} : ∀ {x y : BitVec 32},
    fnvLoop sc x bs = fnvLoop sc y bs → x = y := by
  induction bs with
  | nil => exact id
  | cons b rest ih =>
    intro x y h
    have := prime_inj (ih h)
    have h2 := congrArg (· ^^^ charTo32 sc b) this
    simpa [BitVec.xor_assoc] using h2

/-- C59: strings that differ in exactly one byte never collide, and neither do different
continuations-by-prefix: the hash is injective in each single position. -/
theorem C59_single_byte (sc : Bool) (pre post : List Byte) (a b : Byte) (hab : a ≠ b) :
    fnv1a sc (pre ++ a :: post) ≠ fnv1a sc (pre ++ b :: post) := by
  intro h
  rw [C59_incremental, C59_incremental] at h
  simp only [fnvLoop] at h
  have h1 := prime_inj (fnvLoop_inj h)
  have h2 := congrArg (fnv1a sc pre ^^^ ·) h1
  simp only [← BitVec.xor_assoc, BitVec.xor_self, BitVec.zero_xor] at h2
  exact hab (charTo32_inj h2)

example : (0x61#8 : Byte) ≠ 0xE1#8 := by decide

/-- C59: the overload for arrays hashes a string literal without its terminator and refuses an
array that is not terminated. -/
theorem C59_literal (sc : Bool) (s : List Byte) :
    fnv1aArray sc (s ++ [0#8]) (by simp) = some (fnv1a sc s) ∧
    ∀ c, c ≠ 0#8 → fnv1aArray sc (s ++ [c]) (by simp) = none := by
  constructor
  · simp [fnv1aArray]
  · intro c hc
    simp [fnv1aArray, hc]

/-! ### C60 -/

theorem get16_eq {sc : Bool} {a b : Byte} (h : sc = false ∨ (Ascii a ∧ Ascii b)) :
    ((charTo32 sc a ||| (charTo32 sc b <<< 8)).setWidth 16).setWidth 32 = le16 a b := by
  have ha := charTo32_toNat (sc := sc) (b := a) (h.imp id And.left)
  have hb := charTo32_toNat (sc := sc) (b := b) (h.imp id And.right)
  have la := a.isLt
  have lb := b.isLt
  apply BitVec.eq_of_toNat_eq
  simp only [le16, BitVec.toNat_setWidth, BitVec.toNat_or, BitVec.toNat_shiftLeft, ha, hb,
    BitVec.toNat_ofNat]
  have h1 : b.toNat <<< 8 % 2 ^ 32 = 2 ^ 8 * b.toNat := by
    rw [Nat.shiftLeft_eq]; omega
  rw [h1, Nat.or_comm, ← Nat.two_pow_add_eq_or_of_lt la]
  omega

/-- Reads succeed in the list and the spec's recursion follows the loop. -/
theorem loop_eq {sc : Bool} (bs : List Byte) (h : sc = false ∨ ∀ b ∈ bs, Ascii b) :
    ∀ (n p : Nat) (x : BitVec 32), p ≤ bs.length → n = (bs.length - p) / 4 →
      ((hsiehLoop sc bs n x p).bind fun r => hsiehEnd sc bs ((bs.length - p) % 4) r.1 r.2) =
        some (sfhBlocks x (bs.drop p)) := by
  have hget : ∀ i, i < bs.length → ∃ b, bs[i]? = some b ∧ (sc = false ∨ Ascii b) := by
    intro i hi
    exact ⟨bs[i], by simp [hi], h.imp id fun hh => hh _ (List.getElem_mem hi)⟩
  have hdrop : ∀ i, ∀ b, bs[i]? = some b → bs.drop i = b :: bs.drop (i + 1) := by
    intro i b hb
    obtain ⟨hi, rfl⟩ := List.getElem?_eq_some_iff.mp hb
    exact (List.drop_eq_getElem_cons hi)
  have hasc : ∀ a b : Byte, (sc = false ∨ Ascii a) → (sc = false ∨ Ascii b) →
      (sc = false ∨ (Ascii a ∧ Ascii b)) := by
    intro a b h1 h2
    rcases h1 with h1 | h1
    · exact Or.inl h1
    · rcases h2 with h2 | h2
      · exact Or.inl h2
      · exact Or.inr ⟨h1, h2⟩
  intro n
  induction n with
  | zero =>
    intro p x hp hn
    simp only [hsiehLoop, Option.bind_some]
    have hr : (bs.length - p) % 4 = bs.length - p := by omega
    rw [hr]
    have hlt : bs.length - p < 4 := by omega
    generalize hm : bs.length - p = m
    rw [hm] at hlt
    match m, hlt, hm with
    | 0, _, hm =>
      rw [List.drop_eq_nil_of_le (by omega)]
      simp [hsiehEnd, sfhBlocks]
    | 1, _, hm =>
      obtain ⟨a, ha, _⟩ := hget p (by omega)
      rw [hdrop p a ha, List.drop_eq_nil_of_le (by omega)]
      simp [hsiehEnd, sfhBlocks, ha]
    | 2, _, hm =>
      obtain ⟨a, ha, ca⟩ := hget p (by omega)
      obtain ⟨b, hb, cb⟩ := hget (p + 1) (by omega)
      rw [hdrop p a ha, hdrop (p + 1) b hb, List.drop_eq_nil_of_le (by omega)]
      simp only [hsiehEnd, sfhBlocks, get16bits, ha, hb, Option.bind_eq_bind, Option.bind_some,
        Option.pure_def, get16_eq (hasc a b ca cb)]
    | 3, _, hm =>
      obtain ⟨a, ha, ca⟩ := hget p (by omega)
      obtain ⟨b, hb, cb⟩ := hget (p + 1) (by omega)
      obtain ⟨c, hc, _⟩ := hget (p + 2) (by omega)
      rw [hdrop p a ha, hdrop (p + 1) b hb, hdrop (p + 2) c hc, List.drop_eq_nil_of_le (by omega)]
      simp only [hsiehEnd, sfhBlocks, get16bits, ha, hb, hc, Option.bind_eq_bind, Option.bind_some,
        Option.pure_def, get16_eq (hasc a b ca cb)]
  | succ k ih =>
    intro p x hp hn
    obtain ⟨a, ha, ca⟩ := hget p (by omega)
    obtain ⟨b, hb, cb⟩ := hget (p + 1) (by omega)
    obtain ⟨c, hc, cc⟩ := hget (p + 2) (by omega)
    obtain ⟨d, hd, cd⟩ := hget (p + 3) (by omega)
    rw [hdrop p a ha, hdrop (p + 1) b hb, hdrop (p + 2) c hc, hdrop (p + 3) d hd]
    have hmod : (bs.length - p) % 4 = (bs.length - (p + 4)) % 4 := by omega
    rw [hmod]
    simp only [hsiehLoop, get16bits, ha, hb, hc, hd, Option.bind_eq_bind, Option.bind_some,
      Option.pure_def, get16_eq (hasc a b ca cb), get16_eq (hasc c d cc cd), sfhBlocks]
    exact ih (p + 4) _ (by omega) (by omega)

/-- C60: on ASCII data, and on any data if `char` is unsigned, `hsieh` reads only inside the
data and is SuperFastHash, for every length. -/
theorem C60_superfasthash (sc : Bool) (bs : List Byte) (h : sc = false ∨ ∀ b ∈ bs, Ascii b) :
    hsieh sc bs = some (superFastHash bs) := by
  unfold hsieh superFastHash
  by_cases hn : bs = []
  · simp [hn]
  · have hl : bs.length ≠ 0 := by simpa using hn
    have := loop_eq bs h (bs.length / 4) 0 (BitVec.ofNat 32 bs.length) (by omega) (by simp)
    simp only [Nat.sub_zero, List.drop_zero] at this
    rw [if_neg hl, if_neg hn]
    generalize hsiehLoop sc bs (bs.length / 4) (BitVec.ofNat 32 bs.length) 0 = r at this
    rcases r with _ | ⟨x, p⟩
    · simp at this
    · simp only [Option.bind_some] at this
      simp [this, avalanche]

example : ∀ b ∈ [0x61#8, 0x62#8, 0x63#8, 0x64#8, 0x65#8, 0x66#8, 0x67#8], Ascii b := by decide

/-- Reading never leaves the data, whatever the bytes. -/
theorem C60_in_bounds (sc : Bool) (bs : List Byte) : (hsieh sc bs).isSome := by
  have hget : ∀ i, i < bs.length → ∃ b, bs[i]? = some b := fun i hi => ⟨bs[i], by simp [hi]⟩
  have loop : ∀ (n p : Nat) (x : BitVec 32), p ≤ bs.length → n = (bs.length - p) / 4 →
      ((hsiehLoop sc bs n x p).bind fun r => hsiehEnd sc bs ((bs.length - p) % 4) r.1 r.2).isSome := by
    intro n
    induction n with
    | zero =>
      intro p x hp hn
      simp only [hsiehLoop, Option.bind_some]
      have hr : (bs.length - p) % 4 = bs.length - p := by omega
      rw [hr]
      have hlt : bs.length - p < 4 := by omega
      generalize hm : bs.length - p = m
      rw [hm] at hlt
      match m, hlt, hm with
      | 0, _, hm => simp [hsiehEnd]
      | 1, _, hm =>
        obtain ⟨a, ha⟩ := hget p (by omega)
        simp [hsiehEnd, ha]
      | 2, _, hm =>
        obtain ⟨a, ha⟩ := hget p (by omega)
        obtain ⟨b, hb⟩ := hget (p + 1) (by omega)
        simp [hsiehEnd, get16bits, ha, hb]
      | 3, _, hm =>
        obtain ⟨a, ha⟩ := hget p (by omega)
        obtain ⟨b, hb⟩ := hget (p + 1) (by omega)
        obtain ⟨c, hc⟩ := hget (p + 2) (by omega)
        simp [hsiehEnd, get16bits, ha, hb, hc]
    | succ k ih =>
      intro p x hp hn
      obtain ⟨a, ha⟩ := hget p (by omega)
      obtain ⟨b, hb⟩ := hget (p + 1) (by omega)
      obtain ⟨c, hc⟩ := hget (p + 2) (by omega)
      obtain ⟨d, hd⟩ := hget (p + 3) (by omega)
      have hmod : (bs.length - p) % 4 = (bs.length - (p + 4)) % 4 := by omega
      rw [hmod]
      simp only [hsiehLoop, get16bits, ha, hb, hc, hd, Option.bind_eq_bind, Option.bind_some,
        Option.pure_def]
      exact ih (p + 4) _ (by omega) (by omega)
  unfold hsieh
  split
  · rfl
  · have := loop (bs.length / 4) 0 (BitVec.ofNat 32 bs.length) (by omega) (by simp)
    simp only [Nat.sub_zero] at this
    generalize hsiehLoop sc bs (bs.length / 4) (BitVec.ofNat 32 bs.length) 0 = r at this
    rcases r with _ | ⟨x, p⟩
    · simp at this
    · simp only [Option.bind_some] at this
      obtain ⟨y, hy⟩ := Option.isSome_iff_exists.mp this
      simp [hy]

/-- C60, beyond ASCII with signed `char`: the first byte's sign extension erases the second
byte, so that every pair of two-byte strings starting with the same byte from 0x80 on
collides; standard SuperFastHash tells them apart. -/
theorem C60_high_bytes_violated :
    (∀ c a b : Byte, ¬ Ascii c → hsieh true [c, a] = hsieh true [c, b]) ∧
    superFastHash [0x80#8, 1#8] ≠ superFastHash [0x80#8, 2#8] := by
  constructor
  · intro c a b hc
    have key : ∀ a : Byte, (charTo32 true c ||| (charTo32 true a <<< 8)).setWidth 16 =
        (charTo32 true c).setWidth 16 := by
      intro a
      have hm : c.msb = true := by
        rw [BitVec.msb_eq_true_iff_two_mul_ge]
        unfold Ascii at hc; omega
      apply BitVec.eq_of_getLsbD_eq
      intro i hi
      by_cases h8 : i < 8
      · simp [h8]
      · have : (charTo32 true c).getLsbD i = true := by
          simp [charTo32, BitVec.getLsbD_signExtend, h8, hm]; omega
        simp [this, hi]
    have h16 : ∀ a : Byte, get16bits true [c, a] 0 = some ((charTo32 true c).setWidth 16) := by
      intro a
      rw [← key a]; rfl
    have e : ∀ a : Byte, [c, a].length = 2 := fun _ => rfl
    have h0 : 2 / 4 = 0 := rfl
    have h2 : 2 % 4 = 2 := rfl
    simp only [hsieh, e, h0, h2, hsiehLoop, hsiehEnd, h16, Option.bind_eq_bind, Option.bind_some]
  · decide +kernel

end Verif.Hash
