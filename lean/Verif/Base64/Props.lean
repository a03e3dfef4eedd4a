import Verif.Base64.Lemmas
/-
Properties C01-C04 of `src/base64.cpp`.
-/
namespace Verif.Base64

/-- "foobar" minus two characters, as bytes: a non-trivial running example. -/
private def foob : List Byte := [0x66#8, 0x6f#8, 0x6f#8, 0x62#8]

/-- **C01** Both variants: encoding never misbehaves and decoding the encoder's
output returns the original bytes, for every byte sequence. -/
theorem C01_roundtrip (v : Variant) (s : List Byte) :
    ∃ e, encode v s = .ok e ∧ decode v e = .ok s :=
  ⟨enc v s, encode_eq v s, decode_enc v s⟩

example : encode .std foob = .ok (['Z','m','9','v','Y','g','=','='].map ch) := by decide +kernel
example : decode .std (['Z','m','9','v','Y','g','=','='].map ch) = .ok foob := by decide +kernel
example : encode .url [0xfb#8, 0xff#8] = .ok (['-','_','8'].map ch) := by decide +kernel

/-- **C02** The encoder's output is exactly the RFC 4648 encoding (padded for the
standard alphabet, unpadded for the URL-safe one); no write leaves the buffer. -/
theorem C02_rfc4648 (v : Variant) (s : List Byte) :
    ∃ e, encode v s = .ok e ∧
      e.map BitVec.toNat = Spec.rfc4648 (decide (v = .url)) (s.map BitVec.toNat) := by
  refine ⟨enc v s, encode_eq v s, ?_⟩
  rw [enc_rfc]
  cases v <;> rfl

/-- **C02** Length and alphabet of the output: `ceil(8n/6)` symbols, followed for
the standard variant by the `=` characters that complete `4*ceil(n/3)`. -/
theorem C02_shape (v : Variant) (s : List Byte) :
    ∃ body k, encode v s = .ok (body ++ List.replicate k (ch '=')) ∧
      body.length = (8 * s.length + 5) / 6 ∧
      (∀ c ∈ body, Spec.InAlphabet (decide (v = .url)) c.toNat) ∧
      (v = .std → body.length + k = 4 * ((s.length + 2) / 3)) ∧
      (v = .url → k = 0) := by
  obtain ⟨h1, h2, h3, -⟩ := encBody_spec v s
  have hu : v.isUrl = decide (v = .url) := by cases v <;> rfl
  cases v with
  | std =>
    refine ⟨encBody .std s, (4 - (encBody .std s).length % 4) % 4, ?_, h2, ?_, ?_, by simp⟩
    · rw [encode_eq, h3]; rfl
    · intro c hc; rw [← hu]; exact h1 c hc
    · intro _; rw [h2]; omega
  | url =>
    refine ⟨encBody .url s, 0, ?_, h2, ?_, by simp, by simp⟩
    · rw [encode_eq, h3]; rfl
    · intro c hc; rw [← hu]; exact h1 c hc

example : Spec.rfc4648 false [0x66, 0x6f, 0x6f, 0x62] = [90, 109, 57, 118, 89, 103, 61, 61] := by
  decide +kernel

/-- **C03** The decoder returns a value exactly for the accepted strings; for
every other string it returns nullopt; it never reads or writes out of bounds. -/
theorem C03_accepts (v : Variant) (s : List Byte) :
    ((∃ out, decode v s = .ok out) ↔ Spec.Accepts (decide (v = .url)) (s.map BitVec.toNat)) ∧
    (¬ Spec.Accepts (decide (v = .url)) (s.map BitVec.toNat) → decode v s = .nullopt) ∧
    decode v s ≠ .ub := by
  have hu : v.isUrl = decide (v = .url) := by cases v <;> rfl
  have key : Spec.Accepts (decide (v = .url)) (s.map BitVec.toNat) →
      ∃ out, decode v s = .ok out := by
    rintro ⟨body, k, hs, hk, hb, hl, hv⟩
    rw [← hu] at hb
    obtain ⟨b, t, hst, hbm, htm⟩ := List.map_eq_append_iff.1 hs
    have ht : t = List.replicate k (ch '=') := by
      rw [List.eq_replicate_iff]
      have hlen : t.length = k := by
        have := congrArg List.length htm; simpa using this
      refine ⟨hlen, fun c hc => ?_⟩
      have : c.toNat ∈ List.replicate k 61 := htm ▸ List.mem_map_of_mem hc
      have := (List.mem_replicate.1 this).2
      apply BitVec.eq_of_toNat_eq
      rw [this, ch_eq_toNat]
    subst hst ht
    have hlb : b.length = body.length := by rw [← hbm]; simp
    refine ⟨_, decode_good ?_ hk (by rw [hlb]; exact hl) ?_⟩
    · intro c hc
      exact hb _ (hbm ▸ List.mem_map_of_mem hc)
    · intro h
      have := hv (by simp [h])
      simpa using this
  have key2 : (∃ out, decode v s = .ok out) →
      Spec.Accepts (decide (v = .url)) (s.map BitVec.toNat) := by
    rintro ⟨out, ho⟩
    rcases decode_cases v s with h | ⟨body, k, hs, hk, hb, hl, hv, -⟩
    · rw [h] at ho; cases ho
    · refine ⟨body.map BitVec.toNat, k, ?_, hk, ?_, by simpa using hl, ?_⟩
      · rw [hs]; simp [ch_eq_toNat]
      · intro c hc
        obtain ⟨x, hx, rfl⟩ := List.mem_map.1 hc
        rw [← hu]
        exact hb x hx
      · intro h
        have : v = .std := by cases v <;> simp_all
        simpa using hv this
  refine ⟨⟨key2, key⟩, ?_, ?_⟩
  · intro hn
    rcases decode_cases v s with h | ⟨_, _, _, _, _, _, _, h⟩
    · exact h
    · exact absurd (key2 ⟨_, h⟩) hn
  · rcases decode_cases v s with h | ⟨_, _, _, _, _, _, _, h⟩ <;> rw [h] <;> simp

/-- **C03** The value returned is the concatenation of the symbols' six-bit
groups, cut in bytes, with the incomplete last byte dropped. -/
theorem C03_value (v : Variant) (s out : List Byte) (h : decode v s = .ok out) :
    ∃ body k, s = body ++ List.replicate k (ch '=') ∧ k ≤ 2 ∧
      (∀ c ∈ body, Spec.InAlphabet (decide (v = .url)) c.toNat) ∧
      out.map BitVec.toNat = Spec.decoded (decide (v = .url)) (body.map BitVec.toNat) ∧
      out.length = 6 * body.length / 8 := by
  have hu : v.isUrl = decide (v = .url) := by cases v <;> rfl
  rcases decode_cases v s with h' | ⟨body, k, hs, hk, hb, hl, -, h'⟩
  · rw [h'] at h; cases h
  · rw [h'] at h
    cases h
    refine ⟨body, k, hs, hk, ?_, ?_, ?_⟩
    · intro c hc; rw [← hu]; exact hb c hc
    · rw [← hu]; exact dec_decoded v body hl hb
    · rw [dec_length v body hl]
      split <;> omega

example : Spec.Accepts false ((['Z','m','9','v','Y','g','=','='].map ch).map BitVec.toNat) :=
  (C03_accepts .std _).1.1 ⟨foob, by decide +kernel⟩
/-- A `=` in the middle, a wrong length and a foreign character are rejected. -/
example : decode .std (['Z','=','9','v'].map ch) = .nullopt ∧
    decode .std (['Z','m','9'].map ch) = .nullopt ∧
    decode .url (['Z','m','9','+'].map ch) = .nullopt := by decide +kernel

/-- The unused low bits of the last symbol are zero (spec side, no model helper). -/
def CanonicalTail (urlSafe : Bool) (body : List Byte) : Prop :=
  ∀ c, body.getLast? = some c →
    (body.length % 4 = 2 → Spec.value urlSafe c.toNat % 16 = 0) ∧
    (body.length % 4 = 3 → Spec.value urlSafe c.toNat % 4 = 0)

/-- **C04** An accepted standard string is reproduced by re-encoding exactly when
its unused trailing bits are zero. -/
theorem C04_canonical_std (s out body : List Byte) (k : Nat)
    (hd : decode .std s = .ok out) (hs : s = body ++ List.replicate k (ch '='))
    (hb : ∀ c ∈ body, Spec.InAlphabet false c.toNat) :
    encode .std out = .ok s ↔ CanonicalTail false body := by
  rcases decode_cases .std s with h' | ⟨body', k', hs', hk', hb', hl', hv', h'⟩
  · rw [h'] at hd; cases hd
  have n1 : numEqs s = k := by
    rw [hs]; exact numEqs_append (fun c hc => ne_of_sym (v := .std) (hb c hc)) k
  have n2 : numEqs s = k' := by
    rw [hs']; exact numEqs_append (fun c hc => ne_of_sym (hb' c hc)) k'
  obtain rfl : k = k' := n1.symm.trans n2
  obtain rfl : body = body' := List.append_cancel_right (hs.symm.trans hs')
  rw [h'] at hd
  cases hd
  have hlen : s.length = body.length + k := by rw [hs]; simp
  have hv := hv' rfl
  have hkk : k = (4 - body.length % 4) % 4 := by omega
  rw [encode_eq]
  have hp : s = body ++ pad .std ((4 - body.length % 4) % 4) := by rw [hs, hkk]; rfl
  have e := enc_dec .std body hl' hb'
  rw [← hp] at e
  have c := canon_iff .std body hl'
  simp only [Res.ok.injEq]
  rw [e, c]
  rfl

/-- **C04** The same for the URL variant: reproduced exactly when it has no
padding characters and its unused trailing bits are zero. -/
theorem C04_canonical_url (s out body : List Byte) (k : Nat)
    (hd : decode .url s = .ok out) (hs : s = body ++ List.replicate k (ch '='))
    (hb : ∀ c ∈ body, Spec.InAlphabet true c.toNat) :
    encode .url out = .ok s ↔ k = 0 ∧ CanonicalTail true body := by
  rcases decode_cases .url s with h' | ⟨body', k', hs', hk', hb', hl', hv', h'⟩
  · rw [h'] at hd; cases hd
  have n1 : numEqs s = k := by
    rw [hs]; exact numEqs_append (fun c hc => ne_of_sym (v := .url) (hb c hc)) k
  have n2 : numEqs s = k' := by
    rw [hs']; exact numEqs_append (fun c hc => ne_of_sym (hb' c hc)) k'
  obtain rfl : k = k' := n1.symm.trans n2
  obtain rfl : body = body' := List.append_cancel_right (hs.symm.trans hs')
  rw [h'] at hd
  cases hd
  rw [encode_eq]
  have e := enc_dec .url body hl' hb'
  have c := canon_iff .url body hl'
  simp only [pad, List.append_nil] at e
  simp only [Res.ok.injEq]
  constructor
  · intro h
    have hk0 : k = 0 := by
      obtain ⟨m1, -, m3, -⟩ := encBody_spec .url (dec .url body)
      simp only [pad, List.append_nil] at m3
      have : numEqs s = 0 := by
        rw [← h, m3]
        have := numEqs_append (body := encBody .url (dec .url body))
          (fun c hc => ne_of_sym (m1 c hc)) 0
        simpa using this
      omega
    refine ⟨hk0, ?_⟩
    subst hk0
    have : s = body := by rw [hs]; simp
    rw [this] at h
    exact c.1 (e.1 h)
  · rintro ⟨rfl, h⟩
    have : s = body := by rw [hs]; simp
    rw [this]
    exact e.2 (c.2 h)

/-- **C04** Encoding is injective. -/
theorem C04_injective (v : Variant) (s t : List Byte) (h : encode v s = encode v t) : s = t := by
  rw [encode_eq, encode_eq] at h
  have h' : enc v s = enc v t := by injection h
  have := decode_enc v s
  rw [h', decode_enc v t] at this
  injection this with this
  exact this.symm

/-- **C04** Decoding is not injective: a string with stray trailing bits is
accepted and decodes like the canonical one. -/
theorem C04_noncanonical_accepted :
    decode .std (['Z','g','=','='].map ch) = .ok [0x66#8] ∧
    decode .std (['Z','h','=','='].map ch) = .ok [0x66#8] ∧
    decode .url (['Z','m','9','v','=','='].map ch) = .ok [0x66#8, 0x6f#8, 0x6f#8] := by
  decide +kernel

example : CanonicalTail false (['Z','g'].map ch) ∧ ¬ CanonicalTail false (['Z','h'].map ch) := by
  constructor
  · intro c hc
    cases hc
    decide +kernel
  · intro h
    exact absurd ((h (ch 'h') rfl).1 rfl) (by decide +kernel)

end Verif.Base64
