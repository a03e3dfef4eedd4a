import Verif.BinaryRW.MemSpec
/-
Lemmas for C137: bytes of regions after a store.
-/
namespace Verif.BinaryRW

theorem splice_get {l bs : List Byte} {off : Nat} (h : off + bs.length ≤ l.length) (i : Nat) :
    (l.take off ++ bs ++ l.drop (off + bs.length))[i]? =
      if i < off then l[i]? else if i < off + bs.length then bs[i - off]? else l[i]? := by
  have h1 : (l.take off).length = off := by rw [List.length_take]; omega
  rw [List.append_assoc, List.getElem?_append, h1]
  split
  · rw [List.getElem?_take, if_pos (by assumption)]
  · rw [List.getElem?_append]
    by_cases h2 : i < off + bs.length
    · rw [if_pos (by omega), if_pos h2]
    · rw [if_neg (by omega), if_neg h2, List.getElem?_drop]
      congr 1; omega

theorem splice_length {l bs : List Byte} {off : Nat} (h : off + bs.length ≤ l.length) :
    (l.take off ++ bs ++ l.drop (off + bs.length)).length = l.length := by
  simp only [List.length_append, List.length_take, List.length_drop]; omega

theorem cut_get (l : List Byte) (a k i : Nat) : ((l.drop a).take k)[i]? = if i < k then l[a + i]? else none := by
  rw [List.getElem?_take]; split
  · rw [List.getElem?_drop]
  · rfl

theorem bytes_some {m : Mem} {d : Nat × Nat} {n : Nat} {bs : List Byte} :
    m.bytes (some d) n = some bs ↔ ∃ l, m.blocks d.1 = some l ∧ d.2 + n ≤ l.length ∧ bs = (l.drop d.2).take n := by
  obtain ⟨b, off⟩ := d
  simp only [Mem.bytes]
  cases h : m.blocks b with
  | none => simp
  | some l =>
    by_cases h2 : off + n ≤ l.length
    · simp [h2, eq_comm]
    · simp [h2]

theorem bytes_length {m : Mem} {p : Ptr} {n : Nat} {bs : List Byte} (h : m.bytes p n = some bs) : bs.length = n := by
  cases p with
  | none =>
    simp only [Mem.bytes] at h
    split at h
    · cases h; simp [*]
    · cases h
  | some d =>
    obtain ⟨l, _, h2, rfl⟩ := bytes_some.1 h
    simp only [List.length_take, List.length_drop]; omega

theorem bytes_null {m : Mem} {n : Nat} {bs : List Byte} (h : m.bytes none n = some bs) : n = 0 := by
  simp only [Mem.bytes] at h
  split at h
  · assumption
  · cases h

/-- A part of a region. -/
theorem bytes_sub {m : Mem} {d : Nat × Nat} {len : Nat} {buf : List Byte} (h : m.bytes (some d) len = some buf) {pos n : Nat}
    (hp : pos + n ≤ len) : m.bytes (some (d.1, d.2 + pos)) n = some ((buf.drop pos).take n) := by
  obtain ⟨l, h1, h2, rfl⟩ := bytes_some.1 h
  refine bytes_some.2 ⟨l, h1, by simp only; omega, ?_⟩
  apply List.ext_getElem?
  intro i
  simp only [cut_get]
  split
  · rw [if_pos (by omega)]; congr 1; omega
  · rfl

theorem advance_some {m : Mem} {d : Nat × Nat} {len : Nat} {buf : List Byte} (h : m.bytes (some d) len = some buf) {pos : Nat}
    (hp : pos ≤ len) : m.advance (some d) pos = some (some (d.1, d.2 + pos)) := by
  obtain ⟨l, h1, h2, rfl⟩ := bytes_some.1 h
  obtain ⟨b, off⟩ := d
  simp only [Mem.advance]
  simp only at h1 h2
  rw [h1]
  simp only
  rw [if_pos (by omega)]

theorem set_blocks (m : Mem) (b : Nat) (x : Option (List Byte)) (c : Nat) :
    (m.set b x).blocks c = if c = b then x else m.blocks c := rfl

theorem bytes_block {m m' : Mem} {d : Nat × Nat} (h : m'.blocks d.1 = m.blocks d.1) (n : Nat) :
    m'.bytes (some d) n = m.bytes (some d) n := by
  obtain ⟨b, off⟩ := d
  simp only [Mem.bytes]; simp only at h; rw [h]

theorem store_other {m : Mem} {d : Nat × Nat} {bs : List Byte} {c : Nat} (h : c ≠ d.1) :
    (m.store d bs).blocks c = m.blocks c := by
  unfold Mem.store
  split
  · rfl
  · rw [set_blocks, if_neg h]

theorem store_same {m : Mem} {d : Nat × Nat} {bs : List Byte} {l : List Byte} (h : m.blocks d.1 = some l) :
    (m.store d bs).blocks d.1 = some (l.take d.2 ++ bs ++ l.drop (d.2 + bs.length)) := by
  unfold Mem.store
  rw [h]
  simp only
  rw [set_blocks, if_pos rfl]

theorem bytes_store {m : Mem} {d : Nat × Nat} {n : Nat} {old bs : List Byte} (h : m.bytes (some d) n = some old)
    (hl : bs.length = n) : (m.store d bs).bytes (some d) n = some bs := by
  obtain ⟨l, h1, h2, rfl⟩ := bytes_some.1 h
  subst hl
  refine bytes_some.2 ⟨_, store_same h1, by rw [splice_length h2]; exact h2, ?_⟩
  apply List.ext_getElem?
  intro i
  rw [cut_get]
  split
  · rw [splice_get h2, if_neg (by omega), if_pos (by omega)]; congr 1; omega
  · exact List.getElem?_eq_none (by omega)

theorem same_store {m : Mem} {d : Nat × Nat} {n : Nat} {old bs : List Byte} (h : m.bytes (some d) n = some old)
    (hl : bs.length = n) : Same m (m.store d bs) (some d) n := by
  intro q k hq
  obtain ⟨l, h1, h2, rfl⟩ := bytes_some.1 h
  subst hl
  cases q with
  | none => rfl
  | some q =>
    by_cases hb : q.1 = d.1
    · have hq' : d.2 + bs.length ≤ q.2 ∨ q.2 + k ≤ d.2 := by
        rcases hq with hq | hq
        · exact absurd hb.symm hq
        · exact hq
      obtain ⟨qb, qo⟩ := q
      simp only at hb hq'
      subst hb
      simp only [Mem.bytes]
      rw [store_same h1, h1]
      simp only
      rw [splice_length h2]
      split
      · congr 1
        apply List.ext_getElem?
        intro i
        rw [cut_get, cut_get]
        split
        · rw [splice_get h2]
          rcases hq' with hq' | hq'
          · rw [if_neg (by omega), if_neg (by omega)]
          · rw [if_pos (by omega)]
        · rfl
      · rfl
    · exact bytes_block (store_other hb) k

/-- A store into a part of a region. -/
theorem bytes_store_sub {m : Mem} {d : Nat × Nat} {len : Nat} {buf bs : List Byte} (h : m.bytes (some d) len = some buf)
    {pos : Nat} (hp : pos + bs.length ≤ len) :
    (m.store (d.1, d.2 + pos) bs).bytes (some d) len = some (buf.take pos ++ bs ++ buf.drop (pos + bs.length)) := by
  have hbl := bytes_length h
  obtain ⟨l, h1, h2, rfl⟩ := bytes_some.1 h
  have h3 : d.2 + pos + bs.length ≤ l.length := by omega
  refine bytes_some.2 ⟨_, store_same (d := (d.1, d.2 + pos)) h1, by rw [splice_length h3]; exact h2, ?_⟩
  apply List.ext_getElem?
  intro i
  have h4 : d.2 + pos + bs.length ≤ l.length := h3
  rw [splice_get (by omega), cut_get, cut_get]
  show _ = if i < len then (l.take (d.2 + pos) ++ bs ++ l.drop (d.2 + pos + bs.length))[d.2 + i]? else none
  rw [splice_get h4]
  rw [show d.2 + i - (d.2 + pos) = i - pos by omega]
  simp only [Nat.add_assoc, Nat.add_lt_add_iff_left]
  by_cases hi : i < len
  · simp only [hi, if_true]
  · simp only [hi, if_false]
    rw [if_neg (by omega), if_neg (by omega)]

theorem memcpy_some {m : Mem} {d s : Nat × Nat} {n : Nat} {bs old : List Byte} (hs : m.bytes (some s) n = some bs)
    (hd : m.bytes (some d) n = some old) (ha : ¬ (d.1 = s.1 ∧ d.2 < s.2 + n ∧ s.2 < d.2 + n)) :
    m.memcpy (some d) (some s) n = some (m.store d bs) := by
  simp only [Mem.memcpy]
  rw [hs, hd]
  simp only
  rw [if_neg ha]

theorem abs_some {m : Mem} {c : PCur} {C : Cursor} : c.abs m = some C ↔
    m.bytes c.data c.len = some C.buf ∧ c.pos = C.pos ∧ c.err = C.err := by
  unfold PCur.abs
  obtain ⟨b, p, e⟩ := C
  cases h : m.bytes c.data c.len with
  | none => simp
  | some x => simp

theorem abs_left {m : Mem} {c : PCur} {C : Cursor} (h : c.abs m = some C) : c.left = C.left := by
  obtain ⟨h1, h2, h3⟩ := abs_some.1 h
  unfold PCur.left Cursor.left
  rw [bytes_length h1, h2]

theorem pleft_eq {c : PCur} (h : c.Inside) : c.left = c.len - c.pos := by
  unfold PCur.left usub
  obtain ⟨h1, h2⟩ := h
  rw [show c.len + (2 ^ 64 - c.pos) = (c.len - c.pos) + 2 ^ 64 by omega, Nat.add_mod_right, Nat.mod_eq_of_lt (by omega)]

theorem puadd_eq {c : PCur} (h : c.Inside) {n : Nat} (hn : n ≤ c.len - c.pos) : uadd c.pos n = c.pos + n := by
  unfold uadd
  obtain ⟨h1, h2⟩ := h
  exact Nat.mod_eq_of_lt (by omega)

theorem Apart.symm {p q : Ptr} {n k : Nat} (h : Apart p n q k) : Apart q k p n := by
  cases p <;> cases q <;> simp only [Apart] at * <;> try trivial
  rcases h with h | h | h
  · exact .inl fun e => h e.symm
  · exact .inr (.inr h)
  · exact .inr (.inl h)

end Verif.BinaryRW
