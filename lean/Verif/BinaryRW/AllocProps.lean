import Verif.BinaryRW.AllocLemmas
/-
C133: the memory that the binary reader asks for.
-/
namespace Verif.BinaryRW
open Spec

/-! ### Specification -/

mutual
/-- Objects have a size: `sizeof` is never 0. -/
def Sized : Ty → Prop
  | .scalar n => 0 < n
  | .str => True
  | .vec t => Sized t
  | .map _ k v => Sized k ∧ Sized v
  | .set _ t => Sized t
  | .opt t => Sized t
  | .pair a b => Sized a ∧ Sized b
  | .variant ts => AllSized ts
def AllSized : List Ty → Prop
  | [] => True
  | t :: ts => Sized t ∧ AllSized ts
end

mutual
/-- There are no strings and vectors in the type, and nodes take at most `W` bytes. -/
def Nodes {σ : Type} (M : Memory σ) (W : Nat) : Ty → Prop
  | .scalar n => 0 < n
  | .str => False
  | .vec _ => False
  | .map _ k v => M.mapNode k v ≤ W ∧ Nodes M W k ∧ Nodes M W v
  | .set _ t => M.setNode t ≤ W ∧ Nodes M W t
  | .opt t => Nodes M W t
  | .pair a b => Nodes M W a ∧ Nodes M W b
  | .variant ts => AllNodes M W ts
def AllNodes {σ : Type} (M : Memory σ) (W : Nat) : List Ty → Prop
  | [] => True
  | t :: ts => Nodes M W t ∧ AllNodes M W ts
end

/-- The function ended, with or without an exception. -/
def Ends {σ α : Type} (o : Out σ α) (v : α) (c : Cursor) (s : σ) : Prop := o = .threw v c s ∨ o = .ok v c s

mutual
theorem sized_cheap {σ : Type} (M : Memory σ) {w : Nat → Nat} {W : Nat} (hw : ∀ n, w n ≤ W) : ∀ t, Sized t → Cheap M w W t
  | .scalar _, h => h
  | .str, _ => fun _ _ => hw _
  | .vec t, h => ⟨fun _ _ => hw _, sized_cheap M hw t h⟩
  | .map _ k v, h => ⟨hw _, sized_cheap M hw k h.1, sized_cheap M hw v h.2⟩
  | .set _ t, h => ⟨hw _, sized_cheap M hw t h⟩
  | .opt t, h => sized_cheap M hw t h
  | .pair a b, h => ⟨sized_cheap M hw a h.1, sized_cheap M hw b h.2⟩
  | .variant ts, h => allSized_cheap M hw ts h
theorem allSized_cheap {σ : Type} (M : Memory σ) {w : Nat → Nat} {W : Nat} (hw : ∀ n, w n ≤ W) : ∀ ts, AllSized ts →
    AllCheap M w W ts
  | [], _ => trivial
  | t :: ts, h => ⟨sized_cheap M hw t h.1, allSized_cheap M hw ts h.2⟩
end

mutual
theorem nodes_cheap {σ : Type} (M : Memory σ) {W : Nat} : ∀ t, Nodes M W t → Cheap M id W t
  | .scalar _, h => h
  | .str, h => h.elim
  | .vec _, h => h.elim
  | .map _ k v, h => ⟨h.1, nodes_cheap M k h.2.1, nodes_cheap M v h.2.2⟩
  | .set _ t, h => ⟨h.1, nodes_cheap M t h.2⟩
  | .opt t, h => nodes_cheap M t h
  | .pair a b, h => ⟨nodes_cheap M a h.1, nodes_cheap M b h.2⟩
  | .variant ts, h => allNodes_cheap M ts h
theorem allNodes_cheap {σ : Type} (M : Memory σ) {W : Nat} : ∀ ts, AllNodes M W ts → AllCheap M id W ts
  | [], _ => trivial
  | t :: ts, h => ⟨nodes_cheap M t h.1, allNodes_cheap M ts h.2⟩
end

/-! ### The results are those of the model without memory -/

/-- Whatever the allocator does: a read that returns has the result it has when memory is never short. -/
theorem C133_same {σ : Type} (M : Memory σ) (t : Ty) (old : Val) (c : Cursor) (s : σ) (v : Val) (c' : Cursor) (s' : σ)
    (h : readA M t old c s = .ok v c' s') : readInto t old c = some (v, c') := by
  have h1 := agrees_read M (never := False) (fun _ _ _ h => h) t old c s
  rw [h] at h1
  exact h1

/-- The read is never undefined behaviour, for any allocator; if every request is granted, it returns. -/
theorem C133_ends {σ : Type} (M : Memory σ) (t : Ty) (hk : TyOK t) (hz : Sized t) (old : Val) (ho : HasTy t old) (c : Cursor)
    (hc : InBuf c) (s : σ) : (∃ v c' s', Ends (readA M t old c s) v c' s') ∧
      ((∀ s n, M.alloc s n ≠ none) → ∃ v c' s', readA M t old c s = .ok v c' s' ∧ readInto t old c = some (v, c')) := by
  have h1 := paid_read M (m := fun _ => 0) (w := fun _ => 0) (W := 0) (fun _ _ _ _ => Nat.le_refl _) t hk
    (sized_cheap M (fun _ => Nat.le_refl _) t hz) old c s ho hc
  have h2 := agrees_read M (never := ∀ s n, M.alloc s n ≠ none) (fun s n h hn => hn s n h) t old c s
  cases hr : readA M t old c s with
  | ub => rw [hr] at h1; exact h1.elim
  | threw v c' s' =>
    rw [hr] at h2
    exact ⟨⟨v, c', s', .inl rfl⟩, fun hn => absurd hn h2⟩
  | ok v c' s' =>
    rw [hr] at h2
    exact ⟨⟨v, c', s', .inr rfl⟩, fun _ => ⟨v, c', s', rfl, h2⟩⟩

/-- However it ends, also with an exception in the middle: the destination holds a value of its type (maps and sets in order,
without duplicates), and the cursor is within the same buffer, not before where it was. -/
theorem C133_valid {σ : Type} (M : Memory σ) (t : Ty) (hk : TyOK t) (hz : Sized t) (old : Val) (ho : HasTy t old) (c : Cursor)
    (hc : InBuf c) (s : σ) (v : Val) (c' : Cursor) (s' : σ) (h : Ends (readA M t old c s) v c' s') :
    HasTy t v ∧ c'.buf = c.buf ∧ c.pos ≤ c'.pos ∧ InBuf c' := by
  have h1 := paid_read M (m := fun _ => 0) (w := fun _ => 0) (W := 0) (fun _ _ _ _ => Nat.le_refl _) t hk
    (sized_cheap M (fun _ => Nat.le_refl _) t hz) old c s ho hc
  rcases h with h | h <;> rw [h] at h1
  · exact ⟨h1.1, h1.2.1, h1.2.2.1, hc.of h1.2.1 h1.2.2.2.1⟩
  · exact ⟨h1.1, h1.2.1, h1.2.2.1, hc.of h1.2.1 h1.2.2.2.1⟩

/-! ### How much is asked for -/

theorem mul_sub_le {m m' W p q : Nat} (hp : p ≤ q) (h : m' + W * p ≤ m + W * q) : m' ≤ m + W * (q - p) := by
  have := Nat.mul_sub W q p
  have := Nat.mul_le_mul_left W hp
  omega

/-- The number of granted requests is at most the number of bytes consumed, however it ends; and it is less if the
read succeeds. So a message cannot make the reader ask more often than it is long. -/
theorem C133_requests {σ : Type} (M : Memory σ) (count : σ → Nat) (hcount : ∀ s n s', M.alloc s n = some s' → count s' = count s + 1)
    (t : Ty) (hk : TyOK t) (hz : Sized t) (old : Val) (ho : HasTy t old) (c : Cursor) (hc : InBuf c) (s : σ) (v : Val)
    (c' : Cursor) (s' : σ) (h : Ends (readA M t old c s) v c' s') :
    count s' ≤ count s + (c'.pos - c.pos) ∧
      (readA M t old c s = .ok v c' s' → c'.err = false → count s' < count s + (c'.pos - c.pos)) := by
  have h1 := paid_read M (m := count) (w := fun _ => 1) (W := 1) (fun s n s' h => Nat.le_of_eq (hcount s n s' h)) t hk
    (sized_cheap M (fun _ => Nat.le_refl _) t hz) old c s ho hc
  rcases h with h | h <;> rw [h] at h1
  · obtain ⟨-, -, h3, -, h5⟩ := h1
    exact ⟨by omega, by rw [h]; nofun⟩
  · obtain ⟨-, -, h3, -, h5, h6⟩ := h1
    refine ⟨by omega, fun _ he => ?_⟩
    have := (h6 he).2
    omega

/-- For types without strings and vectors, the memory asked for is at most the size of the largest node for every byte
consumed. -/
theorem C133_memory {σ : Type} (M : Memory σ) (used : σ → Nat) (hused : ∀ s n s', M.alloc s n = some s' → used s' = used s + n)
    (W : Nat) (t : Ty) (hk : TyOK t) (hn : Nodes M W t) (old : Val) (ho : HasTy t old) (c : Cursor) (hc : InBuf c) (s : σ) (v : Val)
    (c' : Cursor) (s' : σ) (h : Ends (readA M t old c s) v c' s') : used s' ≤ used s + W * (c'.pos - c.pos) := by
  have h1 := paid_read M (m := used) (w := id) (W := W) (fun s n s' h => Nat.le_of_eq (hused s n s' h)) t hk
    (nodes_cheap M t hn) old c s ho hc
  rcases h with h | h <;> rw [h] at h1
  · exact mul_sub_le h1.2.2.1 h1.2.2.2.2
  · exact mul_sub_le h1.2.2.1 h1.2.2.2.2.1

/-! ### A sample allocator -/

/-- A heap of so many bytes, of which nothing is returned; 40 bytes per set node and 64 per map node, 24 for everything in a
vector but numbers. -/
def heap : Memory Nat where
  alloc := fun s n => if n ≤ s then some (s - n) else none
  size := fun t => match t with | .scalar n => n | _ => 24
  setNode := fun _ => 40
  mapNode := fun _ _ => 64

/-- Counts the requests and the bytes. -/
def meter : Memory (Nat × Nat) where
  alloc := fun s n => some (s.1 + 1, s.2 + n)
  size := heap.size
  setNode := heap.setNode
  mapNode := heap.mapNode

/-- What an outcome looks like: whether it threw, the encoding of the value, position, error flag, state. -/
def Out.look {σ : Type} (t : Ty) : Out σ Val → Option (Bool × List Byte × Nat × Bool × σ)
  | .ub => none
  | .threw v c s => some (true, encode t v, c.pos, c.err, s)
  | .ok v c s => some (false, encode t v, c.pos, c.err, s)

def sampleIn : Cursor := ⟨encode sampleTy sampleVal ++ [9], 0, false⟩

example : TyOK sampleTy ∧ Sized sampleTy ∧ InBuf sampleIn ∧ HasTy sampleTy (.map []) :=
  ⟨sampleTy_ok, by simp [sampleTy, Sized], by decide +kernel, by simp [sampleTy, HasTy]⟩
-- enough memory: 2 nodes, a vector of two elements and a string
example : (readA meter sampleTy (.map []) sampleIn (0, 0)).look sampleTy
    = some (false, encode sampleTy sampleVal, (encode sampleTy sampleVal).length, false, 4, 180) := by decide +kernel
-- not enough for the second node
example : (readA heap sampleTy (.map []) sampleIn 179).look sampleTy
    = some (true, encode sampleTy (.map (match sampleVal with | .map l => l.take 1 | _ => [])),
        (encode sampleTy sampleVal).length, false, 63) := by decide +kernel
example : ∀ s n, meter.alloc s n ≠ none := nofun
example : ∀ s n s', meter.alloc s n = some s' → s'.1 = s.1 + 1 := by
  intro s n s' h; cases h; rfl
example : ∀ s n s', meter.alloc s n = some s' → s'.2 = s.2 + n := by
  intro s n s' h; cases h; rfl

/-- `std::set<std::pair<uint16_t, std::optional<uint8_t>>>`, ordered by the first. -/
def nodeTy : Ty := .set (fun a b => match a, b with | .pair x _, .pair y _ => ltNum x y | _, _ => false)
  (.pair (.scalar 2) (.opt (.scalar 1)))
example : Nodes meter 40 nodeTy := by simp [nodeTy, Nodes, meter, heap]
-- three elements from 4 + 3 + 3 + 4 bytes, one of them twice
example : (readA meter nodeTy (.set []) ⟨[3, 0, 0, 0, 7, 0, 0, 5, 0, 0, 7, 0, 1, 8], 0, false⟩ (0, 0)).look nodeTy
    = some (false, [2, 0, 0, 0, 5, 0, 0, 7, 0, 0], 14, false, 3, 120) := by decide +kernel

/-! ### What does not hold -/

theorem readUInt_count (n : Nat) (hn : n < 2 ^ 32) (rest : List Byte) (hr : (rest.length + 4) < 2 ^ 63) :
    Cursor.readUInt ⟨toLE 4 n ++ rest, 0, false⟩ 4 = some (n, ⟨toLE 4 n ++ rest, 4, false⟩) := by
  rw [readUInt_eq (Nat.zero_le _) (by rw [List.length_append, toLE_length]; omega)]
  have h2 : num? 4 (toLE 4 n ++ rest) = some (n, rest) := by
    have h3 := take?_append (toLE 4 n) rest
    rw [toLE_length] at h3
    simp only [num?, h3, foldr_fromLE]
    rw [fromLE_toLE 4 n (by omega)]
  rw [List.drop_zero, h2]

/-- The memory asked for is not bounded by the input: the four bytes of a count `k` make the reader ask for `k` elements before
it looks whether there is anything to read; here with nothing after them, and `k` can be 2^32 - 1. -/
theorem C133_amplification_violated (M : Memory Nat) (hM : ∀ s n, M.alloc s n = some (s + n)) (n : Nat) (hn : 0 < n)
    (k : Nat) (hk : k < 2 ^ 32) (h0 : k ≠ 0) :
    readA M (.vec (.scalar n)) (.vec []) ⟨toLE 4 k, 0, false⟩ 0
      = .ok (.vec []) ⟨toLE 4 k, 4, true⟩ (k * M.size (.scalar n)) := by
  have h1 := readUInt_count k hk [] (by simp)
  rw [List.append_nil] at h1
  have hl := toLE_length 4 k
  have h2 : Cursor.readImpl ⟨toLE 4 k, 4, false⟩ (k * n) = some (none, ⟨toLE 4 k, 4, true⟩) := by
    rw [readImpl_eq' (by omega) (by omega), if_neg]
    have h3 : 0 < k * n := Nat.mul_pos (by omega) hn
    omega
  generalize toLE 4 k = b at h1 h2
  rw [readA.eq_def]
  dsimp only
  rw [h1]
  dsimp only
  rw [if_neg h0, hM]
  dsimp only
  rw [if_neg h0, h2]
  simp only [if_true, Nat.zero_add]

theorem readA_refused {σ : Type} (M : Memory σ) (t : Ty) (l : List Val) (b : List Byte) (c c1 : Cursor) (s : σ) (n : Nat) (h0 : n ≠ 0)
    (h1 : c.readUInt 4 = some (n, c1)) :
    (M.alloc s (n * M.size t) = none → readA M (.vec t) (.vec l) c s = .threw (.vec []) c1 s) ∧
    (M.alloc s (n + 1) = none → readA M .str (.str b) c s = .threw (.str []) c1 s) := by
  constructor
  · intro h
    rw [readA.eq_def]
    dsimp only
    rw [h1]
    dsimp only
    rw [if_neg h0, h]
  · intro h
    simp only [readA, h1, h0, if_false, h]

/-- The same for elements that are read one by one (`reserve`), strings (`resize`), and for any count: if such a request is
refused, the function is left by an exception, with the destination emptied and without `err()`. -/
theorem C133_reported_violated {σ : Type} (M : Memory σ) (t : Ty) (l : List Val) (b : List Byte) (rest : List Byte)
    (hr : (rest.length + 4) < 2 ^ 63) (n : Nat) (hn : n < 2 ^ 32) (h0 : n ≠ 0) (s : σ) :
    (M.alloc s (n * M.size t) = none →
      readA M (.vec t) (.vec l) ⟨toLE 4 n ++ rest, 0, false⟩ s = .threw (.vec []) ⟨toLE 4 n ++ rest, 4, false⟩ s) ∧
    (M.alloc s (n + 1) = none →
      readA M .str (.str b) ⟨toLE 4 n ++ rest, 0, false⟩ s = .threw (.str []) ⟨toLE 4 n ++ rest, 4, false⟩ s) :=
  readA_refused M t l b _ _ s n h0 (readUInt_count n hn rest hr)

-- a hundred bytes of heap; four bytes ask for 65536
example : (readA heap (.vec (.scalar 1)) (.vec [.scalar [1]]) ⟨[0, 0, 1, 0, 5], 0, false⟩ 100).look (.vec (.scalar 1))
    = some (true, [0, 0, 0, 0], 4, false, 100) := by decide +kernel

/-- An exception is not "nothing happened", and not all or nothing either: the map is left with the first of its two entries,
which is neither what was there before nor what was to be read, and `err()` says nothing. -/
theorem C133_strong_violated : ∃ (t : Ty) (old v new : Val) (c c' : Cursor) (s s' : Nat), TyOK t ∧ Sized t ∧ HasTy t old ∧ InBuf c ∧
    (∃ c2, readInto t old c = some (new, c2) ∧ c2.err = false) ∧
    readA heap t old c s = .threw v c' s' ∧ v ≠ old ∧ v ≠ new ∧ c'.err = false := by
  have h1 : Cursor.readUInt ⟨[2, 0, 0, 0, 1, 11, 2, 22], 0, false⟩ 4 = some (2, ⟨[2, 0, 0, 0, 1, 11, 2, 22], 4, false⟩) := by decide +kernel
  have h2 : Cursor.readImpl ⟨[2, 0, 0, 0, 1, 11, 2, 22], 4, false⟩ 1 = some (some [1], ⟨[2, 0, 0, 0, 1, 11, 2, 22], 5, false⟩) := by
    decide +kernel
  have h3 : Cursor.readImpl ⟨[2, 0, 0, 0, 1, 11, 2, 22], 5, false⟩ 1 = some (some [11], ⟨[2, 0, 0, 0, 1, 11, 2, 22], 6, false⟩) := by
    decide +kernel
  have h4 : Cursor.readImpl ⟨[2, 0, 0, 0, 1, 11, 2, 22], 6, false⟩ 1 = some (some [2], ⟨[2, 0, 0, 0, 1, 11, 2, 22], 7, false⟩) := by
    decide +kernel
  have h5 : Cursor.readImpl ⟨[2, 0, 0, 0, 1, 11, 2, 22], 7, false⟩ 1 = some (some [22], ⟨[2, 0, 0, 0, 1, 11, 2, 22], 8, false⟩) := by
    decide +kernel
  have h6 : InBuf ⟨[2, 0, 0, 0, 1, 11, 2, 22], 0, false⟩ := by simp [InBuf]
  generalize ([2, 0, 0, 0, 1, 11, 2, 22] : List Byte) = buf at h1 h2 h3 h4 h5 h6
  refine ⟨.map ltNum (.scalar 1) (.scalar 1), .map [], .map [(.scalar [1], .scalar [11])],
    .map [(.scalar [1], .scalar [11]), (.scalar [2], .scalar [22])], ⟨buf, 0, false⟩,
    ⟨buf, 8, false⟩, 100, 36, ?_, ?_, ?_, h6, ⟨⟨buf, 8, false⟩, ?_, rfl⟩, ?_, ?_, ?_, rfl⟩
  · simp [TyOK, ltNum_ok]
  · simp [Sized]
  · simp [HasTy]
  · simp [readInto, h1, readLoop, readPair, h2, h3, h4, h5, default, insertSorted, ltNum, fromLE]
  · simp [readA, h1, loopA, pairA, h2, h3, h4, h5, default, insertSorted, heap]
  · simp
  · simp

/-- `bool` is read as any number (binary_rw.hpp:68-70): a byte other than 0 and 1 becomes the object representation of a `bool`, without an error. -/
theorem C133_bool_violated : ∃ (b : Byte) (c' : Cursor), b ≠ 0 ∧ b ≠ 1 ∧
    readInto (.scalar 1) (.scalar [0]) ⟨[b], 0, false⟩ = some (.scalar [b], c') ∧ c'.err = false :=
  ⟨2, ⟨[2], 1, false⟩, by decide, by decide, by
    have h : Cursor.readImpl ⟨[2], 0, false⟩ 1 = some (some [2], ⟨[2], 1, false⟩) := by decide +kernel
    simp only [readInto, h], rfl⟩

end Verif.BinaryRW
