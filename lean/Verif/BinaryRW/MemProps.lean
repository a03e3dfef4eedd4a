import Verif.BinaryRW.MemOps
import Verif.BinaryRW.Lemmas
/-
C137: readers and writers in memory. With a live buffer, and a destination or source that exists and has no byte in common with the buffer,
every function does in memory what `Model.lean` does with lists, and changes no other byte; exactly null pointers and overlapping
regions make a copy undefined, and there are ways to get there without a mistake in sight.
-/
namespace Verif.BinaryRW

/-- `peek`: the destination has the next bytes of the buffer, or what it had before. -/
theorem C137_peek {m : Mem} {c : PCur} {C : Cursor} {dst : Ptr} {n : Nat} {old : List Byte} (hC : c.abs m = some C) (hi : c.Inside)
    (hd : m.bytes dst n = some old) (h1 : dst ≠ none) (h2 : c.data ≠ none ∨ 0 < n) (ha : Apart dst n c.data c.len) :
    ∃ m' ok new, c.peek m dst n = some (m', ok) ∧ C.peek n old = some (new, C, ok) ∧ m'.bytes dst n = some new ∧ Same m m' dst n ∧
      c.abs m' = some C ∧ (ok = false → m' = m) := by
  obtain ⟨m', ok, r, e1, e2, e3, e4, e5, e6, e7, _, _⟩ := peek_core hC hi hd h1 h2 ha
  refine ⟨m', ok, _, e1, ?_, e4, e5, e6, e7⟩
  unfold Cursor.peek
  rw [e2, e3]
  cases r <;> rfl

/-- `read_raw`, `read_span`. -/
theorem C137_read {m : Mem} {c : PCur} {C : Cursor} {dst : Ptr} {n : Nat} {old : List Byte} (hC : c.abs m = some C) (hi : c.Inside)
    (hd : m.bytes dst n = some old) (h1 : dst ≠ none) (h2 : c.data ≠ none ∨ 0 < n) (ha : Apart dst n c.data c.len) :
    ∃ m' c' ok new C', c.read m dst n = some (m', c', ok) ∧ C.readRaw n old = some (new, C', ok) ∧ m'.bytes dst n = some new ∧
      Same m m' dst n ∧ c'.abs m' = some C' ∧ c'.Inside ∧ c'.data = c.data ∧ c'.len = c.len ∧ (ok = false → m' = m) := by
  obtain ⟨m', c', ok, r, C', e1, e2, e3, e4, e5, e6, e7, e8, e9, e10, e11, _⟩ := read_core hC hi hd h1 h2 ha
  refine ⟨m', c', ok, _, C', e1, ?_, e5, e6, e7, e8, e9, e10, e11⟩
  unfold Cursor.readRaw
  rw [e2]
  simp only
  rw [← (abs_some.1 e7).2.2, e4]

/-- `write_raw`, `write_span`: exactly the bytes at the position of the writer change. -/
theorem C137_write {m : Mem} {w : PCur} {W : Cursor} {src : Ptr} {n : Nat} {bs : List Byte} (hW : w.abs m = some W) (hi : w.Inside)
    (hs : m.bytes src n = some bs) (h1 : src ≠ none) (h2 : w.data ≠ none ∨ 0 < n) (ha : Apart src n w.data w.len) :
    ∃ m' w' ok W', w.write m src n = some (m', w', ok) ∧ W.writeImpl bs = some W' ∧ ok = !W'.err ∧ w'.abs m' = some W' ∧
      Same m m' w.at n ∧ w'.Inside ∧ w'.data = w.data ∧ w'.len = w.len ∧ (ok = false → m' = m) := by
  obtain ⟨m', w', ok, W', e1, e2, e3, e4, e5, e6, e7, e8, e9, _, _⟩ := write_core hW hi hs (.inl h1) h2 ha
  exact ⟨m', w', ok, W', e1, e2, by rw [← (abs_some.1 e4).2.2]; exact e3, e4, e5, e6, e7, e8, e9⟩

/-- `span`: a view of the next bytes of the buffer, at the place where the buffer has them; nothing is copied. -/
theorem C137_span {m : Mem} {c : PCur} {C : Cursor} (hC : c.abs m = some C) (hi : c.Inside) (n : Nat) (move : Bool) :
    ∃ p k c' bs C', c.span m n move = some ((p, k), c') ∧ C.span n move = some (bs, C') ∧ m.bytes p k = some bs ∧
      c'.abs m = some C' ∧ c'.Inside ∧ c'.data = c.data ∧ c'.len = c.len ∧
      (c'.err = false → p = c.at ∧ k = n ∧ c.pos + n ≤ c.len) ∧ (c'.err = true → p = none ∧ k = 0) ∧
      (c'.err = true ↔ c.err = true ∨ c.len - c.pos < n) := by
  have hl := abs_left hC
  have hle := pleft_eq hi
  obtain ⟨hb, hp, he⟩ := abs_some.1 hC
  obtain ⟨hi1, hi2⟩ := hi
  unfold PCur.span Cursor.span
  rw [← hl]
  by_cases hg : n > c.left
  · simp only [hg, if_true]
    exact ⟨_, _, _, _, _, rfl, rfl, rfl, abs_some.2 ⟨hb, hp, rfl⟩, ⟨hi1, hi2⟩, rfl, rfl, (fun h => by cases h), (fun _ => ⟨rfl, rfl⟩),
      fun _ => .inr (by omega), fun _ => rfl⟩
  · simp only [hg, if_false]
    rw [← he, ← hp]
    have hno : ¬ c.len - c.pos < n := by omega
    by_cases hce : c.err = true
    · simp only [hce, if_true]
      exact ⟨_, _, _, _, _, rfl, rfl, rfl, hC, ⟨hi1, hi2⟩, rfl, rfl, (fun h => by rw [hce] at h; cases h), (fun _ => ⟨rfl, rfl⟩),
        fun _ => .inl trivial, fun _ => hce⟩
    · simp only [hce]
      have hpn : c.pos + n ≤ c.len := by omega
      have hsl : slice C.buf c.pos n = some ((C.buf.drop c.pos).take n) := by
        unfold slice
        rw [bytes_length hb, if_pos hpn]
      have hadv : m.advance c.data c.pos = some c.at ∧ m.bytes c.at n = some ((C.buf.drop c.pos).take n) := by
        unfold PCur.at
        cases hcd : c.data with
        | none =>
          rw [hcd] at hb
          have h0 := bytes_null hb
          have h1 : c.pos = 0 := by omega
          have h2 : n = 0 := by omega
          rw [h1, h2]
          exact ⟨rfl, rfl⟩
        | some d =>
          rw [hcd] at hb
          exact ⟨advance_some hb hi1, bytes_sub hb hpn⟩
      rw [hadv.1, hsl]
      have hne : c.err = false := by cases h : c.err with
        | false => rfl
        | true => exact absurd h hce
      cases move with
      | false =>
        refine ⟨_, _, _, _, _, rfl, rfl, hadv.2, hC, ⟨hi1, hi2⟩, rfl, rfl, (fun _ => ⟨rfl, rfl, hpn⟩), (fun h => absurd h hce),
          fun h => absurd h hce, fun h => by rcases h with h | h; cases h; exact absurd h hno⟩
      | true =>
        refine ⟨_, _, _, _, _, rfl, rfl, hadv.2, abs_some.2 ⟨hb, rfl, rfl⟩, ⟨?_, hi2⟩, rfl, rfl,
          (fun _ => ⟨rfl, rfl, hpn⟩), (fun h => ?_), fun h => ?_, fun h => by rcases h with h | h; cases h; exact absurd h hno⟩
        rotate_left
        · cases h
        · cases h
        show uadd c.pos n ≤ c.len
        rw [puadd_eq ⟨hi1, hi2⟩ (by omega)]; omega

/-- Reading is undefined exactly if there are bytes to copy — or none, and no error — and a pointer is null or the regions overlap. -/
theorem C137_read_undefined {m : Mem} {c : PCur} {C : Cursor} {dst : Ptr} {n : Nat} {old : List Byte} (hC : c.abs m = some C)
    (hi : c.Inside) (hd : m.bytes dst n = some old) :
    c.read m dst n = none ↔ c.err = false ∧ n ≤ c.len - c.pos ∧ (dst = none ∨ c.data = none ∨ ¬ Apart dst n c.at n) := by
  have hle := pleft_eq hi
  obtain ⟨hb, hp, he⟩ := abs_some.1 hC
  obtain ⟨hi1, hi2⟩ := hi
  have key : c.read m dst n = none ↔ c.peek m dst n = none := by
    unfold PCur.read
    cases h : c.peek m dst n with
    | none => simp
    | some x => obtain ⟨a, b⟩ := x; cases b <;> simp
  rw [key]
  unfold PCur.peek
  by_cases hg : (c.err || decide (c.left < n)) = true
  · rw [if_pos hg]
    simp only [Bool.or_eq_true, decide_eq_true_eq] at hg
    constructor
    · intro h; cases h
    · rintro ⟨h1, h2, _⟩
      rcases hg with hg | hg
      · rw [h1] at hg; cases hg
      · omega
  · rw [if_neg hg]
    simp only [Bool.or_eq_true, decide_eq_true_eq] at hg
    have hg1 : c.err = false := by cases h : c.err with
      | false => rfl
      | true => exact absurd (.inl h) hg
    have hg2 : n ≤ c.len - c.pos := by
      rw [← hle]
      exact Nat.le_of_not_lt fun h => hg (.inr h)
    cases hcd : c.data with
    | none =>
      rw [hcd] at hb
      have h0 := bytes_null hb
      have h1 : c.pos = 0 := by omega
      rw [h1]
      simp only [Mem.advance]
      refine ⟨fun _ => ⟨hg1, by omega, .inr (.inl trivial)⟩, fun _ => ?_⟩
      cases dst <;> rfl
    | some s =>
      rw [hcd] at hb
      have hpn : c.pos + n ≤ c.len := by omega
      rw [advance_some hb hi1]
      cases dst with
      | none => exact ⟨fun _ => ⟨hg1, hg2, .inl rfl⟩, fun _ => rfl⟩
      | some d =>
        have hat : c.at = some (s.1, s.2 + c.pos) := by unfold PCur.at; rw [hcd]; rfl
        rw [hat]
        simp only [Mem.memcpy]
        rw [bytes_sub hb hpn, hd]
        simp only [Apart]
        by_cases ho : d.1 = s.1 ∧ d.2 < s.2 + c.pos + n ∧ s.2 + c.pos < d.2 + n
        · rw [if_pos ho]
          refine ⟨fun _ => ⟨hg1, hg2, .inr (.inr ?_)⟩, fun _ => rfl⟩
          rintro (h | h | h)
          · exact h ho.1
          · omega
          · omega
        · rw [if_neg ho]
          constructor
          · intro h; cases h
          · rintro ⟨_, _, h | h | h⟩
            · cases h
            · cases h
            · exfalso
              apply h
              by_cases hbk : d.1 = s.1
              · by_cases h5 : d.2 < s.2 + c.pos + n
                · by_cases h6 : s.2 + c.pos < d.2 + n
                  · exact absurd ⟨hbk, h5, h6⟩ ho
                  · exact .inr (.inl (by omega))
                · exact .inr (.inr (by omega))
              · exact .inl hbk

/-- Writing, likewise. -/
theorem C137_write_undefined {m : Mem} {w : PCur} {W : Cursor} {src : Ptr} {n : Nat} {bs : List Byte} (hW : w.abs m = some W)
    (hi : w.Inside) (hs : m.bytes src n = some bs) :
    w.write m src n = none ↔ w.err = false ∧ n ≤ w.len - w.pos ∧ (src = none ∨ w.data = none ∨ ¬ Apart w.at n src n) := by
  have hle := pleft_eq hi
  obtain ⟨hb, hp, he⟩ := abs_some.1 hW
  obtain ⟨hi1, hi2⟩ := hi
  unfold PCur.write
  by_cases hg : (w.err || decide (w.left < n)) = true
  · rw [if_pos hg]
    simp only [Bool.or_eq_true, decide_eq_true_eq] at hg
    constructor
    · intro h; cases h
    · rintro ⟨h1, h2, _⟩
      rcases hg with hg | hg
      · rw [h1] at hg; cases hg
      · omega
  · rw [if_neg hg]
    simp only [Bool.or_eq_true, decide_eq_true_eq] at hg
    have hg1 : w.err = false := by cases h : w.err with
      | false => rfl
      | true => exact absurd (.inl h) hg
    have hg2 : n ≤ w.len - w.pos := by
      rw [← hle]
      exact Nat.le_of_not_lt fun h => hg (.inr h)
    cases hcd : w.data with
    | none =>
      rw [hcd] at hb
      have h0 := bytes_null hb
      have h1 : w.pos = 0 := by omega
      rw [h1]
      simp only [Mem.advance]
      refine ⟨fun _ => ⟨hg1, by omega, .inr (.inl trivial)⟩, fun _ => ?_⟩
      cases src <;> rfl
    | some d =>
      rw [hcd] at hb
      have hpn : w.pos + n ≤ w.len := by omega
      rw [advance_some hb hi1]
      cases src with
      | none => exact ⟨fun _ => ⟨hg1, hg2, .inl rfl⟩, fun _ => rfl⟩
      | some s =>
        have hat : w.at = some (d.1, d.2 + w.pos) := by unfold PCur.at; rw [hcd]; rfl
        rw [hat]
        simp only [Mem.memcpy]
        rw [bytes_sub hb hpn, hs]
        simp only [Apart]
        by_cases ho : d.1 = s.1 ∧ d.2 + w.pos < s.2 + n ∧ s.2 < d.2 + w.pos + n
        · rw [if_pos ho]
          refine ⟨fun _ => ⟨hg1, hg2, .inr (.inr ?_)⟩, fun _ => rfl⟩
          rintro (h | h | h)
          · exact h ho.1
          · omega
          · omega
        · rw [if_neg ho]
          constructor
          · intro h; cases h
          · rintro ⟨_, _, h | h | h⟩
            · cases h
            · cases h
            · exfalso
              apply h
              by_cases hbk : d.1 = s.1
              · by_cases h5 : d.2 + w.pos < s.2 + n
                · by_cases h6 : s.2 < d.2 + w.pos + n
                  · exact absurd ⟨hbk, h5, h6⟩ ho
                  · exact .inr (.inl (by omega))
                · exact .inr (.inr (by omega))
              · exact .inl hbk

/-- `w << r.span(n)` with two buffers that have no byte in common. -/
theorem C137_copy {m : Mem} {r w : PCur} {R W : Cursor} (hR : r.abs m = some R) (hW : w.abs m = some W) (hr : r.Inside) (hw : w.Inside)
    (ha : Apart r.data r.len w.data w.len) (n : Nat) (hre : R.err = false) (hn : n ≤ r.len - r.pos) (hrd : r.data ≠ none)
    (hwd : w.data ≠ none ∨ 0 < n) :
    ∃ p r' m' w' ok bs R' W', r.span m n true = some ((p, n), r') ∧ w.write m p n = some (m', w', ok) ∧ R.span n = some (bs, R') ∧
      W.writeImpl bs = some W' ∧ r'.abs m' = some R' ∧ w'.abs m' = some W' ∧ Same m m' w.at n := by
  obtain ⟨p, k, r', bs, R', e1, e2, e3, e4, e5, e6, e7, e8, e9, e10⟩ := C137_span hR hr n true
  have hr1 := hr.1
  have hrr := (abs_some.1 hR).2.2
  have herr : r'.err = false := by
    cases h : r'.err with
    | false => rfl
    | true =>
      rcases e10.1 h with h | h
      · rw [hrr, hre] at h; cases h
      · omega
  obtain ⟨rfl, rfl, hpn⟩ := e8 herr
  have hp : r.at ≠ none := by
    unfold PCur.at
    cases h : r.data with
    | none => exact absurd h hrd
    | some d => exact Option.some_ne_none _
  have hap := apart_at hpn ha
  obtain ⟨m', w', ok, W', f1, f2, f3, f4, f5, f6, f7, f8, f9, f10, f11⟩ := write_core hW hw e3 (.inl hp) hwd hap
  refine ⟨_, r', m', w', ok, bs, R', W', e1, f1, e2, f2, ?_, f4, f5⟩
  obtain ⟨g1, g2, g3⟩ := abs_some.1 e4
  refine abs_some.2 ⟨?_, g2, g3⟩
  rw [e6, e7] at g1 ⊢
  cases hok : ok with
  | false => rw [f9 hok]; exact g1
  | true => rw [f5 _ _ (apart_at (f11 hok) ha.symm)]; exact g1

/-- Writing a vector that has a block. -/
theorem C137_encode_vector {m : Mem} {w : PCur} {W : Cursor} {v : Vec} {n tmp : Nat} {l : List Val} (hW : w.abs m = some W)
    (hi : w.Inside) (hv : m.bytes v.data v.size = some (l.flatMap scalarBytes)) (hl : l.length = v.size / n) (hd : v.data ≠ none)
    (hwd : w.data ≠ none) (ha : Apart v.data v.size w.data w.len) (ht : m.blocks tmp = none) :
    ∃ m' w' W', encodeVec m w tmp v n = some (m', w') ∧ write (.vec (.scalar n)) (.vec l) W = some W' ∧ w'.abs m' = some W' ∧
      Same m m' w.data w.len := by
  have hne : ∀ d, w.data = some d → d.1 ≠ tmp := fun d hd e => abs_alive hW hd (e ▸ ht)
  generalize hm1 : m.set tmp (some (toLE 4 (v.size / n % 2 ^ 32))) = m1
  have hb1 : ∀ b, b ≠ tmp → m1.blocks b = m.blocks b := fun b hb => by rw [← hm1, set_blocks, if_neg hb]
  have hW1 : w.abs m1 = some W := abs_block hW fun d hd => hb1 _ (hne d hd)
  have hs1 : m1.bytes (some (tmp, 0)) 4 = some (toLE 4 (v.size / n % 2 ^ 32)) := by
    refine bytes_some.2 ⟨_, by rw [← hm1, set_blocks, if_pos rfl], ?_, ?_⟩
    · rw [toLE_length]; simp
    · rw [List.drop_zero, List.take_of_length_le (by rw [toLE_length]; exact Nat.le_refl _)]
  obtain ⟨m2, w2, ok, W2, f1, f2, f3, f4, f5, f6, f7, f8, f9, f10, f11⟩ :=
    write_core hW1 hi hs1 (.inl (Option.some_ne_none _)) (.inl hwd) (apart_block hne)
  -- the memory without the temporary
  have hback : ∀ q k, Apart w.data w.len q k → (m2.set tmp none).bytes q k = m.bytes q k := by
    intro q k hq
    cases q with
    | none => rfl
    | some q =>
      by_cases hqt : q.1 = tmp
      · exact bytes_block (by rw [set_blocks, if_pos hqt, hqt, ht]) k
      · rw [bytes_block (m := m2) (by rw [set_blocks, if_neg hqt]) k]
        have h2 : m1.bytes (some q) k = m.bytes (some q) k := bytes_block (hb1 _ hqt) k
        cases hok : ok with
        | false => rw [f9 hok, h2]
        | true => rw [f5 _ _ (apart_at (f11 hok) hq), h2]
  have hW2 : w2.abs (m2.set tmp none) = some W2 := abs_block f4 fun d hd => by
    rw [set_blocks, if_neg (hne d (f7 ▸ hd))]
  have hs2 : (m2.set tmp none).bytes v.data v.size = some (l.flatMap scalarBytes) := by rw [hback _ _ ha.symm, hv]
  obtain ⟨m3, w3, ok3, W3, g1, g2, g3, g4, g5, g6, g7, g8, g9, g10, g11⟩ :=
    write_core hW2 f6 hs2 (.inl hd) (.inl (by rw [f7]; exact hwd)) (by rw [f7, f8]; exact ha)
  refine ⟨m3, w3, W3, ?_, ?_, g4, ?_⟩
  · unfold encodeVec
    rw [hm1, f1]
    simp only
    rw [g1]
  · rw [write, hl, f2]
    exact g2
  · intro q k hq
    rw [← hback q k hq]
    cases hok : ok3 with
    | false => rw [g9 hok]
    | true => exact g5 _ _ (apart_at (g11 hok) (by rw [f7, f8]; exact hq))

theorem chunks_length (n k : Nat) (b : List Byte) : (chunks n k b).length = k := by
  induction k generalizing b with
  | zero => rfl
  | succ k ih => simp only [chunks, List.length_cons, ih]

/-- Reading into a vector that does not have the buffer as its block: the elements are the ones of `readInto`, in a block of the
vector's own, and no other block changes. -/
theorem C137_decode_vector {m : Mem} {r : PCur} {C : Cursor} {v : Vec} {n tmp fresh : Nat} (hC : r.abs m = some C) (hi : r.Inside)
    (hv : v.Own m) (hsep : ∀ d e, v.data = some d → r.data = some e → d.1 ≠ e.1) (ht : m.blocks tmp = none)
    (hf : m.blocks fresh = none) (hn : 0 < n) (old : List Val) :
    ∃ m' r' v' l C' bs, decodeVec m r tmp fresh v n = some (m', r', v') ∧
      readInto (.vec (.scalar n)) (.vec old) C = some (.vec l, C') ∧ r'.abs m' = some C' ∧ v'.Own m' ∧
      m'.bytes v'.data v'.size = some bs ∧ v'.size = l.length * n ∧ l = chunks n l.length bs ∧
      (∀ b, b ≠ fresh → v.data.map Prod.fst ≠ some b → m'.blocks b = m.blocks b) := by
  obtain ⟨k, r1, C1, e1, e2, e3, e4, e5, e6⟩ := readU32_core hC hi ht
  have hempty : ∀ (m : Mem) (v : Vec), v.Own m → m.bytes v.data 0 = some [] := by
    intro m v hv
    obtain ⟨_, h⟩ := hv
    cases hd : v.data with
    | none => rfl
    | some d =>
      rw [hd] at h
      obtain ⟨h0, l, hl, _⟩ := h
      exact bytes_some.2 ⟨l, hl, by omega, by simp⟩
  have hclr : ∀ (m : Mem) (v : Vec), v.Own m → ({ v with size := 0 } : Vec).Own m := fun m v h => ⟨Nat.zero_le _, h.2⟩
  unfold decodeVec
  rw [readInto, e1, e2]
  simp only
  by_cases hk : k = 0
  · rw [if_pos hk, if_pos hk]
    exact ⟨_, _, _, [], _, [], rfl, rfl, e3, hclr _ _ hv, hempty _ _ (hclr _ _ hv), (by simp), rfl, fun _ _ _ => rfl⟩
  · rw [if_neg hk, if_neg hk]
    have hkn : 0 < k * n := Nat.mul_pos (Nat.pos_of_ne_zero hk) hn
    obtain ⟨m2, v2, d, g1, g2, g3, g4, g5, g6, g7, g8⟩ := grow_core hv hf hkn
    rw [g1]
    have hne : ∀ e, r1.data = some e → e.1 ≠ d.1 := by
      intro e he
      rcases g7 with g7 | g7
      · rw [g7]
        exact fun h => abs_alive hC (e5 ▸ he) (h ▸ hf)
      · exact fun h => hsep d e g7 (e5 ▸ he) h.symm
    have hC2 : r1.abs m2 = some C1 := abs_block e3 fun e he => by
      apply g8
      · exact fun h => abs_alive hC (e5 ▸ he) (h ▸ hf)
      · intro h
        cases hvd : v.data with
        | none => rw [hvd] at h; cases h
        | some x =>
          rw [hvd] at h
          exact hsep x e hvd (e5 ▸ he) (Option.some.inj h)
    have hap : Apart (some d) (k * n) r1.data r1.len := by
      obtain ⟨b, o⟩ := d
      exact apart_block hne
    obtain ⟨m3, r3, ok, x, C3, f1, f2, f3, f4, f5, f6, f7, f8, f9, f10, f11, f12⟩ :=
      read_core hC2 e4 g6 (Option.some_ne_none _) (.inr hkn) hap
    simp only
    rw [g2, g4, f1, f2]
    simp only
    have hown : v2.Own m3 := by
      obtain ⟨h1, h2⟩ := g5
      refine ⟨h1, ?_⟩
      rw [g2] at h2 ⊢
      obtain ⟨h3, l, h4, h5⟩ := h2
      obtain ⟨l', h6, h7⟩ := same_length f6 h4 (by omega)
      exact ⟨h3, l', h6, by omega⟩
    have hframe : ∀ b, b ≠ fresh → v.data.map Prod.fst ≠ some b → m3.blocks b = m.blocks b := by
      intro b hb hvb
      rw [f12 b ?_, g8 b hb hvb]
      intro h
      rcases g7 with g7 | g7
      · exact hb (by rw [← g7]; exact (Option.some.inj h).symm)
      · exact hvb (by rw [g7]; exact h)
    have herr := (abs_some.1 f7).2.2
    rw [← herr]
    cases hr3 : r3.err with
    | true =>
      refine ⟨_, _, _, [], _, [], rfl, rfl, f7, ?_, ?_, ?_, rfl, hframe⟩
      · have h := hclr _ _ hown
        rw [g2] at h
        exact h
      · have h := hempty _ _ (hclr _ _ hown)
        simp only at h
        rw [g2] at h
        exact h
      · simp
    | false =>
      have hlen : (chunks n k (x.getD (List.replicate (k * n) 0))).length = k := chunks_length n k _
      refine ⟨_, _, _, chunks n k (x.getD (List.replicate (k * n) 0)), _,
        x.getD (List.replicate (k * n) 0), rfl, rfl, f7, hown, ?_, ?_, ?_, hframe⟩
      · show m3.bytes v2.data v2.size = _
        rw [g2, g4]; exact f5
      · show v2.size = _
        rw [hlen, g4]
      · rw [hlen]

/-! ### Cases -/

/-- Two buffers and a vector. -/
def sampleMem : Mem := ⟨fun b => match b with
  | 0 => some [2, 0, 0, 0, 11, 12, 13, 14]
  | 1 => some (List.replicate 10 9)
  | 2 => some [5, 6, 7]
  | _ => none⟩

def sampleR : PCur := ⟨some (0, 0), 8, 0, false⟩
def sampleW : PCur := ⟨some (1, 1), 9, 1, false⟩

/-- The cursors are inside, the regions are apart, and reading and writing do something. -/
example : sampleR.abs sampleMem = some ⟨[2, 0, 0, 0, 11, 12, 13, 14], 0, false⟩ ∧ sampleR.Inside ∧
    sampleW.abs sampleMem = some ⟨List.replicate 9 9, 1, false⟩ ∧ sampleW.Inside ∧
    sampleMem.bytes (some (2, 0)) 3 = some [5, 6, 7] ∧ Apart (some (2, 0)) 3 sampleR.data sampleR.len ∧
    Apart sampleR.data sampleR.len sampleW.data sampleW.len := by
  refine ⟨rfl, ⟨by decide, by decide⟩, rfl, ⟨by decide, by decide⟩, rfl, .inl (by decide), .inl (by decide)⟩

example : ((sampleR.read sampleMem (some (2, 1)) 2).bind fun x => x.1.blocks 2) = some [5, 2, 0] := rfl
example : ((sampleW.write sampleMem (some (2, 0)) 3).bind fun x => x.1.blocks 1) = some [9, 9, 5, 6, 7, 9, 9, 9, 9, 9] := rfl
example : (sampleR.span sampleMem 3 true).map (fun x => (x.1, x.2.pos)) = some ((some (0, 0), 3), 3) := rfl
example : ((sampleR.peek sampleMem (some (2, 0)) 3).bind fun x => x.1.blocks 2) = some [2, 0, 0] := rfl

/-- Two elements of two bytes: a vector without a block gets one; a block of ten bytes is used again. -/
example : ((decodeVec sampleMem sampleR 7 8 ⟨none, 0, 0⟩ 2).bind fun x => x.1.blocks 8) = some [11, 12, 13, 14] := rfl
example : ((decodeVec sampleMem sampleR 7 8 ⟨some (1, 0), 10, 10⟩ 2).bind fun x => x.1.blocks 1) =
    some [11, 12, 13, 14, 9, 9, 9, 9, 9, 9] := rfl
example : (⟨none, 0, 0⟩ : Vec).Own sampleMem ∧ (⟨some (1, 0), 10, 10⟩ : Vec).Own sampleMem ∧ sampleMem.blocks 7 = none ∧
    sampleMem.blocks 8 = none := ⟨⟨by decide, rfl⟩, ⟨by decide, rfl, _, rfl, rfl⟩, rfl, rfl⟩
example : ((encodeVec sampleMem sampleW 7 ⟨some (2, 0), 3, 3⟩ 1).bind fun x => x.1.blocks 1) =
    some [9, 9, 3, 0, 0, 0, 5, 6, 7, 9] := rfl

/-! ### Violations -/

/-- Writing an empty vector that never had elements: `memcpy` from a null pointer. -/
theorem C137_empty_vector_violated : ∃ (m : Mem) (w : PCur) (W W' : Cursor) (v : Vec) (tmp : Nat), w.abs m = some W ∧ w.Inside ∧
    W.err = false ∧ v.Own m ∧ v.size = 0 ∧ m.blocks tmp = none ∧ write (.vec (.scalar 4)) (.vec []) W = some W' ∧ W'.err = false ∧
    encodeVec m w tmp v 4 = none :=
  ⟨sampleMem, sampleW, _, _, ⟨none, 0, 0⟩, 7, rfl, ⟨by decide, by decide⟩, rfl, ⟨by decide, rfl⟩, rfl, rfl, rfl, rfl, rfl⟩

/-- `w << r.span(n)` where the reader has less than `n` bytes: the span is null. -/
theorem C137_failed_span_violated : ∃ (m : Mem) (r r' w : PCur) (R W : Cursor) (n : Nat), r.abs m = some R ∧ w.abs m = some W ∧
    r.Inside ∧ w.Inside ∧ r.data ≠ none ∧ w.data ≠ none ∧ W.err = false ∧ Apart r.data r.len w.data w.len ∧
    r.span m n true = some ((none, 0), r') ∧ w.write m none 0 = none :=
  ⟨sampleMem, sampleR, _, sampleW, _, _, 9, rfl, rfl, ⟨by decide, by decide⟩, ⟨by decide, by decide⟩, Option.some_ne_none _,
    Option.some_ne_none _, rfl, .inl (by decide), rfl, rfl⟩

/-- Repeating bytes of the own buffer that are not far enough away. -/
theorem C137_overlap_violated : ∃ (m : Mem) (w : PCur) (W : Cursor) (src : Ptr) (bs : List Byte), w.abs m = some W ∧ w.Inside ∧
    W.err = false ∧ m.bytes src 4 = some bs ∧ src ≠ none ∧ w.write m src 4 = none :=
  ⟨sampleMem, sampleW, _, some (1, 0), _, rfl, ⟨by decide, by decide⟩, rfl, rfl, Option.some_ne_none _, rfl⟩

/-- Reading into the vector the reader reads from: the block is used again, and the regions of the copy overlap. -/
theorem C137_own_vector_violated : ∃ (m : Mem) (r : PCur) (C C' : Cursor) (v : Vec) (l : List Val) (tmp fresh : Nat),
    r.abs m = some C ∧ r.Inside ∧ v.Own m ∧ v.data = r.data ∧ v.size = r.len ∧ m.blocks tmp = none ∧ m.blocks fresh = none ∧
    readInto (.vec (.scalar 2)) (.vec []) C = some (.vec l, C') ∧ C'.err = false ∧ decodeVec m r tmp fresh v 2 = none :=
  ⟨sampleMem.set 3 (some [3, 0, 0, 0, 1, 2, 3, 4, 5, 6]), ⟨some (3, 0), 10, 0, false⟩, _, _, ⟨some (3, 0), 10, 10⟩, _, 7, 8, rfl,
    ⟨by decide, by decide⟩, ⟨by decide, rfl, _, rfl, rfl⟩, rfl, rfl, rfl, rfl, rfl, rfl, rfl⟩

end Verif.BinaryRW
