import Verif.BinaryRW.MemLemmas
/-
Lemmas for C137: one read, one write.
-/
namespace Verif.BinaryRW

/-- The two regions of a `memcpy` overlap. -/
theorem apart_part {d s : Nat × Nat} {len pos n : Nat} (ha : Apart (some d) n (some s) len) (hp : pos + n ≤ len) :
    ¬ (d.1 = (s.1, s.2 + pos).1 ∧ d.2 < (s.1, s.2 + pos).2 + n ∧ (s.1, s.2 + pos).2 < d.2 + n) := by
  simp only [Apart] at ha
  simp only
  rintro ⟨h1, h2, h3⟩
  rcases ha with h | h | h
  · exact h h1
  · omega
  · omega

theorem same_refl (m : Mem) (p : Ptr) (n : Nat) : Same m m p n := fun _ _ _ => rfl

theorem peek_core {m : Mem} {c : PCur} {C : Cursor} {dst : Ptr} {n : Nat} {old : List Byte} (hC : c.abs m = some C) (hi : c.Inside)
    (hd : m.bytes dst n = some old) (h1 : dst ≠ none) (h2 : c.data ≠ none ∨ 0 < n) (ha : Apart dst n c.data c.len) :
    ∃ m' ok r, c.peek m dst n = some (m', ok) ∧ C.peekImpl n = some r ∧ ok = r.isSome ∧ m'.bytes dst n = some (r.getD old) ∧
      Same m m' dst n ∧ c.abs m' = some C ∧ (ok = false → m' = m) ∧ (ok = true → n ≤ c.len - c.pos ∧ c.err = false) ∧
      (∀ b, dst.map Prod.fst ≠ some b → m'.blocks b = m.blocks b) := by
  have hl := abs_left hC
  obtain ⟨hb, hp, he⟩ := abs_some.1 hC
  unfold PCur.peek Cursor.peekImpl
  rw [← hl, ← he, ← hp]
  by_cases hg : (c.err || decide (c.left < n)) = true
  · rw [if_pos hg, if_pos hg]
    exact ⟨m, false, none, rfl, rfl, rfl, hd, same_refl _ _ _, hC, fun _ => rfl, (fun h => by cases h), fun _ _ => rfl⟩
  · rw [if_neg hg, if_neg hg]
    simp only [Bool.or_eq_true, decide_eq_true_eq] at hg
    have hg1 : c.err = false := by cases h : c.err with
      | false => rfl
      | true => exact absurd (.inl h) hg
    have hg2 : n ≤ c.len - c.pos := by
      have h := pleft_eq hi
      rw [← h]
      exact Nat.le_of_not_lt fun h => hg (.inr h)
    have hi1 := hi.1
    have hpn : c.pos + n ≤ c.len := by omega
    cases hcd : c.data with
    | none =>
      exfalso
      rw [hcd] at hb h2
      have h := bytes_null hb
      rcases h2 with h2 | h2
      · exact h2 rfl
      · omega
    | some s =>
      rw [hcd] at hb ha
      cases dst with
      | none => exact absurd rfl h1
      | some d =>
        have hsl : slice C.buf c.pos n = some ((C.buf.drop c.pos).take n) := by
          unfold slice
          rw [bytes_length hb, if_pos hpn]
        have hsrc := bytes_sub hb hpn
        rw [advance_some hb hi.1, hsl]
        simp only
        rw [memcpy_some hsrc hd (apart_part ha hpn)]
        have hlen := bytes_length hsrc
        have hsame := same_store hd hlen
        refine ⟨_, true, _, rfl, rfl, rfl, bytes_store hd hlen, hsame, ?_, (fun h => by cases h), (fun _ => ⟨hg2, hg1⟩), ?_⟩
        rotate_left
        · intro b hbne
          exact store_other fun e => hbne (by rw [e]; rfl)
        refine abs_some.2 ⟨?_, hp, he⟩
        rw [hcd, hsame _ _ ha, hb]

theorem read_core {m : Mem} {c : PCur} {C : Cursor} {dst : Ptr} {n : Nat} {old : List Byte} (hC : c.abs m = some C) (hi : c.Inside)
    (hd : m.bytes dst n = some old) (h1 : dst ≠ none) (h2 : c.data ≠ none ∨ 0 < n) (ha : Apart dst n c.data c.len) :
    ∃ m' c' ok r C', c.read m dst n = some (m', c', ok) ∧ C.readImpl n = some (r, C') ∧ ok = r.isSome ∧ ok = !c'.err ∧
      m'.bytes dst n = some (r.getD old) ∧ Same m m' dst n ∧ c'.abs m' = some C' ∧ c'.Inside ∧ c'.data = c.data ∧ c'.len = c.len ∧
      (ok = false → m' = m) ∧ (∀ b, dst.map Prod.fst ≠ some b → m'.blocks b = m.blocks b) := by
  obtain ⟨m', ok, r, e1, e2, e3, e4, e5, e6, e7, e8, e9⟩ := peek_core hC hi hd h1 h2 ha
  obtain ⟨hb, hp, he⟩ := abs_some.1 hC
  obtain ⟨hb', _, _⟩ := abs_some.1 e6
  unfold PCur.read Cursor.readImpl
  rw [e1, e2]
  cases r with
  | none =>
    cases e3
    refine ⟨_, _, _, _, _, rfl, rfl, rfl, rfl, e4, e5, ?_, hi, rfl, rfl, e7, e9⟩
    exact abs_some.2 ⟨hb', hp, rfl⟩
  | some b =>
    cases e3
    obtain ⟨hn, hf⟩ := e8 rfl
    refine ⟨_, _, _, _, _, rfl, rfl, by rw [hf]; rfl, rfl, e4, e5, ?_, ?_, rfl, rfl, (fun h => ?_), e9⟩
    · exact abs_some.2 ⟨hb', congrArg (uadd · n) hp, he⟩
    · refine ⟨?_, hi.2⟩
      show uadd c.pos n ≤ c.len
      have := hi.1
      rw [puadd_eq hi hn]; omega
    · rw [hf] at h; cases h

theorem write_core {m : Mem} {w : PCur} {W : Cursor} {src : Ptr} {n : Nat} {bs : List Byte} (hW : w.abs m = some W) (hi : w.Inside)
    (hs : m.bytes src n = some bs) (h1 : src ≠ none ∨ w.err = true) (h2 : w.data ≠ none ∨ 0 < n) (ha : Apart src n w.data w.len) :
    ∃ m' w' ok W', w.write m src n = some (m', w', ok) ∧ W.writeImpl bs = some W' ∧ ok = !w'.err ∧ w'.abs m' = some W' ∧
      Same m m' w.at n ∧ w'.Inside ∧ w'.data = w.data ∧ w'.len = w.len ∧ (ok = false → m' = m) ∧
      (∀ b, w.data.map Prod.fst ≠ some b → m'.blocks b = m.blocks b) ∧ (ok = true → w.pos + n ≤ w.len) := by
  have hl := abs_left hW
  obtain ⟨hb, hp, he⟩ := abs_some.1 hW
  have hbs := bytes_length hs
  unfold PCur.write Cursor.writeImpl
  rw [← hl, ← he, ← hp, hbs]
  by_cases hg : (w.err || decide (w.left < n)) = true
  · rw [if_pos hg, if_pos hg]
    exact ⟨_, _, _, _, rfl, rfl, rfl, abs_some.2 ⟨hb, rfl, rfl⟩, same_refl _ _ _, hi, rfl, rfl, (fun _ => rfl), (fun _ _ => rfl), fun h => by cases h⟩
  · rw [if_neg hg, if_neg hg]
    simp only [Bool.or_eq_true, decide_eq_true_eq] at hg
    have hg1 : w.err = false := by cases h : w.err with
      | false => rfl
      | true => exact absurd (.inl h) hg
    have hg2 : n ≤ w.len - w.pos := by
      have h := pleft_eq hi
      rw [← h]
      exact Nat.le_of_not_lt fun h => hg (.inr h)
    have hi1 := hi.1
    have hpn : w.pos + n ≤ w.len := by omega
    cases hcd : w.data with
    | none =>
      exfalso
      rw [hcd] at hb h2
      have h := bytes_null hb
      rcases h2 with h2 | h2
      · exact h2 rfl
      · omega
    | some d =>
      rw [hcd] at hb ha
      cases src with
      | none =>
        rcases h1 with h1 | h1
        · exact absurd rfl h1
        · rw [hg1] at h1; cases h1
      | some s =>
        have hov : overwrite W.buf w.pos bs = some (W.buf.take w.pos ++ bs ++ W.buf.drop (w.pos + bs.length)) := by
          unfold overwrite
          rw [bytes_length hb, hbs, if_pos hpn]
        have hdst := bytes_sub hb hpn
        rw [advance_some hb hi.1, hov]
        simp only
        rw [memcpy_some hs hdst (by
          have h := apart_part ha hpn
          simp only at h ⊢
          rintro ⟨e1, e2, e3⟩
          exact h ⟨e1.symm, e3, e2⟩)]
        have hat : w.at = some (d.1, d.2 + w.pos) := by unfold PCur.at; rw [hcd]; rfl
        refine ⟨_, _, _, _, rfl, rfl, by simp only [hg1]; rfl, ?_, ?_, ?_, rfl, rfl, (fun h => by cases h), ?_, fun _ => hpn⟩
        · refine abs_some.2 ⟨?_, ?_, rfl⟩
          · exact bytes_store_sub hb (by omega)
          · rfl
        · rw [hat]; exact same_store hdst hbs
        · refine ⟨?_, hi.2⟩
          show uadd w.pos n ≤ w.len
          rw [puadd_eq hi hg2]; omega
        · intro b hbne
          exact store_other (d := (d.1, d.2 + w.pos)) fun e => hbne (by rw [e]; rfl)

theorem Mem.ext' {m m' : Mem} (h : ∀ b, m'.blocks b = m.blocks b) : m' = m := by
  obtain ⟨f⟩ := m; obtain ⟨g⟩ := m'
  exact congrArg Mem.mk (funext h)

theorem abs_block {m m' : Mem} {c : PCur} {C : Cursor} (hC : c.abs m = some C)
    (h : ∀ d, c.data = some d → m'.blocks d.1 = m.blocks d.1) : c.abs m' = some C := by
  obtain ⟨hb, hp, he⟩ := abs_some.1 hC
  refine abs_some.2 ⟨?_, hp, he⟩
  cases hd : c.data with
  | none => rw [hd] at hb; exact hb
  | some d => rw [hd] at hb; rw [bytes_block (h d hd)]; exact hb

/-- The buffer of a cursor exists. -/
theorem abs_alive {m : Mem} {c : PCur} {C : Cursor} (hC : c.abs m = some C) {d : Nat × Nat} (hd : c.data = some d) :
    m.blocks d.1 ≠ none := by
  obtain ⟨hb, _, _⟩ := abs_some.1 hC
  rw [hd] at hb
  obtain ⟨l, h, _⟩ := bytes_some.1 hb
  rw [h]; exact Option.some_ne_none _

theorem apart_block {b : Nat} {off n : Nat} {q : Ptr} {k : Nat} (h : ∀ d, q = some d → d.1 ≠ b) : Apart (some (b, off)) n q k := by
  cases q with
  | none => trivial
  | some d => exact .inl fun e => h d rfl e.symm

theorem readU32_core {m : Mem} {r : PCur} {C : Cursor} {tmp : Nat} (hC : r.abs m = some C) (hi : r.Inside)
    (ht : m.blocks tmp = none) : ∃ k r' C', readU32 m r tmp = some (k, m, r') ∧ C.readUInt 4 = some (k, C') ∧
      r'.abs m = some C' ∧ r'.Inside ∧ r'.data = r.data ∧ r'.len = r.len := by
  obtain ⟨hb, hp, he⟩ := abs_some.1 hC
  unfold readU32 Cursor.readUInt
  rw [← he]
  by_cases hg : r.err = true
  · rw [if_pos hg, if_pos hg]
    exact ⟨_, _, _, rfl, rfl, hC, hi, rfl, rfl⟩
  · rw [if_neg hg, if_neg hg]
    have hne : ∀ d, r.data = some d → d.1 ≠ tmp := fun d hd e => abs_alive hC hd (e ▸ ht)
    have hm1 : ∀ b, b ≠ tmp → (m.set tmp (some (List.replicate 4 0))).blocks b = m.blocks b := fun b hb => by
      rw [set_blocks, if_neg hb]
    have hC1 : r.abs (m.set tmp (some (List.replicate 4 0))) = some C := abs_block hC fun d hd => hm1 _ (hne d hd)
    have hd1 : (m.set tmp (some (List.replicate 4 0))).bytes (some (tmp, 0)) 4 = some (List.replicate 4 0) :=
      bytes_some.2 ⟨_, by rw [set_blocks, if_pos rfl], by simp, by simp⟩
    obtain ⟨m', r', ok, x, C', e1, e2, e3, e4, e5, e6, e7, e8, e9, e10, e11, e12⟩ :=
      read_core hC1 hi hd1 (Option.some_ne_none _) (.inr (by decide)) (apart_block hne)
    rw [e1, e2]
    simp only
    rw [e5]
    have hback : m'.set tmp none = m := by
      apply Mem.ext'
      intro b
      rw [set_blocks]
      by_cases hbt : b = tmp
      · rw [if_pos hbt, hbt, ht]
      · rw [if_neg hbt, e12 b (fun h => hbt (Option.some.inj h).symm), hm1 b hbt]
    have hC' : r'.abs m = some C' := by
      refine abs_block e7 fun d hd => ?_
      have h := hne d (e9 ▸ hd)
      rw [e12 d.1 (fun e => h (Option.some.inj e).symm), hm1 _ h]
    rw [hback]
    cases x with
    | none => exact ⟨_, _, _, rfl, rfl, hC', e8, e9, e10⟩
    | some b => exact ⟨_, _, _, rfl, rfl, hC', e8, e9, e10⟩

theorem apart_at {w : PCur} {n : Nat} (h : w.pos + n ≤ w.len) {q : Ptr} {k : Nat} (ha : Apart w.data w.len q k) :
    Apart w.at n q k := by
  unfold PCur.at
  cases hd : w.data with
  | none => trivial
  | some d =>
    rw [hd] at ha
    cases q with
    | none => trivial
    | some e =>
      simp only [Apart, Option.map_some] at ha ⊢
      rcases ha with ha | ha | ha
      · exact .inl ha
      · exact .inr (.inl (by omega))
      · exact .inr (.inr (by omega))

theorem same_length {m m' : Mem} {d : Nat × Nat} {n : Nat} (h : Same m m' (some d) n) {l : List Byte} (hl : m.blocks d.1 = some l)
    (hn : d.2 + n ≤ l.length) : ∃ l', m'.blocks d.1 = some l' ∧ l'.length = l.length := by
  have h1 := h (some (d.1, l.length)) 0 (.inr (.inl hn))
  have h2 := h (some (d.1, l.length + 1)) 0 (.inr (.inl (by simp only; omega)))
  simp only [Mem.bytes] at h1 h2
  rw [hl] at h1 h2
  simp only [Nat.add_zero, Nat.le_refl, if_true] at h1
  simp only [Nat.add_zero, Nat.not_succ_le_self, if_false] at h2
  cases hm : m'.blocks d.1 with
  | none => rw [hm] at h1; cases h1
  | some l' =>
    rw [hm] at h1 h2
    simp only at h1 h2
    refine ⟨l', rfl, ?_⟩
    by_cases c1 : l.length ≤ l'.length
    · by_cases c2 : l.length + 1 ≤ l'.length
      · rw [if_pos c2] at h2; cases h2
      · omega
    · rw [if_neg c1] at h1; cases h1

/-- `resize` of an empty vector. -/
theorem grow_core {m : Mem} {v : Vec} {fresh k : Nat} (hv : v.Own m) (hf : m.blocks fresh = none) (hk : 0 < k) :
    ∃ m' v' d, (Vec.mk v.data 0 v.cap).grow m fresh k = (m', v') ∧ v'.data = some d ∧ d.2 = 0 ∧ v'.size = k ∧ v'.Own m' ∧
      m'.bytes (some d) k = some (List.replicate k 0) ∧ (d.1 = fresh ∨ v.data = some d) ∧
      (∀ b, b ≠ fresh → v.data.map Prod.fst ≠ some b → m'.blocks b = m.blocks b) := by
  obtain ⟨_, hown⟩ := hv
  unfold Vec.grow
  by_cases hc : k ≤ v.cap
  · simp only [hc, if_true]
    cases hd : v.data with
    | none => rw [hd] at hown; simp only at hown; omega
    | some d =>
      rw [hd] at hown
      obtain ⟨h0, l, hl, hll⟩ := hown
      obtain ⟨b, o⟩ := d
      simp only at h0 hl
      subst h0
      have hold : m.bytes (some (b, 0)) k = some ((l.drop 0).take k) := bytes_some.2 ⟨l, hl, by simp only; omega, rfl⟩
      have hsame := same_store hold (List.length_replicate (n := k) (a := (0 : Byte)))
      obtain ⟨l', hl', hll'⟩ := same_length hsame hl (by simp only; omega)
      refine ⟨_, _, (b, 0), rfl, rfl, rfl, rfl, ⟨hc, rfl, l', hl', by simp only; omega⟩,
        bytes_store hold List.length_replicate, .inr rfl, ?_⟩
      intro c _ hcb
      exact store_other (d := (b, 0)) fun e => hcb (by rw [e]; rfl)
  · simp only [hc, if_false]
    refine ⟨_, _, (fresh, 0), rfl, rfl, rfl, rfl, ⟨Nat.le_refl _, rfl, List.replicate k 0, ?_, List.length_replicate⟩, ?_, .inl rfl, ?_⟩
    · rw [set_blocks, if_pos rfl]
    · exact bytes_some.2 ⟨_, by rw [set_blocks, if_pos rfl], by simp, by simp⟩
    · intro b hb hvb
      rw [set_blocks, if_neg hb]
      cases hd : v.data with
      | none => rfl
      | some d =>
        rw [hd] at hvb
        show (m.set d.1 none).blocks b = _
        rw [set_blocks, if_neg fun e => hvb (by rw [e]; rfl)]

end Verif.BinaryRW
