import Verif.BinaryRW.Typed
/-
C05-C10: binary reader and writer.

`InBuf c` is the only assumption on a cursor: the position is inside of the buffer and the
buffer is smaller than 2^63 bytes (no larger object exists).
-/
namespace Verif.BinaryRW
open Spec

/-- Position inside of a buffer that fits into memory. -/
def InBuf (c : Cursor) : Prop := c.pos ≤ c.buf.length ∧ c.buf.length < 2 ^ 63

instance (c : Cursor) : Decidable (InBuf c) := by unfold InBuf; infer_instance

/-! ### Sample types -/

/-- `<` on unsigned integers. -/
def ltNum : Val → Val → Bool
  | .scalar a, .scalar b => fromLE a < fromLE b
  | _, _ => false

theorem ltNum_ok : OrdOK ltNum := by
  refine ⟨?_, ?_⟩
  · intro a; cases a <;> simp [ltNum]
  · intro a b c
    cases a <;> cases b <;> cases c <;> simp [ltNum]
    omega

/-- `std::map<uint16_t, std::vector<std::pair<std::string, std::optional<uint8_t>>>>`. -/
def sampleTy : Ty := .map ltNum (.scalar 2) (.vec (.pair .str (.opt (.scalar 1))))
def sampleVal : Val := .map
  [(.scalar [5, 0], .vec [.pair (.str [1, 2, 3]) (.some (.scalar [7])), .pair (.str []) .none]),
   (.scalar [0, 1], .vec [])]

theorem sampleTy_ok : TyOK sampleTy := by simp [sampleTy, TyOK, ltNum_ok]
theorem sampleVal_hasTy : HasTy sampleTy sampleVal := by
  simp [sampleTy, sampleVal, HasTy, ltNum, fromLE]
theorem sampleVal_fits : Fits sampleTy sampleVal := by
  simp [sampleTy, sampleVal, Fits]

/-! ### C08 the writer is exact -/

/-- Every write ends; it succeeds iff there was no error and the encoding fits; then exactly
the encoding is placed at the old position and nothing else changes; otherwise the error is
set, and what changed is a prefix of the encoding placed at the old position (nothing if
there was an error before). -/
theorem C08_write_exact (t : Ty) (v : Val) (ht : HasTy t v) (w : Cursor) (hw : InBuf w) :
    ∃ w', write t v w = some w' ∧
      (w'.err = false ↔ w.err = false ∧ (encode t v).length ≤ w.buf.length - w.pos) ∧
      (w'.err = false → w'.pos = w.pos + (encode t v).length ∧
        w'.buf = w.buf.take w.pos ++ encode t v ++ w.buf.drop (w.pos + (encode t v).length)) ∧
      (w'.err = true → ∃ k, k ≤ (encode t v).length ∧ w'.pos = w.pos + k ∧
        w'.pos ≤ w.buf.length ∧
        w'.buf = w.buf.take w.pos ++ (encode t v).take k ++ w.buf.drop (w.pos + k) ∧
        (w.err = true → k = 0)) := by
  obtain ⟨buf, pos, err⟩ := w
  obtain ⟨hp, hs⟩ := hw
  simp only at hp hs
  obtain ⟨h1, h2, h3⟩ := wr_write t v ht buf pos hp hs
  cases err with
  | true =>
    refine ⟨_, h1, by simp, by simp, ?_⟩
    intro _
    exact ⟨0, by simp, rfl, hp, by simp, fun _ => rfl⟩
  | false =>
    by_cases hf : pos + (encode t v).length ≤ buf.length
    · exact ⟨_, h2 hf, by simp; omega, by simp, by simp⟩
    · obtain ⟨k, k1, k2, k3⟩ := h3 (by omega)
      refine ⟨_, k3, by simp; omega, by simp, ?_⟩
      intro _
      exact ⟨k, k1, rfl, k2, rfl, by simp⟩

/-- The size of the buffer and the bytes before the position never change. -/
theorem C08_write_frame (t : Ty) (v : Val) (ht : HasTy t v) (w : Cursor) (hw : InBuf w)
    (w' : Cursor) (h : write t v w = some w') :
    w'.buf.length = w.buf.length ∧ w'.buf.take w.pos = w.buf.take w.pos ∧
      w'.buf.drop w'.pos = w.buf.drop w'.pos := by
  obtain ⟨w1, e, _, h1, h2⟩ := C08_write_exact t v ht w hw
  obtain rfl : w' = w1 := by simpa [h] using e
  obtain ⟨hp, hs⟩ := hw
  have key : ∀ x : List Byte, w.pos + x.length ≤ w.buf.length →
      w'.buf = w.buf.take w.pos ++ x ++ w.buf.drop (w.pos + x.length) →
      w'.pos = w.pos + x.length → w'.buf.length = w.buf.length ∧
        w'.buf.take w.pos = w.buf.take w.pos ∧ w'.buf.drop w'.pos = w.buf.drop w'.pos := by
    intro x hx hb hpos
    rw [hb, hpos]
    refine ⟨by simp [Nat.min_eq_left hp]; omega, ?_, ?_⟩
    · rw [List.append_assoc, List.take_append_of_le_length (by simp [Nat.min_eq_left hp])]
      exact List.take_of_length_le (by simp; omega)
    · rw [List.drop_append]
      have hl : (w.buf.take w.pos ++ x).length = w.pos + x.length := by
        simp [Nat.min_eq_left hp]
      rw [List.drop_of_length_le (by omega), hl, Nat.sub_self]
      rfl
  cases he : w'.err with
  | false =>
    obtain ⟨a, b⟩ := h1 he
    have hw : w.pos + (encode t v).length ≤ w.buf.length := by
      rename_i hiff
      have := (hiff.1 he).2; omega
    exact key _ hw b a
  | true =>
    obtain ⟨k, k1, k2, k3, k4, _⟩ := h2 he
    have hl : ((encode t v).take k).length = k := by simp [Nat.min_eq_left k1]
    exact key ((encode t v).take k) (by omega) (by rw [hl]; exact k4) (by omega)

-- non-vacuous: the sample value in a buffer of 40 bytes at position 3
example : InBuf ⟨List.replicate 40 9, 3, false⟩ ∧ HasTy sampleTy sampleVal ∧
    (encode sampleTy sampleVal).length ≤ 37 := by
  refine ⟨by simp [InBuf], sampleVal_hasTy, by decide +kernel⟩
-- and one too small
example : InBuf ⟨List.replicate 20 9, 3, false⟩ ∧ ¬ (encode sampleTy sampleVal).length ≤ 17 := by
  refine ⟨by simp [InBuf], by decide +kernel⟩

/-! ### C05 round trip -/

/-- What the reader does on bytes that begin with an encoding. -/
theorem read_encoded (t : Ty) (v : Val) (hk : TyOK t) (ht : HasTy t v) (hf : Fits t v)
    (old : Val) (ho : HasTy t old) (buf : List Byte) (pos : Nat) (hp : pos ≤ buf.length)
    (hs : buf.length < 2 ^ 63) (rest : List Byte) (h : buf.drop pos = encode t v ++ rest) :
    readInto t old ⟨buf, pos, false⟩ = some (v, ⟨buf, pos + (encode t v).length, false⟩) := by
  obtain ⟨h1, _⟩ := ref_readInto t hk old ho buf pos hp hs
  have hpe := parse_encode t v hk ht hf rest
  rw [← h] at hpe
  obtain ⟨n, n1, n2, n3⟩ := h1 v rest hpe
  have e1 : (buf.drop pos).length = (encode t v).length + rest.length := by simp [h]
  have e2 : rest.length = buf.length - (pos + n) := by simp [n2]
  rw [List.length_drop] at e1
  have : n = (encode t v).length := by omega
  rw [n3, this]

/-- Write a value where it fits, read the same type back at the old position: the value
comes back, whatever the destination held, and the reader stops where the writer did. -/
theorem C05_roundtrip (t : Ty) (v : Val) (hk : TyOK t) (ht : HasTy t v) (hf : Fits t v)
    (w : Cursor) (hw : InBuf w) (he : w.err = false)
    (room : (encode t v).length ≤ w.buf.length - w.pos) :
    ∃ w', write t v w = some w' ∧ w'.err = false ∧ ∀ old, HasTy t old →
      Cursor.read ⟨w'.buf, w.pos, false⟩ t old = some (v, ⟨w'.buf, w'.pos, false⟩, true) := by
  obtain ⟨w', h1, h2, h3, _⟩ := C08_write_exact t v ht w hw
  have he' := h2.2 ⟨he, room⟩
  obtain ⟨hpos, hbuf⟩ := h3 he'
  refine ⟨w', h1, he', ?_⟩
  intro old ho
  obtain ⟨hp, hs⟩ := hw
  have hlen := (C08_write_frame t v ht w ⟨hp, hs⟩ w' h1).1
  have := read_encoded t v hk ht hf old ho w'.buf w.pos (by omega) (by omega)
    (w.buf.drop (w.pos + (encode t v).length)) (by
      rw [hbuf, List.append_assoc, List.drop_append]
      simp [Nat.min_eq_left hp])
  simp [Cursor.read, this, hpos]

/-- `w << a << b << ...`. -/
def writeAll : List (Ty × Val) → Cursor → Option Cursor
  | [], w => some w
  | (t, v) :: l, w => (write t v w).bind (writeAll l)

/-- `r.read<A>(); r.read<B>(); ...`. -/
def readAll : List Ty → Cursor → Option (List Val × Cursor)
  | [], r => some ([], r)
  | t :: l, r => (r.readNew t).bind fun (v, r') => (readAll l r').map fun (vs, r'') => (v :: vs, r'')

theorem readAll_encoded (l : List (Ty × Val)) (h : ∀ e ∈ l, TyOK e.1 ∧ HasTy e.1 e.2 ∧ Fits e.1 e.2)
    (buf : List Byte) (pos : Nat) (hp : pos ≤ buf.length) (hs : buf.length < 2 ^ 63)
    (rest : List Byte) (hb : buf.drop pos = l.flatMap (fun e => encode e.1 e.2) ++ rest) :
    readAll (l.map Prod.fst) ⟨buf, pos, false⟩ = some (l.map Prod.snd,
      ⟨buf, pos + (l.flatMap fun e => encode e.1 e.2).length, false⟩) := by
  induction l generalizing pos with
  | nil => simp [readAll]
  | cons x l ih =>
    obtain ⟨t, v⟩ := x
    obtain ⟨hk, ht, hf⟩ := h (t, v) (by simp)
    simp only [List.flatMap_cons, List.append_assoc] at hb
    have hr := read_encoded t v hk ht hf (default t) (default_hasTy t hk) buf pos hp hs _ hb
    have hlen : (buf.drop pos).length = (encode t v).length +
        ((l.flatMap fun e => encode e.1 e.2) ++ rest).length := by simp [hb]
    rw [List.length_drop] at hlen
    have hb' : buf.drop (pos + (encode t v).length) =
        (l.flatMap fun e => encode e.1 e.2) ++ rest := by
      rw [← List.drop_drop, hb]; simp
    have := ih (fun e he => h e (by simp [he])) (pos + (encode t v).length) (by omega) hb'
    simp [readAll, Cursor.readNew, Cursor.read, hr, this, Nat.add_assoc]

/-- Any sequence of values written one after another is read back as it was. -/
theorem C05_roundtrip_seq (l : List (Ty × Val))
    (h : ∀ e ∈ l, TyOK e.1 ∧ HasTy e.1 e.2 ∧ Fits e.1 e.2) (w : Cursor) (hw : InBuf w)
    (he : w.err = false)
    (room : (l.map fun e => (encode e.1 e.2).length).sum ≤ w.buf.length - w.pos) :
    ∃ w', writeAll l w = some w' ∧ w'.err = false ∧
      readAll (l.map Prod.fst) ⟨w'.buf, w.pos, false⟩ =
        some (l.map Prod.snd, ⟨w'.buf, w'.pos, false⟩) := by
  have hwr : Wr (writeAll l) (l.flatMap fun e => encode e.1 e.2) := by
    clear room
    induction l with
    | nil => exact wr_congr wr_nil (fun _ => rfl) rfl
    | cons x l ih =>
      obtain ⟨t, v⟩ := x
      refine wr_congr (wr_seq (wr_write t v (h (t, v) (by simp)).2.1)
        (ih fun e he => h e (by simp [he]))) ?_ (by simp)
      intro c
      simp only [writeAll]
      cases write t v c <;> rfl
  obtain ⟨hp, hs⟩ := hw
  obtain ⟨buf, pos, err⟩ := w
  simp only at he hp hs room
  subst he
  have hlen : (l.flatMap fun e => encode e.1 e.2).length =
      (l.map fun e => (encode e.1 e.2).length).sum := by
    simp [List.length_flatMap]
  have hw := (hwr buf pos hp hs).2.1 (by omega)
  refine ⟨_, hw, rfl, ?_⟩
  have hl : (buf.take pos ++ (l.flatMap fun e => encode e.1 e.2) ++
      buf.drop (pos + (l.flatMap fun e => encode e.1 e.2).length)).length = buf.length := by
    simp only [List.length_append, List.length_take, List.length_drop]
    omega
  exact readAll_encoded l h _ pos (by rw [hl]; exact hp) (by rw [hl]; exact hs)
    (buf.drop (pos + (l.flatMap fun e => encode e.1 e.2).length)) (by
      rw [List.append_assoc, List.drop_append]
      simp [Nat.min_eq_left hp])

example : ∀ e ∈ [(sampleTy, sampleVal), (Ty.str, Val.str [1, 2]),
      (Ty.variant [.scalar 4, .str], Val.var 1 (.str [9]))],
    TyOK e.1 ∧ HasTy e.1 e.2 ∧ Fits e.1 e.2 := by
  intro e he
  simp only [List.mem_cons, List.not_mem_nil, or_false] at he
  rcases he with rfl | rfl | rfl
  · exact ⟨sampleTy_ok, sampleVal_hasTy, sampleVal_fits⟩
  · simp [TyOK, HasTy, Fits]
  · simp [TyOK, AllOK, HasTy, HasAlt, Fits, FitsAlt]

/-! ### C06, C07 arbitrary sequences of operations -/

/-- The public operations of `binary_reader`. -/
inductive ROp where
  | extract (t : Ty) (old : Val)        -- r >> old
  | read (t : Ty) (old : Val)           -- r.read(old)
  | readNew (t : Ty)                    -- r.read<T>()
  | peek (n : Nat)
  | readRaw (n : Nat)
  | skip (off : Int)
  | span (n : Nat) (move : Bool)
  | notifyError

/-- Types exist, destinations are typed, `ptrdiff_t` offsets other than the minimum. -/
def ROp.OK : ROp → Prop
  | .extract t old => TyOK t ∧ HasTy t old
  | .read t old => TyOK t ∧ HasTy t old
  | .readNew t => TyOK t
  | .skip off => -2 ^ 63 < off ∧ off < 2 ^ 63
  | _ => True

/-- The cursor after an operation. -/
def ROp.run (c : Cursor) : ROp → Option Cursor
  | .extract t old => (readInto t old c).map (·.2)
  | .read t old => (c.read t old).map (·.2.1)
  | .readNew t => (c.readNew t).map (·.2)
  | .peek n => (c.peek n []).map (·.2.1)
  | .readRaw n => (c.readRaw n []).map (·.2.1)
  | .skip off => c.skip off
  | .span n move => (c.span n move).map (·.2)
  | .notifyError => some c.notifyError

def runR : Cursor → List ROp → Option Cursor
  | c, [] => some c
  | c, op :: ops => (op.run c).bind fun c' => runR c' ops

/-- The public operations of `binary_writer`. -/
inductive WOp where
  | insert (t : Ty) (v : Val)           -- w << v
  | writeRaw (b : List Byte)            -- w.write_raw, w.write_span
  | skip (off : Int)
  | notifyError

def WOp.OK : WOp → Prop
  | .insert t v => HasTy t v
  | .skip off => -2 ^ 63 < off ∧ off < 2 ^ 63
  | _ => True

def WOp.run (c : Cursor) : WOp → Option Cursor
  | .insert t v => write t v c
  | .writeRaw b => c.writeImpl b
  | .skip off => c.skip off
  | .notifyError => some c.notifyError

def runW : Cursor → List WOp → Option Cursor
  | c, [] => some c
  | c, op :: ops => (op.run c).bind fun c' => runW c' ops

theorem skip_eq (c : Cursor) (hc : InBuf c) (he : c.err = false) (off : Int)
    (h1 : -2 ^ 63 < off) :
    c.skip off = some (if 0 ≤ c.pos + off ∧ c.pos + off ≤ c.buf.length
      then { c with pos := (c.pos + off).toNat } else { c with err := true }) := by
  obtain ⟨buf, pos, err⟩ := c
  obtain ⟨hp, hs⟩ := hc
  simp only at he hp hs
  subst he
  have hl : Cursor.left ⟨buf, pos, false⟩ = buf.length - pos :=
    left_eq (c := ⟨buf, pos, false⟩) ⟨hp, hs⟩
  have h0 : ¬ off = -(2 ^ 63) := by omega
  simp only [Cursor.skip, hl, h0, if_false]
  by_cases ha : 0 ≤ (pos : Int) + off ∧ (pos : Int) + off ≤ buf.length
  · have e1 : ¬ (off > 0 ∧ off.toNat > buf.length - pos) := by omega
    have e2 : ¬ (off < 0 ∧ (-off).toNat > pos) := by omega
    simp only [e1, e2, if_false, ha, and_self, if_true, Bool.not_false]
    have : ((pos : Int) + off) % 2 ^ 64 = pos + off := by omega
    rw [this]
  · rw [if_neg ha]
    by_cases hb : off > 0 ∧ off.toNat > buf.length - pos
    · simp [hb]
    · have e2 : off < 0 ∧ (-off).toNat > pos := by omega
      simp [e2]

theorem skip_err (c : Cursor) (he : c.err = true) (off : Int) (h1 : -2 ^ 63 < off) :
    c.skip off = some c := by
  obtain ⟨buf, pos, err⟩ := c
  simp only at he
  subst he
  have h0 : ¬ off = -(2 ^ 63) := by omega
  simp only [Cursor.skip, h0, if_false, ite_self, Bool.not_true, Bool.false_eq_true]

theorem rop_err (c : Cursor) (he : c.err = true) (op : ROp) (ho : op.OK) :
    op.run c = some c := by
  cases op with
  | extract t old => simp [ROp.run, readInto_err t old ho.2 c he]
  | read t old => simp [ROp.run, Cursor.read, he]
  | readNew t => simp [ROp.run, Cursor.readNew, Cursor.read, he]
  | peek n => simp [ROp.run, Cursor.peek, Cursor.peekImpl, he]
  | readRaw n =>
    simp only [ROp.run, Cursor.readRaw, readImpl_err he, Option.map_some]
  | skip off => exact skip_err c he off ho.1
  | span n move =>
    obtain ⟨buf, pos, err⟩ := c
    simp only at he
    subst he
    simp [ROp.run, Cursor.span]
  | notifyError =>
    obtain ⟨buf, pos, err⟩ := c
    simp only at he
    subst he
    rfl

theorem rop_ok (c : Cursor) (hc : InBuf c) (op : ROp) (ho : op.OK) :
    ∃ c', op.run c = some c' ∧ c'.buf = c.buf ∧ InBuf c' := by
  cases he : c.err with
  | true => exact ⟨c, rop_err c he op ho, rfl, hc⟩
  | false =>
    obtain ⟨buf, pos, err⟩ := c
    obtain ⟨hp, hs⟩ := hc
    simp only at he hp hs
    subst he
    have key : ∀ t old, TyOK t → HasTy t old → ∃ v c', readInto t old ⟨buf, pos, false⟩ =
        some (v, c') ∧ c'.buf = buf ∧ InBuf c' := by
      intro t old hk ht
      obtain ⟨h1, h2⟩ := ref_readInto t hk old ht buf pos hp hs
      cases hq : parse t (buf.drop pos) with
      | none =>
        obtain ⟨v, pos', e1, e2, e3⟩ := h2 hq
        exact ⟨v, _, e1, rfl, e3, hs⟩
      | some r =>
        obtain ⟨v, rest⟩ := r
        obtain ⟨n, e1, e2, e3⟩ := h1 v rest hq
        exact ⟨v, _, e3, rfl, e1, hs⟩
    cases op with
    | extract t old =>
      obtain ⟨v, c', e1, e2, e3⟩ := key t old ho.1 ho.2
      exact ⟨c', by simp [ROp.run, e1], e2, e3⟩
    | read t old =>
      obtain ⟨v, c', e1, e2, e3⟩ := key t old ho.1 ho.2
      exact ⟨c', by simp [ROp.run, Cursor.read, e1], e2, e3⟩
    | readNew t =>
      obtain ⟨v, c', e1, e2, e3⟩ := key t (default t) ho (default_hasTy t ho)
      exact ⟨c', by simp [ROp.run, Cursor.readNew, Cursor.read, e1], e2, e3⟩
    | peek n =>
      have := peekImpl_eq (c := ⟨buf, pos, false⟩) ⟨hp, hs⟩ rfl n
      simp only [ROp.run, Cursor.peek, this]
      split <;> rename_i h
      · simp at h
      · exact ⟨_, rfl, rfl, hp, hs⟩
      · exact ⟨_, rfl, rfl, hp, hs⟩
    | readRaw n =>
      simp only [ROp.run, Cursor.readRaw, readImpl_eq' hp hs]
      by_cases h : pos + n ≤ buf.length
      · simp only [h, if_true]; exact ⟨_, rfl, rfl, h, hs⟩
      · simp only [h, if_false]; exact ⟨_, rfl, rfl, hp, hs⟩
    | skip off =>
      simp only [ROp.run, skip_eq ⟨buf, pos, false⟩ ⟨hp, hs⟩ rfl off ho.1]
      split
      · exact ⟨_, rfl, rfl, by simp only [InBuf]; omega⟩
      · exact ⟨_, rfl, rfl, hp, hs⟩
    | span n move =>
      have hl : Cursor.left ⟨buf, pos, false⟩ = buf.length - pos :=
        left_eq (c := ⟨buf, pos, false⟩) ⟨hp, hs⟩
      simp only [ROp.run, Cursor.span, hl]
      by_cases h : n > buf.length - pos
      · simp only [h, if_true]; exact ⟨_, rfl, rfl, hp, hs⟩
      · have h' : pos + n ≤ buf.length := by omega
        have hu : uadd pos n = pos + n := by unfold uadd; omega
        simp only [h, if_false, slice, h', if_true, hu, Bool.false_eq_true]
        cases move
        · exact ⟨_, rfl, rfl, hp, hs⟩
        · exact ⟨_, rfl, rfl, h', hs⟩
    | notifyError => exact ⟨_, rfl, rfl, hp, hs⟩

theorem wop_err (c : Cursor) (hc : InBuf c) (he : c.err = true) (op : WOp) (ho : op.OK) :
    op.run c = some c := by
  obtain ⟨buf, pos, err⟩ := c
  simp only at he
  subst he
  cases op with
  | insert t v => exact (wr_write t v ho buf pos hc.1 hc.2).1
  | writeRaw b => exact (wr_impl b buf pos hc.1 hc.2).1
  | skip off => exact skip_err _ rfl off ho.1
  | notifyError => rfl

theorem wop_ok (c : Cursor) (hc : InBuf c) (op : WOp) (ho : op.OK) :
    ∃ c', op.run c = some c' ∧ c'.buf.length = c.buf.length ∧ InBuf c' := by
  cases he : c.err with
  | true => exact ⟨c, wop_err c hc he op ho, rfl, hc⟩
  | false =>
    obtain ⟨buf, pos, err⟩ := c
    obtain ⟨hp, hs⟩ := hc
    simp only at he hp hs
    subst he
    have key : ∀ wr e, Wr wr e → ∃ c', wr ⟨buf, pos, false⟩ = some c' ∧
        c'.buf.length = buf.length ∧ InBuf c' := by
      intro wr e h
      obtain ⟨_, h2, h3⟩ := h buf pos hp hs
      by_cases hf : pos + e.length ≤ buf.length
      · refine ⟨_, h2 hf, ?_, ?_⟩
        · simp only [List.length_append, List.length_take, List.length_drop]; omega
        · simp only [InBuf, List.length_append, List.length_take, List.length_drop]; omega
      · obtain ⟨k, k1, k2, k3⟩ := h3 (by omega)
        refine ⟨_, k3, ?_, ?_⟩
        · simp only [List.length_append, List.length_take, List.length_drop]; omega
        · simp only [InBuf, List.length_append, List.length_take, List.length_drop]; omega
    cases op with
    | insert t v => exact key _ _ (wr_write t v ho)
    | writeRaw b => exact key _ _ (wr_impl b)
    | skip off =>
      simp only [WOp.run, skip_eq ⟨buf, pos, false⟩ ⟨hp, hs⟩ rfl off ho.1]
      split
      · exact ⟨_, rfl, rfl, by simp only [InBuf]; omega⟩
      · exact ⟨_, rfl, rfl, hp, hs⟩
    | notifyError => exact ⟨_, rfl, rfl, hp, hs⟩

theorem left_add (c : Cursor) (hc : InBuf c) : c.pos + c.left = c.buf.length := by
  rw [left_eq (c := c) ⟨hc.1, hc.2⟩]; have := hc.1; omega

/-- Any sequence of reader operations on any bytes runs to its end without touching a byte
outside of the buffer (`run` is not `none`), and the position stays inside. -/
theorem C06_reader_in_bounds (c : Cursor) (hc : InBuf c) (ops : List ROp) (ho : ∀ op ∈ ops, op.OK) :
    ∃ c', runR c ops = some c' ∧ c'.buf = c.buf ∧ c'.pos ≤ c.buf.length ∧
      c'.pos + c'.left = c.buf.length := by
  induction ops generalizing c with
  | nil => exact ⟨c, rfl, rfl, hc.1, left_add c hc⟩
  | cons op ops ih =>
    obtain ⟨c1, h1, h2, h3⟩ := rop_ok c hc op (ho op (by simp))
    obtain ⟨c', e1, e2, e3, e4⟩ := ih c1 h3 fun op h => ho op (by simp [h])
    exact ⟨c', by simp [runR, h1, e1], by rw [e2, h2], by rw [← h2]; exact e3, by
      rw [← h2]; exact e4⟩

/-- The same for the writer; the buffer keeps its size. -/
theorem C06_writer_in_bounds (c : Cursor) (hc : InBuf c) (ops : List WOp) (ho : ∀ op ∈ ops, op.OK) :
    ∃ c', runW c ops = some c' ∧ c'.buf.length = c.buf.length ∧ c'.pos ≤ c.buf.length ∧
      c'.pos + c'.left = c.buf.length := by
  induction ops generalizing c with
  | nil => exact ⟨c, rfl, rfl, hc.1, left_add c hc⟩
  | cons op ops ih =>
    obtain ⟨c1, h1, h2, h3⟩ := wop_ok c hc op (ho op (by simp))
    obtain ⟨c', e1, e2, e3, e4⟩ := ih c1 h3 fun op h => ho op (by simp [h])
    exact ⟨c', by simp [runW, h1, e1], by rw [e2, h2], by rw [← h2]; exact e3, by
      rw [← h2]; exact e4⟩

example : InBuf ⟨[1, 2, 3, 4, 5, 6], 0, false⟩ ∧ ∀ op ∈ [ROp.skip 3, .readNew sampleTy, .peek 2,
    .skip (-9), .span 100 true], op.OK := by
  simp [InBuf, ROp.OK, sampleTy_ok]

/-- After an error no operation moves the reader or clears the error. -/
theorem C07_reader_sticky (c : Cursor) (he : c.err = true) (ops : List ROp)
    (ho : ∀ op ∈ ops, op.OK) : runR c ops = some c := by
  induction ops with
  | nil => rfl
  | cons op ops ih =>
    simp [runR, rop_err c he op (ho op (by simp)), ih fun op h => ho op (by simp [h])]

/-- After an error no operation moves the writer, clears the error or changes the buffer. -/
theorem C07_writer_sticky (c : Cursor) (hc : InBuf c) (he : c.err = true) (ops : List WOp)
    (ho : ∀ op ∈ ops, op.OK) : runW c ops = some c := by
  induction ops with
  | nil => rfl
  | cons op ops ih =>
    simp [runW, wop_err c hc he op (ho op (by simp)), ih fun op h => ho op (by simp [h])]

/-- After an error every read reports failure; `read` leaves any destination as it was, and
`>>`, `read_raw`, `peek` leave scalar destinations as they were. -/
theorem C07_destinations (c : Cursor) (he : c.err = true) :
    (∀ t old, c.read t old = some (old, c, false)) ∧
    (∀ n old, HasTy (.scalar n) old → readInto (.scalar n) old c = some (old, c)) ∧
    (∀ n old, c.readRaw n old = some (old, c, false)) ∧
    (∀ n old, c.peek n old = some (old, c, false)) ∧
    (∀ t, c.readNew t = some (default t, c)) := by
  refine ⟨?_, ?_, ?_, ?_, ?_⟩
  · intro t old; simp [Cursor.read, he]
  · intro n old ho
    have := readInto_err (.scalar n) old ho c he
    cases old <;> simp only [HasTy] at ho
    simpa [afterErr] using this
  · intro n old
    simp only [Cursor.readRaw, readImpl_err he, Option.getD_none, he, Bool.not_true]
  · intro n old; simp [Cursor.peek, Cursor.peekImpl, he]
  · intro t; simp [Cursor.readNew, Cursor.read, he]

-- an operation that fails sets the flag, and the theorems above apply from then on
example : ROp.run ⟨[1, 2], 0, false⟩ (.readRaw 3) = some ⟨[1, 2], 0, true⟩ := by decide +kernel

/-! ### C09 truncated and corrupt input -/

/-- On any bytes the read ends, with a well-typed destination; it succeeds iff the bytes at
the cursor begin with a value in the sense of the specification, and then yields that value
and its end; otherwise the error is set. -/
theorem C09_any_bytes (t : Ty) (hk : TyOK t) (old : Val) (ho : HasTy t old) (c : Cursor)
    (hc : InBuf c) (he : c.err = false) :
    ∃ v c', c.read t old = some (v, c', !c'.err) ∧ HasTy t v ∧ c'.buf = c.buf ∧
      (∀ w rest, parse t (c.buf.drop c.pos) = some (w, rest) →
        c'.err = false ∧ v = w ∧ c.buf.drop c'.pos = rest) ∧
      (parse t (c.buf.drop c.pos) = none → c'.err = true) := by
  obtain ⟨buf, pos, err⟩ := c
  obtain ⟨hp, hs⟩ := hc
  simp only at he hp hs
  subst he
  obtain ⟨h1, h2⟩ := ref_readInto t hk old ho buf pos hp hs
  cases hq : parse t (buf.drop pos) with
  | none =>
    obtain ⟨v, pos', e1, e2, e3⟩ := h2 hq
    exact ⟨v, ⟨buf, pos', true⟩, by simp [Cursor.read, e1], readInto_typed t hk old _ v _ ho e1,
      rfl, by simp, by simp⟩
  | some r =>
    obtain ⟨v, rest⟩ := r
    obtain ⟨n, e1, e2, e3⟩ := h1 v rest hq
    refine ⟨v, ⟨buf, pos + n, false⟩, by simp [Cursor.read, e3], readInto_typed t hk old _ v _ ho e3, rfl, ?_, by simp⟩
    intro w r h
    simp only [Option.some.injEq, Prod.mk.injEq] at h
    exact ⟨rfl, h.1, by rw [← h.2, e2]⟩

/-- Cutting a valid encoding anywhere before its end makes the read fail. -/
theorem C09_truncation (t : Ty) (v : Val) (hk : TyOK t) (ht : HasTy t v) (hf : Fits t v)
    (k : Nat) (hlt : k < (encode t v).length) (hs : (encode t v).length < 2 ^ 63) (old : Val)
    (ho : HasTy t old) :
    ∃ w c', Cursor.read ⟨(encode t v).take k, 0, false⟩ t old = some (w, c', false) ∧
      c'.err = true := by
  obtain ⟨w, c', h1, _, _, _, h2⟩ := C09_any_bytes t hk old ho ⟨(encode t v).take k, 0, false⟩
    ⟨by simp, by simp only [List.length_take]; omega⟩ rfl
  have hn : parse t ((encode t v).take k) = none := by
    cases hq : parse t ((encode t v).take k) with
    | none => rfl
    | some r =>
      obtain ⟨x, rest⟩ := r
      obtain ⟨used, u1, u2⟩ := ext_parse t _ _ _ hq
      have hfull := parse_encode t v hk ht hf []
      rw [List.append_nil] at hfull
      have : encode t v = used ++ (rest ++ (encode t v).drop k) := by
        rw [← List.append_assoc, ← u1, List.take_append_drop]
      rw [this, u2] at hfull
      simp only [Option.some.injEq, Prod.mk.injEq, List.append_eq_nil_iff,
        List.drop_eq_nil_iff] at hfull
      omega
  have he := h2 (by simpa using hn)
  exact ⟨w, c', by rw [h1, he]; rfl, he⟩

example : ∃ k, 0 < k ∧ k < (encode sampleTy sampleVal).length ∧
    (encode sampleTy sampleVal).length < 2 ^ 63 := ⟨13, by decide +kernel⟩

/-- A failed read leaves a string, vector, map or set empty, wherever it failed. -/
theorem C09_containers_empty (c : Cursor) (old v : Val) (c' : Cursor) (he : c'.err = true) :
    (readInto .str old c = some (v, c') → v = .str []) ∧
    (∀ t, readInto (.vec t) old c = some (v, c') → v = .vec []) ∧
    (∀ lt k w, readInto (.map lt k w) old c = some (v, c') → v = .map []) ∧
    (∀ lt t, readInto (.set lt t) old c = some (v, c') → v = .set []) := by
  refine ⟨?_, ?_, ?_, ?_⟩
  · intro h
    cases old <;> simp only [readInto, reduceCtorEq] at h
    split at h
    · simp at h
    · split at h
      · simp only [Option.some.injEq, Prod.mk.injEq] at h; exact h.1.symm
      · split at h <;> simp only [Option.some.injEq, Prod.mk.injEq, reduceCtorEq] at h
        rw [← h.1, h.2, he]; rfl
  · intro t h
    cases old <;> simp only [readInto, reduceCtorEq] at h
    split at h
    · simp at h
    · split at h
      · split at h
        · simp only [Option.some.injEq, Prod.mk.injEq] at h; exact h.1.symm
        · split at h <;> simp only [Option.some.injEq, Prod.mk.injEq, reduceCtorEq] at h
          rw [← h.1, h.2, he]; rfl
      · split at h <;> simp only [Option.some.injEq, Prod.mk.injEq, reduceCtorEq] at h
        rename_i l c2 hr
        rw [← h.1, readLoop_err _ _ _ _ _ (.inr rfl) hr (by rw [h.2]; exact he)]
  · intro lt k w h
    cases old <;> simp only [readInto, reduceCtorEq] at h
    split at h
    · simp at h
    · split at h <;> simp only [Option.some.injEq, Prod.mk.injEq, reduceCtorEq] at h
      rename_i l c2 hr
      rw [← h.1, readLoop_err _ _ _ _ _ (.inr rfl) hr (by rw [h.2]; exact he)]
  · intro lt t h
    cases old <;> simp only [readInto, reduceCtorEq] at h
    split at h
    · simp at h
    · split at h <;> simp only [Option.some.injEq, Prod.mk.injEq, reduceCtorEq] at h
      rename_i l c2 hr
      rw [← h.1, readLoop_err _ _ _ _ _ (.inr rfl) hr (by rw [h.2]; exact he)]

-- a vector of strings whose second string is cut off
example : ∃ v c', readInto (.vec .str) (.vec [.str [1]])
    ⟨[2, 0, 0, 0, 1, 0, 0, 0, 65, 9, 0, 0, 0, 66], 0, false⟩ = some (v, c') ∧ c'.err = true :=
  ⟨.vec [], ⟨[2, 0, 0, 0, 1, 0, 0, 0, 65, 9, 0, 0, 0, 66], 13, true⟩, rfl, rfl⟩

/-- The claim about `std::optional` fails: a read that fails inside of the optional leaves it
holding a (value-initialised) value. -/
theorem C09_optional_violated : ∃ c c' : Cursor, InBuf c ∧ c.err = false ∧
    readInto (.opt .str) .none c = some (.some (.str []), c') ∧ c'.err = true :=
  ⟨⟨[1], 0, false⟩, ⟨[1], 1, true⟩, by decide, rfl, rfl, rfl⟩

/-- The part that holds: the optional is empty if its flag byte is missing or zero. -/
theorem C09_optional_partial (t : Ty) (old v : Val) (c c' : Cursor) (hc : InBuf c)
    (h : readInto (.opt t) old c = some (v, c'))
    (hflag : ∀ b, c.buf[c.pos]? = some b → b = 0 ∨ c.err = true) : v = .none := by
  cases he : c.err with
  | true =>
    simp only [readInto, Cursor.readUInt, he, if_true, Bool.not_true, Bool.false_and,
      Bool.false_eq_true, if_false, Option.some.injEq, Prod.mk.injEq] at h
    exact h.1.symm
  | false =>
    obtain ⟨buf, pos, err⟩ := c
    obtain ⟨hp, hs⟩ := hc
    simp only at he hp hs hflag
    subst he
    simp only [readInto, readUInt_eq hp hs] at h
    cases hn : num? 1 (buf.drop pos) with
    | none =>
      simp only [hn, Bool.not_true, Bool.false_and, Bool.false_eq_true, if_false,
        Option.some.injEq, Prod.mk.injEq] at h
      exact h.1.symm
    | some r =>
      obtain ⟨n, rest⟩ := r
      have hz : n = 0 := by
        unfold num? take? at hn
        split at hn
        · simp at hn
        · rename_i x y hx
          split at hx <;> simp only [Option.some.injEq, Prod.mk.injEq, reduceCtorEq] at hx
          rename_i hlen
          simp only [Option.some.injEq, Prod.mk.injEq] at hn
          rw [List.length_drop] at hlen
          have hb : buf[pos]? = some (buf[pos]'(by omega)) := List.getElem?_eq_getElem _
          have h0 := hflag _ hb
          simp only [Bool.false_eq_true, or_false] at h0
          rw [← hn.1, ← hx.1, List.drop_eq_getElem_cons (by omega)]
          simp [h0]
      simp only [hn, hz, bne_self_eq_false, Bool.and_false, Bool.false_eq_true, if_false,
        Option.some.injEq, Prod.mk.injEq] at h
      exact h.1.symm

/-- Exactly: whatever the outcome of the read, the optional is empty if and only if there was an
error before, or its flag byte is missing or zero. -/
theorem C09_optional_iff (t : Ty) (old v : Val) (c c' : Cursor) (hc : InBuf c)
    (h : readInto (.opt t) old c = some (v, c')) :
    v = .none ↔ c.err = true ∨ c.buf[c.pos]? = none ∨ c.buf[c.pos]? = some 0 := by
  constructor
  · intro hv
    subst hv
    obtain ⟨buf, pos, err⟩ := c
    obtain ⟨hp, hs⟩ := hc
    simp only at hp hs ⊢
    cases err with
    | true => exact .inl rfl
    | false =>
      refine .inr ?_
      cases hb : buf[pos]? with
      | none => exact .inl rfl
      | some b =>
        refine .inr ?_
        by_cases hz : b = 0
        · rw [hz]
        · exfalso
          obtain ⟨hlt, hbv⟩ := List.getElem?_eq_some_iff.mp hb
          have hnum : num? 1 (buf.drop pos) = some (b.toNat, buf.drop (pos + 1)) := by
            rw [List.drop_eq_getElem_cons hlt, hbv]
            simp [num?, take?]
          have hnz : b.toNat ≠ 0 := fun h0 => hz (BitVec.eq_of_toNat_eq (by simpa using h0))
          simp only [readInto, readUInt_eq hp hs, hnum, Bool.not_false, Bool.true_and,
            bne_iff_ne, ne_eq, hnz, not_false_eq_true, if_true, Bool.false_eq_true, if_false] at h
          split at h <;> simp at h
  · rintro (h1 | h1 | h1)
    · exact C09_optional_partial t old v c c' hc h fun _ _ => .inr h1
    · exact C09_optional_partial t old v c c' hc h fun b hb => by rw [h1] at hb; cases hb
    · exact C09_optional_partial t old v c c' hc h fun b hb => by
        rw [h1] at hb; cases hb; exact .inl rfl

example : ∃ v c', readInto (.opt (.vec .str)) .none ⟨[1, 9, 0, 0, 0], 0, false⟩ = some (v, c') ∧
    v ≠ .none ∧ c'.err = true :=
  ⟨.some (.vec []), ⟨[1, 9, 0, 0, 0], 5, true⟩, rfl, nofun, rfl⟩

/-! ### C10 skip and peek -/

/-- `skip(off)` moves by exactly `off` if that stays inside of the buffer; otherwise it sets
the error and does not move.  With an error it does nothing. -/
theorem C10_skip (c : Cursor) (hc : InBuf c) (off : Int) (h1 : -2 ^ 63 < off) :
    ∃ c', c.skip off = some c' ∧ c'.buf = c.buf ∧
      (c.err = true → c'.err = true ∧ c'.pos = c.pos) ∧
      (c.err = false → 0 ≤ c.pos + off → c.pos + off ≤ c.buf.length →
        c'.err = false ∧ (c'.pos : Int) = c.pos + off) ∧
      (c.err = false → c.pos + off < 0 ∨ c.buf.length < c.pos + off →
        c'.err = true ∧ c'.pos = c.pos) := by
  cases he : c.err with
  | true => exact ⟨c, skip_err c he off h1, rfl, by simp [he], by simp, by simp⟩
  | false =>
    refine ⟨_, skip_eq c hc he off h1, ?_, by simp, ?_, ?_⟩
    · split <;> rfl
    · intro _ a b
      simp only [a, b, and_self, if_true, he, true_and]; omega
    · intro _ a
      have : ¬ (0 ≤ (c.pos : Int) + off ∧ (c.pos : Int) + off ≤ c.buf.length) := by omega
      simp [this]

/-- `skip(PTRDIFF_MIN)` is undefined (negation overflows), so the bound is needed. -/
theorem C10_skip_min (c : Cursor) : c.skip (-(2 ^ 63)) = none := by
  simp [Cursor.skip]

example : InBuf ⟨[1, 2, 3, 4], 3, false⟩ ∧ (0 : Int) ≤ (3 : Nat) + (-2) ∧
    ¬ (3 : Nat) + (2 : Int) ≤ (4 : Nat) := by decide

/-- `peek` does not change the cursor, and what it says is what the following read does:
the same bytes on success, and a failing read (which sets the error) on failure. -/
theorem C10_peek (c : Cursor) (hc : InBuf c) (n : Nat) (old : List Byte) :
    ∃ b ok c', c.peek n old = some (b, c, ok) ∧ c.readRaw n old = some (b, c', ok) ∧
      (ok = true ↔ c.err = false ∧ n ≤ c.buf.length - c.pos) ∧
      (ok = true → b = (c.buf.drop c.pos).take n ∧ c'.pos = c.pos + n ∧ c'.err = false) ∧
      (ok = false → b = old ∧ c'.pos = c.pos ∧ c'.err = true) := by
  cases he : c.err with
  | true =>
    have := C07_destinations c he
    exact ⟨old, false, c, this.2.2.2.1 n old, this.2.2.1 n old, by simp, by simp, by simp [he]⟩
  | false =>
    obtain ⟨buf, pos, err⟩ := c
    obtain ⟨hp, hs⟩ := hc
    simp only at he hp hs
    subst he
    have h1 := peekImpl_eq (c := ⟨buf, pos, false⟩) ⟨hp, hs⟩ rfl n
    simp only at h1
    by_cases h : pos + n ≤ buf.length
    · rw [if_pos h] at h1
      refine ⟨(buf.drop pos).take n, true, ⟨buf, pos + n, false⟩, by simp only [Cursor.peek, h1],
        by simp [Cursor.readRaw, readImpl_eq' hp hs, h], by simp; omega, by simp, by simp⟩
    · rw [if_neg h] at h1
      refine ⟨old, false, ⟨buf, pos, true⟩, by simp only [Cursor.peek, h1],
        by simp [Cursor.readRaw, readImpl_eq' hp hs, h], by simp; omega, by simp, by simp⟩

/-- `span(count)` yields the next `count` bytes. -/
theorem C10_span (c : Cursor) (hc : InBuf c) (n : Nat) (move : Bool) :
    ∃ b c', c.span n move = some (b, c') ∧ c'.buf = c.buf ∧
      (c'.err = false ↔ c.err = false ∧ n ≤ c.buf.length - c.pos) ∧
      (c'.err = false → b = (c.buf.drop c.pos).take n ∧
        c'.pos = if move then c.pos + n else c.pos) ∧
      (c'.err = true → b = [] ∧ c'.pos = c.pos) := by
  obtain ⟨buf, pos, err⟩ := c
  obtain ⟨hp, hs⟩ := hc
  simp only at hp hs
  have hl : Cursor.left ⟨buf, pos, err⟩ = buf.length - pos :=
    left_eq (c := ⟨buf, pos, err⟩) ⟨hp, hs⟩
  simp only [Cursor.span, hl]
  by_cases h : n > buf.length - pos
  · simp only [h, if_true]
    exact ⟨_, _, rfl, rfl, by simp; omega, by simp, by simp⟩
  · cases err with
    | true =>
      simp only [h, if_false, if_true]
      exact ⟨_, _, rfl, rfl, by simp, by simp, by simp⟩
    | false =>
      have h' : pos + n ≤ buf.length := by omega
      have hu : uadd pos n = pos + n := by unfold uadd; omega
      simp only [h, if_false, slice, h', if_true, hu, Bool.false_eq_true]
      cases move
      · exact ⟨_, _, rfl, rfl, by simp; omega, by simp, by simp⟩
      · exact ⟨_, _, rfl, rfl, by simp; omega, by simp, by simp⟩

example : InBuf ⟨[1, 2, 3, 4], 1, false⟩ ∧ (3 ≤ 4 - 1) ∧ ¬ (4 ≤ 4 - 1) := by decide

end Verif.BinaryRW
