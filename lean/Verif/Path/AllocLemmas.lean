import Verif.Path.Alloc
import Verif.Path.Failed
/-
Lemmas for `path::set` when memory may run out (C140).
-/
namespace Verif.Path
open Spec

variable {σ : Type}

/-- The end of `set` when there is enough memory. -/
def endOf : Option ParseError → SetEnd
  | none => .done
  | some e => .parse e

/-- What is stored fits into the capacities. -/
structure Fits (m : Store σ) : Prop where
  text : m.path.value.length ≤ m.textRoom
  segs : m.path.segments.length ≤ m.segRoom

/-- Characters needed for a separator. -/
def sep (p : Path) : Nat := if p.value.isEmpty then 0 else 1

theorem append_eq (H : Heap σ) (m : Store σ) (c : Byte) (h : m.path.value.length + 1 ≤ m.textRoom) :
    m.append H c = ({ m with path := ⟨m.path.value ++ [c], m.path.segments⟩ }, true) := by
  simp [Store.append, Store.needText, h]

theorem decode_eq (H : Heap σ) (m : Store σ) (raw : Str) (h : m.path.value.length + raw.length ≤ m.textRoom) :
    m.decode H raw = ({ m with path := ⟨(decodeInto m.path.value raw).1, m.path.segments⟩ },
      endOf (decodeInto m.path.value raw).2) := by
  generalize hv : m.path.value = value
  rw [hv] at h
  fun_induction decodeInto value raw generalizing m with
  | case1 value => subst hv; simp [Store.decode, endOf]
  | case2 value c rest hc ih =>
    subst hv
    rw [Store.decode.eq_def]
    simp only [List.length_cons] at h
    simp only [hc, ne_eq, not_false_eq_true, if_true, append_eq H m c (by omega)]
    rw [ih { m with path := ⟨m.path.value ++ [_], m.path.segments⟩ } (by simp; omega) rfl]
  | case3 value c hc x l rest' hneg =>
    subst hv
    rw [Store.decode.eq_def]
    simp [hc, hneg, endOf]
  | case4 value c hc x l rest' hneg ch hch =>
    subst hv
    rw [Store.decode.eq_def]
    simp only [hc, hneg, if_false]
    rw [if_pos hch]; rfl
  | case5 value c hc x l rest' hneg ch hch ih =>
    subst hv
    rw [Store.decode.eq_def]
    simp only [List.length_cons] at h
    simp only [hc, hneg, if_false]
    rw [if_neg hch, append_eq H m _ (by omega)]
    simp only
    rw [ih { m with path := ⟨m.path.value ++ [_], m.path.segments⟩ } (by simp; omega) rfl]
  | case6 value c rest hc hshort =>
    subst hv
    rw [Store.decode.eq_def]
    simp only [hc, if_false]
    rfl

theorem decodeInto_length (value raw : Str) : (decodeInto value raw).1.length ≤ value.length + raw.length := by
  fun_induction decodeInto value raw <;> simp_all <;> omega

theorem separate_eq (H : Heap σ) (m : Store σ) (h : m.path.value.length + sep m.path ≤ m.textRoom) :
    m.separate H = ({ m with path := ⟨if !m.path.value.isEmpty then m.path.value ++ [slash] else m.path.value,
      m.path.segments⟩ }, true) := by
  unfold Store.separate
  cases hv : m.path.value.isEmpty with
  | true => simp
  | false =>
    simp only [sep, hv] at h
    simp only [Bool.not_false, if_true]
    exact append_eq H m slash (by simpa using h)

/-- Pushing a segment: only the array can lack memory. -/
theorem push_eq (H : Heap σ) (m : Store σ) (raw : Str)
    (h : m.path.value.length + sep m.path + raw.length ≤ m.textRoom) :
    m.push H raw =
      match m.path.push raw with
      | (q, some e) => ({ m with path := q }, .parse e)
      | (q, none) =>
        match m.needSegs H (m.path.segments.length + 1) with
        | (m', true) => ({ m' with path := q }, .done)
        | (m', false) => ({ m' with path := ⟨q.value, m.path.segments⟩ }, .noMemory) := by
  unfold Store.push Path.push
  rw [separate_eq H m (by omega)]
  have hl : (if !m.path.value.isEmpty then m.path.value ++ [slash] else m.path.value).length =
      m.path.value.length + sep m.path := by
    unfold sep
    cases m.path.value.isEmpty <;> simp
  generalize (if !m.path.value.isEmpty then m.path.value ++ [slash] else m.path.value) = value at hl ⊢
  simp only
  rw [decode_eq H _ raw (by simp only; omega)]
  simp only
  generalize decodeInto value raw = d
  obtain ⟨v', o⟩ := d
  cases o with
  | some e => simp [endOf]
  | none =>
    simp only [endOf, Store.pushBack, Store.needSegs]
    by_cases hr : m.path.segments.length + 1 ≤ m.segRoom
    · simp only [hr, if_true]
    · simp only [hr, if_false]
      cases (H.next m.heap).1 <;> simp

/-- Length after a segment. -/
theorem push_length (p : Path) (raw : Str) : (p.push raw).1.value.length ≤ p.value.length + sep p + raw.length := by
  have hl : (if !p.value.isEmpty then p.value ++ [slash] else p.value).length = p.value.length + sep p := by
    unfold sep
    cases p.value.isEmpty <;> simp
  unfold Path.push
  generalize (if !p.value.isEmpty then p.value ++ [slash] else p.value) = value at hl ⊢
  have := decodeInto_length value raw
  rw [← hl]
  simp only
  split <;> simp_all

theorem pop_length (p : Path) : p.pop.value.length ≤ p.value.length ∧ p.pop.segments.length ≤ p.segments.length := by
  unfold Path.pop
  split
  · exact ⟨Nat.le_refl _, Nat.le_refl _⟩
  · simp only [List.length_take, List.length_dropLast]
    omega

theorem sep_le (p : Path) : sep p ≤ 1 := by unfold sep; split <;> omega

/-- What one segment does to the store. -/
inductive StepEnd (H : Heap σ) (m : Store σ) (raw : Str) : Store σ × SetEnd → Prop
  | quiet {q o} : m.path.stepSegment raw = (q, o) → q.segments.length ≤ m.segRoom →
      StepEnd H m raw ({ m with path := q }, endOf o)
  | grown {q} : m.path.stepSegment raw = (q, none) → q.segments.length = m.segRoom + 1 → raw ≠ [] →
      (H.next m.heap).1 = true →
      StepEnd H m raw (⟨q, m.textRoom, max (m.segRoom + 1) (H.more m.segRoom (m.segRoom + 1)), (H.next m.heap).2, m.asked ++ [.segments]⟩, .done)
  | refused {q} : m.path.push raw = (q, none) → raw ≠ [] → raw ≠ [dot] → raw ≠ [dot, dot] → m.path.segments.length = m.segRoom →
      (H.next m.heap).1 = false →
      StepEnd H m raw ({ m with path := ⟨q.value, m.path.segments⟩, heap := (H.next m.heap).2, asked := m.asked ++ [.segments] }, .noMemory)

theorem push_segs {p q : Path} {raw : Str} {o : Option ParseError} (h : p.push raw = (q, o)) :
    q.segments.length = p.segments.length + (if o = none then 1 else 0) := by
  unfold Path.push at h
  simp only at h
  split at h <;> (simp only [Prod.mk.injEq] at h; obtain ⟨rfl, rfl⟩ := h; simp)

theorem step_end (H : Heap σ) (m : Store σ) (raw : Str) (hf : m.path.segments.length ≤ m.segRoom)
    (h : m.path.value.length + sep m.path + raw.length ≤ m.textRoom) : StepEnd H m raw (m.step H raw) := by
  unfold Store.step
  by_cases h0 : raw = []
  · subst h0
    simp only [ne_eq, not_true_eq_false, if_false]
    exact .quiet (q := m.path) (o := none) (by simp [Path.stepSegment]) hf
  by_cases h1 : raw = [dot]
  · subst h1
    simp only [ne_eq, h0, not_false_eq_true, if_true]
    exact .quiet (q := m.path) (o := none) (by simp [Path.stepSegment]) hf
  by_cases h2 : raw = [dot, dot]
  · subst h2
    simp only [ne_eq, h0, h1, not_false_eq_true, if_true, if_false]
    exact .quiet (q := m.path.pop) (o := none) (by simp [Path.stepSegment]) (Nat.le_trans (pop_length _).2 hf)
  simp only [ne_eq, h0, h1, h2, not_false_eq_true, if_true, if_false]
  have hs : m.path.stepSegment raw = m.path.push raw := by simp [Path.stepSegment, h0, h1, h2]
  rw [push_eq H m raw h]
  cases hp : m.path.push raw with
  | mk q o =>
    have hl := push_segs hp
    cases o with
    | some e =>
      simp only
      exact .quiet (o := some e) (by rw [hs, hp]) (by simp at hl; omega)
    | none =>
      simp only [if_true] at hl
      simp only [Store.needSegs]
      by_cases hr : m.path.segments.length + 1 ≤ m.segRoom
      · simp only [hr, if_true]
        exact .quiet (o := none) (by rw [hs, hp]) (by omega)
      · simp only [hr, if_false]
        have he : m.path.segments.length = m.segRoom := by omega
        cases ha : (H.next m.heap).1 with
        | true =>
          simp only [if_true]
          rw [he]
          exact .grown (by rw [hs, hp]) (by omega) h0 ha
        | false =>
          simp only [Bool.false_eq_true, if_false]
          exact .refused hp h0 h1 h2 he ha

/-- The text room needed by the loop. -/
def TextFits (m : Store σ) (value : Str) : Prop := m.path.value.length + sep m.path + value.length ≤ m.textRoom

theorem step_length {p q : Path} {raw : Str} {o : Option ParseError} (h : p.stepSegment raw = (q, o)) :
    q.value.length ≤ p.value.length + sep p + raw.length := by
  unfold Path.stepSegment at h
  split at h
  · split at h
    · simp only [Prod.mk.injEq] at h; obtain ⟨rfl, -⟩ := h; omega
    · split at h
      · simp only [Prod.mk.injEq] at h; obtain ⟨rfl, -⟩ := h
        have := (pop_length p).1; omega
      · have := push_length p raw
        rw [h] at this; exact this
  · simp only [Prod.mk.injEq] at h; obtain ⟨rfl, -⟩ := h; omega

theorem parts_length (value : Str) :
    (value.takeWhile (· != slash)).length + (value.dropWhile (· != slash)).length = value.length := by
  rw [← List.length_append, List.takeWhile_append_dropWhile]

theorem take_le (value : Str) : (value.takeWhile (· != slash)).length ≤ value.length := by
  have := parts_length value; omega

/-- The next round has room for its text as well. -/
theorem textFits_next {m n : Store σ} {value rest : Str} {c : Byte} {o : Option ParseError}
    (h : TextFits m value) (hd : value.dropWhile (· != slash) = c :: rest)
    (hs : m.path.stepSegment (value.takeWhile (· != slash)) = (n.path, o)) (hr : n.textRoom = m.textRoom) : TextFits n rest := by
  have h1 := step_length hs
  have h2 := parts_length value
  have h3 := sep_le n.path
  rw [hd, List.length_cons] at h2
  unfold TextFits at *
  omega

/-- How the loop ends. -/
structure LoopEnd (H : Heap σ) (m : Store σ) (loc : List Seg) (value : Str) (r : Store σ × SetEnd) : Prop where
  room : r.1.textRoom = m.textRoom
  more : m.segRoom ≤ r.1.segRoom
  fits : Fits r.1
  asked : ∃ k, r.1.asked = m.asked ++ List.replicate k .segments ∧ (k = 0 → r.1.segRoom = m.segRoom ∧ r.2 ≠ .noMemory)
  plain : ∀ o, r.2 = endOf o → m.path.setLoop value = (r.1.path, o)
  stop : r.2 = .noMemory → ∃ loc' before raw after seg, split value = before ++ raw :: after ∧ Walk loc before loc' ∧
    ¬ isDot raw ∧ ¬ isDotDot raw ∧ Decodes raw seg ∧ Valid loc' ∧ r.1.path = ⟨lead loc' ++ seg, layout 0 loc'⟩ ∧
    loc'.length = r.1.segRoom
  refusal : r.2 = .noMemory → ∃ s, (H.next s).1 = false

theorem push_done {p q : Path} {loc : List Seg} (h : Rep p loc) {raw : Str} (hp : p.push raw = (q, none)) :
    ∃ seg, Decodes raw seg ∧ q.value = lead loc ++ seg := by
  by_cases hd : ∃ seg, Decodes raw seg
  · obtain ⟨seg, hd⟩ := hd
    refine ⟨seg, hd, ?_⟩
    unfold Path.push at hp
    simp only [lead_value h, decodeInto_ok hd] at hp
    simp only [Prod.mk.injEq] at hp
    rw [← hp.1]
  · obtain ⟨part, e, he⟩ := decodeInto_err hd (lead loc)
    unfold Path.push at hp
    simp only [lead_value h, he] at hp
    simp at hp

theorem endOf_inj {a b : Option ParseError} (h : endOf a = endOf b) : a = b := by
  cases a <;> cases b <;> simp_all [endOf]

theorem setLoop_done {p q : Path} {value : Str} (hs : p.stepSegment (value.takeWhile (· != slash)) = (q, none))
    (hd : value.dropWhile (· != slash) = []) : p.setLoop value = (q, none) := by
  rw [Path.setLoop]
  simp only [hs]
  split
  · rfl
  · rename_i heq; rw [hd] at heq; cases heq

theorem setLoop_next {p q : Path} {value rest : Str} {c : Byte} (hs : p.stepSegment (value.takeWhile (· != slash)) = (q, none))
    (hd : value.dropWhile (· != slash) = c :: rest) : p.setLoop value = q.setLoop rest := by
  rw [Path.setLoop]
  simp only [hs]
  split
  · rename_i heq; rw [hd] at heq; cases heq
  · rename_i heq; rw [hd] at heq; cases heq; rfl

theorem setLoop_fail {p q : Path} {value : Str} {e : ParseError}
    (hs : p.stepSegment (value.takeWhile (· != slash)) = (q, some e)) : p.setLoop value = (q, some e) := by
  rw [Path.setLoop]
  simp only [hs]

theorem loop_end (H : Heap σ) (m : Store σ) (value : Str) {loc : List Seg} (hr : Rep m.path loc)
    (hf : m.path.segments.length ≤ m.segRoom) (ht : TextFits m value) : LoopEnd H m loc value (m.loop H value) := by
  fun_induction Store.loop H m value generalizing loc with
  | case1 m value segment n hx0 =>
    have hd : value.dropWhile (· != slash) = [] := by assumption
    have hstep : m.step H (value.takeWhile (· != slash)) = (n, .done) := by assumption
    have hs := step_end H m (value.takeWhile (· != slash)) hf
      (by have := take_le value; unfold TextFits at ht; omega)
    rw [show m.step H (value.takeWhile (· != slash)) = (n, .done) from hstep] at hs
    generalize hx : (n, SetEnd.done) = x at hs
    cases hs with
    | @quiet q o h1 h2 =>
      obtain ⟨rfl, ho⟩ := Prod.mk.inj hx
      cases o with
      | some e => cases ho
      | none =>
        have hl := step_length h1
        have := take_le value
        unfold TextFits at ht
        exact ⟨rfl, Nat.le_refl _, ⟨by simp only; omega, h2⟩, ⟨0, by simp, fun _ => ⟨rfl, nofun⟩⟩,
          fun o ho => by rw [setLoop_done h1 hd]; exact congrArg (Prod.mk q) (endOf_inj (a := none) ho), nofun, nofun⟩
    | @grown q h1 h2 h3 h4 =>
      obtain ⟨rfl, -⟩ := Prod.mk.inj hx
      have hl := step_length h1
      have := take_le value
      unfold TextFits at ht
      exact ⟨rfl, by simp only; omega, ⟨by simp only; omega, by simp only; omega⟩, ⟨1, by simp, nofun⟩,
        fun o ho => by rw [setLoop_done h1 hd]; exact congrArg (Prod.mk q) (endOf_inj (a := none) ho), nofun, nofun⟩
    | refused => cases (Prod.mk.inj hx).2
  | case2 m value segment n hx0 c rest hd =>
    rename_i ih
    have hstep : m.step H (value.takeWhile (· != slash)) = (n, .done) := by assumption
    have hs := step_end H m (value.takeWhile (· != slash)) hf
      (by have := take_le value; unfold TextFits at ht; omega)
    rw [show m.step H (value.takeWhile (· != slash)) = (n, .done) from hstep] at hs
    have hsp : split value = value.takeWhile (· != slash) :: split rest := by rw [split_eq, hd]
    have key : ∀ q, m.path.stepSegment (value.takeWhile (· != slash)) = (q, none) → n.path = q → n.textRoom = m.textRoom →
        m.segRoom ≤ n.segRoom → n.path.segments.length ≤ n.segRoom → (∃ k, n.asked = m.asked ++ List.replicate k .segments ∧ (k = 0 → n.segRoom = m.segRoom)) →
        LoopEnd H m loc value (n.loop H rest) := by
      rintro q h1 rfl h3 h4 h5 ⟨k, h6, h7⟩
      have ho := step_ok hr (raw := value.takeWhile (· != slash)) (takeWhile_no_slash value)
      rw [h1] at ho
      simp only at ho
      obtain ⟨loc', hr', hw, -⟩ := ho
      have e := ih hr' h5 (textFits_next ht hd h1 h3)
      obtain ⟨k', e4, e5⟩ := e.asked
      refine ⟨e.room.trans h3, Nat.le_trans h4 e.more, e.fits, ⟨k + k', ?_, fun hk => ?_⟩, fun o ho => ?_, fun hn => ?_, e.refusal⟩
      · rw [e4, h6, List.append_assoc, List.replicate_append_replicate]
      · exact ⟨(e5 (by omega)).1.trans (h7 (by omega)), (e5 (by omega)).2⟩
      · rw [setLoop_next h1 hd]; exact e.plain o ho
      · obtain ⟨l, before, raw, after, seg, g1, g2, g3⟩ := e.stop hn
        exact ⟨l, _ :: before, raw, after, seg, by rw [hsp, g1]; rfl, hw _ _ g2, g3⟩
    generalize hx : (n, SetEnd.done) = x at hs
    cases hs with
    | @quiet q o h1 h2 =>
      obtain ⟨rfl, ho⟩ := Prod.mk.inj hx
      cases o with
      | some e => cases ho
      | none => exact key q h1 rfl rfl (Nat.le_refl _) h2 ⟨0, by simp, fun _ => rfl⟩
    | @grown q h1 h2 h3 h4 =>
      obtain ⟨rfl, -⟩ := Prod.mk.inj hx
      exact key q h1 rfl rfl (by simp only; omega) (by simp only; omega) ⟨1, by simp, nofun⟩
    | refused => cases (Prod.mk.inj hx).2
  | case3 m value segment n e hne =>
    have hstep : m.step H (value.takeWhile (· != slash)) = (n, e) := by assumption
    have hs := step_end H m (value.takeWhile (· != slash)) hf
      (by have := take_le value; unfold TextFits at ht; omega)
    rw [show m.step H (value.takeWhile (· != slash)) = (n, e) from hstep] at hs
    generalize hx : (n, e) = x at hs
    cases hs with
    | @quiet q o h1 h2 =>
      obtain ⟨rfl, ho⟩ := Prod.mk.inj hx
      cases o with
      | none => exact absurd ho hne
      | some pe =>
        subst ho
        have hl := step_length h1
        have := take_le value
        unfold TextFits at ht
        exact ⟨rfl, Nat.le_refl _, ⟨by simp only; omega, h2⟩, ⟨0, by simp, fun _ => ⟨rfl, nofun⟩⟩,
          fun o ho => by rw [setLoop_fail h1, endOf_inj (a := some pe) ho], nofun, nofun⟩
    | @grown q h1 h2 h3 h4 => exact absurd (Prod.mk.inj hx).2 hne
    | @refused q h1 h2 h3 h4 h5 h6 =>
      obtain ⟨rfl, rfl⟩ := Prod.mk.inj hx
      obtain ⟨seg, hd, hv⟩ := push_done hr h1
      have hl := push_length m.path (value.takeWhile (· != slash))
      rw [h1] at hl
      have := take_le value
      unfold TextFits at ht
      refine ⟨rfl, Nat.le_refl _, ⟨by simp only at hl ⊢; omega, by simp only; omega⟩, ⟨1, by simp, nofun⟩,
        (fun o ho => by revert ho; cases o <;> simp [endOf]), fun _ => ?_, fun _ => ⟨_, h6⟩⟩
      refine ⟨loc, [], _, _, seg, by rw [split_eq]; rfl, .done, ?_, h4, hd, hr.valid, ?_, ?_⟩
      · rintro (h | h)
        · exact h2 h
        · exact h3 h
      · simp only [hv, hr.segs]
      · rw [← h5, hr.segs, layout_length]

/-- A round of the loop needs no memory if the array is large enough. -/
theorem step_quiet (H : Heap σ) (m : Store σ) (raw : Str) {q : Path} {o : Option ParseError}
    (h : m.path.value.length + sep m.path + raw.length ≤ m.textRoom) (hs : m.path.stepSegment raw = (q, o))
    (hf : m.path.segments.length ≤ m.segRoom) (hq : q.segments.length ≤ m.segRoom) :
    m.step H raw = ({ m with path := q }, endOf o) := by
  have he := step_end H m raw hf h
  generalize m.step H raw = x at he
  cases he with
  | @quiet q' o' h1 h2 =>
    rw [hs] at h1
    obtain ⟨rfl, rfl⟩ := Prod.mk.inj h1
    rfl
  | @grown q' h1 h2 h3 h4 =>
    rw [hs] at h1
    obtain ⟨rfl, rfl⟩ := Prod.mk.inj h1
    omega
  | @refused q' h1 h2 h3 h4 h5 h6 =>
    rw [show m.path.stepSegment raw = m.path.push raw by simp [Path.stepSegment, h2, h3, h4], h1] at hs
    obtain ⟨rfl, rfl⟩ := Prod.mk.inj hs
    have := push_segs h1
    simp at this
    omega

theorem loop_of_done {H : Heap σ} {m n : Store σ} {value : Str} (hs : m.step H (value.takeWhile (· != slash)) = (n, .done))
    (hd : value.dropWhile (· != slash) = []) : m.loop H value = (n, .done) := by
  rw [Store.loop]
  simp only [hs]
  split
  · rfl
  · rename_i heq; rw [hd] at heq; cases heq

theorem loop_of_next {H : Heap σ} {m n : Store σ} {value rest : Str} {c : Byte}
    (hs : m.step H (value.takeWhile (· != slash)) = (n, .done))
    (hd : value.dropWhile (· != slash) = c :: rest) : m.loop H value = n.loop H rest := by
  rw [Store.loop]
  simp only [hs]
  split
  · rename_i heq; rw [hd] at heq; cases heq
  · rename_i heq; rw [hd] at heq; cases heq; rfl

theorem loop_of_stop {H : Heap σ} {m n : Store σ} {value : Str} {e : SetEnd} (he : e ≠ .done)
    (hs : m.step H (value.takeWhile (· != slash)) = (n, e)) : m.loop H value = (n, e) := by
  rw [Store.loop]
  simp only [hs]

/-- Room for the segments of all that `value` passes through. -/
def SegsFit (p : Path) (room : Nat) (value : Str) : Prop :=
  ∀ before after, split value = before ++ after →
    ∀ q, before.foldl (fun (x : Path × Bool) raw => if x.2 then ((x.1.stepSegment raw).1, (x.1.stepSegment raw).2 = none) else x) (p, true)
      = (q, true) → q.segments.length ≤ room

theorem segsFit_self {p : Path} {room : Nat} {value : Str} (h : SegsFit p room value) : p.segments.length ≤ room :=
  h [] _ rfl p rfl

theorem segsFit_step {p q : Path} {room : Nat} {value : Str} (h : SegsFit p room value)
    (hs : p.stepSegment (value.takeWhile (· != slash)) = (q, none)) : q.segments.length ≤ room := by
  refine h [value.takeWhile (· != slash)] _ (by rw [split_eq]; rfl) q ?_
  simp [hs]

theorem segsFit_next {p q : Path} {room : Nat} {value rest : Str} {c : Byte} (h : SegsFit p room value)
    (hs : p.stepSegment (value.takeWhile (· != slash)) = (q, none))
    (hd : value.dropWhile (· != slash) = c :: rest) : SegsFit q room rest := by
  intro before after he r hr
  refine h (value.takeWhile (· != slash) :: before) after (by rw [split_eq, hd]; simp [he]) r ?_
  rw [← hr]
  simp [hs]

theorem step_fail_segs {p q : Path} {raw : Str} {e : ParseError} (h : p.stepSegment raw = (q, some e)) :
    q.segments = p.segments := by
  unfold Path.stepSegment at h
  split at h
  · split at h
    · simp at h
    · split at h
      · simp at h
      · unfold Path.push at h
        simp only at h
        split at h <;> (simp only [Prod.mk.injEq] at h; obtain ⟨rfl, h⟩ := h; first | rfl | cases h)
  · simp at h

/-- With enough room the loop asks for nothing. -/
theorem loop_quiet (H : Heap σ) (m : Store σ) (value : Str) (ht : TextFits m value) (hf : SegsFit m.path m.segRoom value) :
    m.loop H value = ({ m with path := (m.path.setLoop value).1 }, endOf (m.path.setLoop value).2) := by
  generalize hn : value.length = n
  induction n using Nat.strongRecOn generalizing m value with
  | ind n ih =>
    subst hn
    have hseg : m.path.value.length + sep m.path + (value.takeWhile (· != slash)).length ≤ m.textRoom := by
      have := take_le value; unfold TextFits at ht; omega
    cases hs : m.path.stepSegment (value.takeWhile (· != slash)) with
    | mk q o =>
      cases o with
      | some e =>
        have hq : q.segments.length ≤ m.segRoom := by rw [step_fail_segs hs]; exact segsFit_self hf
        rw [loop_of_stop (e := .parse e) nofun (step_quiet H m _ hseg hs (segsFit_self hf) hq), setLoop_fail hs]
        rfl
      | none =>
        have hst := step_quiet H m _ hseg hs (segsFit_self hf) (segsFit_step hf hs)
        cases hd : value.dropWhile (· != slash) with
        | nil => rw [loop_of_done hst hd, setLoop_done hs hd]; rfl
        | cons c rest =>
          have hlen := parts_length value
          rw [hd, List.length_cons] at hlen
          rw [loop_of_next hst hd, setLoop_next hs hd]
          exact ih rest.length (by omega) { m with path := q } rest
            (textFits_next (n := { m with path := q }) ht hd hs rfl) (segsFit_next hf hs hd) rfl

/-- A loop that did not lack memory has made the room it needs. -/
theorem loop_room (H : Heap σ) (m : Store σ) (value : Str) {loc : List Seg} (hr : Rep m.path loc)
    (hf : m.path.segments.length ≤ m.segRoom) (ht : TextFits m value) {r : Store σ} {e : SetEnd} (he : e ≠ .noMemory)
    (h : m.loop H value = (r, e)) :
    SegsFit m.path r.segRoom value := by
  generalize hn : value.length = n
  induction n using Nat.strongRecOn generalizing m value loc with
  | ind n ih =>
    subst hn
    have hmore := (loop_end H m value hr hf ht).more
    rw [h] at hmore
    have hseg : m.path.value.length + sep m.path + (value.takeWhile (· != slash)).length ≤ m.textRoom := by
      have := take_le value; unfold TextFits at ht; omega
    have hs := step_end H m (value.takeWhile (· != slash)) hf hseg
    have key : ∀ (n : Store σ), m.step H (value.takeWhile (· != slash)) = (n, .done) →
        m.path.stepSegment (value.takeWhile (· != slash)) = (n.path, none) → n.textRoom = m.textRoom →
        n.path.segments.length ≤ n.segRoom → SegsFit m.path r.segRoom value := by
      intro n h1 h2 h3 h4
      have ho := step_ok hr (raw := value.takeWhile (· != slash)) (takeWhile_no_slash value)
      rw [h2] at ho
      simp only at ho
      obtain ⟨loc', hr', -⟩ := ho
      intro before after hba q hq
      cases before with
      | nil =>
        simp only [List.foldl_nil, Prod.mk.injEq, and_true] at hq
        subst hq
        exact Nat.le_trans hf hmore
      | cons b before =>
        simp only [List.foldl_cons] at hq
        cases hd : value.dropWhile (· != slash) with
        | nil =>
          rw [split_eq, hd] at hba
          simp only [List.cons_append, List.cons.injEq] at hba
          obtain ⟨rfl, hba⟩ := hba
          obtain ⟨rfl, -⟩ := List.append_eq_nil_iff.1 hba.symm
          rw [h2] at hq
          simp only [if_true, List.foldl_nil, Prod.mk.injEq] at hq
          obtain ⟨rfl, -⟩ := hq
          rw [loop_of_done h1 hd] at h
          obtain ⟨rfl, -⟩ := Prod.mk.inj h
          exact h4
        | cons c rest =>
          have hlen := parts_length value
          rw [hd, List.length_cons] at hlen
          rw [loop_of_next h1 hd] at h
          have := ih rest.length (by omega) n rest hr' h4 (textFits_next ht hd h2 h3) h rfl
          rw [split_eq, hd] at hba
          simp only [List.cons_append, List.cons.injEq] at hba
          obtain ⟨rfl, hba⟩ := hba
          refine this before after hba q ?_
          rw [h2] at hq
          simpa using hq
    generalize hx : m.step H (value.takeWhile (· != slash)) = x at hs
    cases hs with
    | @quiet q o h1 h2 =>
      cases o with
      | none => exact key _ hx h1 rfl h2
      | some pe =>
        intro before after hba q' hq
        cases before with
        | nil =>
          simp only [List.foldl_nil, Prod.mk.injEq, and_true] at hq
          subst hq
          exact Nat.le_trans hf hmore
        | cons b before =>
          rw [split_eq] at hba
          simp only [List.cons_append, List.cons.injEq] at hba
          obtain ⟨rfl, hba⟩ := hba
          rw [List.foldl_cons, h1] at hq
          have hno : ∀ (l : List Str) (p : Path),
              l.foldl (fun (x : Path × Bool) raw => if x.2 then ((x.1.stepSegment raw).1, (x.1.stepSegment raw).2 = none) else x) (p, false)
                = (p, false) := by
            intro l p
            induction l with
            | nil => rfl
            | cons a l ih => rw [List.foldl_cons]; simpa using ih
          simp only [if_true, reduceCtorEq, decide_false, hno] at hq
          cases (Prod.mk.inj hq).2
    | @grown q h1 h2 h3 h4 => exact key _ hx h1 rfl (by simp only; omega)
    | refused =>
      rw [loop_of_stop (e := .noMemory) nofun hx] at h
      exact absurd (Prod.mk.inj h).2.symm he

/-- Walking the parts, and stepping through them. -/
theorem steps_walk : ∀ (before : List Str) (p : Path) (loc : List Seg), Rep p loc → (∀ raw ∈ before, slash ∉ raw) →
    (∀ q, before.foldl (fun (x : Path × Bool) raw => if x.2 then ((x.1.stepSegment raw).1, (x.1.stepSegment raw).2 = none) else x) (p, true)
      = (q, true) → ∃ loc', Walk loc before loc' ∧ Rep q loc') ∧
    (∀ loc', Walk loc before loc' → ∃ q,
      before.foldl (fun (x : Path × Bool) raw => if x.2 then ((x.1.stepSegment raw).1, (x.1.stepSegment raw).2 = none) else x) (p, true)
        = (q, true) ∧ Rep q loc')
  | [], p, loc, hr, _ => by
    refine ⟨fun q hq => ?_, fun loc' hw => ?_⟩
    · simp only [List.foldl_nil, Prod.mk.injEq, and_true] at hq
      subst hq
      exact ⟨loc, .done, hr⟩
    · cases hw
      exact ⟨p, rfl, hr⟩
  | raw :: before, p, loc, hr, hsl => by
    have ho := step_ok hr (hsl raw (List.mem_cons_self ..))
    have hno : ∀ (l : List Str) (p : Path),
        l.foldl (fun (x : Path × Bool) raw => if x.2 then ((x.1.stepSegment raw).1, (x.1.stepSegment raw).2 = none) else x) (p, false)
          = (p, false) := by
      intro l p
      induction l with
      | nil => rfl
      | cons a l ih => rw [List.foldl_cons]; simpa using ih
    cases hs : p.stepSegment raw with
    | mk q o =>
      rw [hs] at ho
      rw [List.foldl_cons]
      simp only [hs, if_true]
      cases o with
      | some e =>
        simp only [reduceCtorEq, decide_false, hno] at ho ⊢
        refine ⟨(fun q' hq => by cases (Prod.mk.inj hq).2), fun loc' hw => ?_⟩
        cases hw with
        | stay hd _ => exact absurd hd ho.1
        | up hd _ => exact absurd hd ho.2.1
        | down _ _ hd _ => exact absurd ⟨_, hd⟩ ho.2.2.1
      | none =>
        simp only [decide_true] at ho ⊢
        obtain ⟨loc1, hr1, hw1, hw2⟩ := ho
        have ih := steps_walk before q loc1 hr1 (fun r h => hsl r (List.mem_cons_of_mem _ h))
        refine ⟨fun q' hq => ?_, fun loc' hw => ih.2 _ (hw2 _ _ hw)⟩
        obtain ⟨l, h1, h2⟩ := ih.1 q' hq
        exact ⟨l, hw1 _ _ h1, h2⟩

/-- Room for all locations passed on the way. -/
theorem segsFit_iff {p : Path} {loc : List Seg} (hr : Rep p loc) (room : Nat) (value : Str) :
    SegsFit p room value ↔ ∀ before after loc', split value = before ++ after → Walk loc before loc' → loc'.length ≤ room := by
  have hsl : ∀ before after, split value = before ++ after → ∀ raw ∈ before, slash ∉ raw := by
    intro before after h raw hm
    exact split_no_slash (s := value) (by rw [h]; exact List.mem_append_left _ hm)
  constructor
  · intro h before after loc' hb hw
    obtain ⟨q, hq, hr'⟩ := (steps_walk before p loc hr (hsl _ _ hb)).2 loc' hw
    have := h before after hb q hq
    rwa [hr'.segs, layout_length] at this
  · intro h before after hb q hq
    obtain ⟨loc', hw, hr'⟩ := (steps_walk before p loc hr (hsl _ _ hb)).1 q hq
    rw [hr'.segs, layout_length]
    exact h before after loc' hb hw

end Verif.Path
