import Verif.Path.AllocLemmas
import Verif.Path.AllocSpec
/-
C140: `path::set` when memory may run out.
-/
namespace Verif.Path
open Spec

variable {σ : Type}

theorem readable_of_lead {loc : List Seg} {part : Str} (hv : Valid loc) : Readable ⟨lead loc ++ part, layout 0 loc⟩ loc := by
  obtain ⟨extra, he⟩ : ∃ extra, lead loc ++ part = join loc ++ extra := by
    by_cases h0 : loc = []
    · subst h0; exact ⟨part, by simp [lead, join]⟩
    · exact ⟨slash :: part, by rw [lead_eq_join h0]; simp⟩
  rw [he]
  have hlay : layout 0 loc = ((layout 0 loc).drop 0).take loc.length := by
    rw [List.drop_zero, List.take_of_length_le (by rw [layout_length]; omega)]
  refine ⟨hv, by rw [Path.size, layout_length], fun i => ?_, fun k => ?_⟩
  · unfold Path.at
    simp only
    rw [hlay, at_slice, Nat.zero_add]
    split
    · rfl
    · rw [List.getElem?_eq_none (by omega)]
  · have : (⟨join loc ++ extra, layout 0 loc⟩ : Path).view = ⟨join loc ++ extra, ((layout 0 loc).drop 0).take loc.length⟩ := by
      unfold Path.view; rw [← hlay]
    rw [this, prefix_slice _ _ _ _ _ (by omega) (by omega), Nat.zero_add]
    by_cases h0 : k = 0
    · subst h0; simp [join]
    · simp [h0]

theorem readable_of_rep {p : Path} {loc : List Seg} (h : Rep p loc) : Readable p loc := by
  obtain ⟨v, s⟩ := p
  have h1 : v = join loc := h.value
  have h2 : s = layout 0 loc := h.segs
  have hlay : layout 0 loc = ((layout 0 loc).drop 0).take loc.length := by
    rw [List.drop_zero, List.take_of_length_le (by rw [layout_length]; omega)]
  refine ⟨h.valid, (observes_of_rep h).size, (observes_of_rep h).at_, fun k => ?_⟩
  have : (⟨v, s⟩ : Path).view = ⟨join loc ++ [], ((layout 0 loc).drop 0).take loc.length⟩ := by
    unfold Path.view; rw [← hlay, h1, h2, List.append_nil]
  rw [this, prefix_slice _ _ _ _ _ (by omega) (by omega), Nat.zero_add]
  by_cases h0 : k = 0
  · subst h0; simp [join]
  · simp [h0]

theorem joined_of_lead (loc : List Seg) (part : Str) (k : Nat) :
    (⟨lead loc ++ part, layout 0 loc⟩ : Path).joined k = if k < loc.length then join (loc.drop k) ++ slash :: part else [] := by
  unfold Path.joined
  rw [layout_at]
  split
  · rename_i hn
    have hn' : loc[k]? = none := by simpa using hn
    rw [if_neg (by rw [List.getElem?_eq_none_iff] at hn'; omega)]
  · rename_i s hs
    rw [Option.map_eq_some_iff] at hs
    obtain ⟨s', hk, rfl⟩ := hs
    have hlt : k < loc.length := (List.getElem?_eq_some_iff.1 hk).1
    rw [if_pos hlt]
    have hne : loc.drop k ≠ [] := by simp; omega
    show (lead loc ++ part).drop (lead (loc.take k)).length = _
    have : lead loc = lead (loc.take k) ++ lead (loc.drop k) := by
      rw [← lead_append, List.take_append_drop]
    rw [this, List.append_assoc, List.drop_left, lead_eq_join hne]
    simp

/-- The text without the leading slash. -/
def body : Str → Str
  | [] => []
  | c :: rest => if c = slash then rest else c :: rest

theorem body_length (v : Str) : (body v).length ≤ v.length := by
  unfold body
  split
  · simp
  · split <;> simp

theorem blank_iff (v : Str) : (v.isEmpty || v == [slash]) = true ↔ Blank v := by
  unfold Blank
  cases v <;> simp

theorem set_blank (H : Heap σ) (m : Store σ) {v : Str} (h : Blank v) : m.set H v = (m.clear, .done) := by
  unfold Store.set
  simp [(blank_iff v).2 h]

theorem set_body (H : Heap σ) (m : Store σ) {v : Str} (h : ¬ Blank v) :
    m.set H v = match m.clear.needText H v.length with
      | (m, false) => (m, .noMemory)
      | (m, true) => m.loop H (body v) := by
  have : (v.isEmpty || v == [slash]) = false := by
    cases hb : (v.isEmpty || v == [slash]) with
    | true => exact absurd ((blank_iff v).1 hb) h
    | false => rfl
  unfold Store.set
  simp only [this]
  rfl

theorem pset_blank (p : Path) {v : Str} (h : Blank v) : p.set v = (⟨[], []⟩, none) := by
  unfold Path.set
  simp [(blank_iff v).2 h, Path.clear]

theorem pset_body (p : Path) {v : Str} (h : ¬ Blank v) : p.set v = Path.default.setLoop (body v) := by
  have : (v.isEmpty || v == [slash]) = false := by
    cases hb : (v.isEmpty || v == [slash]) with
    | true => exact absurd ((blank_iff v).1 hb) h
    | false => rfl
  unfold Path.set
  simp only [this]
  rfl

theorem split_body (v : Str) : split v = split (body v) ∨ split v = [] :: split (body v) := by
  unfold body
  split
  · exact .inl rfl
  · rename_i c rest
    split
    · rename_i hc; subst hc; exact .inr (by simp [split])
    · exact .inl rfl

theorem passes_body (v : Str) (n : Nat) :
    (∀ loc, Passes v loc → loc.length ≤ n) ↔
      ∀ before after loc', split (body v) = before ++ after → Walk [] before loc' → loc'.length ≤ n := by
  rcases split_body v with h | h
  · constructor
    · intro hp before after loc' hb hw
      exact hp _ ⟨before, after, by rw [h, hb], hw⟩
    · rintro hp loc ⟨before, after, hb, hw⟩
      exact hp before after loc (by rw [← h, hb]) hw
  · constructor
    · intro hp before after loc' hb hw
      exact hp _ ⟨[] :: before, after, by rw [h, hb]; rfl, .stay (.inl rfl) hw⟩
    · rintro hp loc ⟨before, after, hb, hw⟩
      cases before with
      | nil => cases hw; exact Nat.zero_le _
      | cons b before =>
        rw [h] at hb
        simp only [List.cons_append, List.cons.injEq] at hb
        obtain ⟨rfl, hb⟩ := hb
        exact hp before after loc hb ((walk_skip_empty ..).1 hw)

theorem enters_body {v : Str} {loc : List Seg} {seg : Seg} {before after : List Str} {raw : Str}
    (h : split (body v) = before ++ raw :: after) (hw : Walk [] before loc) (h1 : ¬ isDot raw) (h2 : ¬ isDotDot raw)
    (hd : Decodes raw seg) : Enters v loc seg := by
  rcases split_body v with hs | hs
  · exact ⟨before, raw, after, by rw [hs, h], hw, h1, h2, hd⟩
  · exact ⟨[] :: before, raw, after, by rw [hs, h]; rfl, .stay (.inl rfl) hw, h1, h2, hd⟩

/-- The state in which the loop starts. -/
theorem started {H : Heap σ} {m n : Store σ} {v : Str} {b : Bool} (h : m.clear.needText H v.length = (n, b)) :
    n.path = ⟨[], []⟩ ∧ n.segRoom = m.segRoom ∧ m.textRoom ≤ n.textRoom ∧ (b = true → v.length ≤ n.textRoom) ∧
    (b = false → m.textRoom < v.length) ∧
    n.asked = m.asked ++ (if m.textRoom < v.length then [.text] else []) ∧
    (v.length ≤ m.textRoom → n = m.clear ∧ b = true) := by
  unfold Store.needText at h
  split at h
  · rename_i hle
    have hle' : v.length ≤ m.textRoom := hle
    obtain ⟨rfl, rfl⟩ := Prod.mk.inj h
    refine ⟨rfl, rfl, Nat.le_refl _, fun _ => hle', nofun, ?_, fun _ => ⟨rfl, rfl⟩⟩
    rw [if_neg (by omega)]; simp [Store.clear]
  · rename_i hle
    have hle' : ¬ v.length ≤ m.textRoom := hle
    have hlt : m.textRoom < v.length := by omega
    simp only at h
    split at h
    · obtain ⟨rfl, rfl⟩ := Prod.mk.inj h
      refine ⟨rfl, rfl, ?_, fun _ => ?_, nofun, ?_, fun h => absurd h hle'⟩
      · simp only [Store.clear]; omega
      · simp only; omega
      · rw [if_pos hlt]; rfl
    · obtain ⟨rfl, rfl⟩ := Prod.mk.inj h
      refine ⟨rfl, rfl, Nat.le_refl _, nofun, fun _ => hlt, ?_, fun h => absurd h hle'⟩
      rw [if_pos hlt]; rfl

theorem rep_empty {p : Path} (h : p = ⟨[], []⟩) : Rep p [] := h ▸ rep_default

theorem started_fits {n : Store σ} {v : Str} (h1 : n.path = ⟨[], []⟩) (h4 : v.length ≤ n.textRoom) :
    n.path.segments.length ≤ n.segRoom ∧ TextFits n (body v) := by
  refine ⟨by rw [h1]; exact Nat.zero_le _, ?_⟩
  unfold TextFits sep
  rw [h1]
  have := body_length v
  simp
  omega

/-- An allocator that answers what the list says, and then grants everything; the containers like to double. -/
def answers : Heap (List Bool) where
  next l := match l with
    | [] => (true, [])
    | b :: l => (b, l)
  more old _ := 2 * old

/-- Sixteen segments. -/
def deep : Str := str "/a/b/c/d/e/f/g/h/i/j/k/l/m/n/o/pq"

/-- C140: how `set` ends, whatever the allocator does. If it returns, the path denotes what the text denotes, and if it reports an error, it
is the error of the text and the path is what it would be with plenty of memory. If memory runs out, either there was none for the text and
the path is empty; or there was none for a longer array of segments, and the path shows the segments entered until then, as many as the
array holds, while `joined` sees one more, the name that could not be entered. -/
theorem C140_ends (H : Heap σ) (m r : Store σ) (v : Str) (e : SetEnd) (h : m.set H v = (r, e)) :
    match (generalizing := false) e with
    | .done => ∃ loc, Denotes v loc ∧ Observes r.path loc
    | .parse pe => ∀ p : Path, p.set v = (r.path, some pe)
    | .noMemory =>
      (r.path = ⟨[], []⟩ ∧ m.textRoom < v.length ∧ r.asked = m.asked ++ [.text]) ∨
      ∃ loc seg, Enters v loc seg ∧ Readable r.path loc ∧ loc.length = r.segRoom ∧ m.segRoom ≤ r.segRoom ∧
        ∀ k, r.path.joined k = if k < loc.length then join (loc.drop k) ++ slash :: seg else [] := by
  by_cases hb : Blank v
  · rw [set_blank H m hb] at h
    obtain ⟨rfl, rfl⟩ := Prod.mk.inj h
    have := C13_invariants.2.2 Path.default ⟨[], []⟩ v (pset_blank _ hb)
    exact this
  · rw [set_body H m hb] at h
    cases hn : m.clear.needText H v.length with
    | mk n b =>
      rw [hn] at h
      obtain ⟨h1, h2, h3, h4, h5, h6, h7⟩ := started hn
      cases b with
      | false =>
        obtain ⟨rfl, rfl⟩ := Prod.mk.inj h
        exact .inl ⟨h1, h5 rfl, by rw [h6, if_pos (h5 rfl)]⟩
      | true =>
        simp only at h
        have hf := started_fits h1 (h4 rfl)
        have le := loop_end H n (body v) (rep_empty h1) hf.1 hf.2
        rw [h] at le
        cases e with
        | done =>
          have := le.plain none rfl
          rw [h1] at this
          exact C13_invariants.2.2 Path.default r.path v (by rw [pset_body _ hb]; exact this)
        | parse pe =>
          have := le.plain (some pe) rfl
          rw [h1] at this
          intro p
          rw [pset_body _ hb]; exact this
        | noMemory =>
          obtain ⟨loc, before, raw, after, seg, g1, g2, g3, g4, g5, g6, g7, g8⟩ := le.stop rfl
          refine .inr ⟨loc, seg, enters_body g1 g2 g3 g4 g5, ?_, g8, ?_, ?_⟩
          · rw [show r.path = _ from g7]; exact readable_of_lead g6
          · rw [← h2]; exact le.more
          · rw [show r.path = _ from g7]; exact joined_of_lead loc seg

example : ((Store.new [true, false]).set answers deep).2 = .noMemory ∧
    ((Store.new [true, false]).set answers deep).1.path.size = 15 ∧
    ((Store.new [true, false]).set answers deep).1.path.joined 14 = str "o/pq" := by decide +kernel

example : ((Store.new [false]).set answers (str "/a/bcdefghijklmnop")).2 = .noMemory ∧
    ((Store.new [false]).set answers (str "/a/b%2fcdefghijklmnop")).2 = .noMemory ∧
    ((Store.new []).set answers (str "/a/b%2fcdefghijklmnop")).2 = .parse .containsSlash := by decide +kernel

/-- C140: `std::bad_alloc` comes from the allocator only. -/
theorem C140_granted (H : Heap σ) (hg : ∀ s, (H.next s).1 = true) (m : Store σ) (v : Str) (p : Path) :
    (m.set H v).1.path = (p.set v).1 ∧ (m.set H v).2 = endOf (p.set v).2 := by
  by_cases hb : Blank v
  · rw [set_blank H m hb, pset_blank p hb]; exact ⟨rfl, rfl⟩
  · rw [set_body H m hb, pset_body p hb]
    cases hn : m.clear.needText H v.length with
    | mk n b =>
      obtain ⟨h1, h2, h3, h4, h5, h6, h7⟩ := started hn
      have hbt : b = true := by
        unfold Store.needText at hn
        split at hn
        · exact (Prod.mk.inj hn).2.symm
        · simp only [hg, if_true] at hn
          exact (Prod.mk.inj hn).2.symm
      subst hbt
      simp only
      have hf := started_fits h1 (h4 rfl)
      have le := loop_end H n (body v) (rep_empty h1) hf.1 hf.2
      have hd : n.path = Path.default := h1
      rw [← hd]
      cases he : (n.loop H (body v)).2 with
      | done => rw [le.plain none he]; exact ⟨rfl, rfl⟩
      | parse e => rw [le.plain (some e) he]; exact ⟨rfl, rfl⟩
      | noMemory =>
        obtain ⟨s, hs⟩ := le.refusal he
        rw [hg] at hs
        cases hs

example : ((Store.new []).set answers deep).2 = .done ∧ ((Store.new []).set answers deep).1.path = (Path.default.set deep).1 := by
  decide +kernel

/-- C140: what memory is asked for: the text at most once, before everything else, and only if it does not fit; then the array. -/
theorem C140_asks (H : Heap σ) (m : Store σ) (v : Str) :
    ∃ k, (m.set H v).1.asked =
      m.asked ++ (if ¬ Blank v ∧ m.textRoom < v.length then [.text] else []) ++ List.replicate k .segments := by
  by_cases hb : Blank v
  · rw [set_blank H m hb]; exact ⟨0, by simp [hb, Store.clear]⟩
  · rw [set_body H m hb]
    cases hn : m.clear.needText H v.length with
    | mk n b =>
      obtain ⟨h1, h2, h3, h4, h5, h6, h7⟩ := started hn
      cases b with
      | false => exact ⟨0, by simp only; rw [h6]; simp [hb]⟩
      | true =>
        have hf := started_fits h1 (h4 rfl)
        obtain ⟨k, hk, -⟩ := (loop_end H n (body v) (rep_empty h1) hf.1 hf.2).asked
        exact ⟨k, by simp only; rw [hk, h6]; simp [hb]⟩

example : ((Store.new []).set answers deep).1.asked = [.text, .segments] ∧ ((Store.new []).set answers deep).1.segRoom = 30 := by
  decide +kernel

/-- C140: a call asks for nothing exactly if the text and every location on the way fit into what the path has already; the outcome is then
that of the text. -/
theorem C140_quiet (H : Heap σ) (m : Store σ) (v : Str) :
    ((m.set H v).1.asked = m.asked ↔ Enough m.textRoom m.segRoom v) ∧
    (Enough m.textRoom m.segRoom v → ∀ p : Path, m.set H v = ({ m with path := (p.set v).1 }, endOf (p.set v).2)) := by
  by_cases hb : Blank v
  · refine ⟨⟨fun _ => .inl hb, fun _ => by rw [set_blank H m hb]; rfl⟩, fun _ p => ?_⟩
    rw [set_blank H m hb, pset_blank p hb]; rfl
  · have hq : Enough m.textRoom m.segRoom v → ∀ p : Path,
        m.set H v = ({ m with path := (p.set v).1 }, endOf (p.set v).2) := by
      rintro (he | ⟨ht, hs⟩) p
      · exact absurd he hb
      · rw [set_body H m hb, pset_body p hb]
        cases hn : m.clear.needText H v.length with
        | mk n b =>
          obtain ⟨h1, h2, h3, h4, h5, h6, h7⟩ := started hn
          obtain ⟨rfl, rfl⟩ := h7 ht
          have hf := started_fits (n := m.clear) (v := v) rfl ht
          exact loop_quiet H m.clear (body v) hf.2
            ((segsFit_iff (rep_empty rfl) _ _).2 ((passes_body v m.segRoom).1 hs))
    refine ⟨⟨fun ha => ?_, fun he => by rw [hq he Path.default]⟩, hq⟩
    rw [set_body H m hb] at ha
    cases hn : m.clear.needText H v.length with
    | mk n b =>
      obtain ⟨h1, h2, h3, h4, h5, h6, h7⟩ := started hn
      rw [hn] at ha
      cases b with
      | false =>
        simp only at ha
        rw [h6, if_pos (h5 rfl)] at ha
        simp at ha
      | true =>
        simp only at ha
        have hf := started_fits h1 (h4 rfl)
        have le := loop_end H n (body v) (rep_empty h1) hf.1 hf.2
        obtain ⟨k, hk, hk0⟩ := le.asked
        rw [hk, h6] at ha
        have hlen := congrArg List.length ha
        simp only [List.length_append, List.length_replicate] at hlen
        have hk' : k = 0 := by omega
        have hroom : ¬ m.textRoom < v.length := by
          intro hlt
          rw [if_pos hlt] at hlen
          simp only [List.length_cons, List.length_nil] at hlen
          omega
        obtain ⟨hr, hnm⟩ := hk0 hk'
        have := loop_room H n (body v) (rep_empty h1) hf.1 hf.2 hnm rfl
        rw [hr, h2, segsFit_iff (rep_empty h1)] at this
        exact .inr ⟨by omega, (passes_body v _).2 this⟩

example : ((Store.new [false]).set answers (str "/a/b/../c%41")).1.asked = [] ∧
    ((Store.new [false]).set answers (str "/a/b/../c%41")).1.path = ⟨str "a/cA", [⟨0, 1⟩, ⟨2, 2⟩]⟩ := by decide +kernel

/-- C140: the capacities do not shrink, and hold what is stored. -/
theorem C140_fits (H : Heap σ) (m : Store σ) (v : Str) :
    (m.set H v).1.path.value.length ≤ (m.set H v).1.textRoom ∧ (m.set H v).1.path.segments.length ≤ (m.set H v).1.segRoom ∧
    m.textRoom ≤ (m.set H v).1.textRoom ∧ m.segRoom ≤ (m.set H v).1.segRoom := by
  by_cases hb : Blank v
  · rw [set_blank H m hb]
    exact ⟨Nat.zero_le _, Nat.zero_le _, Nat.le_refl _, Nat.le_refl _⟩
  · rw [set_body H m hb]
    cases hn : m.clear.needText H v.length with
    | mk n b =>
      obtain ⟨h1, h2, h3, h4, h5, h6, h7⟩ := started hn
      cases b with
      | false => exact ⟨by simp [h1], by simp [h1], h3, by rw [← h2]; exact Nat.le_refl _⟩
      | true =>
        have hf := started_fits h1 (h4 rfl)
        have le := loop_end H n (body v) (rep_empty h1) hf.1 hf.2
        refine ⟨le.fits.1, le.fits.2, ?_, ?_⟩
        · exact Nat.le_trans h3 (Nat.le_of_eq le.room.symm)
        · rw [← h2]; exact le.more

/-- C140: a path that has held a text holds it again without memory: after a call that was not stopped for lack of memory, the same call,
after any others, with any other allocator, asks for nothing and ends the same way. -/
theorem C140_again {τ : Type} (H : Heap σ) (m r : Store σ) (v : Str) (e : SetEnd) (h : m.set H v = (r, e)) (he : e ≠ .noMemory)
    (G : Heap τ) (n : Store τ) (ht : r.textRoom ≤ n.textRoom) (hs : r.segRoom ≤ n.segRoom) :
    n.set G v = ({ n with path := r.path }, e) := by
  have hen : Enough n.textRoom n.segRoom v := by
    by_cases hb : Blank v
    · exact .inl hb
    · rw [set_body H m hb] at h
      cases hn : m.clear.needText H v.length with
      | mk k b =>
        rw [hn] at h
        obtain ⟨h1, h2, h3, h4, h5, h6, h7⟩ := started hn
        cases b with
        | false => exact absurd (Prod.mk.inj h).2.symm he
        | true =>
          simp only at h
          have hf := started_fits h1 (h4 rfl)
          have le := loop_end H k (body v) (rep_empty h1) hf.1 hf.2
          have lr := loop_room H k (body v) (rep_empty h1) hf.1 hf.2 he h
          rw [segsFit_iff (rep_empty h1)] at lr
          rw [h] at le
          have hroom : r.textRoom = k.textRoom := le.room
          refine .inr ⟨by have := h4 rfl; omega, fun loc hp => ?_⟩
          exact Nat.le_trans ((passes_body v r.segRoom).2 lr loc hp) hs
  rw [(C140_quiet G n v).2 hen Path.default]
  cases e with
  | noMemory => exact absurd rfl he
  | parse pe =>
    have := C140_ends H m r v _ h
    simp only at this
    rw [this Path.default]; rfl
  | done =>
    have hr : Path.default.set v = (r.path, none) := by
      by_cases hb : Blank v
      · rw [set_blank H m hb] at h
        obtain ⟨rfl, -⟩ := Prod.mk.inj h
        rw [pset_blank _ hb]; rfl
      · rw [set_body H m hb] at h
        cases hn : m.clear.needText H v.length with
        | mk k b =>
          rw [hn] at h
          obtain ⟨h1, h2, h3, h4, h5, h6, h7⟩ := started hn
          cases b with
          | false => exact absurd (Prod.mk.inj h).2.symm he
          | true =>
            simp only at h
            have hf := started_fits h1 (h4 rfl)
            have le := loop_end H k (body v) (rep_empty h1) hf.1 hf.2
            rw [h] at le
            have := le.plain none rfl
            rw [h1] at this
            rw [pset_body _ hb]; exact this
    rw [hr]; rfl

example : ((Store.new [true, true, false, false]).run answers [deep, str "/x", deep]).2 = [.done, .done, .done] ∧
    ((Store.new [true, true, false, false]).run answers [deep, str "/x", deep]).1.heap = [false, false] := by decide +kernel

/-- C140: after any calls, whatever failed, the path can be read without leaving its bounds: it shows the segments of some location. -/
theorem C140_history (H : Heap σ) (s : σ) (vs : List Str) : ∃ loc, Readable ((Store.new s).run H vs).1.path loc := by
  suffices ∀ m : Store σ, (∃ loc, Readable m.path loc) → ∃ loc, Readable (m.run H vs).1.path loc from
    this _ ⟨[], readable_of_rep rep_default⟩
  induction vs with
  | nil => exact fun m h => h
  | cons v vs ih =>
    intro m _
    refine ih (m.set H v).1 ?_
    have he := C140_ends H m (m.set H v).1 v (m.set H v).2 rfl
    cases hk : (m.set H v).2 with
    | done =>
      rw [hk] at he
      have hset : ∃ q, Path.default.set v = (q, none) ∧ (m.set H v).1.path = q := by
        have := C140_again H m (m.set H v).1 v (m.set H v).2 rfl (by rw [hk]; nofun) H { (m.set H v).1 with path := Path.default } (Nat.le_refl _) (Nat.le_refl _)
        have hq := (C140_quiet H { (m.set H v).1 with path := Path.default } v).1.1 (by rw [this])
        have h2 := (C140_quiet H { (m.set H v).1 with path := Path.default } v).2 hq Path.default
        rw [this, hk] at h2
        obtain ⟨g1, g2⟩ := Prod.mk.inj h2
        refine ⟨(Path.default.set v).1, ?_, congrArg Store.path g1⟩
        have : (Path.default.set v).2 = none := (endOf_inj (a := none) g2).symm
        rw [← this]
      obtain ⟨q, h1, h2⟩ := hset
      have hs := set_ok Path.default v
      rw [h1] at hs
      obtain ⟨loc, -, hr⟩ := hs
      exact ⟨loc, by rw [h2]; exact readable_of_rep hr⟩
    | parse pe =>
      rw [hk] at he
      obtain ⟨loc, part, -, hv, hq⟩ := set_stop Path.default _ v pe (he Path.default)
      exact ⟨loc, by rw [hq]; exact readable_of_lead hv⟩
    | noMemory =>
      rw [hk] at he
      rcases he with ⟨h1, -⟩ | ⟨loc, seg, -, h2, -⟩
      · exact ⟨[], by rw [h1]; exact readable_of_rep rep_default⟩
      · exact ⟨loc, h2⟩

example : ((Store.new [true, false, false]).run answers [deep, str "/x", deep, str "%"]).2 =
    [.noMemory, .done, .noMemory, .parse .invalidPercent] := by decide +kernel

/-- C140, violated: a `set` that runs out of memory can leave a path that is no path: `joined` disagrees with the segments. -/
theorem C140_leftover_violated :
    ∃ (v : Str) (s : List Bool) (r : Store (List Bool)), (Store.new s).set answers v = (r, .noMemory) ∧
      ∀ loc : List Seg, r.path.size = loc.length → (∀ i, r.path.at i = loc[i]?) → r.path.joined 14 ≠ join (loc.drop 14) := by
  refine ⟨deep, [true, false], ((Store.new [true, false]).set answers deep).1, ?_, ?_⟩
  · rw [← show ((Store.new [true, false]).set answers deep).2 = SetEnd.noMemory by decide +kernel]
  · intro loc hl ha
    have h14 : loc[14]? = some (str "o") := by rw [← ha]; decide +kernel
    have hlen : loc.length = 15 := by rw [← hl]; decide +kernel
    have hd : loc.drop 14 = [str "o"] := by
      apply List.ext_getElem?
      intro i
      rw [List.getElem?_drop]
      cases i with
      | zero => simpa using h14
      | succ i => rw [List.getElem?_eq_none (by omega), List.getElem?_eq_none (by simp)]
    rw [hd, show ((Store.new [true, false]).set answers deep).1.path.joined 14 = str "o/pq" by decide +kernel]
    decide

end Verif.Path
