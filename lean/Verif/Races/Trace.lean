import Verif.Races.Spec

/-! Facts about happens-before when actions are appended. -/

namespace Verif.Races

variable {tr : List Ev} {i j k n : Nat} {e : Ev}

theorem get_append (l : List Ev) (h : tr[i]? = some e) : (tr ++ l)[i]? = some e := by
  have : i < tr.length := by
    rcases Nat.lt_or_ge i tr.length with h1 | h1
    · exact h1
    · rw [List.getElem?_eq_none h1] at h; cases h
  rw [List.getElem?_append_left this]; exact h

theorem get_lt (h : tr[i]? = some e) : i < tr.length := by
  rcases Nat.lt_or_ge i tr.length with h1 | h1
  · exact h1
  · rw [List.getElem?_eq_none h1] at h; cases h

theorem get_last (tr : List Ev) (e : Ev) : (tr ++ [e])[tr.length]? = some e := by simp

theorem get_cases {x : Ev} (h : (tr ++ [e])[i]? = some x) : tr[i]? = some x ∨ (i = tr.length ∧ x = e) := by
  have := get_lt h
  simp at this
  rcases Nat.lt_or_ge i tr.length with h1 | h1
  · rw [List.getElem?_append_left h1] at h; exact .inl h
  · have : i = tr.length := by omega
    subst this
    rw [get_last] at h
    exact .inr ⟨rfl, (Option.some.inj h).symm⟩

theorem Edge.append (l : List Ev) (h : Edge tr i j) : Edge (tr ++ l) i j := by
  obtain ⟨hl, a, b, ha, hb, h⟩ := h
  refine ⟨hl, a, b, get_append l ha, get_append l hb, h.imp_right ?_⟩
  intro h
  refine h.imp_right (Or.imp_right (Or.imp_right ?_))
  rintro ⟨s, h1, h2, h3⟩
  refine ⟨s, h1, h2, fun k c hk hk' hc => ?_⟩
  have := get_lt hb
  rw [List.getElem?_append_left (by omega)] at hc
  exact h3 k c hk hk' hc

theorem HB.append (l : List Ev) (h : HB tr i j) : HB (tr ++ l) i j := by
  induction h with
  | edge h => exact .edge (h.append l)
  | trans _ h ih => exact .trans ih (h.append l)

theorem HB.trans' (h : HB tr i j) (h' : HB tr j k) : HB tr i k := by
  induction h' with
  | edge h' => exact .trans h h'
  | trans _ h' ih => exact .trans ih h'

theorem HB.lt (h : HB tr i j) : i < j := by
  induction h with
  | edge h => exact h.1
  | trans _ h ih => exact Nat.lt_trans ih h.1

theorem HB.lt_length (h : HB tr i j) : j < tr.length := by
  cases h with
  | edge h => obtain ⟨_, _, b, _, hb, _⟩ := h; exact get_lt hb
  | trans _ h => obtain ⟨_, _, b, _, hb, _⟩ := h; exact get_lt hb

/-- `i` is `j` or happens before it. -/
def HBE (tr : List Ev) (i j : Nat) : Prop := i = j ∨ HB tr i j

theorem HBE.append (l : List Ev) (h : HBE tr i j) : HBE (tr ++ l) i j := h.imp_right (HB.append l)

theorem HBE.trans (h : HBE tr i j) (h' : HBE tr j k) : HBE tr i k := by
  rcases h with rfl | h
  · exact h'
  · rcases h' with rfl | h'
    · exact .inr h
    · exact .inr (h.trans' h')

/-- `i` is, or happens before, an action that satisfies `P`. -/
def Under (tr : List Ev) (P : Ev → Prop) (i : Nat) : Prop := ∃ j e, tr[j]? = some e ∧ P e ∧ HBE tr i j

variable {P : Ev → Prop}

theorem Under.append (l : List Ev) (h : Under tr P i) : Under (tr ++ l) P i := by
  obtain ⟨j, e, h1, h2, h3⟩ := h
  exact ⟨j, e, get_append l h1, h2, h3.append l⟩

theorem Under.back (h : Under tr P j) (h' : HBE tr i j) : Under tr P i := by
  obtain ⟨k, e, h1, h2, h3⟩ := h
  exact ⟨k, e, h1, h2, h'.trans h3⟩

/-- The appended action comes after what satisfies `P`, if each such action has an edge to it. -/
theorem Under.hb (h : Under tr P i) (hP : ∀ j x, tr[j]? = some x → P x → Edge (tr ++ [e]) j tr.length) :
    HB (tr ++ [e]) i tr.length := by
  obtain ⟨j, x, h1, h2, h3⟩ := h
  rcases h3 with rfl | h3
  · exact .edge (hP _ x h1 h2)
  · exact .trans (h3.append _) (hP j x h1 h2)

theorem under_last (h : P e) : Under (tr ++ [e]) P tr.length := ⟨tr.length, e, get_last tr e, h, .inl rfl⟩

/-- Known to a thread, or through an action of synchronisation. -/
def Known (tr : List Ev) (t : Nat) : Nat → Prop := Under tr fun e => e.tid = t
def Through (tr : List Ev) (y : Sync) : Nat → Prop := Under tr fun e => e.sync = y

theorem known_hb (h : Known tr e.tid i) : HB (tr ++ [e]) i tr.length := by
  refine Under.hb h fun j x hj hx => ⟨get_lt hj, x, e, get_append _ hj, get_last tr e, .inl hx⟩

theorem known_last (tr : List Ev) (e : Ev) : Known (tr ++ [e]) e.tid tr.length := under_last rfl

theorem known_of_hb (h : HB (tr ++ [e]) i tr.length) : Known (tr ++ [e]) e.tid i :=
  (known_last tr e).back (.inr h)

theorem through_last (tr : List Ev) (e : Ev) : Through (tr ++ [e]) e.sync tr.length := under_last rfl

/-- What the thread knows goes through its new action. -/
theorem known_through (h : Known tr e.tid i) : Through (tr ++ [e]) e.sync i :=
  (through_last tr e).back (.inr (known_hb h))

theorem unlock_hb {g : Nat} (h : Through tr (.unlock g) i) (he : e.sync = .lock g) : HB (tr ++ [e]) i tr.length :=
  Under.hb h fun _ x hj hx =>
    ⟨get_lt hj, x, e, get_append _ hj, get_last tr e, .inr (.inl ⟨g, hx, he⟩)⟩

theorem sub_hb {s : Nat} (h : Through tr (.sub s) i) (he : e.sync = .sub s) : HB (tr ++ [e]) i tr.length :=
  Under.hb h fun _ x hj hx =>
    ⟨get_lt hj, x, e, get_append _ hj, get_last tr e, .inr (.inr (.inl ⟨s, hx, he⟩))⟩

theorem rel_hb (h : Through tr (.rel k) i) (he : e.sync = .acq k) : HB (tr ++ [e]) i tr.length :=
  Under.hb h fun _ x hj hx =>
    ⟨get_lt hj, x, e, get_append _ hj, get_last tr e, .inr (.inr (.inr (.inl ⟨k, hx, he⟩)))⟩

/-- Including that action itself. -/
theorem known_through' (h : Known (tr ++ [e]) e.tid i) : Through (tr ++ [e]) e.sync i := by
  obtain ⟨j, x, h1, h2, h3⟩ := h
  rcases get_cases h1 with h1 | ⟨rfl, rfl⟩
  · exact (known_through (e := e) (i := j) ⟨j, x, h1, h2, .inl rfl⟩).back h3
  · exact (through_last tr x).back h3

theorem through_known {y : Sync} (h : Through (tr ++ [e]) y i)
    (hy : ∀ j, Through tr y j → HB (tr ++ [e]) j tr.length) : Known (tr ++ [e]) e.tid i := by
  obtain ⟨j, x, h1, h2, h3⟩ := h
  rcases get_cases h1 with h1 | ⟨rfl, rfl⟩
  · exact (known_of_hb (hy j ⟨j, x, h1, h2, .inl rfl⟩)).back h3
  · exact (known_last tr x).back h3

/-- The last store to `sender_` of a slot. -/
def LastStore (tr : List Ev) (s j : Nat) : Prop :=
  (∃ a, tr[j]? = some a ∧ a.sync = .store s) ∧ ∀ k c, j < k → tr[k]? = some c → c.sync ≠ .store s

theorem LastStore.append {s : Nat} (h : LastStore tr s j) (he : e.sync ≠ .store s) : LastStore (tr ++ [e]) s j := by
  obtain ⟨⟨a, ha, h1⟩, h2⟩ := h
  refine ⟨⟨a, get_append _ ha, h1⟩, fun k c hk hc => ?_⟩
  rcases get_cases hc with hc | ⟨_, rfl⟩
  · exact h2 k c hk hc
  · exact he

theorem lastStore_last {s : Nat} (he : e.sync = .store s) : LastStore (tr ++ [e]) s tr.length := by
  refine ⟨⟨e, get_last tr e, he⟩, fun k c hk hc => ?_⟩
  have := get_lt hc
  simp at this
  omega

theorem LastStore.hb {s : Nat} (h : LastStore tr s j) (he : e.sync = .xchg s) : HB (tr ++ [e]) j tr.length := by
  obtain ⟨⟨a, ha, h1⟩, h2⟩ := h
  refine .edge ⟨get_lt ha, a, e, get_append _ ha, get_last tr e, .inr (.inr (.inr (.inr ⟨s, h1, he, ?_⟩)))⟩
  intro k c hk hk' hc
  rcases get_cases hc with hc | ⟨h3, _⟩
  · exact h2 k c hk hc
  · omega

/-! ### Accesses -/

theorem Acc.append {x : Loc} {w : Bool} (l : List Ev) (h : Acc tr i x w) : Acc (tr ++ l) i x w := by
  obtain ⟨a, h1, h2⟩ := h
  exact ⟨a, get_append l h1, h2⟩

theorem acc_cases {x : Loc} {w : Bool} (h : Acc (tr ++ [e]) i x w) :
    Acc tr i x w ∨ (i = tr.length ∧ (x, w) ∈ e.acc) := by
  obtain ⟨a, h1, h2⟩ := h
  rcases get_cases h1 with h1 | ⟨h3, rfl⟩
  · exact .inl ⟨a, h1, h2⟩
  · exact .inr ⟨h3, h2⟩

/-- Conflicting actions happen in some order. -/
def Ordered (tr : List Ev) : Prop :=
  ∀ i j x w w', i < j → Acc tr i x w → Acc tr j x w' → (w || w') = true → HB tr i j

theorem Ordered.append (h : Ordered tr)
    (h' : ∀ i x w w', Acc tr i x w → (x, w') ∈ e.acc → (w || w') = true → HB (tr ++ [e]) i tr.length) :
    Ordered (tr ++ [e]) := by
  intro i j x w w' hij ha ha' hw
  have hi : i < tr.length := by
    obtain ⟨_, h1, _⟩ := ha'
    have := get_lt h1
    simp at this; omega
  rcases acc_cases ha with ha | ⟨h1, _⟩
  · rcases acc_cases ha' with ha' | ⟨rfl, h2⟩
    · exact (h i j x w w' hij ha ha' hw).append _
    · exact h' i x w w' ha h2 hw
  · omega

theorem Ordered.no_race (h : Ordered tr) (i j : Nat) : ¬ Race tr i j := by
  rintro ⟨hne, ⟨x, w, w', h1, h2, h3⟩, h4, h5⟩
  rcases Nat.lt_or_ge i j with hl | hl
  · exact h4 (h i j x w w' hl h1 h2 h3)
  · exact h5 (h j i x w' w (by omega) h2 h1 (by rw [Bool.or_comm]; exact h3))

end Verif.Races
