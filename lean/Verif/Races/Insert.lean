import Verif.Races.Trace

/-! An action put into the middle of an execution. -/

namespace Verif.Races

variable {tr : List Ev} {i j k n : Nat} {d : Ev}

/-- The execution `tr` with the action `d` after the first `n`. -/
def putAt (tr : List Ev) (n : Nat) (d : Ev) : List Ev := tr.take n ++ d :: tr.drop n

/-- Where an action is after that. -/
def shift (n i : Nat) : Nat := if i < n then i else i + 1

theorem shift_lt (h : i < j) : shift n i < shift n j := by unfold shift; split <;> split <;> omega

theorem get_shift (hn : n ≤ tr.length) (i : Nat) : (putAt tr n d)[shift n i]? = tr[i]? := by
  unfold putAt shift
  split
  · rename_i h
    rw [List.getElem?_append_left (by simp; omega), List.getElem?_take, if_pos h]
  · rename_i h
    rw [List.getElem?_append_right (by simp; omega)]
    have : i + 1 - (tr.take n).length = (i - n) + 1 := by simp; omega
    rw [this, List.getElem?_cons_succ, List.getElem?_drop]
    congr 1
    omega

theorem get_put (hn : n ≤ tr.length) : (putAt tr n d)[n]? = some d := by
  unfold putAt
  rw [List.getElem?_append_right (by simp; omega)]
  have : n - (tr.take n).length = 0 := by simp; omega
  rw [this]
  rfl

theorem shift_cases (n j : Nat) : j = n ∨ ∃ i, j = shift n i := by
  rcases Nat.lt_trichotomy j n with h | h | h
  · exact .inr ⟨j, by simp [shift, h]⟩
  · exact .inl h
  · exact .inr ⟨j - 1, by unfold shift; split <;> omega⟩

theorem lt_of_shift (h : shift n i < shift n j) : i < j := by
  unfold shift at h
  split at h <;> split at h <;> omega

theorem Edge.put (hn : n ≤ tr.length) (hd : ∀ s, d.sync ≠ .store s) (h : Edge tr i j) :
    Edge (putAt tr n d) (shift n i) (shift n j) := by
  obtain ⟨hl, a, b, ha, hb, h⟩ := h
  refine ⟨shift_lt hl, a, b, by rw [get_shift hn]; exact ha, by rw [get_shift hn]; exact hb, h.imp_right ?_⟩
  refine Or.imp_right (Or.imp_right (Or.imp_right ?_))
  rintro ⟨s, h1, h2, h3⟩
  refine ⟨s, h1, h2, fun k c hk hk' hc => ?_⟩
  rcases shift_cases n k with rfl | ⟨k', rfl⟩
  · rw [get_put hn] at hc
    cases hc
    exact hd s
  · rw [get_shift hn] at hc
    exact h3 k' c (lt_of_shift hk) (lt_of_shift hk') hc

theorem HB.put (hn : n ≤ tr.length) (hd : ∀ s, d.sync ≠ .store s) (h : HB tr i j) :
    HB (putAt tr n d) (shift n i) (shift n j) := by
  induction h with
  | edge h => exact .edge (h.put hn hd)
  | trans _ h ih => exact .trans ih (h.put hn hd)

theorem Acc.unput {x : Loc} {w : Bool} (hn : n ≤ tr.length) (h : Acc (putAt tr n d) (shift n i) x w) : Acc tr i x w := by
  obtain ⟨a, ha, h⟩ := h
  rw [get_shift hn] at ha
  exact ⟨a, ha, h⟩

/-- If the thread that does `d` knows every earlier action that conflicts with it, and no later action does, nothing
races. -/
theorem Ordered.put (h : Ordered tr) (hn : n ≤ tr.length) (hd : ∀ s, d.sync ≠ .store s)
    (h1 : ∀ i x w w', i < n → Acc tr i x w → (x, w') ∈ d.acc → Known (tr.take n) d.tid i)
    (h2 : ∀ i x w w', n ≤ i → Acc tr i x w → (x, w') ∉ d.acc) : Ordered (putAt tr n d) := by
  intro i j x w w' hij ha ha' hw
  rcases shift_cases n i with rfl | ⟨i', rfl⟩
  · rcases shift_cases i j with rfl | ⟨j', rfl⟩
    · omega
    · obtain ⟨a, hg, hx⟩ := ha
      rw [get_put hn] at hg
      cases hg
      refine absurd hx (h2 j' x w' w ?_ (ha'.unput hn))
      unfold shift at hij
      split at hij <;> omega
  · rcases shift_cases n j with rfl | ⟨j', rfl⟩
    · obtain ⟨a, hg, hx⟩ := ha'
      rw [get_put hn] at hg
      cases hg
      have hlt : i' < j := by
        unfold shift at hij
        split at hij <;> omega
      have hs : shift j i' = i' := by simp [shift, hlt]
      rw [hs] at ha ⊢
      have hacc : Acc tr i' x w := by
        rw [← hs] at ha
        exact ha.unput hn
      have := known_hb (h1 i' x w w' hlt hacc hx)
      have hl : (tr.take j).length = j := by simp; omega
      rw [hl] at this
      have := this.append (tr.drop j)
      rw [List.append_assoc, List.singleton_append] at this
      exact this
    · exact (h i' j' x w w' (lt_of_shift hij) (ha.unput hn) (ha'.unput hn) hw).put hn hd

end Verif.Races
