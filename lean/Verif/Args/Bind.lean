/-
What initialising parameters does to the memory.
-/
import Verif.Args.Spec

namespace Verif.Args

variable {V : Type}

/-- An argument that is moved into its parameter. -/
def Moves (cs : List Cat) (ms : List Mode) (j : Nat) : Prop :=
  cs[j]? = some .xvalue ∧ ms[j]? = some .value

theorem alloc_old (st : State V) (v : V) {k : Nat} (h : k < st.next) : (st.alloc v).1.mem k = st.mem k := by
  show (if k = st.next then v else st.mem k) = _
  rw [if_neg (by omega)]

theorem alloc_new (st : State V) (v : V) : (st.alloc v).1.mem st.next = v := by
  show (if st.next = st.next then v else st.mem st.next) = _
  rw [if_pos rfl]

theorem set_other (st : State V) (l : Nat) (v : V) {k : Nat} (h : k ≠ l) : (st.set l v).mem k = st.mem k := by
  show (if k = l then v else st.mem k) = _
  rw [if_neg h]

theorem set_same (st : State V) (l : Nat) (v : V) : (st.set l v).mem l = v := by
  show (if l = l then v else st.mem l) = _
  rw [if_pos rfl]

structure Bound (cs : List Cat) (ms : List Mode) (ls : List Nat) (st st' : State V)
    (cells : List Nat) : Prop where
  lenM : ms.length = cs.length
  lenL : ls.length = cs.length
  lenC : cells.length = cs.length
  next : st.next ≤ st'.next
  users : st'.users = st.users
  held : st'.held = st.held
  binds : ∀ (j : Nat) c m, cs[j]? = some c → ms[j]? = some m → binds c m = true
  refs : ∀ (j : Nat) m, ms[j]? = some m → m ≠ .value → cells[j]? = ls[j]?
  fresh : ∀ (j l : Nat), ms[j]? = some .value → cells[j]? = some l → st.next ≤ l ∧ l < st'.next
  keeps : ∀ l, l < st.next → (∀ j : Nat, ls[j]? = some l → ¬ Moves cs ms j) → st'.mem l = st.mem l

theorem bindOne_cases {gone : V → V} {c : Cat} {m : Mode} {l : Nat} {st st' : State V} {l' : Nat}
    (h : bindOne gone c m l st = some (st', l')) :
    binds c m = true ∧
    ((m ≠ .value ∧ st' = st ∧ l' = l) ∨
     (m = .value ∧ c ≠ .xvalue ∧ st' = (({ st with copies := st.copies + 1 } : State V).alloc (st.mem l)).1 ∧ l' = st.next) ∨
     (m = .value ∧ c = .xvalue ∧ st' = (({ st.set l (gone (st.mem l)) with moves := st.moves + 1 } : State V).alloc (st.mem l)).1 ∧ l' = st.next)) := by
  unfold bindOne at h
  split at h
  · rename_i hb
    refine ⟨hb, ?_⟩
    cases m with
    | value =>
      right
      cases c with
      | xvalue =>
        right
        simp only [State.alloc, Option.some.injEq, Prod.mk.injEq] at h
        exact ⟨rfl, rfl, h.1.symm, h.2.symm⟩
      | lvalue =>
        left
        simp only [State.alloc, Option.some.injEq, Prod.mk.injEq] at h
        exact ⟨rfl, nofun, h.1.symm, h.2.symm⟩
      | clvalue =>
        left
        simp only [State.alloc, Option.some.injEq, Prod.mk.injEq] at h
        exact ⟨rfl, nofun, h.1.symm, h.2.symm⟩
    | cref | lref | rref =>
      left
      simp only [Option.some.injEq, Prod.mk.injEq] at h
      exact ⟨nofun, h.1.symm, h.2.symm⟩
  · cases h

theorem bindAll_bound {gone : V → V} : ∀ {cs : List Cat} {ms : List Mode} {ls : List Nat} {st st' : State V}
    {cells : List Nat}, bindAll gone cs ms ls st = some (st', cells) → Bound cs ms ls st st' cells
  | [], [], [], st, st', cells, h => by
    simp only [bindAll, Option.some.injEq, Prod.mk.injEq] at h
    obtain ⟨rfl, rfl⟩ := h
    exact ⟨rfl, rfl, rfl, Nat.le_refl _, rfl, rfl, by simp, by simp, by simp, fun _ _ _ => rfl⟩
  | c :: cs, m :: ms, l :: ls, st, st', cells, h => by
    simp only [bindAll] at h
    split at h
    · cases h
    · rename_i st1 l1 h1
      split at h
      · cases h
      · rename_i st2 ls2 h2
        simp only [Option.some.injEq, Prod.mk.injEq] at h
        obtain ⟨rfl, rfl⟩ := h
        have ih := bindAll_bound h2
        have ⟨hb, hc⟩ := bindOne_cases h1
        have hn : st.next ≤ st1.next := by
          rcases hc with ⟨_, rfl, _⟩ | ⟨_, _, rfl, _⟩ | ⟨_, _, rfl, _⟩ <;> simp [State.alloc, State.set]
        have hu : st1.users = st.users := by
          rcases hc with ⟨_, rfl, _⟩ | ⟨_, _, rfl, _⟩ | ⟨_, _, rfl, _⟩ <;> rfl
        have hh : st1.held = st.held := by
          rcases hc with ⟨_, rfl, _⟩ | ⟨_, _, rfl, _⟩ | ⟨_, _, rfl, _⟩ <;> rfl
        refine ⟨by simp [ih.lenM], by simp [ih.lenL], by simp [ih.lenC], Nat.le_trans hn ih.next,
          ih.users.trans hu, ih.held.trans hh, ?_, ?_, ?_, ?_⟩
        · intro j c' m' hc' hm'
          cases j with
          | zero => simp at hc' hm'; subst hc'; subst hm'; exact hb
          | succ j => simp at hc' hm'; exact ih.binds j c' m' hc' hm'
        · intro j m' hm' hv
          cases j with
          | zero =>
            simp at hm' ⊢; subst hm'
            rcases hc with ⟨_, _, e⟩ | ⟨e, _⟩ | ⟨e, _⟩
            · exact e
            · exact absurd e hv
            · exact absurd e hv
          | succ j => simp at hm' ⊢; exact ih.refs j m' hm' hv
        · intro j k hm' hk
          cases j with
          | zero =>
            simp at hm' hk; subst hk
            rcases hc with ⟨hv, _⟩ | ⟨_, _, e, e'⟩ | ⟨_, _, e, e'⟩
            · exact absurd hm' hv
            · have := ih.next
              rw [e] at this; simp only [State.alloc] at this
              omega
            · have := ih.next
              rw [e] at this; simp only [State.alloc, State.set] at this
              omega
          | succ j =>
            simp at hm' hk
            have := ih.fresh j k hm' hk
            exact ⟨Nat.le_trans hn this.1, this.2⟩
        · intro k hk hj
          rw [ih.keeps k (Nat.lt_of_lt_of_le hk hn) (fun j hl hm => hj (j + 1) (by simpa using hl) (by simpa [Moves] using hm))]
          rcases hc with ⟨_, rfl, _⟩ | ⟨_, _, rfl, _⟩ | ⟨hm, hx, rfl, _⟩
          · rfl
          · exact alloc_old _ _ (by omega)
          · rw [alloc_old ({ st.set l (gone (st.mem l)) with moves := st.moves + 1 } : State V) _ hk]; apply set_other (st := st)
            intro e
            exact hj 0 (by simp [e]) (by simp [Moves, hm, hx])
  | [], [], _ :: _, _, _, _, h => by simp [bindAll] at h
  | [], _ :: _, _, _, _, _, h => by simp [bindAll] at h
  | _ :: _, [], _, _, _, _, h => by simp [bindAll] at h
  | _ :: _, _ :: _, [], _, _, _, h => by simp [bindAll] at h

theorem MovedOnce.tail {c : Cat} {m : Mode} {l : Nat} {cs : List Cat} {ms : List Mode} {ls : List Nat}
    (h : MovedOnce (c :: cs) (m :: ms) (l :: ls)) : MovedOnce cs ms ls := by
  intro j k l' h1 h2 h3 h4
  have := h (j + 1) (k + 1) l' (by simpa using h1) (by simpa using h2) (by simpa using h3) (by simpa using h4)
  omega

/-- The values of the new objects, and what is left in the objects that were moved. -/
theorem bindAll_values {gone : V → V} : ∀ {cs : List Cat} {ms : List Mode} {ls : List Nat} {st st' : State V}
    {cells : List Nat}, bindAll gone cs ms ls st = some (st', cells) → MovedOnce cs ms ls →
    (∀ l ∈ ls, l < st.next) →
    (∀ (j l c : Nat), ms[j]? = some .value → ls[j]? = some l → cells[j]? = some c → st'.mem c = st.mem l) ∧
    (∀ (j l : Nat), Moves cs ms j → ls[j]? = some l → st'.mem l = gone (st.mem l))
  | [], [], [], st, st', cells, h, _, _ => by simp
  | c :: cs, m :: ms, l :: ls, st, st', cells, h, hmo, hl => by
    simp only [bindAll] at h
    split at h
    · cases h
    · rename_i st1 l1 h1
      split at h
      · cases h
      · rename_i st2 ls2 h2
        simp only [Option.some.injEq, Prod.mk.injEq] at h
        obtain ⟨rfl, rfl⟩ := h
        have hl0 : l < st.next := hl l (by simp)
        have ⟨hb, hc⟩ := bindOne_cases h1
        have hB := bindAll_bound h2
        have hn : st.next ≤ st1.next := by
          rcases hc with ⟨_, rfl, _⟩ | ⟨_, _, rfl, _⟩ | ⟨_, _, rfl, _⟩ <;> simp [State.alloc, State.set]
        have ih := bindAll_values h2 hmo.tail
          (fun k hk => Nat.lt_of_lt_of_le (hl k (by simp [hk])) hn)
        -- the other objects have not changed
        have hrest : ∀ (j k : Nat), ls[j]? = some k → st1.mem k = st.mem k := by
          intro j k hk
          have hk' : k < st.next := hl k (by simp [List.mem_of_getElem? hk])
          rcases hc with ⟨_, rfl, _⟩ | ⟨_, _, rfl, _⟩ | ⟨hm, hx, rfl, _⟩
          · rfl
          · exact alloc_old _ _ (by omega)
          · rw [alloc_old ({ st.set l (gone (st.mem l)) with moves := st.moves + 1 } : State V) _ hk']; apply set_other (st := st)
            intro e
            have := hmo 0 (j + 1) l (by simp) (by simpa [e] using hk) (by simp [hx]) (by simp [hm])
            omega
        constructor
        · intro j k d hm' hk hd
          cases j with
          | zero =>
            simp at hm' hk hd; subst hk; subst hd
            have h3 : st1.next = st.next + 1 ∧ l1 = st.next ∧ st1.mem l1 = st.mem l := by
              rcases hc with ⟨hv, _⟩ | ⟨_, _, rfl, rfl⟩ | ⟨_, _, rfl, rfl⟩
              · exact absurd hm' hv
              · simp [State.alloc]
              · simp [State.alloc, State.set]
            rw [hB.keeps l1 (by omega), h3.2.2]
            intro j hj _
            have := hl l1 (by simp [List.mem_of_getElem? hj])
            omega
          | succ j =>
            simp at hm' hk hd
            rw [ih.1 j k d hm' hk hd]
            exact hrest j k hk
        · intro j k hm' hk
          cases j with
          | zero =>
            simp [Moves] at hm' hk; subst hk
            rw [hB.keeps l (by omega)]
            · rcases hc with ⟨hv, _⟩ | ⟨_, hx, _⟩ | ⟨_, _, rfl, _⟩
              · exact absurd hm'.2 hv
              · exact absurd hm'.1 hx
              · rw [alloc_old ({ st.set l (gone (st.mem l)) with moves := st.moves + 1 } : State V) _ hl0]; exact set_same st _ _
            · intro j hj hmj
              have := hmo 0 (j + 1) l (by simp) (by simpa using hj) (by simp [hm'.1]) (by simp [hm'.2])
              omega
          | succ j =>
            simp at hk
            rw [ih.2 j k (by simpa [Moves] using hm') hk]
            rw [hrest j k hk]
  | [], [], _ :: _, _, _, _, h, _, _ => by simp [bindAll] at h
  | [], _ :: _, _, _, _, _, h, _, _ => by simp [bindAll] at h
  | _ :: _, [], _, _, _, _, h, _, _ => by simp [bindAll] at h
  | _ :: _, _ :: _, [], _, _, _, h, _, _ => by simp [bindAll] at h

/-- Different parameters passed by value are different objects. -/
theorem bindAll_distinct {gone : V → V} : ∀ {cs : List Cat} {ms : List Mode} {ls : List Nat} {st st' : State V}
    {cells : List Nat}, bindAll gone cs ms ls st = some (st', cells) → (∀ l ∈ ls, l < st.next) →
    ∀ (j k c : Nat), ms[j]? = some .value → cells[j]? = some c → cells[k]? = some c → j = k
  | [], [], [], st, st', cells, h, _ => by simp
  | c :: cs, m :: ms, l :: ls, st, st', cells, h, hl => by
    have hB0 := bindAll_bound h
    simp only [bindAll] at h
    split at h
    · cases h
    · rename_i st1 l1 h1
      split at h
      · cases h
      · rename_i st2 ls2 h2
        simp only [Option.some.injEq, Prod.mk.injEq] at h
        obtain ⟨rfl, rfl⟩ := h
        have ⟨hb, hc⟩ := bindOne_cases h1
        have hB := bindAll_bound h2
        have hn : st.next ≤ st1.next := by
          rcases hc with ⟨_, rfl, _⟩ | ⟨_, _, rfl, _⟩ | ⟨_, _, rfl, _⟩ <;> simp [State.alloc, State.set]
        have ih := bindAll_distinct h2 (fun k hk => Nat.lt_of_lt_of_le (hl k (by simp [hk])) hn)
        -- a later cell is an old object or newer than the first
        have hlater : ∀ (k d : Nat), ls2[k]? = some d → d < st.next ∨ st1.next ≤ d := by
          intro k d hd
          have hk : k < ms.length := by
            have := List.getElem?_eq_some_iff.mp hd
            obtain ⟨h, _⟩ := this
            rw [hB.lenM, ← hB.lenC]; exact h
          by_cases hv : ms[k]? = some .value
          · exact .inr (hB.fresh k d hv hd).1
          · left
            have hm : ms[k]? = some ms[k] := by simp [hk]
            have := hB.refs k ms[k] hm (fun e => hv (by rw [hm, e]))
            rw [hd] at this
            exact hl d (by simp [List.mem_of_getElem? this.symm])
        intro j k d hm' hj hk
        cases j with
        | zero =>
          cases k with
          | zero => rfl
          | succ k =>
            simp at hm' hj hk; subst hj
            have h3 : st1.next = st.next + 1 ∧ l1 = st.next := by
              rcases hc with ⟨hv, _⟩ | ⟨_, _, rfl, rfl⟩ | ⟨_, _, rfl, rfl⟩
              · exact absurd hm' hv
              · simp [State.alloc]
              · simp [State.alloc, State.set]
            rcases hlater k l1 hk with h | h <;> omega
        | succ j =>
          cases k with
          | zero =>
            simp at hm' hj hk; subst hk
            have hf := hB.fresh j l1 hm' hj
            rcases hc with ⟨_, rfl, rfl⟩ | ⟨_, _, rfl, rfl⟩ | ⟨_, _, rfl, rfl⟩
            · have := hl l1 (by simp); omega
            · simp [State.alloc] at hf; omega
            · simp [State.alloc, State.set] at hf; omega
          | succ k =>
            simp at hm' hj hk
            rw [ih j k d hm' hj hk]
  | [], [], _ :: _, _, _, _, h, _ => by simp [bindAll] at h
  | [], _ :: _, _, _, _, _, h, _ => by simp [bindAll] at h
  | _ :: _, [], _, _, _, _, h, _ => by simp [bindAll] at h
  | _ :: _, _ :: _, [], _, _, _, h, _ => by simp [bindAll] at h

end Verif.Args
