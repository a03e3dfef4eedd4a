import Verif.Signal.Step
/-
Lemmas about histories, and how the actions change the history.
-/
namespace Verif.Signal
open Spec

theorem hist_split {ok : List Ev → Ev → Prop} {l1 l2 : List Ev} {ev : Ev} (h : Hist ok (l1 ++ ev :: l2)) :
    ok l2 ev ∧ Hist ok l2 := by
  induction l1 with
  | nil => exact h
  | cons a l1 ih => exact ih h.2

theorem hist_suffix {ok : List Ev → Ev → Prop} {l1 l2 : List Ev} (h : Hist ok (l1 ++ l2)) : Hist ok l2 := by
  induction l1 with
  | nil => exact h
  | cons a l1 ih => exact ih h.2

theorem order_mem {l : List Ev} {x s : Nat} (h : s ∈ order l x) : ∃ g pos, Ev.connect s g pos ∈ l := by
  induction l generalizing x with
  | nil => cases h
  | cons ev l ih =>
    have key : ∀ y, s ∈ order l y → ∃ g pos, Ev.connect s g pos ∈ ev :: l := fun y hy => by
      obtain ⟨g, pos, h⟩ := ih hy
      exact ⟨g, pos, by simp [h]⟩
    cases ev with
    | connect s' g pos =>
      rw [order_connect] at h
      split at h
      · rcases mem_inserted.1 h with rfl | h
        · exact ⟨g, pos, by simp⟩
        · exact key _ h
      · exact key _ h
    | move g n =>
      simp only [order] at h
      split at h
      · exact key _ h
      · split at h
        · cases h
        · exact key _ h
    | swap a b =>
      simp only [order] at h
      split at h
      · exact key _ h
      · split at h
        · exact key _ h
        · exact key _ h
    | _ => exact key _ h

theorem fresh_order {l : List Ev} {s : Nat} (h : ∀ ev ∈ l, evSlot ev ≠ some s) (x : Nat) : s ∉ order l x := by
  intro hm
  obtain ⟨g, pos, h1⟩ := order_mem hm
  exact h _ h1 rfl

theorem order_nodup {l : List Ev} (h : Hist Ok l) (x : Nat) : (order l x).Nodup := by
  induction l generalizing x with
  | nil => exact List.nodup_nil
  | cons ev l ih =>
    have ih := ih h.2
    cases ev with
    | connect s g pos =>
      rw [order_connect]
      split
      · exact nodup_inserted (ih _) (fresh_order h.1 _)
      · exact ih _
    | move g n =>
      simp only [order]
      split
      · exact ih _
      · split
        · exact List.nodup_nil
        · exact ih _
    | swap a b =>
      simp only [order]
      split
      · exact ih _
      · split
        · exact ih _
        · exact ih _
    | _ => exact ih _

/-- Two slots of one signal keep their relative order. -/
theorem order_keep {l1 l2 : List Ev} {a b : Nat} (hh : Hist Ok (l1 ++ l2))
    (ha : ∃ ev ∈ l2, evSlot ev = some a) (hb : ∃ ev ∈ l2, evSlot ev = some b)
    (h2 : ∀ x, a ∈ order l2 x → b ∈ order l2 x → [a, b].Sublist (order l2 x)) :
    ∀ x, a ∈ order (l1 ++ l2) x → b ∈ order (l1 ++ l2) x → [a, b].Sublist (order (l1 ++ l2) x) := by
  induction l1 with
  | nil => exact h2
  | cons ev l1 ih =>
    have ih := ih hh.2
    intro x h3 h4
    cases ev with
    | connect s g pos =>
      have hne : ∀ q, (∃ ev ∈ l2, evSlot ev = some q) → q ≠ s := by
        rintro q ⟨ev, h5, h6⟩ rfl
        exact hh.1 ev (by simp [h5]) h6
      have hna := hne a ha
      have hnb := hne b hb
      rw [List.cons_append, order_connect] at h3 h4 ⊢
      split
      · rename_i e
        rw [if_pos e] at h3 h4
        have h5 := ih x ((mem_inserted.1 h3).resolve_left hna) ((mem_inserted.1 h4).resolve_left hnb)
        cases pos
        · exact h5.trans (List.sublist_append_left _ _)
        · exact h5.trans (List.sublist_cons_self _ _)
      · rename_i e
        rw [if_neg e] at h3 h4
        exact ih x h3 h4
    | move g n =>
      simp only [List.cons_append, order] at h3 h4 ⊢
      by_cases e1 : x = n
      · simp only [if_pos e1] at h3 h4 ⊢; exact ih _ h3 h4
      · simp only [if_neg e1] at h3 h4 ⊢
        by_cases e2 : x = g
        · rw [if_pos e2] at h3; cases h3
        · simp only [if_neg e2] at h3 h4 ⊢; exact ih _ h3 h4
    | swap c d =>
      simp only [List.cons_append, order] at h3 h4 ⊢
      by_cases e1 : x = c
      · simp only [if_pos e1] at h3 h4 ⊢; exact ih _ h3 h4
      · simp only [if_neg e1] at h3 h4 ⊢
        by_cases e2 : x = d
        · simp only [if_pos e2] at h3 h4 ⊢; exact ih _ h3 h4
        · simp only [if_neg e2] at h3 h4 ⊢; exact ih _ h3 h4
    | _ => exact ih x h3 h4

theorem order_back {l1 l2 : List Ev} {a b g : Nat} (hh : Hist Ok (l1 ++ .connect b g .back :: l2))
    (ha : ∃ g' pos, Ev.connect a g' pos ∈ l2) {x : Nat} (h1 : a ∈ order (l1 ++ .connect b g .back :: l2) x)
    (h2 : b ∈ order (l1 ++ .connect b g .back :: l2) x) :
    [a, b].Sublist (order (l1 ++ .connect b g .back :: l2) x) := by
  obtain ⟨g', pos, ha⟩ := ha
  have hb := (hist_split hh).1
  refine order_keep hh ⟨.connect a g' pos, by simp [ha], rfl⟩ ⟨.connect b g .back, by simp, rfl⟩ ?_ x h1 h2
  intro x h3 h4
  have hne : a ≠ b := by rintro rfl; exact hb _ ha rfl
  rw [order_connect] at h3 h4 ⊢
  split
  · rename_i e
    rw [if_pos e] at h3
    have h5 := (mem_inserted.1 h3).resolve_left hne
    show ([a] ++ [b]).Sublist (order l2 x ++ [b])
    exact (List.singleton_sublist.2 h5).append_right _
  · rename_i e
    rw [if_neg e] at h4
    exact absurd h4 (fresh_order hb x)

theorem order_front {l1 l2 : List Ev} {a b g : Nat} (hh : Hist Ok (l1 ++ .connect b g .front :: l2))
    (ha : ∃ g' pos, Ev.connect a g' pos ∈ l2) {x : Nat} (h1 : a ∈ order (l1 ++ .connect b g .front :: l2) x)
    (h2 : b ∈ order (l1 ++ .connect b g .front :: l2) x) :
    [b, a].Sublist (order (l1 ++ .connect b g .front :: l2) x) := by
  obtain ⟨g', pos, ha⟩ := ha
  have hb := (hist_split hh).1
  refine order_keep hh ⟨.connect b g .front, by simp, rfl⟩ ⟨.connect a g' pos, by simp [ha], rfl⟩ ?_ x h2 h1
  intro x h4 h3
  have hne : a ≠ b := by rintro rfl; exact hb _ ha rfl
  rw [order_connect] at h3 h4 ⊢
  split
  · rename_i e
    rw [if_pos e] at h3
    have h5 := (mem_inserted.1 h3).resolve_left hne
    show [b, a].Sublist (b :: order l2 x)
    exact (List.singleton_sublist.2 h5).cons_cons _
  · rename_i e
    rw [if_neg e] at h4
    exact absurd h4 (fresh_order hb x)

/-! ### Calls -/

theorem calls_sub_proc (l : List Ev) (e : Nat) : (calls l e).Sublist (proc l e) := by
  induction l with
  | nil => exact List.Sublist.refl _
  | cons ev l ih =>
    cases ev with
    | call e' s =>
      simp only [calls, proc]
      split
      · exact ih.append_right _
      · exact ih
    | skipBlocked e' s =>
      simp only [calls, proc]
      split
      · exact ih.trans (List.sublist_append_left _ _)
      · exact ih
    | skipInvalid e' s =>
      simp only [calls, proc]
      split
      · exact ih.trans (List.sublist_append_left _ _)
      · exact ih
    | _ => exact ih

theorem count_calls (l : List Ev) (e s : Nat) : l.count (.call e s) = (calls l e).count s := by
  induction l with
  | nil => rfl
  | cons ev l ih =>
    rw [List.count_cons, ih]
    cases ev with
    | call e' s' =>
      simp only [calls]
      by_cases h : e = e'
      · subst h
        rw [if_pos rfl, List.count_append, List.count_singleton]
        by_cases hs : s' = s <;> simp [hs]
      · rw [if_neg h]
        have : ¬ e' = e := fun h' => h h'.symm
        simp [this]
    | _ => simp [calls]

theorem mem_calls {l : List Ev} {e s : Nat} : s ∈ calls l e ↔ Ev.call e s ∈ l := by
  rw [← List.count_pos_iff, ← count_calls, List.count_pos_iff]

theorem mem_proc {l : List Ev} {e s : Nat} :
    s ∈ proc l e ↔ Ev.call e s ∈ l ∨ Ev.skipBlocked e s ∈ l ∨ Ev.skipInvalid e s ∈ l := by
  induction l with
  | nil => simp [proc]
  | cons ev l ih =>
    cases ev with
    | call e' s' =>
      simp only [proc]
      by_cases h : e = e'
      · subst h; simp [ih, or_comm, or_assoc, or_left_comm]
      · simp [h, ih]
    | skipBlocked e' s' =>
      simp only [proc]
      by_cases h : e = e'
      · subst h; simp [ih, or_comm, or_assoc, or_left_comm]
      · simp [h, ih]
    | skipInvalid e' s' =>
      simp only [proc]
      by_cases h : e = e'
      · subst h; simp [ih, or_comm, or_assoc, or_left_comm]
      · simp [h, ih]
    | _ => simp [proc, ih]

theorem before_split {l1 l2 : List Ev} {e g : Nat} (hh : Hist Ok (l1 ++ .begin e g :: l2)) :
    before (l1 ++ .begin e g :: l2) e = l2 ∧ sigOf (l1 ++ .begin e g :: l2) e = g := by
  induction l1 with
  | nil => simp [before, sigOf]
  | cons ev l1 ih =>
    have ih := ih hh.2
    cases ev with
    | begin e' g' =>
      have hne : ¬ e = e' := by
        rintro rfl
        exact hh.1 (.begin e g) (by simp) rfl
      simp only [List.cons_append, before, sigOf, if_neg hne]
      exact ih
    | _ => exact ih

/-- The history when an emission began is a part of the history. -/
theorem before_suffix (l : List Ev) (e : Nat) : ∃ l1, l = l1 ++ before l e := by
  induction l with
  | nil => exact ⟨[], rfl⟩
  | cons ev l ih =>
    obtain ⟨l1, h⟩ := ih
    have key : before (ev :: l) e = before l e ∨ before (ev :: l) e = l := by
      cases ev with
      | begin e' g' =>
        simp only [before]
        split
        · exact .inr rfl
        · exact .inl rfl
      | _ => exact .inl rfl
    rcases key with k | k
    · exact ⟨ev :: l1, by rw [k, List.cons_append, ← h]⟩
    · exact ⟨[ev], by rw [k]; rfl⟩

theorem conn_mem {l : List Ev} {s g : Nat} (h : conn l s = some g) : ∃ g' pos, Ev.connect s g' pos ∈ l := by
  induction l generalizing g with
  | nil => cases h
  | cons ev l ih =>
    have key : ∀ y, conn l s = some y → ∃ g pos, Ev.connect s g pos ∈ ev :: l := fun y hy => by
      obtain ⟨g, pos, h⟩ := ih hy
      exact ⟨g, pos, by simp [h]⟩
    cases ev with
    | connect s' g' pos =>
      simp only [conn] at h
      split at h
      · rename_i e; exact ⟨g', pos, by simp [e]⟩
      · exact key _ h
    | disc s' =>
      simp only [conn] at h
      split at h
      · cases h
      · exact key _ h
    | move a b =>
      simp only [conn, Option.map_eq_some_iff] at h
      obtain ⟨y, hy, -⟩ := h
      exact key _ hy
    | swap a b =>
      simp only [conn, Option.map_eq_some_iff] at h
      obtain ⟨y, hy, -⟩ := h
      exact key _ hy
    | _ => exact key _ h

/-- A slot that was disconnected stays so. -/
theorem conn_none_stays {l1 l2 : List Ev} {s : Nat} (hh : Hist Ok (l1 ++ l2)) (hs : ∃ ev ∈ l2, evSlot ev = some s)
    (h : conn l2 s = none) : conn (l1 ++ l2) s = none := by
  induction l1 with
  | nil => exact h
  | cons ev l1 ih =>
    have ih := ih hh.2
    rw [List.cons_append]
    cases ev with
    | connect s' g pos =>
      simp only [conn]
      split
      · rename_i e
        subst e
        obtain ⟨ev, h1, h2⟩ := hs
        exact absurd h2 (hh.1 ev (by simp [h1]))
      · exact ih
    | disc s' =>
      simp only [conn]
      split
      · rfl
      · exact ih
    | move a b => simp only [conn, ih]; rfl
    | swap a b => simp only [conn, ih]; rfl
    | _ => exact ih


/-! ### The history only grows -/

theorem List.sub_pair {O C : List Nat} {a b : Nat} (hn : O.Nodup) (hC : C.Sublist O) (ha : a ∈ C) (hb : b ∈ C)
    (h : [a, b].Sublist O) : [a, b].Sublist C := by
  induction hC with
  | slnil => cases ha
  | @cons C O x hC ih =>
    have hn' := List.nodup_cons.1 hn
    cases h with
    | cons _ h => exact ih hn'.2 ha hb h
    | cons_cons _ h => exact absurd (hC.subset ha) hn'.1
  | @cons_cons C O x hC ih =>
    have hn' := List.nodup_cons.1 hn
    cases h with
    | cons _ h =>
      have h1 : a ∈ O := h.subset (by simp)
      have h2 : b ∈ O := h.subset (by simp)
      have hax : a ≠ x := by rintro rfl; exact hn'.1 h1
      have hbx : b ≠ x := by rintro rfl; exact hn'.1 h2
      exact (ih hn'.2 ((List.mem_cons.1 ha).resolve_left hax) ((List.mem_cons.1 hb).resolve_left hbx) h).cons _
    | cons_cons _ h =>
      have h2 : b ∈ O := h.subset (by simp)
      have hbx : b ≠ a := by rintro rfl; exact hn'.1 h2
      exact (List.singleton_sublist.2 ((List.mem_cons.1 hb).resolve_left hbx)).cons_cons _

/-- What an action adds to the history. -/
structure Grow (st st' : State) (t : Nat) (op : Op) : Prop where
  grow : ∃ evs, st'.log = evs ++ st.log ∧ (st'.leaks = st.leaks ∨ ∃ e, Ev.throw e ∈ evs) ∧
    (∀ e, Ev.stop e ∈ evs → op = .stop ∧ ∃ th f rest, st.threads[t]? = some th ∧ th.user = true ∧
      th.frames = f :: rest ∧ f.id = e) ∧
    (∀ e, Ev.throw e ∈ evs → op = .throw ∧ ∃ th f rest, st.threads[t]? = some th ∧ th.user = true ∧
      th.frames = f :: rest ∧ f.id = e)

theorem Grow.of {st st' : State} {t : Nat} {op : Op} (evs : List Ev) (h1 : st'.log = evs ++ st.log)
    (h2 : st'.leaks = st.leaks) (h3 : ∀ ev ∈ evs, (∀ e, ev ≠ .stop e) ∧ ∀ e, ev ≠ .throw e) : Grow st st' t op :=
  ⟨evs, h1, .inl h2, fun e h => absurd rfl ((h3 _ h).1 e), fun e h => absurd rfl ((h3 _ h).2 e)⟩

theorem Grow.same {st st' : State} {t : Nat} {op : Op} (h1 : st'.log = st.log) (h2 : st'.leaks = st.leaks) :
    Grow st st' t op := Grow.of [] h1 h2 (by simp)

theorem startDisconnect_grow {st st' : State} {t : Nat} {th : Thread} {s : Nat} {op : Op}
    (h : startDisconnect st t th s = .ok st') : Grow st st' t op := by
  unfold startDisconnect at h
  cases ho : deref st.heap s with
  | none => rw [ho] at h; cases h
  | some o =>
    rw [ho] at h
    simp only [orUb] at h
    split at h
    · cases h; exact Grow.same rfl rfl
    · cases h; exact Grow.of [.disc s] rfl rfl (by simp)

theorem orUb_ok {α : Type} {x : Option α} {k : α → Out} {st : State} (h : orUb x k = .ok st) :
    ∃ a, x = some a ∧ k a = .ok st := by
  cases x with
  | none => cases h
  | some a => exact ⟨a, rfl, h⟩

theorem stepUser_grow {st st' : State} {t : Nat} {th : Thread} {op : Op} (ht : st.threads[t]? = some th)
    (hu : th.user = true) (h : stepUser st t th op = .ok st') : Grow st st' t op := by
  cases op <;> simp only [stepUser] at h
  case newSig => cases h; exact Grow.same rfl rfl
  case delSig g =>
    split at h
    · cases h
    · obtain ⟨r, -, h⟩ := orUb_ok h
      cases h
      exact Grow.of (r.2.2.reverse.map Ev.disc) rfl rfl (by simp +contextual)
  case connect g pos =>
    split at h
    · cases h
    · obtain ⟨r, -, h⟩ := orUb_ok h
      obtain ⟨r', -, h⟩ := orUb_ok h
      cases h
      exact Grow.of [.connect st.nslots g pos] rfl rfl (by simp)
  case emptyConn => cases h; exact Grow.same rfl rfl
  case copy c =>
    split at h
    · cases h
    · obtain ⟨r, -, h⟩ := orUb_ok h
      cases h; exact Grow.same rfl rfl
  case assign a b =>
    split at h
    · split at h
      · cases h; exact Grow.same rfl rfl
      · split at h
        · cases h
        · obtain ⟨r, -, h⟩ := orUb_ok h
          obtain ⟨r', -, h⟩ := orUb_ok h
          cases h; exact Grow.same rfl rfl
    · cases h
  case move c =>
    split at h
    · cases h
    · cases h; exact Grow.same rfl rfl
  case swapH a b =>
    split at h
    · split at h
      · cases h; exact Grow.same rfl rfl
      · cases h
    · cases h
  case toScoped c =>
    split at h
    · cases h
    · split at h
      · cases h
      · cases h; exact Grow.same rfl rfl
  case toPlain c =>
    split at h
    · cases h
    · split at h
      · cases h; exact Grow.same rfl rfl
      · cases h
  case drop c =>
    split at h
    · cases h
    · split at h
      · cases h; exact Grow.same rfl rfl
      · split at h
        · exact ⟨(startDisconnect_grow (op := .drop c) h).grow⟩
        · cases h; exact Grow.same rfl rfl
  case disconnect c =>
    split at h
    · cases h
    · split at h
      · cases h; exact Grow.same rfl rfl
      · exact ⟨(startDisconnect_grow (op := .disconnect c) h).grow⟩
  case blk c =>
    split at h
    · cases h
    · split at h
      · cases h; exact Grow.same rfl rfl
      · rename_i s _
        obtain ⟨r, -, h⟩ := orUb_ok h
        obtain ⟨r', -, h⟩ := orUb_ok h
        cases h; exact Grow.of [.blk s] rfl rfl (by simp)
  case blkCopy b =>
    split at h
    · cases h
    · cases h; exact Grow.same rfl rfl
    · rename_i s _
      obtain ⟨r, -, h⟩ := orUb_ok h
      obtain ⟨r', -, h⟩ := orUb_ok h
      cases h; exact Grow.of [.blk s] rfl rfl (by simp)
  case blkAssign a b =>
    split at h
    · rename_i x y _ _
      split at h
      · cases h; exact Grow.same rfl rfl
      · obtain ⟨r, -, h⟩ := orUb_ok h
        obtain ⟨r', -, h⟩ := orUb_ok h
        cases h
        refine Grow.of (y.toList.map Ev.blk ++ x.toList.map Ev.unblk) (by simp) rfl ?_
        intro ev hev
        rcases List.mem_append.1 hev with hev | hev
        · obtain ⟨s, -, rfl⟩ := List.mem_map.1 hev; simp
        · obtain ⟨s, -, rfl⟩ := List.mem_map.1 hev; simp
    · cases h
  case blkMove b =>
    split at h
    · cases h
    · cases h; exact Grow.same rfl rfl
  case blkSwap a b =>
    split at h
    · cases h; exact Grow.same rfl rfl
    · cases h
  case blkDrop b =>
    split at h
    · cases h
    · cases h; exact Grow.same rfl rfl
    · rename_i s _
      obtain ⟨r, -, h⟩ := orUb_ok h
      cases h; exact Grow.of [.unblk s] rfl rfl (by simp)
  case discAll g =>
    split at h
    · cases h
    · obtain ⟨r, -, h⟩ := orUb_ok h
      cases h
      exact Grow.of (r.2.2.reverse.map Ev.disc) rfl rfl (by simp +contextual)
  case swap g g' =>
    split at h
    · cases h
    · split at h
      · cases h; exact Grow.same rfl rfl
      · split at h
        · cases h
        · obtain ⟨r, -, h⟩ := orUb_ok h
          obtain ⟨r', -, h⟩ := orUb_ok h
          cases h; exact Grow.of [.swap g g'] rfl rfl (by simp)
  case moveSig g =>
    split at h
    · cases h
    · split at h
      · cases h
      · obtain ⟨r, -, h⟩ := orUb_ok h
        cases h; exact Grow.of [.move g st.nsigs] rfl rfl (by simp)
  case emit g =>
    split at h
    · cases h
    · obtain ⟨r, -, h⟩ := orUb_ok h
      obtain ⟨r', -, h⟩ := orUb_ok h
      cases h; exact Grow.of [.begin st.nem g] rfl rfl (by simp)
  case ret =>
    split at h
    · cases h
    · cases h; exact Grow.same rfl rfl
  case throw =>
    split at h
    · cases h
    · rename_i f rest hf
      cases h
      refine ⟨[.throw f.id], rfl, .inr ⟨f.id, by simp⟩, by simp, fun e he => ?_⟩
      have : e = f.id := by simpa using he
      exact ⟨rfl, th, f, rest, ht, hu, hf, this.symm⟩
  case stop =>
    cases h
    cases hf : th.frames with
    | nil =>
      refine Grow.same ?_ rfl
      rfl
    | cons f rest =>
      refine ⟨[.stop f.id], rfl, .inl rfl, fun e he => ?_, by simp⟩
      have : e = f.id := by simpa using he
      exact ⟨rfl, th, f, rest, ht, hu, hf, this.symm⟩
  case current =>
    obtain ⟨r, -, h⟩ := orUb_ok h
    cases h; exact Grow.same rfl rfl
  case cont => cases h

theorem stepFrame_grow {st st' : State} {t : Nat} {th : Thread} {f : Frame} {rest : List Frame} {op : Op}
    (h : stepFrame st t th f rest = .ok st') : Grow st st' t op := by
  unfold stepFrame at h
  split at h
  · cases h
  · split at h
    · cases h; exact Grow.same rfl rfl
    · rename_i c _
      obtain ⟨o, -, h⟩ := orUb_ok h
      split at h
      · cases h; exact Grow.of [.skipBlocked f.id c] rfl rfl (by simp)
      · cases h; exact Grow.of [.pass f.id c] rfl rfl (by simp)
  · split at h
    · cases h
    · rename_i c _
      obtain ⟨o, -, h⟩ := orUb_ok h
      split at h
      · cases h; exact Grow.of [.call f.id c] rfl rfl (by simp)
      · cases h; exact Grow.of [.skipInvalid f.id c] rfl rfl (by simp)
  · split at h
    · cases h
    · split at h
      · split at h
        · cases h
        · obtain ⟨o, -, h⟩ := orUb_ok h
          obtain ⟨o', -, h⟩ := orUb_ok h
          cases h; exact Grow.same rfl rfl
      · cases h; exact Grow.same rfl rfl
  · split at h
    · cases h
    · obtain ⟨o, -, h⟩ := orUb_ok h
      cases h; exact Grow.same rfl rfl
  · obtain ⟨o, -, h⟩ := orUb_ok h
    cases h; exact Grow.same rfl rfl
  · rename_i thr _
    simp only at h
    split at h
    · cases h
    · obtain ⟨o, -, h⟩ := orUb_ok h
      cases h; exact Grow.of [.end_ f.id thr] rfl rfl (by simp)

theorem stepPend_grow {st st' : State} {t : Nat} {th : Thread} {op : Op}
    (h : stepPend st t th = .ok st') : Grow st st' t op := by
  unfold stepPend at h
  split at h
  · cases h
  · obtain ⟨o, -, h⟩ := orUb_ok h
    cases h; exact Grow.same rfl rfl
  · simp only at h
    split at h
    · cases h
    · obtain ⟨o, -, h⟩ := orUb_ok h
      cases h; exact Grow.same rfl rfl

theorem step_grow {st st' : State} {t : Nat} {op : Op} (h : step st t op = .ok st') : Grow st st' t op := by
  unfold step at h
  cases ht : st.threads[t]? with
  | none => rw [ht] at h; cases h
  | some th =>
    rw [ht] at h
    simp only at h
    split at h
    · split at h
      · split at h
        · cases h
        · exact stepFrame_grow h
      · exact stepPend_grow h
    · split at h
      · exact stepUser_grow ht (by assumption) h
      · cases h

end Verif.Signal
