/-
Runs change only the objects they can reach: an object that is not global and that a function
or an emission has as a constant (or has a copy of) keeps its value.
-/
import Verif.Args.Bind

namespace Verif.Args

variable {V : Type}

/-- The argument cannot be changed through its parameter. -/
def Quiet (cs : List Cat) (ms : List Mode) (j : Nat) : Prop :=
  cs[j]? = some .clvalue ∨ ms[j]? = some .cref ∨ (ms[j]? = some .value ∧ cs[j]? ≠ some .xvalue)

/-- What a run keeps. -/
def Keeps (P : Program V) (st st' : State V) (R : Nat → Prop) : Prop :=
  st.next ≤ st'.next ∧ ∀ l, l < st.next → P.globals ≤ l → R l → st'.mem l = st.mem l

theorem Keeps.trans {P : Program V} {a b c : State V} {R S : Nat → Prop} (h : Keeps P a b R)
    (h' : Keeps P b c S) (hRS : ∀ l, l < a.next → P.globals ≤ l → R l → S l) : Keeps P a c R :=
  ⟨Nat.le_trans h.1 h'.1, fun l hl hg hr => by
    rw [h'.2 l (Nat.lt_of_lt_of_le hl h.1) hg (hRS l hl hg hr), h.2 l hl hg hr]⟩

theorem Keeps.of_mem {P : Program V} {a b : State V} {R : Nat → Prop} (hn : a.next ≤ b.next)
    (hm : ∀ l, l < a.next → P.globals ≤ l → R l → b.mem l = a.mem l) : Keeps P a b R := ⟨hn, hm⟩

theorem evalArgs_spec {g : Nat} {f : Frame} : ∀ {es : List (Expr V)} {st st' : State V} {cs : List Cat}
    {ls : List Nat}, evalArgs g f es st = some (st', cs, ls) →
    st.next ≤ st'.next ∧ st'.users = st.users ∧ st'.held = st.held ∧
    (∀ l, l < st.next → st'.mem l = st.mem l) ∧ cs.length = ls.length ∧
    (∀ (j l : Nat), ls[j]? = some l → l < st.next → g ≤ l →
      (∀ i : Nat, f.cells[i]? = some l → f.modes[i]? = some .cref) → cs[j]? = some .clvalue) ∧
    ((∀ l ∈ f.cells, l < st.next) → g ≤ st.next → ∀ l ∈ ls, l < st'.next)
  | [], st, st', cs, ls, h => by
    simp only [evalArgs, Option.some.injEq, Prod.mk.injEq] at h
    obtain ⟨rfl, rfl, rfl⟩ := h
    simp
  | e :: es, st, st', cs, ls, h => by
    simp only [evalArgs] at h
    split at h
    · cases h
    · rename_i st1 c l0 h1
      split at h
      · cases h
      · rename_i st2 cs2 ls2 h2
        simp only [Option.some.injEq, Prod.mk.injEq] at h
        obtain ⟨rfl, rfl, rfl⟩ := h
        obtain ⟨i1, i2, i3, i4, i5, i6, i7⟩ := evalArgs_spec h2
        have hfirst : st.next ≤ st1.next ∧ st1.users = st.users ∧ st1.held = st.held ∧
            (∀ l, l < st.next → st1.mem l = st.mem l) ∧
            (l0 < st.next → g ≤ l0 → (∀ i : Nat, f.cells[i]? = some l0 → f.modes[i]? = some .cref) → c = .clvalue) ∧
            ((∀ l ∈ f.cells, l < st.next) → g ≤ st.next → l0 < st1.next) := by
          have hobj : ∀ r, f.cell g r = some l0 →
              (l0 < st.next → g ≤ l0 → (∀ i : Nat, f.cells[i]? = some l0 → f.modes[i]? = some .cref) →
                f.cat r = .clvalue) ∧
              ((∀ l ∈ f.cells, l < st.next) → g ≤ st.next → l0 < st.next) := by
            intro r hr
            cases r with
            | param i =>
              simp only [Frame.cell] at hr
              refine ⟨fun _ _ hc => ?_, fun hc _ => hc l0 (List.mem_of_getElem? hr)⟩
              simp only [Frame.cat, hc i hr, Mode.name]
            | global k =>
              simp only [Frame.cell] at hr
              split at hr
              · simp only [Option.some.injEq] at hr
                subst hr
                exact ⟨fun _ h _ => by omega, fun _ h => by omega⟩
              · cases hr
          cases e with
          | obj r =>
            simp only [Option.map_eq_some_iff, Prod.mk.injEq] at h1
            obtain ⟨a, ha, rfl, rfl, rfl⟩ := h1
            exact ⟨Nat.le_refl _, rfl, rfl, fun _ _ => rfl, (hobj r ha).1, (hobj r ha).2⟩
          | move r =>
            simp only [Option.map_eq_some_iff, Prod.mk.injEq] at h1
            obtain ⟨a, ha, rfl, rfl, rfl⟩ := h1
            refine ⟨Nat.le_refl _, rfl, rfl, fun _ _ => rfl, fun x y z => ?_, (hobj r ha).2⟩
            rw [(hobj r ha).1 x y z]; rfl
          | fresh v =>
            simp only [Option.some.injEq, Prod.mk.injEq] at h1
            obtain ⟨rfl, rfl, rfl⟩ := h1
            refine ⟨Nat.le_succ _, rfl, rfl, fun l hl => alloc_old _ _ hl, fun h => ?_, fun _ _ => Nat.lt_succ_self _⟩
            exact absurd h (Nat.lt_irrefl _)
        obtain ⟨f1, f2, f3, f4, f5, f6⟩ := hfirst
        refine ⟨Nat.le_trans f1 i1, i2.trans f2, i3.trans f3, ?_, by simp [i5], ?_, ?_⟩
        · intro l hl
          rw [i4 l (Nat.lt_of_lt_of_le hl f1), f4 l hl]
        · intro j l hj hl hg hc
          cases j with
          | zero => simp at hj ⊢; subst hj; exact f5 hl hg hc
          | succ j => simp at hj ⊢; exact i6 j l hj (Nat.lt_of_lt_of_le hl f1) hg hc
        · intro hc hg l hl
          rcases List.mem_cons.mp hl with rfl | hl
          · exact Nat.lt_of_lt_of_le (f6 hc hg) i1
          · exact i7 (fun l hl => Nat.lt_of_lt_of_le (hc l hl) f1) (Nat.le_trans hg f1) l hl

theorem after_ok {evs : List (Event V)} {s : Bool} {o : Out V} {st : State V} {evs' : List (Event V)} {s' : Bool}
    (h : o.after evs s = .ok st evs' s') :
    ∃ e t, o = .ok st e t ∧ evs' = evs ++ e ∧ s' = (s || t) := by
  cases o with
  | ok st1 e t =>
    simp only [Out.after, Out.ok.injEq] at h
    obtain ⟨rfl, rfl, rfl⟩ := h
    exact ⟨e, t, rfl, rfl, rfl⟩
  | illFormed => simp [Out.after] at h
  | ub => simp [Out.after] at h
  | timeout => simp [Out.after] at h

theorem name_not_xvalue (m : Mode) : m.name ≠ .xvalue := by cases m <;> simp [Mode.name]

theorem no_moves_name (ms : List Mode) (j : Nat) : ¬ Moves (ms.map Mode.name) ms j := by
  rintro ⟨h, _⟩
  simp only [List.getElem?_map, Option.map_eq_some_iff] at h
  obtain ⟨m, _, h⟩ := h
  exact name_not_xvalue m h

theorem getElem?_of_lt {α : Type} {l : List α} {j : Nat} (h : j < l.length) : ∃ a, l[j]? = some a :=
  ⟨l[j], by simp [h]⟩

theorem lt_of_getElem? {α : Type} {l : List α} {j : Nat} {a : α} (h : l[j]? = some a) : j < l.length :=
  (List.getElem?_eq_some_iff.mp h).1

/-- A signal with slots has no parameter declared `T&&`: naming it gives no `T&&`. -/
theorem Bound.no_rref {ms : List Mode} {ls : List Nat} {st st' : State V} {cells : List Nat}
    (h : Bound (ms.map Mode.name) ms ls st st' cells) (j : Nat) : ms[j]? ≠ some .rref := by
  intro e
  have := h.binds j _ _ (by simp [e]; rfl) e
  cases this

theorem frame (P : Program V) : ∀ n,
    (∀ b f st st' evs s, runBody P n b f st = .ok st' evs s →
      Keeps P st st' (fun l => ∀ j : Nat, f.cells[j]? = some l → f.modes[j]? = some .cref)) ∧
    (∀ sig cs ls st st' evs s, emit P n sig cs ls st = .ok st' evs s →
      Keeps P st st' (fun l => ∀ j : Nat, ls[j]? = some l → Quiet cs (P.modes sig) j)) ∧
    (∀ ms args i ts st st' evs s, runSlots P n ms args i ts st = .ok st' evs s →
      Keeps P st st' (fun l => ∀ j : Nat, args[j]? = some l → ms[j]? ≠ some .lref)) ∧
    (∀ ms args i t st st' evs s, callSlot P n ms args i t st = .ok st' evs s →
      Keeps P st st' (fun l => ∀ j : Nat, args[j]? = some l → ms[j]? ≠ some .lref)) ∧
    (∀ i o st₀ cs own ps body st st' evs s, callFn P n i o st₀ cs own ps body st = .ok st' evs s →
      Keeps P st st' (fun l => ∀ j : Nat, own[j]? = some l → Quiet cs ps j)) := by
  intro n
  induction n with
  | zero =>
    refine ⟨?_, ?_, ?_, ?_, ?_⟩ <;> intros <;> rename_i h <;>
      simp [runBody, emit, runSlots, callSlot, callFn] at h
  | succ n ih =>
    obtain ⟨ihB, ihE, ihS, ihC, ihF⟩ := ih
    refine ⟨?_, ?_, ?_, ?_, ?_⟩
    -- bodies
    · intro b f st st' evs s h
      have hwrite : ∀ r l v, f.cell P.globals r = some l →
          Keeps P st (if f.cat r = .clvalue then st else st.set l v)
            (fun l => ∀ j : Nat, f.cells[j]? = some l → f.modes[j]? = some .cref) := by
        intro r l v hr
        split
        · exact .of_mem (Nat.le_refl _) fun _ _ _ _ => rfl
        · rename_i hc
          refine .of_mem (Nat.le_refl _) fun k _ hg hk => set_other _ _ _ ?_
          rintro rfl
          cases r with
          | param i =>
            simp only [Frame.cell] at hr
            exact hc (by simp only [Frame.cat, hk i hr, Mode.name])
          | global g =>
            simp only [Frame.cell] at hr
            split at hr
            · simp only [Option.some.injEq] at hr; omega
            · cases hr
      cases b with
      | done =>
        simp only [runBody, Out.ok.injEq] at h
        obtain ⟨rfl, _, _⟩ := h
        exact .of_mem (Nat.le_refl _) fun _ _ _ _ => rfl
      | read r k =>
        simp only [runBody] at h
        split at h
        · cases h
        · exact ihB _ _ _ _ _ _ h
      | write r v k =>
        simp only [runBody] at h
        split at h
        · cases h
        · rename_i l hr
          exact (hwrite r l v hr).trans (ihB _ _ _ _ _ _ h) fun _ _ _ h => h
      | take r k =>
        simp only [runBody] at h
        split at h
        · cases h
        · rename_i l hr
          exact (hwrite r l _ hr).trans (ihB _ _ _ _ _ _ h) fun _ _ _ h => h
      | emit sig args k =>
        simp only [runBody] at h
        split at h
        · cases h
        · rename_i st1 cs ls he
          obtain ⟨e1, e2, e3, e4, e5, e6, e7⟩ := evalArgs_spec he
          split at h
          · rename_i st2 evs2 s2 hem
            obtain ⟨e, t, hb, _, _⟩ := after_ok h
            have h1 : Keeps P st st1 (fun l => ∀ j : Nat, f.cells[j]? = some l → f.modes[j]? = some .cref) :=
              .of_mem e1 fun l hl _ _ => e4 l hl
            have h12 := (h1.trans (ihE _ _ _ _ _ _ _ hem)
              (fun l hl hg hr j hj => .inl (e6 j l hj hl hg hr)))
            exact h12.trans (ihB _ _ _ _ _ _ hb) fun _ _ _ h => h
          · rename_i o hne
            exact absurd h (hne _ _ _)
      | stop k =>
        simp only [runBody] at h
        obtain ⟨e, t, hb, _, _⟩ := after_ok h
        exact ihB _ _ _ _ _ _ hb
      | share o k =>
        simp only [runBody] at h
        refine Keeps.trans (b := if st.alive o = true then _ else st) ?_ (ihB _ _ _ _ _ _ h) fun _ _ _ h => h
        split <;> exact .of_mem (Nat.le_refl _) fun _ _ _ _ => rfl
      | drop o k =>
        simp only [runBody] at h
        obtain ⟨e, t, hb, _, _⟩ := after_ok h
        refine Keeps.trans ?_ (ihB _ _ _ _ _ _ hb) fun _ _ _ h => h
        simp only [State.dropUser]
        split <;> exact .of_mem (Nat.le_refl _) fun _ _ _ _ => rfl
    -- emissions
    · intro sig cs ls st st' evs s h
      simp only [emit] at h
      split at h
      · cases h
      · rename_i st1 args hb
        have hB := bindAll_bound hb
        split at h
        · rename_i st2 evs2 s2 hs
          simp only [Out.ok.injEq] at h
          obtain ⟨rfl, rfl, rfl⟩ := h
          have h1 : Keeps P st st1 (fun l => ∀ j : Nat, ls[j]? = some l → Quiet cs (P.modes sig) j) := by
            refine .of_mem hB.next fun l hl _ hr => hB.keeps l hl fun j hj => ?_
            rintro ⟨hx, hv⟩
            rcases hr j hj with h | h | h
            · rw [hx] at h; cases h
            · rw [hv] at h; cases h
            · exact h.2 hx
          refine h1.trans (ihS _ _ _ _ _ _ _ _ hs) fun l hl hg hr j hj hlref => ?_
          have := hB.refs j _ hlref nofun
          rw [hj] at this
          rcases hr j this.symm with h | h | h
          · have := hB.binds j _ _ h hlref; cases this
          · rw [hlref] at h; cases h
          · rw [hlref] at h; cases h.1
        · rename_i o hne
          exact absurd h (hne _ _ _)
    -- the loop
    · intro ms args i ts st st' evs s h
      cases ts with
      | nil =>
        simp only [runSlots, Out.ok.injEq] at h
        obtain ⟨rfl, _, _⟩ := h
        exact .of_mem (Nat.le_refl _) fun _ _ _ _ => rfl
      | cons t ts =>
        simp only [runSlots] at h
        split at h
        · rename_i st1 evs1 hc
          simp only [Out.ok.injEq] at h
          obtain ⟨rfl, _, _⟩ := h
          exact ihC _ _ _ _ _ _ _ _ hc
        · rename_i st1 evs1 hc
          obtain ⟨e, t, hb, _, _⟩ := after_ok h
          exact (ihC _ _ _ _ _ _ _ _ hc).trans (ihS _ _ _ _ _ _ _ _ hb) fun _ _ _ h => h
        · rename_i o hne hne'
          cases s with
          | true => exact absurd h (hne _ _)
          | false => exact absurd h (hne' _ _)
    -- one slot
    · intro ms args i t st st' evs s h
      simp only [callSlot] at h
      split at h
      · cases h
      · rename_i st1 own hb
        have hB := bindAll_bound hb
        have h1 : Keeps P st st1 (fun l => ∀ j : Nat, args[j]? = some l → ms[j]? ≠ some .lref) :=
          .of_mem hB.next fun l hl _ _ => hB.keeps l hl fun j _ => no_moves_name ms j
        -- an old object among the arguments is a constant
        have hq : ∀ l, l < st.next → (∀ j : Nat, args[j]? = some l → ms[j]? ≠ some .lref) →
            ∀ j : Nat, own[j]? = some l → (ms.map Mode.forward)[j]? = some .clvalue := by
          intro l hl hr j hj
          have hlt : j < ms.length := by
            rw [hB.lenM, ← hB.lenC]; exact lt_of_getElem? hj
          obtain ⟨m, hm⟩ := getElem?_of_lt hlt
          cases m with
          | value => have := (hB.fresh j l hm hj).1; omega
          | cref => simp [hm, Mode.forward]
          | lref =>
            have := hB.refs j _ hm nofun
            rw [hj] at this
            exact absurd hm (hr j this.symm)
          | rref => exact absurd hm (hB.no_rref j)
        have hfn : ∀ {i o st₀ ps body st2 st' evs s}, st2.next = st1.next → st2.mem = st1.mem →
            callFn P n i o st₀ (ms.map Mode.forward) own ps body st2 = .ok st' evs s →
            Keeps P st st' (fun l => ∀ j : Nat, args[j]? = some l → ms[j]? ≠ some .lref) := by
          intro i o st₀ ps body st2 st' evs s hn hm h
          have h12 : Keeps P st st2 (fun l => ∀ j : Nat, args[j]? = some l → ms[j]? ≠ some .lref) :=
            .of_mem (by rw [hn]; exact hB.next) fun l a b c => by rw [hm]; exact h1.2 l a b c
          exact h12.trans (ihF _ _ _ _ _ _ _ _ _ _ _ h) fun l hl _ hr j hj => .inl (hq l hl hr j hj)
        cases t with
        | fn ps body => exact hfn rfl rfl h
        | raw o ps body =>
          simp only at h
          split at h
          · exact hfn rfl rfl h
          · cases h
        | shared o ps body =>
          simp only at h
          split at h
          · exact hfn rfl rfl h
          · cases h
        | weak o ps body =>
          simp only at h
          split at h
          · split at h
            · rename_i st2 evs2 s2 hc
              simp only [Out.ok.injEq] at h
              obtain ⟨rfl, _, _⟩ := h
              exact (hfn (st2 := st1.lock o) rfl rfl hc).trans
                (b := st2) (S := fun _ => True) (.of_mem (Nat.le_refl _) fun _ _ _ _ => rfl) fun _ _ _ _ => trivial
            · rename_i o hne
              exact absurd h (hne _ _ _)
          · simp only [Out.ok.injEq] at h
            obtain ⟨rfl, _, _⟩ := h
            exact h1
        | forward sig =>
          simp only at h
          split at h
          · rename_i st2 evs2 s2 hc
            simp only [Out.ok.injEq] at h
            obtain ⟨rfl, _, _⟩ := h
            exact h1.trans (ihE _ _ _ _ _ _ _ hc) fun l hl _ hr j hj => .inl (hq l hl hr j hj)
          · rename_i o hne
            exact absurd h (hne _ _ _)
    -- one function
    · intro i o st₀ cs own ps body st st' evs s h
      simp only [callFn] at h
      split at h
      · cases h
      · rename_i st1 cells hb
        have hB := bindAll_bound hb
        split at h
        · rename_i st2 evs2 s2 hr
          simp only [Out.ok.injEq] at h
          obtain ⟨rfl, _, _⟩ := h
          have h1 : Keeps P st st1 (fun l => ∀ j : Nat, own[j]? = some l → Quiet cs ps j) := by
            refine .of_mem hB.next fun l hl _ hr => hB.keeps l hl fun j hj => ?_
            rintro ⟨hx, hv⟩
            rcases hr j hj with h | h | h
            · rw [hx] at h; cases h
            · rw [hv] at h; cases h
            · exact h.2 hx
          refine h1.trans (ihB _ _ _ _ _ _ hr) fun l hl _ hq j hj => ?_
          simp only at hj ⊢
          have hlt : j < ps.length := by
            rw [hB.lenM, ← hB.lenC]; exact lt_of_getElem? hj
          obtain ⟨m, hm⟩ := getElem?_of_lt hlt
          by_cases hv : m = .value
          · subst hv
            have := (hB.fresh j l hm hj).1; omega
          · have := hB.refs j _ hm hv
            rw [hj] at this
            rcases hq j this.symm with h | h | h
            · have := hB.binds j _ _ h hm
              cases m with
              | cref => exact hm
              | value => exact absurd rfl hv
              | lref => cases this
              | rref => cases this
            · exact h
            · rw [hm] at h; simp at h; exact absurd h.1 hv
        · rename_i o hne
          exact absurd h (hne _ _ _)

end Verif.Args
