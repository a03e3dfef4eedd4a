/-
What arrives at the functions behind the slots of a signal.
-/
import Verif.Args.Frame

namespace Verif.Args

variable {V : Type}

/-- The parameters of an emission at a moment: they still have the values the emission began with. -/
structure Intact (P : Program V) (ms : List Mode) (vs : List V) (ls args : List Nat) (st : State V) : Prop where
  lenV : vs.length = ms.length
  lenL : ls.length = ms.length
  lenA : args.length = ms.length
  globals : P.globals ≤ st.next
  known : ∀ l ∈ args, l < st.next
  refs : ∀ (j : Nat) m, ms[j]? = some m → m ≠ .value → args[j]? = ls[j]?
  own : ∀ j c : Nat, ms[j]? = some .value → args[j]? = some c → P.globals ≤ c ∧ ∀ k : Nat, args[k]? = some c → j = k
  value : ∀ (j : Nat) v c, ms[j]? = some .value → vs[j]? = some v → args[j]? = some c → st.mem c = v
  const : ∀ (j : Nat) v l, ms[j]? = some .cref → vs[j]? = some v → ls[j]? = some l → Private P ms ls l → st.mem l = v

theorem Intact.step {P : Program V} {ms : List Mode} {vs : List V} {ls args : List Nat} {st st' : State V}
    (h : Intact P ms vs ls args st)
    (hk : Keeps P st st' (fun l => ∀ j : Nat, args[j]? = some l → ms[j]? ≠ some .lref)) :
    Intact P ms vs ls args st' := by
  refine ⟨h.lenV, h.lenL, h.lenA, Nat.le_trans h.globals hk.1, fun l hl => Nat.lt_of_lt_of_le (h.known l hl) hk.1,
    h.refs, h.own, ?_, ?_⟩
  · intro j v c hm hv hc
    have hc' := h.own j c hm hc
    rw [hk.2 c (h.known c (List.mem_of_getElem? hc)) hc'.1]
    · exact h.value j v c hm hv hc
    · intro k hk' hl
      rw [← hc'.2 k hk', hm] at hl
      cases hl
  · intro j v l hm hv hl hp
    have hl' := h.refs j _ hm nofun
    rw [hl] at hl'
    rw [hk.2 l (h.known l (List.mem_of_getElem? hl')) hp.1]
    · exact h.const j v l hm hv hl hp
    · intro k hk' hlr
      have := h.refs k _ hlr nofun
      rw [hk'] at this
      exact hp.2 k hlr this.symm

theorem movedOnce_name (ms : List Mode) (ls : List Nat) : MovedOnce (ms.map Mode.name) ms ls := by
  intro j k l _ _ hx hv
  exact absurd ⟨hx, hv⟩ (no_moves_name ms j)

/-- The parameters of `std::function::operator()`. -/
structure Copied (P : Program V) (ms : List Mode) (vs : List V) (ls : List Nat) (st st1 : State V)
    (own : List Nat) : Prop where
  next : st.next ≤ st1.next
  users : st1.users = st.users
  held : st1.held = st.held
  len : own.length = ms.length
  known : ∀ l ∈ own, l < st1.next
  noRref : ∀ j : Nat, ms[j]? ≠ some .rref
  distinct : ∀ j k c : Nat, ms[j]? = some .value → own[j]? = some c → own[k]? = some c → j = k
  old : ∀ (j : Nat) m c, ms[j]? = some m → m ≠ .value → own[j]? = some c → c < st.next
  passed : ∀ (j : Nat) m v l c, ms[j]? = some m → vs[j]? = some v → ls[j]? = some l → own[j]? = some c →
    (m = .value → st1.mem c = v ∧ st.next ≤ c) ∧ (m ≠ .value → c = l ∧ st1.mem c = st.mem l)

theorem copied {P : Program V} {ms : List Mode} {vs : List V} {ls args : List Nat} {st st1 : State V}
    {own : List Nat} (hI : Intact P ms vs ls args st)
    (hb : bindAll P.gone (ms.map Mode.name) ms args st = some (st1, own)) :
    Copied P ms vs ls st st1 own := by
  have hB := bindAll_bound hb
  have hV := bindAll_values hb (movedOnce_name _ _) hI.known
  have hD := bindAll_distinct hb hI.known
  have hlen : own.length = ms.length := by rw [hB.lenC]; simp
  have hold : ∀ (j : Nat) m c, ms[j]? = some m → m ≠ .value → own[j]? = some c → c < st.next := by
    intro j m c hm hv hc
    have := hB.refs j m hm hv
    rw [hc] at this
    exact hI.known c (List.mem_of_getElem? this.symm)
  refine ⟨hB.next, hB.users, hB.held, hlen, ?_, hB.no_rref, hD, hold, ?_⟩
  · intro c hc
    obtain ⟨j, hj⟩ := List.mem_iff_getElem?.mp hc
    obtain ⟨m, hm⟩ := getElem?_of_lt (hlen ▸ lt_of_getElem? hj)
    by_cases hv : m = .value
    · exact (hB.fresh j c (hv ▸ hm) hj).2
    · exact Nat.lt_of_lt_of_le (hold j m c hm hv hj) hB.next
  · intro j m v l c hm hv hl hc
    constructor
    · rintro rfl
      obtain ⟨a, ha⟩ := getElem?_of_lt (hI.lenA ▸ lt_of_getElem? hm)
      rw [hV.1 j a c hm ha hc]
      exact ⟨hI.value j v a hm hv ha, (hB.fresh j c hm hc).1⟩
    · intro hne
      have h1 := hB.refs j m hm hne
      rw [hc, hI.refs j m hm hne, hl] at h1
      cases h1
      refine ⟨rfl, hB.keeps l (hold j m l hm hne hc) fun k _ => no_moves_name ms k⟩

theorem forward_xvalue {ms : List Mode} {j : Nat} (h : (ms.map Mode.forward)[j]? = some .xvalue) :
    ms[j]? = some .value ∨ ms[j]? = some .rref := by
  simp only [List.getElem?_map, Option.map_eq_some_iff] at h
  obtain ⟨m, hm, h⟩ := h
  cases m <;> simp [Mode.forward] at h <;> simp [hm]

theorem Copied.movedOnce {P : Program V} {ms : List Mode} {vs : List V} {ls : List Nat} {st st1 : State V}
    {own : List Nat} (h : Copied P ms vs ls st st1 own) (ps : List Mode) :
    MovedOnce (ms.map Mode.forward) ps own := by
  intro j k c hj hk hx _
  rcases forward_xvalue hx with hm | hm
  · exact h.distinct j k c hm hj hk
  · exact absurd hm (h.noRref j)

/-- What a function called with the forwarded parameters gets. -/
theorem Copied.gets {P : Program V} {ms : List Mode} {vs : List V} {ls args : List Nat} {st st1 st1' st2 : State V}
    {own cells : List Nat} {ps : List Mode} (hI : Intact P ms vs ls args st)
    (h : Copied P ms vs ls st st1 own) (hn : st1'.next = st1.next) (hm : st1'.mem = st1.mem)
    (hb : bindAll P.gone (ms.map Mode.forward) ps own st1' = some (st2, cells)) :
    Gets P ms vs ls st ps cells (cells.map st2.mem) := by
  have hB := bindAll_bound hb
  have hknown : ∀ l ∈ own, l < st1'.next := by rw [hn]; exact h.known
  have hV := bindAll_values hb (h.movedOnce ps) hknown
  have hlp : ps.length = ms.length := by rw [hB.lenM]; simp
  have hlc : cells.length = ms.length := by rw [hB.lenC]; simp
  refine ⟨hlp, hlc, by simp [hlc], ?_⟩
  intro j m v l p c s hmj hvj hlj hpj hcj hsj
  simp only [List.getElem?_map, Option.map_eq_some_iff] at hsj
  obtain ⟨c', hc', rfl⟩ := hsj
  rw [hcj] at hc'; cases hc'
  obtain ⟨a, ha⟩ := getElem?_of_lt (h.len ▸ lt_of_getElem? hmj)
  have hp := h.passed j m v l a hmj hvj hlj ha
  have hbind := hB.binds j m.forward p (by simp [hmj]) hpj
  have hnext : st.next ≤ st1'.next := by rw [hn]; exact h.next
  -- the value of the argument when the function starts
  have hs : st2.mem c = st1.mem a := by
    by_cases hv : p = .value
    · subst hv
      rw [hV.1 j a c hpj ha hcj, hm]
    · have := hB.refs j p hpj hv
      rw [hcj, ha] at this
      cases this
      rw [hB.keeps c (hknown c (List.mem_of_getElem? ha)), hm]
      intro k hk
      rintro ⟨hx, hpk⟩
      rcases forward_xvalue hx with hmk | hmk
      · have := h.distinct k j c hmk hk ha
        subst this
        rw [hpj] at hpk
        cases hpk
        exact hv rfl
      · exact h.noRref k hmk
  have hcv : p = .value → st.next ≤ c := by
    rintro rfl
    exact Nat.le_trans hnext (hB.fresh j c hpj hcj).1
  have hcr : p ≠ .value → c = a := by
    intro hv
    have := hB.refs j p hpj hv
    rw [hcj, ha] at this
    cases this
    rfl
  refine ⟨?_, ?_, ?_, ?_, ?_, ?_, ?_⟩
  · intro e
    refine ⟨hs.trans (hp.1 e).1, ?_⟩
    by_cases hv : p = .value
    · exact hcv hv
    · rw [hcr hv]; exact (hp.1 e).2
  · intro e hv
    rw [hcr hv]; exact (hp.2 e).1
  · intro _ hv; exact hcv hv
  · intro e; exact hs.trans (hp.2 e).2
  · intro e hpr
    rw [hs, (hp.2 (e ▸ nofun)).2]
    exact hI.const j v l (e ▸ hmj) hvj hlj hpr
  · rintro rfl
    cases p <;> simp_all [binds, Mode.forward]
  · rintro rfl
    cases p <;> simp_all [binds, Mode.forward]

theorem callFn_ok {P : Program V} {n i : Nat} {o : Option Nat} {st₀ st st' : State V} {cs : List Cat}
    {own : List Nat} {ps : List Mode} {body : Body V} {evs : List (Event V)} {s : Bool}
    (h : callFn P n i o st₀ cs own ps body st = .ok st' evs s) :
    ∃ n' st2 cells sub, n = n' + 1 ∧ bindAll P.gone cs ps own st = some (st2, cells) ∧
      runBody P n' body ⟨cells, ps⟩ st2 = .ok st' sub s ∧
      evs = [.call i o st₀ cells (cells.map st2.mem) sub s] := by
  cases n with
  | zero => simp [callFn] at h
  | succ n =>
    simp only [callFn] at h
    split at h
    · cases h
    · rename_i st2 cells hb
      split at h
      · rename_i st3 evs3 s3 hr
        simp only [Out.ok.injEq] at h
        obtain ⟨rfl, rfl, rfl⟩ := h
        exact ⟨n, st2, cells, evs3, rfl, hb, hr, rfl⟩
      · rename_i o hne
        exact absurd h (hne _ _ _)

theorem delivers (P : Program V) : ∀ n,
    (∀ sig cs ls st st' evs s, emit P n sig cs ls st = .ok st' evs s → P.globals ≤ st.next →
      (∀ l ∈ ls, l < st.next) → MovedOnce cs (P.modes sig) ls →
      ∃ b, Delivers P (P.modes sig) (ls.map st.mem) ls 0 (P.slots sig) evs b) ∧
    (∀ ms vs ls args i ts st st' evs s, runSlots P n ms args i ts st = .ok st' evs s →
      Intact P ms vs ls args st → Delivers P ms vs ls i ts evs s) ∧
    (∀ ms vs ls args i t ts evs2 b st st' evs s, callSlot P n ms args i t st = .ok st' evs s →
      Intact P ms vs ls args st →
      (s = true → Delivers P ms vs ls i (t :: ts) evs true) ∧
      (s = false → Delivers P ms vs ls (i + 1) ts evs2 b → Delivers P ms vs ls i (t :: ts) (evs ++ evs2) b)) := by
  intro n
  induction n with
  | zero =>
    refine ⟨?_, ?_, ?_⟩
    · intro sig cs ls st st' evs s h; simp [emit] at h
    · intro ms vs ls args i ts st st' evs s h; simp [runSlots] at h
    · intro ms vs ls args i t ts evs2 b st st' evs s h; simp [callSlot] at h
  | succ n ih =>
    obtain ⟨ihE, ihS, ihC⟩ := ih
    refine ⟨?_, ?_, ?_⟩
    · intro sig cs ls st st' evs s h hg hl hmo
      simp only [emit] at h
      split at h
      · cases h
      · rename_i st1 args hb
        have hB := bindAll_bound hb
        have hV := bindAll_values hb hmo hl
        have hD := bindAll_distinct hb hl
        have hlen : ls.length = (P.modes sig).length := by rw [hB.lenL, hB.lenM]
        have hlenA : args.length = (P.modes sig).length := by rw [hB.lenC, hB.lenM]
        split at h
        · rename_i st2 evs2 s2 hs
          simp only [Out.ok.injEq] at h
          obtain ⟨rfl, rfl, rfl⟩ := h
          refine ⟨s2, ihS _ _ ls _ _ _ _ _ _ _ hs ⟨by simp [hlen], hlen, hlenA, Nat.le_trans hg hB.next, ?_,
            hB.refs, ?_, ?_, ?_⟩⟩
          · intro c hc
            obtain ⟨j, hj⟩ := List.mem_iff_getElem?.mp hc
            obtain ⟨m, hm⟩ := getElem?_of_lt (hlenA ▸ lt_of_getElem? hj)
            by_cases hv : m = .value
            · exact (hB.fresh j c (hv ▸ hm) hj).2
            · have := hB.refs j m hm hv
              rw [hj] at this
              exact Nat.lt_of_lt_of_le (hl c (List.mem_of_getElem? this.symm)) hB.next
          · intro j c hm hc
            exact ⟨Nat.le_trans hg (hB.fresh j c hm hc).1, fun k hk => hD j k c hm hc hk⟩
          · intro j v c hm hv hc
            simp only [List.getElem?_map, Option.map_eq_some_iff] at hv
            obtain ⟨l, hlj, rfl⟩ := hv
            exact hV.1 j l c hm hlj hc
          · intro j v l hm hv hlj _
            simp only [List.getElem?_map, Option.map_eq_some_iff] at hv
            obtain ⟨l', hlj', rfl⟩ := hv
            rw [hlj] at hlj'; cases hlj'
            refine hB.keeps l (hl l (List.mem_of_getElem? hlj)) fun k hk hmv => ?_
            have := hmo k j l hk hlj hmv.1 hmv.2
            subst this
            have := hmv.2
            rw [hm] at this; cases this
        · rename_i o hne
          exact absurd h (hne _ _ _)
    · intro ms vs ls args i ts st st' evs s h hI
      cases ts with
      | nil =>
        simp only [runSlots, Out.ok.injEq] at h
        obtain ⟨_, rfl, rfl⟩ := h
        exact .finished
      | cons t ts =>
        simp only [runSlots] at h
        split at h
        · rename_i st1 evs1 hc
          simp only [Out.ok.injEq] at h
          obtain ⟨_, rfl, rfl⟩ := h
          exact (ihC _ _ _ _ _ _ ts [] true _ _ _ _ hc hI).1 rfl
        · rename_i st1 evs1 hc
          obtain ⟨e, t', hb, rfl, rfl⟩ := after_ok h
          have hI' := hI.step ((frame P n).2.2.2.1 _ _ _ _ _ _ _ _ hc)

          exact (ihC _ _ _ _ _ _ ts e _ _ _ _ _ hc hI).2 rfl (ihS _ _ _ _ _ _ _ _ _ _ hb hI')
        · rename_i o hne hne'
          cases s with
          | true => exact absurd h (hne _ _)
          | false => exact absurd h (hne' _ _)
    · intro ms vs ls args i t ts evs2 b st st' evs s h hI
      simp only [callSlot] at h
      split at h
      · cases h
      · rename_i st1 own hb
        have hC := copied hI hb
        have halive : ∀ o, st1.alive o = st.alive o := by
          intro o; simp only [State.alive, hC.users, hC.held]
        have hfn : ∀ {o ps body st1' st2 evs s} {last : List (Event V)}, st1'.next = st1.next → st1'.mem = st1.mem →
            callFn P n i o st (ms.map Mode.forward) own ps body st1' = .ok st2 evs s →
            Runs st t o ps → (∀ e ∈ last, ∃ o, e = .died o) →
            (s = true → Delivers P ms vs ls i (t :: ts) (evs ++ last) true) ∧
            (s = false → Delivers P ms vs ls (i + 1) ts evs2 b →
              Delivers P ms vs ls i (t :: ts) (evs ++ last ++ evs2) b) := by
          intro o ps body st1' st2 evs s last hn hm h hr hlast
          obtain ⟨n', st3, cells, sub, _, hb2, _, rfl⟩ := callFn_ok h
          have hG := hC.gets hI hn hm hb2
          constructor
          · rintro rfl
            exact .stop hr hG hlast
          · rintro rfl hd
            simpa using .call (sub := sub) hr hG hlast hd
        have hfn' : ∀ {o ps body evs s st'},
            callFn P n i o st (ms.map Mode.forward) own ps body st1 = .ok st' evs s → Runs st t o ps →
            (s = true → Delivers P ms vs ls i (t :: ts) evs true) ∧
            (s = false → Delivers P ms vs ls (i + 1) ts evs2 b → Delivers P ms vs ls i (t :: ts) (evs ++ evs2) b) := by
          intro o ps body evs s st' h hr
          have := hfn (last := []) rfl rfl h hr (by simp)
          simpa using this
        cases t with
        | fn ps body => exact hfn' h .fn
        | raw o ps body =>
          simp only at h
          split at h
          · rename_i ha
            exact hfn' h (.raw (by rw [← halive]; exact ha))
          · cases h
        | shared o ps body =>
          simp only at h
          split at h
          · rename_i ha
            exact hfn' h (.shared (by rw [← halive]; exact ha))
          · cases h
        | weak o ps body =>
          simp only at h
          split at h
          · rename_i ha
            split at h
            · rename_i st2 evs2' s2 hc
              simp only [Out.ok.injEq] at h
              obtain ⟨_, rfl, rfl⟩ := h
              refine hfn (st1' := st1.lock o) (last := (st2.unlock o).2) rfl rfl hc
                (.weak (by rw [← halive]; exact ha)) ?_
              intro e he
              simp only [State.unlock] at he
              split at he
              · cases he
              · exact ⟨o, by simpa using he⟩
            · rename_i o hne
              exact absurd h (hne _ _ _)
          · rename_i ha
            simp only [Out.ok.injEq] at h
            obtain ⟨_, rfl, rfl⟩ := h
            refine ⟨nofun, fun _ hd => ?_⟩
            refine .expired ?_ hd
            rw [← halive]; simpa using ha
        | forward sig =>
          simp only at h
          split at h
          · rename_i st2 evs2' s2 hc
            simp only [Out.ok.injEq] at h
            obtain ⟨_, rfl, rfl⟩ := h
            refine ⟨nofun, fun _ hd => ?_⟩
            obtain ⟨b', hb'⟩ := ihE _ _ _ _ _ _ _ hc (Nat.le_trans hI.globals hC.next) hC.known (hC.movedOnce _)
            refine .forward ⟨by simp [hC.len], hC.len, ?_⟩ hb' hd
            intro j m v l v' l' hm hv hl hv' hl'
            simp only [List.getElem?_map, Option.map_eq_some_iff] at hv'
            obtain ⟨c, hc, rfl⟩ := hv'
            rw [hl'] at hc; cases hc
            have := hC.passed j m v l l' hm hv hl hl'
            exact ⟨this.1, fun e => ⟨(this.2 e).2, (this.2 e).1⟩⟩
          · rename_i o hne
            exact absurd h (hne _ _ _)

end Verif.Args
