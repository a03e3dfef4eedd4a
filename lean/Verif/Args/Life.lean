/-
Objects behind slots: member functions run only on objects that live.
-/
import Verif.Args.Deliver

namespace Verif.Args

variable {V : Type}

theorem acts_append : ∀ (a b : List (Event V)), acts (a ++ b) = acts a ++ acts b
  | [], b => by simp [acts]
  | e :: a, b => by simp [acts, acts_append a b]

theorem Life.append {o : Nat} {a b c : Bool} {xs ys : List Act} (h : Life o a xs b) (h' : Life o b ys c) :
    Life o a (xs ++ ys) c := by
  induction h with
  | nil => exact h'
  | start _ ih => exact .start (ih h')
  | died _ ih => exact .died (ih h')
  | otherStart hp _ ih => exact .otherStart hp (ih h')
  | otherDied hp _ ih => exact .otherDied hp (ih h')

theorem Life.dead {o : Nat} {a b : Bool} {xs : List Act} (h : Life o a xs b) (ha : a = false) : b = false := by
  induction h with
  | nil => exact ha
  | start _ ih => cases ha
  | died _ ih => cases ha
  | otherStart _ _ ih => exact ih ha
  | otherDied _ _ ih => exact ih ha

/-- An object that lives at the end has not been destroyed. -/
theorem Life.not_died {o : Nat} {a b : Bool} {xs : List Act} (h : Life o a xs b) (hb : b = true) :
    Act.died o ∉ xs := by
  induction h with
  | nil => simp
  | start _ ih =>
    intro hm
    rcases List.mem_cons.mp hm with h | h
    · cases h
    · exact ih hb h
  | died h _ =>
    rw [h.dead rfl] at hb
    cases hb
  | otherStart _ _ ih =>
    intro hm
    rcases List.mem_cons.mp hm with h | h
    · cases h
    · exact ih hb h
  | otherDied hp _ ih =>
    intro hm
    rcases List.mem_cons.mp hm with h | h
    · cases h; exact hp rfl
    · exact ih hb h

theorem alive_of_held {st : State V} {o : Nat} (h : 0 < st.held o) : st.alive o = true := by
  simp only [State.alive, bne_iff_ne, ne_eq]; omega

theorem dropUser_life (st : State V) (o p : Nat) :
    Life p (st.alive p) (acts (st.dropUser o).2) ((st.dropUser o).1.alive p) ∧
    (st.dropUser o).1.held = st.held := by
  unfold State.dropUser
  split
  · exact ⟨by simp only [acts]; exact .nil, rfl⟩
  · rename_i hu
    refine ⟨?_, rfl⟩
    by_cases hp : p = o
    · subst hp
      have ha : st.alive p = true := by
        simp only [State.alive, bne_iff_ne, ne_eq]; omega
      rw [ha]
      simp only
      split
      · rename_i h
        rw [h]; simp only [acts]; exact .nil
      · rename_i h
        rw [Bool.not_eq_true] at h
        rw [h]; simp only [acts, Event.acts]
        exact .died .nil
    · have he : (State.alive { st with users := fun q => if q = o then st.users q - 1 else st.users q } p) = st.alive p := by
        simp [State.alive, hp]
      simp only
      rw [he]
      split
      · simp only [acts]; exact .nil
      · simp only [acts, Event.acts]
        exact .otherDied (fun e => hp e.symm) .nil

theorem unlock_life (st : State V) (o p : Nat) (h : 0 < st.held o) :
    Life p (st.alive p) (acts (st.unlock o).2) ((st.unlock o).1.alive p) := by
  unfold State.unlock
  by_cases hp : p = o
  · subst hp
    rw [alive_of_held h]
    simp only
    split
    · rename_i h
      rw [h]; simp only [acts]; exact .nil
    · rename_i h
      rw [Bool.not_eq_true] at h
      rw [h]; simp only [acts, Event.acts]
      exact .died .nil
  · have he : (State.alive { st with held := fun q => if q = o then st.held q - 1 else st.held q } p) = st.alive p := by
      simp [State.alive, hp]
    simp only
    rw [he]
    split
    · simp only [acts]; exact .nil
    · simp only [acts, Event.acts]
      exact .otherDied (fun e => hp e.symm) .nil

/-- What a run does to objects. -/
def Lived (st st' : State V) (evs : List (Event V)) : Prop :=
  st'.held = st.held ∧ ∀ p, Life p (st.alive p) (acts evs) (st'.alive p)

theorem Lived.nil {st st' : State V} (hh : st'.held = st.held) (ha : ∀ p, st'.alive p = st.alive p) :
    Lived st st' [] := ⟨hh, fun p => by rw [ha p]; simp only [acts]; exact .nil⟩

theorem Lived.trans {a b c : State V} {xs ys : List (Event V)} (h : Lived a b xs) (h' : Lived b c ys) :
    Lived a c (xs ++ ys) :=
  ⟨h'.1.trans h.1, fun p => by rw [acts_append]; exact (h.2 p).append (h'.2 p)⟩

theorem Bound.lived {cs : List Cat} {ms : List Mode} {ls : List Nat} {st st' : State V} {cells : List Nat}
    (h : Bound cs ms ls st st' cells) : Lived st st' [] :=
  .nil h.held fun p => by simp only [State.alive, h.users, h.held]

theorem lock_alive (st : State V) (o p : Nat) (h : st.alive o = true) : (st.lock o).alive p = st.alive p := by
  by_cases hp : p = o
  · subst hp
    rw [h]
    exact alive_of_held (by simp [State.lock])
  · simp [State.alive, State.lock, hp]

theorem lives (P : Program V) : ∀ n,
    (∀ b f st st' evs s, runBody P n b f st = .ok st' evs s → Lived st st' evs) ∧
    (∀ sig cs ls st st' evs s, emit P n sig cs ls st = .ok st' evs s → Lived st st' evs) ∧
    (∀ ms args i ts st st' evs s, runSlots P n ms args i ts st = .ok st' evs s → Lived st st' evs) ∧
    (∀ ms args i t st st' evs s, callSlot P n ms args i t st = .ok st' evs s → Lived st st' evs) ∧
    (∀ i o st₀ cs own ps body st st' evs s, callFn P n i o st₀ cs own ps body st = .ok st' evs s →
      (∀ p, o = some p → st.alive p = true) → Lived st st' evs) := by
  intro n
  induction n with
  | zero =>
    refine ⟨?_, ?_, ?_, ?_, ?_⟩
    · intro b f st st' evs s h; simp [runBody] at h
    · intro sig cs ls st st' evs s h; simp [emit] at h
    · intro ms args i ts st st' evs s h; simp [runSlots] at h
    · intro ms args i t st st' evs s h; simp [callSlot] at h
    · intro i o st₀ cs own ps body st st' evs s h; simp [callFn] at h
  | succ n ih =>
    obtain ⟨ihB, ihE, ihS, ihC, ihF⟩ := ih
    refine ⟨?_, ?_, ?_, ?_, ?_⟩
    · intro b f st st' evs s h
      cases b with
      | done =>
        simp only [runBody, Out.ok.injEq] at h
        obtain ⟨rfl, rfl, _⟩ := h
        exact .nil rfl fun _ => rfl
      | read r k =>
        simp only [runBody] at h
        split at h
        · cases h
        · exact ihB _ _ _ _ _ _ h
      | write r v k =>
        simp only [runBody] at h
        split at h
        · cases h
        · refine Lived.trans (xs := []) (b := if f.cat r = .clvalue then st else _) ?_ (ihB _ _ _ _ _ _ h)
          split <;> exact .nil rfl fun _ => rfl
      | take r k =>
        simp only [runBody] at h
        split at h
        · cases h
        · refine Lived.trans (xs := []) (b := if f.cat r = .clvalue then st else _) ?_ (ihB _ _ _ _ _ _ h)
          split <;> exact .nil rfl fun _ => rfl
      | emit sig args k =>
        simp only [runBody] at h
        split at h
        · cases h
        · rename_i st1 cs ls he
          obtain ⟨e1, e2, e3, e4, e5, e6, e7⟩ := evalArgs_spec he
          split at h
          · rename_i st2 evs2 s2 hem
            obtain ⟨e, t, hb, rfl, _⟩ := after_ok h
            have h1 : Lived st st1 [] := .nil e3 fun p => by simp only [State.alive, e2, e3]
            exact (h1.trans (ihE _ _ _ _ _ _ _ hem)).trans (ihB _ _ _ _ _ _ hb)
          · rename_i o hne
            exact absurd h (hne _ _ _)
      | stop k =>
        simp only [runBody] at h
        obtain ⟨e, t, hb, rfl, _⟩ := after_ok h
        exact ihB _ _ _ _ _ _ hb
      | share o k =>
        simp only [runBody] at h
        refine Lived.trans (xs := []) (b := if st.alive o = true then _ else st) ?_ (ihB _ _ _ _ _ _ h)
        split
        · rename_i ha
          refine .nil rfl fun p => ?_
          by_cases hp : p = o
          · subst hp
            rw [ha]; simp only [State.alive, if_pos, bne_iff_ne, ne_eq]; omega
          · simp [State.alive, hp]
        · exact .nil rfl fun _ => rfl
      | drop o k =>
        simp only [runBody] at h
        obtain ⟨e, t, hb, rfl, _⟩ := after_ok h
        exact Lived.trans ⟨(dropUser_life st o o).2, fun p => (dropUser_life st o p).1⟩ (ihB _ _ _ _ _ _ hb)
    · intro sig cs ls st st' evs s h
      simp only [emit] at h
      split at h
      · cases h
      · rename_i st1 args hb
        split at h
        · rename_i st2 evs2 s2 hs
          simp only [Out.ok.injEq] at h
          obtain ⟨rfl, rfl, rfl⟩ := h
          exact (bindAll_bound hb).lived.trans (ihS _ _ _ _ _ _ _ _ hs)
        · rename_i o hne
          exact absurd h (hne _ _ _)
    · intro ms args i ts st st' evs s h
      cases ts with
      | nil =>
        simp only [runSlots, Out.ok.injEq] at h
        obtain ⟨rfl, rfl, _⟩ := h
        exact .nil rfl fun _ => rfl
      | cons t ts =>
        simp only [runSlots] at h
        split at h
        · rename_i st1 evs1 hc
          simp only [Out.ok.injEq] at h
          obtain ⟨rfl, rfl, _⟩ := h
          exact ihC _ _ _ _ _ _ _ _ hc
        · rename_i st1 evs1 hc
          obtain ⟨e, t, hb, rfl, _⟩ := after_ok h
          exact (ihC _ _ _ _ _ _ _ _ hc).trans (ihS _ _ _ _ _ _ _ _ hb)
        · rename_i o hne hne'
          cases s with
          | true => exact absurd h (hne _ _)
          | false => exact absurd h (hne' _ _)
    · intro ms args i t st st' evs s h
      simp only [callSlot] at h
      split at h
      · cases h
      · rename_i st1 own hb
        have h1 := (bindAll_bound hb).lived
        cases t with
        | fn ps body => exact h1.trans (ihF _ _ _ _ _ _ _ _ _ _ _ h nofun)
        | raw o ps body =>
          simp only at h
          split at h
          · rename_i ha
            exact h1.trans (ihF _ _ _ _ _ _ _ _ _ _ _ h (by rintro p ⟨⟩; exact ha))
          · cases h
        | shared o ps body =>
          simp only at h
          split at h
          · rename_i ha
            exact h1.trans (ihF _ _ _ _ _ _ _ _ _ _ _ h (by rintro p ⟨⟩; exact ha))
          · cases h
        | weak o ps body =>
          simp only at h
          split at h
          · rename_i ha
            split at h
            · rename_i st2 evs2' s2 hc
              simp only [Out.ok.injEq] at h
              obtain ⟨rfl, rfl, rfl⟩ := h
              have hF := ihF _ _ _ _ _ _ _ _ _ _ _ hc (by
                rintro p ⟨⟩; rw [lock_alive _ _ _ ha]; exact ha)
              have hheld : 0 < st2.held o := by rw [hF.1]; simp [State.lock]
              refine Lived.trans (a := st) (b := st1) (xs := []) h1 ?_
              constructor
              · funext p
                simp only [State.unlock, hF.1, State.lock]
                split <;> simp
              · intro p
                show Life p _ (acts (evs2' ++ (st2.unlock o).2)) _
                rw [acts_append, ← lock_alive st1 o p ha]
                exact (hF.2 p).append (unlock_life st2 o p hheld)
            · rename_i o hne
              exact absurd h (hne _ _ _)
          · simp only [Out.ok.injEq] at h
            obtain ⟨rfl, rfl, rfl⟩ := h
            exact ⟨h1.1, fun p => by
              have := h1.2 p
              simpa [acts, Event.acts] using this⟩
        | forward sig =>
          simp only at h
          split at h
          · rename_i st2 evs2' s2 hc
            simp only [Out.ok.injEq] at h
            obtain ⟨rfl, rfl, rfl⟩ := h
            have h2 := h1.trans (ihE _ _ _ _ _ _ _ hc)
            exact ⟨h2.1, fun p => by
              have := h2.2 p
              simpa [acts, Event.acts] using this⟩
          · rename_i o hne
            exact absurd h (hne _ _ _)
    · intro i o st₀ cs own ps body st st' evs s h ho
      simp only [callFn] at h
      split at h
      · cases h
      · rename_i st1 cells hb
        have h1 := (bindAll_bound hb).lived
        split at h
        · rename_i st2 evs2 s2 hr
          simp only [Out.ok.injEq] at h
          obtain ⟨rfl, rfl, _⟩ := h
          have h2 := h1.trans (ihB _ _ _ _ _ _ hr)
          refine ⟨h2.1, fun p => ?_⟩
          have h3 := h2.2 p
          cases o with
          | none => simpa [acts, Event.acts] using h3
          | some q =>
            have : acts [Event.call i (some q) st₀ cells (cells.map st1.mem) evs2 s2] =
                .start q :: acts evs2 := by simp [acts, Event.acts]
            rw [this]
            simp only [List.nil_append] at h3
            by_cases hp : q = p
            · subst hp
              rw [ho q rfl] at h3 ⊢
              exact .start h3
            · exact .otherStart hp h3
        · rename_i o hne
          exact absurd h (hne _ _ _)

theorem kept_append (K : Nat → Prop) : ∀ (a b : List (Event V)), Kept K a → Kept K b → Kept K (a ++ b)
  | [], _, _, hb => hb
  | _ :: a, b, ha, hb => ⟨ha.1, kept_append K a b ha.2 hb⟩

theorem kept_died (K : Nat → Prop) (l : List (Event V)) (h : ∀ e ∈ l, ∃ o, e = .died o) : Kept K l := by
  induction l with
  | nil => trivial
  | cons e l ih =>
    obtain ⟨o, rfl⟩ := h e (by simp)
    exact ⟨trivial, ih fun e he => h e (by simp [he])⟩

theorem Owned.of_held {P : Program V} {st st' : State V} (h : Owned P st) (e : st'.held = st.held) :
    Owned P st' := fun sig o ps body hm => by rw [e]; exact h sig o ps body hm

theorem keptAll (P : Program V) (K : Nat → Prop) : ∀ n,
    (∀ b f st st' evs s, runBody P n b f st = .ok st' evs s → Owned P st → (∀ o, K o → Outlives P st o) → Kept K evs) ∧
    (∀ sig cs ls st st' evs s, emit P n sig cs ls st = .ok st' evs s → Owned P st →
      (∀ o, K o → Outlives P st o) → Kept K evs) ∧
    (∀ sig ms args i ts st st' evs s, runSlots P n ms args i ts st = .ok st' evs s → Owned P st →
      (∀ o, K o → Outlives P st o) → (∀ t ∈ ts, t ∈ P.slots sig) → Kept K evs) ∧
    (∀ sig ms args i t st st' evs s, callSlot P n ms args i t st = .ok st' evs s → Owned P st →
      (∀ o, K o → Outlives P st o) → t ∈ P.slots sig → Kept K evs) ∧
    (∀ i o st₀ cs own ps body st st' evs s, callFn P n i o st₀ cs own ps body st = .ok st' evs s → Owned P st →
      (∀ o, K o → Outlives P st o) → (∀ p, o = some p → K p → 0 < st.held p) → Kept K evs) := by
  intro n
  induction n with
  | zero =>
    refine ⟨?_, ?_, ?_, ?_, ?_⟩
    · intro b f st st' evs s h; simp [runBody] at h
    · intro sig cs ls st st' evs s h; simp [emit] at h
    · intro sig ms args i ts st st' evs s h; simp [runSlots] at h
    · intro sig ms args i t st st' evs s h; simp [callSlot] at h
    · intro i o st₀ cs own ps body st st' evs s h; simp [callFn] at h
  | succ n ih =>
    obtain ⟨ihB, ihE, ihS, ihC, ihF⟩ := ih
    have out_of : ∀ {st st' : State V}, st'.held = st.held → (∀ o, K o → Outlives P st o) →
        (∀ o, K o → Outlives P st' o) := by
      intro st st' e h o hk sig ps body hm
      rw [e]; exact h o hk sig ps body hm
    refine ⟨?_, ?_, ?_, ?_, ?_⟩
    · intro b f st st' evs s h hO hL
      cases b with
      | done =>
        simp only [runBody, Out.ok.injEq] at h
        obtain ⟨rfl, rfl, _⟩ := h
        trivial
      | read r k =>
        simp only [runBody] at h
        split at h
        · cases h
        · exact ihB _ _ _ _ _ _ h hO hL
      | write r v k =>
        simp only [runBody] at h
        split at h
        · cases h
        · have e : ∀ l, (if f.cat r = .clvalue then st else st.set l v).held = st.held := by
            intro l; split <;> rfl
          exact ihB _ _ _ _ _ _ h (hO.of_held (e _)) (out_of (e _) hL)
      | take r k =>
        simp only [runBody] at h
        split at h
        · cases h
        · have e : ∀ l v, (if f.cat r = .clvalue then st else st.set l v).held = st.held := by
            intro l v; split <;> rfl
          exact ihB _ _ _ _ _ _ h (hO.of_held (e _ _)) (out_of (e _ _) hL)
      | emit sig args k =>
        simp only [runBody] at h
        split at h
        · cases h
        · rename_i st1 cs ls he
          obtain ⟨e1, e2, e3, e4, e5, e6, e7⟩ := evalArgs_spec he
          split at h
          · rename_i st2 evs2 s2 hem
            obtain ⟨e, t, hb, rfl, _⟩ := after_ok h
            have h2 := ((lives P n).2.1 _ _ _ _ _ _ _ hem).1
            exact kept_append K _ _ (ihE _ _ _ _ _ _ _ hem (hO.of_held e3) (out_of e3 hL))
              (ihB _ _ _ _ _ _ hb (hO.of_held (h2.trans e3)) (out_of (h2.trans e3) hL))
          · rename_i o hne
            exact absurd h (hne _ _ _)
      | stop k =>
        simp only [runBody] at h
        obtain ⟨e, t, hb, rfl, _⟩ := after_ok h
        exact ihB _ _ _ _ _ _ hb hO hL
      | share o k =>
        simp only [runBody] at h
        have e : (if st.alive o then { st with users := fun p => if p = o then st.users p + 1 else st.users p }
            else st).held = st.held := by split <;> rfl
        exact ihB _ _ _ _ _ _ h (hO.of_held e) (out_of e hL)
      | drop o k =>
        simp only [runBody] at h
        obtain ⟨e, t, hb, rfl, _⟩ := after_ok h
        have e := (dropUser_life st o o).2
        refine kept_append K _ _ (kept_died K _ ?_) (ihB _ _ _ _ _ _ hb (hO.of_held e) (out_of e hL))
        intro x hx
        simp only [State.dropUser] at hx
        split at hx
        · cases hx
        · simp only at hx
          split at hx
          · cases hx
          · exact ⟨o, by simpa using hx⟩
    · intro sig cs ls st st' evs s h hO hL
      simp only [emit] at h
      split at h
      · cases h
      · rename_i st1 args hb
        have hB := bindAll_bound hb
        split at h
        · rename_i st2 evs2 s2 hs
          simp only [Out.ok.injEq] at h
          obtain ⟨rfl, rfl, rfl⟩ := h
          exact ihS sig _ _ _ _ _ _ _ _ hs (hO.of_held hB.held) (out_of hB.held hL) fun _ h => h
        · rename_i o hne
          exact absurd h (hne _ _ _)
    · intro sig ms args i ts st st' evs s h hO hL hts
      cases ts with
      | nil =>
        simp only [runSlots, Out.ok.injEq] at h
        obtain ⟨rfl, rfl, _⟩ := h
        trivial
      | cons t ts =>
        simp only [runSlots] at h
        split at h
        · rename_i st1 evs1 hc
          simp only [Out.ok.injEq] at h
          obtain ⟨rfl, rfl, _⟩ := h
          exact ihC sig _ _ _ _ _ _ _ _ hc hO hL (hts t (by simp))
        · rename_i st1 evs1 hc
          obtain ⟨e, t', hb, rfl, _⟩ := after_ok h
          have h2 := ((lives P n).2.2.2.1 _ _ _ _ _ _ _ _ hc).1
          exact kept_append K _ _ (ihC sig _ _ _ _ _ _ _ _ hc hO hL (hts t (by simp)))
            (ihS sig _ _ _ _ _ _ _ _ hb (hO.of_held h2) (out_of h2 hL) fun t ht => hts t (by simp [ht]))
        · rename_i o hne hne'
          cases s with
          | true => exact absurd h (hne _ _)
          | false => exact absurd h (hne' _ _)
    · intro sig ms args i t st st' evs s h hO hL ht
      simp only [callSlot] at h
      split at h
      · cases h
      · rename_i st1 own hb
        have hB := bindAll_bound hb
        have hO1 := hO.of_held hB.held
        have hL1 := out_of hB.held hL
        cases t with
        | fn ps body => exact ihF _ _ _ _ _ _ _ _ _ _ _ h hO1 hL1 nofun
        | raw o ps body =>
          simp only at h
          split at h
          · exact ihF _ _ _ _ _ _ _ _ _ _ _ h hO1 hL1 (by rintro p ⟨⟩ hk; exact hL1 o hk sig ps body ht)
          · cases h
        | shared o ps body =>
          simp only at h
          split at h
          · exact ihF _ _ _ _ _ _ _ _ _ _ _ h hO1 hL1 (by rintro p ⟨⟩ hk; exact hO1 sig o ps body ht)
          · cases h
        | weak o ps body =>
          simp only at h
          split at h
          · split at h
            · rename_i st2 evs2' s2 hc
              simp only [Out.ok.injEq] at h
              obtain ⟨rfl, rfl, rfl⟩ := h
              have hle : ∀ p, st1.held p ≤ (st1.lock o).held p := by
                intro p; simp only [State.lock]; split <;> omega
              refine kept_append K _ _ (ihF _ _ _ _ _ _ _ _ _ _ _ hc
                (fun sig' p ps' body' hm => Nat.lt_of_lt_of_le (hO1 sig' p ps' body' hm) (hle p))
                (fun p hk sig' ps' body' hm => Nat.lt_of_lt_of_le (hL1 p hk sig' ps' body' hm) (hle p))
                (by rintro p ⟨⟩ _; simp [State.lock])) (kept_died K _ ?_)
              intro x hx
              simp only [State.unlock] at hx
              split at hx
              · cases hx
              · exact ⟨o, by simpa using hx⟩
            · rename_i o hne
              exact absurd h (hne _ _ _)
          · simp only [Out.ok.injEq] at h
            obtain ⟨rfl, rfl, rfl⟩ := h
            exact ⟨trivial, trivial⟩
        | forward sig' =>
          simp only at h
          split at h
          · rename_i st2 evs2' s2 hc
            simp only [Out.ok.injEq] at h
            obtain ⟨rfl, rfl, rfl⟩ := h
            exact ⟨ihE _ _ _ _ _ _ _ hc hO1 hL1, trivial⟩
          · rename_i o hne
            exact absurd h (hne _ _ _)
    · intro i o st₀ cs own ps body st st' evs s h hO hL ho
      simp only [callFn] at h
      split at h
      · cases h
      · rename_i st1 cells hb
        have hB := bindAll_bound hb
        split at h
        · rename_i st2 evs2 s2 hr
          simp only [Out.ok.injEq] at h
          obtain ⟨rfl, rfl, _⟩ := h
          have hl := (lives P n).1 _ _ _ _ _ _ hr
          refine ⟨⟨?_, ihB _ _ _ _ _ _ hr (hO.of_held hB.held) (out_of hB.held hL)⟩, trivial⟩
          intro p hp hk
          refine (hl.2 p).not_died (alive_of_held ?_)
          rw [hl.1, hB.held]
          exact ho p hp hk
        · rename_i o hne
          exact absurd h (hne _ _ _)

/-- If every object outlives the slots that point to it, no destroyed object is used. -/
theorem no_ub (P : Program V) : ∀ n,
    (∀ b f st, Owned P st → (∀ o, Outlives P st o) → runBody P n b f st ≠ .ub) ∧
    (∀ sig cs ls st, Owned P st → (∀ o, Outlives P st o) → emit P n sig cs ls st ≠ .ub) ∧
    (∀ sig ms args i ts st, Owned P st → (∀ o, Outlives P st o) → (∀ t ∈ ts, t ∈ P.slots sig) →
      runSlots P n ms args i ts st ≠ .ub) ∧
    (∀ sig ms args i t st, Owned P st → (∀ o, Outlives P st o) → t ∈ P.slots sig →
      callSlot P n ms args i t st ≠ .ub) ∧
    (∀ i o st₀ cs own ps body st, Owned P st → (∀ o, Outlives P st o) →
      callFn P n i o st₀ cs own ps body st ≠ .ub) := by
  intro n
  induction n with
  | zero =>
    refine ⟨?_, ?_, ?_, ?_, ?_⟩ <;> intros <;> simp [runBody, emit, runSlots, callSlot, callFn]
  | succ n ih =>
    obtain ⟨ihB, ihE, ihS, ihC, ihF⟩ := ih
    have out_of : ∀ {st st' : State V}, st'.held = st.held → (∀ o, Outlives P st o) →
        (∀ o, Outlives P st' o) := by
      intro st st' e h o sig ps body hm
      rw [e]; exact h o sig ps body hm
    have after_ub : ∀ {evs : List (Event V)} {s : Bool} {o : Out V}, o ≠ .ub → o.after evs s ≠ .ub := by
      intro evs s o ho
      cases o <;> simp_all [Out.after]
    refine ⟨?_, ?_, ?_, ?_, ?_⟩
    · intro b f st hO hL
      cases b with
      | done => simp [runBody]
      | read r k =>
        simp only [runBody]
        split
        · simp
        · exact ihB _ _ _ hO hL
      | write r v k =>
        simp only [runBody]
        split
        · simp
        · have e : ∀ l, (if f.cat r = .clvalue then st else st.set l v).held = st.held := by
            intro l; split <;> rfl
          exact ihB _ _ _ (hO.of_held (e _)) (out_of (e _) hL)
      | take r k =>
        simp only [runBody]
        split
        · simp
        · have e : ∀ l v, (if f.cat r = .clvalue then st else st.set l v).held = st.held := by
            intro l v; split <;> rfl
          exact ihB _ _ _ (hO.of_held (e _ _)) (out_of (e _ _) hL)
      | emit sig args k =>
        simp only [runBody]
        split
        · simp
        · rename_i st1 cs ls he
          obtain ⟨e1, e2, e3, e4, e5, e6, e7⟩ := evalArgs_spec he
          split
          · rename_i st2 evs2 s2 hem
            have h2 := ((lives P n).2.1 _ _ _ _ _ _ _ hem).1
            exact after_ub (ihB _ _ _ (hO.of_held (h2.trans e3)) (out_of (h2.trans e3) hL))
          · exact ihE _ _ _ _ (hO.of_held e3) (out_of e3 hL)
      | stop k =>
        simp only [runBody]
        exact after_ub (ihB _ _ _ hO hL)
      | share o k =>
        simp only [runBody]
        have e : (if st.alive o then { st with users := fun p => if p = o then st.users p + 1 else st.users p }
            else st).held = st.held := by split <;> rfl
        exact ihB _ _ _ (hO.of_held e) (out_of e hL)
      | drop o k =>
        simp only [runBody]
        have e := (dropUser_life st o o).2
        exact after_ub (ihB _ _ _ (hO.of_held e) (out_of e hL))
    · intro sig cs ls st hO hL
      simp only [emit]
      split
      · simp
      · rename_i st1 args hb
        have hB := bindAll_bound hb
        split
        · simp
        · exact ihS sig _ _ _ _ _ (hO.of_held hB.held) (out_of hB.held hL) fun _ h => h
    · intro sig ms args i ts st hO hL hts
      cases ts with
      | nil => simp [runSlots]
      | cons t ts =>
        simp only [runSlots]
        split
        · simp
        · rename_i st1 evs1 hc
          have h2 := ((lives P n).2.2.2.1 _ _ _ _ _ _ _ _ hc).1
          exact after_ub (ihS sig _ _ _ _ _ (hO.of_held h2) (out_of h2 hL) fun t ht => hts t (by simp [ht]))
        · exact ihC sig _ _ _ _ _ hO hL (hts t (by simp))
    · intro sig ms args i t st hO hL ht
      simp only [callSlot]
      split
      · simp
      · rename_i st1 own hb
        have hB := bindAll_bound hb
        have hO1 := hO.of_held hB.held
        have hL1 := out_of hB.held hL
        cases t with
        | fn ps body => exact ihF _ _ _ _ _ _ _ _ hO1 hL1
        | raw o ps body =>
          simp only
          rw [if_pos (alive_of_held (hL1 o sig ps body ht))]
          exact ihF _ _ _ _ _ _ _ _ hO1 hL1
        | shared o ps body =>
          simp only
          rw [if_pos (alive_of_held (hO1 sig o ps body ht))]
          exact ihF _ _ _ _ _ _ _ _ hO1 hL1
        | weak o ps body =>
          simp only
          split
          · have hle : ∀ p, st1.held p ≤ (st1.lock o).held p := by
              intro p; simp only [State.lock]; split <;> omega
            split
            · simp
            · exact ihF _ _ _ _ _ _ _ _
                (fun sig' p ps' body' hm => Nat.lt_of_lt_of_le (hO1 sig' p ps' body' hm) (hle p))
                (fun p sig' ps' body' hm => Nat.lt_of_lt_of_le (hL1 p sig' ps' body' hm) (hle p))
          · simp
        | forward sig' =>
          simp only
          split
          · simp
          · exact ihE _ _ _ _ hO1 hL1
    · intro i o st₀ cs own ps body st hO hL
      simp only [callFn]
      split
      · simp
      · rename_i st1 cells hb
        have hB := bindAll_bound hb
        split
        · simp
        · exact ihB _ _ _ (hO.of_held hB.held) (out_of hB.held hL)

end Verif.Args
