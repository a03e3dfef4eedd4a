import Verif.Races.Empty

/-! What the lists of signals contain besides connected slots, and who is going to remove it. -/

namespace Verif.Races

variable {st : State} {t : Nat}

/-- The list from a slot on. -/
def tailAt (l : List Nat) : Option Nat → List Nat
  | none => []
  | some i => l.dropWhile (· != i)

theorem tailAt_head (l : List Nat) : tailAt l l.head? = l := by
  cases l with
  | nil => rfl
  | cons a l => simp [tailAt]

theorem tailAt_cons_ne {a i : Nat} {l : List Nat} (h : a ≠ i) : tailAt (a :: l) (some i) = tailAt l (some i) := by
  simp [tailAt, h]

theorem tailAt_cons_self {i : Nat} {l : List Nat} : tailAt (i :: l) (some i) = i :: l := by simp [tailAt]

theorem tailAt_succ : ∀ {l : List Nat} {i : Nat}, l.Nodup → i ∈ l → tailAt l (some i) = i :: tailAt l (succ l i)
  | [a], i, _, h => by
    have : i = a := by simpa using h
    subst this
    simp [tailAt, succ]
  | a :: b :: l, i, hn, h => by
    have hn' := List.nodup_cons.1 hn
    unfold succ
    by_cases ha : a = i
    · subst ha
      have hb : a ≠ b := fun h => hn'.1 (by simp [h])
      rw [if_pos rfl, tailAt_cons_self, tailAt_cons_ne hb, tailAt_cons_self]
    · rw [if_neg ha, tailAt_cons_ne ha]
      have h1 : i ∈ b :: l := by
        rcases List.mem_cons.1 h with h | h
        · exact absurd h.symm ha
        · exact h
      rw [tailAt_succ hn'.2 h1]
      cases hs : succ (b :: l) i with
      | none => rfl
      | some x =>
        have hx : a ≠ x := fun hx => hn'.1 (hx ▸ succ_mem hs)
        rw [tailAt_cons_ne hx]

theorem tailAt_erase : ∀ {l : List Nat} {i s : Nat} {o : Option Nat}, o ≠ some i → s ≠ i → s ∈ tailAt l o →
    s ∈ tailAt (l.erase i) o
  | _, _, _, none, _, _, h => h
  | [], _, _, some x, _, _, h => h
  | a :: l, i, s, some x, hx, hs, h => by
    have hxi : x ≠ i := fun h => hx (by rw [h])
    by_cases ha : a = x
    · subst ha
      rw [tailAt_cons_self] at h
      rw [List.erase_cons_tail (by simpa using hxi), tailAt_cons_self]
      rcases List.mem_cons.1 h with h | h
      · exact List.mem_cons.2 (.inl h)
      · exact List.mem_cons.2 (.inr ((List.mem_erase_of_ne hs).2 h))
    · rw [tailAt_cons_ne ha] at h
      by_cases hi : a = i
      · subst hi
        rw [List.erase_cons_head]
        exact h
      · rw [List.erase_cons_tail (by simpa using hi), tailAt_cons_ne ha]
        exact tailAt_erase hx hs h

theorem tailAt_next {l : List Nat} {i s : Nat} (hn : l.Nodup) (hi : i ∈ l) (h : s ∈ tailAt l (some i)) (hs : s ≠ i) :
    s ∈ tailAt l (succ l i) := by
  rw [tailAt_succ hn hi] at h
  rcases List.mem_cons.1 h with h | h
  · exact absurd h hs
  · exact h

/-- In the clean-up of a signal: the slot that comes next. -/
def Code.cleans : Code → Option (Nat × Option Nat)
  | .cl g i _ => some (g, i)
  | .clRel g _ i _ => some (g, i)
  | .clDel g _ i _ => some (g, i)
  | _ => none

/-- The signals whose slots are rebound after the clean-up. -/
def K.rebinds : K → Nat → Prop
  | .em _, _ => False
  | .sw1 a b, g => g = a ∨ g = b
  | .sw2 _ b, g => g = b
  | .mv a, g => g = a

/-- … and after rebinding those of another one. -/
def K.later : K → Nat → Prop
  | .sw1 _ b, g => g = b
  | _, _ => False

/-- The slot `s` of `g` is going to be rebound. -/
def Rebinds (m : Mem) (s g : Nat) : Code → Prop
  | .mvUnl _ g' => g' = g
  | .mvLock2 g' => g' = g
  | .cl _ _ k => k.rebinds g
  | .clRel _ _ _ k => k.rebinds g
  | .clDel _ _ _ k => k.rebinds g
  | .rb g' i k => (g' = g ∧ s ∈ tailAt (m.list g) i) ∨ k.later g
  | _ => False

/-- The slot `s` of `g` is going to be invalidated. -/
def Dis (m : Mem) (s g : Nat) : Code → Prop
  | .disLock s' g' => s' = s ∧ g' = g
  | .disLoop s' g' i => s' = s ∧ g' = g ∧ s ∈ tailAt (m.list g) i
  | .disStore s' g' => s' = s ∧ g' = g
  | _ => False

/-- The slot is connected to `g`, will be, or will not be in the list. -/
def Fine (m : Mem) (c : Code) (s g : Nat) : Prop :=
  m.sender s = some g ∨ Rebinds m s g c ∨ (m.sender s = none ∧ (m.marked s = true ∨ Dis m s g c))

structure RestOk (st : State) : Prop where
  deferred : ∀ s g, st.mem.own s = some g → st.mem.marked s = true → st.mem.deferred g = true
  emits : ∀ g, st.mem.deferred g = true → st.mem.ems g ≠ [] ∨ ∃ t i, (st.threads t).code.cleans = some (g, i)
  cleans : ∀ t g i, (st.threads t).code.cleans = some (g, i) → ∀ s, st.mem.own s = some g → st.mem.marked s = true →
    s ∈ tailAt (st.mem.list g) i
  sender : ∀ s g, st.mem.own s = some g → ∃ t, Fine st.mem (st.threads t).code s g
  owned : ∀ s, st.mem.live s = true → st.mem.sender s ≠ none → st.mem.own s ≠ none
  null : ∀ s, st.mem.marked s = true → st.mem.sender s = none

/-- The part of that of the thread that does a step. -/
structure Local (t : Nat) (m : Mem) (c : Code) (m' : Mem) (c' : Code) : Prop where
  deferred : ∀ s g, m'.own s = some g → m'.marked s = true → m'.deferred g = true
  emits : ∀ g, m'.deferred g = true → m'.ems g ≠ [] ∨ (∃ i, c'.cleans = some (g, i)) ∨
    (m.deferred g = true ∧ m.ems g = [] ∧ ∀ i, c.cleans ≠ some (g, i))
  cleans : ∀ g i, c'.cleans = some (g, i) → ∀ s, m'.own s = some g → m'.marked s = true → s ∈ tailAt (m'.list g) i
  kept : ∀ s g u, u ≠ t → m.held g = some u → m'.own s = some g → m'.marked s = true →
    m.own s = some g ∧ m.marked s = true
  sender : ∀ s g, m'.own s = some g →
    Fine m' c' s g ∨ (m.own s = some g ∧ ¬ Fine m c s g ∧ (m.sender s = none → m'.sender s = none))
  owned : ∀ s, m'.live s = true → m'.sender s ≠ none → m'.own s ≠ none
  null : ∀ s, m'.marked s = true → m'.sender s = none

theorem Code.cleans_locks {c : Code} (hw : c.wf) {g : Nat} {i : Option Nat} (h : c.cleans = some (g, i)) : g ∈ c.locks := by
  have hk : ∀ (k : K) g, k.sig = g → g ∈ k.locks := by
    intro k g hg; subst hg; cases k <;> simp [K.sig, K.locks]
  cases c <;> simp [Code.cleans] at h <;> simp only [Code.wf] at hw <;> obtain ⟨rfl, _⟩ := h <;> exact hk _ _ hw

theorem Rebinds.same {m m' : Mem} {c : Code} {s g : Nat} (hw : c.wf) (h : Rebinds m s g c)
    (hl : ∀ g ∈ c.locks, m'.list g = m.list g) : Rebinds m' s g c := by
  have hk : ∀ (k : K) g, k.sig = g → g ∈ k.locks := by
    intro k g hg; subst hg; cases k <;> simp [K.sig, K.locks]
  cases c <;> try exact h
  rename_i g' i k
  refine h.imp_left ?_
  rintro ⟨rfl, h1⟩
  exact ⟨rfl, by rw [hl _ (hk _ _ hw)]; exact h1⟩

theorem Dis.same {m m' : Mem} {c : Code} {s g : Nat} (h : Dis m s g c)
    (hl : ∀ g ∈ c.locks, m'.list g = m.list g) : Dis m' s g c := by
  cases c <;> try exact h
  rename_i s' g' i
  obtain ⟨rfl, rfl, h1⟩ := h
  exact ⟨rfl, rfl, by rw [hl _ (by simp [Code.locks])]; exact h1⟩

theorem restOk_step {op : Op} {st' : State} (hk : StateOk st) (h : RestOk st) (hs : step st t op = .ok st')
    (hl : Local t st.mem (st.threads t).code st'.mem (st'.threads t).code) : RestOk st' := by
  have h1 := step_ok (t := t) (op := op) hk
  rw [hs] at h1
  obtain ⟨h2, h3⟩ := h1
  have ho := step_only st' hs
  have hlist : ∀ u, u ≠ t → ∀ g ∈ (st.threads u).code.locks, st'.mem.list g = st.mem.list g := by
    intro u hu g hg
    exact (h3.list g u hu (((hk.threads u).held g).2 hg)).1
  refine ⟨hl.deferred, ?_, ?_, ?_, hl.owned, hl.null⟩
  · intro g hd
    rcases hl.emits g hd with h4 | ⟨i, h4⟩ | ⟨h4, h5, h6⟩
    · exact .inl h4
    · exact .inr ⟨t, i, h4⟩
    · rcases h.emits g h4 with h7 | ⟨u, i, h7⟩
      · exact absurd h5 h7
      · have hu : u ≠ t := by rintro rfl; exact h6 i h7
        exact .inr ⟨u, i, by rw [ho u hu]; exact h7⟩
  · intro u g i hc s hso hm
    by_cases hu : u = t
    · subst hu; exact hl.cleans g i hc s hso hm
    · rw [ho u hu] at hc
      have hg := Code.cleans_locks (hk.threads u).wf hc
      rw [hlist u hu g hg]
      obtain ⟨h4, h5⟩ := hl.kept s g u hu (((hk.threads u).held g).2 hg) hso hm
      exact h.cleans u g i hc s h4 h5
  · intro s g hso
    rcases hl.sender s g hso with h4 | ⟨h4, h5, h6⟩
    · exact ⟨t, h4⟩
    · obtain ⟨u, h7⟩ := h.sender s g h4
      have hu : u ≠ t := by rintro rfl; exact h5 h7
      refine ⟨u, ?_⟩
      rw [ho u hu]
      rcases h7 with h7 | h7 | ⟨h7, h8 | h8⟩
      · exact absurd (.inl h7) h5
      · exact .inr (.inl (h7.same (hk.threads u).wf (hlist u hu)))
      · exact absurd (.inr (.inr ⟨h7, .inl h8⟩)) h5
      · exact .inr (.inr ⟨h6 h7, .inr (h8.same (hlist u hu))⟩)

/-! ### Steps that change nothing of this -/

structure Quiet (m m' : Mem) : Prop where
  own : m'.own = m.own
  marked : m'.marked = m.marked
  deferred : m'.deferred = m.deferred
  ems : m'.ems = m.ems
  sender : m'.sender = m.sender
  list : m'.list = m.list
  active : m'.active = m.active
  live : ∀ s, m'.live s = true → m.live s = true

theorem Quiet.refl (m : Mem) : Quiet m m := ⟨rfl, rfl, rfl, rfl, rfl, rfl, rfl, fun _ h => h⟩

theorem Quiet.trans {m m' m'' : Mem} (h : Quiet m m') (h' : Quiet m' m'') : Quiet m m'' :=
  ⟨h'.own.trans h.own, h'.marked.trans h.marked, h'.deferred.trans h.deferred, h'.ems.trans h.ems,
    h'.sender.trans h.sender, h'.list.trans h.list, h'.active.trans h.active, fun s hs => h.live s (h'.live s hs)⟩

theorem quiet_touch {m m' : Mem} {i : Nat} (h : m.touch t i = some m') : Quiet m m' := by
  unfold Mem.touch at h
  split at h
  · cases h; exact ⟨rfl, rfl, rfl, rfl, rfl, rfl, rfl, fun _ h => h⟩
  · cases h

theorem quiet_addRef {m m' : Mem} {i : Nat} (h : m.addRef t i = some m') : Quiet m m' := by
  unfold Mem.addRef at h
  cases ht : m.touch t i with
  | none => rw [ht] at h; cases h
  | some m1 =>
    rw [ht] at h
    cases h
    exact (quiet_touch ht).trans ⟨rfl, rfl, rfl, rfl, rfl, rfl, rfl, fun _ h => h⟩

theorem quiet_sub {m : Mem} {r : Mem × Bool} {i : Nat} (h : m.sub t i = some r) : Quiet m r.1 := by
  unfold Mem.sub at h
  split at h
  · cases h; exact ⟨rfl, rfl, rfl, rfl, rfl, rfl, rfl, fun _ h => h⟩
  · cases h

theorem quiet_del {m m' : Mem} {i : Nat} (h : m.del t i = some m') : Quiet m m' := by
  unfold Mem.del at h
  split at h
  · cases h
    refine ⟨rfl, rfl, rfl, rfl, rfl, rfl, rfl, fun s h => ?_⟩
    by_cases hs : s = i
    · subst hs; simp [Mem.deleted, upd] at h
    · simpa [Mem.deleted, upd, hs] using h
  · cases h

theorem quiet_next {m : Mem} {g : Nat} {r : Mem × Option Nat} {i : Nat} (h : m.next t g i = some r) :
    Quiet m r.1 ∧ i ∈ m.list g ∧ r.2 = succ (m.list g) i := by
  unfold Mem.next at h
  split at h
  · rename_i hx
    cases h
    simp only [Bool.and_eq_true, List.contains_iff_mem] at hx
    exact ⟨⟨rfl, rfl, rfl, rfl, rfl, rfl, rfl, fun _ h => h⟩, hx.2, rfl⟩
  · cases h

/-- No rebinding, invalidation or clean-up is going on. -/
def Code.plain : Code → Bool
  | .mvUnl .. => false
  | .mvLock2 .. => false
  | .cl .. => false
  | .clRel .. => false
  | .clDel .. => false
  | .rb .. => false
  | .disLock .. => false
  | .disLoop .. => false
  | .disStore .. => false
  | _ => true

theorem Code.plain_cleans {c : Code} (h : c.plain = true) : c.cleans = none := by
  cases c <;> first | rfl | cases h

theorem plain_rebinds {m : Mem} {c : Code} (h : c.plain = true) (s g : Nat) : ¬ Rebinds m s g c := by
  cases c <;> first | exact id | cases h

theorem plain_dis {m : Mem} {c : Code} (h : c.plain = true) (s g : Nat) : ¬ Dis m s g c := by
  cases c <;> first | exact id | cases h

theorem quiet_local {m' : Mem} {c' : Code} (h : RestOk st) (hq : Quiet st.mem m')
    (hcl : ∀ g i, (st.threads t).code.cleans = some (g, i) → ∃ i', c'.cleans = some (g, i'))
    (hcl' : ∀ g i, c'.cleans = some (g, i) → ∀ s, st.mem.own s = some g → st.mem.marked s = true →
      s ∈ tailAt (st.mem.list g) i)
    (hrb : ∀ s g, st.mem.own s = some g → Rebinds st.mem s g (st.threads t).code → Rebinds st.mem s g c')
    (hdis : ∀ s g, st.mem.own s = some g → Dis st.mem s g (st.threads t).code → Dis st.mem s g c') :
    Local t st.mem (st.threads t).code m' c' := by
  have hr : ∀ s g, Rebinds st.mem s g c' → Rebinds m' s g c' := by
    intro s g hx
    cases c' <;> try exact hx
    exact hx.imp_left fun ⟨h1, h2⟩ => ⟨h1, by rw [hq.list]; exact h2⟩
  have hd : ∀ s g, Dis st.mem s g c' → Dis m' s g c' := by
    intro s g hx
    cases c' <;> try exact hx
    exact ⟨hx.1, hx.2.1, by rw [hq.list]; exact hx.2.2⟩
  refine ⟨?_, ?_, ?_, ?_, ?_, ?_, ?_⟩
  · rw [hq.own, hq.marked, hq.deferred]; exact h.deferred
  · rw [hq.deferred, hq.ems]
    intro g hg
    by_cases he : st.mem.ems g = []
    · by_cases hc : ∃ i, (st.threads t).code.cleans = some (g, i)
      · obtain ⟨i, hi⟩ := hc
        exact .inr (.inl (hcl g i hi))
      · exact .inr (.inr ⟨hg, he, fun i hi => hc ⟨i, hi⟩⟩)
    · exact .inl he
  · rw [hq.own, hq.marked, hq.list]; exact hcl'
  · rw [hq.own, hq.marked]; intro s g u _ _ h1 h2; exact ⟨h1, h2⟩
  · rw [hq.own]
    intro s g hs
    by_cases hf : Fine st.mem (st.threads t).code s g
    · left
      unfold Fine
      rw [hq.sender, hq.marked]
      rcases hf with h1 | h1 | ⟨h1, h2 | h2⟩
      · exact .inl h1
      · exact .inr (.inl (hr s g (hrb s g hs h1)))
      · exact .inr (.inr ⟨h1, .inl h2⟩)
      · exact .inr (.inr ⟨h1, .inr (hd s g (hdis s g hs h2))⟩)
    · exact .inr ⟨hs, hf, fun h1 => by rw [hq.sender]; exact h1⟩
  · intro s hl hs
    rw [hq.own]
    rw [hq.sender] at hs
    exact h.owned s (hq.live s hl) hs
  · rw [hq.marked, hq.sender]; exact h.null

theorem plain_local {m' : Mem} {c' : Code} (h : RestOk st) (hp : (st.threads t).code.plain = true)
    (hq : Quiet st.mem m') (hc : c'.cleans = none) : Local t st.mem (st.threads t).code m' c' := by
  refine quiet_local h hq ?_ ?_ (fun s g _ hx => absurd hx (plain_rebinds hp s g))
    (fun s g _ hx => absurd hx (plain_dis hp s g))
  · intro g i hx
    rw [Code.plain_cleans hp] at hx
    cases hx
  · intro g i hx
    rw [hc] at hx
    cases hx

/-! ### All steps -/

def LocalOut (st : State) (t : Nat) (o : Out) : Prop :=
  ∀ st', o = .ok st' → Local t st.mem (st.threads t).code st'.mem (st'.threads t).code

theorem local_off : LocalOut st t .off := nofun
theorem local_ub : LocalOut st t .ub := nofun
theorem local_term : LocalOut st t .term := nofun

theorem local_go {m : Mem} {th : Thread} (h : Local t st.mem (st.threads t).code m th.code) :
    LocalOut st t (st.go t m th) := by
  intro st' hs
  cases hs
  simpa only [upd_same] using h

theorem local_ok {m : Mem} {f : Nat → Thread} {x y : Nat → List Nat}
    (h : Local t st.mem (st.threads t).code m (f t).code) : LocalOut st t (.ok ⟨m, f, x, y⟩) := by
  intro st' hs
  cases hs
  exact h

theorem local_free {m : Mem} {g : Nat} {k : Out} (h : m.held g = none → LocalOut st t k) :
    LocalOut st t (whenFree m g k) := by
  unfold whenFree
  split
  · exact h ‹_›
  · exact local_off

theorem local_orUb {α : Type} {x : Option α} {k : α → Out} (h : ∀ a, x = some a → LocalOut st t (k a)) :
    LocalOut st t (orUb x k) := by
  cases x with
  | none => exact local_ub
  | some a => exact h a rfl

theorem local_touch {m : Mem} {i : Nat} {k : Mem → Out} (hq : Quiet st.mem m) (h : ∀ a, Quiet st.mem a → LocalOut st t (k a)) :
    LocalOut st t (orUb (m.touch t i) k) := local_orUb fun a ha => h a (hq.trans (quiet_touch ha))
theorem local_addRef {m : Mem} {i : Nat} {k : Mem → Out} (hq : Quiet st.mem m) (h : ∀ a, Quiet st.mem a → LocalOut st t (k a)) :
    LocalOut st t (orUb (m.addRef t i) k) := local_orUb fun a ha => h a (hq.trans (quiet_addRef ha))
theorem local_del {m : Mem} {i : Nat} {k : Mem → Out} (hq : Quiet st.mem m) (h : ∀ a, Quiet st.mem a → LocalOut st t (k a)) :
    LocalOut st t (orUb (m.del t i) k) := local_orUb fun a ha => h a (hq.trans (quiet_del ha))
theorem local_sub {m : Mem} {i : Nat} {k : Mem × Bool → Out} (hq : Quiet st.mem m)
    (h : ∀ a : Mem × Bool, Quiet st.mem a.1 → LocalOut st t (k a)) :
    LocalOut st t (orUb (m.sub t i) k) := local_orUb fun a ha => h a (hq.trans (quiet_sub ha))
theorem local_next {m : Mem} {g i : Nat} {k : Mem × Option Nat → Out} (hq : Quiet st.mem m)
    (h : ∀ a : Mem × Option Nat, Quiet st.mem a.1 → i ∈ st.mem.list g → a.2 = succ (st.mem.list g) i → LocalOut st t (k a)) :
    LocalOut st t (orUb (m.next t g i) k) := local_orUb fun a ha => by
  obtain ⟨h1, h2, h3⟩ := quiet_next ha
  rw [hq.list] at h2 h3
  exact h a (hq.trans h1) h2 h3

theorem cleans_ite {p : Prop} [Decidable p] {a b : Code} (ha : a.cleans = none) (hb : b.cleans = none) :
    (if p then a else b).cleans = none := by split <;> assumption
theorem cleans_then {r : Mem × Bool} {a b : Code} (ha : a.cleans = none) (hb : b.cleans = none) :
    (thenDel r a b).cleans = none := cleans_ite ha hb

/-- Nothing of memory that matters here has changed. -/
macro "quiets" : tactic => `(tactic| first
  | assumption
  | exact Quiet.trans (by assumption) (by exact ⟨rfl, rfl, rfl, rfl, rfl, rfl, rfl, fun _ h => h⟩)
  | exact ⟨rfl, rfl, rfl, rfl, rfl, rfl, rfl, fun _ h => h⟩)

macro "locals" h:term:max hp:term:max : tactic => `(tactic| repeat' (first
  | exact local_off
  | exact local_ub
  | exact local_term
  | (refine local_go (plain_local $h $hp (by quiets) ?_) <;> first
      | rfl
      | (refine cleans_ite ?_ ?_ <;> rfl)
      | (refine cleans_then ?_ ?_ <;> rfl))
  | (refine local_free fun _ => ?_)
  | (refine local_touch (by quiets) fun _ _ => ?_)
  | (refine local_addRef (by quiets) fun _ _ => ?_)
  | (refine local_sub (by quiets) fun _ _ => ?_)
  | (refine local_del (by quiets) fun _ _ => ?_)
  | (refine local_next (by quiets) fun _ _ _ _ => ?_)
  | split))

/-- Nobody emits a free signal: nothing of it is deferred. -/
theorem free_deferred {g : Nat} (hk : StateOk st) (h : RestOk st) (hf : st.mem.held g = none) (he : st.mem.ems g = []) :
    st.mem.deferred g = false := by
  cases hd : st.mem.deferred g with
  | false => rfl
  | true =>
    rcases h.emits g hd with h1 | ⟨u, i, h1⟩
    · exact absurd he h1
    · have := ((hk.threads u).held g).2 (Code.cleans_locks (hk.threads u).wf h1)
      rw [hf] at this
      cases this

theorem free_marked {g s : Nat} (hk : StateOk st) (h : RestOk st) (hf : st.mem.held g = none) (he : st.mem.ems g = [])
    (hs : st.mem.own s = some g) : st.mem.marked s = false := by
  cases hm : st.mem.marked s with
  | false => rfl
  | true =>
    have := h.deferred s g hs hm
    rw [free_deferred hk h hf he] at this
    cases this

end Verif.Races
