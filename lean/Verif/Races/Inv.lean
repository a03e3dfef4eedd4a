import Verif.Races.Model
import Verif.Races.Trace

/-! The invariant of memory: who knows which accesses. -/

namespace Verif.Races

theorem upd_same {α : Type} (f : Nat → α) (i : Nat) (x : α) : upd f i x i = x := by simp [upd]
theorem upd_other {α : Type} (f : Nat → α) {i j : Nat} (x : α) (h : j ≠ i) : upd f i x j = f j := by simp [upd, h]

/-- What `h` knows. -/
def HoldK (tr : List Ev) : Holder → Nat → Prop
  | .thread t => Known tr t
  | .box k => Through tr (.rel k)

/-- Whoever has locked the mutex of `g` knows `i`; if nobody has, whoever locks it will. -/
def Guard (m : Mem) (g i : Nat) : Prop :=
  match m.held g with
  | some t => Known m.tr t i
  | none => Through m.tr (.unlock g) i ∨ HBE m.tr i (m.birth g)

theorem guard_held {m : Mem} {g i t : Nat} (h : m.held g = some t) : Guard m g i ↔ Known m.tr t i := by
  simp [Guard, h]

theorem guard_free {m : Mem} {g i : Nat} (h : m.held g = none) :
    Guard m g i ↔ Through m.tr (.unlock g) i ∨ HBE m.tr i (m.birth g) := by
  simp [Guard, h]

/-- `sender_` was written by someone who knew that signal, and its reader will know it too. -/
def SndOk (m : Mem) (s : Nat) : Prop :=
  ∀ g, m.live s = true → m.sender s = some g →
    m.born g = true ∧ HBE m.tr (m.birth g) (m.sndEv s) ∧
      (m.sndEv s = m.newEv s ∨ LastStore m.tr s (m.sndEv s))

structure Core (m : Mem) : Prop where
  ordered : Ordered m.tr
  accObj : ∀ i s w, Acc m.tr i (.obj s) w → s < m.nslots
  accNxt : ∀ i s w, Acc m.tr i (.nxt s) w → ∃ w', Acc m.tr i (.obj s) w'
  accFld : ∀ i g w, Acc m.tr i (.fld g) w → g < m.nsigs
  accMtx : ∀ i g w, Acc m.tr i (.mtx g) w → g < m.nsigs
  lists : ∀ s g, s ∈ m.list g ↔ m.own s = some g
  nodup : ∀ g, (m.list g).Nodup
  ownLive : ∀ s g, m.own s = some g → m.live s = true ∧ m.dying s = none ∧ g < m.nsigs
  refsLive : ∀ s h, h ∈ m.refs s → m.live s = true ∧ m.dying s = none
  dyingOk : ∀ s t, m.dying s = some t → m.live s = true ∧ m.refs s = [] ∧ m.own s = none
  liveLt : ∀ s, m.live s = true → s < m.nslots
  bornLt : ∀ g, m.born g = true → g < m.nsigs
  heldLt : ∀ g t, m.held g = some t → g < m.nsigs
  count : ∀ s, m.live s = true → m.count s = (m.refs s).length + (m.own s).toList.length
  active : ∀ g, m.active g = (m.ems g).length
  fld : ∀ i g w, Acc m.tr i (.fld g) w → Guard m g i
  nxt : ∀ i s g w, m.own s = some g → Acc m.tr i (.nxt s) w → Guard m g i
  obj : ∀ i s w, m.live s = true → m.dying s = none → Acc m.tr i (.obj s) w →
    Through m.tr (.sub s) i ∨ (∃ h ∈ m.refs s, HoldK m.tr h i) ∨ ∃ g, m.own s = some g ∧ Guard m g i
  dyi : ∀ i s w t, m.dying s = some t → Acc m.tr i (.obj s) w → Known m.tr t i
  wr : ∀ i s, m.live s = true → Acc m.tr i (.obj s) true → i = m.newEv s
  newR : ∀ s h, h ∈ m.refs s → HoldK m.tr h (m.newEv s)
  newL : ∀ s g, m.own s = some g → Guard m g (m.newEv s)
  mtxB : ∀ i g, m.born g = true → Acc m.tr i (.mtx g) true → HBE m.tr i (m.birth g)
  mtxN : ∀ i g t, m.born g = false → m.held g = some t → Acc m.tr i (.mtx g) true → Known m.tr t i

structure Inv (m : Mem) : Prop extends Core m where
  snd : ∀ s, SndOk m s

/-- Accesses that thread `t` may do. -/
def Allowed (m : Mem) (t : Nat) : Loc × Bool → Prop
  | (.fld g, _) => m.held g = some t
  | (.mtx g, w) => w = false ∧ m.born g = true ∧ Known m.tr t (m.birth g)
  | (.nxt s, _) => ∃ g, m.own s = some g ∧ m.held g = some t
  | (.obj s, w) => w = false ∧ (.thread t ∈ m.refs s ∨ ∃ g, m.own s = some g ∧ m.held g = some t)

/-- The thread may access the slot `s`. -/
def May (m : Mem) (t s : Nat) : Prop := .thread t ∈ m.refs s ∨ ∃ g, m.own s = some g ∧ m.held g = some t

theorem HoldK.append {tr : List Ev} {h : Holder} {i : Nat} (l : List Ev) (hk : HoldK tr h i) : HoldK (tr ++ l) h i := by
  cases h <;> exact Under.append l hk

theorem Guard.ev {m : Mem} {g i t : Nat} {y : Sync} {acc : List (Loc × Bool)} (h : Guard m g i) :
    Guard (m.ev t y acc) g i := by
  unfold Guard at *
  simp only [Mem.ev] at *
  cases hh : m.held g with
  | none => rw [hh] at h; exact h.imp (Under.append _) (HBE.append _)
  | some u => rw [hh] at h; exact Under.append _ h

theorem SndOk.ev {m : Mem} {s t : Nat} {y : Sync} {acc : List (Loc × Bool)} (h : SndOk m s)
    (hy : y ≠ .store s) : SndOk (m.ev t y acc) s := by
  intro g hl hs
  obtain ⟨h1, h2, h3⟩ := h g hl hs
  exact ⟨h1, h2.append _, h3.imp_right fun h => h.append hy⟩

/-- What thread `t` may access it may access without a race. -/
theorem Core.ev {m : Mem} (h : Core m) {t : Nat} {y : Sync} {acc : List (Loc × Bool)}
    (ha : ∀ a ∈ acc, Allowed m t a) (hp : ∀ s w, (Loc.nxt s, w) ∈ acc → (Loc.obj s, false) ∈ acc) :
    Core (m.ev t y acc) := by
  have hn : Known (m.tr ++ [⟨t, y, acc⟩]) t m.tr.length := known_last m.tr ⟨t, y, acc⟩
  have hmay : ∀ s w, (Loc.obj s, w) ∈ acc → m.live s = true ∧ m.dying s = none := by
    intro s w hm
    rcases (ha _ hm).2 with h1 | ⟨g, h1, _⟩
    · exact h.refsLive s _ h1
    · exact ⟨(h.ownLive s g h1).1, (h.ownLive s g h1).2.1⟩
  have hgn : ∀ g, m.held g = some t → Guard (m.ev t y acc) g m.tr.length := by
    intro g hg
    exact (guard_held (m := m.ev t y acc) hg).2 hn
  exact {
    ordered := by
      refine h.ordered.append fun i x w w' hi hx hw => ?_
      refine known_hb (e := ⟨t, y, acc⟩) ?_
      have := ha _ hx
      cases x with
      | fld g => exact (guard_held this).1 (h.fld i g w hi)
      | mtx g =>
        obtain ⟨rfl, h1, h2⟩ := this
        have hw' : w = true := by simpa using hw
        subst hw'
        exact h2.back (h.mtxB i g h1 hi)
      | nxt s =>
        obtain ⟨g, h1, h2⟩ := this
        exact (guard_held h2).1 (h.nxt i s g w h1 hi)
      | obj s =>
        obtain ⟨h0, h1⟩ := this
        subst h0
        have hw' : w = true := by simpa using hw
        subst hw'
        have hl := (hmay s _ hx).1
        rw [h.wr i s hl hi]
        rcases h1 with h1 | ⟨g, h1, h2⟩
        · exact h.newR s _ h1
        · exact (guard_held h2).1 (h.newL s g h1)
    accObj := by
      intro i s w hi
      rcases acc_cases hi with hi | ⟨_, hi⟩
      · exact h.accObj i s w hi
      · exact h.liveLt s (hmay s w hi).1
    accNxt := by
      intro i s w hi
      rcases acc_cases hi with hi | ⟨rfl, hx⟩
      · obtain ⟨w', h1⟩ := h.accNxt i s w hi
        exact ⟨w', h1.append _⟩
      · exact ⟨false, _, get_last _ _, hp s w hx⟩
    accFld := by
      intro i g w hi
      rcases acc_cases hi with hi | ⟨rfl, hx⟩
      · exact h.accFld i g w hi
      · exact h.heldLt g t (ha _ hx)
    accMtx := by
      intro i g w hi
      rcases acc_cases hi with hi | ⟨rfl, hx⟩
      · exact h.accMtx i g w hi
      · exact h.bornLt g (ha _ hx).2.1
    lists := h.lists
    nodup := h.nodup
    ownLive := h.ownLive
    refsLive := h.refsLive
    dyingOk := h.dyingOk
    liveLt := h.liveLt
    bornLt := h.bornLt
    heldLt := h.heldLt
    count := h.count
    active := h.active
    fld := by
      intro i g w hi
      rcases acc_cases hi with hi | ⟨rfl, hx⟩
      · exact (h.fld i g w hi).ev
      · exact hgn g (ha _ hx)
    nxt := by
      intro i s g w ho hi
      rcases acc_cases hi with hi | ⟨rfl, hx⟩
      · exact (h.nxt i s g w ho hi).ev
      · obtain ⟨g', h1, h2⟩ := ha _ hx
        have : m.own s = some g := ho
        rw [this] at h1
        cases h1
        exact hgn g h2
    obj := by
      intro i s w hl hd hi
      rcases acc_cases hi with hi | ⟨rfl, hx⟩
      · rcases h.obj i s w hl hd hi with h1 | ⟨x, h1, h2⟩ | ⟨g, h1, h2⟩
        · exact .inl (Under.append _ h1)
        · exact .inr (.inl ⟨x, h1, h2.append _⟩)
        · exact .inr (.inr ⟨g, h1, h2.ev⟩)
      · rcases (ha _ hx).2 with h1 | ⟨g, h1, h2⟩
        · exact .inr (.inl ⟨_, h1, hn⟩)
        · exact .inr (.inr ⟨g, h1, hgn g h2⟩)
    dyi := by
      intro i s w u hd hi
      rcases acc_cases hi with hi | ⟨rfl, hx⟩
      · exact Under.append _ (h.dyi i s w u hd hi)
      · have := (hmay s w hx).2
        have hd' : m.dying s = some u := hd
        rw [this] at hd'; cases hd'
    wr := by
      intro i s hl hi
      rcases acc_cases hi with hi | ⟨rfl, hx⟩
      · exact h.wr i s hl hi
      · have := (ha _ hx).1
        cases this
    newR := fun s x hx => (h.newR s x hx).append _
    newL := fun s g hg => (h.newL s g hg).ev
    mtxB := by
      intro i g hb hi
      rcases acc_cases hi with hi | ⟨rfl, hx⟩
      · exact (h.mtxB i g hb hi).append _
      · exact nomatch (ha _ hx).1
    mtxN := by
      intro i g u hb hh hi
      rcases acc_cases hi with hi | ⟨rfl, hx⟩
      · exact Under.append _ (h.mtxN i g u hb hh hi)
      · exact nomatch (ha _ hx).1 }

theorem Inv.ev {m : Mem} (h : Inv m) {t : Nat} {y : Sync} {acc : List (Loc × Bool)}
    (ha : ∀ a ∈ acc, Allowed m t a) (hp : ∀ s w, (Loc.nxt s, w) ∈ acc → (Loc.obj s, false) ∈ acc)
    (hy : ∀ s, y ≠ .store s) : Inv (m.ev t y acc) :=
  { h.toCore.ev ha hp with snd := fun s => (h.snd s).ev (hy s) }

end Verif.Races
