import Verif.Handles.Model
/-
Lemmas for C134: reference counts of connection objects.
-/
namespace Verif.Handles

/-! ### Reading after writing -/

theorem obj?_lt {w : World} {o : Obj} {c : Conn} (h : w.obj? o = some c) : o < w.objs.length := by
  unfold World.obj? at h
  cases hq : w.objs[o]? with
  | none => rw [hq] at h; cases h
  | some x => exact (List.getElem?_eq_some_iff.1 hq).1

theorem obj?_get {w : World} {o : Obj} {c : Conn} (h : w.obj? o = some c) (hl : o < w.objs.length) : w.objs[o] = some c := by
  unfold World.obj? at h
  rw [List.getElem?_eq_getElem hl] at h
  exact h

@[simp] theorem setObj_slots (w : World) (o : Obj) (c : Option Conn) : (w.setObj o c).slots = w.slots := rfl
@[simp] theorem setObj_next (w : World) (o : Obj) (c : Option Conn) : (w.setObj o c).next = w.next := rfl
@[simp] theorem addObj_slots (w : World) (c : Conn) : (w.addObj c).slots = w.slots := rfl
@[simp] theorem addObj_next (w : World) (c : Conn) : (w.addObj c).next = w.next := rfl
@[simp] theorem setSlot_objs (w : World) (a : Addr) (s : Option Slot) : (w.setSlot a s).objs = w.objs := rfl
@[simp] theorem setSlot_next (w : World) (a : Addr) (s : Option Slot) : (w.setSlot a s).next = w.next := rfl
@[simp] theorem setSlot_obj? (w : World) (a : Addr) (s : Option Slot) (o : Obj) : (w.setSlot a s).obj? o = w.obj? o := rfl
theorem setSlot_slots (w : World) (a b : Addr) (s : Option Slot) : (w.setSlot a s).slots b = if b = a then s else w.slots b := rfl

theorem obj?_setObj {w : World} {o : Obj} {c : Conn} (h : w.obj? o = some c) (c' : Option Conn) (p : Obj) :
    (w.setObj o c').obj? p = if p = o then c' else w.obj? p := by
  have hl := obj?_lt h
  unfold World.obj? World.setObj
  dsimp only
  rw [List.getElem?_set]
  by_cases hp : o = p
  · subst hp; simp [hl]
  · rw [if_neg hp, if_neg (fun e => hp e.symm)]

theorem obj?_addObj (w : World) (c : Conn) (p : Nat) :
    (w.addObj c).obj? p = if p = w.objs.length then some c else w.obj? p := by
  unfold World.obj? World.addObj
  dsimp only
  rw [List.getElem?_append]
  by_cases hp : p < w.objs.length
  · rw [if_pos hp, if_neg (by omega)]
  · rw [if_neg hp]
    by_cases he : p = w.objs.length
    · subst he; simp
    · have h1 : w.objs[p]? = none := List.getElem?_eq_none (by omega)
      have h2 : [some c][p - w.objs.length]? = none := List.getElem?_eq_none (by simp; omega)
      rw [if_neg he, h1, h2]

/-! ### Counting -/

def refsOf (w : World) (a : Addr) : Nat := match w.slots a with | none => 0 | some s => s.refs
def listedOf (w : World) (a : Addr) : Nat := match w.slots a with | none => 0 | some s => s.listed.toNat

/-- The object has a reference to the slot. -/
def pointsTo (a : Addr) : Option Conn → Bool
  | some c => !c.loose && c.slot == some a
  | none => false

def handles (w : World) (a : Addr) : Nat := w.objs.countP (pointsTo a)

theorem handles_setObj {w : World} {o : Obj} {c : Conn} (h : w.obj? o = some c) (c' : Option Conn) (a : Addr) :
    handles (w.setObj o c') a + (pointsTo a (some c)).toNat = handles w a + (pointsTo a c').toNat := by
  have hl := obj?_lt h
  have hg := obj?_get h hl
  unfold handles World.setObj
  dsimp only
  rw [List.countP_set hl, hg]
  have hpos : pointsTo a (some c) = true → 0 < w.objs.countP (pointsTo a) := fun hp =>
    List.countP_pos_iff.2 ⟨w.objs[o], List.getElem_mem hl, by rw [hg]; exact hp⟩
  cases h1 : pointsTo a (some c) with
  | true =>
    have := hpos h1
    cases h2 : pointsTo a c'
    · simp only [if_true, Bool.toNat_true, Bool.toNat_false, Bool.false_eq_true, if_false]; omega
    · simp only [if_true, Bool.toNat_true]; omega
  | false =>
    cases h2 : pointsTo a c'
    · simp only [Bool.toNat_false, Bool.false_eq_true, if_false]; omega
    · simp only [if_true, Bool.toNat_true, Bool.toNat_false, Bool.false_eq_true, if_false]; omega

theorem handles_addObj (w : World) (c : Conn) (a : Addr) :
    handles (w.addObj c) a = handles w a + (pointsTo a (some c)).toNat := by
  unfold handles World.addObj
  dsimp only
  rw [List.countP_append]
  cases h : pointsTo a (some c) <;> simp [List.countP_cons, h]

@[simp] theorem handles_setSlot (w : World) (b : Addr) (s : Option Slot) (a : Addr) : handles (w.setSlot b s) a = handles w a := rfl

theorem pointsTo_doom (a b : Addr) (x : Option Conn) : pointsTo a (doom b x) = pointsTo a x := by
  cases x with
  | none => rfl
  | some c => simp only [doom]; split <;> rfl

theorem handles_pos {w : World} {o : Obj} {c : Conn} (h : w.obj? o = some c) {a : Addr} (hp : pointsTo a (some c) = true) :
    0 < handles w a := by
  have hl := obj?_lt h
  exact List.countP_pos_iff.2 ⟨w.objs[o], List.getElem_mem hl, by rw [obj?_get h hl]; exact hp⟩

def isDying : Option Conn → Bool
  | some c => c.owner == .dying
  | none => false

/-- What holds while `acts` is still to be done. -/
structure Inv (w : World) (acts : List Act) : Prop where
  refs : ∀ a, refsOf w a = listedOf w a + handles w a + acts.count (.release a)
  pos : ∀ a s, w.slots a = some s → 0 < s.refs
  drops : ∀ o, acts.count (.drop o) = (isDying (w.obj? o)).toNat
  owner : ∀ o c a, w.obj? o = some c → c.owner = .target a → w.slots a ≠ none
  genLt : ∀ a s, w.slots a = some s → s.gen < w.next
  gens : ∀ a b s t, w.slots a = some s → w.slots b = some t → s.gen = t.gen → a = b
  made : ∀ o c, w.obj? o = some c → c.loose = false →
    c.made = match c.slot with | none => none | some a => (w.slots a).map (·.gen)

/-- An object that has given up its reference belongs to the client. -/
def LooseOk (w : World) : Prop := ∀ o c, w.obj? o = some c → c.loose = true → c.owner = .client

/-- An object that points to a slot: the slot exists. -/
theorem Inv.there {w : World} {acts : List Act} (h : Inv w acts) {o : Obj} {c : Conn} {a : Addr} (ho : w.obj? o = some c)
    (hl : c.loose = false) (hs : c.slot = some a) : ∃ s, w.slots a = some s := by
  have h1 := handles_pos ho (a := a) (by simp [pointsTo, hl, hs])
  have h2 := h.refs a
  cases hq : w.slots a with
  | some s => exact ⟨s, rfl⟩
  | none => simp only [refsOf, hq] at h2; omega

theorem doom_obj? (w w' : World) (a : Addr) (hw : w'.objs = w.objs.map (doom a)) (o : Obj) : w'.obj? o = doom a (w.obj? o) := by
  unfold World.obj?
  rw [hw, List.getElem?_map]
  cases w.objs[o]? with
  | none => rfl
  | some x => cases x <;> rfl

theorem owned_count (w : World) (a : Addr) (o : Nat) :
    (w.owned a).count o = (match w.obj? o with | some c => c.owner == Owner.target a | none => false).toNat := by
  unfold World.owned
  by_cases ho : o < w.objs.length
  · cases hq : (match w.obj? o with | some c => c.owner == Owner.target a | none => false) with
    | true =>
      rw [List.count_filter (by exact hq)]
      have := (List.nodup_range (n := w.objs.length)).count (a := o)
      rw [this, if_pos (List.mem_range.2 ho)]; rfl
    | false =>
      rw [List.count_eq_zero.2]
      · rfl
      · intro hm
        have := (List.mem_filter.1 hm).2
        exact Bool.noConfusion (hq.symm.trans this)
  · have h1 : w.obj? o = none := by
      unfold World.obj?
      rw [List.getElem?_eq_none (by omega)]; rfl
    rw [List.count_eq_zero.2, h1]
    · rfl
    · intro hm
      have := (List.mem_filter.1 hm).1
      rw [List.mem_range] at this; exact ho this

theorem count_map_drop (l : List Obj) (o : Obj) : (l.map Act.drop).count (.drop o) = l.count o := by
  induction l with
  | nil => rfl
  | cons x l ih => simp [List.count_cons, ih]

theorem count_map_drop' (l : List Obj) (a : Addr) : (l.map Act.drop).count (.release a) = 0 :=
  List.count_eq_zero.2 (by simp)

/-! ### One action -/

def Act.isRelease : Act → Bool
  | .release _ => true
  | .drop _ => false

/-- What is still to do gets less. -/
def cost (w : World) (acts : List Act) : Nat := 3 * w.objs.countP Option.isSome + acts.countP Act.isRelease

/-- What an action leaves alone. -/
def Keeps (w w' : World) : Prop :=
  w'.next = w.next ∧ (∀ o c, w.obj? o = some c → c.owner = .client → w'.obj? o = some c) ∧
    ∀ o c', w'.obj? o = some c' → ∃ c, w.obj? o = some c ∧ c'.slot = c.slot ∧ c'.made = c.made ∧ c'.loose = c.loose ∧ c'.guard = c.guard

theorem release_dec {w : World} {a : Addr} {s : Slot} {rest : List Act} (h : Inv w (.release a :: rest)) (hs : w.slots a = some s)
    (h1 : s.refs ≠ 1) : release w a = some (w.setSlot a (some { s with refs := s.refs - 1 }), []) ∧
      Inv (w.setSlot a (some { s with refs := s.refs - 1 })) rest ∧
      cost (w.setSlot a (some { s with refs := s.refs - 1 })) rest < cost w (.release a :: rest) := by
  have hr := h.refs a
  simp only [List.count_cons_self] at hr
  have hp := h.pos a s hs
  refine ⟨by simp only [release, hs, if_neg h1], ⟨?_, ?_, ?_, ?_, ?_, ?_, ?_⟩, by simp [cost, List.countP_cons, Act.isRelease]⟩
  · intro b
    have hb := h.refs b
    rw [handles_setSlot]
    by_cases hba : b = a
    · subst hba
      simp only [refsOf, listedOf, hs] at hr
      simp only [refsOf, listedOf, setSlot_slots, if_true]
      omega
    · simp only [refsOf, listedOf, setSlot_slots, if_neg hba] at hb ⊢
      rw [List.count_cons_of_ne (by simpa using fun e => hba e.symm)] at hb
      omega
  · intro b t hb
    rw [setSlot_slots] at hb
    split at hb
    · cases hb; dsimp only; omega
    · exact h.pos b t hb
  · intro o
    have h2 := h.drops o
    rw [List.count_cons_of_ne (by simp)] at h2
    exact h2
  · intro o c b hb hob
    rw [setSlot_slots]
    split
    · simp
    · exact h.owner o c b hb hob
  · intro b t hb
    rw [setSlot_slots] at hb
    split at hb
    · cases hb; exact h.genLt a s hs
    · exact h.genLt b t hb
  · intro b c s' t hb hc hg
    rw [setSlot_slots] at hb hc
    split at hb <;> split at hc
    · simp_all
    · cases hb; rename_i e _; rw [e]; exact h.gens a c s t hs hc hg
    · cases hc; rename_i e; rw [e]; exact h.gens b a s' s hb hs hg
    · exact h.gens b c s' t hb hc hg
  · intro o c hb hl
    rw [h.made o c hb hl]
    cases c.slot with
    | none => rfl
    | some b =>
      dsimp only
      rw [setSlot_slots]
      split
      · rename_i e; rw [e, hs]; rfl
      · rfl

theorem release_inv {w : World} {a : Addr} {rest : List Act} (h : Inv w (.release a :: rest)) (hL : LooseOk w) :
    ∃ w' new, release w a = some (w', new) ∧ Inv w' (new ++ rest) ∧ LooseOk w' ∧ Keeps w w' ∧ cost w' (new ++ rest) < cost w (.release a :: rest) := by
  have hr := h.refs a
  simp only [List.count_cons_self] at hr
  cases hs : w.slots a with
  | none => simp only [refsOf, hs] at hr; omega
  | some s =>
    by_cases h1 : s.refs = 1
    · simp only [release, hs, if_pos h1]
      simp only [refsOf, listedOf, hs, h1] at hr
      have hd := doom_obj? w { w.setSlot a none with objs := w.objs.map (doom a) } a rfl
      refine ⟨_, _, rfl, ⟨?_, ?_, ?_, ?_, ?_, ?_, ?_⟩, ?_, ⟨rfl, ?_, ?_⟩, ?_⟩
      · intro b
        have hb := h.refs b
        have hh : handles { w.setSlot a none with objs := w.objs.map (doom a) } b = handles w b := by
          unfold handles
          dsimp only
          rw [List.countP_map]
          congr 1
          funext x
          exact pointsTo_doom b a x
        rw [hh, List.count_append, count_map_drop']
        by_cases hba : b = a
        · subst hba
          simp only [refsOf, listedOf, setSlot_slots, if_true]
          omega
        · simp only [refsOf, listedOf, setSlot_slots, if_neg hba] at hb ⊢
          rw [List.count_cons_of_ne (by simpa using fun e => hba e.symm)] at hb
          omega
      · intro b t hb
        dsimp only at hb
        rw [setSlot_slots] at hb
        split at hb
        · cases hb
        · exact h.pos b t hb
      · intro o
        have h2 := h.drops o
        rw [List.count_cons_of_ne (by simp)] at h2
        rw [List.count_append, count_map_drop, owned_count, h2, hd]
        cases w.obj? o with
        | none => rfl
        | some c =>
          simp only [doom]
          by_cases hc : c.owner = .target a
          · rw [if_pos hc]; simp [isDying, hc]
          · rw [if_neg hc]; simp [isDying, hc]
      · intro o c b hb hob
        rw [hd] at hb
        cases hq : w.obj? o with
        | none => rw [hq] at hb; cases hb
        | some d =>
          rw [hq] at hb
          simp only [doom] at hb
          by_cases hda : d.owner = .target a
          · rw [if_pos hda] at hb; cases hb; cases hob
          · rw [if_neg hda] at hb
            cases hb
            dsimp only
            rw [setSlot_slots, if_neg (by intro e; subst e; exact hda hob)]
            exact h.owner o _ b hq hob
      · intro b t hb
        dsimp only at hb
        rw [setSlot_slots] at hb
        split at hb
        · cases hb
        · exact h.genLt b t hb
      · intro b c s t hb hc
        dsimp only at hb hc
        rw [setSlot_slots] at hb hc
        split at hb
        · cases hb
        · split at hc
          · cases hc
          · exact h.gens b c s t hb hc
      · intro o c hb hl
        rw [hd] at hb
        cases hq : w.obj? o with
        | none => rw [hq] at hb; cases hb
        | some d =>
          rw [hq] at hb
          have hcd : c.slot = d.slot ∧ c.made = d.made ∧ c.loose = d.loose := by
            simp only [doom] at hb
            split at hb <;> cases hb <;> exact ⟨rfl, rfl, rfl⟩
          rw [hcd.2.2] at hl
          rw [hcd.1, hcd.2.1, h.made o d hq hl]
          cases hds : d.slot with
          | none => rfl
          | some b =>
            dsimp only
            rw [setSlot_slots]
            by_cases hba : b = a
            · subst hba
              have := handles_pos hq (a := b) (by simp [pointsTo, hl, hds])
              omega
            · rw [if_neg hba]
      · intro o c hb hl
        rw [hd] at hb
        cases hq : w.obj? o with
        | none => rw [hq] at hb; cases hb
        | some d =>
          rw [hq] at hb
          simp only [doom] at hb
          by_cases hda : d.owner = .target a
          · rw [if_pos hda] at hb; cases hb
            have := hL o d hq hl
            rw [hda] at this; cases this
          · rw [if_neg hda] at hb; cases hb
            exact hL o _ hq hl
      · intro o c hq hc
        rw [hd, hq]
        simp only [doom]
        rw [if_neg (by rw [hc]; simp)]
      · intro o c hb
        rw [hd] at hb
        cases hq : w.obj? o with
        | none => rw [hq] at hb; cases hb
        | some d =>
          rw [hq] at hb
          refine ⟨d, rfl, ?_⟩
          simp only [doom] at hb
          split at hb <;> cases hb <;> exact ⟨rfl, rfl, rfl, rfl⟩
      · have h5 : (w.objs.map (doom a)).countP Option.isSome = w.objs.countP Option.isSome := by
          rw [List.countP_map]
          congr 1
          funext x
          cases x with
          | none => rfl
          | some c => simp only [Function.comp, doom]; split <;> rfl
        have h6 : ((w.owned a).map Act.drop).countP Act.isRelease = 0 := by
          rw [List.countP_eq_zero]; simp [Act.isRelease]
        simp only [cost, List.countP_append, h5, h6, List.countP_cons, Act.isRelease]
        simp
    · obtain ⟨e, h2, h3⟩ := release_dec h hs h1
      refine ⟨_, _, e, h2, hL, ⟨rfl, fun o c hq _ => hq, fun o c hq => ⟨c, hq, rfl, rfl, rfl, rfl⟩⟩, h3⟩

/-- Taking a slot out of the list. -/
theorem unlist_inv {w : World} {a : Addr} {s : Slot} {rest : List Act} (h : Inv w rest) (hs : w.slots a = some s) :
    ∃ new, unlist w a = some (w.setSlot a (some { s with listed := false }), new) ∧
      Inv (w.setSlot a (some { s with listed := false })) (new ++ rest) ∧ new = if s.listed then [.release a] else [] := by
  refine ⟨_, by simp only [unlist, hs], ⟨?_, ?_, ?_, ?_, ?_, ?_, ?_⟩, rfl⟩
  · intro b
    have hb := h.refs b
    rw [handles_setSlot, List.count_append]
    by_cases hba : b = a
    · subst hba
      simp only [refsOf, listedOf, hs] at hb
      simp only [refsOf, listedOf, setSlot_slots, if_true]
      cases hl : s.listed <;> simp [hl] at hb ⊢ <;> omega
    · simp only [refsOf, listedOf, setSlot_slots, if_neg hba] at hb ⊢
      have : (if s.listed = true then [Act.release a] else []).count (Act.release b) = 0 := by
        split
        · rw [List.count_cons_of_ne (by simpa using fun e => hba e.symm)]; rfl
        · rfl
      omega
  · intro b t hb
    rw [setSlot_slots] at hb
    split at hb
    · cases hb; exact h.pos a s hs
    · exact h.pos b t hb
  · intro o
    rw [List.count_append, setSlot_obj?, ← h.drops o]
    have : (if s.listed = true then [Act.release a] else []).count (Act.drop o) = 0 := by
      split
      · rw [List.count_cons_of_ne (by simp)]; rfl
      · rfl
    omega
  · intro o c b hb hob
    rw [setSlot_slots]
    split
    · simp
    · exact h.owner o c b hb hob
  · intro b t hb
    rw [setSlot_slots] at hb
    split at hb
    · cases hb; exact h.genLt a s hs
    · exact h.genLt b t hb
  · intro b c s' t hb hc hg
    rw [setSlot_slots] at hb hc
    split at hb <;> split at hc
    · simp_all
    · cases hb; rename_i e _; rw [e]; exact h.gens a c s t hs hc hg
    · cases hc; rename_i e; rw [e]; exact h.gens b a s' s hb hs hg
    · exact h.gens b c s' t hb hc hg
  · intro o c hb hl
    rw [h.made o c hb hl]
    cases c.slot with
    | none => rfl
    | some b =>
      dsimp only
      rw [setSlot_slots]
      split
      · rename_i e; rw [e, hs]; rfl
      · rfl

/-- What an object gives up. -/
def rel : Option Addr → List Act
  | none => []
  | some a => [.release a]

theorem dying_of {c : Conn} (h : 0 < (isDying (some c)).toNat) : c.owner = .dying := by
  by_cases hq : c.owner = .dying
  · exact hq
  · have : (c.owner == Owner.dying) = false := by simpa using hq
    simp only [isDying, this] at h
    exact absurd h (by decide)

/-- The object is destroyed; its reference is still to be given up. -/
theorem kill_inv {w : World} {o : Obj} {c : Conn} {rest : List Act} (h : Inv w (.drop o :: rest)) (ho : w.obj? o = some c)
    (hl : c.loose = false) : Inv (w.setObj o none) (rel c.slot ++ rest) := by
  have hb := obj?_setObj ho none
  have hd : c.owner = .dying := by
    have := h.drops o
    rw [List.count_cons_self, ho] at this
    exact dying_of (by rw [← this]; omega)
  refine ⟨?_, h.pos, ?_, ?_, h.genLt, h.gens, ?_⟩
  · intro a
    have h1 := h.refs a
    rw [List.count_cons_of_ne (by simp)] at h1
    have h2 := handles_setObj ho none a
    have h3 : (rel c.slot).count (.release a) = (pointsTo a (some c)).toNat := by
      cases hc : c.slot with
      | none => simp [rel, pointsTo, hc]
      | some b =>
        by_cases hba : b = a
        · subst hba; simp [rel, pointsTo, hc, hl]
        · rw [rel, List.count_cons_of_ne (by simpa using hba)]
          have : (some b == some a) = false := by simpa using hba
          simp only [pointsTo, hc, hl, this]; rfl
    rw [List.count_append, h3]
    have h4 : (pointsTo a none).toNat = 0 := rfl
    have h5 : refsOf (w.setObj o none) a = refsOf w a := rfl
    have h6 : listedOf (w.setObj o none) a = listedOf w a := rfl
    omega
  · intro p
    have h1 := h.drops p
    have h2 : (rel c.slot).count (.drop p) = 0 := by
      cases c.slot with
      | none => rfl
      | some b => rw [rel, List.count_cons_of_ne (by simp)]; rfl
    rw [List.count_append, h2, hb p]
    by_cases hp : p = o
    · subst hp
      rw [List.count_cons_self, ho] at h1
      simp [isDying, hd] at h1
      rw [if_pos rfl, h1]; rfl
    · rw [List.count_cons_of_ne (by simpa using fun e => hp e.symm)] at h1
      rw [if_neg hp, ← h1]; omega
  · intro p d a hp
    rw [hb p] at hp
    split at hp
    · cases hp
    · exact h.owner p d a hp
  · intro p d hp
    rw [hb p] at hp
    split at hp
    · cases hp
    · exact h.made p d hp

theorem kill_cost {w : World} {o : Obj} {c : Conn} (ho : w.obj? o = some c) :
    (w.setObj o none).objs.countP Option.isSome + 1 = w.objs.countP Option.isSome := by
  have hl := obj?_lt ho
  have hg := obj?_get ho hl
  have hpos : 0 < w.objs.countP Option.isSome := List.countP_pos_iff.2 ⟨w.objs[o], List.getElem_mem hl, by rw [hg]; rfl⟩
  unfold World.setObj
  dsimp only
  rw [List.countP_set hl, hg]
  simp only [Option.isSome, if_true, Bool.false_eq_true, if_false]
  omega

theorem drop_inv {w : World} {o : Obj} {rest : List Act} (h : Inv w (.drop o :: rest)) (hL : LooseOk w) :
    ∃ w' new, drop w o = some (w', new) ∧ Inv w' (new ++ rest) ∧ LooseOk w' ∧ Keeps w w' ∧ cost w' (new ++ rest) < cost w (.drop o :: rest) := by
  have h1 := h.drops o
  rw [List.count_cons_self] at h1
  cases ho : w.obj? o with
  | none => rw [ho] at h1; simp [isDying] at h1
  | some c =>
    have hd : c.owner = .dying := by
      rw [ho] at h1
      exact dying_of (by rw [← h1]; omega)
    have hl : c.loose = false := by
      cases hq : c.loose with
      | false => rfl
      | true => have := hL o c ho hq; rw [hd] at this; cases this
    have hi := kill_inv h ho hl
    have hb := obj?_setObj ho none
    have hc := kill_cost ho
    have hL' : LooseOk (w.setObj o none) := by
      intro p d hp
      rw [hb p] at hp
      split at hp
      · cases hp
      · exact hL p d hp
    have hk : Keeps w (w.setObj o none) := by
      refine ⟨rfl, ?_, ?_⟩
      · intro p d hp hdc
        rw [hb p]
        rw [if_neg]
        · exact hp
        · intro e; subst e; rw [ho] at hp; cases hp; rw [hd] at hdc; cases hdc
      · intro p d hp
        rw [hb p] at hp
        split at hp
        · cases hp
        · exact ⟨d, hp, rfl, rfl, rfl, rfl⟩
    have hrest : (Act.drop o :: rest).countP Act.isRelease = rest.countP Act.isRelease := by
      simp [List.countP_cons, Act.isRelease]
    cases hs : c.slot with
    | none =>
      rw [hs] at hi
      refine ⟨w.setObj o none, [], by simp only [drop, ho, hs], hi, hL', hk, ?_⟩
      simp only [cost, List.nil_append, hrest]
      omega
    | some a =>
      rw [hs] at hi
      cases hg : c.guard with
      | false =>
        refine ⟨w.setObj o none, [.release a], by simp only [drop, ho, hs, hg]; rfl, hi, hL', hk, ?_⟩
        simp only [cost, List.countP_append, hrest]
        have : [Act.release a].countP Act.isRelease = 1 := rfl
        omega
      | true =>
        have h2 := hi.refs a
        cases hsl : (w.setObj o none).slots a with
        | none =>
          simp only [refsOf, hsl, rel, List.singleton_append, List.count_cons_self] at h2
          omega
        | some s =>
          obtain ⟨new, hu, hi', hn⟩ := unlist_inv hi hsl
          refine ⟨(w.setObj o none).setSlot a (some { s with listed := false }), new ++ [.release a],
            by simp only [drop, ho, hs, hg, hu]; rfl, ?_, hL', hk, ?_⟩
          · rw [List.append_assoc]; exact hi'
          · have h4 : new.countP Act.isRelease ≤ 1 := by
              rw [hn]; split <;> simp [List.countP_cons, Act.isRelease]
            simp only [cost, List.countP_append, hrest, setSlot_objs]
            have : [Act.release a].countP Act.isRelease = 1 := rfl
            omega

theorem step_inv {w : World} {x : Act} {rest : List Act} (h : Inv w (x :: rest)) (hL : LooseOk w) :
    ∃ w' new, step w x = some (w', new) ∧ Inv w' (new ++ rest) ∧ LooseOk w' ∧ Keeps w w' ∧ cost w' (new ++ rest) < cost w (x :: rest) := by
  cases x with
  | release a => exact release_inv h hL
  | drop o => exact drop_inv h hL

/-! ### All actions -/

theorem Keeps.refl (w : World) : Keeps w w := ⟨rfl, fun _ _ h _ => h, fun _ c h => ⟨c, h, rfl, rfl, rfl, rfl⟩⟩

theorem Keeps.trans {w w' w'' : World} (h : Keeps w w') (h' : Keeps w' w'') : Keeps w w'' := by
  refine ⟨h'.1.trans h.1, fun o c ho hc => h'.2.1 o c (h.2.1 o c ho hc) hc, ?_⟩
  intro o c'' ho
  obtain ⟨c', h1, h2, h3, h4, h5⟩ := h'.2.2 o c'' ho
  obtain ⟨c, g1, g2, g3, g4, g5⟩ := h.2.2 o c' h1
  exact ⟨c, g1, h2.trans g2, h3.trans g3, h4.trans g4, h5.trans g5⟩

/-- Destruction ends, without undefined behaviour. -/
theorem run_total (n : Nat) : ∀ {w : World} {acts : List Act}, cost w acts ≤ n → Inv w acts → LooseOk w →
    ∃ w', Run w acts (some w') ∧ Inv w' [] ∧ LooseOk w' ∧ Keeps w w' := by
  induction n with
  | zero =>
    intro w acts hn h hL
    cases acts with
    | nil => exact ⟨w, .done w, h, hL, Keeps.refl w⟩
    | cons x rest =>
      obtain ⟨_, _, _, _, _, _, hc⟩ := step_inv h hL
      omega
  | succ n ih =>
    intro w acts hn h hL
    cases acts with
    | nil => exact ⟨w, .done w, h, hL, Keeps.refl w⟩
    | cons x rest =>
      obtain ⟨w', new, h1, h2, h3, h4, hc⟩ := step_inv h hL
      obtain ⟨w'', g1, g2, g3, g4⟩ := ih (by omega) h2 h3
      exact ⟨w'', .more h1 g1, g2, g3, h4.trans g4⟩

theorem run_det {w : World} {acts : List Act} {r r' : Option World} (h : Run w acts r) (h' : Run w acts r') : r = r' := by
  induction h with
  | done w => cases h'; rfl
  | more h1 _ ih =>
    cases h' with
    | more g1 g2 => rw [h1] at g1; cases g1; exact ih g2
    | ub g1 => rw [h1] at g1; cases g1
  | ub h1 =>
    cases h' with
    | more g1 _ => rw [h1] at g1; cases g1
    | ub _ => rfl

end Verif.Handles
