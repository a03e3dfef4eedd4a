import Verif.Handles.Lemmas
import Verif.Handles.Spec
/-
C134: every allowed operation ends well and keeps the counts.
-/
namespace Verif.Handles

/-- Between operations. -/
structure Ok (w : World) : Prop where
  inv : Inv w []
  firm : ∀ o c, w.obj? o = some c → c.loose = false

theorem Ok.looseOk {w : World} (h : Ok w) : LooseOk w := fun o c ho hl => by rw [h.firm o c ho] at hl; cases hl

theorem Ok.notDying {w : World} (h : Ok w) {o : Obj} {c : Conn} (ho : w.obj? o = some c) : c.owner ≠ .dying := by
  intro hd
  have := h.inv.drops o
  rw [ho] at this
  simp [isDying, hd] at this

/-! ### Pieces -/

theorem setObj_inv {w : World} {o : Obj} {c c' : Conn} {acts acts' : List Act} (h : Inv w acts) (ho : w.obj? o = some c)
    (hr : ∀ a, (pointsTo a (some c)).toNat + acts.count (.release a) = (pointsTo a (some c')).toNat + acts'.count (.release a))
    (hd : ∀ p, p ≠ o → acts'.count (.drop p) = acts.count (.drop p))
    (hdo : acts'.count (.drop o) = (isDying (some c')).toNat)
    (hown : ∀ a, c'.owner = .target a → w.slots a ≠ none)
    (hm : c'.loose = false → c'.made = match c'.slot with | none => none | some a => (w.slots a).map (·.gen)) :
    Inv (w.setObj o (some c')) acts' := by
  have hb := obj?_setObj ho (some c')
  refine ⟨?_, h.pos, ?_, ?_, h.genLt, h.gens, ?_⟩
  · intro a
    have h1 := h.refs a
    have h2 := handles_setObj ho (some c') a
    have h3 := hr a
    have h5 : refsOf (w.setObj o (some c')) a = refsOf w a := rfl
    have h6 : listedOf (w.setObj o (some c')) a = listedOf w a := rfl
    omega
  · intro p
    rw [hb p]
    split
    · rename_i e; rw [e, hdo]
    · rename_i e; rw [hd p e, h.drops p]
  · intro p d a hp hpa
    rw [hb p] at hp
    split at hp
    · cases hp; exact hown a hpa
    · exact h.owner p d a hp hpa
  · intro p d hp hl
    rw [hb p] at hp
    split at hp
    · cases hp; exact hm hl
    · exact h.made p d hp hl

theorem rel_count (x : Option Addr) (c : Conn) (hl : c.loose = false) (hx : c.slot = x) (a : Addr) :
    (rel x).count (.release a) = (pointsTo a (some c)).toNat := by
  subst hx
  cases hc : c.slot with
  | none => simp [rel, pointsTo, hc]
  | some b =>
    by_cases hba : b = a
    · subst hba; simp [rel, pointsTo, hc, hl]
    · rw [rel, List.count_cons_of_ne (by simpa using hba)]
      have : (some b == some a) = false := by simpa using hba
      simp only [pointsTo, hc, hl, this]; rfl

theorem rel_drop (x : Option Addr) (o : Obj) : (rel x).count (.drop o) = 0 := by
  cases x with
  | none => rfl
  | some b => rw [rel, List.count_cons_of_ne (by simp)]; rfl

theorem pointsTo_none {a : Addr} {c : Conn} (h : c.slot = none) : (pointsTo a (some c)).toNat = 0 := by
  simp [pointsTo, h]

theorem pointsTo_loose {a : Addr} {c : Conn} (h : c.loose = true) : (pointsTo a (some c)).toNat = 0 := by
  simp [pointsTo, h]

theorem isDying_not {c : Conn} (h : c.owner ≠ .dying) : (isDying (some c)).toNat = 0 := by
  have : (c.owner == Owner.dying) = false := by simpa using h
  simp only [isDying, this]; rfl

theorem obj?_len (w : World) : w.obj? w.objs.length = none := by
  unfold World.obj?
  rw [List.getElem?_eq_none (Nat.le_refl _)]; rfl

theorem addObj_inv {w : World} {c : Conn} {acts : List Act} (h : Inv w (rel c.slot ++ acts)) (hl : c.loose = false)
    (ho : c.owner = .client) (hm : c.made = match c.slot with | none => none | some a => (w.slots a).map (·.gen)) :
    Inv (w.addObj c) acts := by
  have hb := obj?_addObj w c
  refine ⟨?_, h.pos, ?_, ?_, h.genLt, h.gens, ?_⟩
  · intro a
    have h1 := h.refs a
    rw [List.count_append, rel_count _ c hl rfl] at h1
    have h2 := handles_addObj w c a
    have h5 : refsOf (w.addObj c) a = refsOf w a := rfl
    have h6 : listedOf (w.addObj c) a = listedOf w a := rfl
    omega
  · intro p
    have h1 := h.drops p
    rw [List.count_append, rel_drop] at h1
    rw [hb p]
    split
    · rename_i e
      subst e
      rw [obj?_len] at h1
      rw [isDying_not (by rw [ho]; simp)]
      have : (isDying none).toNat = 0 := rfl
      omega
    · omega
  · intro p d a hp hpa
    rw [hb p] at hp
    split at hp
    · cases hp; rw [ho] at hpa; cases hpa
    · exact h.owner p d a hp hpa
  · intro p d hp hld
    rw [hb p] at hp
    split at hp
    · cases hp; exact hm
    · exact h.made p d hp hld

/-- One reference more. -/
theorem bump_inv {w : World} {a : Addr} {s : Slot} {acts : List Act} (h : Inv w acts) (hs : w.slots a = some s) :
    Inv (w.setSlot a (some { s with refs := s.refs + 1 })) (.release a :: acts) := by
  refine ⟨?_, ?_, ?_, ?_, ?_, ?_, ?_⟩
  · intro b
    have hb := h.refs b
    rw [handles_setSlot]
    by_cases hba : b = a
    · subst hba
      simp only [refsOf, listedOf, hs] at hb
      simp only [refsOf, listedOf, setSlot_slots, if_true, List.count_cons_self]
      omega
    · rw [List.count_cons_of_ne (by simpa using fun e => hba e.symm)]
      simp only [refsOf, listedOf, setSlot_slots, if_neg hba] at hb ⊢
      omega
  · intro b t hb
    rw [setSlot_slots] at hb
    split at hb
    · cases hb; dsimp only; omega
    · exact h.pos b t hb
  · intro o
    rw [List.count_cons_of_ne (by simp), setSlot_obj?, ← h.drops o]
  · intro o c b hb hob
    rw [setSlot_slots]
    split
    · simp
    · exact h.owner o c b hb hob
  · intro b t hb
    rw [setSlot_slots] at hb
    split at hb
    · cases hb; exact h.genLt a s hs
    · exact h.genLt b t hb
  · intro b c s' t hb hc hg
    rw [setSlot_slots] at hb hc
    split at hb <;> split at hc
    · simp_all
    · cases hb; rename_i e _; rw [e]; exact h.gens a c s t hs hc hg
    · cases hc; rename_i e; rw [e]; exact h.gens b a s' s hb hs hg
    · exact h.gens b c s' t hb hc hg
  · intro o c hb hl
    rw [h.made o c hb hl]
    cases c.slot with
    | none => rfl
    | some b =>
      dsimp only
      rw [setSlot_slots]
      split
      · rename_i e; rw [e, hs]; rfl
      · rfl

/-! ### The operations -/

theorem untouched_same {w w' : World} {q : Obj} (h : w'.obj? q = w.obj? q) : Untouched w w' q :=
  ⟨fun c hc _ => by rw [h, hc], fun c' hc' => ⟨c', by rw [← h, hc'], rfl, rfl, rfl⟩⟩

theorem new_ok {w : World} (h : Ok w) (g : Bool) : ∃ w', Does w (.new g) (some w') ∧ Ok w' ∧ Post w (.new g) w' := by
  refine ⟨_, .new w g, ⟨addObj_inv h.inv rfl rfl rfl, ?_⟩, ?_⟩
  · intro o c ho
    rw [obj?_addObj] at ho
    split at ho
    · cases ho; rfl
    · exact h.firm o c ho
  · intro q
    simp only [written]
    by_cases hq : q = w.objs.length
    · rw [if_pos hq]; dsimp only; rw [obj?_addObj, if_pos hq]
    · rw [if_neg hq]; dsimp only; apply untouched_same; rw [obj?_addObj, if_neg hq]

theorem connect_ok {w : World} (h : Ok w) {a : Addr} (ha : w.slots a = none) :
    ∃ w', Does w (.connect a) (some w') ∧ Ok w' ∧ Post w (.connect a) w' := by
  have hi : Inv { w.setSlot a (some ⟨2, true, w.next⟩) with next := w.next + 1 } [.release a] := by
    have h0 := h.inv.refs a
    simp only [refsOf, ha] at h0
    refine ⟨?_, ?_, ?_, ?_, ?_, ?_, ?_⟩
    · intro b
      have hb := h.inv.refs b
      have hh : handles { w.setSlot a (some ⟨2, true, w.next⟩) with next := w.next + 1 } b = handles w b := rfl
      rw [hh]
      by_cases hba : b = a
      · subst hba
        simp only [refsOf, listedOf, setSlot_slots, if_true, List.count_cons_self, List.count_nil, Bool.toNat_true]
        simp only [listedOf, ha, List.count_nil] at h0
        omega
      · rw [List.count_cons_of_ne (by simpa using fun e => hba e.symm)]
        simp only [refsOf, listedOf, setSlot_slots, if_neg hba] at hb ⊢
        exact hb
    · intro b t hb
      dsimp only at hb
      rw [setSlot_slots] at hb
      split at hb
      · cases hb; dsimp only; omega
      · exact h.inv.pos b t hb
    · intro o
      rw [List.count_cons_of_ne (by simp)]
      exact h.inv.drops o
    · intro o c b hb hob
      dsimp only
      rw [setSlot_slots]
      split
      · simp
      · exact h.inv.owner o c b hb hob
    · intro b t hb
      dsimp only at hb ⊢
      rw [setSlot_slots] at hb
      split at hb
      · cases hb; dsimp only; omega
      · have := h.inv.genLt b t hb; omega
    · intro b c s' t hb hc hg
      dsimp only at hb hc
      rw [setSlot_slots] at hb hc
      split at hb <;> split at hc
      · simp_all
      · cases hb; have := h.inv.genLt c t hc; dsimp only at hg; omega
      · cases hc; have := h.inv.genLt b s' hb; dsimp only at hg; omega
      · exact h.inv.gens b c s' t hb hc hg
    · intro o c hb hl
      rw [h.inv.made o c hb hl]
      cases hc : c.slot with
      | none => rfl
      | some b =>
        dsimp only
        rw [setSlot_slots]
        split
        · rename_i e
          subst e
          obtain ⟨s, hs⟩ := h.inv.there hb hl hc
          rw [ha] at hs; cases hs
        · rfl
  have hb := obj?_addObj { w.setSlot a (some ⟨2, true, w.next⟩) with next := w.next + 1 } ⟨some a, .client, false, some w.next, false⟩
  refine ⟨_, .connect ha, ⟨addObj_inv (c := ⟨some a, .client, false, some w.next, false⟩) hi rfl rfl ?_, ?_⟩, ?_⟩
  · dsimp only
    rw [setSlot_slots, if_pos rfl]; rfl
  · intro o c ho
    replace ho := (hb o).symm.trans ho
    split at ho
    · cases ho; rfl
    · exact h.firm o c ho
  · intro q
    simp only [written]
    by_cases hq : q = w.objs.length
    · rw [if_pos hq]; exact (hb q).trans (if_pos hq)
    · rw [if_neg hq]; exact untouched_same ((hb q).trans (if_neg hq))

theorem copy_ok {w : World} (h : Ok w) {o : Obj} {c : Conn} (ho : w.obj? o = some c) (hg : c.guard = false) :
    ∃ w', Does w (.copy o) (some w') ∧ Ok w' ∧ Post w (.copy o) w' := by
  have hl := h.firm o c ho
  have hm := h.inv.made o c ho hl
  cases hc : c.slot with
  | none =>
    rw [hc] at hm
    refine ⟨_, .copyEmpty ho hg hc, ⟨addObj_inv h.inv rfl rfl hm, ?_⟩, ?_⟩
    · intro p d hp
      rw [obj?_addObj] at hp
      split at hp
      · cases hp; rfl
      · exact h.firm p d hp
    · intro q
      simp only [written]
      by_cases hq : q = w.objs.length
      · rw [if_pos hq]; dsimp only; rw [obj?_addObj, if_pos hq, ho, Option.map_some, hc]
      · rw [if_neg hq]; dsimp only; apply untouched_same; rw [obj?_addObj, if_neg hq]
  | some a =>
    rw [hc] at hm
    obtain ⟨s, hs⟩ := h.inv.there ho hl hc
    refine ⟨_, .copy ho hg hc hs, ⟨addObj_inv (bump_inv h.inv hs) rfl rfl ?_, ?_⟩, ?_⟩
    · dsimp only
      rw [setSlot_slots, if_pos rfl, hm]; dsimp only; rw [hs]; rfl
    · intro p d hp
      rw [obj?_addObj] at hp
      split at hp
      · cases hp; rfl
      · exact h.firm p d hp
    · intro q
      simp only [written]
      by_cases hq : q = w.objs.length
      · rw [if_pos hq]; dsimp only; rw [obj?_addObj, setSlot_objs, if_pos hq, ho, Option.map_some, hc]
      · rw [if_neg hq]; dsimp only; apply untouched_same; rw [obj?_addObj, setSlot_objs, if_neg hq]; rfl

/-- An object's reference is taken away from it. -/
theorem take_inv {w : World} {o : Obj} {c : Conn} {acts : List Act} (h : Inv w acts) (ho : w.obj? o = some c) (hl : c.loose = false) :
    Inv (w.setObj o (some { c with slot := none, made := none })) (rel c.slot ++ acts) := by
  refine setObj_inv h ho ?_ ?_ ?_ (fun a => h.owner o c a ho) (fun _ => rfl)
  · intro a
    rw [List.count_append, rel_count _ c hl rfl, pointsTo_none (c := { c with slot := none, made := none }) rfl]; omega
  · intro p _
    rw [List.count_append, rel_drop]; omega
  · have := h.drops o
    rw [List.count_append, rel_drop, this, ho, Nat.zero_add]; rfl

/-- An object without a reference gets one. -/
theorem put_inv {w : World} {o : Obj} {c : Conn} {x : Option Addr} {m : Option Nat} {acts : List Act} (h : Inv w (rel x ++ acts))
    (ho : w.obj? o = some c) (hc : c.loose = true ∨ c.slot = none)
    (hm : m = match (generalizing := false) x with | none => none | some a => (w.slots a).map (·.gen)) :
    Inv (w.setObj o (some { c with slot := x, made := m, loose := false })) acts := by
  refine setObj_inv h ho ?_ ?_ ?_ (fun a => h.owner o c a ho) (fun _ => hm)
  · intro a
    rw [List.count_append, rel_count x { c with slot := x, made := m, loose := false } rfl rfl]
    have : (pointsTo a (some c)).toNat = 0 := by
      cases hc with
      | inl h => exact pointsTo_loose h
      | inr h => exact pointsTo_none h
    omega
  · intro p _
    rw [List.count_append, rel_drop]; omega
  · have := h.drops o
    rw [List.count_append, rel_drop, ho] at this
    rw [Nat.zero_add] at this
    rw [this]; rfl

theorem move_ok {w : World} (h : Ok w) {o : Obj} {c : Conn} (ho : w.obj? o = some c) (g : Bool) :
    ∃ w', Does w (.move o g) (some w') ∧ Ok w' ∧ Post w (.move o g) w' := by
  have hl := h.firm o c ho
  have hlt := obj?_lt ho
  have hb := obj?_setObj ho (some { c with slot := none, made := none })
  have hlen : (w.setObj o (some { c with slot := none, made := none })).objs.length = w.objs.length := by
    simp [World.setObj]
  refine ⟨_, .move ho, ⟨addObj_inv (take_inv h.inv ho hl) rfl rfl (h.inv.made o c ho hl), ?_⟩, ?_⟩
  · intro p d hp
    rw [obj?_addObj] at hp
    split at hp
    · cases hp; rfl
    · rw [hb p] at hp
      split at hp
      · cases hp; exact hl
      · exact h.firm p d hp
  · intro q
    simp only [written]
    by_cases hq : q = w.objs.length
    · rw [if_pos hq]; dsimp only; rw [obj?_addObj, hlen, if_pos hq, ho, Option.map_some]
    · rw [if_neg hq]
      by_cases hqo : q = o
      · rw [if_pos hqo]; dsimp only; rw [obj?_addObj, hlen, if_neg hq, hb, if_pos hqo, ho, Option.map_some]
      · rw [if_neg hqo]; apply untouched_same; rw [obj?_addObj, hlen, if_neg hq, hb, if_neg hqo]

theorem set_comm3 (w : World) {o p : Obj} (hop : o ≠ p) (x y z : Option Conn) :
    ((w.setObj o x).setObj p y).setObj o z = (w.setObj o z).setObj p y := by
  simp only [World.setObj]
  rw [List.set_comm _ _ hop, List.set_set, List.set_comm _ _ (fun e => hop e.symm)]

theorem swap_ok {w : World} (h : Ok w) {o p : Obj} {c d : Conn} (ho : w.obj? o = some c) (hp : w.obj? p = some d)
    (hg : c.guard = d.guard) : ∃ w', Does w (.swap o p) (some w') ∧ Ok w' ∧ Post w (.swap o p) w' := by
  have hb1 := obj?_setObj ho (some { c with slot := d.slot, made := d.made })
  have hlc := h.firm o c ho
  have hld := h.firm p d hp
  by_cases hop : o = p
  · subst hop
    rw [ho] at hp
    cases hp
    have e : (w.setObj o (some { c with slot := c.slot, made := c.made })).setObj o (some { c with slot := c.slot, made := c.made }) = w := by
      have h1 := obj?_lt ho
      simp only [World.setObj, List.set_set]
      rw [← obj?_get ho h1, List.set_getElem_self]
    have := Does.swap ho ho hg
    rw [e] at this
    refine ⟨_, this, h, ?_⟩
    intro q
    simp only [written]
    by_cases hq : q = o
    · rw [if_pos hq, hq, ho]; rfl
    · rw [if_neg hq, if_neg hq]; exact untouched_same rfl
  · have hp1 : (w.setObj o (some { c with slot := d.slot, made := d.made })).obj? p = some d := by
      rw [hb1, if_neg (fun e => hop e.symm), hp]
    have hb2 := obj?_setObj hp1 (some { d with slot := c.slot, made := c.made })
    refine ⟨_, .swap ho hp hg, ⟨?_, ?_⟩, ?_⟩
    · have i1 := take_inv h.inv ho hlc
      have b1 := obj?_setObj ho (some { c with slot := none, made := none })
      have p1 : (w.setObj o (some { c with slot := none, made := none })).obj? p = some d := by
        rw [b1, if_neg (fun e => hop e.symm), hp]
      have b2 := obj?_setObj p1 (some { d with slot := c.slot, made := c.made })
      have i2 : Inv ((w.setObj o (some { c with slot := none, made := none })).setObj p (some { d with slot := c.slot, made := c.made }))
          (rel d.slot ++ []) := by
        refine setObj_inv i1 p1 ?_ ?_ ?_ (fun a => i1.owner p d a p1) (fun _ => h.inv.made o c ho hlc)
        · intro a
          rw [List.append_nil, List.append_nil, rel_count _ c hlc rfl, rel_count _ d hld rfl]
          have : (pointsTo a (some { d with slot := c.slot, made := c.made })).toNat = (pointsTo a (some c)).toNat := by
            simp [pointsTo, hlc, hld]
          omega
        · intro q _
          rw [List.append_nil, List.append_nil, rel_drop, rel_drop]
        · have := i1.drops p
          rw [List.append_nil, rel_drop, p1] at this
          rw [List.append_nil, rel_drop, this]; rfl
      have o2 : ((w.setObj o (some { c with slot := none, made := none })).setObj p (some { d with slot := c.slot, made := c.made })).obj? o
          = some { c with slot := none, made := none } := by
        rw [b2, if_neg hop, b1, if_pos rfl]
      have i3 := put_inv (x := d.slot) (m := d.made) i2 o2 (.inr rfl) (h.inv.made p d hp hld)
      rw [set_comm3 w hop] at i3
      have : ({ c with slot := d.slot, made := d.made, loose := false } : Conn) = { c with slot := d.slot, made := d.made } := by
        rw [← hlc]
      rw [show ({ ({ c with slot := none, made := none } : Conn) with slot := d.slot, made := d.made, loose := false } : Conn) =
        { c with slot := d.slot, made := d.made } from this] at i3
      exact i3
    · intro q e hq
      rw [hb2] at hq
      split at hq
      · cases hq; exact hld
      · rw [hb1] at hq
        split at hq
        · cases hq; exact hlc
        · exact h.firm q e hq
    · intro q
      simp only [written]
      by_cases hqo : q = o
      · rw [if_pos hqo]; dsimp only; rw [hb2, if_neg (by rw [hqo]; exact hop), hb1, if_pos hqo, ho, hp]; rfl
      · rw [if_neg hqo]
        by_cases hqp : q = p
        · rw [if_pos hqp]; dsimp only; rw [hb2, if_pos hqp, ho, hp]; rfl
        · rw [if_neg hqp]; apply untouched_same; rw [hb2, if_neg hqp, hb1, if_neg hqo]

theorem give_ok {w : World} (h : Ok w) {o : Obj} {c : Conn} {a : Addr} (ho : w.obj? o = some c) (hc : c.owner = .client)
    (ha : w.slots a ≠ none) : ∃ w', Does w (.give o a) (some w') ∧ Ok w' ∧ Post w (.give o a) w' := by
  have hl := h.firm o c ho
  have hb := obj?_setObj ho (some { c with owner := .target a })
  cases hs : w.slots a with
  | none => exact absurd hs ha
  | some s =>
    refine ⟨_, .give ho hc hs, ⟨setObj_inv h.inv ho ?_ ?_ ?_ ?_ ?_, ?_⟩, ?_⟩
    · intro b; rfl
    · intro p _; rfl
    · rfl
    · intro b hb; cases hb; exact ha
    · exact fun _ => h.inv.made o c ho hl
    · intro q e hq
      rw [hb] at hq
      split at hq
      · cases hq; exact hl
      · exact h.firm q e hq
    · intro q
      simp only [written]
      by_cases hqo : q = o
      · rw [if_pos hqo]; dsimp only; rw [hb, if_pos hqo, ho]; rfl
      · rw [if_neg hqo]; apply untouched_same; rw [hb, if_neg hqo]

theorem Keeps.untouched {w w' : World} (h : Keeps w w') (q : Obj) : Untouched w w' q :=
  ⟨fun c => h.2.1 q c, fun c' hc' => by
    obtain ⟨c, h1, h2, h3, _, h5⟩ := h.2.2 q c' hc'
    exact ⟨c, h1, h2, h3, h5⟩⟩

theorem Untouched.congr {w w1 w' : World} {q : Obj} (h : Untouched w1 w' q) (e : w1.obj? q = w.obj? q) : Untouched w w' q := by
  unfold Untouched at h ⊢
  rw [← e]; exact h

theorem unlist_ok {w : World} (h : Ok w) {a : Addr} (ha : w.slots a ≠ none) :
    ∃ w', Does w (.unlist a) (some w') ∧ Ok w' ∧ Post w (.unlist a) w' := by
  cases hs : w.slots a with
  | none => exact absurd hs ha
  | some s =>
    obtain ⟨new, h1, h2, _⟩ := unlist_inv h.inv hs
    rw [List.append_nil] at h2
    obtain ⟨w', g1, g2, g3, g4⟩ := run_total _ (Nat.le_refl _) h2 h.looseOk
    refine ⟨w', .unlist h1 g1, ⟨g2, ?_⟩, ?_⟩
    · intro o c ho
      obtain ⟨d, e1, _, _, e2, _⟩ := g4.2.2 o c ho
      rw [e2]; exact h.firm o d e1
    · intro q; exact (g4.untouched q).congr rfl

theorem destroy_ok {w : World} (h : Ok w) {o : Obj} {c : Conn} (ho : w.obj? o = some c) (hc : c.owner = .client) :
    ∃ w', Does w (.destroy o) (some w') ∧ Ok w' ∧ Post w (.destroy o) w' := by
  have hl := h.firm o c ho
  have hb := obj?_setObj ho (some { c with owner := .dying })
  have hi : Inv (w.setObj o (some { c with owner := .dying })) [.drop o] := by
    refine setObj_inv h.inv ho ?_ ?_ ?_ ?_ ?_
    · intro a; rw [List.count_cons_of_ne (by simp)]; rfl
    · intro p hp; rw [List.count_cons_of_ne (by simpa using fun e => hp e.symm)]
    · rw [List.count_cons_self]; rfl
    · intro a ha; cases ha
    · exact fun _ => h.inv.made o c ho hl
  have hL : LooseOk (w.setObj o (some { c with owner := .dying })) := by
    intro p d hp hd
    rw [hb] at hp
    split at hp
    · cases hp; rw [hl] at hd; cases hd
    · exact h.looseOk p d hp hd
  obtain ⟨w', g1, g2, g3, g4⟩ := run_total _ (Nat.le_refl _) hi hL
  have hgone : w'.obj? o = none := by
    cases g1 with
    | @more _ v _ m _ _ s1 r1 =>
      obtain ⟨w1, n1, t1, t2, t3, t4, _⟩ := drop_inv hi hL
      have e := s1.symm.trans (show step _ (.drop o) = _ from t1)
      cases e
      obtain ⟨w2, u1, u2, u3, u4⟩ := run_total _ (Nat.le_refl _) t2 t3
      have := run_det r1 u1
      cases this
      cases hq : w'.obj? o with
      | none => rfl
      | some x =>
        exfalso
        obtain ⟨y, y1, _⟩ := u4.2.2 o x hq
        have hd2 : (w.setObj o (some { c with owner := .dying })).obj? o = some { c with owner := .dying } := by rw [hb, if_pos rfl]
        have hn : ((w.setObj o (some { c with owner := .dying })).setObj o none).obj? o = none := by
          rw [obj?_setObj hd2, if_pos rfl]
        have hw1 : v.obj? o = none := by
          unfold drop at t1
          rw [hd2] at t1
          dsimp only at t1
          cases hcs : c.slot with
          | none => rw [hcs] at t1 hn; cases t1; exact hn
          | some a =>
            rw [hcs] at t1 hn
            dsimp only at t1
            split at t1
            · unfold unlist at t1
              split at t1
              · cases t1
              · rename_i w3 acts3 e3
                split at e3
                · cases e3
                · cases e3; cases t1; exact hn
            · cases t1; exact hn
        rw [hw1] at y1; cases y1
  refine ⟨w', .destroy ho hc g1, ⟨g2, ?_⟩, ?_⟩
  · intro p d hp
    obtain ⟨e, e1, _, _, e2, _⟩ := g4.2.2 p d hp
    rw [e2]
    rw [hb] at e1
    split at e1
    · cases e1; exact hl
    · exact h.firm p e e1
  · intro q
    simp only [written]
    by_cases hq : q = o
    · rw [if_pos hq, hq]; exact hgone
    · rw [if_neg hq]; exact (g4.untouched q).congr (by rw [hb, if_neg hq])

/-- The second half of an assignment. -/
theorem load_ok {w : World} (h : Inv w []) {o p : Obj} {c d : Conn} (ho : w.obj? o = some c) (hc : c.loose = true ∨ c.slot = none)
    (hp : w.obj? p = some d) (hd : d.loose = false) :
    ∃ w', load w o p = some w' ∧ Inv w' [] ∧
      ∀ q, w'.obj? q = if q = o then some { c with slot := d.slot, made := d.made, loose := false } else w.obj? q := by
  have hm := h.made p d hp hd
  cases hs : d.slot with
  | none =>
    rw [hs] at hm
    refine ⟨_, by simp only [load, ho, hp, hs], put_inv (x := none) h ho hc hm, obj?_setObj ho _⟩
  | some b =>
    obtain ⟨s, hb⟩ := h.there hp hd hs
    rw [hs] at hm
    have ho' : (w.setSlot b (some { s with refs := s.refs + 1 })).obj? o = some c := ho
    refine ⟨_, by simp only [load, ho, hp, hs, hb], put_inv (x := some b) (bump_inv h hb) ho' hc ?_, obj?_setObj ho' _⟩
    dsimp only
    rw [setSlot_slots, if_pos rfl, hm]
    dsimp only
    rw [hb]; rfl

/-- An object gives up its reference, and has not been written to yet. -/
theorem loosen_inv {w : World} (h : Ok w) {o : Obj} {c : Conn} {a : Addr} (ho : w.obj? o = some c) (hs : c.slot = some a) :
    Inv (w.setObj o (some { c with loose := true })) [.release a] := by
  have hl := h.firm o c ho
  refine setObj_inv h.inv ho ?_ ?_ ?_ (fun b => h.inv.owner o c b ho) (fun e => by cases e)
  · intro b
    rw [← rel_count _ c hl hs b, pointsTo_loose (c := { c with loose := true }) rfl]
    simp [rel]
  · intro p _
    rw [List.count_cons_of_ne (by simp)]
  · rw [List.count_cons_of_ne (by simp), isDying_not (c := { c with loose := true }) (show c.owner ≠ .dying from h.notDying ho)]; rfl

theorem loosen_looseOk {w : World} (h : Ok w) {o : Obj} {c : Conn} (ho : w.obj? o = some c) (hc : c.owner = .client) :
    LooseOk (w.setObj o (some { c with loose := true })) := by
  intro p d hp hd
  rw [obj?_setObj ho] at hp
  split at hp
  · cases hp; exact hc
  · exact h.looseOk p d hp hd

/-- What is known when the references have been given up. -/
theorem finish {w w' : World} (h : Ok w) {o : Obj} {c : Conn} (ho : w.obj? o = some c)
    (hk : Keeps (w.setObj o (some { c with loose := true })) w') {x : Conn} {w'' : World}
    (hq : ∀ q, w''.obj? q = if q = o then some x else w'.obj? q) (hx : x.loose = false) :
    (∀ q d, w''.obj? q = some d → d.loose = false) ∧ ∀ q, q ≠ o → Untouched w w'' q := by
  have hb := obj?_setObj ho (some { c with loose := true })
  constructor
  · intro q d hd
    rw [hq] at hd
    split at hd
    · cases hd; exact hx
    · rename_i hne
      obtain ⟨e, e1, _, _, e2, _⟩ := hk.2.2 q d hd
      rw [hb, if_neg hne] at e1
      rw [e2]; exact h.firm q e e1
  · intro q hne
    have h1 := (hk.untouched q).congr (w := w) (by rw [hb, if_neg hne])
    refine ⟨fun c hc ho => ?_, fun c' hc' => ?_⟩
    · rw [hq, if_neg hne]; exact h1.1 c hc ho
    · rw [hq, if_neg hne] at hc'; exact h1.2 c' hc'

theorem assign_ok {w : World} (h : Ok w) {o p : Obj} {c d : Conn} (ho : w.obj? o = some c) (hp : w.obj? p = some d)
    (hg : c.guard = false) (hr : c.owner = .client ∧ d.owner = .client ∨ Stays w c fun _ => 1) :
    ∃ w', Does w (.assign o p) (some w') ∧ Ok w' ∧ Post w (.assign o p) w' := by
  have hlc := h.firm o c ho
  have hld := h.firm p d hp
  by_cases hop : o = p
  · subst hop
    rw [ho] at hp
    cases hp
    refine ⟨w, .assignSelf ho, h, ?_⟩
    intro q
    simp only [written]
    by_cases hq : q = o
    · rw [if_pos hq, hq, ho]; rfl
    · rw [if_neg hq]; exact untouched_same rfl
  · have hpo : p ≠ o := fun e => hop e.symm
    cases hs : c.slot with
    | none =>
      obtain ⟨w', g1, g2, g3⟩ := load_ok h.inv ho (.inr hs) hp hld
      have := Does.assignEmpty (p := p) hop ho hg hs
      rw [g1] at this
      refine ⟨w', this, ⟨g2, ?_⟩, ?_⟩
      · intro q e hq
        rw [g3] at hq
        split at hq
        · cases hq; rfl
        · exact h.firm q e hq
      · intro q
        simp only [written]
        by_cases hq : q = o
        · rw [if_pos hq]; dsimp only; rw [g3, if_pos hq, ho, hp]
          simp only [Option.bind_some, Option.map_some, hlc]
        · rw [if_neg hq]; apply untouched_same; rw [g3, if_neg hq]
    | some a =>
      have hb := obj?_setObj ho (some { c with loose := true })
      have hi := loosen_inv h ho hs
      have hrun : ∃ w1, Run (w.setObj o (some { c with loose := true })) [.release a] (some w1) ∧ Inv w1 [] ∧
          Keeps (w.setObj o (some { c with loose := true })) w1 ∧ w1.obj? o = some { c with loose := true } ∧ w1.obj? p = some d := by
        cases hr with
        | inl hcl =>
          obtain ⟨w1, r1, r2, _, r4⟩ := run_total _ (Nat.le_refl _) hi (loosen_looseOk h ho hcl.1)
          refine ⟨w1, r1, r2, r4, r4.2.1 o _ (by rw [hb, if_pos rfl]) hcl.1, r4.2.1 p _ (by rw [hb, if_neg hpo, hp]) hcl.2⟩
        | inr hst =>
          obtain ⟨s, hsl⟩ := h.inv.there ho hlc hs
          have h1 : 1 < s.refs := hst a s hs hsl
          obtain ⟨d1, d2, _⟩ := release_dec hi (s := s) hsl (by omega)
          exact ⟨_, .more d1 (.done _), d2, ⟨rfl, fun q e hq _ => hq, fun q e hq => ⟨e, hq, rfl, rfl, rfl, rfl⟩⟩,
            by rw [setSlot_obj?, hb, if_pos rfl], by rw [setSlot_obj?, hb, if_neg hpo, hp]⟩
      obtain ⟨w1, r1, r2, r3, r4, r5⟩ := hrun
      obtain ⟨w', g1, g2, g3⟩ := load_ok r2 r4 (.inl rfl) r5 hld
      have := Does.assign (p := p) hop ho hg hs r1
      rw [g1] at this
      obtain ⟨f1, f2⟩ := finish h ho r3 g3 rfl
      refine ⟨w', this, ⟨g2, f1⟩, ?_⟩
      intro q
      simp only [written]
      by_cases hq : q = o
      · rw [if_pos hq]; dsimp only; rw [g3, if_pos hq, ho, hp]
        simp only [Option.bind_some, Option.map_some, hlc]
      · rw [if_neg hq]; exact f2 q hq

theorem disconnect_ok {w : World} (h : Ok w) {o : Obj} {c : Conn} (ho : w.obj? o = some c)
    (hr : c.owner = .client ∨ Stays w c fun s => s.listed.toNat + 1) :
    ∃ w', Does w (.disconnect o) (some w') ∧ Ok w' ∧ Post w (.disconnect o) w' := by
  have hlc := h.firm o c ho
  cases hs : c.slot with
  | none =>
    refine ⟨w, .disconnectEmpty ho hs, h, ?_⟩
    intro q
    simp only [written]
    by_cases hq : q = o
    · have hm := h.inv.made o c ho hlc
      rw [hs] at hm
      rw [if_pos hq, hq, ho]
      dsimp only at hm ⊢
      rw [Option.map_some]
      cases c
      dsimp only at hs hm
      rw [hs, hm]
    · rw [if_neg hq]; exact untouched_same rfl
  | some a =>
    have hb := obj?_setObj ho (some { c with loose := true })
    have hi := loosen_inv h ho hs
    obtain ⟨s, hsl⟩ := h.inv.there ho hlc hs
    obtain ⟨new, u1, u2, u3⟩ := unlist_inv hi (s := s) hsl
    have hrun : ∃ w1, Run ((w.setObj o (some { c with loose := true })).setSlot a (some { s with listed := false })) (new ++ [.release a]) (some w1) ∧
        Inv w1 [] ∧ Keeps (w.setObj o (some { c with loose := true })) w1 ∧ w1.obj? o = some { c with loose := true } := by
      cases hr with
      | inl hcl =>
        obtain ⟨w1, r1, r2, _, r4⟩ := run_total _ (Nat.le_refl _) u2 (show LooseOk _ from loosen_looseOk h ho hcl)
        exact ⟨w1, r1, r2, r4, r4.2.1 o _ (by rw [setSlot_obj?, hb, if_pos rfl]) hcl⟩
      | inr hst =>
        have h1 : s.listed.toNat + 1 < s.refs := hst a s hs hsl
        cases hl : s.listed with
        | false =>
          rw [hl] at u3 h1
          subst u3
          have h2 : 1 < s.refs := by simpa using h1
          obtain ⟨d1, d2, _⟩ := release_dec (rest := []) u2 (s := { s with listed := false }) (by rw [setSlot_slots, if_pos rfl])
            (by dsimp only; omega)
          exact ⟨_, .more d1 (.done _), d2, ⟨rfl, fun q e hq _ => hq, fun q e hq => ⟨e, hq, rfl, rfl, rfl, rfl⟩⟩,
            by rw [setSlot_obj?, setSlot_obj?, hb, if_pos rfl]⟩
        | true =>
          rw [hl] at u3 h1
          subst u3
          have h2 : 2 < s.refs := by simpa using h1
          obtain ⟨d1, d2, _⟩ := release_dec (rest := [.release a]) u2 (s := { s with listed := false }) (by rw [setSlot_slots, if_pos rfl])
            (by dsimp only; omega)
          obtain ⟨e1, e2, _⟩ := release_dec (rest := []) d2 (s := { s with listed := false, refs := s.refs - 1 })
            (by rw [setSlot_slots, if_pos rfl]) (by dsimp only; omega)
          exact ⟨_, .more d1 (.more e1 (.done _)), e2, ⟨rfl, fun q e hq _ => hq, fun q e hq => ⟨e, hq, rfl, rfl, rfl, rfl⟩⟩,
            by rw [setSlot_obj?, setSlot_obj?, setSlot_obj?, hb, if_pos rfl]⟩
    obtain ⟨w1, r1, r2, r3, r4⟩ := hrun
    have hcl : clear w1 o = some (w1.setObj o (some { c with slot := none, made := none, loose := false })) := by
      simp only [clear, r4]
    have := Does.disconnect ho hs u1 r1
    rw [hcl] at this
    obtain ⟨f1, f2⟩ := finish h ho r3 (obj?_setObj r4 (some { c with slot := none, made := none, loose := false })) rfl
    refine ⟨_, this, ⟨put_inv (c := { c with loose := true }) (x := none) (m := none) r2 r4 (.inl rfl) rfl, f1⟩, ?_⟩
    intro q
    simp only [written]
    by_cases hq : q = o
    · rw [if_pos hq]; dsimp only; rw [obj?_setObj r4, if_pos hq, ho]
      simp only [Option.map_some, hlc]
    · rw [if_neg hq]; exact f2 q hq

/-- Every allowed operation. -/
theorem op_ok {w : World} (h : Ok w) {op : Op} (ha : Allowed w op) : ∃ w', Does w op (some w') ∧ Ok w' ∧ Post w op w' := by
  cases op with
  | new g => exact new_ok h g
  | connect a => exact connect_ok h ha
  | copy o => obtain ⟨c, h1, h2⟩ := ha; exact copy_ok h h1 h2
  | move o g => obtain ⟨c, h1⟩ := ha; exact move_ok h h1 g
  | assign o p => obtain ⟨c, d, h1, h2, h3, _, h4⟩ := ha; exact assign_ok h h1 h2 h3 h4
  | swap o p => obtain ⟨c, d, h1, h2, h3⟩ := ha; exact swap_ok h h1 h2 h3
  | disconnect o => obtain ⟨c, h1, h2⟩ := ha; exact disconnect_ok h h1 h2
  | destroy o => obtain ⟨c, h1, h2⟩ := ha; exact destroy_ok h h1 h2
  | unlist a => exact unlist_ok h ha
  | give o a => obtain ⟨c, h1, h2, h3⟩ := ha; exact give_ok h h1 h2 h3

theorem does_det {w : World} {op : Op} {r r' : Option World} (h : Does w op r) (h' : Does w op r') : r = r' := by
  cases h <;> cases h' <;> simp_all <;> grind [run_det]

theorem reach_ok {w : World} (h : Reach w) : Ok w := by
  induction h with
  | init =>
    refine ⟨⟨?_, ?_, ?_, ?_, ?_, ?_, ?_⟩, ?_⟩
    · intro a; rfl
    · intro a s hs; cases hs
    · intro o; rfl
    · intro o c a ho; cases ho
    · intro a s hs; cases hs
    · intro a b s t hs; cases hs
    · intro o c ho; cases ho
    · intro o c ho; cases ho
  | step _ ha hd ih =>
    obtain ⟨w', h1, h2, _⟩ := op_ok ih ha
    have := does_det hd h1
    cases this
    exact h2

end Verif.Handles
