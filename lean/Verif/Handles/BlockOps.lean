import Verif.Handles.BlockLemmas
/-
Lemmas for C136: every function, with blockers among the objects.
-/
namespace Verif.Handles

structure BOk (W : BWorld) : Prop where
  base : Ok W.base
  inv : BInv W

/-- The operation makes an object. -/
def creates : Op → Bool
  | .new _ | .connect _ | .copy _ | .move _ _ => true
  | _ => false

/-- What is shown of every function. -/
structure Good (W : BWorld) (op : BOp) (W' : BWorld) : Prop where
  does : Does W.base (asConn op) (some W'.base)
  inv : BInv W'
  old : ∀ q, q < W.base.objs.length → W'.isB q = W.isB q
  new : creates (asConn op) = true → W'.isB W.base.objs.length = makesB op

def Outcome (W : BWorld) (op : BOp) : Prop :=
  (∃ W', BDoes W op (some W') ∧ Good W op W') ∨ (BDoes W op none ∧ ¬ Fewer W)

/-! ### Connections, nothing released -/

theorem hit_len (W : BWorld) (b : Addr) : hit W b W.base.objs.length = false := by
  simp [hit, obj?_len, pointsTo]

theorem after_inv {W : BWorld} (h : BInv W) {op : Op} {w' : World}
    (hpt : ∀ q b, q ≠ W.base.objs.length → W.isB q = true → pointsTo b (w'.obj? q) = pointsTo b (W.base.obj? q))
    (hgd : ∀ q c, q ≠ W.base.objs.length → W.isB q = true → w'.obj? q = some c → c.guard = false)
    (hnew : ∀ a, op = .connect a → bcount W a = 0) : BInv (W.after op w') := by
  have hp : ∀ b q, hit (W.after op w') b q = hit W b q := by
    intro b q
    by_cases hq : q = W.base.objs.length
    · subst hq; rw [hit_len]; simp [hit, BWorld.after]
    · simp only [hit, BWorld.after, if_neg hq]
      cases hb : W.isB q with
      | false => rfl
      | true => rw [hpt q b hq hb]
  refine ⟨?_, ?_⟩
  · intro b
    rw [bcount_same (hp b)]
    have h0 : (W.after op w').blocks b = W.blocks b ∨ op = .connect b ∧ (W.after op w').blocks b = 0 := by
      cases op with
      | connect a =>
        by_cases hba : b = a
        · subst hba; exact .inr ⟨rfl, by simp [BWorld.after]⟩
        · exact .inl (by simp [BWorld.after, hba])
      | _ => exact .inl rfl
    cases h0 with
    | inl e => rw [e]; exact h.cnt b
    | inr e => rw [e.2, hnew b e.1]; rfl
  · intro q c hq hb
    simp only [BWorld.after] at hq hb
    split at hb
    · cases hb
    · rename_i hne
      exact hgd q c hne hb hq

theorem bcount_gone {W : BWorld} (h : Ok W.base) {a : Addr} (ha : W.base.slots a = none) : bcount W a = 0 := by
  cases hz : bcount W a with
  | zero => rfl
  | succ n =>
    exfalso
    have hp : 0 < bcount W a := by omega
    obtain ⟨q, hq, hh⟩ := List.countP_pos_iff.1 hp
    simp only [hit, Bool.and_eq_true] at hh
    cases ho : W.base.obj? q with
    | none => rw [ho] at hh; simp [pointsTo] at hh
    | some c =>
      rw [ho] at hh
      simp only [pointsTo, Bool.and_eq_true, beq_iff_eq] at hh
      obtain ⟨s, hs⟩ := h.inv.there ho (h.firm q c ho) hh.2.2
      rw [ha] at hs; cases hs

theorem quiet_ok {W : BWorld} (h : BOk W) {op : Op} (hq : quiet op = true) (hp : plain W op = true) (ha : Allowed W.base op) :
    Outcome W (.conn op) := by
  obtain ⟨w', hd, _, _⟩ := op_ok h.base ha
  refine .inl ⟨W.after op w', .quiet (r := some w') hq hp hd, hd, ?_, fun q hq => if_neg (Nat.ne_of_lt hq), fun _ => if_pos rfl⟩
  generalize hres : some w' = res at hd
  cases hd with
  | new g =>
    cases hres
    refine after_inv h.inv ?_ ?_ (fun _ e => by cases e)
    · intro q b hn _; rw [obj?_addObj, if_neg hn]
    · intro q c hn hb hc; rw [obj?_addObj, if_neg hn] at hc; exact h.inv.guard q c hc hb
  | connect hs =>
    cases hres
    refine after_inv h.inv ?_ ?_ (fun _ e => by cases e; exact bcount_gone h.base hs)
    · intro q b hn _
      show pointsTo b ((World.addObj _ _).obj? q) = _
      rw [obj?_addObj, if_neg (by simpa using hn)]; rfl
    · intro q c hn hb hc
      have hc' : (World.addObj _ _).obj? q = some c := hc
      rw [obj?_addObj, if_neg (by simpa using hn)] at hc'
      exact h.inv.guard q c hc' hb
  | copyEmpty _ _ _ =>
    cases hres
    refine after_inv h.inv ?_ ?_ (fun _ e => by cases e)
    · intro q b hn _; rw [obj?_addObj, if_neg hn]
    · intro q c hn hb hc; rw [obj?_addObj, if_neg hn] at hc; exact h.inv.guard q c hc hb
  | copy _ _ _ _ =>
    cases hres
    refine after_inv h.inv ?_ ?_ (fun _ e => by cases e)
    · intro q b hn _; rw [obj?_addObj, if_neg (by simpa using hn), setSlot_obj?]
    · intro q c hn hb hc
      rw [obj?_addObj, if_neg (by simpa using hn), setSlot_obj?] at hc; exact h.inv.guard q c hc hb
  | @move o c sc ho =>
    cases hres
    have hno : ∀ q, W.isB q = true → q ≠ o := by
      intro q hb e; subst e; simp [plain, hb] at hp
    have hlen : (W.base.setObj o (some { c with slot := none, made := none })).objs.length = W.base.objs.length := by
      simp [World.setObj]
    refine after_inv h.inv ?_ ?_ (fun _ e => by cases e)
    · intro q b hn hb
      rw [obj?_addObj, hlen, if_neg hn, obj?_setObj ho, if_neg (hno q hb)]
    · intro q d hn hb hc
      rw [obj?_addObj, hlen, if_neg hn, obj?_setObj ho, if_neg (hno q hb)] at hc
      exact h.inv.guard q d hc hb
  | @swap o p c d ho hp' _ =>
    cases hres
    have hno : ∀ q, W.isB q = true → q ≠ o ∧ q ≠ p := by
      intro q hb
      simp only [plain, Bool.and_eq_true, Bool.not_eq_true'] at hp
      constructor
      · intro e; subst e; rw [hp.1] at hb; cases hb
      · intro e; subst e; rw [hp.2] at hb; cases hb
    have hob : ∀ q, W.isB q = true → ((W.base.setObj o (some { c with slot := d.slot, made := d.made })).setObj p
        (some { d with slot := c.slot, made := c.made })).obj? q = W.base.obj? q := by
      intro q hb
      have h1 := obj?_setObj ho (some { c with slot := d.slot, made := d.made })
      have h2 : ∃ x, (W.base.setObj o (some { c with slot := d.slot, made := d.made })).obj? p = some x := by
        rw [h1]; split
        · exact ⟨_, rfl⟩
        · exact ⟨_, hp'⟩
      obtain ⟨x, h2⟩ := h2
      rw [obj?_setObj h2, if_neg (hno q hb).2, h1, if_neg (hno q hb).1]
    refine after_inv h.inv ?_ ?_ (fun _ e => by cases e)
    · intro q b _ hb; rw [hob q hb]
    · intro q e _ hb hc; rw [hob q hb] at hc; exact h.inv.guard q e hc hb
  | @give o c a s ho hc hs =>
    cases hres
    have hb := obj?_setObj ho (some { c with owner := Owner.target a })
    refine after_inv h.inv ?_ ?_ (fun _ e => by cases e)
    · intro q b _ _
      rw [hb]
      split
      · rename_i e; subst e; rw [ho]; rfl
      · rfl
    · intro q e _ hB he
      rw [hb] at he
      split at he
      · rename_i e'
        rw [e'] at hB
        rw [← Option.some.inj he]; exact h.inv.guard o c ho hB
      · exact h.inv.guard q e he hB
  | copyUb _ _ _ _ => cases hres
  | _ => cases hq

/-! ### Runs -/

theorem good_of_keeps {W W1 W' : BWorld} {op : BOp} (hd : Does W.base (asConn op) (some W'.base)) (hB : W1.isB = W.isB)
    (hk : BKeeps W1 W') (hn : creates (asConn op) = false) : Good W op W' :=
  ⟨hd, hk.inv, fun q _ => by rw [hk.isB, hB], fun e => by rw [hn] at e; cases e⟩

/-- A blocker or connection is changed, but not what it refers to. -/
theorem setObj_binv {W : BWorld} (h : BInv W) {o : Obj} {c c' : Conn} (ho : W.base.obj? o = some c)
    (hp : W.isB o = true → ∀ b, pointsTo b (some c') = pointsTo b (some c)) (hg : c'.guard = c.guard) :
    BKeeps W (W.withBase (W.base.setObj o (some c'))) := by
  have hb := obj?_setObj ho (some c')
  have hh : ∀ b q, hit (W.withBase (W.base.setObj o (some c'))) b q = hit W b q := by
    intro b q
    simp only [hit, BWorld.withBase, hb]
    split
    · rename_i e
      subst e
      cases hB : W.isB q with
      | false => rfl
      | true => rw [hp hB, ho]
    · rfl
  refine .of_same (h.of_same hh rfl ?_) rfl hh
  intro q e hq hB
  have hq' : (W.base.setObj o (some c')).obj? q = some e := hq
  rw [hb] at hq'
  split at hq'
  · rename_i e'; subst e'; cases hq'; rw [hg]; exact h.guard _ c ho hB
  · exact h.guard q e hq' hB

theorem setSlot_binv {W : BWorld} (h : BInv W) (a : Addr) (s : Option Slot) : BKeeps W (W.withBase (W.base.setSlot a s)) :=
  .of_same (h.of_same (fun _ _ => rfl) rfl h.guard) rfl fun _ _ => rfl

theorem destroy_inv {w : World} (h : Ok w) {o : Obj} {c : Conn} (ho : w.obj? o = some c) :
    Inv (w.setObj o (some { c with owner := .dying })) [.drop o] ∧ LooseOk (w.setObj o (some { c with owner := .dying })) := by
  have hl := h.firm o c ho
  have hb := obj?_setObj ho (some { c with owner := .dying })
  constructor
  · refine setObj_inv h.inv ho ?_ ?_ ?_ ?_ ?_
    · intro a; rw [List.count_cons_of_ne (by simp)]; rfl
    · intro p hp; rw [List.count_cons_of_ne (by simpa using fun e => hp e.symm)]
    · rw [List.count_cons_self]; rfl
    · intro a ha; cases ha
    · exact fun _ => h.inv.made o c ho hl
  · intro p d hp hd
    rw [hb] at hp
    split at hp
    · cases hp; rw [hl] at hd; cases hd
    · exact h.looseOk p d hp hd

theorem destroy_run {W : BWorld} (h : BOk W) {o : Obj} {c : Conn} (ho : W.base.obj? o = some c) (hc : c.owner = .client) :
    (∃ W', BRun (W.withBase (W.base.setObj o (some { c with owner := .dying }))) [.drop o] (some W') ∧
      Does W.base (.destroy o) (some W'.base) ∧ BKeeps (W.withBase (W.base.setObj o (some { c with owner := .dying }))) W') ∨
    (BRun (W.withBase (W.base.setObj o (some { c with owner := .dying }))) [.drop o] none ∧ ¬ Fewer W) := by
  obtain ⟨hi, hL⟩ := destroy_inv h.base ho
  obtain ⟨w', g1, _, _, _⟩ := run_total _ (Nat.le_refl _) hi hL
  have hk := setObj_binv h.inv ho (c' := { c with owner := .dying }) (fun _ _ => rfl) rfl
  cases brun_total g1 (W := W.withBase (W.base.setObj o (some { c with owner := .dying }))) rfl rfl hi hL hk.inv with
  | inl e =>
    obtain ⟨W', e1, e2, e3⟩ := e
    exact .inl ⟨W', e1, by rw [e2]; exact .destroy ho hc g1, e3⟩
  | inr e => exact .inr ⟨e.1, fun hf => e.2 fun a => Nat.lt_of_le_of_lt (hk.le a) (hf a)⟩

theorem cdestroy_ok {W : BWorld} (h : BOk W) {o : Obj} (hB : W.isB o = false) (ha : Allowed W.base (.destroy o)) :
    Outcome W (.conn (.destroy o)) := by
  obtain ⟨c, ho, hc⟩ := ha
  cases destroy_run h ho hc with
  | inl e =>
    obtain ⟨W', e1, e2, e3⟩ := e
    exact .inl ⟨W', .cdestroy hB ho hc e1, good_of_keeps e2 (by rfl) e3 rfl⟩
  | inr e => exact .inr ⟨.cdestroy hB ho hc e.1, e.2⟩

theorem bdestroy_ok {W : BWorld} (h : BOk W) {o : Obj} (hB : W.isB o = true) (ha : Allowed W.base (.destroy o)) :
    Outcome W (.destroy o) := by
  obtain ⟨c, ho, hc⟩ := ha
  cases destroy_run h ho hc with
  | inl e =>
    obtain ⟨W', e1, e2, e3⟩ := e
    exact .inl ⟨W', .destroy hB ho hc e1, good_of_keeps e2 (by rfl) e3 rfl⟩
  | inr e => exact .inr ⟨.destroy hB ho hc e.1, e.2⟩

theorem bunlist_ok {W : BWorld} (h : BOk W) {a : Addr} (ha : W.base.slots a ≠ none) : Outcome W (.conn (.unlist a)) := by
  cases hs : W.base.slots a with
  | none => exact absurd hs ha
  | some s =>
    obtain ⟨new, h1, h2, _⟩ := unlist_inv h.base.inv hs
    rw [List.append_nil] at h2
    obtain ⟨w', g1, _, _, _⟩ := run_total _ (Nat.le_refl _) h2 h.base.looseOk
    have hk := setSlot_binv h.inv a (some { s with listed := false })
    cases brun_total g1 (W := W.withBase (W.base.setSlot a (some { s with listed := false }))) rfl rfl h2 h.base.looseOk hk.inv with
    | inl e =>
      obtain ⟨W', e1, e2, e3⟩ := e
      exact .inl ⟨W', .unlist h1 e1, good_of_keeps (by rw [e2]; exact .unlist h1 g1) (by rfl) e3 rfl⟩
    | inr e => exact .inr ⟨.unlist h1 e.1, fun hf => e.2 fun a => Nat.lt_of_le_of_lt (hk.le a) (hf a)⟩

/-! ### Assignment and `disconnect` of connections -/

theorem load_obj {w w' : World} {o p : Obj} (h : load w o p = some w') : ∃ c d, w.obj? o = some c ∧ w.obj? p = some d ∧
    (∀ q, w'.obj? q = if q = o then some { c with slot := d.slot, made := d.made, loose := false } else w.obj? q) ∧
    ∀ b, d.slot = some b → ∃ s, w'.slots b = some s := by
  unfold load at h
  split at h
  · rename_i c d ho hp
    refine ⟨c, d, ho, hp, ?_⟩
    split at h
    · rename_i hd
      cases h
      refine ⟨fun q => by rw [obj?_setObj ho, hd], fun b hb => by rw [hd] at hb; cases hb⟩
    · rename_i b hd
      split at h
      · cases h
      · rename_i s hs
        cases h
        refine ⟨?_, fun b' hb => ?_⟩
        · intro q
          have ho' : (w.setSlot b (some { s with refs := s.refs + 1 })).obj? o = some c := ho
          rw [obj?_setObj ho', setSlot_obj?, hd]
        · rw [hd] at hb
          cases hb
          exact ⟨_, if_pos rfl⟩
  · cases h

/-- An object that is not a blocker is changed. -/
theorem other_binv {W : BWorld} (h : BInv W) {o : Obj} {w' : World} {x : Conn} (hB : W.isB o = false)
    (hob : ∀ q, w'.obj? q = if q = o then some x else W.base.obj? q) : BKeeps W (W.withBase w') := by
  have hh : ∀ b q, hit (W.withBase w') b q = hit W b q := by
    intro b q
    simp only [hit, BWorld.withBase, hob]
    split
    · rename_i e; subst e; simp [hB]
    · rfl
  refine .of_same (h.of_same hh rfl ?_) rfl hh
  intro q e hq hb
  have hq' : w'.obj? q = some e := hq
  rw [hob] at hq'
  split at hq'
  · rename_i e'; subst e'; rw [show W.isB q = true from hb] at hB; cases hB
  · exact h.guard q e hq' hb

theorem release_run {W : BWorld} {a : Addr} {acts : List Act} {w' : World} {s : Slot} {k : Nat}
    (hr : Run W.base acts (some w')) (hb : BInv W) (hi : Inv W.base acts) (hs : W.base.slots a = some s)
    (hacts : acts = List.replicate k (.release a)) (hc : LooseOk W.base ∨ k < s.refs) :
    (∃ W', BRun W acts (some W') ∧ W'.base = w' ∧ BKeeps W W') ∨ (BRun W acts none ∧ ¬ Fewer W) := by
  cases hc with
  | inl hL => exact brun_total hr rfl rfl hi hL hb
  | inr hk =>
    subst hacts
    obtain ⟨W', e1, e2, e3⟩ := brun_stays k hs hk hr hb
    cases e1
    exact .inl ⟨W', e2, rfl, e3⟩

theorem cassign_ok {W : BWorld} (h : BOk W) {o p : Obj} (hB : W.isB o = false) (hB' : W.isB p = false)
    (ha : Allowed W.base (.assign o p)) : Outcome W (.conn (.assign o p)) := by
  obtain ⟨w', hd, _, _⟩ := op_ok h.base ha
  obtain ⟨c, d, ho, hp, hg, _, hr⟩ := ha
  have hlc := h.base.firm o c ho
  generalize hres : some w' = res at hd
  have hd0 := hd
  cases hd with
  | assignSelf ho' =>
    cases hres
    exact .inl ⟨W, .cassignSelf hB ho, ⟨hd0, h.inv, fun _ _ => rfl, fun e => by cases e⟩⟩
  | @assignEmpty _ _ c' hop ho' hg' hs =>
    obtain ⟨x, y, _, _, hob, _⟩ := load_obj hres.symm
    have hk := other_binv h.inv hB hob
    have := BDoes.cassignEmpty hB hB' hop ho' hg' hs
    rw [← hres] at this
    exact .inl ⟨_, this, good_of_keeps (W1 := W) (by rw [← hres] at hd0; exact hd0) rfl hk rfl⟩
  | @assign w1 _ _ c' a hop ho' hg' hs hrun =>
    rw [ho] at ho'
    cases ho'
    obtain ⟨s, hsl⟩ := h.base.inv.there ho hlc hs
    have hk0 := setObj_binv h.inv ho (c' := { c with loose := true }) (fun e => by rw [hB] at e; cases e) rfl
    have hc : LooseOk (W.base.setObj o (some { c with loose := true })) ∨ 1 < s.refs := by
      cases hr with
      | inl e => exact .inl (loosen_looseOk h.base ho e.1)
      | inr e => exact .inr (e a s hs hsl)
    cases release_run (W := W.withBase (W.base.setObj o (some { c with loose := true }))) (k := 1) (a := a) hrun hk0.inv
        (loosen_inv h.base ho hs) hsl rfl hc with
    | inl e =>
      obtain ⟨W1, e1, e2, e3⟩ := e
      subst e2
      obtain ⟨x, y, _, _, hob, _⟩ := load_obj hres.symm
      have hk := other_binv e3.inv (by rw [e3.isB]; exact hB) hob
      have := BDoes.cassign hB hB' hop ho hg hs e1
      rw [← hres] at this
      exact .inl ⟨_, this, good_of_keeps (W1 := W) (by rw [← hres] at hd0; exact hd0) rfl ((hk0.trans e3).trans hk) rfl⟩
    | inr e => exact .inr ⟨.cassignUb hB hB' hop ho hg hs e.1, fun hf => e.2 fun a => Nat.lt_of_le_of_lt (hk0.le a) (hf a)⟩
  | assignUb _ _ _ _ _ => cases hres

theorem cdisconnect_ok {W : BWorld} (h : BOk W) {o : Obj} (hB : W.isB o = false) (ha : Allowed W.base (.disconnect o)) :
    Outcome W (.conn (.disconnect o)) := by
  obtain ⟨w', hd, _, _⟩ := op_ok h.base ha
  obtain ⟨c, ho, hr⟩ := ha
  have hlc := h.base.firm o c ho
  generalize hres : some w' = res at hd
  have hd0 := hd
  cases hd with
  | disconnectEmpty ho' hs =>
    cases hres
    exact .inl ⟨W, .disconnectEmpty hB ho' hs, ⟨hd0, h.inv, fun _ _ => rfl, fun e => by cases e⟩⟩
  | @disconnect w1 w2 _ c' a acts ho' hs hu hrun =>
    rw [ho] at ho'
    cases ho'
    obtain ⟨s, hsl⟩ := h.base.inv.there ho hlc hs
    have hi := loosen_inv h.base ho hs
    obtain ⟨new, u1, u2, u3⟩ := unlist_inv hi (s := s) hsl
    rw [hu] at u1
    cases u1
    have hk0 := setObj_binv h.inv ho (c' := { c with loose := true }) (fun e => by rw [hB] at e; cases e) rfl
    have hk1 := setSlot_binv hk0.inv a (some { s with listed := false })
    have hc : LooseOk ((W.base.setObj o (some { c with loose := true })).setSlot a (some { s with listed := false })) ∨ s.listed.toNat + 1 < s.refs := by
      cases hr with
      | inl e => exact .inl (show LooseOk _ from loosen_looseOk h.base ho e)
      | inr e => exact .inr (e a s hs hsl)
    have hacts : acts ++ [.release a] = List.replicate (s.listed.toNat + 1) (.release a) := by
      rw [u3]; cases s.listed <;> rfl
    cases release_run (W := (W.withBase (W.base.setObj o (some { c with loose := true }))).withBase
        ((W.base.setObj o (some { c with loose := true })).setSlot a (some { s with listed := false })))
        (s := { s with listed := false }) (a := a) hrun hk1.inv u2 (if_pos rfl) hacts hc with
    | inl e =>
      obtain ⟨W2, e1, e2, e3⟩ := e
      subst e2
      unfold clear at hres
      split at hres
      · rename_i x hx
        cases hres
        have hk := other_binv (W := W2) e3.inv (by rw [e3.isB]; exact hB) (obj?_setObj hx (some { x with slot := none, made := none, loose := false }))
        have := BDoes.disconnect hB ho hs hu e1
        rw [show clear W2.base o = some (W2.base.setObj o (some { x with slot := none, made := none, loose := false })) by
          simp only [clear, hx]] at this
        rw [show clear W2.base o = some (W2.base.setObj o (some { x with slot := none, made := none, loose := false })) by
          simp only [clear, hx]] at hd0
        exact .inl ⟨_, this, good_of_keeps (W1 := W) hd0 rfl (((hk0.trans hk1).trans e3).trans hk) rfl⟩
      · cases hres
    | inr e =>
      exact .inr ⟨.disconnectUb hB ho hs hu e.1, fun hf => e.2 fun a => Nat.lt_of_le_of_lt ((hk0.trans hk1).le a) (hf a)⟩
  | disconnectUb _ _ _ _ => cases hres
  | disconnectGone _ _ _ => cases hres

/-! ### Blockers -/

theorem addB_hit {W : BWorld} (c : Conn) (b : Addr) (q : Obj) (hq : q ≠ W.base.objs.length) : hit (W.addB c) b q = hit W b q := by
  simp only [hit, BWorld.addB, if_neg hq, obj?_addObj]

theorem addB_hit_new {W : BWorld} (c : Conn) (b : Addr) : hit (W.addB c) b W.base.objs.length = pointsTo b (some c) := by
  simp [hit, BWorld.addB, obj?_addObj]

theorem addB_count {W : BWorld} (c : Conn) (b : Addr) : bcount (W.addB c) b = bcount W b + (pointsTo b (some c)).toNat := by
  have := bcount_change (W := W) (W' := W.addB c) (a := b) (o := W.base.objs.length) (addB_hit c b)
  rw [hit_len, addB_hit_new] at this
  simpa using this

theorem addB_guard {W : BWorld} (h : BInv W) {c : Conn} (hc : c.guard = false) (q : Obj) (d : Conn)
    (hq : (W.addB c).base.obj? q = some d) (hb : (W.addB c).isB q = true) : d.guard = false := by
  simp only [BWorld.addB, obj?_addObj] at hq hb
  split at hq
  · cases hq; exact hc
  · rename_i hn
    rw [if_neg hn] at hb
    exact h.guard q d hq hb

theorem addB_empty {W : BWorld} (h : BInv W) {c : Conn} (hc : c.guard = false) (hs : c.slot = none) : BInv (W.addB c) := by
  refine ⟨?_, addB_guard h hc⟩
  intro a
  rw [addB_count, pointsTo_none hs]
  exact h.cnt a

theorem old_addB {W : BWorld} (c : Conn) (q : Nat) (hq : q < W.base.objs.length) : (W.addB c).isB q = W.isB q := by
  simp only [BWorld.addB]; rw [if_neg (Nat.ne_of_lt hq)]

theorem blank_ok {W : BWorld} (h : BOk W) : Outcome W .blank :=
  .inl ⟨_, .blank W, .new _ _, addB_empty h.inv rfl rfl, fun q hq => old_addB _ q hq, fun _ => if_pos rfl⟩

theorem dup_ok {W : BWorld} (h : BOk W) {o : Obj} {c : Conn} (ho : W.base.obj? o = some c) (hg : c.guard = false) :
    ∃ W', dup W c = some W' ∧ Does W.base (.copy o) (some W'.base) ∧ BInv W' ∧ (∀ q, q < W.base.objs.length → W'.isB q = W.isB q) ∧
      W'.isB W.base.objs.length = true := by
  cases hs : c.slot with
  | none =>
    exact ⟨_, by simp only [dup, hs], .copyEmpty ho hg hs, addB_empty h.inv rfl rfl, fun q hq => old_addB _ q hq, if_pos rfl⟩
  | some a =>
    obtain ⟨s, hsl⟩ := h.base.inv.there ho (h.base.firm o c ho) hs
    have hk := setSlot_binv h.inv a (some { s with refs := s.refs + 1 })
    have hslot : ((W.withBase (W.base.setSlot a (some { s with refs := s.refs + 1 }))).addB ⟨some a, .client, false, c.made, false⟩).base.slots a =
      some { s with refs := s.refs + 1 } := if_pos rfl
    refine ⟨_, by simp only [dup, hs, hsl, block, hslot]; rfl, .copy ho hg hs hsl, ⟨?_, ?_⟩, fun q hq => if_neg (Nat.ne_of_lt hq), if_pos rfl⟩
    · intro b
      have hc := addB_count (W := W.withBase (W.base.setSlot a (some { s with refs := s.refs + 1 }))) ⟨some a, .client, false, c.made, false⟩ b
      have hk' := hk.inv.cnt
      show (if b = a then W.blocks a + 1 else W.blocks b) = BitVec.ofNat 32 (bcount ((W.withBase (W.base.setSlot a (some { s with refs := s.refs + 1 }))).addB ⟨some a, .client, false, c.made, false⟩) b)
      rw [hc]
      split
      · rename_i e
        subst e
        have := hk' b
        simp only [BWorld.withBase] at this
        rw [this]
        simp [pointsTo, BitVec.ofNat_add, BWorld.withBase]
      · rename_i e
        have hne : (a == b) = false := by simpa using fun e' => e e'.symm
        have : pointsTo b (some ⟨some a, .client, false, c.made, false⟩) = false := by simp [pointsTo, hne]
        rw [this]
        exact hk' b
    · exact fun q d hq hb => addB_guard hk.inv (c := ⟨some a, .client, false, c.made, false⟩) rfl q d hq hb

theorem ofConn_ok {W : BWorld} (h : BOk W) {o : Obj} (hB : W.isB o = false) (ha : Allowed W.base (.copy o)) : Outcome W (.ofConn o) := by
  obtain ⟨c, ho, hg⟩ := ha
  obtain ⟨W', h1, h2, h3, h4, h5⟩ := dup_ok h ho hg
  have := BDoes.ofConn hB ho hg
  rw [h1] at this
  exact .inl ⟨W', this, h2, h3, h4, fun _ => h5⟩

theorem bcopy_ok {W : BWorld} (h : BOk W) {o : Obj} (hB : W.isB o = true) (ha : Allowed W.base (.copy o)) : Outcome W (.copy o) := by
  obtain ⟨c, ho, hg⟩ := ha
  obtain ⟨W', h1, h2, h3, h4, h5⟩ := dup_ok h ho hg
  have := BDoes.copy hB ho
  rw [h1] at this
  exact .inl ⟨W', this, h2, h3, h4, fun _ => h5⟩

theorem bmove_ok {W : BWorld} (h : BOk W) {o : Obj} (hB : W.isB o = true) (ha : Allowed W.base (.move o false)) : Outcome W (.move o) := by
  obtain ⟨c, ho⟩ := ha
  have hl := h.base.firm o c ho
  have hb := obj?_setObj ho (some { c with slot := none, made := none })
  have hlen : (W.base.setObj o (some { c with slot := none, made := none })).objs.length = W.base.objs.length := by simp [World.setObj]
  have hlt := obj?_lt ho
  have hcnt : ∀ b, bcount ((W.withBase (W.base.setObj o (some { c with slot := none, made := none }))).addB ⟨c.slot, .client, false, c.made, false⟩) b = bcount W b := by
    intro b
    rw [addB_count]
    have := bcount_change (W := W) (W' := W.withBase (W.base.setObj o (some { c with slot := none, made := none }))) (a := b) (o := o) (fun q hq => by
      simp only [hit, BWorld.withBase, hb, if_neg hq])
    have e1 : hit W b o = pointsTo b (some c) := by simp [hit, hB, ho]
    have e2 : hit (W.withBase (W.base.setObj o (some { c with slot := none, made := none }))) b o = false := by
      simp [hit, BWorld.withBase, hb, pointsTo]
    have e3 : pointsTo b (some ⟨c.slot, .client, false, c.made, false⟩) = pointsTo b (some c) := by simp [pointsTo, hl]
    rw [e1, e2] at this
    rw [e3]
    simpa using this
  refine .inl ⟨_, .move hB ho, .move ho, ⟨fun b => by rw [hcnt b]; exact h.inv.cnt b, ?_⟩, ?_, ?_⟩
  · intro q d hq hb'
    have hq' : (World.addObj (W.base.setObj o (some { c with slot := none, made := none })) ⟨c.slot, .client, false, c.made, false⟩).obj? q = some d := hq
    rw [obj?_addObj, hlen] at hq'
    split at hq'
    · cases hq'; rfl
    · rename_i hn
      have hb2 : (if q = (W.base.setObj o (some { c with slot := none, made := none })).objs.length then true else W.isB q) = true := hb'
      rw [hlen, if_neg hn] at hb2
      rw [hb] at hq'
      split at hq'
      · rename_i e; subst e; cases hq'; exact h.inv.guard _ c ho hB
      · exact h.inv.guard q d hq' hb2
  · intro q hq
    show (if q = (W.base.setObj o (some { c with slot := none, made := none })).objs.length then true else W.isB q) = W.isB q
    rw [hlen, if_neg (Nat.ne_of_lt hq)]
  · intro _
    show (if W.base.objs.length = (W.base.setObj o (some { c with slot := none, made := none })).objs.length then true else _) = _
    rw [hlen, if_pos rfl]; rfl

theorem bswap_ok {W : BWorld} (h : BOk W) {o p : Obj} (hB : W.isB o = true) (hB' : W.isB p = true) (ha : Allowed W.base (.swap o p)) :
    Outcome W (.swap o p) := by
  obtain ⟨c, d, ho, hp, hg⟩ := ha
  have hlc := h.base.firm o c ho
  have hld := h.base.firm p d hp
  have hb1 := obj?_setObj ho (some { c with slot := d.slot, made := d.made })
  have hp1 : ∃ x, (W.base.setObj o (some { c with slot := d.slot, made := d.made })).obj? p = some x := by
    rw [hb1]; split
    · exact ⟨_, rfl⟩
    · exact ⟨_, hp⟩
  obtain ⟨x, hp1⟩ := hp1
  have hb2 := obj?_setObj hp1 (some { d with slot := c.slot, made := c.made })
  refine .inl ⟨_, .swap hB hB' ho hp, .swap ho hp hg, ⟨?_, ?_⟩, fun _ _ => rfl, fun e => by cases e⟩
  · intro b
    have hc : bcount (W.withBase ((W.base.setObj o (some { c with slot := d.slot, made := d.made })).setObj p (some { d with slot := c.slot, made := c.made }))) b = bcount W b := by
      have f1 := bcount_change (W := W) (W' := W.withBase (W.base.setObj o (some { c with slot := d.slot, made := d.made }))) (a := b) (o := o) (fun q hq => by
        simp only [hit, BWorld.withBase, hb1, if_neg hq])
      have f2 := bcount_change (W := W.withBase (W.base.setObj o (some { c with slot := d.slot, made := d.made })))
        (W' := W.withBase ((W.base.setObj o (some { c with slot := d.slot, made := d.made })).setObj p (some { d with slot := c.slot, made := c.made }))) (a := b) (o := p) (fun q hq => by
        simp only [hit, BWorld.withBase, hb2, if_neg hq])
      have g1 : hit W b o = pointsTo b (some c) := by simp [hit, hB, ho]
      have g2 : hit (W.withBase (W.base.setObj o (some { c with slot := d.slot, made := d.made }))) b o = pointsTo b (some d) := by
        simp only [hit, BWorld.withBase, hb1, hB, if_true, Bool.true_and]
        simp only [pointsTo, hlc, hld]
      have g3 : hit (W.withBase (W.base.setObj o (some { c with slot := d.slot, made := d.made }))) b p = pointsTo b (some d) := by
        simp only [hit, BWorld.withBase, hb1, hB', Bool.true_and]
        split
        · simp [pointsTo, hlc, hld]
        · rw [hp]
      have g4 : hit (W.withBase ((W.base.setObj o (some { c with slot := d.slot, made := d.made })).setObj p (some { d with slot := c.slot, made := c.made }))) b p = pointsTo b (some c) := by
        simp only [hit, BWorld.withBase, hb2, hB', if_true, Bool.true_and]
        simp only [pointsTo, hlc, hld]
      rw [g1, g2] at f1
      rw [g3, g4] at f2
      omega
    rw [hc]; exact h.inv.cnt b
  · intro q e hq hb
    have hq' : ((W.base.setObj o (some { c with slot := d.slot, made := d.made })).setObj p (some { d with slot := c.slot, made := c.made })).obj? q = some e := hq
    rw [hb2] at hq'
    split at hq'
    · cases hq'; exact h.inv.guard p d hp hB'
    · rw [hb1] at hq'
      split at hq'
      · cases hq'; exact h.inv.guard o c ho hB
      · exact h.inv.guard q e hq' hb

theorem bload_ok {W : BWorld} (h : BInv W) {o p : Obj} {w' : World} (hl : load W.base o p = some w') (hB : W.isB o = true)
    (hf : ∀ b, hit W b o = false) : ∃ W', bload W o p = some W' ∧ W'.base = w' ∧ W'.isB = W.isB ∧ BInv W' := by
  obtain ⟨c, d, ho, hp, hob, hsl⟩ := load_obj hl
  have hgd : ∀ q e, w'.obj? q = some e → W.isB q = true → e.guard = false := by
    intro q e hq hb
    rw [hob] at hq
    split at hq
    · cases hq; exact h.guard o c ho hB
    · exact h.guard q e hq hb
  have hch : ∀ b, bcount (W.withBase w') b = bcount W b + (hit (W.withBase w') b o).toNat := by
    intro b
    have := bcount_change (W := W) (W' := W.withBase w') (a := b) (o := o) (fun q hq => by
      simp only [hit, BWorld.withBase, hob, if_neg hq])
    rw [hf b] at this
    simpa using this
  cases hd : d.slot with
  | none =>
    refine ⟨W.withBase w', by simp only [bload, hl, hp, hd], rfl, rfl, ?_, hgd⟩
    intro b
    have : hit (W.withBase w') b o = false := by simp [hit, BWorld.withBase, hob, pointsTo, hd]
    rw [hch b, this]
    exact h.cnt b
  | some a =>
    obtain ⟨s, hs⟩ := hsl a hd
    refine ⟨{ W.withBase w' with blocks := fun b => if b = a then W.blocks a + 1 else W.blocks b },
      by simp only [bload, hl, hp, hd, block, BWorld.withBase, hs], rfl, rfl, ?_, hgd⟩
    intro b
    show (if b = a then W.blocks a + 1 else W.blocks b) = BitVec.ofNat 32 (bcount (W.withBase w') b)
    rw [hch b]
    have e : hit (W.withBase w') b o = (a == b) := by simp [hit, BWorld.withBase, hob, pointsTo, hd, hB]
    rw [e]
    split
    · rename_i e'
      subst e'
      rw [h.cnt b]
      simp [BitVec.ofNat_add]
    · rename_i e'
      have hne : (a == b) = false := by simpa using fun e'' => e' e''.symm
      rw [hne]
      exact h.cnt b

theorem bassign_ok {W : BWorld} (h : BOk W) {o p : Obj} (hB : W.isB o = true) (hB' : W.isB p = true)
    (ha : Allowed W.base (.assign o p)) : Outcome W (.assign o p) := by
  obtain ⟨w', hd, _, _⟩ := op_ok h.base ha
  obtain ⟨c, d, ho, hp, hg, _, hr⟩ := ha
  have hlc := h.base.firm o c ho
  generalize hres : some w' = res at hd
  have hd0 := hd
  cases hd with
  | assignSelf ho' =>
    cases hres
    exact .inl ⟨W, .assignSelf hB ho, ⟨hd0, h.inv, fun _ _ => rfl, fun e => by cases e⟩⟩
  | @assignEmpty _ _ c' hop ho' hg' hs =>
    rw [ho] at ho'
    cases ho'
    obtain ⟨W', b1, b2, b3, b4⟩ := bload_ok h.inv hres.symm hB (fun b => by simp [hit, ho, pointsTo, hs])
    have := BDoes.assignEmpty hB hB' hop ho hs
    rw [b1] at this
    exact .inl ⟨_, this, by rw [b2]; rw [← hres] at hd0; exact hd0, b4, fun q _ => by rw [b3], fun e => by cases e⟩
  | @assign w1 _ _ c' a hop ho' hg' hs hrun =>
    rw [ho] at ho'
    cases ho'
    obtain ⟨s, hsl⟩ := h.base.inv.there ho hlc hs
    have hh := hit_some hB ho hlc hs
    cases unblock_or h.inv hsl hh with
    | inr e => exact .inr ⟨.assignGone hB hB' hop ho hs e.1, e.2⟩
    | inl hu =>
      have hb := obj?_setObj ho (some { c with loose := true })
      obtain ⟨k1, k2⟩ := BInv.less (W' := ⟨W.base.setObj o (some { c with loose := true }), W.isB,
          fun b => if b = a then BitVec.ofNat 32 (bcount W a - 1) else W.blocks b⟩) h.inv hh rfl
        (fun b q hq => by simp only [hit, hb, if_neg hq]) (fun b => by simp [hit, hb, pointsTo]) (hit_other ho hs)
        (fun q e hq hb' => by
          dsimp only at hq hb'
          rw [hb] at hq
          split at hq
          · cases hq; exact hg
          · exact h.inv.guard q e hq hb')
      have hc : LooseOk (W.base.setObj o (some { c with loose := true })) ∨ 1 < s.refs := by
        cases hr with
        | inl e => exact .inl (loosen_looseOk h.base ho e.1)
        | inr e => exact .inr (e a s hs hsl)
      cases release_run (W := ⟨W.base.setObj o (some { c with loose := true }), W.isB,
          fun b => if b = a then BitVec.ofNat 32 (bcount W a - 1) else W.blocks b⟩) (k := 1) (a := a) hrun k1
          (loosen_inv h.base ho hs) hsl rfl hc with
      | inl e =>
        obtain ⟨W1, e1, e2, e3⟩ := e
        subst e2
        obtain ⟨W', b1, b2, b3, b4⟩ := bload_ok e3.inv hres.symm (by rw [e3.isB]; exact hB) (fun b => by
          cases hx : hit W1 b o with
          | false => rfl
          | true =>
            have := e3.hit b o hx
            simp [hit, hb, pointsTo] at this)
        have := BDoes.assign hB hB' hop ho hs hu e1
        rw [b1] at this
        exact .inl ⟨_, this, by rw [b2]; rw [← hres] at hd0; exact hd0, b4, fun q _ => by rw [b3, e3.isB], fun e => by cases e⟩
      | inr e => exact .inr ⟨.assignUb hB hB' hop ho hs hu e.1, fun hf => e.2 fun a => Nat.lt_of_le_of_lt (k2 a) (hf a)⟩
  | assignUb _ _ _ _ _ => cases hres

/-! ### All of them -/

theorem bop_ok {W : BWorld} (h : BOk W) {op : BOp} (ha : BAllowed W op) : Outcome W op := by
  obtain ⟨ha, hk⟩ := ha
  cases op with
  | conn op =>
    have hp : plain W op = true := hk
    cases op with
    | assign o p =>
      simp only [plain, Bool.and_eq_true, Bool.not_eq_true'] at hp
      exact cassign_ok h hp.1 hp.2 ha
    | disconnect o => exact cdisconnect_ok h (by simpa [plain] using hp) ha
    | destroy o => exact cdestroy_ok h (by simpa [plain] using hp) ha
    | unlist a => exact bunlist_ok h ha
    | _ => exact quiet_ok h rfl hp ha
  | blank => exact blank_ok h
  | ofConn o => exact ofConn_ok h hk ha
  | copy o => exact bcopy_ok h hk ha
  | move o => exact bmove_ok h hk ha
  | assign o p => exact bassign_ok h hk.1 hk.2 ha
  | swap o p => exact bswap_ok h hk.1 hk.2 ha
  | destroy o => exact bdestroy_ok h hk ha

theorem bstep_ok {W W' : BWorld} (h : BOk W) {op : BOp} (ha : BAllowed W op) (hd : BDoes W op (some W')) :
    BOk W' ∧ Good W op W' ∧ Post W.base (asConn op) W'.base := by
  obtain ⟨w1, g1, g2, g3⟩ := op_ok h.base ha.1
  cases bop_ok h ha with
  | inl e =>
    obtain ⟨W1, e1, e2⟩ := e
    have := bdoes_det hd e1
    cases this
    have := does_det e2.does g1
    cases this
    exact ⟨⟨g2, e2.inv⟩, e2, g3⟩
  | inr e => have := bdoes_det hd e.1; cases this

theorem breach_ok {W : BWorld} (h : BReach W) : BOk W := by
  induction h with
  | init => exact ⟨reach_ok .init, fun _ => rfl, fun o c ho => by cases ho⟩
  | step _ ha hd ih => exact (bstep_ok ih ha hd).1

theorem blockers_count {W : BWorld} (h : Ok W.base) (a : Addr) : (blockers W a).length = bcount W a := by
  unfold blockers bcount
  rw [← List.countP_eq_length_filter]
  apply List.countP_congr
  intro q _
  unfold hit
  cases ho : W.base.obj? q with
  | none => simp [pointsTo]
  | some c => simp [pointsTo, h.firm q c ho]

theorem few_iff {W : BWorld} (h : Ok W.base) : Few W ↔ Fewer W := by
  unfold Few Fewer
  simp only [blockers_count h]

end Verif.Handles
