import Verif.Handles.BlockOps
/-
C136: blockers. `BReach` are the states reached when everybody keeps to the rule `BAllowed`.
-/
namespace Verif.Handles

/-- Every function that is called by the rule ends, without undefined behaviour or a failed `assert`, and with one outcome. -/
theorem C136_safe {W : BWorld} (h : BReach W) (hf : Few W) {op : BOp} (ha : BAllowed W op) :
    ∃ W', BDoes W op (some W') ∧ ∀ r, BDoes W op r → r = some W' := by
  have hw := breach_ok h
  cases bop_ok hw ha with
  | inl e => obtain ⟨W', e1, _⟩ := e; exact ⟨W', e1, fun r hr => bdoes_det hr e1⟩
  | inr e => exact absurd ((few_iff hw.base).1 hf) e.2

/-- What is in connections and blockers afterwards, and which is which. -/
theorem C136_values {W W' : BWorld} (h : BReach W) {op : BOp} (ha : BAllowed W op) (hd : BDoes W op (some W')) :
    Post W.base (asConn op) W'.base ∧ (∀ q, q < W.base.objs.length → W'.isB q = W.isB q) ∧
    ∀ c, W'.base.obj? W.base.objs.length = some c → W'.isB W.base.objs.length = makesB op := by
  obtain ⟨_, h2, h3⟩ := bstep_ok (breach_ok h) ha hd
  refine ⟨h3, h2.old, fun c hc => ?_⟩
  cases hcr : creates (asConn op) with
  | true => exact h2.new hcr
  | false =>
    exfalso
    have hp := h3 W.base.objs.length
    have hne : ∀ {o : Obj} {d : Conn}, W.base.obj? o = some d → W.base.objs.length ≠ o := fun ho e => by
      have := obj?_lt ho; rw [← e] at this; exact Nat.lt_irrefl _ this
    have hw : written W.base W.base.objs.length (asConn op) = none := by
      have ha1 := ha.1
      revert hcr ha1
      generalize asConn op = x
      intro hcr ha1
      cases x with
      | assign o p => obtain ⟨c, d, h1, h2, _⟩ := ha1; simp [written, hne h1]
      | swap o p => obtain ⟨c, d, h1, h2, _⟩ := ha1; simp [written, hne h1, hne h2]
      | disconnect o => obtain ⟨c, h1, _⟩ := ha1; simp [written, hne h1]
      | destroy o => obtain ⟨c, h1, _⟩ := ha1; simp [written, hne h1]
      | unlist a => rfl
      | give o a => obtain ⟨c, h1, _⟩ := ha1; simp [written, hne h1]
      | _ => cases hcr
    rw [hw] at hp
    obtain ⟨d, hd', _⟩ := hp.2 c hc
    rw [obj?_len] at hd'
    cases hd'

/-- `blocking_` of a slot is the number of its blockers, in 32 bits; all of it if that fits. -/
theorem C136_counter {W : BWorld} (h : BReach W) (a : Addr) :
    W.blocks a = BitVec.ofNat 32 (blockers W a).length ∧ (Few W → (W.blocks a).toNat = (blockers W a).length) := by
  have hw := breach_ok h
  have h1 : W.blocks a = BitVec.ofNat 32 (blockers W a).length := by rw [blockers_count hw.base]; exact hw.inv.cnt a
  refine ⟨h1, fun hf => ?_⟩
  rw [h1, BitVec.toNat_ofNat, Nat.mod_eq_of_lt (hf a)]

theorem mem_blockers {W : BWorld} {a : Addr} {o : Obj} :
    o ∈ blockers W a ↔ ∃ c, W.isB o = true ∧ W.base.obj? o = some c ∧ c.slot = some a := by
  unfold blockers
  rw [List.mem_filter, List.mem_range]
  constructor
  · intro h
    cases ho : W.base.obj? o with
    | none => rw [ho] at h; simp at h
    | some c => rw [ho] at h; simp at h; exact ⟨c, h.2.1, rfl, h.2.2⟩
  · rintro ⟨c, h1, h2, h3⟩
    exact ⟨obj?_lt h2, by simp [h1, h2, h3]⟩

/-- A slot is skipped iff a blocker has it. -/
theorem C136_blocked {W : BWorld} (h : BReach W) (hf : Few W) (a : Addr) :
    blocked W a = true ↔ ∃ o c, W.isB o = true ∧ W.base.obj? o = some c ∧ c.slot = some a := by
  have h1 := (C136_counter h a).2 hf
  have h2 : (∃ o c, W.isB o = true ∧ W.base.obj? o = some c ∧ c.slot = some a) ↔ 0 < (blockers W a).length := by
    rw [List.length_pos_iff_exists_mem]
    constructor
    · rintro ⟨o, hc⟩; exact ⟨o, mem_blockers.2 hc⟩
    · rintro ⟨o, ho⟩; exact ⟨o, mem_blockers.1 ho⟩
  rw [h2, ← h1]
  simp only [blocked, bne_iff_ne, ne_eq]
  constructor
  · intro hn
    have : (W.blocks a).toNat ≠ 0 := fun e => hn (BitVec.eq_of_toNat_eq (by simpa using e))
    omega
  · intro hp e
    rw [e] at hp
    exact absurd hp (by decide)

/-- A slot that a blocker has exists, and counts one reference for each of its connections and blockers. -/
theorem C136_slots {W : BWorld} (h : BReach W) {o : Obj} {c : Conn} {a : Addr} (ho : W.base.obj? o = some c) (hs : c.slot = some a) :
    ∃ s, W.base.slots a = some s ∧ s.refs = s.listed.toNat + W.base.objs.countP fun x => match x with | some c => c.slot == some a | none => false := by
  have hw := (breach_ok h).base
  obtain ⟨s, hsl⟩ := hw.inv.there ho (hw.firm o c ho) hs
  refine ⟨s, hsl, ?_⟩
  have hr := hw.inv.refs a
  simp only [refsOf, listedOf, hsl, List.count_nil] at hr
  rw [hr]
  have hcount : handles W.base a = W.base.objs.countP fun x => match x with | some c => c.slot == some a | none => false := by
    unfold handles
    apply List.countP_congr
    intro x hx
    cases x with
    | none => exact Iff.rfl
    | some c =>
      obtain ⟨i, hi, he⟩ := List.getElem_of_mem hx
      have : W.base.obj? i = some c := by unfold World.obj?; rw [List.getElem?_eq_getElem hi, he]; rfl
      have hl := hw.firm i c this
      simp [pointsTo, hl]
  rw [← hcount]; rfl

theorem bstep_drop {W : BWorld} {w : World} {o : Obj} (h : W.isB o = true) : bstep (W.withBase w) (.drop o) = dropB (W.withBase w) o :=
  if_pos h

/-- A blocker that comes and goes leaves everything as it was. -/
theorem C136_scope {W W1 W2 : BWorld} (h : BReach W) {o : Obj} (ha : BAllowed W (.ofConn o)) (h1 : BDoes W (.ofConn o) (some W1))
    (h2 : BDoes W1 (.destroy W.base.objs.length) (some W2)) :
    W2.base.slots = W.base.slots ∧ W2.blocks = W.blocks ∧ ∀ q, W2.base.obj? q = W.base.obj? q := by
  have hw := breach_ok h
  generalize hr : some W1 = r at h1
  cases h1 with
  | @ofConn _ c hB ho hg =>
    cases h2 with
    | @destroy _ d _ hB' hd hcl hrun =>
      have hobj : ∀ (w : World) (x y : Conn), w.objs = W.base.objs ++ [some x] → ∀ q,
          (((w.setObj W.base.objs.length (some y)).setObj W.base.objs.length none)).obj? q = W.base.obj? q := by
        intro w x y e q
        have e1 : (((w.setObj W.base.objs.length (some y)).setObj W.base.objs.length none)).objs = W.base.objs ++ [none] := by
          simp [World.setObj, e]
        unfold World.obj?
        rw [e1, List.getElem?_append]
        split
        · rfl
        · rename_i hq
          rw [List.getElem?_eq_none (l := W.base.objs) (by omega)]
          cases hk : q - W.base.objs.length with
          | zero => rfl
          | succ k => rfl
      cases hs : c.slot with
      | none =>
        simp only [dup, hs, Option.some.injEq] at hr
        subst hr
        have hd2 : d = ⟨none, .client, false, c.made, false⟩ := by
          have : (W.base.addObj ⟨none, .client, false, c.made, false⟩).obj? W.base.objs.length = some d := hd
          rw [obj?_addObj, if_pos rfl] at this
          exact (Option.some.inj this).symm
        subst hd2
        cases hrun with
        | more hst hrest =>
          have hob := obj?_setObj hd (some ⟨none, .dying, false, c.made, false⟩) W.base.objs.length
          rw [if_pos rfl] at hob
          replace hst := (bstep_drop hB').symm.trans hst
          simp only [dropB, BWorld.withBase, hob] at hst
          cases hst
          cases hrest
          exact ⟨rfl, rfl, hobj _ _ _ rfl⟩
      | some a =>
        obtain ⟨s, hsl⟩ := hw.base.inv.there ho (hw.base.firm o c ho) hs
        have hpos := hw.base.inv.pos a s hsl
        simp only [dup, hs, hsl, block, BWorld.addB, BWorld.withBase, addObj_slots, setSlot_slots, if_true, Option.some.injEq] at hr
        subst hr
        have hd2 : d = ⟨some a, .client, false, c.made, false⟩ := by
          have : ((W.base.setSlot a (some { s with refs := s.refs + 1 })).addObj ⟨some a, .client, false, c.made, false⟩).obj? W.base.objs.length = some d := hd
          rw [obj?_addObj, if_pos (by simp)] at this
          exact (Option.some.inj this).symm
        subst hd2
        cases hrun with
        | more hst hrest =>
          have hob := obj?_setObj hd (some ⟨some a, .dying, false, c.made, false⟩) W.base.objs.length
          rw [if_pos rfl] at hob
          replace hst := (bstep_drop hB').symm.trans hst
          simp only [dropB, BWorld.withBase, hob, unblock, setObj_slots, addObj_slots, setSlot_slots, if_true] at hst
          split at hst
          · cases hst
          · rename_i hu
            split at hu
            · cases hu
            · cases hu
              cases hst
              have hrel : release ((((W.base.setSlot a (some { s with refs := s.refs + 1 })).addObj ⟨some a, .client, false, c.made, false⟩).setObj W.base.objs.length
                    (some ⟨some a, .dying, false, c.made, false⟩)).setObj W.base.objs.length none) a =
                  some (((((W.base.setSlot a (some { s with refs := s.refs + 1 })).addObj ⟨some a, .client, false, c.made, false⟩).setObj W.base.objs.length
                    (some ⟨some a, .dying, false, c.made, false⟩)).setObj W.base.objs.length none).setSlot a (some s), []) := by
                simp only [release, setObj_slots, addObj_slots, setSlot_slots, if_true]
                rw [if_neg (by omega)]
                rfl
              cases hrest with
              | more e1 e2 =>
                simp only [bstep, hrel, Option.map_some] at e1
                cases e1
                cases e2
                refine ⟨?_, ?_, ?_⟩
                · funext b
                  show (if b = a then some s else if b = a then _ else W.base.slots b) = W.base.slots b
                  by_cases hb : b = a
                  · rw [if_pos hb, hb, hsl]
                  · rw [if_neg hb, if_neg hb]
                · funext b
                  show (if b = a then W.blocks a + 1 - 1 else if b = a then _ else W.blocks b) = W.blocks b
                  by_cases hb : b = a
                  · rw [if_pos hb, hb]; exact BitVec.add_sub_cancel _ _
                  · rw [if_neg hb, if_neg hb]
                · intro q
                  exact hobj (((W.base.setSlot a (some { s with refs := s.refs + 1 })).addObj ⟨some a, .client, false, c.made, false⟩))
                    ⟨some a, .client, false, c.made, false⟩ ⟨some a, .dying, false, c.made, false⟩ rfl q

/-! ### Examples, and what is not so -/

/-- Two slots with their connections, objects 0 and 1. -/
def pair : BWorld :=
  { base := { slots := fun a => if a = 1 then some ⟨2, true, 1⟩ else if a = 0 then some ⟨2, true, 0⟩ else none,
              objs := [some ⟨some 0, .client, false, some 0, false⟩, some ⟨some 1, .client, false, some 1, false⟩], next := 2 }
    isB := fun q => if q = 1 then false else if q = 0 then false else false
    blocks := fun b => if b = 1 then 0 else if b = 0 then 0 else 0 }

theorem pair_reach : BReach pair := by
  have h1 := BReach.step BReach.init (op := .conn (.connect 0)) ⟨rfl, rfl⟩ (.quiet (r := some _) rfl rfl (.connect rfl))
  exact BReach.step h1 (op := .conn (.connect 1)) ⟨rfl, rfl⟩ (.quiet (r := some _) rfl rfl (.connect rfl))

/-- A blocker of each, objects 2 and 3. -/
def both : BWorld :=
  { base := { slots := fun a => if a = 1 then some ⟨3, true, 1⟩ else if a = 0 then some ⟨3, true, 0⟩ else pair.base.slots a,
              objs := [some ⟨some 0, .client, false, some 0, false⟩, some ⟨some 1, .client, false, some 1, false⟩,
                some ⟨some 0, .client, false, some 0, false⟩, some ⟨some 1, .client, false, some 1, false⟩], next := 2 }
    isB := fun q => if q = 3 then true else if q = 2 then true else pair.isB q
    blocks := fun b => if b = 1 then 0 + 1 else if b = 0 then 0 + 1 else pair.blocks b }

theorem both_reach : BReach both := by
  have h1 := BReach.step pair_reach (op := .ofConn 0) ⟨⟨_, rfl, rfl⟩, rfl⟩ (.ofConn (c := ⟨some 0, .client, false, some 0, false⟩) rfl rfl rfl)
  exact BReach.step h1 (op := .ofConn 1) ⟨⟨_, rfl, rfl⟩, rfl⟩ (.ofConn (c := ⟨some 1, .client, false, some 1, false⟩) rfl rfl rfl)

theorem few_of_objs {W : BWorld} (h : W.base.objs.length < 2 ^ 32) : Few W := fun a =>
  Nat.lt_of_le_of_lt (List.length_filter_le _ _) (by rw [List.length_range]; exact h)

-- Both are blocked, each by its own.
example : Few both ∧ blockers both 0 = [2] ∧ blockers both 1 = [3] ∧ blocked both 0 = true ∧ blocked both 2 = false :=
  ⟨few_of_objs (by decide), by decide, by decide, by decide, by decide⟩

-- An assignment between blockers of the client, and what it leaves.
example : BAllowed both (.assign 2 3) ∧ written both.base 2 (asConn (.assign 2 3)) = some (some ⟨some 1, .client, false, some 1, false⟩) :=
  ⟨⟨⟨_, _, rfl, rfl, rfl, rfl, .inl ⟨rfl, rfl⟩⟩, rfl, rfl⟩, rfl⟩

/-- After it, slot 0 is not blocked, and slot 1 is, by two. -/
example : ∃ W, BDoes both (.assign 2 3) (some W) ∧ blocked W 0 = false ∧ W.blocks 1 = 2 := by
  have hu : unblock both 0 = some _ := rfl
  have hrun : BRun (BWorld.withBase ⟨both.base, both.isB, fun b => if b = 0 then both.blocks 0 - 1 else both.blocks b⟩ (both.base.setObj 2 (some ⟨some 0, .client, false, some 0, true⟩))) [.release 0] _ := .more rfl (.done _)
  have h := BDoes.assign (W := both) (o := 2) (p := 3) rfl rfl (by decide) rfl rfl hu hrun
  exact ⟨_, h, by decide, by decide⟩

-- A blocker that comes and goes.
example : BAllowed pair (.ofConn 0) := ⟨⟨_, rfl, rfl⟩, rfl⟩

/-- `b = std::move(c)` does not end the blocking of the slot that `b` had: the two are swapped (signal.hpp:254-258), and the slot stays
blocked until `c` is destroyed. -/
theorem C136_move_assign_violated : ∃ W W' o p a, BReach W ∧ blockers W a = [o] ∧ BDoes W (.swap o p) (some W') ∧ blocked W' a = true :=
  ⟨both, _, 2, 3, 0, both_reach, by decide,
    .swap rfl rfl (c := ⟨some 0, .client, false, some 0, false⟩) (d := ⟨some 1, .client, false, some 1, false⟩) rfl rfl, by decide⟩

/-- Blocker 3 belongs to the target of slot 0, and blocker 2 has the last reference to slot 0. -/
def lone : BWorld :=
  { base := ((((both.base.setObj 3 (some ⟨some 1, .target 0, false, some 1, false⟩)).setSlot 0 (some ⟨3, false, 0⟩)).setSlot 0
      (some ⟨2, false, 0⟩)).setObj 0 none).setSlot 0 (some ⟨1, false, 0⟩)
    isB := fun q => if q = 4 then false else both.isB q
    blocks := both.blocks }

theorem lone_reach : BReach lone := by
  have h1 := BReach.step both_reach (op := .conn (.give 3 0)) ⟨⟨_, rfl, rfl, by decide⟩, rfl⟩
    (.quiet (r := some _) rfl rfl (.give (c := ⟨some 1, .client, false, some 1, false⟩) (s := ⟨3, true, 0⟩) rfl rfl rfl))
  have h2 := BReach.step h1 (op := .conn (.unlist 0)) ⟨show _ ≠ none by decide, rfl⟩ (.unlist rfl (.more rfl (.done _)))
  have h3 := BReach.step h2 (op := .conn (.destroy 0)) ⟨⟨_, rfl, rfl⟩, rfl⟩
    (.cdestroy (c := ⟨some 0, .client, false, some 0, false⟩) rfl rfl rfl (.more rfl (.more rfl (.done _))))
  exact h3

/-- `b = *p`, where `b` has the last reference to a slot whose target owns `*p`: the old slot is released before `other.slot_` is read
(signal.hpp:234-239). -/
theorem C136_assign_violated : ∃ W o p c d, BReach W ∧ Few W ∧ W.isB o = true ∧ W.isB p = true ∧ W.base.obj? o = some c ∧
    W.base.obj? p = some d ∧ c.owner = .client ∧ BDoes W (.assign o p) none := by
  refine ⟨lone, 2, 3, _, _, lone_reach, few_of_objs (by decide), rfl, rfl, rfl, rfl, rfl, ?_⟩
  have hu : unblock lone 0 = some _ := rfl
  have hrun : BRun (BWorld.withBase ⟨lone.base, lone.isB, fun b => if b = 0 then lone.blocks 0 - 1 else lone.blocks b⟩ (lone.base.setObj 2 (some ⟨some 0, .client, false, some 0, true⟩))) [.release 0] _ :=
    .more rfl (.more rfl (.more rfl (.done _)))
  have h := BDoes.assign (W := lone) (o := 2) (p := 3) rfl rfl (by decide) rfl rfl hu hrun
  exact h

/-- Any number of blockers of one slot. -/
theorem many (n : Nat) : ∃ W s, BReach W ∧ W.base.obj? 0 = some ⟨some 0, .client, false, some 0, false⟩ ∧ W.isB 0 = false ∧
    W.base.slots 0 = some s ∧ s.listed = true ∧ (blockers W 0).length = n ∧
    ∀ q c, W.isB q = true → W.base.obj? q = some c → c.owner = .client := by
  induction n with
  | zero =>
    refine ⟨pair, ⟨2, true, 0⟩, pair_reach, rfl, rfl, rfl, rfl, by decide, ?_⟩
    intro q c hq
    match q with
    | 0 => cases hq
    | 1 => cases hq
    | q + 2 => simp [pair] at hq
  | succ n ih =>
    obtain ⟨W, s, hr, ho, hB, hs, hl, hn, hcl⟩ := ih
    have ha : BAllowed W (.ofConn 0) := ⟨⟨_, ho, rfl⟩, hB⟩
    have hd := BDoes.ofConn hB ho rfl
    have hdup : dup W ⟨some 0, .client, false, some 0, false⟩ = some { (W.withBase (W.base.setSlot 0 (some { s with refs := s.refs + 1 }))).addB
        ⟨some 0, .client, false, some 0, false⟩ with blocks := fun b => if b = 0 then W.blocks 0 + 1 else W.blocks b } := by
      simp only [dup, hs, block, BWorld.addB, BWorld.withBase, addObj_slots, setSlot_slots, if_true]
    rw [hdup] at hd
    have hr' := BReach.step hr ha hd
    have hlt := obj?_lt ho
    refine ⟨_, { s with refs := s.refs + 1 }, hr', ?_, ?_, rfl, hl, ?_, ?_⟩
    · show (World.addObj (W.base.setSlot 0 (some { s with refs := s.refs + 1 })) ⟨some 0, .client, false, some 0, false⟩).obj? 0 = _
      rw [obj?_addObj, setSlot_objs, if_neg (show 0 ≠ W.base.objs.length from Nat.ne_of_lt hlt), setSlot_obj?, ho]
    · show (if 0 = W.base.objs.length then true else W.isB 0) = false
      rw [if_neg (Nat.ne_of_lt hlt), hB]
    · rw [blockers_count (breach_ok hr').base]
      have hc := addB_count (W := W.withBase (W.base.setSlot 0 (some { s with refs := s.refs + 1 }))) ⟨some 0, .client, false, some 0, false⟩ 0
      have h0 : bcount (W.withBase (W.base.setSlot 0 (some { s with refs := s.refs + 1 }))) 0 = n := by
        rw [← hn, blockers_count (breach_ok hr).base]; rfl
      rw [h0] at hc
      exact hc
    · intro q c hq hc
      have hlen : (W.base.setSlot 0 (some { s with refs := s.refs + 1 })).objs.length = W.base.objs.length := rfl
      have hc' : (World.addObj (W.base.setSlot 0 (some { s with refs := s.refs + 1 })) ⟨some 0, .client, false, some 0, false⟩).obj? q = some c := hc
      rw [obj?_addObj, hlen] at hc'
      split at hc'
      · cases hc'; rfl
      · rename_i hne
        have hq' : (if q = W.base.objs.length then true else W.isB q) = true := hq
        rw [if_neg hne] at hq'
        exact hcl q c hq' hc'

/-- With 2^32 blockers of a slot the counter (signal.hpp:100 `unsigned`) is 0: the slot is called although all of them exist, and
destroying any of them meets `assert(prev > 0)`. -/
theorem C136_wrap_violated : ∃ W a s, BReach W ∧ W.base.slots a = some s ∧ s.listed = true ∧ (blockers W a).length = 2 ^ 32 ∧
    blocked W a = false ∧ ∀ o, o ∈ blockers W a → BDoes W (.destroy o) none := by
  obtain ⟨W, s, hr, _, _, hs, hl, hn, hcl⟩ := many (2 ^ 32)
  have hz : W.blocks 0 = 0 := by
    rw [(C136_counter hr 0).1, hn]; decide
  refine ⟨W, 0, s, hr, hs, hl, hn, by simp [blocked, hz], ?_⟩
  intro o ho
  obtain ⟨c, h1, h2, h3⟩ := mem_blockers.1 ho
  refine .destroy h1 h2 (hcl o c h1 h2) (.ub ?_)
  rw [bstep_drop h1]
  have hob := obj?_setObj h2 (some { c with owner := .dying }) o
  rw [if_pos rfl, h3] at hob
  simp only [dropB, BWorld.withBase, h3, hob, unblock, setObj_slots, hs, hz, if_true]

end Verif.Handles
