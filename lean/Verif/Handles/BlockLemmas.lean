import Verif.Handles.BlockSpec
import Verif.Handles.Ops
/-
Lemmas for C136: the counter `blocking_`.
-/
namespace Verif.Handles

/-! ### Counting -/

def hit (W : BWorld) (a : Addr) (q : Obj) : Bool := W.isB q && pointsTo a (W.base.obj? q)
def bcount (W : BWorld) (a : Addr) : Nat := (List.range W.base.objs.length).countP (hit W a)

theorem obj?_ge {w : World} {q : Nat} (h : w.objs.length ≤ q) : w.obj? q = none := by
  unfold World.obj?
  rw [List.getElem?_eq_none h]; rfl

theorem bcount_ge (W : BWorld) (a : Addr) (k : Nat) : (List.range (W.base.objs.length + k)).countP (hit W a) = bcount W a := by
  induction k with
  | zero => rfl
  | succ k ih =>
    rw [← Nat.add_assoc, List.range_succ, List.countP_append, ih]
    have : hit W a (W.base.objs.length + k) = false := by
      unfold hit
      rw [obj?_ge (by omega)]; simp [pointsTo]
    simp [this]

theorem countP_point {f g : Nat → Bool} {o : Nat} (h : ∀ q, q ≠ o → f q = g q) (n : Nat) :
    (List.range n).countP f + (if o < n then (g o).toNat else 0) = (List.range n).countP g + (if o < n then (f o).toNat else 0) := by
  induction n with
  | zero => simp
  | succ n ih =>
    rw [List.range_succ, List.countP_append, List.countP_append]
    by_cases ho : o = n
    · subst ho
      rw [if_neg (Nat.lt_irrefl _), if_neg (Nat.lt_irrefl _)] at ih
      rw [if_pos (Nat.lt_succ_self _), if_pos (Nat.lt_succ_self _)]
      cases hf : f o <;> cases hg : g o <;> simp [List.countP_cons, hf, hg] <;> omega
    · have e := h n (fun e => ho e.symm)
      have hi : (o < n + 1) ↔ (o < n) := by omega
      simp only [hi, List.countP_cons, List.countP_nil, e]
      omega

theorem bcount_change {W W' : BWorld} {a : Addr} {o : Obj} (h : ∀ q, q ≠ o → hit W' a q = hit W a q) :
    bcount W' a + (hit W a o).toNat = bcount W a + (hit W' a o).toNat := by
  have e := countP_point h (W.base.objs.length + W'.base.objs.length + (o + 1))
  have hlt : (o < W.base.objs.length + W'.base.objs.length + (o + 1)) := Nat.lt_of_lt_of_le (Nat.lt_succ_self o) (Nat.le_add_left _ _)
  rw [if_pos hlt, if_pos hlt] at e
  have e1 : (List.range (W.base.objs.length + W'.base.objs.length + (o + 1))).countP (hit W a) = bcount W a := by
    rw [Nat.add_assoc]; exact bcount_ge W a _
  have e2 : (List.range (W.base.objs.length + W'.base.objs.length + (o + 1))).countP (hit W' a) = bcount W' a := by
    rw [Nat.add_comm W.base.objs.length, Nat.add_assoc]; exact bcount_ge W' a _
  rw [e1, e2] at e
  exact e

theorem bcount_same {W W' : BWorld} {a : Addr} (h : ∀ q, hit W' a q = hit W a q) : bcount W' a = bcount W a := by
  have := bcount_change (W := W) (W' := W') (a := a) (o := 0) fun q _ => h q
  rw [h 0] at this
  omega

theorem bcount_pos {W : BWorld} {a : Addr} {o : Obj} (h : hit W a o = true) : 0 < bcount W a := by
  have : o < W.base.objs.length := by
    simp only [hit, Bool.and_eq_true] at h
    cases ho : W.base.obj? o with
    | none => rw [ho] at h; simp [pointsTo] at h
    | some c => exact obj?_lt ho
  exact List.countP_pos_iff.2 ⟨o, List.mem_range.2 this, h⟩

theorem hit_some {W : BWorld} {a : Addr} {o : Obj} {c : Conn} (hb : W.isB o = true) (ho : W.base.obj? o = some c)
    (hl : c.loose = false) (hs : c.slot = some a) : hit W a o = true := by
  simp [hit, hb, ho, pointsTo, hl, hs]

/-! ### The invariant -/

structure BInv (W : BWorld) : Prop where
  cnt : ∀ a, W.blocks a = BitVec.ofNat 32 (bcount W a)
  guard : ∀ o c, W.base.obj? o = some c → W.isB o = true → c.guard = false

theorem BInv.of_same {W W' : BWorld} (h : BInv W) (hc : ∀ a q, hit W' a q = hit W a q) (hb : W'.blocks = W.blocks)
    (hg : ∀ o c, W'.base.obj? o = some c → W'.isB o = true → c.guard = false) : BInv W' :=
  ⟨fun a => by rw [hb, bcount_same (hc a)]; exact h.cnt a, hg⟩

def Fewer (W : BWorld) : Prop := ∀ a, bcount W a < 2 ^ 32

theorem ofNat_pred {n : Nat} (h : 0 < n) : BitVec.ofNat 32 n - 1 = BitVec.ofNat 32 (n - 1) := by
  obtain ⟨m, rfl⟩ : ∃ m, n = m + 1 := ⟨n - 1, by omega⟩
  rw [BitVec.ofNat_add]
  exact BitVec.add_sub_cancel _ _

theorem ofNat_zero {n : Nat} (h : BitVec.ofNat 32 n = 0) (hp : 0 < n) : 2 ^ 32 ≤ n := by
  have := congrArg BitVec.toNat h
  simp at this
  omega

/-- `unblock` in the name of a blocker that has the slot. -/
theorem unblock_or {W : BWorld} (h : BInv W) {a : Addr} {o : Obj} {s : Slot} (hs : W.base.slots a = some s) (ho : hit W a o = true) :
    (unblock W a = some { W with blocks := fun b => if b = a then BitVec.ofNat 32 (bcount W a - 1) else W.blocks b }) ∨
    (unblock W a = none ∧ ¬ Fewer W) := by
  have hp := bcount_pos ho
  by_cases hz : W.blocks a = 0
  · right
    refine ⟨by simp only [unblock, hs, hz, if_true], fun hf => ?_⟩
    have h1 := h.cnt a
    rw [hz] at h1
    have := ofNat_zero h1.symm hp
    have := hf a
    omega
  · left
    simp only [unblock, hs, hz, if_false]
    rw [h.cnt a, ofNat_pred hp]

/-- One blocker less, when `unblock` has been called. -/
theorem BInv.less {W W' : BWorld} (h : BInv W) {a : Addr} {o : Obj} (ho : hit W a o = true)
    (hb : W'.blocks = fun b => if b = a then BitVec.ofNat 32 (bcount W a - 1) else W.blocks b)
    (h1 : ∀ b q, q ≠ o → hit W' b q = hit W b q) (h2 : ∀ b, hit W' b o = false) (h3 : ∀ b, b ≠ a → hit W b o = false)
    (hg : ∀ q c, W'.base.obj? q = some c → W'.isB q = true → c.guard = false) :
    BInv W' ∧ ∀ b, bcount W' b ≤ bcount W b := by
  have hc : ∀ b, bcount W' b + (hit W b o).toNat = bcount W b := by
    intro b
    have := bcount_change (h1 b)
    rw [h2 b] at this
    simpa using this
  refine ⟨⟨?_, hg⟩, fun b => by have := hc b; omega⟩
  intro b
  have hb' := hc b
  rw [hb]
  dsimp only
  split
  · rename_i e
    subst e
    rw [ho] at hb'
    simp only [Bool.toNat_true] at hb'
    rw [show bcount W b - 1 = bcount W' b by omega]
  · rename_i e
    rw [h3 b e] at hb'
    simp only [Bool.toNat_false] at hb'
    rw [h.cnt b, show bcount W b = bcount W' b by omega]

theorem hit_other {W : BWorld} {o : Obj} {c : Conn} {a : Addr} (ho : W.base.obj? o = some c) (hs : c.slot = some a) (b : Addr) (hb : b ≠ a) :
    hit W b o = false := by
  have : (a == b) = false := by simpa using fun e => hb e.symm
  simp [hit, ho, pointsTo, hs, this]

/-! ### Destruction -/

/-- What destruction keeps of blockers. -/
structure BKeeps (W W' : BWorld) : Prop where
  inv : BInv W'
  isB : W'.isB = W.isB
  le : ∀ a, bcount W' a ≤ bcount W a
  hit : ∀ a q, hit W' a q = true → hit W a q = true

theorem BKeeps.trans {W W1 W' : BWorld} (h : BKeeps W W1) (h' : BKeeps W1 W') : BKeeps W W' :=
  ⟨h'.inv, h'.isB.trans h.isB, fun a => Nat.le_trans (h'.le a) (h.le a), fun a q hq => h.hit a q (h'.hit a q hq)⟩

theorem BKeeps.of_same {W W' : BWorld} (h : BInv W') (hb : W'.isB = W.isB) (hp : ∀ a q, Handles.hit W' a q = Handles.hit W a q) : BKeeps W W' :=
  ⟨h, hb, fun a => Nat.le_of_eq (bcount_same (hp a)), fun a q hq => by rw [← hp]; exact hq⟩

theorem release_hit {w w' : World} {a : Addr} {new : List Act} (h : release w a = some (w', new)) (q : Obj) :
    w'.obj? q = w.obj? q ∨ w'.obj? q = doom a (w.obj? q) := by
  unfold release at h
  split at h
  · cases h
  · split at h
    · cases h; exact .inr (doom_obj? w _ a rfl q)
    · cases h; exact .inl rfl

theorem drop_objs {w w' : World} {o : Obj} {new : List Act} (h : drop w o = some (w', new)) : w'.objs = w.objs.set o none := by
  unfold drop at h
  split at h
  · cases h
  · split at h
    · cases h; rfl
    · split at h
      · split at h
        · cases h
        · rename_i hu
          cases h
          unfold Handles.unlist at hu
          split at hu
          · cases hu
          · cases hu; rfl
      · cases h; rfl

theorem bstep_release {W : BWorld} {a : Addr} {new : List Act} {w' : World} (h : BInv W) (hs' : release W.base a = some (w', new)) :
    bstep W (.release a) = some (W.withBase w', new) ∧ BKeeps W (W.withBase w') := by
  refine ⟨by simp only [bstep, hs', Option.map_some], ?_⟩
  have hp : ∀ b q, hit (W.withBase w') b q = hit W b q := by
    intro b q
    simp only [hit, BWorld.withBase]
    cases release_hit hs' q with
    | inl e => rw [e]
    | inr e => rw [e, pointsTo_doom]
  refine .of_same (h.of_same hp rfl ?_) rfl hp
  intro q c hq hb
  cases release_hit hs' q with
  | inl e => exact h.guard q c (e ▸ hq) hb
  | inr e =>
    have hq' : doom a (W.base.obj? q) = some c := e ▸ hq
    cases ho : W.base.obj? q with
    | none => rw [ho] at hq'; cases hq'
    | some d =>
      rw [ho] at hq'
      have := h.guard q d ho hb
      simp only [doom] at hq'
      split at hq'
      · cases hq'; exact this
      · cases hq'; exact this

theorem bstep_or {W : BWorld} {x : Act} {rest new : List Act} {w' : World} (hi : Inv W.base (x :: rest)) (hL : LooseOk W.base)
    (h : BInv W) (hs : step W.base x = some (w', new)) :
    (∃ W', bstep W x = some (W', new) ∧ W'.base = w' ∧ BKeeps W W') ∨ (bstep W x = none ∧ ¬ Fewer W) := by
  cases x with
  | release a =>
    obtain ⟨h1, h2⟩ := bstep_release h (show release W.base a = some (w', new) from hs)
    exact .inl ⟨_, h1, rfl, h2⟩
  | drop o =>
    have hs' : drop W.base o = some (w', new) := hs
    have h1 := hi.drops o
    rw [List.count_cons_self] at h1
    cases ho : W.base.obj? o with
    | none => rw [ho] at h1; simp [isDying] at h1
    | some c =>
      rw [ho] at h1
      have hd : c.owner = .dying := dying_of (by omega)
      have hl : c.loose = false := by
        cases hl : c.loose with
        | false => rfl
        | true => have := hL o c ho hl; rw [hd] at this; cases this
      have hob : ∀ q, w'.obj? q = if q = o then none else W.base.obj? q := by
        intro q
        rw [← obj?_setObj ho none q]
        unfold World.obj?
        rw [drop_objs hs']; rfl
      have hg' : ∀ (W' : BWorld), W'.base.obj? = w'.obj? → W'.isB = W.isB →
          ∀ q c, W'.base.obj? q = some c → W'.isB q = true → c.guard = false := by
        intro W' e1 e2 q d hq hb
        rw [e1, hob] at hq
        split at hq
        · cases hq
        · exact h.guard q d hq (e2 ▸ hb)
      cases hb : W.isB o with
      | false =>
        left
        refine ⟨W.withBase w', by simp only [bstep, hb, hs', Option.map_some]; rfl, rfl, ?_⟩
        have hp : ∀ b q, hit (W.withBase w') b q = hit W b q := by
          intro b q
          simp only [hit, BWorld.withBase, hob]
          split
          · rename_i e; subst e; simp [hb]
          · rfl
        exact .of_same (h.of_same hp rfl (hg' _ rfl rfl)) rfl hp
      | true =>
        have hgd := h.guard o c ho hb
        cases hc : c.slot with
        | none =>
          left
          have hd' : drop W.base o = some (W.base.setObj o none, []) := by simp only [drop, ho, hc]
          rw [hd'] at hs'
          cases hs'
          refine ⟨W.withBase (W.base.setObj o none), by simp only [bstep, hb, dropB, ho, hc, if_true], rfl, ?_⟩
          have hp : ∀ b q, hit (W.withBase (W.base.setObj o none)) b q = hit W b q := by
            intro b q
            simp only [hit, BWorld.withBase, hob]
            split
            · rename_i e; subst e; simp [ho, pointsTo, hc]
            · rfl
          exact .of_same (h.of_same hp rfl (hg' _ rfl rfl)) rfl hp
        | some a =>
          have hd' : drop W.base o = some (W.base.setObj o none, [.release a]) := by
            simp only [drop, ho, hc, hgd]; rfl
          rw [hd'] at hs'
          cases hs'
          obtain ⟨s, hsl⟩ := hi.there ho hl hc
          have hh := hit_some hb ho hl hc
          cases unblock_or h hsl hh with
          | inr e => right; exact ⟨by simp only [bstep, hb, dropB, ho, hc, e.1, if_true], e.2⟩
          | inl e =>
            left
            refine ⟨_, by simp only [bstep, hb, dropB, ho, hc, e, if_true]; rfl, rfl, ?_⟩
            have := BInv.less (W' := ⟨W.base.setObj o none, W.isB, fun b => if b = a then BitVec.ofNat 32 (bcount W a - 1) else W.blocks b⟩)
              h hh rfl ?_ ?_ (hit_other ho hc) (hg' _ rfl rfl)
            · refine ⟨this.1, rfl, this.2, ?_⟩
              intro b q hq
              by_cases hqo : q = o
              · subst hqo; simp [hit, hob, pointsTo, BWorld.withBase] at hq
              · simpa only [hit, BWorld.withBase, hob, if_neg hqo] using hq
            · intro b q hq
              simp only [hit, hob, if_neg hq]
            · intro b
              simp [hit, hob, pointsTo]

theorem brun_total {w w' : World} {acts : List Act} {r : Option World} (hr : Run w acts r) : ∀ {W : BWorld}, W.base = w → r = some w' →
    Inv w acts → LooseOk w → BInv W →
    (∃ W', BRun W acts (some W') ∧ W'.base = w' ∧ BKeeps W W') ∨ (BRun W acts none ∧ ¬ Fewer W) := by
  induction hr with
  | done w =>
    intro W hW hr _ _ h
    cases hr
    exact .inl ⟨W, .done W, hW, h, rfl, fun _ => Nat.le_refl _, fun _ _ e => e⟩
  | ub _ => intro W _ hr; cases hr
  | @more w w1 x new rest r hs _ ih =>
    intro W hW hr hi hL h
    subst hW
    obtain ⟨w2, new2, h1, h2, h3, _, _⟩ := step_inv hi hL
    rw [hs] at h1
    cases h1
    cases bstep_or hi hL h hs with
    | inr e => exact .inr ⟨.ub e.1, e.2⟩
    | inl e =>
      obtain ⟨W1, e1, e2, e3⟩ := e
      cases ih e2 hr h2 h3 e3.inv with
      | inl g =>
        obtain ⟨W', g1, g2, g3⟩ := g
        exact .inl ⟨W', .more e1 g1, g2, e3.trans g3⟩
      | inr g =>
        refine .inr ⟨.more e1 g.1, fun hf => g.2 fun a => Nat.lt_of_le_of_lt (e3.le a) (hf a)⟩

/-- A slot that stays is released. -/
theorem brun_stays (k : Nat) : ∀ {W : BWorld} {a : Addr} {s : Slot} {r : Option World}, W.base.slots a = some s → k < s.refs →
    Run W.base (List.replicate k (.release a)) r → BInv W →
    ∃ W', r = some W'.base ∧ BRun W (List.replicate k (.release a)) (some W') ∧ BKeeps W W' := by
  induction k with
  | zero =>
    intro W a s r _ _ hr h
    cases hr
    exact ⟨W, rfl, .done W, .of_same h rfl fun _ _ => rfl⟩
  | succ k ih =>
    intro W a s r hs hk hr h
    have hrel : release W.base a = some (W.base.setSlot a (some { s with refs := s.refs - 1 }), []) := by
      simp only [release, hs]; rw [if_neg (by omega)]
    obtain ⟨h1, h2⟩ := bstep_release h hrel
    rw [List.replicate_succ] at hr ⊢
    cases hr with
    | ub e => rw [show step W.base (.release a) = _ from hrel] at e; cases e
    | more e g =>
      rw [show step W.base (.release a) = _ from hrel] at e
      cases e
      obtain ⟨W', g1, g2, g3⟩ := ih (W := W.withBase (W.base.setSlot a (some { s with refs := s.refs - 1 }))) (a := a)
        (s := { s with refs := s.refs - 1 }) (if_pos rfl) (by dsimp only; omega) g h2.inv
      exact ⟨W', g1, .more h1 g2, h2.trans g3⟩

theorem brun_det {W : BWorld} {acts : List Act} {r r' : Option BWorld} (h : BRun W acts r) (h' : BRun W acts r') : r = r' := by
  induction h with
  | done w => cases h'; rfl
  | more h1 _ ih =>
    cases h' with
    | more g1 g2 => rw [h1] at g1; cases g1; exact ih g2
    | ub g1 => rw [h1] at g1; cases g1
  | ub h1 =>
    cases h' with
    | more g1 _ => rw [h1] at g1; cases g1
    | ub _ => rfl

theorem bdoes_det {W : BWorld} {op : BOp} {r r' : Option BWorld} (h : BDoes W op r) (h' : BDoes W op r') : r = r' := by
  cases h <;> cases h' <;> simp_all [quiet] <;> grind [brun_det, does_det]

end Verif.Handles
