import Verif.Handles.Ops
/-
C134: connection objects. `Reach` are the states reached when everybody keeps to the rule `Allowed`.
-/
namespace Verif.Handles

/-- Every function that is called by the rule ends, without undefined behaviour, and with one outcome. -/
theorem C134_safe {w : World} (h : Reach w) {op : Op} (ha : Allowed w op) :
    ∃ w', Does w op (some w') ∧ ∀ r, Does w op r → r = some w' := by
  obtain ⟨w', h1, _, _⟩ := op_ok (reach_ok h) ha
  exact ⟨w', h1, fun r hr => does_det hr h1⟩

/-- What is in the connection objects afterwards. -/
theorem C134_values {w w' : World} (h : Reach w) {op : Op} (ha : Allowed w op) (hd : Does w op (some w')) : Post w op w' := by
  obtain ⟨w1, h1, _, h3⟩ := op_ok (reach_ok h) ha
  have := does_det hd h1
  cases this
  exact h3

/-- Two connections are equal iff both are empty or both come from the same call of `connect`, although addresses are used again. -/
theorem C134_identity {w : World} (h : Reach w) {o p : Obj} {c d : Conn} (ho : w.obj? o = some c) (hp : w.obj? p = some d) :
    c.eq d = true ↔ c.made = d.made := by
  have hw := reach_ok h
  have hlc := hw.firm o c ho
  have hld := hw.firm p d hp
  have hc := hw.inv.made o c ho hlc
  have hd := hw.inv.made p d hp hld
  unfold Conn.eq
  rw [beq_iff_eq]
  constructor
  · intro e
    rw [hc, hd, e]
  · intro e
    cases hcs : c.slot with
    | none =>
      cases hds : d.slot with
      | none => rfl
      | some b =>
        obtain ⟨t, ht⟩ := hw.inv.there hp hld hds
        rw [hcs] at hc
        rw [hds] at hd
        dsimp only at hc hd
        rw [ht] at hd
        rw [hc, hd] at e; cases e
    | some a =>
      obtain ⟨s, hs⟩ := hw.inv.there ho hlc hcs
      rw [hcs] at hc
      dsimp only at hc
      rw [hs] at hc
      cases hds : d.slot with
      | none =>
        rw [hds] at hd
        dsimp only at hd
        rw [hc, hd] at e; cases e
      | some b =>
        obtain ⟨t, ht⟩ := hw.inv.there hp hld hds
        rw [hds] at hd
        dsimp only at hd
        rw [ht] at hd
        rw [hc, hd] at e
        simp only [Option.map_some, Option.some.injEq] at e
        rw [hw.inv.gens a b s t hs ht e]

/-- A new connection differs from all that exist. -/
theorem C134_new {w w' : World} (h : Reach w) {a : Addr} (hd : Does w (.connect a) (some w')) :
    ∃ n, w'.obj? w.objs.length = some n ∧ ∀ q d, w.obj? q = some d → n.eq d = false ∧ d.eq n = false := by
  have hw := reach_ok h
  have ha : Allowed w (.connect a) := by cases hd; assumption
  have hp := C134_values h ha hd w.objs.length
  simp only [written, if_true] at hp
  refine ⟨_, hp, ?_⟩
  intro q d hq
  have : d.slot ≠ some a := by
    intro e
    obtain ⟨s, hs⟩ := hw.inv.there hq (hw.firm q d hq) e
    have ha' : w.slots a = none := ha
    rw [ha'] at hs; cases hs
  constructor
  · simpa [Conn.eq] using fun e => this e.symm
  · simpa [Conn.eq] using this

/-- A slot exists iff it is in the list of its signal or a connection refers to it, and counts both. -/
theorem C134_slots {w : World} (h : Reach w) (a : Addr) :
    (∀ s, w.slots a = some s → s.refs = s.listed.toNat + w.objs.countP fun x => match x with | some c => c.slot == some a | none => false) ∧
    (w.slots a = none → ∀ o c, w.obj? o = some c → c.slot ≠ some a) ∧
    ∀ s, w.slots a = some s → s.listed = true ∨ ∃ o c, w.obj? o = some c ∧ c.slot = some a := by
  have hw := reach_ok h
  have hcount : handles w a = w.objs.countP fun x => match x with | some c => c.slot == some a | none => false := by
    unfold handles
    apply List.countP_congr
    intro x hx
    cases x with
    | none => exact Iff.rfl
    | some c =>
      obtain ⟨i, hi, he⟩ := List.getElem_of_mem hx
      have : w.obj? i = some c := by unfold World.obj?; rw [List.getElem?_eq_getElem hi, he]; rfl
      have hl := hw.firm i c this
      simp [pointsTo, hl]
  have hr := hw.inv.refs a
  refine ⟨?_, ?_, ?_⟩
  · intro s hs
    rw [← hcount]
    simp only [refsOf, listedOf, hs, List.count_nil] at hr
    exact hr
  · intro hn o c ho hc
    obtain ⟨s, hs⟩ := hw.inv.there ho (hw.firm o c ho) hc
    rw [hn] at hs; cases hs
  · intro s hs
    have hp := hw.inv.pos a s hs
    simp only [refsOf, listedOf, hs, List.count_nil] at hr
    cases hl : s.listed with
    | true => exact .inl rfl
    | false =>
      right
      rw [hl] at hr
      have hpos : 0 < handles w a := by
        simp only [Bool.toNat_false] at hr; omega
      obtain ⟨x, hx, hpx⟩ := List.countP_pos_iff.1 hpos
      cases x with
      | none => cases hpx
      | some c =>
        obtain ⟨i, hi, he⟩ := List.getElem_of_mem hx
        refine ⟨i, c, by unfold World.obj?; rw [List.getElem?_eq_getElem hi, he]; rfl, ?_⟩
        simp only [pointsTo, Bool.and_eq_true, beq_iff_eq] at hpx
        exact hpx.2

/-- `count_` is a `std::ptrdiff_t` (signal.hpp:43): it is positive and does not overflow. An object is a pointer of eight bytes, so that in a
memory of 2^64 bytes there are not more than 2^61 of them. -/
theorem C134_count {w : World} (h : Reach w) (hm : 8 * w.objs.countP Option.isSome ≤ 2 ^ 64) {a : Addr} {s : Slot}
    (hs : w.slots a = some s) : 0 < s.refs ∧ s.refs < 2 ^ 63 := by
  obtain ⟨h1, _, h3⟩ := C134_slots h a
  have e := h1 s hs
  have hle : (w.objs.countP fun x => match x with | some c => c.slot == some a | none => false) ≤ w.objs.countP Option.isSome := by
    apply List.countP_mono_left
    intro x _ hx
    cases x with
    | none => cases hx
    | some c => rfl
  have hb : s.listed.toNat ≤ 1 := by cases s.listed <;> decide
  refine ⟨?_, by omega⟩
  rcases h3 s hs with h | ⟨o, c, ho, hc⟩
  · rw [h] at e; simp only [Bool.toNat_true] at e; omega
  · have : 0 < w.objs.countP fun x => match x with | some c => c.slot == some a | none => false := by
      apply List.countP_pos_iff.2
      refine ⟨some c, ?_, by simp [hc]⟩
      unfold World.obj? at ho
      cases hx : w.objs[o]? with
      | none => rw [hx] at ho; cases ho
      | some y =>
        rw [hx] at ho
        cases y with
        | none => cases ho
        | some z => cases ho; exact List.mem_of_getElem? hx
    omega

/-- `<` is a strict total order that agrees with `==`, if slots have different addresses and none of them is the null pointer. -/
theorem C134_order (at_ : Addr → Nat) (hinj : ∀ a b, at_ a = at_ b → a = b) (hnull : ∀ a, at_ a ≠ 0) (c d e : Conn) :
    c.lt at_ c = false ∧ (c.lt at_ d = true → d.lt at_ e = true → c.lt at_ e = true) ∧
    (c.eq d = true ↔ c.lt at_ d = false ∧ d.lt at_ c = false) := by
  refine ⟨?_, ?_, ?_⟩
  · simp [Conn.lt]
  · simp only [Conn.lt, decide_eq_true_eq]; omega
  · have hlt : ∀ x y : Conn, x.lt at_ y = false ↔ y.bits at_ ≤ x.bits at_ := by
      intro x y
      rw [Conn.lt, decide_eq_false_iff_not]; omega
    rw [hlt, hlt]
    simp only [Conn.eq, Conn.bits, beq_iff_eq]
    cases c.slot with
    | none =>
      cases d.slot with
      | none => simp
      | some b =>
        have := hnull b
        constructor
        · intro e; cases e
        · intro e; dsimp only at e; omega
    | some a =>
      cases d.slot with
      | none =>
        have := hnull a
        constructor
        · intro e; cases e
        · intro e; dsimp only at e; omega
      | some b =>
        dsimp only
        constructor
        · intro e; cases e; omega
        · intro e; rw [hinj a b (by omega)]

/-- Equal connections have equal hashes, whatever `std::hash` is. -/
theorem C134_hash (at_ : Addr → Nat) (hash : Nat → Nat) (c d : Conn) (h : c.eq d = true) : c.hash at_ hash = d.hash at_ hash := by
  have : c.slot = d.slot := by simpa [Conn.eq] using h
  unfold Conn.hash Conn.bits
  rw [this]

/-! ### Examples, and what is not so -/

/-- Two slots with their connections, objects 0 and 1. -/
def two : World :=
  { slots := fun a => if a = 1 then some ⟨2, true, 1⟩ else if a = 0 then some ⟨2, true, 0⟩ else none,
    objs := [some ⟨some 0, .client, false, some 0, false⟩, some ⟨some 1, .client, false, some 1, false⟩], next := 2 }

theorem two_reach : Reach two := by
  have h1 := Reach.step Reach.init (op := .connect 0) rfl (.connect rfl)
  exact Reach.step h1 (op := .connect 1) rfl (.connect rfl)

example : 8 * two.objs.countP Option.isSome ≤ 2 ^ 64 ∧ two.slots 1 = some ⟨2, true, 1⟩ := ⟨by decide, rfl⟩

/-- Object 1 belongs to the target of slot 0. -/
def nested : World :=
  { two with objs := [some ⟨some 0, .client, false, some 0, false⟩, some ⟨some 1, .target 0, false, some 1, false⟩] }

theorem nested_reach : Reach nested :=
  Reach.step two_reach (op := .give 1 0) ⟨_, rfl, rfl, by decide⟩
    (.give (c := ⟨some 1, .client, false, some 1, false⟩) (s := ⟨2, true, 0⟩) rfl rfl rfl)

/-- The signal has given up slot 0. -/
def alone : World := (nested.setSlot 0 (some ⟨2, false, 0⟩)).setSlot 0 (some ⟨1, false, 0⟩)

theorem alone_reach : Reach alone :=
  Reach.step nested_reach (op := .unlist 0) (show nested.slots 0 ≠ none by decide) (.unlist rfl (.more rfl (.done _)))

-- An assignment between objects of the client, and what it leaves.
example : Allowed two (.assign 0 1) ∧ written two 0 (.assign 0 1) = some (some ⟨some 1, .client, false, some 1, false⟩) :=
  ⟨⟨_, _, rfl, rfl, rfl, rfl, .inl ⟨rfl, rfl⟩⟩, rfl⟩

-- An assignment from an object of a target: slot 0 is still in the list.
example : Allowed nested (.assign 0 1) := by
  refine ⟨_, _, rfl, rfl, rfl, rfl, .inr ?_⟩
  intro a s h1 h2
  cases h1
  cases h2
  decide

-- The rule does not allow it once the connection has the only reference.
example : ¬ Allowed alone (.assign 0 1) := by
  rintro ⟨c, d, h1, h2, _, _, h3⟩
  cases h1
  cases h2
  cases h3 with
  | inl h => cases h.2
  | inr h => exact absurd (h 0 ⟨1, false, 0⟩ rfl rfl) (by decide)

/-- `c = *p`, where `c` has the last reference to a slot whose target owns `*p`: the old slot is released before `other.slot_` is read
(signal.hpp:149-151). -/
theorem C134_assign_violated : ∃ w o p c d, Reach w ∧ w.obj? o = some c ∧ w.obj? p = some d ∧ c.guard = false ∧ d.guard = false ∧
    c.owner = .client ∧ Does w (.assign o p) none := by
  refine ⟨alone, 0, 1, _, _, alone_reach, rfl, rfl, rfl, rfl, rfl, ?_⟩
  have hrun : Run (alone.setObj 0 (some ⟨some 0, .client, false, some 0, true⟩)) [.release 0] _ :=
    .more rfl (.more rfl (.more rfl (.done _)))
  have := Does.assign (w := alone) (o := 0) (p := 1) (by decide) rfl rfl rfl hrun
  exact this

/-- A connection that is owned by the target of its own slot. -/
def selfish : World :=
  { slots := fun a => if a = 0 then some ⟨2, true, 0⟩ else none,
    objs := [some ⟨some 0, .target 0, false, some 0, false⟩], next := 1 }

theorem selfish_reach : Reach selfish := by
  have h1 := Reach.step Reach.init (op := .connect 0) rfl (.connect rfl)
  exact Reach.step h1 (op := .give 0 0) ⟨_, rfl, rfl, by decide⟩
    (.give (c := ⟨some 0, .client, false, some 0, false⟩) (s := ⟨2, true, 0⟩) rfl rfl rfl)

/-- `disconnect` on such a connection: the target and with it the connection are destroyed inside of `release` (signal.hpp:179), the
destructor gives up the same reference once more, and line 180 writes to the destroyed object. -/
theorem C134_disconnect_violated : ∃ w o c, Reach w ∧ w.obj? o = some c ∧ Does w (.disconnect o) none := by
  refine ⟨selfish, 0, _, selfish_reach, rfl, ?_⟩
  exact .disconnectUb rfl rfl rfl (.more rfl (.more rfl (.more rfl (.ub rfl))))

/-- During an emission, which has a reference of its own, `disconnect` on it is fine. -/
example : ∃ w, Reach w ∧ Allowed w (.disconnect 0) ∧ ∃ c, w.obj? 0 = some c ∧ c.owner = .target 0 ∧ c.slot = some 0 := by
  have h := Reach.step selfish_reach (op := .copy 0) ⟨_, rfl, rfl⟩ (.copy rfl rfl rfl rfl)
  refine ⟨_, h, ⟨_, rfl, .inr ?_⟩, _, rfl, rfl, rfl⟩
  intro a s h1 h2
  cases h1
  cases h2
  decide

/-- A slot can stay although it is in no list and the client has no connection at all. -/
theorem C134_leak_violated : ∃ w a s, Reach w ∧ w.slots a = some s ∧ s.listed = false ∧ ∀ o c, w.obj? o = some c → c.owner ≠ .client := by
  refine ⟨_, 0, _, Reach.step selfish_reach (op := .unlist 0) (show selfish.slots 0 ≠ none by decide) (.unlist rfl (.more rfl (.done _))), rfl, rfl, ?_⟩
  intro o c ho
  match o with
  | 0 => cases ho; simp
  | _ + 1 => cases ho

/-- Disconnecting one of two equal connections makes them differ. -/
theorem C134_equal_disconnect_violated : ∃ w w' o p c d c' d', Reach w ∧ w.obj? o = some c ∧ w.obj? p = some d ∧ c.eq d = true ∧
    Does w (.disconnect o) (some w') ∧ w'.obj? o = some c' ∧ w'.obj? p = some d' ∧ c'.eq d' = false := by
  obtain ⟨w, h, h0, h2⟩ : ∃ w, Reach w ∧ w.obj? 0 = some ⟨some 0, .client, false, some 0, false⟩ ∧
      w.obj? 2 = some ⟨some 0, .client, false, some 0, false⟩ :=
    ⟨_, Reach.step two_reach (op := .copy 0) ⟨_, rfl, rfl⟩ (.copy rfl rfl rfl rfl), rfl, rfl⟩
  have ha : Allowed w (.disconnect 0) := ⟨_, h0, .inl rfl⟩
  obtain ⟨w', h1, _⟩ := C134_safe h ha
  have hp := C134_values h ha h1
  have hp0 := hp 0
  simp only [written, if_true, h0, Option.map_some] at hp0
  exact ⟨w, w', 0, 2, _, _, _, _, h, h0, h2, rfl, h1, hp0, (hp 2).1 _ h2 rfl, rfl⟩

end Verif.Handles
