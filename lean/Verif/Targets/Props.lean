import Verif.Targets.Order
import Verif.Targets.Tidy
/-
C103-C105: what happens when the target of a slot is destroyed.
-/
namespace Verif.Targets

/-! ### Running the model -/

/-- Does at most `n` actions. -/
def run : Nat → World → List Act → Option (Outcome World)
  | _, w, [] => some (.ok w)
  | 0, _, _ :: _ => none
  | n + 1, w, a :: rest =>
    match step w a with
    | .ok (w', new) => run n w' (new ++ rest)
    | .relock g => some (.relock g)
    | .misuse g => some (.misuse g)
    | .ub => some .ub

theorem run_exec {n : Nat} {w : World} {acts : List Act} {r : Outcome World} (h : run n w acts = some r) :
    Exec w acts r := by
  induction n generalizing w acts with
  | zero =>
    cases acts with
    | nil => cases h; exact .done w
    | cons a l => cases h
  | succ n ih =>
    cases acts with
    | nil => cases h; exact .done w
    | cons a l =>
      simp only [run] at h
      split at h
      · rename_i hs; exact .more hs (ih h)
      · rename_i hs; cases h; exact .relock hs
      · rename_i hs; cases h; exact .misuse hs
      · rename_i hs; cases h; exact .ub hs

/-- One operation. -/
def play1 (w : World) (op : Op) : Option (Outcome World) :=
  match begin w op with
  | none => none
  | some (w', acts) => run 40 w' acts

theorem play1_does {w : World} {op : Op} {r : Outcome World} (h : play1 w op = some r) : Does w op r := by
  unfold play1 at h
  split at h
  · cases h
  · rename_i hb; exact ⟨_, _, hb, run_exec h⟩

/-- Some operations that succeed. -/
def play (w : World) : List Op → Option World
  | [] => some w
  | op :: l =>
    match play1 w op with
    | some (.ok w') => play w' l
    | _ => none

theorem play_reach {w w' : World} {l : List Op} (hw : Reach w) (h : play w l = some w') : Reach w' := by
  induction l generalizing w with
  | nil => cases h; exact hw
  | cons op l ih =>
    simp only [play] at h
    split at h
    · rename_i hp; exact ih (.op hw (play1_does hp)) h
    · cases h

/-- The state after some operations. -/
def after (l : List Op) : World := (play .empty l).getD .empty

theorem after_reach (l : List Op) : Reach (after l) := by
  unfold after
  cases h : play .empty l with
  | none => exact .empty
  | some w => exact play_reach .empty h

/-! ### C103 -/

theorem sum_zero_mem {l : List Owned} {s : SlotId} (h : total (refTo s) l = 0) {o : Owned} (ho : o ∈ l) :
    o ≠ .conn s ∧ o ≠ .guard s := by
  have := total_pos (refTo s) ho
  constructor <;> (rintro rfl; simp [refTo] at this; omega)

theorem referred_iff {w : World} (hi : Inv w []) (s : SlotId) : refsOf w s ≠ 0 ↔ Referred w s := by
  have e := hi.refs s
  unfold refCount at e
  rw [total_nil] at e
  constructor
  · intro h
    by_cases h1 : total (fun y : Sig => y.slots.count s) w.sigs = 0
    · by_cases h2 : total (refTo s) w.held = 0
      · have h3 : total (fun x : Slot => total (refTo s) x.owns) w.slots ≠ 0 := by omega
        have : ¬ ∀ x ∈ w.slots, total (refTo s) x.owns = 0 := fun h => h3 (total_eq_zero h)
        simp only [Classical.not_forall] at this
        obtain ⟨x, hx, hne⟩ := this
        have : ¬ ∀ o ∈ x.owns, refTo s o = 0 := fun h => hne (total_eq_zero h)
        simp only [Classical.not_forall] at this
        obtain ⟨o, ho, hne⟩ := this
        obtain ⟨t, ht⟩ := List.getElem?_of_mem hx
        refine .inr ⟨o, ?_, .inr ⟨t, x, ht, ho⟩⟩
        cases o with
        | conn r => by_cases hr : r = s <;> simp_all [refTo]
        | guard r => by_cases hr : r = s <;> simp_all [refTo]
        | sig g => simp [refTo] at hne
      · have : ¬ ∀ o ∈ w.held, refTo s o = 0 := fun h => h2 (total_eq_zero h)
        simp only [Classical.not_forall] at this
        obtain ⟨o, ho, hne⟩ := this
        refine .inr ⟨o, ?_, .inl ho⟩
        cases o with
        | conn r => by_cases hr : r = s <;> simp_all [refTo]
        | guard r => by_cases hr : r = s <;> simp_all [refTo]
        | sig g => simp [refTo] at hne
    · have : ¬ ∀ y ∈ w.sigs, y.slots.count s = 0 := fun h => h1 (total_eq_zero h)
      simp only [Classical.not_forall] at this
      obtain ⟨y, hy, hne⟩ := this
      obtain ⟨g, hg⟩ := List.getElem?_of_mem hy
      exact .inl ⟨g, y, hg, List.count_pos_iff.1 (by omega)⟩
  · rintro (⟨g, y, hy, hs⟩ | ⟨o, ho, hh | ⟨t, x, hx, hm⟩⟩)
    · have := total_pos (fun y : Sig => y.slots.count s) (List.mem_of_getElem? hy)
      have := List.count_pos_iff.2 hs
      omega
    · have := total_pos (refTo s) hh
      rcases ho with rfl | rfl <;> (simp [refTo] at this; omega)
    · have := total_pos (refTo s) hm
      have h2 := total_pos (fun x : Slot => total (refTo s) x.owns) (List.mem_of_getElem? hx)
      rcases ho with rfl | rfl <;> (simp [refTo] at this; omega)

/-- The target of a slot is destroyed at most once, and is destroyed exactly when nobody has a
reference to the slot. -/
theorem C103_once {w : World} (h : Reach w) :
    (w.log.map (·.1)).Nodup ∧ ∀ s, s < w.slots.length → (Destroyed w s ↔ ¬ Referred w s) := by
  have hi := reach_inv h
  refine ⟨hi.logged.1, fun s hs => ?_⟩
  rw [← referred_iff hi s]
  have := hi.logged.2 s
  unfold Destroyed
  constructor
  · rintro ⟨gs, hm⟩ hne
    exact hne (this.1 (List.mem_map.2 ⟨_, hm, rfl⟩)).2
  · intro hz
    obtain ⟨⟨t, gs⟩, hm, ht⟩ := List.mem_map.1 (this.2 ⟨hs, Classical.byContradiction fun h => hz h⟩)
    simp only at ht
    subst ht
    exact ⟨gs, hm⟩

/-- Every operation ends, in one way, and uses nothing that has been destroyed. -/
theorem C103_ends {w : World} (h : Reach w) {op : Op} (hb : (begin w op).isSome) :
    ∃ r, Does w op r ∧ (∀ r', Does w op r' → r' = r) ∧ r ≠ .ub := by
  cases hbe : begin w op with
  | none => rw [hbe] at hb; cases hb
  | some p =>
    obtain ⟨w', acts⟩ := p
    obtain ⟨r, hr⟩ := exec_total w' acts
    refine ⟨r, ⟨w', acts, hbe, hr⟩, ?_, (exec_inv hr (begin_inv (reach_inv h) hbe)).1⟩
    rintro r' ⟨w2, acts2, hb2, hr2⟩
    rw [hbe] at hb2
    cases hb2
    exact exec_unique hr2 hr

/-- Between operations no mutex is locked. -/
theorem C103_unlocked {w : World} (h : Reach w) {g : SigId} {y : Sig} (hy : w.sigs[g]? = some y) : y.locked = false :=
  unlocked (reach_inv h) hy

/-- A chain: slot 0 of signal 0 owns signal 1, whose slot 1 has a scoped connection to slot 2 of
signal 2.  Dropping signal 0 destroys all of it. -/
def chain : List Op :=
  [.newSig, .newSig, .newSig, .connect 0 false, .connect 1 false, .connect 2 false, .guard 2, .give 1 (.guard 2),
    .drop (.conn 1), .give 0 (.sig 1), .drop (.conn 0)]

example : (after chain).slots = [⟨1, some 0, [.sig 1]⟩, ⟨1, some 1, [.guard 2]⟩, ⟨2, some 2, []⟩] ∧
    (after chain).held = [.sig 2, .sig 0] := by decide +kernel

example : (after (chain ++ [.drop (.sig 0)])).log = [(2, [0, 1]), (1, [0, 1]), (0, [0])] ∧
    (after (chain ++ [.drop (.sig 0)])).sigs.map (·.slots) = [[], [], []] := by decide +kernel

example : (begin (after chain) (.drop (.sig 0))).isSome := by decide +kernel

/-! ### C104 -/

/-- When no target of a slot of a signal owns, even indirectly, what locks the signal, no
operation locks a mutex that its thread has locked. -/
theorem C104_layered {w : World} (h : Reach w) (hl : Layered w) {op : Op} {r : Outcome World} (hd : Does w op r) :
    (∃ w', r = .ok w') ∨ ∃ (g : SigId) (y : Sig), r = .misuse g ∧ w.sigs[g]? = some y ∧ y.emitting ≠ 0 := by
  obtain ⟨w', acts, hb, hr⟩ := hd
  have hi := begin_inv (reach_inv h) hb
  have hub := (exec_inv hr hi).1
  by_cases hne : acts = []
  · subst hne
    cases hr
    exact .inl ⟨_, rfl⟩
  · obtain ⟨hle, ho⟩ := begin_less hb hne
    have hre := exec_layered hr hi (layered_less hle hl) ho
    cases r with
    | ok w'' => exact .inl ⟨w'', rfl⟩
    | relock g => exact absurd rfl (hre g)
    | misuse g =>
      obtain ⟨y', hy', he'⟩ := exec_misuse hr rfl
      obtain ⟨y, hy, _, he⟩ := hle.sigs g y' hy'
      exact .inr ⟨g, y, rfl, hy, by omega⟩
    | ub => exact absurd rfl hub

/-- It suffices that signals and slots have levels: the slots of a signal are above it, and what
the target of a slot owns is not below the slot. -/
theorem C104_levels {w : World} (lv : SigId → Nat) (f : SlotId → Nat)
    (hlist : ∀ (g : SigId) (y : Sig) (s : SlotId), w.sigs[g]? = some y → s ∈ y.slots → lv g < f s)
    (howns : ∀ (s : SlotId) (x : Slot) (o : Owned), w.slots[s]? = some x → o ∈ x.owns →
      match o with
      | .conn t => f s ≤ f t
      | .guard t => f s ≤ f t ∧ ∀ (z : Slot) (g : SigId), w.slots[t]? = some z → z.sender = some g → f s ≤ lv g
      | .sig g => f s ≤ lv g) : Layered w := by
  intro g y s hy hs hlead
  have key : ∀ a b, Leads w a b → b = .lock g → ∀ n,
      (match a with
      | .target t => n ≤ f t
      | .owned (.conn t) => n ≤ f t
      | .owned (.guard t) => n ≤ f t ∧ ∀ (z : Slot) (g : SigId), w.slots[t]? = some z → z.sender = some g → n ≤ lv g
      | .owned (.sig k) => n ≤ lv k
      | .lock k => n ≤ lv k) → n ≤ lv g := by
    intro a b h
    induction h with
    | refl a => rintro rfl n h; exact h
    | step h1 _ ih =>
      intro hb n hn
      refine ih hb n ?_
      cases h1 with
      | @owns t x o hx ho =>
        have h3 := howns t x o hx ho
        have hn' : n ≤ f t := hn
        cases o with
        | conn r => exact Nat.le_trans hn' h3
        | guard r => exact ⟨Nat.le_trans hn' h3.1, fun z k hz hk => Nat.le_trans hn' (h3.2 z k hz hk)⟩
        | sig k => exact Nat.le_trans hn' h3
      | conn => exact hn
      | guard => exact hn.1
      | leave hx hs => exact hn.2 _ _ hx hs
      | sig => exact hn
      | listed hy hs => exact Nat.le_of_lt (Nat.lt_of_le_of_lt hn (hlist _ _ _ hy hs))
  have := hlist g y s hy hs
  have := key _ _ hlead rfl (f s) (Nat.le_refl _)
  omega

/-- The chain has levels: 0 and 1 for signal 0 and its slot, 1 and 2 for signal 1 and its slot, ... -/
theorem chain_layered : Layered (after chain) := by
  have e : after chain = ⟨[⟨1, some 0, [.sig 1]⟩, ⟨1, some 1, [.guard 2]⟩, ⟨2, some 2, []⟩],
    [⟨[0], 0, false, false, true⟩, ⟨[1], 0, false, false, true⟩, ⟨[2], 0, false, false, true⟩],
    [.sig 2, .sig 0], []⟩ := by decide +kernel
  rw [e]
  refine C104_levels (fun g => g) (fun s => s + 1) ?_ ?_
  · intro g y s hy hs
    match g with
    | 0 | 1 | 2 =>
      simp at hy
      subst hy
      simp at hs
      subst hs
      simp
    | n + 3 => simp at hy
  · intro s x o hx ho
    match s with
    | 0 => simp at hx; subst hx; simp at ho; subst ho; simp
    | 1 =>
      simp at hx; subst hx; simp at ho; subst ho
      refine ⟨by simp, fun z g hz hg => ?_⟩
      simp at hz
      subst hz
      cases hg
      simp
    | 2 => simp at hx; subst hx; simp at ho
    | n + 3 => simp at hx

example : ∃ w', Does (after chain) (.drop (.sig 0)) (.ok w') := by
  have : (play1 (after chain) (.drop (.sig 0))).isSome := by decide +kernel
  obtain ⟨r, hr⟩ := Option.isSome_iff_exists.1 this
  rcases C104_layered (after_reach chain) chain_layered (play1_does hr) with ⟨w', rfl⟩ | ⟨g, y, rfl, hy, he⟩
  · exact ⟨w', play1_does hr⟩
  · have : ∀ y ∈ (after chain).sigs, y.emitting = 0 := by decide +kernel
    exact absurd (this y (List.mem_of_getElem? hy)) he

/-- The other case: a target owns a signal that is being emitted. -/
example : play1 (after [.newSig, .newSig, .connect 0 false, .give 0 (.sig 1), .drop (.conn 0), .emit 1]) (.drop (.sig 0)) =
    some (.misuse 1) := by decide +kernel

/-- While no emission is in progress and no target owns a signal, connections can be
disconnected and destroyed whatever the targets own; no target is destroyed while a mutex is
locked. -/
theorem C104_connections {w : World} (h : Reach w) (hid : Idle w) (hn : NoSigs w) {op : Op} {r : Outcome World}
    (hop : ∃ s, op = .disconnect s ∨ op = .drop (.conn s) ∨ op = .drop (.guard s)) (hd : Does w op r) :
    ∃ w' log, r = .ok w' ∧ w'.log = log ++ w.log ∧ ∀ e ∈ log, e.2 = [] := by
  obtain ⟨w', acts, hb, hr⟩ := hd
  have hi := begin_inv (reach_inv h) hb
  obtain ⟨s, rfl | rfl | rfl⟩ := hop
  · simp only [begin] at hb
    split at hb
    · cases hb
      obtain ⟨w'', log, h1, h2, h3⟩ := exec_calm hr hi hid hn (.plain fun a ha => by
        simp only [List.mem_cons, List.mem_nil_iff, or_false] at ha
        rcases ha with rfl | rfl <;> trivial)
      exact ⟨w'', log, h1, h2, h3⟩
    · cases hb
  · simp only [begin] at hb
    split at hb
    · cases hb
      obtain ⟨w'', log, h1, h2, h3⟩ := exec_calm hr hi hid hn (.plain fun a ha => by
        simp only [List.mem_singleton] at ha
        subst ha
        trivial)
      exact ⟨w'', log, h1, h2, h3⟩
    · cases hb
  · simp only [begin] at hb
    split at hb
    · cases hb
      obtain ⟨w'', log, h1, h2, h3⟩ := exec_calm hr hi hid hn (.plain fun a ha => by
        simp only [List.mem_singleton] at ha
        subst ha
        trivial)
      exact ⟨w'', log, h1, h2, h3⟩
    · cases hb

/-- Two slots of one signal; the target of the first has a scoped connection to the second. -/
def sibling : List Op :=
  [.newSig, .connect 0 false, .connect 0 false, .guard 1, .give 0 (.guard 1)]

/-- Then the destructor of the signal locks its mutex twice. -/
theorem C104_destructor_violated :
    ∃ w, Reach w ∧ Idle w ∧ NoSigs w ∧ ∃ g, Does w (.drop (.sig g)) (.relock g) := by
  have h1 : ∀ y ∈ (after (sibling ++ [.drop (.conn 0)])).sigs, y.emitting = 0 := by decide +kernel
  have h2 : ∀ x ∈ (after (sibling ++ [.drop (.conn 0)])).slots, ∀ o ∈ x.owns, o = .guard 1 := by decide +kernel
  refine ⟨_, after_reach (sibling ++ [.drop (.conn 0)]), fun g y hy => h1 y (List.mem_of_getElem? hy), fun s x hx g hg => ?_, 0,
    play1_does (by decide +kernel)⟩
  cases h2 x (List.mem_of_getElem? hx) _ hg

/-- With the slots in the other order it does not. -/
example : play1 (after [.newSig, .connect 0 false, .connect 0 true, .guard 1, .give 0 (.guard 1), .drop (.conn 0)])
    (.drop (.sig 0)) = some (.ok ⟨[⟨0, none, []⟩, ⟨0, none, []⟩], [⟨[], 0, false, false, false⟩], [], [(1, [0]), (0, [0])]⟩) := by
  decide +kernel

/-- So does the end of an emission during which the first slot was disconnected. -/
theorem C104_emission_violated :
    ∃ w, Reach w ∧ NoSigs w ∧ ∃ g, Does w (.finish g) (.relock g) := by
  have h2 : ∀ x ∈ (after (sibling ++ [.emit 0, .disconnect 0])).slots, ∀ o ∈ x.owns, o = .guard 1 := by decide +kernel
  refine ⟨_, after_reach (sibling ++ [.emit 0, .disconnect 0]), fun s x hx g hg => ?_, 0, play1_does (by decide +kernel)⟩
  cases h2 x (List.mem_of_getElem? hx) _ hg

/-- Disconnecting the first slot while no emission is in progress is fine: its target, and with
it the second slot, goes when the mutex is not locked. -/
example : (after (sibling ++ [.disconnect 0])).log = [(1, []), (0, [])] ∧
    (after (sibling ++ [.disconnect 0])).sigs.map (·.slots) = [[]] := by decide +kernel

example : ∃ w' log, Does (after sibling) (.disconnect 0) (.ok w') ∧ w'.log = log ++ (after sibling).log ∧ ∀ e ∈ log, e.2 = [] := by
  have h1 : ∀ y ∈ (after sibling).sigs, y.emitting = 0 := by decide +kernel
  have h2 : ∀ x ∈ (after sibling).slots, ∀ o ∈ x.owns, o = .guard 1 := by decide +kernel
  have h3 : (play1 (after sibling) (.disconnect 0)).isSome := by decide +kernel
  obtain ⟨r, hr⟩ := Option.isSome_iff_exists.1 h3
  obtain ⟨w', log, h4, h5, h6⟩ := C104_connections (after_reach sibling) (fun g y hy => h1 y (List.mem_of_getElem? hy))
    (fun s x hx g hg => by cases h2 x (List.mem_of_getElem? hx) _ hg) ⟨0, .inl rfl⟩ (play1_does hr)
  exact ⟨w', log, h4 ▸ play1_does hr, h5, h6⟩

/-! ### C105 -/

/-- When nothing is held, and no slot is kept by itself through the targets of others, every
target has been destroyed and so has every signal. -/
theorem C105_freed {w : World} (h : Reach w) (hh : w.held = []) {rank : SlotId → Nat}
    (hr : ∀ t s, Keeps w t s → rank t < rank s) :
    (∀ s, s < w.slots.length → Destroyed w s) ∧ ∀ (g : SigId) (y : Sig), w.sigs[g]? = some y → y.alive = false := by
  have hi := reach_inv h
  have hho := reach_hollow h
  -- an owner of a living signal is the target of a slot that exists
  have howner : ∀ (g : SigId) (y : Sig), w.sigs[g]? = some y → y.alive = true →
      ∃ (t : SlotId) (x : Slot), w.slots[t]? = some x ∧ .sig g ∈ x.owns := by
    intro g y hy ha
    have e := hi.own g
    rw [aliveOf_some hy, ha] at e
    unfold ownCount at e
    rw [hh, total_nil, total_nil] at e
    have : ¬ ∀ x ∈ w.slots, total (ownTo g) x.owns = 0 := by
      intro h0
      rw [total_eq_zero h0] at e
      cases e
    simp only [Classical.not_forall] at this
    obtain ⟨x, hx, hne⟩ := this
    have : ¬ ∀ o ∈ x.owns, ownTo g o = 0 := fun h => hne (total_eq_zero h)
    simp only [Classical.not_forall] at this
    obtain ⟨o, ho, hne⟩ := this
    obtain ⟨t, ht⟩ := List.getElem?_of_mem hx
    refine ⟨t, x, ht, ?_⟩
    cases o with
    | conn r => simp [ownTo] at hne
    | guard r => simp [ownTo] at hne
    | sig k =>
      by_cases hk : k = g
      · subst hk; exact ho
      · simp [ownTo, hk] at hne
  have halive : ∀ (t : SlotId) (x : Slot), w.slots[t]? = some x → x.owns ≠ [] → refsOf w t ≠ 0 := by
    intro t x hx hne h0
    rw [refsOf_some hx] at h0
    exact hne (hho t x hx h0)
  have hdead : ∀ n s, rank s ≤ n → refsOf w s = 0 := by
    intro n
    induction n with
    | zero =>
      intro s hs
      refine Classical.byContradiction fun hne => ?_
      rcases (referred_iff hi s).1 hne with ⟨g, y, hy, hm⟩ | ⟨o, ho, hheld | ⟨t, x, hx, hm⟩⟩
      · have ha : y.alive = true := by
          cases ha : y.alive
          · rcases hi.dying g y hy ha with ⟨_, h3⟩ | h3
            · cases h3
            · rw [h3] at hm; cases hm
          · rfl
        obtain ⟨t, x, hx, hox⟩ := howner g y hy ha
        have := hr t s ⟨x, hx, .inr (.inr ⟨g, y, hox, hy, hm⟩)⟩
        omega
      · rw [hh] at hheld; cases hheld
      · have := hr t s ⟨x, hx, by rcases ho with rfl | rfl; exact .inl hm; exact .inr (.inl hm)⟩
        omega
    | succ n ih =>
      intro s hs
      refine Classical.byContradiction fun hne => ?_
      rcases (referred_iff hi s).1 hne with ⟨g, y, hy, hm⟩ | ⟨o, ho, hheld | ⟨t, x, hx, hm⟩⟩
      · have ha : y.alive = true := by
          cases ha : y.alive
          · rcases hi.dying g y hy ha with ⟨_, h3⟩ | h3
            · cases h3
            · rw [h3] at hm; cases hm
          · rfl
        obtain ⟨t, x, hx, hox⟩ := howner g y hy ha
        have := hr t s ⟨x, hx, .inr (.inr ⟨g, y, hox, hy, hm⟩)⟩
        exact halive t x hx (List.ne_nil_of_mem hox) (ih t (by omega))
      · rw [hh] at hheld; cases hheld
      · have := hr t s ⟨x, hx, by rcases ho with rfl | rfl; exact .inl hm; exact .inr (.inl hm)⟩
        exact halive t x hx (List.ne_nil_of_mem hm) (ih t (by omega))
  refine ⟨fun s hs => ?_, fun g y hy => ?_⟩
  · refine ((C103_once h).2 s hs).2 fun href => ?_
    exact (referred_iff hi s).2 href (hdead (rank s) s (Nat.le_refl _))
  · cases ha : y.alive
    · rfl
    · obtain ⟨t, x, hx, hox⟩ := howner g y hy ha
      exact absurd (hdead (rank t) t (Nat.le_refl _)) (halive t x hx (List.ne_nil_of_mem hox))

/-- In the chain of the example above everything goes with the two signals held. -/
example : (after (chain ++ [.drop (.sig 0), .drop (.sig 2)])).held = [] ∧
    (after (chain ++ [.drop (.sig 0), .drop (.sig 2)])).log.length = 3 ∧
    (after (chain ++ [.drop (.sig 0), .drop (.sig 2)])).sigs.map (·.alive) = [false, false, false] := by decide +kernel

/-- A signal that is not being emitted lists exactly the slots that are connected to it. -/
theorem C105_listed {w : World} (h : Reach w) {g : SigId} {y : Sig} (hy : w.sigs[g]? = some y) (he : y.emitting = 0)
    (s : SlotId) : s ∈ y.slots ↔ ∃ x : Slot, w.slots[s]? = some x ∧ x.sender = some g := by
  have hi := reach_inv h
  have ht := reach_tidy h
  constructor
  · intro hs
    have hf : y.deferred = false := by
      cases hf : y.deferred
      · rfl
      · obtain ⟨k, hk⟩ := ht.defer g y hy he hf
        simp at hk
    obtain ⟨x, hx, hsome⟩ := ht.live g y s hy hf hs
    obtain ⟨g', hg'⟩ := Option.isSome_iff_exists.1 hsome
    obtain ⟨z, hz, hm⟩ := hi.member s x g' hx hg'
    cases ht.unique hy hz hs hm
    exact ⟨x, hx, hg'⟩
  · rintro ⟨x, hx, hg⟩
    obtain ⟨z, hz, hm⟩ := hi.member s x g hx hg
    cases hy.symm.trans hz
    exact hm

/-- So between emissions a slot that was disconnected is kept only by connections; without any
its target has been destroyed. -/
theorem C105_disconnected {w : World} (h : Reach w) (hid : Idle w) {s : SlotId} {x : Slot} (hx : w.slots[s]? = some x)
    (hd : x.sender = none) (hc : ∀ o ∈ w.held, o ≠ .conn s ∧ o ≠ .guard s)
    (ho : ∀ (t : SlotId) (z : Slot), w.slots[t]? = some z → ∀ o ∈ z.owns, o ≠ .conn s ∧ o ≠ .guard s) :
    Destroyed w s := by
  have hs : s < w.slots.length := (List.getElem?_eq_some_iff.1 hx).1
  rw [(C103_once h).2 s hs]
  have hi := reach_inv h
  rw [← referred_iff hi s, Classical.not_not, hi.refs s]
  have key : ∀ o : Owned, o ≠ .conn s ∧ o ≠ .guard s → refTo s o = 0 := by
    rintro (t | t | g) ⟨h1, h2⟩ <;> simp only [refTo]
    · rw [if_neg (fun h => h1 (by rw [h]))]
    · rw [if_neg (fun h => h2 (by rw [h]))]
  unfold refCount
  rw [total_eq_zero (f := refTo s) (fun o hm => key o (hc o hm)), total_nil, total_eq_zero, total_eq_zero]
  · intro z hz
    obtain ⟨t, ht⟩ := List.getElem?_of_mem hz
    exact total_eq_zero fun o hm => key o (ho t z ht o hm)
  · intro y hy
    obtain ⟨g, hg⟩ := List.getElem?_of_mem hy
    refine List.count_eq_zero.2 fun hm => ?_
    obtain ⟨x', hx', hs'⟩ := (C105_listed h hg (hid g y hg) s).1 hm
    cases hx.symm.trans hx'
    rw [hd] at hs'
    cases hs'

/-- During an emission a slot that was disconnected is still listed; it is gone after. -/
example : (after [.newSig, .connect 0 false, .connect 0 false, .emit 0, .disconnect 0, .disconnect 1]).sigs.map (·.slots) = [[0, 1]] ∧
    (after [.newSig, .connect 0 false, .connect 0 false, .emit 0, .disconnect 0, .disconnect 1, .finish 0]).sigs.map (·.slots) = [[]] ∧
    (after [.newSig, .connect 0 false, .connect 0 false, .emit 0, .disconnect 0, .disconnect 1, .finish 0]).log.map (·.1) = [1, 0] := by
  decide +kernel

/-- A slot whose target has a scoped connection to it is never destroyed, though the signal
and everything held are gone. -/
theorem C105_cycle_violated :
    ∃ w, Reach w ∧ w.held = [] ∧ (∀ (g : SigId) (y : Sig), w.sigs[g]? = some y → y.alive = false) ∧
      ∃ s, s < w.slots.length ∧ ¬ Destroyed w s := by
  refine ⟨after [.newSig, .connect 0 false, .guard 0, .give 0 (.guard 0), .drop (.sig 0)], after_reach _,
    by decide +kernel, ?_, 0, by decide +kernel, ?_⟩
  · have : ∀ y ∈ (after [.newSig, .connect 0 false, .guard 0, .give 0 (.guard 0), .drop (.sig 0)]).sigs,
      y.alive = false := by decide +kernel
    exact fun g y hy => this y (List.mem_of_getElem? hy)
  · rintro ⟨gs, hm⟩
    have : (after [.newSig, .connect 0 false, .guard 0, .give 0 (.guard 0), .drop (.sig 0)]).log = [] := by decide +kernel
    rw [this] at hm
    cases hm

end Verif.Targets
