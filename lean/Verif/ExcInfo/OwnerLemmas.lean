import Verif.ExcInfo.Owner
namespace Verif.ExcInfo

/-- The node exists. -/
def Live (cs : Cells) (i : Nat) : Prop := ∃ c, cs[i]? = some (some c)

/-- The member `next_` of every node that exists. -/
def nexts (cs : Cells) : List (Option Nat) := cs.map fun c => c.bind Counted.next

theorem perm_set {α : Type} {l : List α} {i : Nat} {a : α} (h : l[i]? = some a) (b : α) : (a :: l.set i b).Perm (b :: l) := by
  induction l generalizing i with
  | nil => cases h
  | cons x l ih =>
    cases i with
    | zero => cases h; exact List.Perm.swap ..
    | succ i =>
      simp only [List.set_cons_succ]
      have := ih (i := i) (by simpa using h)
      exact (List.Perm.swap ..).trans ((this.cons x).trans (List.Perm.swap ..))

theorem nexts_set {cs : Cells} {i : Nat} {a : Option Counted} (h : cs[i]? = some a) (b : Option Counted) :
    ((a.bind Counted.next) :: nexts (cs.set i b)).Perm ((b.bind Counted.next) :: nexts cs) := by
  have := (perm_set h b).map fun c => c.bind Counted.next
  simpa [nexts] using this

theorem nexts_same {cs : Cells} {i : Nat} {c c' : Counted} (h : cs[i]? = some (some c)) (hn : c'.next = c.next) :
    (nexts (cs.set i (some c'))).Perm (nexts cs) := by
  have := nexts_set h (some c')
  simp only [Option.bind_some, hn] at this
  exact this.cons_inv

theorem mem_nexts {cs : Cells} {i : Nat} {c : Counted} (h : cs[i]? = some (some c)) : c.next ∈ nexts cs := by
  simp only [nexts, List.mem_map]
  exact ⟨some c, List.mem_of_getElem? h, rfl⟩

theorem live_set {cs : Cells} {i j : Nat} {c c' : Counted} (h : cs[i]? = some (some c)) :
    Live (cs.set i (some c')) j ↔ Live cs j := by
  simp only [Live, List.getElem?_set]
  split
  · rename_i e; subst e
    have : i < cs.length := (List.getElem?_eq_some_iff.1 h).1
    exact ⟨fun _ => ⟨c, h⟩, fun _ => ⟨c', by simp [this]⟩⟩
  · rfl

theorem live_kill {cs : Cells} {i j : Nat} : Live (cs.set i none) j ↔ Live cs j ∧ j ≠ i := by
  simp only [Live, List.getElem?_set]
  split
  · rename_i e; subst e
    split <;> simp
  · rename_i e; simp [Ne.symm e]

/-- The counts are right for the references `hs` from outside the nodes, which refer to nodes that exist. -/
structure Inv (cs : Cells) (hs : List (Option Nat)) : Prop where
  count : ∀ (i : Nat) (c : Counted), cs[i]? = some (some c) → c.count = (hs ++ nexts cs).count (some i)
  live : ∀ i : Nat, some i ∈ hs ++ nexts cs → Live cs i
  pos : ∀ (i : Nat) (c : Counted), cs[i]? = some (some c) → 0 < c.count
  down : ∀ (i : Nat) (c : Counted) (j : Nat), cs[i]? = some (some c) → c.next = some j → j < i

theorem Inv.perm {cs : Cells} {hs hs' : List (Option Nat)} (h : Inv cs hs) (p : hs.Perm hs') : Inv cs hs' where
  count i c hc := (h.count i c hc).trans ((p.append_right _).count_eq _)
  live i hi := h.live i ((p.append_right _).mem_iff.2 hi)
  pos := h.pos
  down := h.down

theorem Inv.drop {cs : Cells} {hs : List (Option Nat)} (h : Inv cs (none :: hs)) : Inv cs hs where
  count i c hc := by simpa using h.count i c hc
  live i hi := h.live i (List.mem_cons_of_mem _ hi)
  pos := h.pos
  down := h.down

theorem Inv.null {cs : Cells} {hs : List (Option Nat)} (h : Inv cs hs) : Inv cs (none :: hs) where
  count i c hc := by simpa using h.count i c hc
  live i hi := h.live i (by simpa using hi)
  pos := h.pos
  down := h.down

/-- The nodes of the first are nodes of the second and show the same. -/
structure Within (cs' cs : Cells) : Prop where
  len : cs'.length = cs.length
  same : ∀ (i : Nat) (c' : Counted), cs'[i]? = some (some c') → ∃ c : Counted, cs[i]? = some (some c) ∧ c'.tag = c.tag ∧ c'.val = c.val ∧ c'.next = c.next

theorem Within.refl (cs : Cells) : Within cs cs := ⟨rfl, fun _ c h => ⟨c, h, rfl, rfl, rfl⟩⟩
theorem Within.trans {a b c : Cells} (h : Within a b) (h' : Within b c) : Within a c := by
  refine ⟨h.len.trans h'.len, fun i x hx => ?_⟩
  obtain ⟨y, hy, h1, h2, h3⟩ := h.same i x hx
  obtain ⟨z, hz, g1, g2, g3⟩ := h'.same i y hy
  exact ⟨z, hz, h1.trans g1, h2.trans g2, h3.trans g3⟩

theorem sub_set {cs : Cells} {i : Nat} {c : Counted} (h : cs[i]? = some (some c)) (k : Nat) :
    Within (cs.set i (some { c with count := k })) cs := by
  refine ⟨by simp, fun j c' hj => ?_⟩
  rw [List.getElem?_set] at hj
  split at hj
  · rename_i e; subst e
    split at hj
    · cases hj; exact ⟨c, h, rfl, rfl, rfl⟩
    · cases hj
  · exact ⟨c', hj, rfl, rfl, rfl⟩

theorem sub_kill (cs : Cells) (i : Nat) : Within (cs.set i none) cs := by
  refine ⟨by simp, fun j c' hj => ?_⟩
  rw [List.getElem?_set] at hj
  split at hj
  · split at hj <;> cases hj
  · exact ⟨c', hj, rfl, rfl, rfl⟩

theorem live_lt {cs : Cells} {i : Nat} (h : Live cs i) : i < cs.length := by
  obtain ⟨c, h⟩ := h
  exact (List.getElem?_eq_some_iff.1 h).1

theorem deref_ok {cs : Cells} {i : Nat} {c : Counted} (h : cs[i]? = some (some c)) : deref cs i = .ok c := by simp [deref, h]

theorem set_get {cs : Cells} {i : Nat} {c c' : Counted} (h : cs[i]? = some (some c)) : (cs.set i (some c'))[i]? = some (some c') := by
  rw [List.getElem?_set, if_pos rfl, if_pos (live_lt ⟨c, h⟩)]

/-- The count of one node changes by the references added. -/
theorem Inv.recount {cs : Cells} {hs hs' : List (Option Nat)} (hi : Inv cs hs) {i k : Nat} {c : Counted} (h : cs[i]? = some (some c))
    (hk : k = hs'.count (some i) + (nexts cs).count (some i)) (hpos : 0 < k)
    (hother : ∀ j, j ≠ i → hs'.count (some j) = hs.count (some j)) :
    Inv (cs.set i (some { c with count := k })) hs' := by
  have hn := nexts_same (c' := { c with count := k }) h rfl
  have hc : ∀ j, (hs' ++ nexts (cs.set i (some { c with count := k }))).count (some j) = hs'.count (some j) + (nexts cs).count (some j) := by
    intro j; rw [List.count_append, hn.count_eq]
  refine ⟨?_, ?_, ?_, ?_⟩
  · intro j c' hj
    rw [hc]
    rw [List.getElem?_set] at hj
    split at hj
    · rename_i e; subst e
      split at hj
      · cases hj; exact hk
      · cases hj
    · rename_i e
      rw [hi.count j c' hj, List.count_append, hother j (Ne.symm e)]
  · intro j hj
    rw [live_set h]
    by_cases e : j = i
    · exact e ▸ ⟨c, h⟩
    · apply hi.live
      rw [← List.count_pos_iff] at hj ⊢
      rw [hc, hother j e] at hj
      rwa [List.count_append]
  · intro j c' hj
    rw [List.getElem?_set] at hj
    split at hj
    · split at hj
      · cases hj; exact hpos
      · cases hj
    · exact hi.pos j c' hj
  · intro j c' m hj hm
    rw [List.getElem?_set] at hj
    split at hj
    · rename_i e; subst e
      split at hj
      · cases hj; exact hi.down i c m h hm
      · cases hj
    · exact hi.down j c' m hj hm

theorem retain_ok {cs : Cells} {hs : List (Option Nat)} (hi : Inv cs hs) {p : Option Nat} (hp : ∀ i, p = some i → Live cs i) :
    ∃ cs', retain cs p = .ok cs' ∧ Inv cs' (p :: hs) ∧ Within cs' cs ∧ ∀ j, Live cs' j ↔ Live cs j := by
  cases p with
  | none => exact ⟨cs, rfl, hi.null, .refl cs, fun _ => .rfl⟩
  | some i =>
    obtain ⟨c, hc⟩ := hp i rfl
    refine ⟨cs.set i (some { c with count := c.count + 1 }), by simp [retain, deref_ok hc, Except.map], ?_, sub_set hc _, fun j => live_set hc⟩
    refine hi.recount hc ?_ (Nat.succ_pos _) ?_
    · rw [hi.count i c hc, List.count_append, List.count_cons_self]; omega
    · intro j hj
      rw [List.count_cons_of_ne]
      simp [Ne.symm hj]

theorem release_ok : ∀ (fuel : Nat) {cs : Cells} {hs : List (Option Nat)} {p : Option Nat}, Inv cs (p :: hs) →
    (∀ i, p = some i → i < fuel) →
    ∃ cs' l, release cs fuel p = .ok (cs', l) ∧ Inv cs' hs ∧ Within cs' cs ∧ (∀ j, Live cs' j ↔ Live cs j ∧ j ∉ l) ∧
      (∀ j ∈ l, Live cs j) ∧ l.Pairwise (· > ·) ∧ (∀ j ∈ l, ∃ i, p = some i ∧ j ≤ i) ∧
      ∀ i, p = some i → some i ∈ hs ++ nexts cs → l = []
  | fuel, cs, hs, none, hi, _ => by
    refine ⟨cs, [], by cases fuel <;> rfl, hi.drop, .refl cs, ?_, ?_, .nil, ?_, ?_⟩ <;> simp
  | 0, cs, hs, some i, _, hf => absurd (hf i rfl) (Nat.not_lt_zero _)
  | fuel + 1, cs, hs, some i, hi, hf => by
    obtain ⟨c, hc⟩ := hi.live i (by simp)
    have hcount := hi.count i c hc
    rw [List.cons_append, List.count_cons_self] at hcount
    simp only [release, deref_ok hc]
    match hk : c.count with
    | 0 => omega
    | 1 =>
      have hn := nexts_set hc none
      simp only [Option.bind_some, Option.bind_none] at hn
      have h0 : (hs ++ nexts cs).count (some i) = 0 := by omega
      have hall : ∀ j, (c.next :: hs ++ nexts (cs.set i none)).count (some j) = (hs ++ nexts cs).count (some j) := by
        intro j
        have h1 : (c.next :: hs ++ nexts (cs.set i none)).Perm (none :: (hs ++ nexts cs)) := by
          refine (List.perm_middle (l₁ := hs)).symm.trans ?_
          exact (hn.append_left hs).trans List.perm_middle
        rw [h1.count_eq, List.count_cons_of_ne (by simp)]
      have hI : Inv (cs.set i none) (c.next :: hs) := by
        refine ⟨?_, ?_, ?_, ?_⟩
        · intro j c' hj
          have hji : j ≠ i := (live_kill.1 ⟨c', hj⟩).2
          rw [List.getElem?_set_ne (Ne.symm hji)] at hj
          rw [hall, hi.count j c' hj, List.cons_append, List.count_cons_of_ne (by simp [Ne.symm hji])]
        · intro j hj
          rw [← List.count_pos_iff, hall] at hj
          have hji : j ≠ i := by rintro rfl; omega
          exact live_kill.2 ⟨hi.live j (List.mem_cons_of_mem _ (List.count_pos_iff.1 hj)), hji⟩
        · intro j c' hj
          have hji : j ≠ i := (live_kill.1 ⟨c', hj⟩).2
          rw [List.getElem?_set_ne (Ne.symm hji)] at hj
          exact hi.pos j c' hj
        · intro j c' m hj
          have hji : j ≠ i := (live_kill.1 ⟨c', hj⟩).2
          rw [List.getElem?_set_ne (Ne.symm hji)] at hj
          exact hi.down j c' m hj
      obtain ⟨cs', l, h1, h2, h3, h4, h5, h6, h7, -⟩ := release_ok fuel hI (fun j hj => by
        have := hi.down i c j hc hj
        have := hf i rfl
        omega)
      have hlt : ∀ j ∈ l, j < i := by
        intro j hj
        obtain ⟨m, hm, hjm⟩ := h7 j hj
        have := hi.down i c m hc hm
        omega
      refine ⟨cs', i :: l, by simp only [h1], h2, h3.trans (sub_kill cs i), ?_, ?_, ?_, ?_, ?_⟩
      · intro j
        rw [h4, live_kill, List.mem_cons, not_or, and_assoc]
      · intro j hj
        rcases List.mem_cons.1 hj with rfl | hj
        · exact ⟨c, hc⟩
        · exact (live_kill.1 (h5 j hj)).1
      · exact List.pairwise_cons.2 ⟨fun j hj => hlt j hj, h6⟩
      · intro j hj
        rcases List.mem_cons.1 hj with rfl | hj
        · exact ⟨j, rfl, Nat.le_refl _⟩
        · exact ⟨i, rfl, Nat.le_of_lt (hlt j hj)⟩
      · rintro j ⟨⟩ hj
        rw [← List.count_pos_iff] at hj
        omega
    | k + 2 =>
      refine ⟨_, [], rfl, ?_, sub_set hc _, ?_, ?_, .nil, ?_, ?_⟩
      · refine hi.recount hc ?_ (Nat.succ_pos _) ?_
        · rw [List.count_append] at hcount; omega
        · intro j hj
          rw [List.count_cons_of_ne]
          simp [Ne.symm hj]
      · intro j; rw [live_set hc]; simp
      · simp
      · simp
      · simp

/-- The references of the objects. -/
def heads (l : List (Option (Option Nat))) : List (Option Nat) := l.map fun x => x.getD none

theorem heads_set {l : List (Option (Option Nat))} {o : Nat} {a : Option (Option Nat)} (h : l[o]? = some a) (b : Option (Option Nat)) :
    ((a.getD none) :: heads (l.set o b)).Perm ((b.getD none) :: heads l) := by
  have := (perm_set h b).map fun x => x.getD none
  simpa [heads] using this

theorem heads_add (l : List (Option (Option Nat))) (b : Option (Option Nat)) :
    ((b.getD none) :: heads l).Perm (heads (l ++ [b])) := by
  simp only [heads, List.map_append, List.map_cons, List.map_nil]
  exact (List.perm_append_singleton ..).symm

theorem heads_mem {l : List (Option (Option Nat))} {o : Nat} {h : Option Nat} (ho : l[o]? = some (some h)) : h ∈ heads l :=
  List.mem_map.2 ⟨some h, List.mem_of_getElem? ho, rfl⟩

end Verif.ExcInfo
