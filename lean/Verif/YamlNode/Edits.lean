import Verif.YamlNode.Write
/-
Two parts of memory that do not use each other stay independent whatever is done to one of them.
-/
namespace Verif.YamlNode

/-- The nodes `P` and cells `Q` use each other only, and nothing else uses them. -/
structure Split (P Q : Nat → Prop) (H : Heap) : Prop where
  ok : Ok H
  ref : ∀ n, n < H.nodes → (P n ↔ Q (H.ref n))
  kids : ∀ k, k < H.cells → ∀ m ∈ (H.data k).kids, (Q k ↔ P m)
  nodes : ∀ n, P n → n < H.nodes
  cells : ∀ k, Q k → k < H.cells

/-- The part stays as it is. -/
structure Keeps (P Q : Nat → Prop) (H H' : Heap) : Prop where
  split : Split P Q H'
  content : ∀ n, P n → H'.content n = H.content n
  grow : H.nodes ≤ H'.nodes

theorem Keeps.refl {P Q : Nat → Prop} {H : Heap} (h : Split P Q H) : Keeps P Q H H :=
  ⟨h, fun _ _ => rfl, Nat.le_refl _⟩

theorem Keeps.trans {P Q : Nat → Prop} {H1 H2 H3 : Heap} (h1 : Keeps P Q H1 H2) (h2 : Keeps P Q H2 H3) :
    Keeps P Q H1 H3 :=
  ⟨h2.split, fun n hn => (h2.content n hn).trans (h1.content n hn), Nat.le_trans h1.grow h2.grow⟩

theorem Split.alloc {P Q : Nat → Prop} {H : Heap} (h : Split P Q H) {c : Content} (hc : c.kids = []) :
    Keeps P Q H (H.alloc c).1 := by
  have hr := alloc_redirects (B := []) h.ok (c := c) (by simp [hc])
  refine ⟨⟨hr.ok, ?_, ?_, fun n hn => Nat.lt_succ_of_lt (h.nodes n hn), fun n hn => Nat.lt_succ_of_lt (h.cells n hn)⟩,
    fun n hn => hr.content h.ok (h.nodes n hn), Nat.le_succ _⟩
  · intro n hn
    simp only [Heap.alloc] at hn ⊢
    split
    · rename_i he
      subst he
      exact ⟨fun hp => absurd (h.nodes _ hp) (Nat.lt_irrefl _), fun hq => absurd (h.cells _ hq) (Nat.lt_irrefl _)⟩
    · exact h.ref n (by omega)
  · intro k hk m hm
    simp only [Heap.alloc] at hk hm
    split at hm
    · rw [hc] at hm; cases hm
    · exact h.kids k (by omega) m hm

theorem Split.setData {P Q : Nat → Prop} {H : Heap} (h : Split P Q H) {k : Nat} (hk : ¬ Q k) {c : Content}
    (hc : ∀ m ∈ c.kids, m < H.nodes ∧ ¬ P m) : Keeps P Q H (H.setData k c) := by
  refine ⟨⟨⟨h.ok.ref, ?_⟩, h.ref, ?_, h.nodes, h.cells⟩, ?_, Nat.le_refl _⟩
  · intro j hj m hm
    simp only [Heap.setData] at hj hm ⊢
    split at hm
    · exact (hc m hm).1
    · exact h.ok.kids j hj m hm
  · intro j hj m hm
    simp only [Heap.setData] at hj hm
    split at hm
    · rename_i he
      subst he
      exact ⟨fun hq => absurd hq hk, fun hp => absurd hp (hc m hm).2⟩
    · exact h.kids j hj m hm
  · intro n hn
    simp only [Heap.content, Heap.setData]
    rw [if_neg]
    intro he
    exact hk (he ▸ (h.ref n (h.nodes n hn)).mp hn)

theorem Split.setRef {P Q : Nat → Prop} {H : Heap} (h : Split P Q H) {n m : Nat} (hn : ¬ P n) (hm : m < H.nodes ∧ ¬ P m) :
    Keeps P Q H (H.setRef n (H.ref m)) := by
  refine ⟨⟨⟨?_, h.ok.kids⟩, ?_, h.kids, h.nodes, h.cells⟩, ?_, Nat.le_refl _⟩
  · intro k hk
    simp only [Heap.setRef] at hk ⊢
    split
    · exact h.ok.ref m hm.1
    · exact h.ok.ref k hk
  · intro k hk
    simp only [Heap.setRef] at hk ⊢
    split
    · rename_i he
      subst he
      exact ⟨fun hp => absurd hp hn, fun hq => absurd ((h.ref m hm.1).mpr hq) hm.2⟩
    · exact h.ref k hk
  · intro k hk
    simp only [Heap.content, Heap.setRef]
    rw [if_neg (by rintro rfl; exact hn hk)]

theorem Split.assign {P Q : Nat → Prop} {H : Heap} (h : Split P Q H) {n m : Nat} (hn : ¬ P n) (hm : m < H.nodes ∧ ¬ P m) :
    Keeps P Q H (assign H (some n) (some m)).1 := by
  simp only [Verif.YamlNode.assign]
  split
  · exact .refl h
  · exact h.setRef hn hm

theorem Split.other {P Q : Nat → Prop} {H : Heap} (h : Split P Q H) {n : Nat} (hn : n < H.nodes ∧ ¬ P n) :
    ¬ Q (H.ref n) ∧ ∀ m ∈ (H.content n).kids, m < H.nodes ∧ ¬ P m := by
  have h1 : ¬ Q (H.ref n) := fun hq => hn.2 ((h.ref n hn.1).mpr hq)
  exact ⟨h1, fun m hm => ⟨h.ok.content hn.1 m hm, fun hp => h1 ((h.kids _ (h.ok.ref n hn.1) m hm).mpr hp)⟩⟩

theorem entries_kids {c : Content} {e : String × Nat} (he : e ∈ c.entries) : e.2 ∈ c.kids := by
  cases c with
  | map es => exact List.mem_map.mpr ⟨e, he, rfl⟩
  | _ => cases he

theorem lookup_pair {α : Type} {key : String} : ∀ {es : List (String × α)} {v : α}, es.lookup key = some v → ∃ k, (k, v) ∈ es
  | [], _, h => by cases h
  | (k, w) :: es, v, h => by
    rw [List.lookup_cons] at h
    cases hk : (key == k) with
    | true => rw [hk] at h; cases h; exact ⟨k, by simp⟩
    | false => rw [hk] at h; obtain ⟨k', h'⟩ := lookup_pair h; exact ⟨k', by simp [h']⟩

theorem Split.run {P Q : Nat → Prop} {H : Heap} (h : Split P Q H) (e : Edit) (he : ∀ m ∈ e.uses, m < H.nodes ∧ ¬ P m) :
    Keeps P Q H (e.run H) := by
  cases e with
  | make s => exact h.alloc rfl
  | set n s => exact h.setData (h.other (he n (by simp [Edit.uses]))).1 (by simp [Content.kids])
  | assign n r => exact h.assign (he n (by simp [Edit.uses])).2 (he r (by simp [Edit.uses]))
  | push n r =>
    have hn := h.other (he n (by simp [Edit.uses]))
    have hr := he r (by simp [Edit.uses])
    simp only [Edit.run, addElement, Heap.ensure]
    split
    · rename_i ns hc
      refine h.setData hn.1 ?_
      intro m hm
      simp only [Content.kids, List.mem_append, List.mem_singleton] at hm
      rcases hm with hm | rfl
      · exact hn.2 m (by rw [hc]; exact hm)
      · exact hr
    · refine h.setData hn.1 ?_
      intro m hm
      simp only [Content.kids, List.mem_singleton] at hm
      subst hm
      exact hr
  | put n key r =>
    have hn' := he n (by simp [Edit.uses])
    have hn := h.other hn'
    have hr := he r (by simp [Edit.uses])
    simp only [Edit.run, addField]
    split
    · rename_i m hm
      obtain ⟨k, hk⟩ := lookup_pair hm
      exact h.assign (hn.2 m (entries_kids hk)).2 hr
    · have h1 := h.alloc (c := .null) rfl
      have hne : ¬ P (H.alloc .null).2 := fun hp => absurd (h.nodes _ hp) (Nat.lt_irrefl _)
      have hn1 := h1.split.other (n := n) ⟨Nat.lt_succ_of_lt hn'.1, hn'.2⟩
      have h2 := h1.split.setData (k := (H.alloc .null).1.ref n) hn1.1
        (c := .map ((H.content n).entries ++ [(key, (H.alloc .null).2)])) (by
          intro m hm
          simp only [Content.kids, List.map_append, List.map_cons, List.map_nil, List.mem_append,
            List.mem_singleton] at hm
          rcases hm with hm | rfl
          · obtain ⟨e, he, rfl⟩ := List.mem_map.mp hm
            have := hn.2 _ (entries_kids he)
            exact ⟨Nat.lt_succ_of_lt this.1, this.2⟩
          · exact ⟨Nat.lt_succ_self _, hne⟩)
      exact (h1.trans h2).trans (h2.split.assign hne ⟨Nat.lt_succ_of_lt hr.1, hr.2⟩)

/-- Whatever is done elsewhere, the part stays as it is. -/
theorem Split.runAll {P Q : Nat → Prop} {A : Nat → Prop} {start : Nat} (hA : ∀ n, A n → ¬ P n) (hs : ∀ n, P n → n < start) :
    ∀ (es : List Edit) (H : Heap), Split P Q H → (∀ n, A n → n < H.nodes) → Confined A start H es →
      Keeps P Q H (runAll H es)
  | [], _, h, _, _ => .refl h
  | e :: es, H, h, hn, hc => by
    simp only [Confined] at hc
    have h1 := h.run e (fun m hm => by
      rcases hc.1 m hm with ha | ha
      · exact ⟨hn m ha, hA m ha⟩
      · exact ⟨ha.2, fun hp => absurd (hs m hp) (by omega)⟩)
    exact h1.trans (Split.runAll hA hs es _ h1.split (fun n ha => Nat.lt_of_lt_of_le (hn n ha) h1.grow) hc.2)

theorem Keeps.reads {P Q : Nat → Prop} {H H' : Heap} (hs : Split P Q H) (h : Keeps P Q H H') {n : Nat} (hn : P n) {t : Tree} :
    Reads H' n t ↔ Reads H n t :=
  reads_iff (S := P) h.content (fun n hn m hm => by
    have h1 := hs.nodes n hn
    exact (hs.kids _ (hs.ok.ref n h1) m hm).mp ((hs.ref n h1).mp hn)) hn

/-! ### The result of writing an object without views -/

theorem Grows.old {H H' : Heap} (ho : Ok H) (h : Grows [] H H') :
    Split (fun n => n < H.nodes) (fun k => k < H.cells) H' := by
  refine ⟨h.keeps.ok, ?_, ?_, fun n hn => Nat.lt_of_lt_of_le hn h.keeps.nodes,
    fun n hn => Nat.lt_of_lt_of_le hn h.keeps.cells⟩
  · intro n hn
    constructor
    · intro hp
      rw [h.keeps.ref n hp not_nil]
      exact ho.ref n hp
    · intro hq
      refine Classical.byContradiction fun hp => ?_
      rcases h.ref n (by omega) hn with h1 | ⟨b, hb, -⟩
      · omega
      · cases hb
  · intro k hk m hm
    constructor
    · intro hq
      rw [h.keeps.data k hq] at hm
      exact ho.kids k hq m hm
    · intro hp
      refine Classical.byContradiction fun hq => ?_
      rcases h.kids k (by omega) hk m hm with h1 | h1
      · omega
      · cases h1

theorem Grows.new {H H' : Heap} (ho : Ok H) (h : Grows [] H H') :
    Split (fun n => H.nodes ≤ n ∧ n < H'.nodes) (fun k => H.cells ≤ k ∧ k < H'.cells) H' := by
  have hs := h.old ho
  refine ⟨h.keeps.ok, ?_, ?_, fun n hn => hn.2, fun k hk => hk.2⟩
  · intro n hn
    have h1 := hs.ref n hn
    have h2 := h.keeps.ok.ref n hn
    omega
  · intro k hk m hm
    have h1 := hs.kids k hk m hm
    have h2 := h.keeps.ok.kids k hk m hm
    omega

theorem Split.within {P Q : Nat → Prop} {H : Heap} (h : Split P Q H) {n m : Nat} (hw : Within H n m) (hn : P n) : P m := by
  induction hw with
  | self => exact hn
  | kid hk _ ih =>
    have h1 := h.nodes _ hn
    exact ih ((h.kids _ (h.ok.ref _ h1) _ hk).mp ((h.ref _ h1).mp hn))

end Verif.YamlNode
