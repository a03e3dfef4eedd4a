import Verif.YamlNode.Read
/-
What writing an object does to the memory, and what the result reads as.
-/
namespace Verif.YamlNode

/-! ### Adding nodes -/

/-- From `H` to `H'` nodes and cells were added; the new ones use each other and what nodes of `B` use. -/
structure Grows (B : List Nat) (H H' : Heap) : Prop where
  keeps : Redirects [] H H'
  ref : ∀ n, H.nodes ≤ n → n < H'.nodes → H.cells ≤ H'.ref n ∨ ∃ b ∈ B, H'.ref n = H.ref b
  kids : ∀ k, H.cells ≤ k → k < H'.cells → ∀ m ∈ (H'.data k).kids, H.nodes ≤ m ∨ m ∈ B

theorem Grows.refl {B : List Nat} {H : Heap} (ho : Ok H) : Grows B H H :=
  ⟨.refl ho, fun n h1 h2 => by omega, fun n h1 h2 => by omega⟩

theorem not_nil {n : Nat} : n ∉ ([] : List Nat) := by simp

theorem Grows.trans {B : List Nat} {H1 H2 H3 : Heap} (hB : okBound H1 B) (h1 : Grows B H1 H2) (h2 : Grows B H2 H3) :
    Grows B H1 H3 := by
  have hn := h1.keeps.nodes
  have hc := h1.keeps.cells
  refine ⟨h1.keeps.trans h2.keeps, ?_, ?_⟩
  · intro n hn1 hn3
    by_cases hlt : n < H2.nodes
    · rw [h2.keeps.ref n hlt not_nil]
      exact h1.ref n hn1 hlt
    · rcases h2.ref n (by omega) hn3 with h | ⟨b, hb, h⟩
      · left; omega
      · right
        exact ⟨b, hb, by rw [h, h1.keeps.ref b (hB b hb) not_nil]⟩
  · intro k hk1 hk3 m hm
    by_cases hlt : k < H2.cells
    · rw [h2.keeps.data k hlt] at hm
      exact h1.kids k hk1 hlt m hm
    · rcases h2.kids k (by omega) hk3 m hm with h | h
      · left; omega
      · exact .inr h

/-- A handle that can be put into the result: to a new node or one of `B`. -/
def Fresh (B : List Nat) (H H' : Heap) (h : Handle) : Prop :=
  ∀ n, h = some n → n < H'.nodes ∧ (H.nodes ≤ n ∨ n ∈ B)

theorem alloc_grows {B : List Nat} {H : Heap} (ho : Ok H) {c : Content} (hc : c.kids = []) :
    Grows B H (H.alloc c).1 := by
  refine ⟨alloc_redirects ho (by simp [hc]), ?_, ?_⟩
  · intro n h1 h2
    left
    simp only [Heap.alloc] at h2 ⊢
    rw [if_pos (by omega)]
    exact Nat.le_refl _
  · intro k h1 h2 m hm
    simp only [Heap.alloc] at h2 hm
    rw [if_pos (by omega), hc] at hm
    cases hm

/-! ### A container under construction -/

/-- Only `out` refers to its cell, and nothing lists `out`. -/
structure Alone (out : Nat) (H : Heap) : Prop where
  lt : out < H.nodes
  ref : ∀ n, n < H.nodes → n ≠ out → H.ref n ≠ H.ref out
  kids : ∀ k, k < H.cells → out ∉ (H.data k).kids

/-- All but `out` hold what they held. -/
def Step (out : Nat) (H H' : Heap) : Prop := ∀ n, n < H.nodes → n ≠ out → H'.content n = H.content n

theorem Step.trans {out : Nat} {H1 H2 H3 : Heap} (h : H1.nodes ≤ H2.nodes) (h1 : Step out H1 H2) (h2 : Step out H2 H3) :
    Step out H1 H3 := fun n hn ho => (h2 n (Nat.lt_of_lt_of_le hn h) ho).trans (h1 n hn ho)

theorem Redirects.content {H H' : Heap} (ho : Ok H) (h : Redirects [] H H') {n : Nat} (hn : n < H.nodes) :
    H'.content n = H.content n := by
  unfold Heap.content
  rw [h.ref n hn not_nil, h.data _ (ho.ref n hn)]

theorem Alone.closed {out : Nat} {H : Heap} (ha : Alone out H) (ho : Ok H) {n : Nat} (hn : n < H.nodes ∧ n ≠ out) :
    ∀ m ∈ (H.content n).kids, m < H.nodes ∧ m ≠ out :=
  fun m hm => ⟨ho.content hn.1 m hm, fun hc => ha.kids _ (ho.ref n hn.1) (hc ▸ hm)⟩

theorem Step.reads {out : Nat} {H H' : Heap} (hs : Step out H H') (ha : Alone out H) (ho : Ok H) {n : Nat}
    (hn : n < H.nodes) (hne : n ≠ out) {t : Tree} (h : Reads H n t) : Reads H' n t :=
  reads_of (S := fun n => n < H.nodes ∧ n ≠ out) (fun n hn => hs n hn.1 hn.2) (fun _ hn => ha.closed ho hn) n
    ⟨hn, hne⟩ t h

theorem Step.readsSeq {out : Nat} {H H' : Heap} (hs : Step out H H') (ha : Alone out H) (ho : Ok H) {ns : List Nat}
    (hn : ∀ n ∈ ns, n < H.nodes ∧ n ≠ out) {t : Trees} (h : ReadsSeq H ns t) : ReadsSeq H' ns t :=
  readsSeq_of (S := fun n => n < H.nodes ∧ n ≠ out) (fun n hn => hs n hn.1 hn.2) (fun _ hn => ha.closed ho hn) ns
    hn t h

theorem Step.readsMap {out : Nat} {H H' : Heap} (hs : Step out H H') (ha : Alone out H) (ho : Ok H)
    {ns : List (String × Nat)} (hn : ∀ e ∈ ns, e.2 < H.nodes ∧ e.2 ≠ out) {t : Entries} (h : ReadsMap H ns t) :
    ReadsMap H' ns t :=
  readsMap_of (S := fun n => n < H.nodes ∧ n ≠ out) (fun n hn => hs n hn.1 hn.2) (fun _ hn => ha.closed ho hn) ns
    hn t h

/-- `out` was made after `H0` and is filled. -/
structure Building (B : List Nat) (H0 : Heap) (out : Nat) (H : Heap) : Prop where
  grows : Grows B H0 H
  alone : Alone out H
  node : H0.nodes ≤ out
  cell : H0.cells ≤ H.ref out

theorem Building.ok {B : List Nat} {H0 H : Heap} {out : Nat} (h : Building B H0 out H) : Ok H := h.grows.keeps.ok

theorem alloc_building {B : List Nat} {H : Heap} (ho : Ok H) {c : Content} (hc : c.kids = []) :
    Building B H (H.alloc c).2 (H.alloc c).1 := by
  refine ⟨alloc_grows ho hc, ⟨Nat.lt_succ_self _, ?_, ?_⟩, Nat.le_refl _, ?_⟩
  · intro n hn hne
    simp only [Heap.alloc] at hn hne ⊢
    rw [if_neg hne]
    simp only [if_true]
    have := ho.ref n (by omega)
    omega
  · intro k hk hm
    simp only [Heap.alloc] at hk hm
    split at hm
    · rw [hc] at hm; cases hm
    · have := ho.kids k (by omega) _ hm
      omega
  · simp [Heap.alloc]

theorem alloc_content {H : Heap} {c : Content} : (H.alloc c).1.content (H.alloc c).2 = c := by
  simp [Heap.content, Heap.alloc]

/-- More nodes are added. -/
theorem Building.grow {B : List Nat} {H0 H H' : Heap} {out : Nat} (h : Building B H0 out H) (hB : okBound H0 B)
    (hg : Grows B H H') : Building B H0 out H' ∧ Step out H H' ∧ H'.content out = H.content out := by
  have hlt := h.alone.lt
  have hn := hg.keeps.nodes
  have hb : ∀ b ∈ B, b < H0.nodes ∧ b < H.nodes ∧ b ≠ out := fun b hb => by
    have h1 := hB b hb
    have h2 := h.grows.keeps.nodes
    have h3 := h.node
    omega
  have hro : H'.ref out = H.ref out := hg.keeps.ref out hlt not_nil
  refine ⟨⟨h.grows.trans hB hg, ⟨by omega, ?_, ?_⟩, h.node, by rw [hro]; exact h.cell⟩, ?_, ?_⟩
  · intro n hn1 hne
    rw [hro]
    by_cases hlt' : n < H.nodes
    · rw [hg.keeps.ref n hlt' not_nil]
      exact h.alone.ref n hlt' hne
    · rcases hg.ref n (by omega) hn1 with h1 | ⟨b, hb1, h1⟩
      · have := h.ok.ref out hlt
        omega
      · rw [h1]
        exact h.alone.ref b (hb b hb1).2.1 (hb b hb1).2.2
  · intro k hk hm
    by_cases hlt' : k < H.cells
    · rw [hg.keeps.data k hlt'] at hm
      exact h.alone.kids k hlt' hm
    · rcases hg.kids k (by omega) hk out hm with h1 | h1
      · omega
      · exact (hb out h1).2.2 rfl
  · exact fun n hn _ => hg.keeps.content h.ok hn
  · exact hg.keeps.content h.ok hlt

/-- The cell of `out` gets new contents. -/
theorem Building.fill {B : List Nat} {H0 H : Heap} {out : Nat} (h : Building B H0 out H) {c : Content}
    (hc : ∀ m ∈ c.kids, m < H.nodes ∧ (H0.nodes ≤ m ∨ m ∈ B) ∧ m ≠ out) :
    Building B H0 out (H.setData (H.ref out) c) ∧ Step out H (H.setData (H.ref out) c) ∧
      (H.setData (H.ref out) c).content out = c := by
  have hcell := h.cell
  refine ⟨⟨⟨⟨h.grows.keeps.nodes, h.grows.keeps.cells, ?_, h.grows.keeps.ref, ⟨h.ok.ref, ?_⟩⟩, h.grows.ref, ?_⟩,
    ⟨h.alone.lt, h.alone.ref, ?_⟩, h.node, h.cell⟩, ?_, ?_⟩
  · intro k hk
    simp only [Heap.setData]
    rw [if_neg (by omega)]
    exact h.grows.keeps.data k hk
  · intro k hk m hm
    simp only [Heap.setData] at hk hm ⊢
    split at hm
    · exact (hc m hm).1
    · exact h.ok.kids k hk m hm
  · intro k hk1 hk2 m hm
    simp only [Heap.setData] at hk2 hm
    split at hm
    · exact (hc m hm).2.1
    · exact h.grows.kids k hk1 hk2 m hm
  · intro k hk hm
    simp only [Heap.setData] at hk hm
    split at hm
    · exact (hc out hm).2.2 rfl
    · exact h.alone.kids k hk hm
  · intro n hn hne
    simp only [Heap.content, Heap.setData]
    rw [if_neg (h.alone.ref n hn hne)]
  · simp [Heap.content, Heap.setData]

theorem fresh_ne {B : List Nat} {H0 H H' : Heap} {out : Nat} {h : Handle} (hb : Building B H0 out H) (hB : okBound H0 B)
    (hf : Fresh B H H' h) : ∀ n, h = some n → n < H'.nodes ∧ (H0.nodes ≤ n ∨ n ∈ B) ∧ n ≠ out := by
  intro n hn
  have h1 := hb.alone.lt
  have h2 := hb.grows.keeps.nodes
  have h3 := hb.node
  obtain ⟨h4, h5⟩ := hf n hn
  rcases h5 with h5 | h5
  · exact ⟨h4, .inl (by omega), by omega⟩
  · have := hB n h5
    exact ⟨h4, .inr h5, by omega⟩

theorem Step.shows {out : Nat} {H H' : Heap} (hs : Step out H H') (ha : Alone out H) (ho : Ok H) {h : Handle}
    (hn : ∀ n, h = some n → n < H.nodes ∧ n ≠ out) {t : Tree} (hr : Shows H h t) : Shows H' h t := by
  cases h with
  | none => exact hr
  | some n => exact hs.reads ha ho (hn n rfl).1 (hn n rfl).2 hr

/-- `h` is appended. -/
theorem Building.push {B : List Nat} {H0 H : Heap} {out : Nat} (hb : Building B H0 out H) (hB : okBound H0 B)
    {h : Handle} (hh : ∀ n, h = some n → n < H.nodes ∧ (H0.nodes ≤ n ∨ n ∈ B) ∧ n ≠ out) {ns : List Nat}
    (hc : H.content out = .seq ns) (hns : ∀ n ∈ ns, n < H.nodes ∧ (H0.nodes ≤ n ∨ n ∈ B) ∧ n ≠ out) :
    Building B H0 out (addElement out h H) ∧ Step out H (addElement out h H) ∧
      ∃ n, (addElement out h H).content out = .seq (ns ++ [n]) ∧
        (n < (addElement out h H).nodes ∧ (H0.nodes ≤ n ∨ n ∈ B) ∧ n ≠ out) ∧
        H.nodes ≤ (addElement out h H).nodes ∧
        ∀ t, Shows H h t → Reads (addElement out h H) n t := by
  have h1 : Building B H0 out (H.ensure h).1 ∧ Step out H (H.ensure h).1 ∧ (H.ensure h).1.content out = H.content out ∧
      H.nodes ≤ (H.ensure h).1.nodes ∧
      ((H.ensure h).2 < (H.ensure h).1.nodes ∧ (H0.nodes ≤ (H.ensure h).2 ∨ (H.ensure h).2 ∈ B) ∧ (H.ensure h).2 ≠ out) ∧
      ∀ t, Shows H h t → Reads (H.ensure h).1 (H.ensure h).2 t := by
    cases h with
    | some n => exact ⟨hb, fun _ _ _ => rfl, rfl, Nat.le_refl _, hh n rfl, fun t ht => ht⟩
    | none =>
      obtain ⟨g1, g2, g3⟩ := hb.grow hB (alloc_grows hb.ok (c := .null) rfl)
      have := hb.alone.lt
      have := hb.grows.keeps.nodes
      refine ⟨g1, g2, g3, Nat.le_succ _, ⟨Nat.lt_succ_self _, .inl this, ?_⟩, ?_⟩
      · simp only [Heap.ensure, Heap.alloc]; omega
      · intro t ht
        simp only [Shows] at ht
        subst ht
        simp only [Reads]
        exact alloc_content
  obtain ⟨g1, g2, g3, g4, g5, g6⟩ := h1
  have he : addElement out h H = (H.ensure h).1.setData ((H.ensure h).1.ref out) (.seq (ns ++ [(H.ensure h).2])) := by
    simp only [addElement, g3, hc]
  rw [he]
  obtain ⟨f1, f2, f3⟩ := g1.fill (c := .seq (ns ++ [(H.ensure h).2])) (by
    intro m hm
    simp only [Content.kids, List.mem_append, List.mem_singleton] at hm
    rcases hm with hm | rfl
    · exact ⟨Nat.lt_of_lt_of_le (hns m hm).1 g4, (hns m hm).2⟩
    · exact g5)
  exact ⟨f1, g2.trans g4 f2, _, f3, g5, g4, fun t ht => f2.reads g1.alone g1.ok g5.1 g5.2.2 (g6 t ht)⟩

/-- A new node comes to refer to the cell of another. -/
theorem Building.redirect {B : List Nat} {H0 H : Heap} {out n m : Nat} (hb : Building B H0 out H) (hB : okBound H0 B)
    (hn : H0.nodes ≤ n ∧ n ≠ out) (hm : m < H.nodes ∧ (H0.nodes ≤ m ∨ m ∈ B) ∧ m ≠ out) :
    Building B H0 out (H.setRef n (H.ref m)) ∧
      (∀ k, k ≠ n → (H.setRef n (H.ref m)).content k = H.content k) ∧
      (H.setRef n (H.ref m)).content n = H.content m := by
  have hro : (H.setRef n (H.ref m)).ref out = H.ref out := by
    simp only [Heap.setRef]; rw [if_neg (Ne.symm hn.2)]
  refine ⟨⟨⟨⟨hb.grows.keeps.nodes, hb.grows.keeps.cells, hb.grows.keeps.data, ?_, ⟨?_, hb.ok.kids⟩⟩, ?_,
    hb.grows.kids⟩, ⟨hb.alone.lt, ?_, hb.alone.kids⟩, hb.node, by rw [hro]; exact hb.cell⟩, ?_, ?_⟩
  · intro k hk hnil
    simp only [Heap.setRef]
    rw [if_neg (by omega)]
    exact hb.grows.keeps.ref k hk hnil
  · intro k hk
    simp only [Heap.setRef] at hk ⊢
    split
    · exact hb.ok.ref m hm.1
    · exact hb.ok.ref k hk
  · intro k hk1 hk2
    simp only [Heap.setRef] at hk2 ⊢
    split
    · rcases hm.2.1 with h | h
      · exact hb.grows.ref m h hm.1
      · exact .inr ⟨m, h, hb.grows.keeps.ref m (hB m h) not_nil⟩
    · exact hb.grows.ref k hk1 hk2
  · intro k hk hne
    rw [hro]
    simp only [Heap.setRef] at hk ⊢
    split
    · exact hb.alone.ref m hm.1 hm.2.2
    · exact hb.alone.ref k hk hne
  · intro k hk
    simp only [Heap.content, Heap.setRef]
    rw [if_neg hk]
  · simp [Heap.content, Heap.setRef]

theorem lookup_none {α : Type} {key : String} : ∀ {es : List (String × α)}, key ∉ es.map (·.1) → es.lookup key = none
  | [], _ => rfl
  | (k, v) :: es, h => by
    simp only [List.map_cons, List.mem_cons, not_or] at h
    rw [List.lookup_cons]
    have : (key == k) = false := by simpa using h.1
    rw [this]
    exact lookup_none h.2

theorem readsSeq_each {H H' : Heap} : ∀ (ns : List Nat) (ts : Trees),
    (∀ k t, k ∈ ns → Reads H k t → Reads H' k t) → ReadsSeq H ns ts → ReadsSeq H' ns ts
  | [], .nil, _, h => h
  | n :: ns, .cons t ts, hk, h => by
    simp only [ReadsSeq] at h ⊢
    exact ⟨hk n t (by simp) h.1, readsSeq_each ns ts (fun k t hm => hk k t (by simp [hm])) h.2⟩
  | [], .cons _ _, _, h => by simp [ReadsSeq] at h
  | _ :: _, .nil, _, h => by simp [ReadsSeq] at h

theorem readsMap_each {H H' : Heap} : ∀ (ns : List (String × Nat)) (ts : Entries),
    (∀ k t, k ∈ ns.map (·.2) → Reads H k t → Reads H' k t) → ReadsMap H ns ts → ReadsMap H' ns ts
  | [], .nil, _, h => h
  | (k, n) :: ns, .cons k' t ts, hk, h => by
    simp only [ReadsMap] at h ⊢
    exact ⟨h.1, hk n t (by simp) h.2.1, readsMap_each ns ts
      (fun k t hm => hk k t (by simp only [List.map_cons, List.mem_cons]; exact .inr hm)) h.2.2⟩
  | [], .cons _ _ _, _, h => by simp [ReadsMap] at h
  | _ :: _, .nil, _, h => by simp [ReadsMap] at h

theorem reads_same {H H' : Heap} {n m : Nat} (hc : H'.content n = H.content m)
    (hk : ∀ k t, k ∈ (H.content m).kids → Reads H k t → Reads H' k t) {t : Tree} (h : Reads H m t) : Reads H' n t := by
  cases t with
  | null => simpa only [Reads, hc] using h
  | scalar s => simpa only [Reads, hc] using h
  | seq ts =>
    simp only [Reads, hc] at h ⊢
    obtain ⟨ns, h1, h2⟩ := h
    rw [h1] at hk
    exact ⟨ns, h1, readsSeq_each ns ts hk h2⟩
  | map es =>
    simp only [Reads, hc] at h ⊢
    obtain ⟨ns, h1, h2⟩ := h
    rw [h1] at hk
    exact ⟨ns, h1, readsMap_each ns es hk h2⟩

/-- An entry is added. -/
theorem Building.put {B : List Nat} {H0 H : Heap} {out : Nat} (hb : Building B H0 out H) (hB : okBound H0 B)
    {h : Handle} (hh : ∀ n, h = some n → n < H.nodes ∧ (H0.nodes ≤ n ∨ n ∈ B) ∧ n ≠ out)
    {es : List (String × Nat)} {key : String} (hc : H.content out = .map es) (hk : key ∉ es.map (·.1))
    (hes : ∀ e ∈ es, e.2 < H.nodes ∧ (H0.nodes ≤ e.2 ∨ e.2 ∈ B) ∧ e.2 ≠ out) :
    Building B H0 out (addField out key h H) ∧ Step out H (addField out key h H) ∧
      ∃ n, (addField out key h H).content out = .map (es ++ [(key, n)]) ∧
        (n < (addField out key h H).nodes ∧ (H0.nodes ≤ n ∨ n ∈ B) ∧ n ≠ out) ∧
        H.nodes ≤ (addField out key h H).nodes ∧
        ∀ t, Shows H h t → Reads (addField out key h H) n t := by
  have hlt := hb.alone.lt
  have hle := hb.grows.keeps.nodes
  obtain ⟨g1, g2, g3⟩ := hb.grow hB (alloc_grows hb.ok (c := .null) rfl)
  have hnn : (H.alloc .null).2 = H.nodes := rfl
  have hn1 : (H.alloc .null).1.nodes = H.nodes + 1 := rfl
  obtain ⟨f1, f2, f3⟩ := g1.fill (c := .map (es ++ [(key, (H.alloc .null).2)])) (by
    intro m hm
    simp only [Content.kids, List.map_append, List.map_cons, List.map_nil, List.mem_append, List.mem_singleton] at hm
    rcases hm with hm | rfl
    · obtain ⟨e, he, rfl⟩ := List.mem_map.mp hm
      exact ⟨Nat.lt_of_lt_of_le (hes e he).1 (Nat.le_succ _), (hes e he).2⟩
    · rw [hnn, hn1]; exact ⟨by omega, .inl hle, by omega⟩)
  have he : addField out key h H = (assign ((H.alloc .null).1.setData ((H.alloc .null).1.ref out)
      (.map (es ++ [(key, (H.alloc .null).2)]))) (some (H.alloc .null).2) h).1 := by
    simp only [addField, hc, Content.entries, lookup_none hk]
  rw [he]
  generalize hH2 : (H.alloc .null).1.setData ((H.alloc .null).1.ref out) (.map (es ++ [(key, (H.alloc .null).2)])) = H2
    at f1 f2 f3 ⊢
  have hs2 : Step out H H2 := g2.trans (Nat.le_succ _) f2
  have hn2 : H2.nodes = H.nodes + 1 := by rw [← hH2]; rfl
  have hr2 : H2.ref H.nodes = H.cells := by rw [← hH2]; simp [Heap.setData, Heap.alloc]
  rw [hnn] at f3 ⊢
  cases h with
  | some m =>
    obtain ⟨m1, m2, m3⟩ := hh m rfl
    have hrm : H2.ref m ≠ H.cells := by
      rw [← hH2]
      simp only [Heap.setData, Heap.alloc]
      rw [if_neg (by omega)]
      have := hb.ok.ref m m1
      omega
    obtain ⟨r1, r2, r3⟩ := f1.redirect (n := H.nodes) (m := m) hB ⟨hle, by omega⟩ ⟨by omega, m2, m3⟩
    simp only [assign, hr2]
    rw [if_neg (Ne.symm hrm)]
    have hst : Step out H (H2.setRef H.nodes (H2.ref m)) := fun k hk hne => (r2 k (by omega)).trans (hs2 k hk hne)
    refine ⟨r1, hst, H.nodes, ?_, ⟨?_, .inl hle, by omega⟩, ?_, ?_⟩
    · rw [r2 out (by omega)]; exact f3
    · show H.nodes < H2.nodes; omega
    · show H.nodes ≤ H2.nodes; omega
    · intro t ht
      have hc2 : (H2.setRef H.nodes (H2.ref m)).content H.nodes = H.content m := r3.trans (hs2 m m1 m3)
      refine reads_same hc2 (fun k t hk hr => ?_) ht
      have := hb.alone.closed hb.ok ⟨m1, m3⟩ k hk
      exact hst.reads hb.alone hb.ok this.1 this.2 hr
  | none =>
    obtain ⟨a1, a2, a3⟩ := f1.grow hB (alloc_grows f1.ok (c := .null) rfl)
    have hna : (H2.alloc .null).2 = H2.nodes := rfl
    have hna1 : (H2.alloc .null).1.nodes = H2.nodes + 1 := rfl
    obtain ⟨r1, r2, r3⟩ := a1.redirect (n := H.nodes) (m := (H2.alloc .null).2) hB ⟨hle, by omega⟩
      ⟨by omega, .inl (by omega), by omega⟩
    simp only [assign, Heap.ensure]
    refine ⟨r1, fun k hk hne => ?_, H.nodes, ?_, ⟨?_, .inl hle, by omega⟩, ?_, ?_⟩
    · rw [r2 k (by omega), a2 k (by omega) hne]
      exact hs2 k hk hne
    · rw [r2 out (by omega), a3]; exact f3
    · show H.nodes < (H2.alloc .null).1.nodes; omega
    · show H.nodes ≤ (H2.alloc .null).1.nodes; omega
    · intro t ht
      simp only [Shows] at ht
      subst ht
      simp only [Reads]
      rw [r3]
      exact alloc_content

/-! ### Writing -/

/-- Writing `v` adds nodes only, and the result reads as `g` says. -/
structure Writes (B : List Nat) (H : Heap) (r : Handle × Heap) (v : Val) (g : Obj → Tree) : Prop where
  grows : Grows B H r.2
  fresh : Fresh B H r.2 r.1
  shows : ∀ o, Means H v o → Shows r.2 r.1 (g o)

theorem readsSeq_append {H : Heap} : ∀ (ns : List Nat) (ts : List Tree) (n : Nat) (t : Tree),
    ReadsSeq H ns (.ofList ts) → Reads H n t → ReadsSeq H (ns ++ [n]) (.ofList (ts ++ [t]))
  | [], [], _, _, _, h => by simp [Trees.ofList, ReadsSeq, h]
  | _ :: ns, _ :: ts, n, t, h, h' => by
    simp only [Trees.ofList, ReadsSeq, List.cons_append] at h ⊢
    exact ⟨h.1, readsSeq_append ns ts n t h.2 h'⟩
  | [], _ :: _, _, _, h, _ => by simp [Trees.ofList, ReadsSeq] at h
  | _ :: _, [], _, _, h, _ => by simp [Trees.ofList, ReadsSeq] at h

theorem readsMap_append {H : Heap} : ∀ (ns : List (String × Nat)) (ts : List (String × Tree)) (k : String) (n : Nat)
    (t : Tree), ReadsMap H ns (.ofList ts) → Reads H n t → ReadsMap H (ns ++ [(k, n)]) (.ofList (ts ++ [(k, t)]))
  | [], [], _, _, _, _, h => by simp [Entries.ofList, ReadsMap, h]
  | (_, _) :: ns, (_, _) :: ts, k, n, t, h, h' => by
    simp only [Entries.ofList, ReadsMap, List.cons_append] at h ⊢
    exact ⟨h.1, h.2.1, readsMap_append ns ts k n t h.2.2 h'⟩
  | [], _ :: _, _, _, _, h, _ => by simp [Entries.ofList, ReadsMap] at h
  | (_, _) :: _, [], _, _, _, h, _ => by simp [Entries.ofList, ReadsMap] at h

/-- A sequence under construction; if `M`, its elements read as `ts`. -/
structure SeqAt (B : List Nat) (H0 : Heap) (out : Nat) (H : Heap) (M : Prop) (ts : List Tree) : Prop where
  building : Building B H0 out H
  seq : ∃ ns, H.content out = .seq ns ∧ (∀ n ∈ ns, n < H.nodes ∧ (H0.nodes ≤ n ∨ n ∈ B) ∧ n ≠ out) ∧
    (M → ReadsSeq H ns (.ofList ts))

theorem SeqAt.other {B : List Nat} {H0 H : Heap} {out : Nat} {M : Prop} {ts : List Tree} (h : SeqAt B H0 out H M ts)
    {M' : Prop} (hM : M' → M) {ts' : List Tree} (ht : M' → ts' = ts) : SeqAt B H0 out H M' ts' := by
  obtain ⟨h1, ns, h2, h3, h4⟩ := h
  exact ⟨h1, ns, h2, h3, fun hm => ht hm ▸ h4 (hM hm)⟩

theorem safe_nil {H : Heap} {B l : List Nat} (hB : okBound H B) (hl : ∀ n ∈ l, n ∈ B) : SafeAll [] H l :=
  fun n hn => ⟨hB n (hl n hn), fun _ hb => by cases hb⟩

theorem SeqAt.push {B : List Nat} {H0 H : Heap} {out : Nat} {M : Prop} {ts : List Tree} (h : SeqAt B H0 out H M ts)
    (h0 : Ok H0) (hB : okBound H0 B) {r : Handle × Heap} {v : Val} {g : Obj → Tree} (hw : Writes B H r v g)
    (hv : ∀ n ∈ v.bound, n ∈ B) {o : Obj} (hm : M → Means H0 v o) :
    SeqAt B H0 out (addElement out r.1 r.2) M (ts ++ [g o]) := by
  obtain ⟨hb, ns, hc, hns, hrd⟩ := h
  obtain ⟨g1, g2, g3⟩ := hb.grow hB hw.grows
  have hle := hw.grows.keeps.nodes
  obtain ⟨p1, p2, n, p3, p4, p5, p6⟩ := g1.push hB (h := r.1) (fresh_ne hb hB hw.fresh) (g3.trans hc)
    (fun n hn => ⟨Nat.lt_of_lt_of_le (hns n hn).1 hle, (hns n hn).2⟩)
  refine ⟨p1, ns ++ [n], p3, ?_, fun hM => ?_⟩
  · intro m hm
    simp only [List.mem_append, List.mem_singleton] at hm
    rcases hm with hm | rfl
    · exact ⟨Nat.lt_of_lt_of_le (hns m hm).1 (Nat.le_trans hle p5), (hns m hm).2⟩
    · exact p4
  · refine readsSeq_append _ _ _ _ ?_ (p6 _ (hw.shows o ?_))
    · exact (g2.trans hle p2).readsSeq hb.alone hb.ok (fun n hn => ⟨(hns n hn).1, (hns n hn).2.2⟩) (hrd hM)
    · exact means_keep nil_sub h0 hb.grows.keeps (safe_nil hB hv) (hm hM)

/-- A map under construction; its keys are among `ks`. -/
structure MapAt (B : List Nat) (H0 : Heap) (out : Nat) (H : Heap) (M : Prop) (ks : List String)
    (ts : List (String × Tree)) : Prop where
  building : Building B H0 out H
  map : ∃ es, H.content out = .map es ∧ (∀ e ∈ es, e.2 < H.nodes ∧ (H0.nodes ≤ e.2 ∨ e.2 ∈ B) ∧ e.2 ≠ out) ∧
    (∀ k ∈ es.map (·.1), k ∈ ks) ∧ (M → ReadsMap H es (.ofList ts))

theorem MapAt.other {B : List Nat} {H0 H : Heap} {out : Nat} {M : Prop} {ks : List String}
    {ts : List (String × Tree)} (h : MapAt B H0 out H M ks ts)
    {M' : Prop} (hM : M' → M) {ts' : List (String × Tree)} (ht : M' → ts' = ts) : MapAt B H0 out H M' ks ts' := by
  obtain ⟨h1, ns, h2, h3, h4, h5⟩ := h
  exact ⟨h1, ns, h2, h3, h4, fun hm => ht hm ▸ h5 (hM hm)⟩

theorem MapAt.put {B : List Nat} {H0 H : Heap} {out : Nat} {M : Prop} {ks : List String}
    {ts : List (String × Tree)} (h : MapAt B H0 out H M ks ts)
    (h0 : Ok H0) (hB : okBound H0 B) {key : String} (hk : key ∉ ks) {r : Handle × Heap} {v : Val} {g : Obj → Tree}
    (hw : Writes B H r v g) (hv : ∀ n ∈ v.bound, n ∈ B) {o : Obj} (hm : M → Means H0 v o) :
    MapAt B H0 out (addField out key r.1 r.2) M (key :: ks) (ts ++ [(key, g o)]) := by
  obtain ⟨hb, es, hc, hns, hks, hrd⟩ := h
  obtain ⟨g1, g2, g3⟩ := hb.grow hB hw.grows
  have hle := hw.grows.keeps.nodes
  obtain ⟨p1, p2, n, p3, p4, p5, p6⟩ := g1.put hB (h := r.1) (key := key) (fresh_ne hb hB hw.fresh) (g3.trans hc)
    (fun hc => hk (hks key hc)) (fun n hn => ⟨Nat.lt_of_lt_of_le (hns n hn).1 hle, (hns n hn).2⟩)
  refine ⟨p1, es ++ [(key, n)], p3, ?_, ?_, fun hM => ?_⟩
  · intro m hm
    simp only [List.mem_append, List.mem_singleton] at hm
    rcases hm with hm | rfl
    · exact ⟨Nat.lt_of_lt_of_le (hns m hm).1 (Nat.le_trans hle p5), (hns m hm).2⟩
    · exact p4
  · intro k hk
    simp only [List.map_append, List.map_cons, List.map_nil, List.mem_append, List.mem_singleton] at hk
    rcases hk with hk | rfl
    · exact List.mem_cons_of_mem _ (hks k hk)
    · simp
  · refine readsMap_append _ _ _ _ _ ?_ (p6 _ (hw.shows o ?_))
    · exact (g2.trans hle p2).readsMap hb.alone hb.ok (fun n hn => ⟨(hns n hn).1, (hns n hn).2.2⟩) (hrd hM)
    · exact means_keep nil_sub h0 hb.grows.keeps (safe_nil hB hv) (hm hM)

theorem Building.bound {B : List Nat} {H0 H : Heap} {out : Nat} (h : Building B H0 out H) (hB : okBound H0 B) :
    okBound H B := okBound_mono h.grows.keeps.nodes hB

theorem addAll_means {B : List Nat} {H0 : Heap} (h0 : Ok H0) (hB : okBound H0 B) {out : Nat}
    {f : Val → Heap → Handle × Heap} {g : Obj → Tree} {M : Prop} :
    ∀ (vs : List Val) (os : List Obj) (ts : List Tree) (H : Heap), SeqAt B H0 out H M ts →
      (∀ v ∈ vs, ∀ H, Ok H → okBound H B → Writes B H (f v H) v g) → (∀ n ∈ Val.bounds vs, n ∈ B) →
      (M → MeansAll H0 vs os) → SeqAt B H0 out (addAll out f vs H) M (ts ++ os.map g)
  | [], os, ts, H, h, _, _, hm => by
    refine h.other id fun hM => ?_
    cases os with
    | nil => simp
    | cons _ _ => exact absurd (hm hM) (by simp [MeansAll])
  | v :: vs, os, ts, H, h, hf, hb, hm => by
    have hw := hf v (by simp) H h.building.ok (h.building.bound hB)
    simp only [Val.bounds] at hb
    cases os with
    | nil =>
      have hno : ¬ M := fun hM => by have := hm hM; simp [MeansAll] at this
      have := h.push h0 hB hw (fun n hn => hb n (sub_left n hn)) (o := .scalar "") (fun hM => absurd hM hno)
      exact (addAll_means h0 hB vs [] _ _ this (fun v hv => hf v (by simp [hv])) (fun n hn => hb n (sub_right n hn))
        (fun hM => absurd hM hno)).other id fun hM => absurd hM hno
    | cons o os =>
      have := h.push h0 hB hw (fun n hn => hb n (sub_left n hn)) (o := o) (fun hM => (hm hM).1)
      have := addAll_means h0 hB vs os _ _ this (fun v hv => hf v (by simp [hv])) (fun n hn => hb n (sub_right n hn))
        (fun hM => (hm hM).2)
      simpa only [List.map_cons, List.append_assoc, List.singleton_append, addAll] using this

theorem isNull_of {H : Heap} {v : Val} {o : Obj} (h : Means H v o) : v.isNull = o.isNull := by
  cases v with
  | opt v =>
    cases v with
    | none =>
      cases o with
      | opt o => cases o <;> simp_all [Means, Val.isNull, Obj.isNull]
      | _ => simp [Means] at h
    | some v =>
      cases o with
      | opt o => cases o <;> simp_all [Means, Val.isNull, Obj.isNull]
      | _ => simp [Means] at h
  | _ => cases o <;> simp_all [Means, Val.isNull, Obj.isNull]

theorem addEntries_means {B : List Nat} {H0 : Heap} (h0 : Ok H0) (hB : okBound H0 B) {skip : Bool} {out : Nat}
    {f : Val → Heap → Handle × Heap} {g : Obj → Tree} {M : Prop} :
    ∀ (vs : List (String × Val)) (os : List (String × Obj)) (ks : List String) (ts : List (String × Tree)) (H : Heap),
      MapAt B H0 out H M ks ts →
      (∀ e ∈ vs, ∀ H, Ok H → okBound H B → Writes B H (f e.2 H) e.2 g) → (∀ n ∈ Val.boundEs vs, n ∈ B) →
      (vs.map (·.1)).Nodup → (∀ k ∈ vs.map (·.1), k ∉ ks) →
      (M → MeansEntries H0 vs os) → ∃ ks', MapAt B H0 out (addEntries skip out f vs H) M ks'
        (ts ++ (os.filter fun e => !(skip && e.2.isNull)).map fun e => (e.1, g e.2))
  | [], os, ks, ts, H, h, _, _, _, _, hm => by
    refine ⟨ks, h.other id fun hM => ?_⟩
    cases os with
    | nil => simp
    | cons _ _ => exact absurd (hm hM) (by simp [MeansEntries])
  | (k, v) :: vs, os, ks, ts, H, h, hf, hb, hnd, hks, hm => by
    have hw := hf (k, v) (by simp) H h.building.ok (h.building.bound hB)
    simp only [Val.boundEs] at hb
    simp only [List.map_cons, List.nodup_cons] at hnd
    have hk : k ∉ ks := hks k (by simp)
    have hks1 : ∀ x ∈ vs.map (·.1), x ∉ ks :=
      fun x hx => hks x (by simp only [List.map_cons, List.mem_cons]; exact .inr hx)
    have hks2 : ∀ x ∈ vs.map (·.1), x ∉ k :: ks := fun x hx hc => by
      rcases List.mem_cons.mp hc with rfl | hc
      · exact hnd.1 hx
      · exact hks1 x hx hc
    have hf' : ∀ e ∈ vs, ∀ H, Ok H → okBound H B → Writes B H (f e.2 H) e.2 g := fun e he => hf e (by simp [he])
    have hb' : ∀ n ∈ Val.boundEs vs, n ∈ B := fun n hn => hb n (sub_right n hn)
    cases os with
    | nil =>
      have hno : ¬ M := fun hM => by have := hm hM; simp [MeansEntries] at this
      unfold addEntries
      split
      · obtain ⟨ks', h'⟩ := addEntries_means h0 hB vs [] ks ts H h hf' hb' hnd.2 hks1 (fun hM => absurd hM hno)
        exact ⟨ks', h'.other id fun hM => absurd hM hno⟩
      · have := h.put h0 hB hk hw (fun n hn => hb n (sub_left n hn)) (o := .scalar "") (fun hM => absurd hM hno)
        obtain ⟨ks', h'⟩ := addEntries_means h0 hB vs [] _ _ _ this hf' hb' hnd.2 hks2 (fun hM => absurd hM hno)
        exact ⟨ks', h'.other id fun hM => absurd hM hno⟩
    | cons e os =>
      obtain ⟨k', o⟩ := e
      unfold addEntries
      split
      · rename_i hs
        obtain ⟨ks', h'⟩ := addEntries_means (skip := skip) h0 hB vs os ks ts H h hf' hb' hnd.2 hks1 (fun hM => (hm hM).2.2)
        refine ⟨ks', h'.other id fun hM => ?_⟩
        rw [isNull_of (hm hM).2.1] at hs
        rw [List.filter_cons_of_neg (by simp only [hs]; decide)]
      · rename_i hs
        have := h.put h0 hB hk hw (fun n hn => hb n (sub_left n hn)) (o := o) (fun hM => (hm hM).2.1)
        obtain ⟨ks', h'⟩ := addEntries_means (skip := skip) h0 hB vs os _ _ _ this hf' hb' hnd.2 hks2 (fun hM => (hm hM).2.2)
        refine ⟨ks', h'.other id fun hM => ?_⟩
        rw [isNull_of (hm hM).2.1] at hs
        have hkk := (hm hM).1
        rw [List.filter_cons_of_pos (by simp only [Bool.not_eq_true] at hs; simp only [hs]; decide)]
        simp [hkk]

theorem SeqAt.start {B : List Nat} {H : Heap} (ho : Ok H) {M : Prop} :
    SeqAt B H (H.alloc (.seq [])).2 (H.alloc (.seq [])).1 M [] :=
  ⟨alloc_building ho rfl, [], alloc_content, by simp, fun _ => trivial⟩

theorem MapAt.start {B : List Nat} {H : Heap} (ho : Ok H) {M : Prop} :
    MapAt B H (H.alloc (.map [])).2 (H.alloc (.map [])).1 M [] [] :=
  ⟨alloc_building ho rfl, [], alloc_content, by simp, by simp, fun _ => trivial⟩

theorem Building.fresh {B : List Nat} {H0 H : Heap} {out : Nat} (h : Building B H0 out H) : Fresh B H0 H (some out) :=
  fun n hn => by cases hn; exact ⟨h.alone.lt, .inl h.node⟩

theorem SeqAt.shows {B : List Nat} {H0 H : Heap} {out : Nat} {M : Prop} {ts : List Tree} (h : SeqAt B H0 out H M ts)
    (hM : M) : Shows H (some out) (.seq (.ofList ts)) := by
  obtain ⟨-, ns, h1, -, h2⟩ := h
  exact ⟨ns, h1, h2 hM⟩

theorem MapAt.shows {B : List Nat} {H0 H : Heap} {out : Nat} {M : Prop} {ks : List String}
    {ts : List (String × Tree)} (h : MapAt B H0 out H M ks ts) (hM : M) :
    Shows H (some out) (.map (.ofList ts)) := by
  obtain ⟨-, ns, h1, -, -, h2⟩ := h
  exact ⟨ns, h1, h2 hM⟩

theorem bounds_mem {v : Val} {vs : List Val} (hv : v ∈ vs) : ∀ n ∈ v.bound, n ∈ Val.bounds vs := by
  induction vs with
  | nil => cases hv
  | cons w vs ih =>
    intro n hn
    simp only [Val.bounds, List.mem_append]
    rcases List.mem_cons.mp hv with rfl | hv
    · exact .inl hn
    · exact .inr (ih hv n hn)

theorem boundEs_mem {e : String × Val} {vs : List (String × Val)} (hv : e ∈ vs) :
    ∀ n ∈ e.2.bound, n ∈ Val.boundEs vs := by
  induction vs with
  | nil => cases hv
  | cons w vs ih =>
    obtain ⟨k, w⟩ := w
    intro n hn
    simp only [Val.boundEs, List.mem_append]
    rcases List.mem_cons.mp hv with rfl | hv
    · exact .inl hn
    · exact .inr (ih hv n hn)

mutual
theorem write_means {B : List Nat} {skip : Bool} (t : Ty) (v : Val) (H : Heap) (ho : Ok H) (hB : okBound H B)
    (hv : ∀ n ∈ v.bound, n ∈ B) (hw : t.Wf) (ht : HasTy t v) :
    Writes B H (write skip t v H) v (toTree skip t) := by
  match t with
  | .scalar p =>
    cases v with
    | scalar s =>
      refine ⟨alloc_grows ho rfl, (alloc_building (B := B) ho rfl).fresh, ?_⟩
      intro o hm
      cases o with
      | scalar s' =>
        simp only [Means] at hm
        subst hm
        exact alloc_content
      | _ => simp [Means] at hm
    | _ => simp [HasTy] at ht
  | .view =>
    cases v with
    | view h =>
      refine ⟨.refl ho, ?_, ?_⟩
      · intro n hn
        simp only [write] at hn ⊢
        subst hn
        exact ⟨hB n (hv n (by simp [Val.bound])), .inr (hv n (by simp [Val.bound]))⟩
      · intro o hm
        cases o with
        | view tr => simpa only [Means, write, toTree] using hm
        | _ => simp [Means] at hm
    | _ => simp [HasTy] at ht
  | .opt t =>
    cases v with
    | opt w =>
      cases w with
      | none =>
        refine ⟨.refl ho, fun n hn => by simp [write] at hn, ?_⟩
        intro o hm
        cases o with
        | opt o =>
          cases o with
          | none => rfl
          | some _ => simp [Means] at hm
        | _ => simp [Means] at hm
      | some w =>
        simp only [Ty.Wf] at hw
        simp only [HasTy] at ht
        simp only [Val.bound] at hv
        have := write_means (skip := skip) t w H ho hB hv hw (ht w rfl)
        simp only [write]
        refine ⟨this.grows, this.fresh, ?_⟩
        intro o hm
        cases o with
        | opt o =>
          cases o with
          | none => simp [Means] at hm
          | some o => simp only [Means] at hm; simp only [toTree]; exact this.shows o hm
        | _ => simp [Means] at hm
    | _ => simp [HasTy] at ht
  | .vec t =>
    cases v with
    | vec vs =>
      simp only [Ty.Wf] at hw
      simp only [HasTy] at ht
      simp only [Val.bound] at hv
      have key := fun M os hM => addAll_means (g := toTree skip t) (f := fun v H => write skip t v H) (M := M) ho hB vs os []
        _ (SeqAt.start ho) (fun v hvm H ho hB => write_means t v H ho hB
          (fun n hn => hv n (bounds_mem hvm n hn)) hw (ht v hvm)) hv hM
      simp only [write]
      refine ⟨(key False [] False.elim).building.grows, (key False [] False.elim).building.fresh, ?_⟩
      intro o hm
      cases o with
      | vec os =>
        simp only [Means] at hm
        exact (key True os (fun _ => hm)).shows trivial
      | _ => simp [Means] at hm
    | _ => simp [HasTy] at ht
  | .map t =>
    cases v with
    | map vs =>
      simp only [Ty.Wf] at hw
      simp only [HasTy] at ht
      simp only [Val.bound] at hv
      have key := fun M os hM => addEntries_means (g := toTree skip t) (f := fun v H => write skip t v H) (M := M)
        (skip := skip) ho hB vs os [] []
        _ (MapAt.start ho) (fun e hvm H ho hB => write_means t e.2 H ho hB
          (fun n hn => hv n (boundEs_mem hvm n hn)) hw (ht.1 e hvm)) hv ht.2 (by simp) hM
      simp only [write]
      obtain ⟨_, hf⟩ := key False [] False.elim
      refine ⟨hf.building.grows, hf.building.fresh, ?_⟩
      intro o hm
      cases o with
      | map os =>
        simp only [Means] at hm
        obtain ⟨_, h⟩ := key True os (fun _ => hm)
        exact h.shows trivial
      | _ => simp [Means] at hm
    | _ => simp [HasTy] at ht
  | .tup fs =>
    cases v with
    | record vs =>
      simp only [Ty.Wf] at hw
      simp only [HasTy] at ht
      simp only [Val.bound] at hv
      have key := fun M os hM => writeIndexed_means (skip := skip) (M := M) ho hB fs vs os [] _ _ (SeqAt.start ho) hw ht hv hM
      simp only [write]
      refine ⟨(key False [] False.elim).building.grows, (key False [] False.elim).building.fresh, ?_⟩
      intro o hm
      cases o with
      | record os =>
        simp only [Means] at hm
        exact (key True os (fun _ => hm)).shows trivial
      | _ => simp [Means] at hm
    | _ => simp [HasTy] at ht
  | .obj fs =>
    cases v with
    | record vs =>
      simp only [Ty.Wf] at hw
      simp only [HasTy] at ht
      simp only [Val.bound] at hv
      have key := fun M os hM => writeFields_means (skip := skip) (M := M) ho hB fs vs os [] [] _ _ (MapAt.start ho) hw.2 ht hv
        hw.1 (by simp) hM
      simp only [write]
      obtain ⟨_, hf⟩ := key False [] False.elim
      refine ⟨hf.building.grows, hf.building.fresh, ?_⟩
      intro o hm
      cases o with
      | record os =>
        simp only [Means] at hm
        obtain ⟨_, h⟩ := key True os (fun _ => hm)
        exact h.shows trivial
      | _ => simp [Means] at hm
    | _ => simp [HasTy] at ht
theorem writeIndexed_means {B : List Nat} {skip : Bool} {H0 : Heap} {M : Prop} (h0 : Ok H0) (hB : okBound H0 B)
    (fs : Flds) (vs : List Val) (os : List Obj) (ts : List Tree) (out : Nat) (H : Heap) (h : SeqAt B H0 out H M ts)
    (hw : fs.Wf) (ht : HasTys fs vs) (hv : ∀ n ∈ Val.bounds vs, n ∈ B) (hm : M → MeansAll H0 vs os) :
    SeqAt B H0 out (writeIndexed skip fs vs out H) M (ts ++ toSeq skip fs os) := by
  match fs, vs with
  | .nil, [] =>
    refine h.other id fun hM => ?_
    cases os with
    | nil => simp [toSeq]
    | cons _ _ => simp [toSeq]
  | .nil, _ :: _ => simp [HasTys] at ht
  | .cons _ _ _, [] => simp [HasTys] at ht
  | .cons _ t fs, v :: vs =>
    simp only [HasTys] at ht
    simp only [Flds.Wf] at hw
    simp only [Val.bounds] at hv
    have hwr := write_means (skip := skip) t v H h.building.ok (h.building.bound hB) (fun n hn => hv n (sub_left n hn)) hw.1 ht.1
    simp only [writeIndexed]
    cases os with
    | nil =>
      have hno : ¬ M := fun hM => by have := hm hM; simp [MeansAll] at this
      have := h.push h0 hB hwr (fun n hn => hv n (sub_left n hn)) (o := .scalar "") (fun hM => absurd hM hno)
      exact (writeIndexed_means h0 hB fs vs [] _ out _ this hw.2 ht.2 (fun n hn => hv n (sub_right n hn))
        (fun hM => absurd hM hno)).other id fun hM => absurd hM hno
    | cons o os =>
      have := h.push h0 hB hwr (fun n hn => hv n (sub_left n hn)) (o := o) (fun hM => (hm hM).1)
      have := writeIndexed_means (skip := skip) h0 hB fs vs os _ out _ this hw.2 ht.2 (fun n hn => hv n (sub_right n hn))
        (fun hM => (hm hM).2)
      simpa only [toSeq, List.append_assoc, List.singleton_append] using this
theorem writeFields_means {B : List Nat} {skip : Bool} {H0 : Heap} {M : Prop} (h0 : Ok H0) (hB : okBound H0 B)
    (fs : Flds) (vs : List Val) (os : List Obj) (ks : List String) (ts : List (String × Tree)) (out : Nat) (H : Heap)
    (h : MapAt B H0 out H M ks ts) (hw : fs.Wf) (ht : HasTys fs vs) (hv : ∀ n ∈ Val.bounds vs, n ∈ B)
    (hnd : fs.names.Nodup) (hks : ∀ k ∈ fs.names, k ∉ ks) (hm : M → MeansAll H0 vs os) :
    ∃ ks', MapAt B H0 out (writeFields skip fs vs out H) M ks' (ts ++ toMap skip fs os) := by
  match fs, vs with
  | .nil, [] =>
    refine ⟨ks, h.other id fun hM => ?_⟩
    cases os with
    | nil => simp [toMap]
    | cons _ _ => simp [toMap]
  | .nil, _ :: _ => simp [HasTys] at ht
  | .cons _ _ _, [] => simp [HasTys] at ht
  | .cons k t fs, v :: vs =>
    simp only [HasTys] at ht
    simp only [Flds.Wf] at hw
    simp only [Val.bounds] at hv
    simp only [Flds.names, List.nodup_cons] at hnd
    have hk : k ∉ ks := hks k (by simp [Flds.names])
    have hks1 : ∀ x ∈ fs.names, x ∉ ks :=
      fun x hx => hks x (by simp only [Flds.names, List.mem_cons]; exact .inr hx)
    have hks2 : ∀ x ∈ fs.names, x ∉ k :: ks := fun x hx hc => by
      rcases List.mem_cons.mp hc with rfl | hc
      · exact hnd.1 hx
      · exact hks1 x hx hc
    have hv' : ∀ n ∈ Val.bounds vs, n ∈ B := fun n hn => hv n (sub_right n hn)
    have hwr := write_means (skip := skip) t v H h.building.ok (h.building.bound hB) (fun n hn => hv n (sub_left n hn)) hw.1 ht.1
    simp only [writeFields]
    cases os with
    | nil =>
      have hno : ¬ M := fun hM => by have := hm hM; simp [MeansAll] at this
      split
      · obtain ⟨ks', h'⟩ := writeFields_means (skip := skip) h0 hB fs vs [] ks ts out H h hw.2 ht.2 hv' hnd.2 hks1
          (fun hM => absurd hM hno)
        exact ⟨ks', h'.other id fun hM => absurd hM hno⟩
      · have := h.put h0 hB hk hwr (fun n hn => hv n (sub_left n hn)) (o := .scalar "") (fun hM => absurd hM hno)
        obtain ⟨ks', h'⟩ := writeFields_means (skip := skip) h0 hB fs vs [] _ _ out _ this hw.2 ht.2 hv' hnd.2 hks2
          (fun hM => absurd hM hno)
        exact ⟨ks', h'.other id fun hM => absurd hM hno⟩
    | cons o os =>
      split
      · rename_i hs
        obtain ⟨ks', h'⟩ := writeFields_means (skip := skip) h0 hB fs vs os ks ts out H h hw.2 ht.2 hv' hnd.2 hks1
          (fun hM => (hm hM).2)
        refine ⟨ks', h'.other id fun hM => ?_⟩
        rw [isNull_of (hm hM).1] at hs
        simp [toMap, hs]
      · rename_i hs
        have := h.put h0 hB hk hwr (fun n hn => hv n (sub_left n hn)) (o := o) (fun hM => (hm hM).1)
        obtain ⟨ks', h'⟩ := writeFields_means (skip := skip) h0 hB fs vs os _ _ out _ this hw.2 ht.2 hv' hnd.2 hks2
          (fun hM => (hm hM).2)
        refine ⟨ks', h'.other id fun hM => ?_⟩
        rw [isNull_of (hm hM).1] at hs
        simp [toMap, hs]
end

end Verif.YamlNode
