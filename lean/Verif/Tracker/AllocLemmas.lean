import Verif.Tracker.Props
import Verif.Tracker.Alloc
import Verif.Tracker.AllocSpec
/-
Lemmas for C138: the ones of `Props.lean` for histories in which a call may count for nothing.
-/
namespace Verif.Tracker.Alloc
open Verif.Path Verif.Path.Spec Verif.Tracker Verif.Tracker.Spec

/-- The last entry that has `P`. -/
def Last (P : Option Note → Prop) (hist : List (Option Note)) (g : Nat) : Prop :=
  (g = 0 ∧ ∀ e ∈ hist, ¬ P e) ∨
  ∃ n e, hist[n]? = some e ∧ g = n + 2 ∧ P e ∧ ∀ m e', n < m → hist[m]? = some e' → ¬ P e'

theorem last_snoc_pos {P : Option Note → Prop} {hist : List (Option Note)} {e : Option Note} (h : P e) :
    Last P (hist ++ [e]) (hist.length + 2) := by
  refine .inr ⟨hist.length, e, by simp, rfl, h, ?_⟩
  intro m e' hm he
  rw [List.getElem?_eq_none (by simp; omega)] at he
  simp at he

theorem last_snoc_neg {P : Option Note → Prop} {hist : List (Option Note)} {e : Option Note} {g : Nat} (h : ¬ P e)
    (hl : Last P hist g) : Last P (hist ++ [e]) g := by
  rcases hl with ⟨h0, hn⟩ | ⟨n, x, hx, hg, hP, hm⟩
  · left
    refine ⟨h0, ?_⟩
    intro y hy
    rcases List.mem_append.1 hy with hy | hy
    · exact hn y hy
    · simp only [List.mem_singleton] at hy; subst hy; exact h
  · right
    have hlt : n < hist.length := (List.getElem?_eq_some_iff.1 hx).1
    refine ⟨n, x, by rw [List.getElem?_append_left hlt]; exact hx, hg, hP, ?_⟩
    intro m y hmn hy
    rcases Nat.lt_trichotomy m hist.length with hlt | heq | hgt
    · rw [List.getElem?_append_left hlt] at hy
      exact hm m y hmn hy
    · subst heq
      simp at hy; subst hy; exact h
    · rw [List.getElem?_eq_none (by simp; omega)] at hy
      simp at hy

theorem last_max {P Q : Option Note → Prop} {hist : List (Option Note)} {a b : Nat} (ha : Last P hist a)
    (hb : Last Q hist b) : Last (fun n => P n ∨ Q n) hist (if b > a then b else a) := by
  rcases ha with ⟨ha0, hna⟩ | ⟨n, x, hx, hg, hP, hm⟩ <;>
  rcases hb with ⟨hb0, hnb⟩ | ⟨n', x', hx', hg', hP', hm'⟩
  · left
    refine ⟨by split <;> omega, fun e he => ?_⟩
    rintro (h | h)
    · exact hna e he h
    · exact hnb e he h
  · rw [if_pos (by omega)]
    right
    refine ⟨n', x', hx', hg', .inr hP', fun m e hmn he => ?_⟩
    rintro (h | h)
    · exact hna e (List.mem_of_getElem? he) h
    · exact hm' m e hmn he h
  · rw [if_neg (by omega)]
    right
    refine ⟨n, x, hx, hg, .inl hP, fun m e hmn he => ?_⟩
    rintro (h | h)
    · exact hm m e hmn he h
    · exact hnb e (List.mem_of_getElem? he) h
  · by_cases hba : b > a
    · rw [if_pos hba]
      right
      refine ⟨n', x', hx', hg', .inr hP', fun m e hmn he => ?_⟩
      rintro (h | h)
      · exact hm m e (by omega) he h
      · exact hm' m e hmn he h
    · rw [if_neg hba]
      right
      refine ⟨n, x, hx, hg, .inl hP, fun m e hmn he => ?_⟩
      rintro (h | h)
      · exact hm m e hmn he h
      · exact hm' m e (by omega) he h

theorem last_congr {P Q : Option Note → Prop} {hist : List (Option Note)} {g : Nat} (h : Last P hist g)
    (hpq : ∀ e, P e ↔ Q e) : Last Q hist g := by
  have : P = Q := funext fun e => propext (hpq e)
  exact this ▸ h

/-- A note that is there and says something. -/
def Is (P : Note → Prop) (e : Option Note) : Prop := ∃ n, e = some n ∧ P n

structure Inv (t : Tracker) (hist : List (Option Note)) : Prop where
  cur : t.current = hist.length + 1
  node : ∀ p, Valid p → Last (Is fun n => p <+: n.1) hist (lookup t.node (join p))
  sub : ∀ p, Valid p → Last (Is fun n => n.2 = true ∧ n.1 = p) hist (lookup t.subtree (join p))

theorem inv_init : Inv {} [] :=
  ⟨rfl, fun _ _ => .inl ⟨rfl, by simp⟩, fun _ _ => .inl ⟨rfl, by simp⟩⟩

theorem loop_ok {t : Tracker} {hist : List (Option Note)} (hi : Inv t hist) {w : View} {loc : List Seg}
    (hs : Shows w loc) (is : List Nat) (his : ∀ i ∈ is, i ≤ loc.length) (r : Nat)
    (P : Option Note → Prop) (hr : Last P hist r) :
    ∃ g, t.changedAtLoop w r is = some g ∧
      Last (fun e => P e ∨ (loc.length ∈ is ∧ Is (fun n => loc <+: n.1) e) ∨
        ∃ i ∈ is, Is (fun n => n.2 = true ∧ n.1 = loc.take i) e) hist g := by
  induction is generalizing r P with
  | nil =>
    refine ⟨r, rfl, ?_⟩
    exact last_congr hr (by simp)
  | cons i is ih =>
    have hi1 := his i (by simp)
    have hpre := hs.pre i hi1
    simp only [Tracker.changedAtLoop, hpre]
    have hsub := hi.sub (loc.take i) (valid_take hs.valid i)
    by_cases hil : i = loc.length
    · have hnode := hi.node loc hs.valid
      have h1 := last_max hr hnode
      have h2 := last_max h1 hsub
      obtain ⟨g, e, hg⟩ := ih (fun j hj => his j (by simp [hj])) _ _ h2
      refine ⟨g, ?_, last_congr hg ?_⟩
      · rw [hs.size, if_pos hil]
        subst hil
        rw [List.take_length] at e ⊢
        exact e
      · intro n
        subst hil
        simp only [List.mem_cons, true_or, true_and, exists_eq_or_imp]
        grind
    · have h2 := last_max hr hsub
      obtain ⟨g, e, hg⟩ := ih (fun j hj => his j (by simp [hj])) _ _ h2
      refine ⟨g, ?_, last_congr hg ?_⟩
      · rw [hs.size, if_neg hil]
        exact e
      · intro n
        simp only [List.mem_cons, exists_eq_or_imp]
        grind

theorem changedAt_ok {t : Tracker} {hist : List (Option Note)} (hi : Inv t hist) {w : View}
    {loc : List Seg} (hs : Shows w loc) :
    ∃ g, t.changedAt w = some g ∧ Last (Is fun n => Concerns n loc) hist g := by
  obtain ⟨g, e, hg⟩ := loop_ok hi hs (List.range (w.size + 1))
    (by intro i hi; rw [List.mem_range, hs.size] at hi; omega) 0 (fun _ => False)
    (.inl ⟨rfl, by simp⟩)
  refine ⟨g, e, last_congr hg ?_⟩
  intro e
  simp only [false_or, List.mem_range, hs.size]
  constructor
  · rintro (⟨_, n, rfl, h⟩ | ⟨i, hi, n, rfl, h1, h2⟩)
    · exact ⟨n, rfl, .inl h⟩
    · exact ⟨n, rfl, .inr ⟨h1, h2 ▸ List.take_prefix i loc⟩⟩
  · rintro ⟨n, rfl, h | ⟨h1, h2⟩⟩
    · exact .inl ⟨by omega, n, rfl, h⟩
    · obtain ⟨i, hi, e⟩ := prefix_iff_take.1 h2
      exact .inr ⟨i, by omega, n, rfl, h1, e⟩


/-- What the loop has done when it ends or is left. -/
theorem markA_take {σ} (M : σ → Bool × σ) {w : View} {loc : List Seg} (h : Shows w loc) (gen : Nat) (is : List Nat)
    (his : ∀ i ∈ is, i ≤ loc.length) (m : GenMap) (s : σ) : ∃ m' ok s' k, markPrefixesA M m w gen s is = some (m', ok, s') ∧
      k ≤ is.length ∧ (ok = true → k = is.length) ∧ (ok = false → k < is.length) ∧ markPrefixes m w gen (is.take k) = some m' := by
  induction is generalizing m s with
  | nil => exact ⟨m, true, s, 0, rfl, Nat.le_refl _, fun _ => rfl, (fun h => by cases h), rfl⟩
  | cons i is ih =>
    have hi := h.pre i (his i (by simp))
    unfold markPrefixesA
    rw [hi]
    simp only
    generalize ha : assignA M m (join (loc.take i)) gen s = r
    obtain ⟨m1, ok1, s1⟩ := r
    cases ok1 with
    | false =>
      have : m1 = m := by
        unfold assignA at ha
        split at ha
        · cases ha
        · simp only at ha
          split at ha
          · cases ha
          · cases ha; rfl
      subst this
      exact ⟨m1, false, s1, 0, rfl, Nat.zero_le _, (fun h => by cases h), (fun _ => by simp), rfl⟩
    | true =>
      have : m1 = assign m (join (loc.take i)) gen := by
        unfold assignA at ha
        unfold assign
        split at ha
        · rename_i he; rw [he]; cases ha; rfl
        · rename_i he
          rw [he]
          simp only at ha
          split at ha
          · cases ha; rfl
          · cases ha
      subst this
      obtain ⟨m', ok, s', k, e1, e2, e3, e4, e5⟩ := ih (fun j hj => his j (by simp [hj])) (assign m (join (loc.take i)) gen) s1
      refine ⟨m', ok, s', k + 1, e1, by simp only [List.length_cons]; omega, ?_, ?_, ?_⟩
      · intro hok; simp [e3 hok]
      · intro hok; have := e4 hok; simp only [List.length_cons]; omega
      · simp only [List.take_succ_cons, markPrefixes, hi]; exact e5

theorem range_take (n k : Nat) (h : k ≤ n) : (List.range n).take k = List.range k := by
  apply List.ext_getElem?
  intro i
  rw [List.getElem?_take]
  by_cases hi : i < k
  · rw [if_pos hi, List.getElem?_range (by omega), List.getElem?_range hi]
  · rw [if_neg hi, List.getElem?_eq_none (by simp; omega)]

theorem marked {t : Tracker} {hist : List (Option Note)} (hi : Inv t hist) {w : View} {loc : List Seg} (hs : Shows w loc) {k : Nat}
    (hk : k ≤ loc.length + 1) {m' : GenMap} (hm : markPrefixes t.node w (t.current + 1) (List.range k) = some m') (e : Option Note)
    (he : ∀ p, Is (fun n => p <+: n.1) e ↔ ∃ i, i < k ∧ p = loc.take i) :
    ∀ p, Valid p → Last (Is fun n => p <+: n.1) (hist ++ [e]) (lookup m' (join p)) := by
  obtain ⟨m1, e1, e2⟩ := markPrefixes_ok hs (t.current + 1) (List.range k)
    (by intro i hi; rw [List.mem_range] at hi; omega) t.node
  rw [hm] at e1
  cases e1
  intro p hp
  rw [e2, hi.cur]
  by_cases h : ∃ i, i < k ∧ p = loc.take i
  · rw [if_pos (by obtain ⟨i, h1, h2⟩ := h; exact ⟨i, List.mem_range.2 h1, by rw [h2]⟩)]
    exact last_snoc_pos ((he p).2 h)
  · rw [if_neg ?_]
    · exact last_snoc_neg (fun h' => h ((he p).1 h')) (hi.node p hp)
    · rintro ⟨i, h1, h2⟩
      exact h ⟨i, List.mem_range.1 h1, C14_join_injective _ _ hp (valid_take hs.valid i) h2⟩

theorem notifyA_inv {σ} (M : σ → Bool × σ) {t : Tracker} {hist : List (Option Note)} (hi : Inv t hist) {w : View} {loc : List Seg}
    (hs : Shows w loc) (b : Bool) (s : σ) : ∃ t' ok s' e, t.notifyA M w b s = some (t', ok, s') ∧ Counts (loc, b) ok e ∧
      Inv t' (hist ++ [e]) := by
  obtain ⟨m', ok, s1, k, e1, e2, e3, e4, e5⟩ := markA_take M hs (t.current + 1) (List.range (w.size + 1))
    (by intro i hi; rw [List.mem_range, hs.size] at hi; omega) t.node s
  rw [List.length_range, hs.size] at e2 e3 e4
  rw [range_take _ _ (by rw [hs.size]; exact e2)] at e5
  have hcur : t.current + 1 = (hist ++ [(none : Option Note)]).length + 1 := by rw [hi.cur]; simp
  have hw : w.prefix w.size = some (join loc) := by
    rw [hs.size, hs.pre _ (Nat.le_refl _), List.take_length]
  unfold Tracker.notifyA
  simp only
  rw [e1]
  cases hok : ok with
  | false =>
    have hk := e4 hok
    simp only
    cases k with
    | zero =>
      refine ⟨_, false, s1, none, rfl, .nothing _, by rw [hi.cur]; simp, ?_, ?_⟩
      · refine marked hi hs (Nat.zero_le _) e5 none ?_
        intro p
        constructor
        · rintro ⟨n, h, _⟩; cases h
        · rintro ⟨i, h, _⟩; omega
      · intro p hp
        exact last_snoc_neg (by rintro ⟨n, h, _⟩; cases h) (hi.sub p hp)
    | succ k =>
      refine ⟨_, false, s1, some (loc.take k, false), rfl, .above _ _ (List.take_prefix k loc), by rw [hi.cur]; simp, ?_, ?_⟩
      · refine marked hi hs (by omega) e5 _ ?_
        intro p
        constructor
        · rintro ⟨n, h, h2⟩
          cases h
          obtain ⟨i, hi, e⟩ := prefix_iff_take.1 h2
          simp only [List.length_take] at hi
          exact ⟨i, by omega, by rw [e, List.take_take, Nat.min_eq_left (by omega)]⟩
        · rintro ⟨i, h, rfl⟩
          refine ⟨_, rfl, ?_⟩
          simp only
          rw [show loc.take i = (loc.take k).take i by rw [List.take_take, Nat.min_eq_left (by omega)]]
          exact List.take_prefix _ _
      · intro p hp
        exact last_snoc_neg (by rintro ⟨n, h, h2, _⟩; cases h; cases h2) (hi.sub p hp)
  | true =>
    have hk := e3 hok
    subst hk
    simp only
    have hnode : ∀ b', ∀ p, Valid p → Last (Is fun n => p <+: n.1) (hist ++ [some (loc, b')]) (lookup m' (join p)) := by
      intro b'
      refine marked hi hs (Nat.le_refl _) e5 _ ?_
      intro p
      constructor
      · rintro ⟨n, h, h2⟩
        cases h
        obtain ⟨i, hi, e⟩ := prefix_iff_take.1 h2
        exact ⟨i, by simp only at hi; omega, e⟩
      · rintro ⟨i, h, rfl⟩
        exact ⟨_, rfl, List.take_prefix _ _⟩
    cases b with
    | false =>
      refine ⟨_, true, s1, some (loc, false), rfl, .done _, by rw [hi.cur]; simp, hnode _, ?_⟩
      intro p hp
      exact last_snoc_neg (by rintro ⟨n, h, h2, _⟩; cases h; cases h2) (hi.sub p hp)
    | true =>
      rw [if_pos rfl, hw]
      simp only
      generalize ha : assignA M t.subtree (join loc) (t.current + 1) s1 = r
      obtain ⟨m2, ok2, s2⟩ := r
      cases ok2 with
      | false =>
        have : m2 = t.subtree := by
          unfold assignA at ha
          split at ha
          · cases ha
          · simp only at ha
            split at ha
            · cases ha
            · cases ha; rfl
        subst this
        refine ⟨_, false, s2, some (loc, false), rfl, .above _ _ List.prefix_rfl, by rw [hi.cur]; simp, hnode _, ?_⟩
        intro p hp
        exact last_snoc_neg (by rintro ⟨n, h, h2, _⟩; cases h; cases h2) (hi.sub p hp)
      | true =>
        have : m2 = assign t.subtree (join loc) (t.current + 1) := by
          unfold assignA at ha
          unfold assign
          split at ha
          · rename_i he; rw [he]; cases ha; rfl
          · rename_i he
            rw [he]
            simp only at ha
            split at ha
            · cases ha; rfl
            · cases ha
        subst this
        refine ⟨_, true, s2, some (loc, true), rfl, .done _, by rw [hi.cur]; simp, hnode _, ?_⟩
        intro p hp
        simp only [lookup_assign, hi.cur]
        by_cases h : p = loc
        · subst h
          rw [if_pos rfl]
          exact last_snoc_pos ⟨_, rfl, rfl, rfl⟩
        · rw [if_neg (fun h' => h (C14_join_injective _ _ hp hs.valid h'))]
          exact last_snoc_neg (by rintro ⟨n, h1, _, h2⟩; cases h1; exact h h2.symm) (hi.sub p hp)

theorem runA_inv {σ} (M : σ → Bool × σ) {t : Tracker} {hist : List (Option Note)} (hi : Inv t hist) {vs : List (View × Bool)}
    {ns : List Note} (hn : Names vs ns) (s : σ) : ∃ t' oks s' es, runA M t s vs = some (t', oks, s') ∧ AllCount ns oks es ∧
      Inv t' (hist ++ es) := by
  induction hn generalizing t hist s with
  | nil => exact ⟨t, [], s, [], rfl, .nil, by simpa using hi⟩
  | @cons w b loc vs ns hs _ ih =>
    obtain ⟨t1, ok, s1, e, h1, h2, h3⟩ := notifyA_inv M hi hs b s
    obtain ⟨t2, oks, s2, es, h4, h5, h6⟩ := ih h3 s1
    exact ⟨t2, ok :: oks, s2, e :: es, by simp only [runA, h1, h4], .cons h2 h5, by simpa using h6⟩

end Verif.Tracker.Alloc
