import Verif.Path.Props
import Verif.Tracker.Model
import Verif.Tracker.Spec
/-
Properties C17 and C18 of `kl::resources::modification_tracker`.
-/
namespace Verif.Tracker
open Verif.Path Verif.Path.Spec Verif.Tracker.Spec

/-- The view `w` shows location `loc` (from the root). -/
structure Shows (w : View) (loc : List Seg) : Prop where
  valid : Valid loc
  size : w.size = loc.length
  pre : ∀ k ≤ loc.length, w.prefix k = some (join (loc.take k))

/-- Every view of a parsed path, and everything obtained from it with `drop_back`, shows a
location: the hypotheses of the theorems below are what the API can produce. -/
theorem shows_of_parsed (p q : Path) (v : Str) (h : p.set v = (q, none)) (b : Nat) (w : View)
    (hw : dropBacks b q.view = some w) : ∃ loc, Denotes v loc ∧ Shows w (loc.take (loc.length - b)) := by
  obtain ⟨loc, hd, hob⟩ := C13_invariants.2.2 p q v h
  have h1 := C13_views p q v h loc hd 0 b
  simp only [dropFronts, Option.bind_some] at h1
  obtain ⟨hnone, h2⟩ := h1
  have hb : b ≤ loc.length := by
    rcases Nat.lt_or_ge loc.length b with h' | h'
    · have := hnone.2 (by omega)
      rw [hw] at this; simp at this
    · exact h'
  obtain ⟨e1, _, e3⟩ := h2 w hw
  refine ⟨loc, hd, fun s hs => hob.valid s (List.mem_of_mem_take hs), ?_, ?_⟩
  · rw [e1, List.length_take]; omega
  · intro k hk
    rw [List.length_take] at hk
    rw [e3, if_neg (by omega), Nat.zero_add, List.take_take, Nat.min_eq_left (by omega)]
    by_cases h0 : k = 0
    · subst h0; simp [join]
    · simp [h0]

/-! ### Maps -/

theorem find_map {m : GenMap} {key k : Str} {v : Nat} :
    (m.map fun e => if e.1 == key then (e.1, v) else e).find? (·.1 == k) =
      (m.find? (·.1 == k)).map fun e => if e.1 == key then (e.1, v) else e := by
  induction m with
  | nil => rfl
  | cons e m ih =>
    simp only [List.map_cons, List.find?_cons]
    have : (if e.1 == key then (e.1, v) else e).1 = e.1 := by split <;> rfl
    rw [this]
    cases h : e.1 == k with
    | true => rfl
    | false => exact ih

theorem lookup_assign (m : GenMap) (key k : Str) (v : Nat) :
    lookup (assign m key v) k = if k = key then v else lookup m k := by
  unfold assign
  split
  · rename_i e he
    unfold lookup
    rw [find_map]
    by_cases hk : k = key
    · subst hk
      rw [he]
      have := List.find?_some he
      simp [eq_of_beq this]
    · cases hf : m.find? (·.1 == k) with
      | none => simp [hk]
      | some e' =>
        have := List.find?_some hf
        simp only [beq_iff_eq] at this
        have hne : e'.1 ≠ key := by rw [this]; exact hk
        simp [hk, hne]
  · rename_i he
    unfold lookup
    rw [List.find?_append]
    by_cases hk : k = key
    · subst hk
      rw [he]; simp
    · have : (key == k) = false := by simpa using fun h => hk h.symm
      simp only [List.find?_cons, this, List.find?_nil, hk, if_false, Option.or_none]

theorem markPrefixes_ok {w : View} {loc : List Seg} (h : Shows w loc) (gen : Nat)
    (is : List Nat) (his : ∀ i ∈ is, i ≤ loc.length) (m : GenMap) :
    ∃ m', markPrefixes m w gen is = some m' ∧ ∀ k, lookup m' k =
      if ∃ i ∈ is, k = join (loc.take i) then gen else lookup m k := by
  induction is generalizing m with
  | nil => exact ⟨m, rfl, by simp⟩
  | cons i is ih =>
    have hi := h.pre i (his i (by simp))
    obtain ⟨m', e1, e2⟩ := ih (fun j hj => his j (by simp [hj])) (assign m (join (loc.take i)) gen)
    refine ⟨m', by simp only [markPrefixes, hi, e1], fun k => ?_⟩
    rw [e2, lookup_assign]
    by_cases h1 : ∃ j ∈ is, k = join (loc.take j)
    · rw [if_pos h1, if_pos]
      obtain ⟨j, hj, e⟩ := h1
      exact ⟨j, by simp [hj], e⟩
    · rw [if_neg h1]
      by_cases h2 : k = join (loc.take i)
      · rw [if_pos h2, if_pos ⟨i, by simp, h2⟩]
      · rw [if_neg h2, if_neg]
        rintro ⟨j, hj, e⟩
        rcases List.mem_cons.1 hj with rfl | hj
        · exact h2 e
        · exact h1 ⟨j, hj, e⟩

theorem prefix_iff_take {p loc : List Seg} : p <+: loc ↔ ∃ i, i ≤ loc.length ∧ p = loc.take i := by
  constructor
  · intro h
    exact ⟨p.length, h.length_le, List.prefix_iff_eq_take.1 h⟩
  · rintro ⟨i, _, rfl⟩
    exact List.take_prefix i loc

/-! ### The invariant -/

/-- The locations behind a history of views. -/
inductive Names : List (View × Bool) → List Note → Prop
  | nil : Names [] []
  | cons {w s loc vs ns} : Shows w loc → Names vs ns → Names ((w, s) :: vs) ((loc, s) :: ns)

structure Inv (t : Tracker) (hist : List Note) : Prop where
  cur : t.current = hist.length + 1
  node : ∀ p, Valid p → LatestBy (fun n => p <+: n.1) hist (lookup t.node (join p))
  sub : ∀ p, Valid p → LatestBy (fun n => n.2 = true ∧ n.1 = p) hist (lookup t.subtree (join p))

theorem latest_snoc_pos {P : Note → Prop} {hist : List Note} {e : Note} (h : P e) :
    LatestBy P (hist ++ [e]) (hist.length + 2) := by
  refine .inr ⟨hist.length, e, by simp, rfl, h, ?_⟩
  intro m e' hm he
  rw [List.getElem?_eq_none (by simp; omega)] at he
  simp at he

theorem latest_snoc_neg {P : Note → Prop} {hist : List Note} {e : Note} {g : Nat} (h : ¬ P e)
    (hl : LatestBy P hist g) : LatestBy P (hist ++ [e]) g := by
  rcases hl with ⟨h0, hn⟩ | ⟨n, x, hx, hg, hP, hm⟩
  · left
    refine ⟨h0, ?_⟩
    intro y hy
    rcases List.mem_append.1 hy with hy | hy
    · exact hn y hy
    · simp only [List.mem_singleton] at hy; subst hy; exact h
  · right
    have hlt : n < hist.length := (List.getElem?_eq_some_iff.1 hx).1
    refine ⟨n, x, by rw [List.getElem?_append_left hlt]; exact hx, hg, hP, ?_⟩
    intro m y hmn hy
    rcases Nat.lt_trichotomy m hist.length with hlt | heq | hgt
    · rw [List.getElem?_append_left hlt] at hy
      exact hm m y hmn hy
    · subst heq
      simp at hy; subst hy; exact h
    · rw [List.getElem?_eq_none (by simp; omega)] at hy
      simp at hy

theorem latest_le {P : Note → Prop} {hist : List Note} {g : Nat} (h : LatestBy P hist g) :
    g ≤ hist.length + 1 := by
  rcases h with ⟨h0, _⟩ | ⟨n, x, hx, hg, _⟩
  · omega
  · have : n < hist.length := (List.getElem?_eq_some_iff.1 hx).1
    omega

theorem latest_max {P Q : Note → Prop} {hist : List Note} {a b : Nat} (ha : LatestBy P hist a)
    (hb : LatestBy Q hist b) : LatestBy (fun n => P n ∨ Q n) hist (if b > a then b else a) := by
  rcases ha with ⟨ha0, hna⟩ | ⟨n, x, hx, hg, hP, hm⟩ <;>
  rcases hb with ⟨hb0, hnb⟩ | ⟨n', x', hx', hg', hP', hm'⟩
  · left
    refine ⟨by split <;> omega, fun e he => ?_⟩
    rintro (h | h)
    · exact hna e he h
    · exact hnb e he h
  · rw [if_pos (by omega)]
    right
    refine ⟨n', x', hx', hg', .inr hP', fun m e hmn he => ?_⟩
    rintro (h | h)
    · exact hna e (List.mem_of_getElem? he) h
    · exact hm' m e hmn he h
  · rw [if_neg (by omega)]
    right
    refine ⟨n, x, hx, hg, .inl hP, fun m e hmn he => ?_⟩
    rintro (h | h)
    · exact hm m e hmn he h
    · exact hnb e (List.mem_of_getElem? he) h
  · by_cases hba : b > a
    · rw [if_pos hba]
      right
      refine ⟨n', x', hx', hg', .inr hP', fun m e hmn he => ?_⟩
      rintro (h | h)
      · exact hm m e (by omega) he h
      · exact hm' m e hmn he h
    · rw [if_neg hba]
      right
      refine ⟨n, x, hx, hg, .inl hP, fun m e hmn he => ?_⟩
      rintro (h | h)
      · exact hm m e hmn he h
      · exact hm' m e (by omega) he h

theorem latest_congr {P Q : Note → Prop} {hist : List Note} {g : Nat} (h : LatestBy P hist g)
    (hpq : ∀ e, P e ↔ Q e) : LatestBy Q hist g := by
  have : P = Q := funext fun e => propext (hpq e)
  exact this ▸ h

theorem latest_unique {P : Note → Prop} {hist : List Note} {a b : Nat} (ha : LatestBy P hist a)
    (hb : LatestBy P hist b) : a = b := by
  rcases ha with ⟨ha0, hna⟩ | ⟨n, x, hx, hg, hP, hm⟩ <;>
  rcases hb with ⟨hb0, hnb⟩ | ⟨n', x', hx', hg', hP', hm'⟩
  · omega
  · exact absurd hP' (hna _ (List.mem_of_getElem? hx'))
  · exact absurd hP (hnb _ (List.mem_of_getElem? hx))
  · rcases Nat.lt_trichotomy n n' with h | h | h
    · exact absurd hP' (hm _ _ h hx')
    · omega
    · exact absurd hP (hm' _ _ h hx)

theorem inv_init : Inv {} [] :=
  ⟨rfl, fun _ _ => .inl ⟨rfl, by simp⟩, fun _ _ => .inl ⟨rfl, by simp⟩⟩

theorem valid_take {loc : List Seg} (h : Valid loc) (i : Nat) : Valid (loc.take i) :=
  fun s hs => h s (List.mem_of_mem_take hs)

theorem notify_inv {t : Tracker} {hist : List Note} (hi : Inv t hist) {w : View} {loc : List Seg}
    (hs : Shows w loc) (s : Bool) :
    ∃ t', t.notify w s = some (t', hist.length + 2) ∧ Inv t' (hist ++ [(loc, s)]) := by
  obtain ⟨m', e1, e2⟩ := markPrefixes_ok hs (t.current + 1) (List.range (w.size + 1))
    (by intro i hi; rw [List.mem_range, hs.size] at hi; omega) t.node
  have hex : ∀ p, Valid p → ((∃ i ∈ List.range (w.size + 1), join p = join (loc.take i)) ↔ p <+: loc) := by
    intro p hp
    rw [prefix_iff_take]
    constructor
    · rintro ⟨i, hi, he⟩
      rw [List.mem_range, hs.size] at hi
      exact ⟨i, by omega, C14_join_injective _ _ hp (valid_take hs.valid i) he⟩
    · rintro ⟨i, hi, rfl⟩
      exact ⟨i, by rw [List.mem_range, hs.size]; omega, rfl⟩
  have hnode : ∀ p, Valid p → LatestBy (fun n => p <+: n.1) (hist ++ [(loc, s)]) (lookup m' (join p)) := by
    intro p hp
    rw [e2, hi.cur]
    by_cases h : p <+: loc
    · rw [if_pos ((hex p hp).2 h)]
      exact latest_snoc_pos h
    · rw [if_neg (fun h' => h ((hex p hp).1 h'))]
      exact latest_snoc_neg h (hi.node p hp)
  have hw : w.prefix w.size = some (join loc) := by
    rw [hs.size, hs.pre _ (Nat.le_refl _), List.take_length]
  cases s with
  | false =>
    refine ⟨⟨t.current + 1, m', t.subtree⟩, ?_, ?_, hnode, ?_⟩
    · simp [Tracker.notify, e1]; exact hi.cur
    · simp [hi.cur]
    · intro p hp
      exact latest_snoc_neg (by simp) (hi.sub p hp)
  | true =>
    refine ⟨⟨t.current + 1, m', assign t.subtree (join loc) (t.current + 1)⟩, ?_, ?_, hnode, ?_⟩
    · simp [Tracker.notify, e1, hw]; exact hi.cur
    · simp [hi.cur]
    · intro p hp
      simp only [lookup_assign, hi.cur]
      by_cases h : p = loc
      · subst h
        rw [if_pos rfl]
        exact latest_snoc_pos ⟨rfl, rfl⟩
      · rw [if_neg (fun h' => h (C14_join_injective _ _ hp hs.valid h'))]
        exact latest_snoc_neg (by simpa using fun h' => h h'.symm) (hi.sub p hp)

theorem run_inv {t : Tracker} {hist : List Note} (hi : Inv t hist) {vs : List (View × Bool)}
    {ns : List Note} (hn : Names vs ns) : ∃ t', runFrom t vs = some t' ∧ Inv t' (hist ++ ns) := by
  induction hn generalizing t hist with
  | nil => exact ⟨t, rfl, by simpa using hi⟩
  | @cons w s loc vs ns hs _ ih =>
    obtain ⟨t', e1, hi'⟩ := notify_inv hi hs s
    obtain ⟨t'', e2, hi''⟩ := ih hi'
    exact ⟨t'', by simp only [runFrom, e1, e2], by simpa using hi''⟩

theorem run_split {t t' : Tracker} (a b : List (View × Bool)) (h : runFrom t a = some t') :
    runFrom t (a ++ b) = runFrom t' b := by
  induction a generalizing t with
  | nil => simp only [runFrom, Option.some.injEq] at h; subst h; rfl
  | cons e a ih =>
    obtain ⟨w, s⟩ := e
    simp only [List.cons_append, runFrom] at h ⊢
    split at h
    · simp at h
    · exact ih h

theorem loop_ok {t : Tracker} {hist : List Note} (hi : Inv t hist) {w : View} {loc : List Seg}
    (hs : Shows w loc) (is : List Nat) (his : ∀ i ∈ is, i ≤ loc.length) (r : Nat)
    (P : Note → Prop) (hr : LatestBy P hist r) :
    ∃ g, t.changedAtLoop w r is = some g ∧
      LatestBy (fun n => P n ∨ (loc.length ∈ is ∧ loc <+: n.1) ∨
        ∃ i ∈ is, n.2 = true ∧ n.1 = loc.take i) hist g := by
  induction is generalizing r P with
  | nil =>
    refine ⟨r, rfl, ?_⟩
    exact latest_congr hr (by simp)
  | cons i is ih =>
    have hi1 := his i (by simp)
    have hpre := hs.pre i hi1
    simp only [Tracker.changedAtLoop, hpre]
    have hsub := hi.sub (loc.take i) (valid_take hs.valid i)
    by_cases hil : i = loc.length
    · have hnode := hi.node loc hs.valid
      have h1 := latest_max hr hnode
      have h2 := latest_max h1 hsub
      obtain ⟨g, e, hg⟩ := ih (fun j hj => his j (by simp [hj])) _ _ h2
      refine ⟨g, ?_, latest_congr hg ?_⟩
      · rw [hs.size, if_pos hil]
        subst hil
        rw [List.take_length] at e ⊢
        exact e
      · intro n
        subst hil
        simp only [List.mem_cons, true_or, true_and, exists_eq_or_imp]
        grind
    · have h2 := latest_max hr hsub
      obtain ⟨g, e, hg⟩ := ih (fun j hj => his j (by simp [hj])) _ _ h2
      refine ⟨g, ?_, latest_congr hg ?_⟩
      · rw [hs.size, if_neg hil]
        exact e
      · intro n
        simp only [List.mem_cons, exists_eq_or_imp]
        grind

theorem changedAt_ok {t : Tracker} {hist : List Note} (hi : Inv t hist) {w : View}
    {loc : List Seg} (hs : Shows w loc) :
    ∃ g, t.changedAt w = some g ∧ LatestBy (fun n => Concerns n loc) hist g := by
  obtain ⟨g, e, hg⟩ := loop_ok hi hs (List.range (w.size + 1))
    (by intro i hi; rw [List.mem_range, hs.size] at hi; omega) 0 (fun _ => False)
    (.inl ⟨rfl, by simp⟩)
  refine ⟨g, e, latest_congr hg ?_⟩
  intro n
  simp only [false_or, List.mem_range, hs.size, Concerns]
  constructor
  · rintro (h | ⟨i, hi, h1, h2⟩)
    · exact .inl h.2
    · exact .inr ⟨h1, h2 ▸ List.take_prefix i loc⟩
  · rintro (h | ⟨h1, h2⟩)
    · exact .inl ⟨by omega, h⟩
    · obtain ⟨i, hi, e⟩ := prefix_iff_take.1 h2
      exact .inr ⟨i, by omega, h1, e⟩

/-! ### Properties -/

/-- C17: after any history of notifications `changed_at` returns the generation of the latest
one that concerns the queried location, 0 if there is none (and nothing is read out of
bounds). -/
theorem C17_changed_at (vs : List (View × Bool)) (ns : List Note) (hn : Names vs ns)
    (w : View) (loc : List Seg) (hw : Shows w loc) :
    ∃ t g, runFrom {} vs = some t ∧ t.changedAt w = some g ∧
      LatestBy (fun n => Concerns n loc) ns g := by
  obtain ⟨t, e, hi⟩ := run_inv inv_init hn
  obtain ⟨g, e2, hg⟩ := changedAt_ok hi hw
  exact ⟨t, g, e, e2, by simpa using hg⟩

/-- C17: `LatestBy` determines the generation. -/
theorem C17_latest_unique (P : Note → Prop) (hist : List Note) (a b : Nat)
    (ha : LatestBy P hist a) (hb : LatestBy P hist b) : a = b := latest_unique ha hb

/-- C18: with `g` the generation current at some moment (after `before`), at a later moment
(after `before ++ later`) `changed_since(p, g)` holds iff a notification in between concerns
`p`. -/
theorem C18_changed_since (before later : List (View × Bool)) (nb nl : List Note)
    (hb : Names before nb) (hl : Names later nl) (w : View) (loc : List Seg) (hw : Shows w loc) :
    ∃ t₀ t, runFrom {} before = some t₀ ∧ runFrom {} (before ++ later) = some t ∧
      ∃ b, t.changedSince w t₀.current = some b ∧
        (b = true ↔ ∃ n ∈ nl, Concerns n loc) := by
  obtain ⟨t₀, e0, hi0⟩ := run_inv inv_init hb
  obtain ⟨t, e1, hi1⟩ := run_inv hi0 hl
  obtain ⟨g, e2, hg⟩ := changedAt_ok hi1 hw
  refine ⟨t₀, t, e0, by rw [run_split _ _ e0, e1], decide (g > t₀.current), ?_, ?_⟩
  · simp [Tracker.changedSince, e2]
  · simp only [List.nil_append] at hi0 hg
    rw [hi0.cur, decide_eq_true_iff]
    constructor
    · intro hgt
      rcases hg with ⟨h0, _⟩ | ⟨n, x, hx, hgn, hP, _⟩
      · omega
      · rw [List.getElem?_append_right (by omega)] at hx
        exact ⟨x, List.mem_of_getElem? hx, hP⟩
    · rintro ⟨x, hx, hP⟩
      obtain ⟨i, hlt, hi⟩ := List.getElem_of_mem hx
      have hx' : (nb ++ nl)[nb.length + i]? = some x := by
        rw [List.getElem?_append_right (by omega)]
        simp [hlt, hi]
      rcases hg with ⟨_, hn⟩ | ⟨n, y, hy, hgn, _, hm⟩
      · exact absurd hP (hn x (by simp [hx]))
      · rcases Nat.lt_or_ge n (nb.length + i) with h | h
        · exact absurd hP (hm _ _ h hx')
        · omega

/-- C18: each notification returns the new current generation, exactly one above the old. -/
theorem C18_generation_step (before : List (View × Bool)) (nb : List Note) (hb : Names before nb)
    (w : View) (loc : List Seg) (hw : Shows w loc) (s : Bool) :
    ∃ t₀ t g, runFrom {} before = some t₀ ∧ t₀.notify w s = some (t, g) ∧
      t.current = g ∧ g = t₀.current + 1 := by
  obtain ⟨t₀, e0, hi0⟩ := run_inv inv_init hb
  obtain ⟨t, e1, hi1⟩ := notify_inv hi0 hw s
  simp only [List.nil_append] at hi0 hi1 e1
  exact ⟨t₀, t, _, e0, e1, by rw [hi1.cur]; simp, by rw [hi0.cur]⟩

/-- A parsed path gives a view satisfying `Shows`. -/
example : ∃ q, Path.default.set (str "/a/b") = (q, none) ∧ Shows q.view [str "a", str "b"] := by
  refine ⟨⟨str "a/b", [⟨0, 1⟩, ⟨2, 1⟩]⟩, by decide +kernel, by simp [Valid, ValidSeg, str], rfl, ?_⟩
  intro k hk
  have : ∀ k < 3, View.prefix (Path.view ⟨str "a/b", [⟨0, 1⟩, ⟨2, 1⟩]⟩) k =
      some (join ([str "a", str "b"].take k)) := by decide +kernel
  exact this k (by simp at hk; omega)

/-- Changing `/a` as a subtree concerns `/a/b` and `/`, not `/c`. -/
example : Concerns ([str "a"], true) [str "a", str "b"] ∧ Concerns ([str "a"], false) [] ∧
    ¬ Concerns ([str "a"], true) [str "c"] := by
  refine ⟨.inr ⟨rfl, ⟨[str "b"], rfl⟩⟩, .inl ⟨[str "a"], rfl⟩, ?_⟩
  rintro (⟨t, h⟩ | ⟨_, t, h⟩) <;> simp [str] at h

end Verif.Tracker
