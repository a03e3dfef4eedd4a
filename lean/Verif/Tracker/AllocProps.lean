import Verif.Tracker.AllocLemmas
/-
C138: the modification tracker when memory runs out.
-/
namespace Verif.Tracker
open Verif.Path Verif.Path.Spec Verif.Tracker.Spec Verif.Tracker.Alloc

/-- Whatever the allocator does: every call uses up a generation, and `changed_at` gives the last call that concerns the location, where
a call that threw counts for nothing or for a change at or above its location. -/
theorem C138_changed_at {σ} (M : σ → Bool × σ) (vs : List (View × Bool)) (ns : List Note) (hn : Names vs ns) (s : σ) (w : View)
    (loc : List Seg) (hw : Shows w loc) : ∃ t oks s' es g, runA M {} s vs = some (t, oks, s') ∧ AllCount ns oks es ∧
      t.current = ns.length + 1 ∧ t.changedAt w = some g ∧ LatestOf loc es g := by
  obtain ⟨t, oks, s', es, h1, h2, h3⟩ := runA_inv M Alloc.inv_init hn s
  rw [List.nil_append] at h3
  obtain ⟨g, h4, h5⟩ := Alloc.changedAt_ok h3 hw
  have hlen : es.length = ns.length := by
    clear h1 h3 h5 hn
    induction h2 with
    | nil => rfl
    | cons _ _ ih => simp [ih]
  refine ⟨t, oks, s', es, g, h1, h2, by rw [h3.cur, hlen], h4, ?_⟩
  rcases h5 with ⟨h0, hno⟩ | ⟨i, e, he, hg, ⟨n, rfl, hP⟩, hm⟩
  · exact .inl ⟨h0, fun n hn hc => hno _ hn ⟨n, rfl, hc⟩⟩
  · exact .inr ⟨i, n, he, hg, hP, fun j n' hj hn' hc => hm j _ hj hn' ⟨n', rfl, hc⟩⟩

theorem counts_concerns {n m : Note} {ok : Bool} {p : List Seg} (h : Counts n ok (some m)) (hc : Concerns m p) : Concerns n p := by
  cases h with
  | done => exact hc
  | above p hq =>
    rcases hc with hc | ⟨hc, _⟩
    · exact .inl (hc.trans hq)
    · cases hc

theorem allCount_get {ns : List Note} {oks : List Bool} {es : List (Option Note)} (h : AllCount ns oks es) (i : Nat) (e : Option Note) :
    es[i]? = some e → ∃ n ok, ns[i]? = some n ∧ oks[i]? = some ok ∧ Counts n ok e := by
  induction h generalizing i with
  | nil => intro he; cases he
  | @cons n ok e' ns oks es hc _ ih =>
    intro he
    cases i with
    | zero => cases he; exact ⟨n, ok, rfl, rfl, hc⟩
    | succ i => exact ih i he

theorem allCount_get' {ns : List Note} {oks : List Bool} {es : List (Option Note)} (h : AllCount ns oks es) (i : Nat) (n : Note) :
    ns[i]? = some n → ∃ ok e, oks[i]? = some ok ∧ es[i]? = some e ∧ Counts n ok e := by
  induction h generalizing i with
  | nil => intro he; cases he
  | @cons n' ok e ns oks es hc _ ih =>
    intro he
    cases i with
    | zero => cases he; exact ⟨ok, e, rfl, rfl, hc⟩
    | succ i => exact ih i he

theorem runA_split {σ} (M : σ → Bool × σ) {t t' : Tracker} {s s' : σ} {oks : List Bool} (a b : List (View × Bool))
    (h : runA M t s a = some (t', oks, s')) :
    runA M t s (a ++ b) = (runA M t' s' b).map fun r => (r.1, oks ++ r.2.1, r.2.2) := by
  induction a generalizing t s oks with
  | nil => cases h; simp [Option.map_id']
  | cons x a ih =>
    obtain ⟨w, c⟩ := x
    simp only [List.cons_append, runA] at h ⊢
    cases h1 : t.notifyA M w c s with
    | none => rw [h1] at h; cases h
    | some r =>
      obtain ⟨t1, ok, s1⟩ := r
      rw [h1] at h
      simp only at h ⊢
      cases h2 : runA M t1 s1 a with
      | none => rw [h2] at h; cases h
      | some r2 =>
        obtain ⟨t2, oks2, s2⟩ := r2
        rw [h2] at h
        cases h
        rw [ih h2]
        cases runA M t' s' b <;> rfl

/-- With `g` the generation of some moment: later `changed_since(p, g)` holds if a call in between that returned concerns `p`, and only if
some call in between does. -/
theorem C138_changed_since {σ} (M : σ → Bool × σ) (before later : List (View × Bool)) (nb nl : List Note) (hb : Names before nb)
    (hl : Names later nl) (s : σ) (w : View) (loc : List Seg) (hw : Shows w loc) :
    ∃ t₀ oks₀ s₀ t oks s', runA M {} s before = some (t₀, oks₀, s₀) ∧ runA M t₀ s₀ later = some (t, oks, s') ∧
      runA M {} s (before ++ later) = some (t, oks₀ ++ oks, s') ∧ oks.length = nl.length ∧
      ∃ b, t.changedSince w t₀.current = some b ∧
        ((∃ (i : Nat) (n : Note), nl[i]? = some n ∧ oks[i]? = some true ∧ Concerns n loc) → b = true) ∧ (b = true → ∃ n ∈ nl, Concerns n loc) := by
  obtain ⟨t₀, oks₀, s₀, es₀, h1, h2, h3⟩ := runA_inv M Alloc.inv_init hb s
  rw [List.nil_append] at h3
  obtain ⟨t, oks, s', es, h4, h5, h6⟩ := runA_inv M h3 hl s₀
  obtain ⟨g, h7, h8⟩ := Alloc.changedAt_ok h6 hw
  have hlen : oks.length = nl.length := by
    clear h4 h6 h8 hl
    induction h5 with
    | nil => rfl
    | cons _ _ ih => simp [ih]
  refine ⟨t₀, oks₀, s₀, t, oks, s', h1, h4, by rw [runA_split M _ _ h1, h4]; rfl, hlen, decide (g > t₀.current),
    by simp [Tracker.changedSince, h7], ?_, ?_⟩
  · rintro ⟨i, n, hn, hok, hc⟩
    obtain ⟨ok, e, g1, g2, g3⟩ := allCount_get' h5 i n hn
    rw [hok] at g1
    cases g1
    cases g3
    have hat : (es₀ ++ es)[es₀.length + i]? = some (some n) := by rw [List.getElem?_append_right (by omega)]; simpa using g2
    rw [decide_eq_true_eq, h3.cur]
    rcases h8 with ⟨_, hno⟩ | ⟨j, e, he, hg, _, hm⟩
    · exact absurd ⟨n, rfl, hc⟩ (hno _ (List.mem_of_getElem? hat))
    · by_cases hj : j < es₀.length + i
      · exact absurd ⟨n, rfl, hc⟩ (hm _ _ hj hat)
      · omega
  · intro hbt
    rw [decide_eq_true_eq, h3.cur] at hbt
    rcases h8 with ⟨h0, _⟩ | ⟨j, e, he, hg, ⟨n, rfl, hc⟩, _⟩
    · omega
    · rw [List.getElem?_append_right (by omega)] at he
      obtain ⟨n', ok, g1, g2, g3⟩ := allCount_get h5 _ _ he
      exact ⟨n', List.mem_of_getElem? g1, counts_concerns g3 hc⟩

theorem lookup_find {m : GenMap} {key : Str} (h : lookup m key ≠ 0) : ∃ e, m.find? (·.1 == key) = some e := by
  unfold lookup at h
  cases hf : m.find? (·.1 == key) with
  | none => rw [hf] at h; exact absurd rfl h
  | some e => exact ⟨e, rfl⟩

theorem last_pos {P : Option Note → Prop} {hist : List (Option Note)} {g : Nat} (h : Last P hist g) {e : Option Note} (he : e ∈ hist)
    (hP : P e) : g ≠ 0 := by
  rcases h with ⟨_, hno⟩ | ⟨i, _, _, hg, _⟩
  · exact absurd hP (hno e he)
  · omega

theorem assignA_found {σ} (M : σ → Bool × σ) {m : GenMap} {key : Str} (v : Nat) (s : σ) (h : lookup m key ≠ 0) :
    (assignA M m key v s).2 = (true, s) := by
  obtain ⟨e, he⟩ := lookup_find h
  unfold assignA
  rw [he]

theorem markA_found {σ} (M : σ → Bool × σ) {w : View} {loc : List Seg} (h : Shows w loc) (gen : Nat) (hg : gen ≠ 0) (s : σ)
    (is : List Nat) (his : ∀ i ∈ is, i ≤ loc.length) (m : GenMap) (hm : ∀ i ∈ is, lookup m (join (loc.take i)) ≠ 0) :
    ∃ m', markPrefixesA M m w gen s is = some (m', true, s) := by
  induction is generalizing m with
  | nil => exact ⟨m, rfl⟩
  | cons i is ih =>
    unfold markPrefixesA
    rw [h.pre i (his i (by simp))]
    simp only
    have hf := assignA_found M gen s (hm i (by simp))
    generalize ha : assignA M m (join (loc.take i)) gen s = r at hf
    obtain ⟨m1, ok1, s1⟩ := r
    obtain ⟨rfl, rfl⟩ := Prod.mk.inj hf
    have : m1 = assign m (join (loc.take i)) gen := by
      unfold assignA at ha
      unfold assign
      split at ha
      · rename_i he; rw [he]; cases ha; rfl
      · rename_i he
        rw [he]
        simp only at ha
        split at ha
        · exact (Prod.mk.inj ha).1.symm
        · exact absurd (Prod.mk.inj (Prod.mk.inj ha).2).1 (by decide)
    subst this
    apply ih (fun j hj => his j (by simp [hj]))
    intro j hj
    rw [lookup_assign]
    split
    · exact hg
    · exact hm j (by simp [hj])

/-- A call that asks for no memory: one that returned before had its location at or below this one's, and was a change of the subtree of
the same location if this one is. -/
theorem C138_no_memory {σ} (M : σ → Bool × σ) (vs : List (View × Bool)) (ns : List Note) (hn : Names vs ns) (s : σ) (w : View)
    (loc : List Seg) (hw : Shows w loc) (b : Bool) {t : Tracker} {oks : List Bool} {s' : σ} (hr : runA M {} s vs = some (t, oks, s'))
    (hex : ∃ (i : Nat) (n : Note), ns[i]? = some n ∧ oks[i]? = some true ∧ loc <+: n.1)
    (hsub : b = true → ∃ i : Nat, ns[i]? = some (loc, true) ∧ oks[i]? = some true) :
    ∃ t', t.notifyA M w b s' = some (t', true, s') := by
  obtain ⟨t1, oks1, s1, es, h1, h2, h3⟩ := runA_inv M Alloc.inv_init hn s
  rw [hr] at h1
  cases h1
  rw [List.nil_append] at h3
  obtain ⟨i, n, hi, hok, hp⟩ := hex
  have hin : ∀ (i : Nat) (n : Note), ns[i]? = some n → oks[i]? = some true → some n ∈ es := by
    intro i n hi hok
    obtain ⟨ok, e, g1, g2, g3⟩ := allCount_get' h2 i n hi
    rw [hok] at g1
    cases g1
    cases g3
    exact List.mem_of_getElem? g2
  have hkeys : ∀ j ∈ List.range (w.size + 1), lookup t.node (join (loc.take j)) ≠ 0 := fun j _ =>
    last_pos (h3.node _ (valid_take hw.valid j)) (hin i n hi hok) ⟨n, rfl, (List.take_prefix j loc).trans hp⟩
  obtain ⟨m', hm⟩ := markA_found M hw (t.current + 1) (by omega) s' (List.range (w.size + 1))
    (by intro j hj; rw [List.mem_range, hw.size] at hj; omega) t.node hkeys
  unfold Tracker.notifyA
  simp only
  rw [hm]
  cases b with
  | false => exact ⟨_, rfl⟩
  | true =>
    have hwp : w.prefix w.size = some (join loc) := by
      rw [hw.size, hw.pre _ (Nat.le_refl _), List.take_length]
    obtain ⟨i, hi, hok⟩ := hsub rfl
    have hf := assignA_found M (t.current + 1) s'
      (last_pos (h3.sub _ hw.valid) (hin i _ hi hok) ⟨_, rfl, rfl, rfl⟩)
    simp only [if_true]
    rw [hwp]
    simp only
    rw [hf]
    exact ⟨_, rfl⟩

/-! ### A case, and what is not so -/

/-- Memory for so many entries. -/
def budget (n : Nat) : Bool × Nat := (decide (0 < n), n - 1)

/-- The view of `/a/b`. -/
def viewAB : View := Path.view ⟨str "a/b", [⟨0, 1⟩, ⟨2, 1⟩]⟩

theorem viewAB_shows : Shows viewAB [str "a", str "b"] := by
  refine ⟨by simp [Valid, ValidSeg, str], rfl, ?_⟩
  intro k hk
  have : ∀ k < 3, viewAB.prefix k = some (join ([str "a", str "b"].take k)) := by decide +kernel
  exact this k (by simp at hk; omega)

theorem root_shows : Shows Path.default.view [] := by
  refine ⟨by simp [Valid], rfl, ?_⟩
  intro k hk
  have : k = 0 := by simp at hk; exact hk
  subst this; rfl

/-- With memory for five entries: the first call returns, so does a call for the same location; a change of the subtree takes the fourth
entry. -/
example : (runA budget {} 5 [(viewAB, false), (viewAB, false), (viewAB, true)]).map
    (fun r => (r.2, r.1.current, r.1.changedAt viewAB)) = some (([true, true, true], 1), 4, some 4) := by decide +kernel

example : Names [(viewAB, false), (viewAB, true)] [([str "a", str "b"], false), ([str "a", str "b"], true)] :=
  .cons viewAB_shows (.cons viewAB_shows .nil)

/-- A call that throws is lost for its location, although the root has changed: the resource has the new value, and who polls it is not
told. -/
theorem C138_lost_violated : ∃ (w r : View) (loc : List Seg) (t : Tracker), Shows w loc ∧ Shows r [] ∧
    runA budget {} 2 [(w, false)] = some (t, [false], 0) ∧ t.changedSince w 1 = some false ∧ t.changedSince r 1 = some true :=
  ⟨viewAB, Path.default.view, _, ⟨2, [([], 2), (str "a", 2)], []⟩, viewAB_shows, root_shows, rfl, by decide +kernel,
    by decide +kernel⟩

end Verif.Tracker
