import Verif.Resource.Props
import Verif.Resource.AllocSpec
import Verif.Tracker.AllocProps
/-
Lemmas for C139.
-/
namespace Verif.Resource
open Verif.Path Verif.Path.Spec Verif.Tracker Verif.Tracker.Spec Verif.Tracker.Alloc Verif.Resource.Spec

theorem asking_ind {σ α : Type} {M : Memory σ} {need : Bool} {no yes : σ → α} {P : α → Prop} (h1 : need = true → ∀ s, P (no s))
    (h2 : ∀ s, P (yes s)) (s : σ) : P (asking M need no yes s) := by
  unfold asking
  split
  · dsimp only
    split
    · exact h2 _
    · exact h1 (by assumption) _
  · exact h2 _

/-! ### The tracker -/

theorem reached_inv {t : Tracker} (h : Reached t) : ∃ es, Alloc.Inv t es := by
  induction h with
  | new => exact ⟨[], Alloc.inv_init⟩
  | @call σ M t t' w loc b ok s s' _ hs hn ih =>
    obtain ⟨es, hi⟩ := ih
    obtain ⟨t1, ok1, s1, e, h1, _, h3⟩ := notifyA_inv M hi hs b s
    rw [hn] at h1
    cases h1
    exact ⟨_, h3⟩

theorem noted_inv {loc : List Seg} {t : Tracker} (h : Noted loc t) : ∃ es, Alloc.Inv t es ∧ some (loc, true) ∈ es := by
  induction h with
  | @told σ M t t' w s s' hr hs hn =>
    obtain ⟨es, hi⟩ := reached_inv hr
    obtain ⟨t1, ok1, s1, e, h1, h2, h3⟩ := notifyA_inv M hi hs true s
    rw [hn] at h1
    cases h1
    cases h2
    exact ⟨_, h3, by simp⟩
  | @call σ M t t' w loc' b ok s s' _ hs hn ih =>
    obtain ⟨es, hi, hm⟩ := ih
    obtain ⟨t1, ok1, s1, e, h1, _, h3⟩ := notifyA_inv M hi hs b s
    rw [hn] at h1
    cases h1
    exact ⟨_, h3, by simp [hm]⟩

theorem last_unique {P : Option Note → Prop} {hist : List (Option Note)} {a b : Nat} (ha : Last P hist a) (hb : Last P hist b) : a = b := by
  rcases ha with ⟨ha0, hna⟩ | ⟨n, x, hx, hg, hP, hm⟩ <;> rcases hb with ⟨hb0, hnb⟩ | ⟨n', x', hx', hg', hP', hm'⟩
  · omega
  · exact absurd hP' (hna _ (List.mem_of_getElem? hx'))
  · exact absurd hP (hnb _ (List.mem_of_getElem? hx))
  · by_cases h : n < n'
    · exact absurd hP' (hm _ _ h hx')
    · by_cases h' : n' < n
      · exact absurd hP (hm' _ _ h' hx)
      · omega

theorem assignA_true {σ} {M : σ → Bool × σ} {m m' : GenMap} {key : Str} {v : Nat} {s s' : σ}
    (h : assignA M m key v s = (m', true, s')) : m' = assign m key v := by
  unfold assignA at h
  unfold assign
  split at h
  · rename_i he; rw [he]; cases h; rfl
  · rename_i he
    rw [he]
    simp only at h
    split at h
    · exact (Prod.mk.inj h).1.symm
    · exact absurd (Prod.mk.inj (Prod.mk.inj h).2).1 (by decide)

/-- With memory the tracker is told everything. -/
theorem notifyA_true {σ} {M : σ → Bool × σ} {t t' : Tracker} {w : View} {loc : List Seg} (hs : Shows w loc) {b : Bool} {s s' : σ}
    (h : t.notifyA M w b s = some (t', true, s')) : t.notify w b = some (t', t.current + 1) := by
  obtain ⟨m', ok, s1, k, e1, e2, e3, e4, e5⟩ := markA_take M hs (t.current + 1) (List.range (w.size + 1))
    (by intro i hi; rw [List.mem_range, hs.size] at hi; omega) t.node s
  unfold Tracker.notifyA at h
  simp only [e1] at h
  cases ok with
  | false =>
    simp only [Option.some.injEq] at h
    exact absurd (Prod.mk.inj (Prod.mk.inj h).2).1 (by decide)
  | true =>
    rw [e3 rfl, List.take_length] at e5
    unfold Tracker.notify
    simp only [e5]
    cases b with
    | false =>
      simp only [Bool.false_eq_true, if_false, Option.some.injEq] at h ⊢
      rw [← (Prod.mk.inj h).1]
    | true =>
      simp only [if_true] at h ⊢
      have hwp : w.prefix w.size = some (join loc) := by
        rw [hs.size, hs.pre _ (Nat.le_refl _), List.take_length]
      simp only [hwp, Option.some.injEq] at h ⊢
      generalize ha : assignA M t.subtree (join loc) (t.current + 1) s1 = a at h
      obtain ⟨m2, ok2, s2⟩ := a
      obtain ⟨h1, h2⟩ := Prod.mk.inj h
      obtain ⟨h2, -⟩ := Prod.mk.inj h2
      simp only at h1 h2
      subst h2
      rw [assignA_true ha] at h1
      rw [← h1]

theorem notify_some {t : Tracker} {w : View} {loc : List Seg} (hs : Shows w loc) (b : Bool) :
    ∃ t', t.notify w b = some (t', t.current + 1) := by
  obtain ⟨m', e1, -⟩ := markPrefixes_ok hs (t.current + 1) (List.range (w.size + 1))
    (by intro i hi; rw [List.mem_range, hs.size] at hi; omega) t.node
  unfold Tracker.notify
  simp only [e1]
  cases b with
  | false => exact ⟨_, rfl⟩
  | true =>
    have hwp : w.prefix w.size = some (join loc) := by
      rw [hs.size, hs.pre _ (Nat.le_refl _), List.take_length]
    simp only [if_true, hwp]
    exact ⟨_, rfl⟩

/-- An allocator that always has memory. -/
def plenty (s : Unit) : Bool × Unit := (true, s)

theorem plenty_mark (w : View) (gen : Nat) (m : GenMap) (is : List Nat) :
    markPrefixesA plenty m w gen () is = (markPrefixes m w gen is).map fun m' => (m', true, ()) := by
  induction is generalizing m with
  | nil => rfl
  | cons i is ih =>
    unfold markPrefixesA markPrefixes
    cases w.prefix i with
    | none => rfl
    | some key =>
      simp only
      have : assignA plenty m key gen () = (assign m key gen, true, ()) := by
        unfold assignA assign
        cases m.find? (·.1 == key) <;> rfl
      rw [this]
      exact ih _

theorem plenty_notify {t t' : Tracker} {w : View} {b : Bool} {g : Nat} (h : t.notify w b = some (t', g)) :
    t.notifyA plenty w b () = some (t', true, ()) := by
  unfold Tracker.notify at h
  unfold Tracker.notifyA
  simp only [plenty_mark] at h ⊢
  cases hm : markPrefixes t.node w (t.current + 1) (List.range (w.size + 1)) with
  | none => rw [hm] at h; cases h
  | some node =>
    rw [hm] at h
    simp only [Option.map_some] at h ⊢
    cases b with
    | false => simp only [Bool.false_eq_true, if_false] at h ⊢; cases h; rfl
    | true =>
      simp only [if_true] at h ⊢
      cases hp : w.prefix w.size with
      | none => rw [hp] at h; cases h
      | some key =>
        rw [hp] at h
        cases h
        have : assignA plenty t.subtree key (t.current + 1) () = (assign t.subtree key (t.current + 1), true, ()) := by
          unfold assignA assign
          cases t.subtree.find? (·.1 == key) <;> rfl
        simp only [this]

/-- Without memory the tracker is told a part of it. -/
theorem notifyA_false {σ} {M : σ → Bool × σ} {t t' tf : Tracker} (hr : Reached t) {w : View} {loc : List Seg} (hs : Shows w loc)
    {b : Bool} {s s' : σ} {g : Nat} (h : t.notifyA M w b s = some (t', false, s')) (hf : t.notify w b = some (tf, g)) :
    PartlyTold t tf t' := by
  obtain ⟨es, hi⟩ := reached_inv hr
  obtain ⟨t1, ok1, s1, e, h1, h2, h3⟩ := notifyA_inv M hi hs b s
  rw [h] at h1
  cases h1
  obtain ⟨t2, ok2, s2, e2, g1, g2, g3⟩ := notifyA_inv plenty hi hs b ()
  rw [plenty_notify hf] at g1
  cases g1
  cases g2
  refine ⟨by rw [h3.cur, g3.cur]; simp, ?_⟩
  intro wq q hq
  obtain ⟨x, hx, lx⟩ := changedAt_ok h3 hq
  obtain ⟨y, hy, ly⟩ := changedAt_ok g3 hq
  obtain ⟨z, hz, lz⟩ := changedAt_ok hi hq
  rw [hx, hy, hz]
  refine ⟨rfl, ?_⟩
  by_cases hc : Is (fun n => Concerns n q) e
  · left
    have h1 := last_unique lx (last_snoc_pos hc)
    obtain ⟨n, rfl, hn⟩ := hc
    have h2' := last_unique ly (last_snoc_pos ⟨_, rfl, counts_concerns h2 hn⟩)
    rw [h1, h2']
  · right
    rw [last_unique lx (last_snoc_neg hc lz)]

/-- No memory is needed for a location whose subtree has been noted. -/
theorem notifyA_noted {σ} (M : σ → Bool × σ) {t : Tracker} {w : View} {loc : List Seg} (hn : Noted loc t) (hw : Shows w loc) (b : Bool)
    (s : σ) : ∃ t', t.notifyA M w b s = some (t', true, s) := by
  obtain ⟨es, h3, hm⟩ := noted_inv hn
  have hkeys : ∀ j ∈ List.range (w.size + 1), lookup t.node (join (loc.take j)) ≠ 0 := fun j _ =>
    last_pos (h3.node _ (valid_take hw.valid j)) hm ⟨_, rfl, List.take_prefix j loc⟩
  obtain ⟨m', hm'⟩ := markA_found M hw (t.current + 1) (by omega) s (List.range (w.size + 1))
    (by intro j hj; rw [List.mem_range, hw.size] at hj; omega) t.node hkeys
  unfold Tracker.notifyA
  simp only
  rw [hm']
  cases b with
  | false => exact ⟨_, rfl⟩
  | true =>
    have hwp : w.prefix w.size = some (join loc) := by
      rw [hw.size, hw.pre _ (Nat.le_refl _), List.take_length]
    have hf := assignA_found M (t.current + 1) s (last_pos (h3.sub _ hw.valid) hm ⟨_, rfl, rfl, rfl⟩)
    simp only [if_true]
    rw [hwp]
    simp only
    rw [hf]
    exact ⟨_, rfl⟩

end Verif.Resource
