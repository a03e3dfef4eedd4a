import Verif.Zip.Model

/-! C63: zip and enumerate. -/

namespace Verif.Zip

variable {α : Type}

/-! ### Specification -/

/-- Number of elements of a range; `none` for an endless one. -/
def Seq.len : Seq α → Option Nat
  | .list xs => some xs.length
  | .iota b e => some (e - b)
  | .unbounded _ => none

/-- The `i`-th element. -/
def Seq.nth (s : Seq α) (i : Nat) : Option (Elem α) :=
  match s with
  | .list xs => (xs[i]?).map .val
  | .iota b _ => some (.num (b + i))
  | .unbounded b => some (.num (b + i))

/-- Sane ranges: an iota range runs upwards, in 64 bits. -/
def Seq.WF : Seq α → Prop
  | .list xs => xs.length < 2 ^ 64
  | .iota b e => b ≤ e ∧ e < 2 ^ 64
  | .unbounded b => b < 2 ^ 64

/-- `n` is the least length among the ranges. -/
def MinLen (seqs : List (Seq α)) (n : Nat) : Prop :=
  (∃ s ∈ seqs, s.len = some n) ∧ ∀ s ∈ seqs, ∀ m, s.len = some m → n ≤ m

/-! ### Proofs -/

/-- The iterator of `s` after `k` increments. -/
def Seq.at (s : Seq α) (k : Nat) : It α :=
  match s with
  | .list _ => ⟨s, k⟩
  | .iota b _ => ⟨s, b + k⟩
  | .unbounded b => ⟨s, b + k⟩

theorem at_zero (s : Seq α) : s.at 0 = s.begin_ := by cases s <;> rfl

theorem ne_at {s : Seq α} (hw : s.WF) {k : Nat} (hk : ∀ m, s.len = some m → k ≤ m) :
    (s.at k).ne s.end_ = true ↔ s.len ≠ some k := by
  cases s with
  | list xs => simp [Seq.at, It.ne, Seq.end_, Seq.len]; exact ne_comm
  | iota b e =>
    have := hk _ rfl
    obtain ⟨h1, -⟩ := hw
    simp [Seq.at, It.ne, Seq.end_, Seq.len]
    omega
  | unbounded b => simp [It.ne, Seq.end_, Seq.len]

theorem inc_at {s : Seq α} (hw : s.WF) {k : Nat} (hk : ∀ m, s.len = some m → k < m)
    (h64 : ∀ b, s = .unbounded b → b + k + 1 < 2 ^ 64) : (s.at k).inc = some (s.at (k + 1)) := by
  cases s with
  | list xs =>
    have : k < xs.length := hk _ rfl
    simp [Seq.at, It.inc, this]
  | iota b e =>
    have := hk _ rfl
    obtain ⟨h1, h2⟩ := hw
    have : (b + k + 1) % 2 ^ 64 = b + (k + 1) := by rw [Nat.mod_eq_of_lt] <;> omega
    simp only [Seq.at, It.inc, this]
  | unbounded b =>
    have := h64 b rfl
    have : (b + k + 1) % 2 ^ 64 = b + (k + 1) := by rw [Nat.mod_eq_of_lt] <;> omega
    simp only [Seq.at, It.inc, this]

theorem deref_at {s : Seq α} (k : Nat) : (s.at k).deref = s.nth k := by
  cases s <;> rfl

theorem nth_some {s : Seq α} {k : Nat} (hk : ∀ m, s.len = some m → k < m) :
    ∃ v, s.nth k = some v := by
  cases s with
  | list xs =>
    have : k < xs.length := hk _ rfl
    exact ⟨.val xs[k], by simp [Seq.nth, this]⟩
  | iota b e => exact ⟨_, rfl⟩
  | unbounded b => exact ⟨_, rfl⟩

theorem neAll_at {seqs : List (Seq α)} (hw : ∀ s ∈ seqs, s.WF) {k : Nat}
    (hk : ∀ s ∈ seqs, ∀ m, s.len = some m → k ≤ m) :
    neAll (seqs.map (Seq.at · k)) (seqs.map Seq.end_) = true ↔ ∀ s ∈ seqs, s.len ≠ some k := by
  induction seqs with
  | nil => simp [neAll]
  | cons s rest ih =>
    simp only [List.map_cons, neAll, Bool.and_eq_true, List.forall_mem_cons] at hw hk ⊢
    rw [ne_at hw.1 hk.1, ih hw.2 hk.2]

theorem incAll_at {seqs : List (Seq α)} (hw : ∀ s ∈ seqs, s.WF) {k : Nat}
    (hk : ∀ s ∈ seqs, ∀ m, s.len = some m → k < m)
    (h64 : ∀ s ∈ seqs, ∀ b, s = .unbounded b → b + k + 1 < 2 ^ 64) :
    incAll (seqs.map (Seq.at · k)) = some (seqs.map (Seq.at · (k + 1))) := by
  induction seqs with
  | nil => rfl
  | cons s rest ih =>
    simp only [List.forall_mem_cons] at hw hk h64
    simp [incAll, inc_at hw.1 hk.1 h64.1, ih hw.2 hk.2 h64.2]

theorem derefAll_at {seqs : List (Seq α)} {k : Nat}
    (hk : ∀ s ∈ seqs, ∀ m, s.len = some m → k < m) :
    ∃ v, derefAll (seqs.map (Seq.at · k)) = some v ∧ v.map some = seqs.map (Seq.nth · k) := by
  induction seqs with
  | nil => exact ⟨[], rfl, rfl⟩
  | cons s rest ih =>
    simp only [List.forall_mem_cons] at hk
    obtain ⟨v, hv, he⟩ := ih hk.2
    obtain ⟨x, hx⟩ := nth_some hk.1
    exact ⟨x :: v, by simp [derefAll, deref_at, hx, hv], by simp [hx, he]⟩

theorem visits_det {es : List Sent} {is : List (It α)} {l l' : List (List (Elem α))}
    (h : Visits es is l) (h' : Visits es is l') : l = l' := by
  induction h generalizing l' with
  | done hn =>
    cases h' with
    | done => rfl
    | step hl => rw [hn] at hl; cases hl
  | step hl hd hi _ ih =>
    cases h' with
    | done hn => rw [hn] at hl; cases hl
    | step _ hd' hi' h2 =>
      rw [hi] at hi'; cases hi'
      rw [hd] at hd'; cases hd'
      rw [ih h2]

theorem zip_from {seqs : List (Seq α)} (hw : ∀ s ∈ seqs, s.WF) {n : Nat} (hn : MinLen seqs n)
    (h64 : ∀ s ∈ seqs, ∀ b, s = .unbounded b → b + n < 2 ^ 64) :
    ∀ r k, k + r = n → ∃ l, Visits (seqs.map Seq.end_) (seqs.map (Seq.at · k)) l ∧ l.length = r ∧
      ∀ i, i < r → (l[i]?).map (List.map some) = some (seqs.map (Seq.nth · (k + i))) := by
  intro r
  induction r with
  | zero =>
    intro k hk
    refine ⟨[], .done ?_, rfl, by simp⟩
    rw [← Bool.not_eq_true, neAll_at hw (fun s hs m hm => by have := hn.2 s hs m hm; omega)]
    intro h
    obtain ⟨s, hs, hl⟩ := hn.1
    exact h s hs (by rw [hl]; simp; omega)
  | succ r ih =>
    intro k hk
    have hlt : ∀ s ∈ seqs, ∀ m, s.len = some m → k < m := fun s hs m hm => by
      have := hn.2 s hs m hm; omega
    obtain ⟨l, hl, hlen, hget⟩ := ih (k + 1) (by omega)
    obtain ⟨v, hv, hve⟩ := derefAll_at hlt
    refine ⟨v :: l, .step ?_ hv (incAll_at hw hlt ?_) hl, by simp [hlen], ?_⟩
    · rw [neAll_at hw (fun s hs m hm => Nat.le_of_lt (hlt s hs m hm))]
      intro s hs he
      exact absurd (hlt s hs k he) (by omega)
    · intro s hs b hb
      have := h64 s hs b hb
      omega
    · intro i hi
      cases i with
      | zero => simp [hve]
      | succ j =>
        have := hget j (by omega)
        rw [show k + (j + 1) = k + 1 + j by omega]
        simpa using this

/-- C63: zipping any number of ranges, at least one of them finite, visits as many tuples as
the shortest has elements, the `i`-th made of the `i`-th elements; the loop ends, is
deterministic and has no undefined behaviour, in particular it reads and advances no
iterator past the end of its range. -/
theorem C63_zip (seqs : List (Seq α)) (hw : ∀ s ∈ seqs, s.WF) (n : Nat) (hn : MinLen seqs n)
    (h64 : ∀ s ∈ seqs, ∀ b, s = .unbounded b → b + n < 2 ^ 64) :
    ∃ l, Visits (zipped seqs).2 (zipped seqs).1 l ∧ l.length = n ∧
      (∀ i, i < n → (l[i]?).map (List.map some) = some (seqs.map (Seq.nth · i))) ∧
      ∀ l', Visits (zipped seqs).2 (zipped seqs).1 l' → l' = l := by
  obtain ⟨l, hl, hlen, hget⟩ := zip_from hw hn h64 n 0 (by omega)
  have h0 : seqs.map (Seq.at · 0) = seqs.map Seq.begin_ := by
    apply List.map_congr_left; intro s _; exact at_zero s
  rw [h0] at hl
  refine ⟨l, hl, hlen, fun i hi => ?_, fun l' h' => visits_det h' hl⟩
  have := hget i hi
  rwa [Nat.zero_add] at this

example : MinLen [Seq.list [1, 2, 3], .iota 5 9, .list [7, 8], .unbounded 0] 2 ∧
    (∀ s ∈ [Seq.list [1, 2, 3], .iota 5 9, .list [7, 8], .unbounded 0], s.WF) := by
  refine ⟨⟨⟨.list [7, 8], by simp, rfl⟩, ?_⟩, ?_⟩
  · simp [Seq.len]
  · simp [Seq.WF]

/-- C63: a finite range exists in any tuple with at least one finite component, so the
theorem applies to every such tuple. -/
theorem C63_min_exists (seqs : List (Seq α)) (h : ∃ s ∈ seqs, ∃ m, s.len = some m) :
    ∃ n, MinLen seqs n := by
  induction seqs with
  | nil => obtain ⟨s, hs, -⟩ := h; simp at hs
  | cons s rest ih =>
    by_cases hr : ∃ s ∈ rest, ∃ m, s.len = some m
    · obtain ⟨n, ⟨t, ht, hl⟩, hmin⟩ := ih hr
      by_cases hs : ∃ m, s.len = some m ∧ m < n
      · obtain ⟨m, hm, hlt⟩ := hs
        refine ⟨m, ⟨s, by simp, hm⟩, ?_⟩
        intro u hu k hk
        rcases List.mem_cons.mp hu with rfl | hu
        · rw [hm] at hk; cases hk; omega
        · have := hmin u hu k hk; omega
      · refine ⟨n, ⟨t, by simp [ht], hl⟩, ?_⟩
        intro u hu k hk
        rcases List.mem_cons.mp hu with rfl | hu
        · have : ¬ k < n := fun hlt => hs ⟨k, hk, hlt⟩
          omega
        · exact hmin u hu k hk
    · obtain ⟨t, ht, m, hm⟩ := h
      rcases List.mem_cons.mp ht with rfl | ht
      · refine ⟨m, ⟨t, by simp, hm⟩, ?_⟩
        intro u hu k hk
        rcases List.mem_cons.mp hu with rfl | hu
        · rw [hm] at hk; cases hk; omega
        · exact absurd ⟨u, hu, k, hk⟩ hr
      · exact absurd ⟨t, ht, m, hm⟩ hr

/-- C63: `enumerated` pairs the `i`-th element of a container with `i`. -/
theorem C63_enumerated (xs : List α) (h : xs.length < 2 ^ 64) :
    ∃ l, Visits (enumerated (Seq.list xs)).2 (enumerated (Seq.list xs)).1 l ∧
      l.length = xs.length ∧
      ∀ i (hi : i < xs.length), l[i]? = some [.num i, .val xs[i]] := by
  obtain ⟨l, hl, hlen, hget, -⟩ := C63_zip [.unbounded 0, .list xs] (by simpa [Seq.WF] using h)
    xs.length ⟨⟨.list xs, by simp, rfl⟩, by simp [Seq.len]⟩ (by simpa using h)
  refine ⟨l, hl, hlen, fun i hi => ?_⟩
  have := hget i hi
  have hil : i < l.length := by omega
  rw [List.getElem?_eq_getElem hil] at this ⊢
  simp only [Option.map_some, List.map_cons, List.map_nil, Seq.nth, Nat.zero_add,
    List.getElem?_eq_getElem hi, Option.some.injEq] at this ⊢
  generalize l[i] = v at this
  match v, this with
  | [a, b], h => simp at h; rw [h.1, h.2]

example : (enumerated (Seq.list ["a", "b"])).1.length = 2 := rfl

/-- C63: with a bounded iota range that runs downwards the loop does not stop at once; the
value wraps around (so the hypothesis on iota ranges is needed). -/
theorem C63_iota_downwards : ¬ Visits (zipped (α := α) [.iota 1 0]).2 (zipped (α := α) [.iota 1 0]).1 [] := by
  intro h
  cases h with
  | done hn => simp [zipped, neAll, It.ne, Seq.begin_, Seq.end_] at hn

end Verif.Zip
