import Verif.Enums.Lemmas

/-! Integer ranges, loops and the remaining reflector facts. -/

namespace Verif.Enums

theorem toStr_eq {t : IT} (ht : t.WF) {rng : List Entry} (hr : rng ≠ [])
    (htab : ∀ e ∈ rng, t.InRange e.value) {v : Int} (hv : t.InRange v) {d : String} :
    toStr t rng v d = some (((rng.find? fun e => e.value = v).map Entry.name).getD d) := by
  unfold toStr
  obtain ⟨b, hb⟩ := isOrdinary_some (t := t) hr
  rw [hb]
  cases b with
  | false => simp only; rw [searchName_eq]
  | true =>
    have hval := isOrdinary_get hb
    simp only
    have hpos : 0 < rng.length := List.length_pos_iff.mpr hr
    have hlastr : t.InRange ((rng.length - 1 : Nat) : Int) := by
      rw [← hval (rng.length - 1) (by omega)]
      exact htab _ (List.getElem_mem _)
    have hconv : sizeT.conv v = v % 2 ^ 64 := by simp [IT.conv, sizeT]
    rw [hconv]
    -- a value below the length (after the cast) is not negative
    have key : v % 2 ^ 64 < rng.length → 0 ≤ v ∧ v % 2 ^ 64 = v := by
      intro hlt
      obtain ⟨sg, w⟩ := t
      unfold IT.InRange at hv hlastr
      rcases ht with h | h | h | h <;> simp only at h <;> subst h <;> cases sg <;>
        simp only [Bool.false_eq_true, if_false, if_true, Nat.reduceSub, Nat.reducePow,
          Int.reducePow] at hv hlastr hlt ⊢ <;> omega
    split
    · rename_i hlt
      obtain ⟨h0, hm⟩ := key hlt
      rw [hm] at hlt ⊢
      have hi : v.toNat < rng.length := by omega
      rw [List.getElem?_eq_getElem hi]
      simp only [Option.some.injEq]
      have : rng.find? (fun e => decide (e.value = v)) = some rng[v.toNat] := by
        rw [List.find?_eq_some_iff_getElem]
        refine ⟨by rw [decide_eq_true_eq, hval _ hi]; omega, v.toNat, hi, rfl, ?_⟩
        intro j hj
        have := hval j (by omega)
        simp only [Bool.not_eq_eq_eq_not, Bool.not_true, decide_eq_false_iff_not]
        omega
      rw [this]; rfl
    · rename_i hge
      have : rng.find? (fun e => decide (e.value = v)) = none := by
        rw [List.find?_eq_none]
        intro e he
        obtain ⟨i, hi, rfl⟩ := List.getElem_of_mem he
        simp only [decide_eq_true_eq]
        intro hcon
        rw [hval i hi] at hcon
        apply hge
        rw [← hcon]
        have : (i : Int) % 2 ^ 64 ≤ i := by exact_mod_cast Nat.mod_le i (2 ^ 64)
        omega
      rw [this]; rfl

theorem sortedFrom_of_get : ∀ (l : List Entry) (c : Int),
    (∀ i (hi : i < l.length), l[i].value = c + 1 + i) → sortedFrom c l = true
  | [], _, _ => rfl
  | e :: rest, c, h => by
    have h0 := h 0 (by simp)
    simp only [List.getElem_cons_zero] at h0
    unfold sortedFrom
    rw [if_neg (by omega)]
    apply sortedFrom_of_get
    intro i hi
    have := h (i + 1) (by simpa using hi)
    simp only [List.getElem_cons_succ] at this
    omega

theorem isOrdinary_iff {t : IT} (ht : t.WF) {rng : List Entry} (hr : rng ≠ [])
    (htab : ∀ e ∈ rng, t.InRange e.value) :
    isOrdinary t rng = some true ↔ ∀ i (hi : i < rng.length), rng[i].value = i := by
  refine ⟨isOrdinary_get, fun h => ?_⟩
  cases rng with
  | nil => exact absurd rfl hr
  | cons e rest =>
    have hlast : (e :: rest)[(e :: rest).length - 1]? =
        some ((e :: rest)[(e :: rest).length - 1]'(by simp)) := List.getElem?_eq_getElem (by simp)
    have h0 := h 0 (by simp)
    have hl := h ((e :: rest).length - 1) (by simp)
    have hlr := htab _ (List.getElem_mem (l := e :: rest) (n := (e :: rest).length - 1) (by simp))
    rw [hl] at hlr
    unfold isOrdinary
    simp only [hlast]
    rw [if_neg]
    · congr 1
      apply sortedFrom_of_get
      intro i hi
      have := h (i + 1) (by simpa using hi)
      simp only [List.getElem_cons_succ, List.getElem_cons_zero] at this h0
      omega
    · rw [hl, conv_of_inRange ht hlr, conv_zero]
      simp only [List.getElem_cons_zero] at h0
      simp [h0]

theorem find_name_of_nodup {rng : List Entry} (h : (rng.map Entry.name).Nodup) {x : Entry}
    (hx : x ∈ rng) : rng.find? (fun e => decide (e.name = x.name)) = some x := by
  induction rng with
  | nil => simp at hx
  | cons e rest ih =>
    simp only [List.map_cons, List.nodup_cons] at h
    rw [List.find?_cons]
    rcases List.mem_cons.mp hx with rfl | hm
    · simp
    · have hne : e.name ≠ x.name := fun he => h.1 (by rw [he]; exact List.mem_map.mpr ⟨x, hm, rfl⟩)
      simp [hne, ih h.2 hm]

theorem find_value_of_nodup {rng : List Entry} (h : (rng.map Entry.value).Nodup) {x : Entry}
    (hx : x ∈ rng) : rng.find? (fun e => decide (e.value = x.value)) = some x := by
  induction rng with
  | nil => simp at hx
  | cons e rest ih =>
    simp only [List.map_cons, List.nodup_cons] at h
    rw [List.find?_cons]
    rcases List.mem_cons.mp hx with rfl | hm
    · simp
    · have hne : e.value ≠ x.value := fun he => h.1 (by rw [he]; exact List.mem_map.mpr ⟨x, hm, rfl⟩)
      simp [hne, ih h.2 hm]

/-! ### Consecutive integers -/

/-- `n` integers from `a` on. -/
def ints (a : Int) (n : Nat) : List Int := (List.range n).map fun k : Nat => a + (k : Int)

theorem mem_ints {a v : Int} {n : Nat} : v ∈ ints a n ↔ a ≤ v ∧ v < a + n := by
  simp only [ints, List.mem_map, List.mem_range]
  constructor
  · rintro ⟨k, hk, rfl⟩; omega
  · rintro ⟨h1, h2⟩; exact ⟨(v - a).toNat, by omega, by omega⟩

theorem ints_pairwise (a : Int) (n : Nat) : (ints a n).Pairwise (· < ·) := by
  unfold ints
  rw [List.pairwise_map]
  exact (List.pairwise_lt_range (n := n)).imp (by intros; omega)

theorem ints_succ (a : Int) (n : Nat) : ints a (n + 1) = a :: ints (a + 1) n := by
  unfold ints
  rw [List.range_succ_eq_map]
  simp only [List.map_cons, List.map_map]
  congr 1
  · simp
  · apply List.map_congr_left
    intro k _
    simp only [Function.comp]
    omega

/-! ### Steps of enum iterators -/

theorem incr_eq {t : IT} (ht : t.WF) {a : Int} (ha : t.InRange a) (h : t.InRange (a + 1)) :
    (t.promote.arith (a + 1)).map t.conv = some (a + 1) := by
  have : t.promote.arith (a + 1) = some (a + 1) := by
    obtain ⟨sg, w⟩ := t
    rcases ht with hw | hw | hw | hw <;> simp only at hw <;> subst hw <;> cases sg <;>
      simp [IT.promote, IT.arith, IT.InRange, IT.conv] at ha h ⊢ <;> omega
  rw [this]
  simp [conv_of_inRange ht h]

theorem decr_eq {t : IT} (ht : t.WF) {a : Int} (ha : t.InRange a) (h : t.InRange (a - 1)) :
    (t.promote.arith (a - 1)).map t.conv = some (a - 1) := by
  have : t.promote.arith (a - 1) = some (a - 1) := by
    obtain ⟨sg, w⟩ := t
    rcases ht with hw | hw | hw | hw <;> simp only at hw <;> subst hw <;> cases sg <;>
      simp [IT.promote, IT.arith, IT.InRange, IT.conv] at ha h ⊢ <;> omega
  rw [this]
  simp [conv_of_inRange ht h]

theorem adv_eq {t : IT} (ht : t.WF) {a n : Int} (ha : t.InRange a) (hn : ptrdiff.InRange n)
    (h : t.InRange (a + n)) : (enumIter t).add a n = some (a + n) := by
  show ((t.common ptrdiff).arith ((t.common ptrdiff).conv a + (t.common ptrdiff).conv n)).map t.conv = _
  obtain ⟨sg, w⟩ := t
  have hcv := conv_of_inRange ht h
  have hc64 : (⟨true, 64⟩ : IT).WF := by decide
  have hn' : (⟨true, 64⟩ : IT).InRange n := hn
  by_cases hu : sg = false ∧ w = 64
  · obtain ⟨rfl, rfl⟩ := hu
    have : (⟨false, 64⟩ : IT).common ptrdiff = ⟨false, 64⟩ := by decide
    rw [this]
    simp [IT.arith, IT.conv, IT.InRange, ptrdiff] at ha h hn ⊢
    omega
  · have hcm : (⟨sg, w⟩ : IT).common ptrdiff = ⟨true, 64⟩ := by
      rcases ht with hw | hw | hw | hw <;> simp only at hw <;> subst hw <;> cases sg <;>
        first | decide | (exfalso; exact hu ⟨rfl, rfl⟩)
    have ha64 : (⟨true, 64⟩ : IT).InRange a := by
      rcases ht with hw | hw | hw | hw <;> simp only at hw <;> subst hw <;> cases sg <;>
        simp [IT.InRange] at ha ⊢ <;> first | omega | (exfalso; exact hu ⟨rfl, rfl⟩)
    have hs64 : (⟨true, 64⟩ : IT).InRange (a + n) := by
      rcases ht with hw | hw | hw | hw <;> simp only at hw <;> subst hw <;> cases sg <;>
        simp [IT.InRange] at h ⊢ <;> first | omega | (exfalso; exact hu ⟨rfl, rfl⟩)
    rw [hcm, conv_of_inRange hc64 ha64, conv_of_inRange hc64 hn']
    simp [IT.arith, hs64, hcv]

/-! ### Loops -/

theorem inRange_mid {t : IT} {a b x : Int} (ha : t.InRange a) (hb : t.InRange b) (h1 : a ≤ x)
    (h2 : x ≤ b) : t.InRange x := by
  unfold IT.InRange at *
  split at ha <;> simp_all <;> omega

theorem forEach_ints {t : IT} (ht : t.WF) {first last : Int} (hf : t.InRange first)
    (hl : t.InRange last) : ForEach t last first (ints first (last - first).toNat) := by
  generalize hn : (last - first).toNat = n
  induction n generalizing first with
  | zero => exact .done (by omega)
  | succ k ih =>
    rw [ints_succ]
    have hs : t.InRange (first + 1) := inRange_mid hf hl (by omega) (by omega)
    have he := incr_eq ht hf hs
    obtain ⟨r, hr, hc⟩ := Option.map_eq_some_iff.mp he
    refine .step (by omega) hr ?_
    rw [hc]
    exact ih hs (by omega)

theorem forEach_det {t : IT} {last i : Int} {l l' : List Int} (h : ForEach t last i l)
    (h' : ForEach t last i l') : l = l' := by
  induction h generalizing l' with
  | done hn =>
    cases h' with
    | done => rfl
    | step hl => exact absurd hl hn
  | step hl hr _ ih =>
    cases h' with
    | done hn => exact absurd hl hn
    | step _ hr' h2 =>
      rw [hr] at hr'
      cases hr'
      rw [ih h2]

theorem visits_ints {t : IT} (ht : t.WF) {a e : Int} (ha : t.InRange a) (he : t.InRange e)
    (hle : a ≤ e) : Visits (enumIter t) e a (ints a (e - a).toNat) := by
  generalize hn : (e - a).toNat = n
  induction n generalizing a with
  | zero =>
    have : a = e := by omega
    subst this
    exact .done (by simp [Impl.ne, Impl.eq, enumIter])
  | succ k ih =>
    rw [ints_succ]
    have hs : t.InRange (a + 1) := inRange_mid ha he (by omega) (by omega)
    refine .step ?_ rfl (incr_eq ht ha hs) (ih hs (by omega) (by omega))
    simp [Impl.ne, Impl.eq, enumIter]
    omega

theorem visits_det {σ ρ : Type} {F : Impl σ ρ} {e a : σ} {l l' : List ρ} (h : Visits F e a l)
    (h' : Visits F e a l') : l = l' := by
  induction h generalizing l' with
  | done hn =>
    cases h' with
    | done => rfl
    | step hl => rw [hn] at hl; cases hl
  | step hl hd hi _ ih =>
    cases h' with
    | done hn => rw [hn] at hl; cases hl
    | step _ hd' hi' h2 =>
      rw [hi] at hi'; cases hi'
      rw [hd] at hd'; cases hd'
      rw [ih h2]

/-! ### Trait values -/

theorem maxValue_eq {r : Trait} (ht : r.t.WF)
    (hb : r.t.InRange (if r.openClosed then r.max else r.max + 1)) :
    r.maxValue = some (if r.openClosed then r.max else r.max + 1) := by
  unfold Trait.maxValue
  split
  · rfl
  · rename_i ho
    simp only [ho] at hb
    have : r.t.promote.arith (r.max + 1) = some (r.max + 1) := by
      obtain ⟨⟨sg, w⟩, mn, mx, o⟩ := r
      rcases ht with hw | hw | hw | hw <;> simp only at hw <;> subst hw <;> cases sg <;>
        simp [IT.promote, IT.arith, IT.InRange, IT.conv] at hb ⊢ <;> omega
    rw [this]
    simp only [Option.map_some, Option.some.injEq]
    exact conv_of_inRange ht hb

theorem count_eq {r : Trait} (ht : r.t.WF) (hmin : r.t.InRange r.min) {b : Int}
    (hb : r.t.InRange b) (hmx : r.maxValue = some b) (hlt : r.min < b) (hc : r.Compiles) :
    r.count = some (b - r.min) := by
  obtain ⟨-, c, hcount, -⟩ := hc
  unfold Trait.count at hcount ⊢
  rw [hmx] at hcount ⊢
  simp only [Option.bind_some, Trait.minValue] at hcount ⊢
  obtain ⟨⟨sg, w⟩, mn, mx, o⟩ := r
  simp only at hcount hmin hb hlt ⊢
  obtain ⟨d, hd, -⟩ := Option.map_eq_some_iff.mp hcount
  have hd' : d = b - mn ∧ 0 ≤ d ∧ d < 2 ^ 64 := by
    rcases ht with hw | hw | hw | hw <;> simp only at hw <;> subst hw <;> cases sg <;>
      simp [IT.promote, IT.arith, IT.InRange, IT.conv] at hmin hb hd ⊢ <;> omega
  obtain ⟨rfl, h0, h64⟩ := hd'
  rw [hd]
  simp only [Option.map_some, Option.some.injEq]
  exact conv_of_inRange (t := sizeT) (by decide) (by simp [IT.InRange, sizeT]; omega)

theorem arith_succ_inRange {t : IT} {x m : Int} (hx : t.InRange x) (h : t.arith (x + 1) = some m)
    (hgt : m > x) : t.InRange (x + 1) := by
  obtain ⟨sg, w⟩ := t
  cases sg
  · simp only [IT.arith, IT.conv, Bool.false_eq_true, if_false, Option.some.injEq] at h
    simp only [IT.InRange, Bool.false_eq_true, if_false] at hx ⊢
    refine ⟨by omega, ?_⟩
    by_cases he : x + 1 = 2 ^ w
    · rw [he, Int.emod_self] at h; omega
    · omega
  · simp only [IT.arith, if_true] at h
    split at h
    · assumption
    · cases h

theorem common_wf {a b : IT} (ha : a.WF) (hb : b.WF) : (a.common b).WF := by
  obtain ⟨sa, wa⟩ := a
  obtain ⟨sb, wb⟩ := b
  rcases ha with h | h | h | h <;> rcases hb with h' | h' | h' | h' <;> simp only at h h' <;>
    subst h <;> subst h' <;> cases sa <;> cases sb <;> decide

theorem common_left {a b : IT} (ha : a.WF) (hb : b.WF) (hs : a.signed = b.signed) {v : Int}
    (hv : a.InRange v) : (a.common b).InRange v := by
  obtain ⟨sa, wa⟩ := a
  obtain ⟨sb, wb⟩ := b
  simp only at hs
  subst hs
  rcases ha with h | h | h | h <;> rcases hb with h' | h' | h' | h' <;> simp only at h h' <;>
    subst h <;> subst h' <;> cases sa <;>
    simp [IT.common, IT.promote, IT.InRange] at hv ⊢ <;> omega

theorem common_right {a b : IT} (ha : a.WF) (hb : b.WF) (hs : a.signed = b.signed) {v : Int}
    (hv : b.InRange v) : (a.common b).InRange v := by
  obtain ⟨sa, wa⟩ := a
  obtain ⟨sb, wb⟩ := b
  simp only at hs
  subst hs
  rcases ha with h | h | h | h <;> rcases hb with h' | h' | h' | h' <;> simp only at h h' <;>
    subst h <;> subst h' <;> cases sa <;>
    simp [IT.common, IT.promote, IT.InRange] at hv ⊢ <;> omega

end Verif.Enums
