import Verif.Serial.DumpLemmas
/-
Lemmas: sorted maps and lookup of members.
-/
namespace Verif.Serial
open Verif.Path Verif.Enums Spec

/-! ### The order of strings -/

theorem strLt_iff : ∀ a b : Str, strLt a b = true ↔ a < b
  | _, [] => by simp [strLt]
  | [], _ :: _ => by simp [strLt]
  | a :: as, b :: bs => by
    simp only [strLt, Bool.or_eq_true, Bool.and_eq_true, decide_eq_true_eq, beq_iff_eq,
      List.cons_lt_cons_iff, strLt_iff as bs, BitVec.lt_def]

theorem str_irrefl (a : Str) : ¬ a < a := by
  induction a with
  | nil => simp
  | cons a as ih => simp only [List.cons_lt_cons_iff, BitVec.lt_def]; simp [ih]

theorem str_trans : ∀ {a b c : Str}, a < b → b < c → a < c
  | _, [], _, h, _ => by simp at h
  | _, _ :: _, [], _, h => by simp at h
  | [], _ :: _, _ :: _, _, _ => by simp
  | a :: as, b :: bs, c :: cs, h, h' => by
    simp only [List.cons_lt_cons_iff, BitVec.lt_def] at h h' ⊢
    rcases h with h | ⟨rfl, h⟩ <;> rcases h' with h' | ⟨rfl, h'⟩
    · exact .inl (by omega)
    · exact .inl h
    · exact .inl h'
    · exact .inr ⟨rfl, str_trans h h'⟩

theorem str_total : ∀ (a b : Str), a < b ∨ a = b ∨ b < a
  | [], [] => by simp
  | [], _ :: _ => by simp
  | _ :: _, [] => by simp
  | a :: as, b :: bs => by
    simp only [List.cons_lt_cons_iff, BitVec.lt_def, List.cons.injEq]
    rcases Nat.lt_trichotomy a.toNat b.toNat with h | h | h
    · exact .inl (.inl h)
    · have := BitVec.eq_of_toNat_eq h
      subst this
      rcases str_total as bs with h | h | h <;> simp [h]
    · exact .inr (.inr (.inl h))

/-! ### Sorted lists -/

variable {α : Type}

theorem sorted_cons {e : Str × α} {es : List (Str × α)} :
    sorted (e :: es) = true ↔ (∀ x ∈ es, e.1 < x.1) ∧ sorted es = true := by
  simp [sorted, List.pairwise_cons]

theorem sorted_nil : sorted ([] : List (Str × α)) = true := by simp [sorted]

theorem emplace_mem {es : List (Str × α)} (k : Str) (v : α) (x : Str × α)
    (hs : sorted es = true) :
    x ∈ emplace es k v ↔ x ∈ es ∨ (x = (k, v) ∧ NoMember es k) := by
  induction es with
  | nil => simp [emplace, NoMember]
  | cons e es ih =>
    rw [sorted_cons] at hs
    simp only [emplace]
    by_cases h1 : strLt k e.1 = true
    · rw [if_pos h1]
      rw [strLt_iff] at h1
      have : NoMember (e :: es) k := by
        intro m hm
        rcases List.mem_cons.1 hm with rfl | hm
        · rintro h; rw [h] at h1; exact str_irrefl _ h1
        · rintro h; rw [← h] at h1; exact str_irrefl _ (str_trans h1 (hs.1 m hm))
      simp only [List.mem_cons, this, and_true]
      exact or_comm
    · rw [if_neg h1]
      by_cases h2 : k = e.1
      · rw [if_pos h2]
        have : ¬ NoMember (e :: es) k := fun h => h e (by simp) h2.symm
        simp [this]
      · rw [if_neg h2]
        simp only [List.mem_cons, ih hs.2]
        have : NoMember (e :: es) k ↔ NoMember es k := by
          constructor
          · intro h m hm; exact h m (List.mem_cons_of_mem _ hm)
          · intro h m hm
            rcases List.mem_cons.1 hm with rfl | hm
            · exact fun h => h2 h.symm
            · exact h m hm
        simp only [this, or_assoc]

theorem emplace_sorted {es : List (Str × α)} (k : Str) (v : α) (hs : sorted es = true) :
    sorted (emplace es k v) = true := by
  induction es with
  | nil => simp [emplace, sorted]
  | cons e es ih =>
    have hs' := sorted_cons.1 hs
    simp only [emplace]
    by_cases h1 : strLt k e.1 = true
    · rw [if_pos h1]
      rw [strLt_iff] at h1
      refine sorted_cons.2 ⟨?_, hs⟩
      intro x hx
      rcases List.mem_cons.1 hx with rfl | hx
      · exact h1
      · exact str_trans h1 (hs'.1 x hx)
    · rw [if_neg h1]
      by_cases h2 : k = e.1
      · rw [if_pos h2]; exact hs
      · rw [if_neg h2]
        refine sorted_cons.2 ⟨?_, ih hs'.2⟩
        intro x hx
        rcases (emplace_mem k v x hs'.2).1 hx with h | ⟨rfl, -⟩
        · exact hs'.1 x h
        · rw [strLt_iff] at h1
          rcases str_total k e.1 with h | h | h
          · exact absurd h h1
          · exact absurd h h2
          · exact h

theorem sorted_key_inj {es : List (Str × α)} (hs : sorted es = true) {k : Str} {v w : α}
    (h1 : (k, v) ∈ es) (h2 : (k, w) ∈ es) : v = w := by
  induction es with
  | nil => cases h1
  | cons e es ih =>
    rw [sorted_cons] at hs
    rcases List.mem_cons.1 h1 with h1 | h1 <;> rcases List.mem_cons.1 h2 with h2 | h2
    · rw [← h1] at h2; cases h2; rfl
    · have := hs.1 _ h2; rw [← h1] at this; exact absurd this (str_irrefl _)
    · have := hs.1 _ h1; rw [← h2] at this; exact absurd this (str_irrefl _)
    · exact ih hs.2 h1 h2

theorem sorted_nodup {es : List (Str × α)} (hs : sorted es = true) : (es.map (·.1)).Nodup := by
  induction es with
  | nil => simp
  | cons e es ih =>
    rw [sorted_cons] at hs
    simp only [List.map_cons, List.nodup_cons, List.mem_map, not_exists, not_and]
    refine ⟨fun x hx h => ?_, ih hs.2⟩
    have := hs.1 x hx
    rw [h] at this
    exact str_irrefl _ this

theorem sorted_ext : ∀ {es fs : List (Str × α)}, sorted es = true → sorted fs = true →
    (∀ x, x ∈ es ↔ x ∈ fs) → es = fs
  | [], [], _, _, _ => rfl
  | [], f :: fs, _, _, h => by have := (h f).2 (by simp); cases this
  | e :: es, [], _, _, h => by have := (h e).1 (by simp); cases this
  | e :: es, f :: fs, he, hf, h => by
    have he' := sorted_cons.1 he
    have hf' := sorted_cons.1 hf
    have hef : e = f := by
      have h1 := (h e).1 (by simp)
      have h2 := (h f).2 (by simp)
      rcases List.mem_cons.1 h1 with h1 | h1
      · exact h1
      rcases List.mem_cons.1 h2 with h2 | h2
      · exact h2.symm
      exact absurd (str_trans (hf'.1 _ h1) (he'.1 _ h2)) (str_irrefl _)
    subst hef
    congr 1
    apply sorted_ext he'.2 hf'.2
    intro x
    constructor
    · intro hx
      rcases List.mem_cons.1 ((h x).1 (List.mem_cons_of_mem _ hx)) with rfl | h'
      · exact absurd (he'.1 _ hx) (str_irrefl _)
      · exact h'
    · intro hx
      rcases List.mem_cons.1 ((h x).2 (List.mem_cons_of_mem _ hx)) with rfl | h'
      · exact absurd (hf'.1 _ hx) (str_irrefl _)
      · exact h'

/-! ### First members -/

variable {σ : Type}

theorem Spec.First.nil {k : Str} {d : α} : ¬ First [] k d := by
  rintro ⟨b, a, h, -⟩; simp at h

theorem Spec.First.cons {m : Str × α} {ms : List (Str × α)} {k : Str} {d : α} :
    First (m :: ms) k d ↔ (m.1 = k ∧ m.2 = d) ∨ (m.1 ≠ k ∧ First ms k d) := by
  constructor
  · rintro ⟨b, a, h, hb⟩
    cases b with
    | nil => simp only [List.nil_append, List.cons.injEq] at h; left; rw [h.1]; exact ⟨rfl, rfl⟩
    | cons x b =>
      simp only [List.cons_append, List.cons.injEq] at h
      right
      exact ⟨h.1 ▸ hb x (by simp), b, a, h.2, fun m hm => hb m (List.mem_cons_of_mem _ hm)⟩
  · rintro (⟨h1, h2⟩ | ⟨h1, b, a, h, hb⟩)
    · refine ⟨[], ms, ?_, by simp⟩
      rw [← h1, ← h2]; rfl
    · refine ⟨m :: b, a, by rw [h]; rfl, ?_⟩
      intro x hx
      rcases List.mem_cons.1 hx with rfl | hx
      · exact h1
      · exact hb x hx

theorem Spec.NoMember.cons {m : Str × α} {ms : List (Str × α)} {k : Str} :
    NoMember (m :: ms) k ↔ m.1 ≠ k ∧ NoMember ms k := by simp [NoMember]

theorem findMember_some (ms : List (Str × Doc σ)) (k : Str) (d : Doc σ) :
    findMember ms k = some d ↔ First ms k d := by
  induction ms with
  | nil => simp [findMember, First.nil]
  | cons m ms ih =>
    simp only [findMember, First.cons]
    by_cases h : m.1 = k <;> simp [h, ih]

theorem findMember_none (ms : List (Str × Doc σ)) (k : Str) :
    findMember ms k = none ↔ NoMember ms k := by
  induction ms with
  | nil => simp [findMember, NoMember]
  | cons m ms ih =>
    simp only [findMember, NoMember.cons]
    by_cases h : m.1 = k <;> simp [h, ih]

theorem Spec.First.unique {ms : List (Str × Doc σ)} {k : Str} {d d' : Doc σ}
    (h : First ms k d) (h' : First ms k d') : d = d' := by
  rw [← findMember_some] at h h'
  rw [h] at h'; cases h'; rfl

theorem Spec.First.mem {ms : List (Str × α)} {k : Str} {d : α} (h : First ms k d) : (k, d) ∈ ms := by
  obtain ⟨b, a, rfl, -⟩ := h; simp

theorem first_of_mem {ms : List (Str × α)} (hn : (ms.map (·.1)).Nodup) {k : Str} {d : α}
    (h : (k, d) ∈ ms) : First ms k d := by
  induction ms with
  | nil => cases h
  | cons m ms ih =>
    simp only [List.map_cons, List.nodup_cons] at hn
    rw [First.cons]
    rcases List.mem_cons.1 h with rfl | h
    · exact .inl ⟨rfl, rfl⟩
    · refine .inr ⟨?_, ih hn.2 h⟩
      intro hk
      apply hn.1
      rw [hk]
      exact List.mem_map_of_mem (f := (·.1)) h

theorem first_or_none (ms : List (Str × Doc σ)) (k : Str) :
    (∃ d, First ms k d) ∨ NoMember ms k := by
  cases h : findMember ms k with
  | none => exact .inr ((findMember_none ms k).1 h)
  | some d => exact .inl ⟨d, (findMember_some ms k d).1 h⟩

/-! ### Names of a field -/

theorem hasField_iff (ms : List (Str × Doc σ)) (k : Str) : hasField ms k = true ↔ ¬ NoMember ms k := by
  rw [← findMember_none, hasField]
  cases findMember ms k <;> simp

theorem atField_eq {ms : List (Str × Doc σ)} {k : Str} {d : Doc σ} (h : First ms k d) :
    atField ms k = d := by
  rw [atField, (findMember_some ms k d).2 h]; rfl

theorem atField_none {ms : List (Str × Doc σ)} {k : Str} (h : NoMember ms k) :
    atField ms k = .null := by
  rw [atField, (findMember_none ms k).2 h]; rfl

/-- The search for a name among several. -/
theorem firstAlias_some (ms : List (Str × Doc σ)) : ∀ (names : List Str) (n : Str),
    firstAlias ms names = some n → Picks ms names (atField ms n)
  | [], n, h => by cases h
  | a :: as, n, h => by
    simp only [firstAlias] at h
    by_cases hf : hasField ms a = true
    · rw [if_pos hf] at h; cases h
      rw [hasField_iff] at hf
      rcases first_or_none ms a with ⟨d, hd⟩ | hn
      · exact ⟨[], a, as, rfl, by simp, by rw [atField_eq hd]; exact hd⟩
      · exact absurd hn hf
    · rw [if_neg hf] at h
      rw [hasField_iff, Classical.not_not] at hf
      obtain ⟨b, n', c, hs, hb, hd⟩ := firstAlias_some ms as n h
      refine ⟨a :: b, n', c, by rw [hs]; rfl, ?_, hd⟩
      intro m hm
      rcases List.mem_cons.1 hm with rfl | hm
      · exact hf
      · exact hb m hm

theorem firstAlias_none (ms : List (Str × Doc σ)) : ∀ (names : List Str),
    firstAlias ms names = none ↔ ∀ n ∈ names, NoMember ms n
  | [] => by simp [firstAlias]
  | a :: as => by
    simp only [firstAlias]
    by_cases hf : hasField ms a = true
    · rw [if_pos hf]
      rw [hasField_iff] at hf
      simp [hf]
    · rw [if_neg hf, firstAlias_none ms as]
      rw [hasField_iff, Classical.not_not] at hf
      simp [hf]

theorem resolveName_eq (ms : List (Str × Doc σ)) (f : Field) :
    resolveName ms f = firstAlias ms (f.key :: f.aliases) := rfl

theorem Spec.Picks.not_none {ms : List (Str × Doc σ)} {names : List Str} {d : Doc σ}
    (h : Picks ms names d) (hn : ∀ n ∈ names, NoMember ms n) : False := by
  obtain ⟨b, n, c, rfl, -, hd⟩ := h
  exact hn n (by simp) _ hd.mem rfl

theorem Spec.Picks.unique {ms : List (Str × Doc σ)} {names : List Str} {d d' : Doc σ}
    (h : Picks ms names d) (h' : Picks ms names d') : d = d' := by
  obtain ⟨b, n, c, h1, h2, h3⟩ := h
  obtain ⟨b', n', c', h1', h2', h3'⟩ := h'
  subst h1
  induction b generalizing b' with
  | nil =>
    cases b' with
    | nil => simp only [List.nil_append, List.cons.injEq] at h1'; rw [h1'.1] at h3; exact h3.unique h3'
    | cons x b' =>
      simp only [List.nil_append, List.cons_append, List.cons.injEq] at h1'
      exact absurd rfl (h2' x (by simp) _ (h1'.1 ▸ h3.mem))
  | cons x b ih =>
    cases b' with
    | nil =>
      simp only [List.nil_append, List.cons_append, List.cons.injEq] at h1'
      exact absurd rfl (h2 x (by simp) _ (h1'.1 ▸ h3'.mem))
    | cons y b' =>
      simp only [List.cons_append, List.cons.injEq] at h1'
      exact ih (fun m hm => h2 m (List.mem_cons_of_mem _ hm)) b'
        (fun m hm => h2' m (List.mem_cons_of_mem _ hm)) h1'.2

theorem picks_iff (ms : List (Str × Doc σ)) (names : List Str) (d : Doc σ) :
    Picks ms names d ↔ ∃ n, firstAlias ms names = some n ∧ atField ms n = d := by
  constructor
  · intro h
    cases hf : firstAlias ms names with
    | none => exact (h.not_none ((firstAlias_none ms names).1 hf)).elim
    | some n => exact ⟨n, rfl, ((firstAlias_some ms names n hf).unique h)⟩
  · rintro ⟨n, hn, rfl⟩
    exact firstAlias_some ms names n hn

end Verif.Serial
