import Verif.Serial.MapLemmas
import Verif.Serial.JsonLemmas
import Verif.Enums.Props
/-
Lemmas: the loops of `deserialize` and `patch`, the leaves, enums and sets.
-/
namespace Verif.Serial
open Verif.Path Verif.Enums Spec

variable {σ : Type}

@[simp] theorem note_ok {α : Type} {m : Str} {r : Res α} {a : α} : note m r = .ok a ↔ r = .ok a := by
  cases r <;> simp [note]

theorem note_error {α : Type} {m : Str} {r : Res α} {e : Exc} :
    note m r = .error e ↔ ∃ e', r = .error e' ∧ e = e'.add m := by
  cases r <;> simp [note, eq_comm]

@[simp] theorem map_ok {α β : Type} {r : Res α} {f : α → β} {b : β} :
    r.map f = .ok b ↔ ∃ a, r = .ok a ∧ f a = b := by
  cases r <;> simp [Except.map]

@[simp] theorem map_error {α β : Type} {r : Res α} {f : α → β} {e : Exc} :
    r.map f = .error e ↔ r = .error e := by
  cases r <;> simp [Except.map]

theorem each_iff {α β : Type} {R : α → β → Prop} : ∀ {xs : List α} {ys : List β},
    Each R xs ys ↔ xs.length = ys.length ∧ ∀ (i : Nat) (x : α) (y : β), xs[i]? = some x → ys[i]? = some y → R x y
  | [], [] => by simp; exact .nil
  | [], y :: ys => by simp; intro h; cases h
  | x :: xs, [] => by simp; intro h; cases h
  | x :: xs, y :: ys => by
    constructor
    · intro h
      cases h with
      | cons h1 h2 =>
        have := each_iff.1 h2
        refine ⟨by simp [this.1], ?_⟩
        intro i a b ha hb
        cases i with
        | zero => simp at ha hb; subst ha hb; exact h1
        | succ i => exact this.2 i a b (by simpa using ha) (by simpa using hb)
    · rintro ⟨h1, h2⟩
      refine .cons (h2 0 x y rfl rfl) (each_iff.2 ⟨by simpa using h1, ?_⟩)
      intro i a b ha hb
      exact h2 (i + 1) a b (by simpa using ha) (by simpa using hb)

theorem Spec.Each.imp {α β : Type} {R S : α → β → Prop} {xs : List α} {ys : List β} (h : Each R xs ys)
    (i : ∀ x y, x ∈ xs → y ∈ ys → R x y → S x y) : Each S xs ys := by
  induction h with
  | nil => exact .nil
  | cons h1 h2 ih =>
    exact .cons (i _ _ (by simp) (by simp) h1)
      (ih fun x y hx hy => i x y (List.mem_cons_of_mem _ hx) (List.mem_cons_of_mem _ hy))

theorem Spec.Each.right {α β : Type} {R : α → β → Prop} {xs : List α} {ys : List β} (h : Each R xs ys) :
    ∀ y ∈ ys, ∃ x ∈ xs, R x y := by
  induction h with
  | nil => simp
  | cons h1 h2 ih =>
    intro y hy
    rcases List.mem_cons.1 hy with rfl | hy
    · exact ⟨_, by simp, h1⟩
    · obtain ⟨x, hx, h⟩ := ih y hy
      exact ⟨x, List.mem_cons_of_mem _ hx, h⟩

theorem Spec.Each.left {α β : Type} {R : α → β → Prop} {xs : List α} {ys : List β} (h : Each R xs ys) :
    ∀ x ∈ xs, ∃ y ∈ ys, R x y := by
  induction h with
  | nil => simp
  | cons h1 h2 ih =>
    intro y hy
    rcases List.mem_cons.1 hy with rfl | hy
    · exact ⟨_, by simp, h1⟩
    · obtain ⟨x, hx, h⟩ := ih y hy
      exact ⟨x, List.mem_cons_of_mem _ hx, h⟩

theorem Spec.Each.length {α β : Type} {R : α → β → Prop} {xs : List α} {ys : List β} (h : Each R xs ys) :
    xs.length = ys.length := (each_iff.1 h).1

/-! ### Sequences -/

theorem deserItems_ok (f : Doc σ → Res Value) : ∀ (i : Nat) (l : List (Doc σ)) (vs : List Value),
    deserItems f i l = .ok vs ↔ Each (fun d v => f d = .ok v) l vs
  | i, [], vs => by
    simp only [deserItems, Except.ok.injEq]
    constructor
    · rintro rfl; exact .nil
    · intro h; cases h; rfl
  | i, d :: ds, vs => by
    simp only [deserItems]
    cases hd : f d with
    | error e => simp only [note, reduceCtorEq, false_iff]; intro h; cases h; simp_all
    | ok v =>
      simp only [note, map_ok, deserItems_ok f (i + 1) ds]
      constructor
      · rintro ⟨ws, h, rfl⟩; exact .cons hd h
      · intro h
        cases h with
        | cons h1 h2 => rw [hd] at h1; cases h1; exact ⟨_, h2, rfl⟩

theorem deserFixed_ok (f : Value → Doc σ → Res Value) (l : List (Doc σ)) :
    ∀ (i : Nat) (olds vs : List Value), deserFixed f l i olds = .ok vs ↔
      olds.length = vs.length ∧ ∀ (j : Nat) (old v : Value), olds[j]? = some old → vs[j]? = some v →
        f old (atIndex l (i + j)) = .ok v
  | i, [], vs => by
    simp only [deserFixed, Except.ok.injEq]
    constructor
    · rintro rfl; simp
    · rintro ⟨h, -⟩; simp only [List.length_nil] at h; exact (List.length_eq_zero_iff.1 h.symm).symm
  | i, o :: os, vs => by
    simp only [deserFixed]
    cases vs with
    | nil =>
      simp only [List.length_cons, List.length_nil, Nat.add_eq_zero_iff, false_and, reduceCtorEq,
        and_false, iff_false]
      cases note (txt "error when deserializing element " ++ numText i) (f o (atIndex l i)) <;>
        simp
    | cons v vs =>
      have tail := deserFixed_ok f l (i + 1) os vs
      cases hd : f o (atIndex l i) with
      | error e =>
        simp only [note, reduceCtorEq, false_iff]
        rintro ⟨-, h⟩
        have := h 0 o v rfl rfl
        rw [Nat.add_zero, hd] at this; cases this
      | ok w =>
        simp only [note, map_ok, List.cons.injEq]
        constructor
        · rintro ⟨ws, h, rfl, rfl⟩
          obtain ⟨h1, h2⟩ := tail.1 h
          refine ⟨by simp [h1], ?_⟩
          intro j old v ho hv
          cases j with
          | zero => simp at ho hv; subst ho hv; exact hd
          | succ j =>
            have := h2 j old v (by simpa using ho) (by simpa using hv)
            rwa [Nat.add_assoc, Nat.add_comm 1 j] at this
        · rintro ⟨h1, h2⟩
          refine ⟨vs, tail.2 ⟨by simpa using h1, ?_⟩, ?_, rfl⟩
          · intro j old v ho hv
            have := h2 (j + 1) old v (by simpa using ho) (by simpa using hv)
            rwa [Nat.add_assoc, Nat.add_comm 1 j]
          · have := h2 0 o v rfl rfl
            rw [Nat.add_zero, hd] at this; cases this; rfl

/-! ### Maps -/

theorem deserEntries_some {f : Doc σ → Res Value} : ∀ {ms : List (Str × Doc σ)} (out : List (Str × Value)),
    (∀ m ∈ ms, ∃ v, f m.2 = .ok v) → ∃ es, deserEntries f ms out = .ok es
  | [], out, _ => ⟨out, rfl⟩
  | (k, d) :: ms, out, h => by
    obtain ⟨v, hv⟩ := h (k, d) (by simp)
    simp only at hv
    simp only [deserEntries, hv, note]
    exact deserEntries_some _ fun m hm => h m (List.mem_cons_of_mem _ hm)

theorem deserEntries_char {f : Doc σ → Res Value} : ∀ {ms : List (Str × Doc σ)} {out es : List (Str × Value)},
    sorted out = true → deserEntries f ms out = .ok es →
    (∀ m ∈ ms, ∃ v, f m.2 = .ok v) ∧ sorted es = true ∧
    ∀ k v, (k, v) ∈ es ↔ (k, v) ∈ out ∨ (NoMember out k ∧ ∃ d, First ms k d ∧ f d = .ok v)
  | [], out, es, ho, h => by
    simp only [deserEntries, Except.ok.injEq] at h
    subst h
    exact ⟨by simp, ho, by simp [Spec.First.nil]⟩
  | (k, d) :: ms, out, es, ho, h => by
    simp only [deserEntries] at h
    cases hd : f d with
    | error e => rw [hd] at h; simp [note] at h
    | ok v =>
      rw [hd] at h
      simp only [note] at h
      obtain ⟨h1, h2, h3⟩ := deserEntries_char (emplace_sorted k v ho) h
      refine ⟨?_, h2, ?_⟩
      · intro m hm
        rcases List.mem_cons.1 hm with rfl | hm
        · exact ⟨v, hd⟩
        · exact h1 m hm
      · intro k' v'
        rw [h3, emplace_mem k v _ ho]
        have hno : NoMember (emplace out k v) k' ↔ NoMember out k' ∧ k ≠ k' := by
          constructor
          · intro hm
            refine ⟨fun m hm' => hm m ((emplace_mem k v m ho).2 (.inl hm')), ?_⟩
            rintro rfl
            by_cases hk : NoMember out k
            · exact hm (k, v) ((emplace_mem k v _ ho).2 (.inr ⟨rfl, hk⟩)) rfl
            · exact hk fun m hm' => hm m ((emplace_mem k v m ho).2 (.inl hm'))
          · rintro ⟨hm, hne⟩ m hm'
            rcases (emplace_mem k v m ho).1 hm' with hm' | ⟨rfl, -⟩
            · exact hm m hm'
            · exact hne
        rw [hno]
        simp only [Spec.First.cons, Prod.mk.injEq]
        constructor
        · rintro ((h | ⟨⟨rfl, rfl⟩, hn⟩) | ⟨⟨h, hne⟩, d', h', hv'⟩)
          · exact .inl h
          · exact .inr ⟨hn, d, .inl ⟨rfl, rfl⟩, hd⟩
          · exact .inr ⟨h, d', .inr ⟨hne, h'⟩, hv'⟩
        · rintro (h | ⟨h, d', ⟨rfl, rfl⟩ | ⟨hne, h'⟩, hv'⟩)
          · exact .inl (.inl h)
          · rw [hd] at hv'; cases hv'; exact .inl (.inr ⟨⟨rfl, rfl⟩, h⟩)
          · exact .inr ⟨⟨h, hne⟩, d', h', hv'⟩

theorem noMember_nil {α : Type} {k : Str} : NoMember ([] : List (Str × α)) k := by simp [NoMember]

/-- The map is that of the first members of each name; all members must be readable. -/
theorem deserEntries_ok {f : Doc σ → Res Value} {ms : List (Str × Doc σ)} {es : List (Str × Value)} :
    deserEntries f ms [] = .ok es ↔
    (∀ m ∈ ms, ∃ v, f m.2 = .ok v) ∧ sorted es = true ∧
      ∀ k v, (k, v) ∈ es ↔ ∃ d, First ms k d ∧ f d = .ok v := by
  constructor
  · intro h
    obtain ⟨h1, h2, h3⟩ := deserEntries_char sorted_nil h
    exact ⟨h1, h2, fun k v => by rw [h3]; simp [noMember_nil]⟩
  · rintro ⟨h1, h2, h3⟩
    obtain ⟨es', he⟩ := deserEntries_some [] h1
    obtain ⟨-, h2', h3'⟩ := deserEntries_char sorted_nil he
    rw [he]
    congr 1
    apply sorted_ext h2' h2
    rintro ⟨k, v⟩
    rw [h3', h3]; simp [noMember_nil]

theorem deserExtraEntries_filter {f : Doc σ → Res Value} {r : List Str} :
    ∀ {ms : List (Str × Doc σ)} {out es : List (Str × Value)},
    deserExtraEntries f r ms out = .ok es ↔
      deserEntries f (ms.filter fun m => !r.contains m.1) out = .ok es
  | [], out, es => by simp [deserExtraEntries, deserEntries]
  | (k, d) :: ms, out, es => by
    simp only [deserExtraEntries]
    by_cases h : r.contains k = true
    · rw [if_pos h, deserExtraEntries_filter]
      simp only [List.filter_cons, h, Bool.not_true, Bool.false_eq_true, if_false]
    · rw [if_neg h]
      simp only [List.filter_cons]
      rw [if_pos (by simpa using h)]
      simp only [deserEntries]
      cases f d with
      | error e => simp [note]
      | ok v => simp only [note]; exact deserExtraEntries_filter

theorem first_filter {α : Type} {ms : List (Str × α)} {p : Str → Bool} {k : Str} {d : α} :
    First (ms.filter fun m => p m.1) k d ↔ p k = true ∧ First ms k d := by
  induction ms with
  | nil => simp [Spec.First.nil]
  | cons m ms ih =>
    simp only [List.filter_cons]
    by_cases h : p m.1 = true
    · rw [if_pos h, Spec.First.cons, ih, Spec.First.cons]
      constructor
      · rintro (⟨rfl, rfl⟩ | ⟨h1, h2, h3⟩)
        · exact ⟨h, .inl ⟨rfl, rfl⟩⟩
        · exact ⟨h2, .inr ⟨h1, h3⟩⟩
      · rintro ⟨h1, h2 | h2⟩
        · exact .inl h2
        · exact .inr ⟨h2.1, h1, h2.2⟩
    · rw [if_neg h, ih, Spec.First.cons]
      constructor
      · rintro ⟨h1, h2⟩
        refine ⟨h1, .inr ⟨?_, h2⟩⟩
        rintro rfl; exact h h1
      · rintro ⟨h1, ⟨rfl, -⟩ | ⟨-, h2⟩⟩
        · exact absurd h1 h
        · exact ⟨h1, h2⟩

theorem deserExtraEntries_ok {f : Doc σ → Res Value} {r : List Str} {ms : List (Str × Doc σ)}
    {es : List (Str × Value)} :
    deserExtraEntries f r ms [] = .ok es ↔
    (∀ m ∈ ms, m.1 ∉ r → ∃ v, f m.2 = .ok v) ∧ sorted es = true ∧
      ∀ k v, (k, v) ∈ es ↔ k ∉ r ∧ ∃ d, First ms k d ∧ f d = .ok v := by
  rw [deserExtraEntries_filter, deserEntries_ok]
  have : ∀ k d, First (ms.filter fun m => !r.contains m.1) k d ↔ k ∉ r ∧ First ms k d := by
    intro k d
    rw [first_filter (p := fun k => !r.contains k)]
    simp
  simp only [this, List.mem_filter]
  constructor
  · rintro ⟨h1, h2, h3⟩
    refine ⟨fun m hm hr => h1 m ⟨hm, by simpa using hr⟩, h2, fun k v => ?_⟩
    rw [h3]
    constructor
    · rintro ⟨d, ⟨h, h'⟩, h''⟩; exact ⟨h, d, h', h''⟩
    · rintro ⟨h, d, h', h''⟩; exact ⟨d, ⟨h, h'⟩, h''⟩
  · rintro ⟨h1, h2, h3⟩
    refine ⟨fun m hm => h1 m hm.1 (by simpa using hm.2), h2, fun k v => ?_⟩
    rw [h3]
    constructor
    · rintro ⟨h, d, h', h''⟩; exact ⟨d, ⟨h, h'⟩, h''⟩
    · rintro ⟨d, ⟨h, h'⟩, h''⟩; exact ⟨h, d, h', h''⟩

/-! ### Extra fields under patch -/

theorem lookup_some {α : Type} {es : List (Str × α)} {k : Str} {v : α} :
    lookup es k = some v ↔ First es k v := by
  induction es with
  | nil => simp [lookup, Spec.First.nil]
  | cons e es ih =>
    simp only [lookup, Spec.First.cons]
    by_cases h : e.1 = k <;> simp [h, ih]

theorem lookup_none {α : Type} {es : List (Str × α)} {k : Str} :
    lookup es k = none ↔ NoMember es k := by
  induction es with
  | nil => simp [lookup, NoMember]
  | cons e es ih =>
    simp only [lookup, Spec.NoMember.cons]
    by_cases h : e.1 = k <;> simp [h, ih]

theorem assignEntry_keys {α : Type} {es : List (Str × α)} {k : Str} {v : α} :
    (assignEntry es k v).map (·.1) = es.map (·.1) := by
  induction es with
  | nil => rfl
  | cons e es ih =>
    simp only [assignEntry]
    split
    · rfl
    · simp [ih]

theorem assignEntry_sorted {α : Type} {es : List (Str × α)} {k : Str} {v : α}
    (h : sorted es = true) : sorted (assignEntry es k v) = true := by
  have key : ∀ l : List (Str × α), sorted l = true ↔ (l.map (·.1)).Pairwise (· < ·) := by
    intro l; simp [sorted, List.pairwise_map]
  rw [key] at h ⊢
  rwa [assignEntry_keys]

theorem assignEntry_mem {α : Type} {es : List (Str × α)} {k : Str} {v : α} (hs : sorted es = true)
    (x : Str × α) : x ∈ assignEntry es k v ↔ (x ∈ es ∧ x.1 ≠ k) ∨ (x = (k, v) ∧ ¬ NoMember es k) := by
  induction es with
  | nil => simp [assignEntry, NoMember]
  | cons e es ih =>
    have hs' := sorted_cons.1 hs
    simp only [assignEntry]
    by_cases h : e.1 = k
    · rw [if_pos h]
      have hn : ¬ NoMember (e :: es) k := fun hn => hn e (by simp) h
      simp only [List.mem_cons, hn, not_false_eq_true, and_true, h]
      constructor
      · rintro (h1 | h1)
        · exact .inr h1
        · refine .inl ⟨.inr h1, ?_⟩
          intro h2
          have := hs'.1 x h1
          rw [h2, h] at this
          exact str_irrefl _ this
      · rintro (⟨rfl | h1, h2⟩ | h1)
        · exact absurd h h2
        · exact .inr h1
        · exact .inl h1
    · rw [if_neg h]
      have hn : NoMember (e :: es) k ↔ NoMember es k := by simp [Spec.NoMember.cons, h]
      simp only [List.mem_cons, hn, ih hs'.2]
      constructor
      · rintro (rfl | ⟨h1, h2⟩ | h1)
        · exact .inl ⟨.inl rfl, h⟩
        · exact .inl ⟨.inr h1, h2⟩
        · exact .inr h1
      · rintro (⟨rfl | h1, h2⟩ | h1)
        · exact .inl rfl
        · exact .inr (.inl ⟨h1, h2⟩)
        · exact .inr (.inr h1)

/-! ### Enums -/

theorem fromText_acc (s : Str) (n : Int) : ∀ es : List Entry,
    es.foldl (fun ret p => if ret.isNone && s == txt p.name then some p.value else ret) (some n) = some n
  | [] => rfl
  | e :: es => by simp only [List.foldl_cons, Option.isNone_some, Bool.false_and, Bool.false_eq_true, if_false]
                  exact fromText_acc s n es

theorem fromText_eq (es : List Entry) (s : Str) :
    fromText es s = (es.find? fun e => txt e.name == s).map (·.value) := by
  unfold fromText
  induction es with
  | nil => rfl
  | cons e es ih =>
    simp only [List.foldl_cons, List.find?_cons, Option.isNone_none, Bool.true_and]
    by_cases h : txt e.name = s
    · have h1 : (s == txt e.name) = true := by simp [h]
      have h2 : (txt e.name == s) = true := by simp [h]
      simp only [h1, h2, if_true, Option.map_some]
      exact fromText_acc s _ es
    · have h1 : (s == txt e.name) = false := by simp [Ne.symm h]
      have h2 : (txt e.name == s) = false := by simp [h]
      simp only [h1, h2, Bool.false_eq_true, if_false]
      exact ih

theorem enumOk_iff {e : EnumTy} : enumOk e = true ↔
    e.under.WF ∧ e.entries ≠ [] ∧ ∀ x ∈ e.entries, e.under.InRange x.value := by
  simp [enumOk, and_assoc]

theorem deserEnum_ok {B : Backend σ} {e : EnumTy} {d : Doc σ} {n : Int} :
    deserEnum B e d = .ok n ↔ ∃ s, B.deserLeaf .str d = .ok (.str s) ∧
      ∃ x, e.entries.find? (fun x => txt x.name == s) = some x ∧ x.value = n := by
  unfold deserEnum
  cases hl : B.deserLeaf .str d with
  | error x => simp
  | ok a =>
    cases a with
    | str s =>
      simp only [fromText_eq, Except.ok.injEq, Atom.str.injEq, exists_eq_left']
      cases e.entries.find? (fun x => txt x.name == s) <;> simp
    | _ => simp

theorem deserEnum_inRange {B : Backend σ} {e : EnumTy} (he : enumOk e = true) {d : Doc σ} {n : Int}
    (h : deserEnum B e d = .ok n) : e.under.InRange n := by
  obtain ⟨s, -, x, hx, rfl⟩ := deserEnum_ok.1 h
  exact (enumOk_iff.1 he).2.2 x (List.mem_of_find?_eq_some hx)

theorem enumName_eq {e : EnumTy} (he : enumOk e = true) {n : Int} (hn : e.under.InRange n) :
    enumName e n = .ok (txt (((e.entries.find? fun x => x.value = n).map Entry.name).getD e.unknown)) := by
  obtain ⟨h1, h2, h3⟩ := enumOk_iff.1 he
  rw [enumName, toStr_eq h1 h2 h3 hn]

end Verif.Serial
