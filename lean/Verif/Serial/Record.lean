import Verif.Serial.Names
/-
Lemmas: reading and patching records.
-/
namespace Verif.Serial
open Verif.Path Verif.Enums Spec

variable {σ : Type}

theorem head?_none {α : Type} {l : List α} : l.head? = none ↔ l = [] := by cases l <;> simp

theorem missing_or (ms : List (Str × Doc σ)) (f : Field) :
    (∃ n, resolveName ms f = some n ∧ ReadFrom ms f (atField ms n)) ∨
    (resolveName ms f = none ∧ Missing ms f) := by
  rw [resolveName_eq]
  cases h : firstAlias ms (f.key :: f.aliases) with
  | some n => exact .inl ⟨n, rfl, firstAlias_some ms _ n h⟩
  | none => exact .inr ⟨rfl, (firstAlias_none ms _).1 h⟩

theorem isNull_iff {d : Doc σ} : d.isNull = true ↔ d = .null := by cases d <;> simp [Doc.isNull]

theorem present_ok {E : Env} {f : Field} {d : Doc σ} {p : Doc σ → Res Value} {v : Value} :
    ((if d.isNull then applyDefault f else none) = some v ∨
      (if d.isNull then applyDefault f else none) = none ∧ thenValidate E f (p d) = .ok v) ↔
    PresentReads E (fun d w => p d = .ok w) f d v := by
  unfold PresentReads applyDefault
  by_cases hn : d.isNull = true
  · rw [if_pos hn]
    have hd := isNull_iff.1 hn
    cases hh : f.defaults.head? with
    | some w =>
      have : f.defaults ≠ [] := by rintro h; rw [h] at hh; cases hh
      simp [hd, this]
    | none =>
      rw [head?_none] at hh
      simp [hd, hh, thenValidate_ok]
  · rw [if_neg hn]
    have hd : d ≠ .null := fun h => hn (isNull_iff.2 h)
    simp [hd, thenValidate_ok]

theorem missing_ok {E : Env} {f : Field} {old v : Value} {p : Doc σ → Res Value} :
    (missingPolicy f old = some v ∨ missingPolicy f old = none ∧ thenValidate E f (p .null) = .ok v) ↔
    MissingReads E (fun d w => p d = .ok w) f old v := by
  unfold MissingReads missingPolicy applyDefault
  cases hh : f.defaults.head? with
  | some w =>
    have : f.defaults ≠ [] := by rintro h; rw [h] at hh; cases hh
    simp [this]
  | none =>
    rw [head?_none] at hh
    cases ha : f.allowMissing with
    | true => simp [hh, eq_comm]
    | false => simp [hh, thenValidate_ok]

theorem or_match {o : Option Value} {r : Res Value} {v : Value} :
    (match o with | some w => (.ok w : Res Value) | none => r) = .ok v ↔
      o = some v ∨ o = none ∧ r = .ok v := by
  cases o <;> simp

theorem readPlain_ok {E : Env} {f : Field} {ms : List (Str × Doc σ)} {old v : Value}
    {p : Doc σ → Res Value} : readPlain E f ms old p = .ok v ↔
    (∀ d, ReadFrom ms f d → PresentReads E (fun d w => p d = .ok w) f d v) ∧
    (Missing ms f → MissingReads E (fun d w => p d = .ok w) f old v) := by
  unfold readPlain
  rcases missing_or ms f with ⟨n, hn, hp⟩ | ⟨hn, hm⟩
  · rw [hn]
    simp only
    refine Iff.trans or_match ?_
    rw [present_ok]
    constructor
    · intro h
      refine ⟨fun d hd => ?_, fun hm => ?_⟩
      · rw [Spec.Picks.unique hd hp]; exact h
      · exact (Spec.Picks.not_none hp hm).elim
    · exact fun h => h.1 _ hp
  · rw [hn]
    simp only
    rw [atField_none (hm _ (by simp))]
    refine Iff.trans or_match ?_
    rw [missing_ok]
    constructor
    · intro h
      exact ⟨fun d hd => (Spec.Picks.not_none hd hm).elim, fun _ => h⟩
    · exact fun h => h.2 hm

theorem patchPlain_ok {E : Env} {f : Field} {ms : List (Str × Doc σ)} {old v : Value}
    {p : Doc σ → Res Value} : patchPlain E f ms old p = .ok v ↔
    (∀ d, ReadFrom ms f d → PresentReads E (fun d w => p d = .ok w) f d v) ∧
    (Missing ms f → v = old) := by
  unfold patchPlain
  rcases missing_or ms f with ⟨n, hn, hp⟩ | ⟨hn, hm⟩
  · rw [hn]
    simp only
    refine Iff.trans or_match ?_
    rw [present_ok]
    constructor
    · intro h
      refine ⟨fun d hd => ?_, fun hm => ?_⟩
      · rw [Spec.Picks.unique hd hp]; exact h
      · exact (Spec.Picks.not_none hp hm).elim
    · exact fun h => h.1 _ hp
  · rw [hn]
    simp only [Except.ok.injEq]
    constructor
    · rintro rfl
      exact ⟨fun d hd => (Spec.Picks.not_none hd hm).elim, fun _ => rfl⟩
    · exact fun h => (h.2 hm).symm

/-- The collected names are those of the record. -/
def ReservedFor (r : Option (List Str)) (names : List Str) (fs : Fields) : Prop :=
  (∃ l, r = some l ∧ ∀ n, n ∈ l ↔ n ∈ names) ∨ (r = none ∧ hasExtraOrFlatten fs = false)

theorem ReservedFor.tail {r : Option (List Str)} {names : List Str} {f : Field} {t : Ty} {fs : Fields}
    (h : ReservedFor r names (.cons f t fs)) : ReservedFor r names fs := by
  rcases h with h | ⟨h1, h2⟩
  · exact .inl h
  · refine .inr ⟨h1, ?_⟩
    simp only [hasExtraOrFlatten, Bool.or_eq_false_iff] at h2
    exact h2.2

theorem ReservedFor.extra {r : Option (List Str)} {names : List Str} {f : Field} {t : Ty} {fs : Fields}
    (h : ReservedFor r names (.cons f t fs)) (he : f.extra = true) :
    ∃ l, r = some l ∧ ∀ n, n ∈ l ↔ n ∈ names := by
  rcases h with h | ⟨h1, h2⟩
  · exact h
  · simp [hasExtraOrFlatten, he] at h2

theorem reservedFor {fs : Fields} (hf : fieldsOk fs = true) {r : Option (List Str)}
    (h : reservedNames fs = .ok r) : NamesChecked fs ∧ ReservedFor r (allNames fs) fs := by
  rcases reservedNames_ok hf h with ⟨rfl, h'⟩ | ⟨rfl, h1, h2, h3⟩
  · exact ⟨fun h => absurd h (by simp [h']), .inr ⟨rfl, h'⟩⟩
  · exact ⟨fun _ => ⟨h2, h3⟩, .inl ⟨_, rfl, by simp⟩⟩

theorem namesChecked_ok {fs : Fields} (hf : fieldsOk fs = true) (h : NamesChecked fs) :
    ∃ r, reservedNames fs = .ok r := by
  by_cases hx : hasExtraOrFlatten fs = true
  · exact ⟨_, (reservedNames_some hf).2 ⟨hx, (h hx).1, (h hx).2, rfl⟩⟩
  · exact ⟨none, reservedNames_none.2 (by simpa using hx)⟩

theorem isMap_iff {t : Ty} : isMap t = true ↔ ∃ u, t = .map u := by
  cases t <;> simp [isMap]

theorem isRecord_iff {t : Ty} : isRecord t = true ↔ ∃ n fs, t = .record n fs := by
  cases t <;> simp [isRecord]

theorem deserFields_ok {B : Backend σ} {E : Env} {r : Option (List Str)} {names : List Str}
    (ms : List (Str × Doc σ)) : ∀ (fs : Fields) (olds vs : List Value), fieldsOk fs = true →
    ReservedFor r names fs →
    (deserFields B E r ms fs olds = .ok vs ↔
      EachField (FieldReads E (fun t o d v => deser B E t o d = .ok v) ms names) fs olds vs)
  | .nil, olds, vs, _, _ => by
    cases olds with
    | nil =>
      simp only [deserFields, Except.ok.injEq]
      constructor
      · rintro rfl; exact .nil
      · intro h; cases h; rfl
    | cons o os =>
      simp only [deserFields, reduceCtorEq, false_iff]
      intro h; cases h
  | .cons f t fs, olds, vs, hf, hr => by
    simp only [fieldsOk, Bool.and_eq_true] at hf
    cases olds with
    | nil =>
      simp only [deserFields, reduceCtorEq, false_iff]
      intro h; cases h
    | cons o os =>
      have tail := fun ws => deserFields_ok (B := B) (E := E) ms fs os ws hf.2 hr.tail
      have head : ∀ v, (if f.skipDeser then .ok o
          else if f.extra then deserExtras B E r ms t
          else
            note (fieldMsg f)
              (if f.flatten then deser B E t o (.obj ms)
              else readPlain E f ms o (deser B E t o)) : Res Value) = .ok v ↔
          FieldReads E (fun t o d v => deser B E t o d = .ok v) ms names f t o v := by
        intro v
        unfold FieldReads plain
        cases c1 : f.skipDeser with
        | true =>
          simp only [if_true, Except.ok.injEq, forall_const, Bool.true_eq_false, false_implies,
            and_true, Bool.not_true, Bool.false_and, Bool.false_eq_true]
          exact eq_comm
        | false =>
          simp only [Bool.false_eq_true, if_false, false_implies, true_and, forall_const,
            Bool.not_false, Bool.true_and]
          cases c2 : f.extra with
          | true =>
            simp only [if_true, forall_const, Bool.true_eq_false, false_implies, and_true,
              Bool.not_true, Bool.false_and, Bool.false_eq_true]
            obtain ⟨l, rfl, hl⟩ := hr.extra c2
            obtain ⟨u, rfl⟩ := isMap_iff.1 ((fieldOk_iff.1 hf.1.1).2.2.2 c2)
            simp only [deserExtras, map_ok, deserExtraEntries_ok, hl, Captures]
            constructor
            · rintro ⟨es, ⟨h1, h2, h3⟩, rfl⟩
              exact ⟨u, es, rfl, rfl, h2, h1, h3⟩
            · rintro ⟨u', es, h, rfl, h2, h1, h3⟩
              cases h
              exact ⟨es, ⟨h1, h2, h3⟩, rfl⟩
          | false =>
            simp only [Bool.false_eq_true, if_false, false_implies, true_and, forall_const, note_ok,
              Bool.not_false, Bool.true_and]
            cases c3 : f.flatten with
            | true => simp
            | false =>
              simp only [Bool.false_eq_true, if_false, false_implies, true_and, forall_const,
                Bool.not_false]
              exact readPlain_ok
      simp only [deserFields]
      constructor
      · intro h
        split at h
        · cases h
        rename_i v hv
        simp only [map_ok] at h
        obtain ⟨ws, h, rfl⟩ := h
        exact .cons ((head v).1 hv) ((tail ws).1 h)
      · intro h
        cases h with
        | cons h1 h2 =>
          rw [(head _).2 h1]
          simp only [map_ok]
          exact ⟨_, (tail _).2 h2, rfl⟩

theorem deser_record_obj {B : Backend σ} {E : Env} {n : Str} {fs : Fields} (hf : fieldsOk fs = true)
    {old v : Value} {ms : List (Str × Doc σ)} :
    deser B E (.record n fs) old (.obj ms) = .ok v ↔ NamesChecked fs ∧ ∃ olds vs,
      old = .record olds ∧ v = .record vs ∧
      EachField (FieldReads E (fun t o d v => deser B E t o d = .ok v) ms (allNames fs)) fs olds vs := by
  simp only [deser, note_ok]
  cases old with
  | record olds =>
    simp only [Value.record.injEq]
    cases hr : reservedNames fs with
    | error e =>
      simp only [reduceCtorEq, false_iff]
      rintro ⟨hn, -⟩
      obtain ⟨r, hr'⟩ := namesChecked_ok hf hn
      rw [hr] at hr'; cases hr'
    | ok r =>
      obtain ⟨h1, h2⟩ := reservedFor hf hr
      simp only [map_ok, deserFields_ok ms fs _ _ hf h2]
      constructor
      · rintro ⟨vs, h, rfl⟩; exact ⟨h1, olds, vs, rfl, rfl, h⟩
      · rintro ⟨-, olds, vs, rfl, rfl, h⟩; exact ⟨vs, h, rfl⟩
  | _ => simp

/-- Null is read by optionals only. -/
theorem deser_null {B : Backend σ} (hB : Lawful B) {E : Env} {t : Ty} {old v : Value} :
    deser B E t old .null = .ok v ↔ isOpt t = true ∧ v = .opt none := by
  cases t with
  | leaf l =>
    obtain ⟨w, hw⟩ := hB.null l
    simp [deser, hw, isOpt]
  | enum e =>
    obtain ⟨w, hw⟩ := hB.null .str
    simp [deser, deserEnum, hw, isOpt]
  | rawEnum t =>
    obtain ⟨w, hw⟩ := hB.null (.int t)
    simp [deser, hw, isOpt]
  | opt t => simp [deser, Doc.isNull, isOpt, eq_comm]
  | record n fs => 
    cases old <;> simp [deser, isOpt]
  | _ => simp [deser, elements, members, isOpt]

/-! ### patch -/

/-- Members of one name only: each is patched on its own. -/
theorem patchExtraEntries_char {p : Value → Doc σ → Res Value} {new : Value} {r : List Str} :
    ∀ {ms : List (Str × Doc σ)} {out es : List (Str × Value)}, (ms.map (·.1)).Nodup →
    sorted out = true →
    (patchExtraEntries p new r ms out = .ok es ↔ sorted es = true ∧
      (∀ k d, First ms k d → k ∉ r → ∃ w, (k, w) ∈ es) ∧
      ∀ k w, (k, w) ∈ es ↔ ((k ∈ r ∨ NoMember ms k) ∧ (k, w) ∈ out) ∨
        (k ∉ r ∧ ∃ d, First ms k d ∧
          ((∃ o, (k, o) ∈ out ∧ p o d = .ok w) ∨ (NoMember out k ∧ p new d = .ok w))))
  | [], out, es, _, ho => by
    simp only [patchExtraEntries, Except.ok.injEq]
    constructor
    · rintro rfl
      exact ⟨ho, by simp [Spec.First.nil], by simp [noMember_nil, Spec.First.nil]⟩
    · rintro ⟨h1, -, h2⟩
      apply sorted_ext ho h1
      rintro ⟨k, w⟩
      rw [h2]; simp [noMember_nil, Spec.First.nil]
  | (k0, d0) :: ms, out, es, hn, ho => by
    simp only [List.map_cons, List.nodup_cons] at hn
    have hno : NoMember ms k0 := by
      intro m hm h
      exact hn.1 (h ▸ List.mem_map_of_mem (f := (·.1)) hm)
    have hnf : ∀ d, ¬ First ms k0 d := fun d h => hno _ h.mem rfl
    simp only [patchExtraEntries]
    by_cases hc : r.contains k0 = true
    · rw [if_pos hc, patchExtraEntries_char hn.2 ho]
      have hk : k0 ∈ r := by simpa using hc
      apply and_congr_right; intro _
      apply and_congr
      · constructor
        · intro h k d hf hkr
          rcases Spec.First.cons.1 hf with ⟨rfl, -⟩ | ⟨-, hf⟩
          · exact absurd hk hkr
          · exact h k d hf hkr
        · intro h k d hf hkr
          refine h k d (Spec.First.cons.2 (.inr ⟨?_, hf⟩)) hkr
          rintro rfl; exact hkr hk
      · apply forall_congr'; intro k
        apply forall_congr'; intro w
        simp only [Spec.First.cons, Spec.NoMember.cons]
        by_cases hkk : k0 = k
        · subst hkk; simp [hk]
        · simp [hkk]
    · rw [if_neg hc]
      have hk : k0 ∉ r := by simpa using hc
      -- the step for the first member, with its new value
      have step : ∀ (q : Res Value) (out' : Value → List (Str × Value)),
          (∀ w, q = .ok w ↔ (∃ o, (k0, o) ∈ out ∧ p o d0 = .ok w) ∨ (NoMember out k0 ∧ p new d0 = .ok w)) →
          (∀ w, sorted (out' w) = true) →
          (∀ w k x, (k, x) ∈ out' w ↔ (k ≠ k0 ∧ (k, x) ∈ out) ∨ (k = k0 ∧ x = w)) →
          ((∃ v, q = .ok v ∧ patchExtraEntries p new r ms (out' v) = .ok es) ↔ sorted es = true ∧
            (∀ k d, First ((k0, d0) :: ms) k d → k ∉ r → ∃ w, (k, w) ∈ es) ∧
            ∀ k w, (k, w) ∈ es ↔ ((k ∈ r ∨ NoMember ((k0, d0) :: ms) k) ∧ (k, w) ∈ out) ∨
              (k ∉ r ∧ ∃ d, First ((k0, d0) :: ms) k d ∧
                ((∃ o, (k, o) ∈ out ∧ p o d = .ok w) ∨ (NoMember out k ∧ p new d = .ok w)))) := by
        intro q out' hq hs hm
        cases hqq : q with
        | error e =>
          simp only [reduceCtorEq, false_and, exists_false, false_iff]
          rintro ⟨-, h1, h2⟩
          obtain ⟨w, hw⟩ := h1 k0 d0 (Spec.First.cons.2 (.inl ⟨rfl, rfl⟩)) hk
          rcases (h2 k0 w).1 hw with ⟨h3 | h3, -⟩ | ⟨-, d, hd, h3⟩
          · exact hk h3
          · exact h3 (k0, d0) (by simp) rfl
          · have : d = d0 := by
              rcases Spec.First.cons.1 hd with ⟨-, h⟩ | ⟨h, -⟩
              · exact h.symm
              · exact absurd rfl h
            subst this
            rw [(hq w).2 h3] at hqq; cases hqq
        | ok w0 =>
          simp only [Except.ok.injEq, exists_eq_left']
          rw [patchExtraEntries_char hn.2 (hs w0)]
          have hw0 := (hq w0).1 hqq
          apply and_congr_right; intro hes
          have key : (∀ k w, ((k ∈ r ∨ NoMember ms k) ∧ (k, w) ∈ out' w0) ∨
              (k ∉ r ∧ ∃ d, First ms k d ∧
                ((∃ o, (k, o) ∈ out' w0 ∧ p o d = .ok w) ∨ (NoMember (out' w0) k ∧ p new d = .ok w))) ↔
              ((k ∈ r ∨ NoMember ((k0, d0) :: ms) k) ∧ (k, w) ∈ out) ∨
              (k ∉ r ∧ ∃ d, First ((k0, d0) :: ms) k d ∧
                ((∃ o, (k, o) ∈ out ∧ p o d = .ok w) ∨ (NoMember out k ∧ p new d = .ok w)))) := by
            intro k w
            have hnm : k ≠ k0 → (NoMember (out' w0) k ↔ NoMember out k) := by
              intro hne
              constructor
              · rintro h ⟨a, b⟩ hab rfl
                exact h (a, b) ((hm w0 a b).2 (.inl ⟨hne, hab⟩)) rfl
              · rintro h ⟨a, b⟩ hab rfl
                rcases (hm w0 a b).1 hab with ⟨-, h'⟩ | ⟨h', -⟩
                · exact h _ h' rfl
                · exact hne h'
            by_cases hkk : k = k0
            · subst hkk
              simp only [Spec.First.cons, Spec.NoMember.cons, hk, hnf, hno, hm]
              simp only [ne_eq, not_true_eq_false, false_and, or_false, true_and, and_true, or_true,
                not_false_eq_true, false_or, and_false, exists_false]
              constructor
              · rintro rfl; exact ⟨_, rfl, hw0⟩
              · rintro ⟨d, rfl, h⟩
                have := (hq w).2 h
                rw [hqq] at this; cases this; rfl
            · have hkk' : ¬ k0 = k := fun h => hkk h.symm
              simp only [Spec.First.cons, Spec.NoMember.cons, hm, hnm hkk]
              simp [hkk, hkk']
          constructor
          · rintro ⟨h1, h2⟩
            refine ⟨?_, fun k w => by rw [h2, key]⟩
            intro k d hf hkr
            rcases Spec.First.cons.1 hf with ⟨rfl, -⟩ | ⟨hne, hf⟩
            · exact ⟨w0, (h2 _ _).2 (.inl ⟨.inr hno, (hm _ _ _).2 (.inr ⟨rfl, rfl⟩)⟩)⟩
            · exact h1 k d hf hkr
          · rintro ⟨h1, h2⟩
            refine ⟨?_, fun k w => by rw [h2, key]⟩
            intro k d hf hkr
            refine h1 k d (Spec.First.cons.2 (.inr ⟨?_, hf⟩)) hkr
            rintro rfl; exact hnf _ hf
      cases hl : lookup out k0 with
      | some v =>
        simp only
        have hv := (lookup_some.1 hl).mem
        refine Iff.trans (b := ∃ w, p v d0 = .ok w ∧
          patchExtraEntries p new r ms (assignEntry out k0 w) = .ok es)
          (by cases p v d0 <;> simp [note]) (step _ (fun w => assignEntry out k0 w) ?_ ?_ ?_)
        · intro w
          constructor
          · exact fun h => .inl ⟨v, hv, h⟩
          · rintro (⟨o, h1, h2⟩ | ⟨h1, -⟩)
            · rw [sorted_key_inj ho hv h1]; exact h2
            · exact absurd rfl (h1 _ hv)
        · exact fun w => assignEntry_sorted ho
        · intro w k x
          rw [assignEntry_mem ho]
          have : ¬ NoMember out k0 := fun h => h _ hv rfl
          simp only [this, not_false_eq_true, and_true, Prod.mk.injEq]
          constructor
          · rintro (⟨h1, h2⟩ | h1)
            · exact .inl ⟨h2, h1⟩
            · exact .inr h1
          · rintro (⟨h1, h2⟩ | h1)
            · exact .inl ⟨h2, h1⟩
            · exact .inr h1
      | none =>
        simp only
        have hv := lookup_none.1 hl
        refine Iff.trans (b := ∃ w, p new d0 = .ok w ∧
          patchExtraEntries p new r ms (emplace out k0 w) = .ok es)
          (by cases p new d0 <;> simp [note]) (step _ (fun w => emplace out k0 w) ?_ ?_ ?_)
        · intro w
          constructor
          · exact fun h => .inr ⟨hv, h⟩
          · rintro (⟨o, h1, h2⟩ | ⟨-, h2⟩)
            · exact absurd rfl (hv _ h1)
            · exact h2
        · exact fun w => emplace_sorted k0 w ho
        · intro w k x
          rw [emplace_mem k0 w _ ho]
          simp only [hv, and_true, Prod.mk.injEq]
          constructor
          · rintro (h1 | h1)
            · exact .inl ⟨fun h => hv _ h1 h, h1⟩
            · exact .inr h1
          · rintro (⟨h1, h2⟩ | h1)
            · exact .inl h2
            · exact .inr h1

theorem patchFields_ok {B : Backend σ} {E : Env} {r : Option (List Str)} {names : List Str}
    (ms : List (Str × Doc σ)) (hn : (ms.map (·.1)).Nodup) : ∀ (fs : Fields) (olds vs : List Value),
    fieldsOk fs = true → hasFields fs olds = true → ReservedFor r names fs →
    (patchFields B E r ms fs olds = .ok vs ↔
      EachField (FieldPatches E (fun t o d v => patch B E t o d = .ok v) ms names) fs olds vs)
  | .nil, olds, vs, _, ho, _ => by
    rw [hasFields_nil ho]
    simp only [patchFields, Except.ok.injEq]
    constructor
    · rintro rfl; exact .nil
    · intro h; cases h; rfl
  | .cons f t fs, olds, vs, hf, ho, hr => by
    simp only [fieldsOk, Bool.and_eq_true] at hf
    obtain ⟨o, os, rfl, hto, hos⟩ := hasFields_cons ho
    have tail := fun ws => patchFields_ok (B := B) (E := E) ms hn fs os ws hf.2 hos hr.tail
    have head : ∀ v, (if f.skipDeser then .ok o
        else if f.extra then patchExtras B E r ms t o
        else
          note (txt "error when patching field " ++ f.name)
            (if f.flatten then patch B E t o (.obj ms)
            else patchPlain E f ms o (patch B E t o)) : Res Value) = .ok v ↔
        FieldPatches E (fun t o d v => patch B E t o d = .ok v) ms names f t o v := by
      intro v
      unfold FieldPatches plain
      cases c1 : f.skipDeser with
      | true =>
        simp only [if_true, Except.ok.injEq, forall_const, Bool.true_eq_false, false_implies,
          and_true, Bool.not_true, Bool.false_and, Bool.false_eq_true]
        exact eq_comm
      | false =>
        simp only [Bool.false_eq_true, if_false, false_implies, true_and, forall_const,
          Bool.not_false, Bool.true_and]
        cases c2 : f.extra with
        | true =>
          simp only [if_true, forall_const, Bool.true_eq_false, false_implies, and_true,
            Bool.not_true, Bool.false_and, Bool.false_eq_true]
          obtain ⟨l, rfl, hl⟩ := hr.extra c2
          obtain ⟨u, rfl⟩ := isMap_iff.1 ((fieldOk_iff.1 hf.1.1).2.2.2 c2)
          obtain ⟨es, rfl, hs, -⟩ := hasTy_map hto
          simp only [patchExtras, map_ok, patchExtraEntries_char hn hs, hl]
          constructor
          · rintro ⟨es', ⟨h1, h2, h3⟩, rfl⟩
            exact ⟨u, es, es', rfl, rfl, rfl, h1, h2, h3⟩
          · rintro ⟨u', es1, es', h, h', rfl, h1, h2, h3⟩
            cases h; cases h'
            exact ⟨es', ⟨h1, h2, h3⟩, rfl⟩
        | false =>
          simp only [Bool.false_eq_true, if_false, false_implies, true_and, forall_const, note_ok,
            Bool.not_false, Bool.true_and]
          cases c3 : f.flatten with
          | true => simp
          | false =>
            simp only [Bool.false_eq_true, if_false, false_implies, true_and, forall_const,
              Bool.not_false]
            exact patchPlain_ok
    simp only [patchFields]
    constructor
    · intro h
      split at h
      · cases h
      rename_i v hv
      simp only [map_ok] at h
      obtain ⟨ws, h, rfl⟩ := h
      exact .cons ((head v).1 hv) ((tail ws).1 h)
    · intro h
      cases h with
      | cons h1 h2 =>
        rw [(head _).2 h1]
        simp only [map_ok]
        exact ⟨_, (tail _).2 h2, rfl⟩

theorem patch_record_obj {B : Backend σ} {E : Env} {n : Str} {fs : Fields} (hf : fieldsOk fs = true)
    {old v : Value} (ho : HasTy (.record n fs) old) {ms : List (Str × Doc σ)} (hn : (ms.map (·.1)).Nodup) :
    patch B E (.record n fs) old (.obj ms) = .ok v ↔ NamesChecked fs ∧ ∃ olds vs,
      old = .record olds ∧ v = .record vs ∧
      EachField (FieldPatches E (fun t o d v => patch B E t o d = .ok v) ms (allNames fs)) fs olds vs := by
  obtain ⟨olds, rfl, hall⟩ := hasTy_record ho
  simp only [patch, note_ok, Value.record.injEq]
  cases hr : reservedNames fs with
  | error e =>
    simp only [reduceCtorEq, false_iff]
    rintro ⟨hn, -⟩
    obtain ⟨r, hr'⟩ := namesChecked_ok hf hn
    rw [hr] at hr'; cases hr'
  | ok r =>
    obtain ⟨h1, h2⟩ := reservedFor hf hr
    simp only [map_ok, patchFields_ok ms hn fs _ _ hf hall h2]
    constructor
    · rintro ⟨vs, h, rfl⟩; exact ⟨h1, olds, vs, rfl, rfl, h⟩
    · rintro ⟨-, olds, vs, rfl, rfl, h⟩; exact ⟨vs, h, rfl⟩

end Verif.Serial
