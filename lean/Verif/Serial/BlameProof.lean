import Verif.Serial.Blame
/-
The text of an error of `deserialize` is the text of what it blames.
-/
namespace Verif.Serial
open Verif.Path Verif.Enums Spec

variable {σ : Type}

theorem add_deser {m : Str} {e : Exc} {w : Str} :
    e.add m = .deser w ↔ ∃ w', e = .deser w' ∧ w = w' ++ [0x0A#8] ++ m := by
  cases e <;> simp [Exc.add, eq_comm]

theorem add_deser' {m : Str} {e : Exc} {w : Str} :
    Exc.deser w = e.add m ↔ ∃ w', e = .deser w' ∧ w = w' ++ [0x0A#8] ++ m := by
  rw [eq_comm]; exact add_deser

theorem note_deser {α : Type} {m : Str} {r : Res α} {w : Str} :
    note m r = .error (.deser w) ↔ ∃ w', r = .error (.deser w') ∧ w = w' ++ [0x0A#8] ++ m := by
  cases r with
  | ok a => simp [note]
  | error e => simp only [note, Except.error.injEq]; exact add_deser

theorem Spec.FirstAt.imp {α : Type} {p q : Nat → α → Prop} {l : List α} {i : Nat} {x : α}
    (h : FirstAt p l i x) (hpq : ∀ j y, l[j]? = some y → p j y → q j y) : FirstAt q l i x :=
  ⟨h.1, fun j y hj hy => hpq j y hy (h.2 j y hj hy)⟩

theorem Spec.FirstAt.mem {α : Type} {p : Nat → α → Prop} {l : List α} {i : Nat} {x : α}
    (h : FirstAt p l i x) : x ∈ l := List.mem_of_getElem? h.1

theorem zip_typed : ∀ {fs : Fields} {os : List Value}, hasFields fs os = true →
    (fieldList fs).length = os.length ∧
      ∀ f t o, ((f, t), o) ∈ (fieldList fs).zip os → HasTy t o ∧ (f, t) ∈ fieldList fs
  | .nil, os, h => by
    rw [hasFields_nil h]; simp [fieldList]
  | .cons f t fs, os, h => by
    obtain ⟨v, ws, rfl, h1, h2⟩ := hasFields_cons h
    obtain ⟨h3, h4⟩ := zip_typed h2
    refine ⟨by simp [fieldList, h3], ?_⟩
    intro f' t' o' hm
    simp only [fieldList, List.zip_cons_cons, List.mem_cons] at hm ⊢
    rcases hm with hm | hm
    · cases hm; exact ⟨h1, .inl rfl⟩
    · exact ⟨(h4 _ _ _ hm).1, .inr (h4 _ _ _ hm).2⟩

theorem zip_typed_tys : ∀ {ts : Tys} {os : List Value}, hasTys ts os = true →
    (tyList ts).length = os.length ∧ ∀ t o, (t, o) ∈ (tyList ts).zip os → HasTy t o ∧ t ∈ tyList ts
  | .nil, os, h => by
    rw [hasTys_nil h]; simp [tyList]
  | .cons t ts, os, h => by
    obtain ⟨v, ws, rfl, h1, h2⟩ := hasTys_cons h
    obtain ⟨h3, h4⟩ := zip_typed_tys h2
    refine ⟨by simp [tyList, h3], ?_⟩
    intro t' o' hm
    simp only [tyList, List.zip_cons_cons, List.mem_cons] at hm ⊢
    rcases hm with hm | hm
    · cases hm; exact ⟨h1, .inl rfl⟩
    · exact ⟨(h4 _ _ hm).1, .inr (h4 _ _ hm).2⟩

theorem fieldsOk_mem : ∀ {fs : Fields}, fieldsOk fs = true → ∀ f t, (f, t) ∈ fieldList fs →
    fieldOk f t = true ∧ tyOk t = true
  | .nil, _, f, t, h => by simp [fieldList] at h
  | .cons f t fs, hf, f', t', h => by
    simp only [fieldsOk, Bool.and_eq_true] at hf
    simp only [fieldList, List.mem_cons] at h
    rcases h with h | h
    · cases h; exact hf.1
    · exact fieldsOk_mem hf.2 _ _ h

theorem tysOk_mem : ∀ {ts : Tys}, tysOk ts = true → ∀ t, t ∈ tyList ts → tyOk t = true
  | .nil, _, t, h => by simp [tyList] at h
  | .cons t ts, hf, t', h => by
    simp only [tysOk, Bool.and_eq_true] at hf
    simp only [tyList, List.mem_cons] at h
    rcases h with h | h
    · cases h; exact hf.1
    · exact tysOk_mem hf.2 _ h

theorem hasExtra_mem : ∀ {fs : Fields} {f : Field} {t : Ty}, (f, t) ∈ fieldList fs →
    f.extra = true → hasExtraOrFlatten fs = true
  | .nil, f, t, h, _ => by simp [fieldList] at h
  | .cons f t fs, f', t', h, he => by
    simp only [fieldList, List.mem_cons] at h
    rcases h with h | h
    · cases h; simp [hasExtraOrFlatten, he]
    · simp [hasExtraOrFlatten, hasExtra_mem h he]

theorem reserved_mem {r : Option (List Str)} {names : List Str} {fs : Fields}
    (h : ReservedFor r names fs) {f : Field} {t : Ty} (hm : (f, t) ∈ fieldList fs) (he : f.extra = true) :
    ∃ l, r = some l ∧ ∀ n, n ∈ l ↔ n ∈ names := by
  rcases h with h | ⟨h1, h2⟩
  · exact h
  · rw [hasExtra_mem hm he] at h2; cases h2

theorem fieldStep_ok {B : Backend σ} {E : Env} {r : Option (List Str)} {names : List Str}
    {ms : List (Str × Doc σ)} {f : Field} {t : Ty} {o v : Value} (hf : fieldOk f t = true)
    (hr : f.extra = true → ∃ l, r = some l ∧ ∀ n, n ∈ l ↔ n ∈ names) :
    fieldStep B E r ms f t o = .ok v ↔
      FieldReads E (fun t o d v => deser B E t o d = .ok v) ms names f t o v := by
  unfold FieldReads plain fieldStep
  cases c1 : f.skipDeser with
  | true =>
    simp only [if_true, Except.ok.injEq, forall_const, Bool.true_eq_false, false_implies,
      and_true, Bool.not_true, Bool.false_and, Bool.false_eq_true]
    exact eq_comm
  | false =>
    simp only [Bool.false_eq_true, if_false, false_implies, true_and, forall_const,
      Bool.not_false, Bool.true_and]
    cases c2 : f.extra with
    | true =>
      simp only [if_true, forall_const, Bool.true_eq_false, false_implies, and_true,
        Bool.not_true, Bool.false_and, Bool.false_eq_true]
      obtain ⟨l, rfl, hl⟩ := hr c2
      obtain ⟨u, rfl⟩ := isMap_iff.1 ((fieldOk_iff.1 hf).2.2.2 c2)
      simp only [deserExtras, map_ok, deserExtraEntries_ok, hl, Captures]
      constructor
      · rintro ⟨es, ⟨h1, h2, h3⟩, rfl⟩
        exact ⟨u, es, rfl, rfl, h2, h1, h3⟩
      · rintro ⟨u', es, h, rfl, h2, h1, h3⟩
        cases h
        exact ⟨es, ⟨h1, h2, h3⟩, rfl⟩
    | false =>
      simp only [Bool.false_eq_true, if_false, false_implies, true_and, forall_const, note_ok,
        Bool.not_false, Bool.true_and]
      cases c3 : f.flatten with
      | true => simp
      | false =>
        simp only [Bool.false_eq_true, if_false, false_implies, true_and, forall_const,
          Bool.not_false]
        exact readPlain_ok

theorem fieldStep_err {B : Backend σ} {E : Env} {r : Option (List Str)} {names : List Str}
    {ms : List (Str × Doc σ)} {f : Field} {t : Ty} {o : Value} {w : Str} (hf : fieldOk f t = true)
    (hr : f.extra = true → ∃ l, r = some l ∧ ∀ n, n ∈ l ↔ n ∈ names) :
    fieldStep B E r ms f t o = .error (.deser w) ↔
      (f.skipDeser = false ∧ f.extra = true ∧ ∃ u i k d w', t = .map u ∧
        FirstAt (fun _ m => m.1 ∉ names → ∃ v, deser B E u (fresh u) m.2 = .ok v) ms i (k, d) ∧ k ∉ names ∧
        deser B E u (fresh u) d = .error (.deser w') ∧ w = w' ++ [0x0A#8] ++ extraLine k) ∨
      (f.skipDeser = false ∧ f.extra = false ∧ f.flatten = true ∧ ∃ w',
        deser B E t o (.obj ms) = .error (.deser w') ∧ w = w' ++ [0x0A#8] ++ memberLine f.name) ∨
      (plain f = true ∧ ∃ d w', Consulted ms f d ∧
        (deser B E t o d = .error (.deser w') ∨ ∃ v, deser B E t o d = .ok v ∧ Invalid E f v w') ∧
        w = w' ++ [0x0A#8] ++ memberLine f.name) := by
  unfold plain fieldStep
  cases c1 : f.skipDeser with
  | true => simp
  | false =>
    simp only [Bool.false_eq_true, if_false, true_and, Bool.not_false, Bool.true_and]
    cases c2 : f.extra with
    | true =>
      obtain ⟨l, rfl, hl⟩ := hr c2
      obtain ⟨u, rfl⟩ := isMap_iff.1 ((fieldOk_iff.1 hf).2.2.2 c2)
      simp only [if_true, Bool.true_eq_false, true_and, false_and, Bool.not_true, Bool.false_and,
        Bool.false_eq_true, or_false, deserExtras, map_error, deserExtraEntries_err, hl, add_deser']
      constructor
      · rintro ⟨i, k, d, e', h1, h2, h3, w', rfl, h4⟩
        exact ⟨u, i, k, d, w', rfl, h1, h2, h3, h4⟩
      · rintro ⟨u', i, k, d, w', h, h1, h2, h3, h4⟩
        cases h
        exact ⟨i, k, d, _, h1, h2, h3, w', rfl, h4⟩
    | false =>
      have hmsg : fieldMsg f = memberLine f.name := rfl
      simp only [Bool.false_eq_true, if_false, true_and, Bool.not_false, Bool.true_and, false_and, false_or,
        note_deser, hmsg]
      cases c3 : f.flatten with
      | true => simp
      | false =>
        simp only [Bool.false_eq_true, if_false, true_and, Bool.not_false, false_and, false_or, readPlain_err]
        constructor
        · rintro ⟨w', ⟨d, h1, h2⟩, h3⟩; exact ⟨d, w', h1, h2, h3⟩
        · rintro ⟨d, w', h1, h2, h3⟩; exact ⟨w', ⟨d, h1, h2⟩, h3⟩

theorem slotStep_err {B : Backend σ} {E : Env} {d : Doc σ} {f : Field} {t : Ty} {o : Value} {w : Str} :
    slotStep B E d f t o = .error (.deser w) ↔
      (f.skipDeser = false ∧ f.extra = true ∧
        w = txt "extra_fields fields are not supported in sequence deserialization") ∨
      (f.skipDeser = false ∧ f.extra = false ∧ f.flatten = true ∧
        w = txt "flatten fields are not supported in sequence deserialization") ∨
      (plain f = true ∧
        (deser B E t o d = .error (.deser w) ∨ ∃ v, deser B E t o d = .ok v ∧ Invalid E f v w)) := by
  unfold slotStep plain
  cases f.skipDeser with
  | true => simp
  | false =>
    cases f.extra with
    | true => simp only [if_true, Bool.false_eq_true, if_false, Bool.not_false, Bool.not_true, Bool.true_and, Bool.false_and, Bool.true_eq_false, true_and, false_and, or_false, false_or, Bool.and_false, Except.error.injEq, Exc.deser.injEq]; exact eq_comm
    | false =>
      cases f.flatten with
      | true => simp only [if_true, Bool.false_eq_true, if_false, Bool.not_false, Bool.not_true, Bool.true_and, Bool.false_and, Bool.true_eq_false, true_and, false_and, or_false, false_or, Bool.and_false, Except.error.injEq, Exc.deser.injEq]; exact eq_comm
      | false => simp [thenValidate_err]

theorem elements_err {B : Backend σ} {d : Doc σ} {e : Exc} :
    elements B d = .error e ↔ (∀ l, d ≠ .arr l) ∧ e = .deser (B.notSeq d) := by
  cases d <;> simp [elements] <;> exact eq_comm

theorem members_err {B : Backend σ} {d : Doc σ} {e : Exc} :
    members B d = .error e ↔ (∀ l, d ≠ .obj l) ∧ e = .deser (B.notMap d) := by
  cases d <;> simp [members] <;> exact eq_comm

theorem fromText_none {es : List Entry} {s : Str} : fromText es s = none ↔ ∀ x ∈ es, txt x.name ≠ s := by
  rw [fromText_eq]
  simp

theorem deserEnum_err {B : Backend σ} {e : EnumTy} {d : Doc σ} {w : Str} :
    deserEnum B e d = .error (.deser w) ↔ B.deserLeaf .str d = .error (.deser w) ∨
      ∃ s, B.deserLeaf .str d = .ok (.str s) ∧ (∀ x ∈ e.entries, txt x.name ≠ s) ∧
        w = txt "invalid enum value: " ++ s := by
  unfold deserEnum
  cases h : B.deserLeaf .str d with
  | error x => simp
  | ok a =>
    cases a with
    | str s =>
      simp only [reduceCtorEq, false_or, Except.ok.injEq, Atom.str.injEq, exists_eq_left']
      rw [← fromText_none]
      cases fromText e.entries s <;> simp [eq_comm]
    | _ => simp

/-! ### The record itself -/

theorem record_obj_err {B : Backend σ} {E : Env} {n : Str} {fs : Fields} {os : List Value}
    {ms : List (Str × Doc σ)} {w : Str} (hf : fieldsOk fs = true) (ho : hasFields fs os = true) :
    deser B E (.record n fs) (.record os) (.obj ms) = .error (.deser w) ↔
    NamesChecked fs ∧ ∃ j f t o w', FirstAt (fun _ (p : (Field × Ty) × Value) =>
        ∃ v, FieldReads E (fun t o d v => deser B E t o d = .ok v) ms (allNames fs) p.1.1 p.1.2 p.2 v)
        ((fieldList fs).zip os) j ((f, t), o) ∧
      (∀ r, ReservedFor r (allNames fs) fs → fieldStep B E r ms f t o = .error (.deser w')) ∧
      w = w' ++ [0x0A#8] ++ typeLine n := by
  obtain ⟨hlen, hz⟩ := zip_typed ho
  have conv : ∀ r, ReservedFor r (allNames fs) fs → ∀ j f t o,
      FirstAt (fun _ (p : (Field × Ty) × Value) =>
        ∃ v, FieldReads E (fun t o d v => deser B E t o d = .ok v) ms (allNames fs) p.1.1 p.1.2 p.2 v)
        ((fieldList fs).zip os) j ((f, t), o) ↔
      FirstAt (fun _ (p : (Field × Ty) × Value) => ∃ v, fieldStep B E r ms p.1.1 p.1.2 p.2 = .ok v)
        ((fieldList fs).zip os) j ((f, t), o) := by
    intro r hr j f t o
    constructor
    · intro h
      refine h.imp ?_
      rintro j ⟨⟨f', t'⟩, o'⟩ hm ⟨v, hv⟩
      obtain ⟨-, hm'⟩ := hz _ _ _ (List.mem_of_getElem? hm)
      exact ⟨v, (fieldStep_ok (fieldsOk_mem hf _ _ hm').1 (fun he => reserved_mem hr hm' he)).2 hv⟩
    · intro h
      refine h.imp ?_
      rintro j ⟨⟨f', t'⟩, o'⟩ hm ⟨v, hv⟩
      obtain ⟨-, hm'⟩ := hz _ _ _ (List.mem_of_getElem? hm)
      exact ⟨v, (fieldStep_ok (fieldsOk_mem hf _ _ hm').1 (fun he => reserved_mem hr hm' he)).1 hv⟩
  simp only [deser, note_deser]
  cases hr : reservedNames fs with
  | error e =>
    simp only
    constructor
    · rintro ⟨w', h1, h2⟩
      cases h1
      obtain ⟨_, h⟩ := reservedNames_err hf hr
      cases h
    · rintro ⟨hn, -⟩
      obtain ⟨r, hr'⟩ := namesChecked_ok hf hn
      rw [hr] at hr'; cases hr'
  | ok r =>
    obtain ⟨h1, h2⟩ := reservedFor hf hr
    simp only [map_error, deserFields_err hlen]
    constructor
    · rintro ⟨w', ⟨j, f, t, o, h3, h4⟩, h5⟩
      refine ⟨h1, j, f, t, o, w', (conv r h2 _ _ _ _).2 h3, ?_, h5⟩
      intro r' hr'
      obtain ⟨-, hm'⟩ := hz _ _ _ h3.mem
      have hf' := (fieldsOk_mem hf _ _ hm').1
      exact (fieldStep_err hf' (fun he => reserved_mem hr' hm' he)).2
        ((fieldStep_err hf' (fun he => reserved_mem h2 hm' he)).1 h4)
    · rintro ⟨-, j, f, t, o, w', h3, h4, h5⟩
      exact ⟨w', ⟨j, f, t, o, (conv r h2 _ _ _ _).1 h3, h4 r h2⟩, h5⟩

theorem record_arr_err {B : Backend σ} {E : Env} {n : Str} {fs : Fields} {os : List Value}
    {l : List (Doc σ)} {w : Str} (ho : hasFields fs os = true) :
    deser B E (.record n fs) (.record os) (.arr l) = .error (.deser w) ↔
    ((fieldList fs).countP (fun p => !p.1.skipDeser) < l.length ∧
      w = txt "sequence size is greater than declared struct's field count" ++ [0x0A#8] ++ typeLine n) ∨
    (l.length ≤ (fieldList fs).countP (fun p => !p.1.skipDeser) ∧ ∃ j f t o w',
      FirstAt (fun j (p : (Field × Ty) × Value) =>
        ∃ v, SlotReads E (fun t o d v => deser B E t o d = .ok v) (element l (slot fs j)) p.1.1 p.1.2 p.2 v)
        ((fieldList fs).zip os) j ((f, t), o) ∧
      slotStep B E (element l (slot fs j)) f t o = .error (.deser w') ∧
      w = w' ++ [0x0A#8] ++ elementLine (slot fs j) ++ [0x0A#8] ++ typeLine n) := by
  obtain ⟨hlen, hz⟩ := zip_typed ho
  simp only [deser, note_deser, seqFieldCount_eq]
  by_cases hc : (fieldList fs).countP (fun p => !p.1.skipDeser) < l.length
  · rw [if_pos hc]
    simp only [hc, true_and, Nat.not_le.2 hc, false_and, or_false, Except.error.injEq, Exc.deser.injEq]
    constructor
    · rintro ⟨w', rfl, h⟩; exact h
    · intro h; exact ⟨_, rfl, h⟩
  · rw [if_neg hc]
    simp only [hc, false_and, false_or, Nat.not_lt.1 hc, true_and, map_error, deserSeqFields_err hlen,
      Nat.zero_add, slotStep_ok, add_deser']
    constructor
    · rintro ⟨w', ⟨j, f, t, o, e, h1, h2, w'', rfl, rfl⟩, rfl⟩
      exact ⟨j, f, t, o, w'', h1, h2, rfl⟩
    · rintro ⟨j, f, t, o, w'', h1, h2, rfl⟩
      exact ⟨_, ⟨j, f, t, o, _, h1, h2, w'', rfl, rfl⟩, rfl⟩

/-! ### An error blames something -/

/-- Errors of reading `t` blame something. -/
def Explains (B : Backend σ) (E : Env) (t : Ty) : Prop :=
  ∀ (o : Value) (d : Doc σ) (w : Str), HasTy t o → deser B E t o d = .error (.deser w) →
    ∃ base ls, Blames B E t o d base ls ∧ w = text base ls

theorem explains_elem {B : Backend σ} {E : Env} {u : Ty} (hu : tyOk u = true)
    (h : Explains B E (.map u)) : ∀ (d : Doc σ) (w : Str), deser B E u (fresh u) d = .error (.deser w) →
      ∃ base ls, Blames B E u (fresh u) d base ls ∧ w = text base ls := by
  intro d w hw
  have h1 : deser B E (.map u) (.map []) (.obj [([], d)]) =
      .error (.deser (w ++ [0x0A#8] ++ memberLine [])) := by
    simp [deser, members, deserEntries, hw, note, Exc.add, Except.map, memberLine]
  obtain ⟨base, ls, h2, h3⟩ := h (.map []) _ _ (by simp [HasTy, hasTy, sorted_nil]) h1
  cases h2 with
  | mapShape h => exact absurd rfl (h _)
  | @mapItem _ _ _ i k d' w' ls' hat hb =>
    rcases firstAt_cons.1 hat with ⟨-, h4⟩ | ⟨k, -, -, h4⟩
    · cases h4
      refine ⟨base, ls', hb, ?_⟩
      rw [text_snoc] at h3
      simpa using h3
    · exact absurd h4 firstAt_nil

theorem explains_record {B : Backend σ} {E : Env} {n : Str} {fs : Fields} (hf : fieldsOk fs = true)
    (h : ∀ f t, (f, t) ∈ fieldList fs → Explains B E t) : Explains B E (.record n fs) := by
  intro o d w ho hw
  obtain ⟨os, rfl, ho'⟩ := hasTy_record ho
  obtain ⟨hlen, hz⟩ := zip_typed ho'
  cases d with
  | obj ms =>
    rw [record_obj_err hf ho'] at hw
    obtain ⟨hn, j, f, t, o, w', hat, hst, rfl⟩ := hw
    obtain ⟨r, hr⟩ := namesChecked_ok hf hn
    have h2 := (reservedFor hf hr).2
    obtain ⟨ht, hm⟩ := hz _ _ _ hat.mem
    have hf' := fieldsOk_mem hf _ _ hm
    rcases (fieldStep_err hf'.1 (fun he => reserved_mem h2 hm he)).1 (hst r h2) with
      ⟨c1, c2, u, i, k, d, w'', rfl, h3, h4, h5, rfl⟩ | ⟨c1, c2, c3, w'', h3, rfl⟩ |
      ⟨c1, d, w'', h3, h4 | ⟨v, h4, h5⟩, rfl⟩
    · obtain ⟨base, ls, h6, rfl⟩ := explains_elem (by simpa [tyOk] using hf'.2) (h _ _ hm) d w'' h5
      exact ⟨base, _, .extra hn hat c1 c2 h4 h3 h6, by rw [text_snoc2]⟩
    · obtain ⟨base, ls, h6, rfl⟩ := h _ _ hm o _ _ ht h3
      exact ⟨base, _, .flatten hn hat c1 c2 c3 h6, by rw [text_snoc2]⟩
    · obtain ⟨base, ls, h6, rfl⟩ := h _ _ hm o _ _ ht h4
      exact ⟨base, _, .field hn hat c1 h3 h6, by rw [text_snoc2]⟩
    · exact ⟨w'', _, .fieldInvalid hn hat c1 h3 h4 h5, by simp [text]⟩
  | arr l =>
    rw [record_arr_err ho'] at hw
    rcases hw with ⟨hc, rfl⟩ | ⟨hc, j, f, t, o, w', hat, hst, rfl⟩
    · exact ⟨_, _, .recordLong hc, by simp [text]⟩
    obtain ⟨ht, hm⟩ := hz _ _ _ hat.mem
    rcases slotStep_err.1 hst with ⟨c1, c2, rfl⟩ | ⟨c1, c2, c3, rfl⟩ | ⟨c1, h4 | ⟨v, h4, h5⟩⟩
    · exact ⟨_, _, .slotExtra hc hat c1 c2, by simp [text]⟩
    · exact ⟨_, _, .slotFlatten hc hat c1 c2 c3, by simp [text]⟩
    · obtain ⟨base, ls, h6, rfl⟩ := h _ _ hm o _ _ ht h4
      exact ⟨base, _, .slotRead hc hat c1 h6, by rw [text_snoc2]⟩
    · exact ⟨w', _, .slotInvalid hc hat c1 h4 h5, by simp [text]⟩
  | null =>
    simp only [deser, note, Exc.add, Except.error.injEq, Exc.deser.injEq] at hw
    exact ⟨_, _, .recordShape (by simp) (by simp), by rw [← hw]; simp [text, typeLine]⟩
  | scalar s =>
    simp only [deser, note, Exc.add, Except.error.injEq, Exc.deser.injEq] at hw
    exact ⟨_, _, .recordShape (by simp) (by simp), by rw [← hw]; simp [text, typeLine]⟩

mutual
theorem explains {B : Backend σ} {E : Env} : ∀ (t : Ty), tyOk t = true → Explains B E t
  | .leaf l, _ => by
    intro o d w _ h
    simp only [deser, map_error] at h
    exact ⟨w, [], .leaf h, rfl⟩
  | .enum e, _ => by
    intro o d w _ h
    simp only [deser, map_error, deserEnum_err] at h
    rcases h with h | ⟨s, h1, h2, rfl⟩
    · exact ⟨w, [], .enumText h, rfl⟩
    · exact ⟨_, [], .enumName h1 h2, rfl⟩
  | .rawEnum t, _ => by
    intro o d w _ h
    simp only [deser, map_error] at h
    exact ⟨w, [], .rawEnum h, rfl⟩
  | .enumSet e, _ => by
    intro o d w _ h
    simp only [deser] at h
    cases he : elements B d with
    | error x =>
      rw [he] at h
      cases h
      obtain ⟨h1, h2⟩ := elements_err.1 he
      cases h2
      exact ⟨_, [], .setShape h1, rfl⟩
    | ok l =>
      rw [he] at h
      cases elements_ok.1 he
      simp only [map_error, deserSet_err] at h
      obtain ⟨i, d, h1, h2⟩ := h
      have h1' : FirstAt (fun _ d => ∃ v, deser B E (.enum e) (fresh (.enum e)) d = .ok v) l i d :=
        h1.imp (by
          rintro _ y - ⟨n, hn⟩
          exact ⟨.atom (.int n), by simp [deser, hn, Except.map]⟩)
      rcases deserEnum_err.1 h2 with h | ⟨s, h3, h4, rfl⟩
      · exact ⟨w, [], .setItem h1' (.enumText h), rfl⟩
      · exact ⟨_, [], .setItem h1' (.enumName h3 h4), rfl⟩
  | .opt t, ht => by
    have ih := explains (B := B) (E := E) t (by simpa [tyOk] using ht)
    intro o d w _ h
    simp only [deser] at h
    split at h
    · cases h
    rename_i hn
    simp only [map_error] at h
    obtain ⟨base, ls, h1, h2⟩ := ih _ _ _ (fresh_typed t (by simpa [tyOk] using ht)) h
    exact ⟨base, ls, .opt (fun h => hn (isNull_iff.2 h)) h1, h2⟩
  | .vec t, ht => by
    have ih := explains (B := B) (E := E) t (by simpa [tyOk] using ht)
    intro o d w _ h
    simp only [deser] at h
    cases he : elements B d with
    | error x =>
      rw [he] at h
      cases h
      obtain ⟨h1, h2⟩ := elements_err.1 he
      cases h2
      exact ⟨_, [], .vecShape h1, rfl⟩
    | ok l =>
      rw [he] at h
      cases elements_ok.1 he
      simp only [map_error, deserItems_err, add_deser', Nat.zero_add] at h
      obtain ⟨i, d, e, h1, h2, w', rfl, rfl⟩ := h
      obtain ⟨base, ls, h3, rfl⟩ := ih _ _ _ (fresh_typed t (by simpa [tyOk] using ht)) h2
      exact ⟨base, _, .vecItem h1 h3, by rw [text_snoc]⟩
  | .arr n t, ht => by
    have ih := explains (B := B) (E := E) t (by simpa [tyOk] using ht)
    intro o d w ho h
    obtain ⟨os, rfl, -, ho'⟩ := hasTy_arr ho
    simp only [deser] at h
    cases he : elements B d with
    | error x =>
      rw [he] at h
      cases h
      obtain ⟨h1, h2⟩ := elements_err.1 he
      cases h2
      exact ⟨_, [], .arrShape h1, rfl⟩
    | ok l =>
      rw [he] at h
      cases elements_ok.1 he
      simp only at h
      split at h
      · rename_i hl
        cases h
        exact ⟨_, [], .arrLong hl, rfl⟩
      rename_i hl
      simp only [map_error, deserFixed_err, add_deser', Nat.zero_add] at h
      obtain ⟨i, o, e, h1, h2, w', rfl, rfl⟩ := h
      obtain ⟨base, ls, h3, rfl⟩ := ih _ _ _ (ho' _ h1.mem) h2
      exact ⟨base, _, .arrItem (by omega) h1 h3, by rw [text_snoc]⟩
  | .map t, ht => by
    have ih := explains (B := B) (E := E) t (by simpa [tyOk] using ht)
    intro o d w _ h
    simp only [deser] at h
    cases he : members B d with
    | error x =>
      rw [he] at h
      cases h
      obtain ⟨h1, h2⟩ := members_err.1 he
      cases h2
      exact ⟨_, [], .mapShape h1, rfl⟩
    | ok l =>
      rw [he] at h
      cases members_ok.1 he
      simp only [map_error, deserEntries_err, add_deser'] at h
      obtain ⟨i, k, d, e, h1, h2, w', rfl, rfl⟩ := h
      obtain ⟨base, ls, h3, rfl⟩ := ih _ _ _ (fresh_typed t (by simpa [tyOk] using ht)) h2
      exact ⟨base, _, .mapItem h1 h3, by rw [text_snoc]⟩
  | .tuple b ts, ht => by
    have ih := explains_tys (B := B) (E := E) ts (by simpa [tyOk] using ht)
    intro o d w ho h
    obtain ⟨os, rfl, ho'⟩ := hasTy_tuple ho
    obtain ⟨hlen, hz⟩ := zip_typed_tys ho'
    simp only [deser] at h
    cases he : elements B d with
    | error x =>
      rw [he] at h
      cases h
      obtain ⟨h1, h2⟩ := elements_err.1 he
      cases h2
      exact ⟨_, [], .tupleShape h1, rfl⟩
    | ok l =>
      rw [he] at h
      cases elements_ok.1 he
      simp only [tysLength] at h
      split at h
      · rename_i hl
        cases h
        exact ⟨_, [], .tupleLong hl, rfl⟩
      rename_i hl
      simp only [map_error, deserTuple_err hlen, Nat.zero_add] at h
      obtain ⟨i, t, o, h1, h2⟩ := h
      obtain ⟨h4, h5⟩ := hz _ _ h1.mem
      obtain ⟨base, ls, h3, rfl⟩ := ih _ h5 _ _ _ h4 h2
      exact ⟨base, _, .tupleItem (by omega) h1 h3, rfl⟩
  | .record n fs, ht => by
    simp only [tyOk, Bool.and_eq_true] at ht
    exact explains_record ht.1.1 (explains_fields fs ht.1.1)
theorem explains_tys {B : Backend σ} {E : Env} : ∀ (ts : Tys), tysOk ts = true →
    ∀ t, t ∈ tyList ts → Explains B E t
  | .nil, _, t, h => by simp [tyList] at h
  | .cons t ts, hts, t', h => by
    simp only [tysOk, Bool.and_eq_true] at hts
    have h1 := explains (B := B) (E := E) t hts.1
    have h2 := explains_tys (B := B) (E := E) ts hts.2
    simp only [tyList, List.mem_cons] at h
    rcases h with rfl | h
    · exact h1
    · exact h2 _ h
theorem explains_fields {B : Backend σ} {E : Env} : ∀ (fs : Fields), fieldsOk fs = true →
    ∀ f t, (f, t) ∈ fieldList fs → Explains B E t
  | .nil, _, f, t, h => by simp [fieldList] at h
  | .cons f t fs, hfs, f', t', h => by
    simp only [fieldsOk, Bool.and_eq_true] at hfs
    have h1 := explains (B := B) (E := E) t hfs.1.2
    have h2 := explains_fields (B := B) (E := E) fs hfs.2
    simp only [fieldList, List.mem_cons] at h
    rcases h with h | h
    · cases h; exact h1
    · exact h2 _ _ h
end

/-! ### What is blamed is thrown -/

theorem blames_throws {B : Backend σ} {E : Env} {t : Ty} {o : Value} {d : Doc σ} {w : Str} {ls : List Str}
    (h : Blames B E t o d w ls) : tyOk t = true → HasTy t o →
      deser B E t o d = .error (.deser (text w ls)) := by
  induction h with
  | leaf h => intro _ _; simp [deser, h, Except.map, text]
  | rawEnum h => intro _ _; simp [deser, h, Except.map, text]
  | enumText h =>
    intro _ _
    simp only [deser, map_error]
    exact deserEnum_err.2 (.inl h)
  | enumName h1 h2 =>
    intro _ _
    simp only [deser, map_error]
    exact deserEnum_err.2 (.inr ⟨_, h1, h2, rfl⟩)
  | @setShape e o d h =>
    intro _ _
    simp only [deser, elements_err.2 ⟨h, rfl⟩]
    rfl
  | setItem h1 h2 ih =>
    intro ht _
    simp only [deser, elements, map_error]
    rw [deserSet_err]
    have := ih (by simpa [tyOk] using ht) (fresh_typed _ (by simpa [tyOk] using ht))
    simp only [deser, map_error] at this
    exact ⟨_, _, h1.imp (by
      rintro _ y - ⟨v, hv⟩
      simp only [deser, map_ok] at hv
      obtain ⟨n, hn, -⟩ := hv
      exact ⟨n, hn⟩), this⟩
  | opt hn h ih =>
    intro ht _
    simp only [tyOk] at ht
    simp only [deser]
    rw [if_neg (fun h => hn (isNull_iff.1 h)), map_error]
    exact ih ht (fresh_typed _ ht)
  | vecShape h =>
    intro _ _
    simp only [deser, elements_err.2 ⟨h, rfl⟩]
    rfl
  | vecItem hat h ih =>
    intro ht _
    simp only [tyOk] at ht
    simp only [deser, elements, map_error, deserItems_err, add_deser', Nat.zero_add]
    exact ⟨_, _, _, hat, ih ht (fresh_typed _ ht), _, rfl, text_snoc⟩
  | arrShape h =>
    intro _ _
    simp only [deser, elements_err.2 ⟨h, rfl⟩]
    rfl
  | arrLong h =>
    intro _ _
    simp only [deser, elements, if_pos h]
    rfl
  | arrItem hl hat h ih =>
    intro ht ho
    simp only [tyOk] at ht
    obtain ⟨os', heq, -, ho'⟩ := hasTy_arr ho
    cases heq
    simp only [deser, elements]
    rw [if_neg (by omega), map_error, deserFixed_err]
    simp only [Nat.zero_add, add_deser']
    exact ⟨_, _, _, hat, ih ht (ho' _ hat.mem), _, rfl, text_snoc⟩
  | mapShape h =>
    intro _ _
    simp only [deser, members_err.2 ⟨h, rfl⟩]
    rfl
  | mapItem hat h ih =>
    intro ht _
    simp only [tyOk] at ht
    simp only [deser, members, map_error, deserEntries_err, add_deser']
    exact ⟨_, _, _, _, hat, ih ht (fresh_typed _ ht), _, rfl, text_snoc⟩
  | tupleShape h =>
    intro _ _
    simp only [deser, elements_err.2 ⟨h, rfl⟩]
    rfl
  | tupleLong h =>
    intro _ _
    simp only [deser, elements, tysLength, if_pos h]
    rfl
  | tupleItem hl hat h ih =>
    intro ht ho
    obtain ⟨os', heq, ho'⟩ := hasTy_tuple ho
    cases heq
    obtain ⟨hlen, hz⟩ := zip_typed_tys ho'
    obtain ⟨h4, h5⟩ := hz _ _ hat.mem
    simp only [deser, elements, tysLength]
    rw [if_neg (by omega), map_error, deserTuple_err hlen]
    simp only [Nat.zero_add]
    exact ⟨_, _, _, hat, ih (tysOk_mem (by simpa [tyOk] using ht) _ h5) h4⟩
  | @recordShape n fs o d h1 h2 =>
    intro _ ho
    obtain ⟨os', rfl, ho'⟩ := hasTy_record ho
    cases d with
    | obj ms => exact absurd rfl (h1 ms)
    | arr l => exact absurd rfl (h2 l)
    | _ => simp [deser, note, Exc.add, text, typeLine]
  | recordLong hc =>
    intro _ ho
    obtain ⟨os', rfl, ho'⟩ := hasTy_record ho
    exact (record_arr_err ho').2 (.inl ⟨hc, by simp [text]⟩)
  | slotExtra hc hat c1 c2 =>
    intro _ ho
    obtain ⟨os', heq, ho'⟩ := hasTy_record ho
    cases heq
    exact (record_arr_err ho').2 (.inr ⟨hc, _, _, _, _, _, hat, slotStep_err.2 (.inl ⟨c1, c2, rfl⟩),
      by simp [text]⟩)
  | slotFlatten hc hat c1 c2 c3 =>
    intro _ ho
    obtain ⟨os', heq, ho'⟩ := hasTy_record ho
    cases heq
    exact (record_arr_err ho').2 (.inr ⟨hc, _, _, _, _, _, hat,
      slotStep_err.2 (.inr (.inl ⟨c1, c2, c3, rfl⟩)), by simp [text]⟩)
  | slotRead hc hat c1 h ih =>
    intro ht ho
    obtain ⟨os', heq, ho'⟩ := hasTy_record ho
    cases heq
    simp only [tyOk, Bool.and_eq_true] at ht
    obtain ⟨h4, h5⟩ := (zip_typed ho').2 _ _ _ hat.mem
    exact (record_arr_err ho').2 (.inr ⟨hc, _, _, _, _, _, hat,
      slotStep_err.2 (.inr (.inr ⟨c1, .inl (ih (fieldsOk_mem ht.1.1 _ _ h5).2 h4)⟩)), text_snoc2⟩)
  | slotInvalid hc hat c1 hv hi =>
    intro ht ho
    obtain ⟨os', heq, ho'⟩ := hasTy_record ho
    cases heq
    exact (record_arr_err ho').2 (.inr ⟨hc, _, _, _, _, _, hat,
      slotStep_err.2 (.inr (.inr ⟨c1, .inr ⟨_, hv, hi⟩⟩)), by simp [text]⟩)
  | extra hn hat c1 c2 hk hat' h ih =>
    intro ht ho
    obtain ⟨os', heq, ho'⟩ := hasTy_record ho
    cases heq
    simp only [tyOk, Bool.and_eq_true] at ht
    obtain ⟨h4, h5⟩ := (zip_typed ho').2 _ _ _ hat.mem
    obtain ⟨h6, h7⟩ := fieldsOk_mem ht.1.1 _ _ h5
    simp only [tyOk] at h7
    exact (record_obj_err ht.1.1 ho').2 ⟨hn, _, _, _, _, _, hat, fun r hr =>
      (fieldStep_err h6 (fun he => reserved_mem hr h5 he)).2
        (.inl ⟨c1, c2, _, _, _, _, _, rfl, hat', hk, ih h7 (fresh_typed _ h7), rfl⟩), text_snoc2⟩
  | flatten hn hat c1 c2 c3 h ih =>
    intro ht ho
    obtain ⟨os', heq, ho'⟩ := hasTy_record ho
    cases heq
    simp only [tyOk, Bool.and_eq_true] at ht
    obtain ⟨h4, h5⟩ := (zip_typed ho').2 _ _ _ hat.mem
    obtain ⟨h6, h7⟩ := fieldsOk_mem ht.1.1 _ _ h5
    exact (record_obj_err ht.1.1 ho').2 ⟨hn, _, _, _, _, _, hat, fun r hr =>
      (fieldStep_err h6 (fun he => reserved_mem hr h5 he)).2
        (.inr (.inl ⟨c1, c2, c3, _, ih h7 h4, rfl⟩)), text_snoc2⟩
  | field hn hat c1 hc h ih =>
    intro ht ho
    obtain ⟨os', heq, ho'⟩ := hasTy_record ho
    cases heq
    simp only [tyOk, Bool.and_eq_true] at ht
    obtain ⟨h4, h5⟩ := (zip_typed ho').2 _ _ _ hat.mem
    obtain ⟨h6, h7⟩ := fieldsOk_mem ht.1.1 _ _ h5
    exact (record_obj_err ht.1.1 ho').2 ⟨hn, _, _, _, _, _, hat, fun r hr =>
      (fieldStep_err h6 (fun he => reserved_mem hr h5 he)).2
        (.inr (.inr ⟨c1, _, _, hc, .inl (ih h7 h4), rfl⟩)), text_snoc2⟩
  | fieldInvalid hn hat c1 hc hv hi =>
    intro ht ho
    obtain ⟨os', heq, ho'⟩ := hasTy_record ho
    cases heq
    simp only [tyOk, Bool.and_eq_true] at ht
    obtain ⟨h4, h5⟩ := (zip_typed ho').2 _ _ _ hat.mem
    obtain ⟨h6, h7⟩ := fieldsOk_mem ht.1.1 _ _ h5
    exact (record_obj_err ht.1.1 ho').2 ⟨hn, _, _, _, _, _, hat, fun r hr =>
      (fieldStep_err h6 (fun he => reserved_mem hr h5 he)).2
        (.inr (.inr ⟨c1, _, _, hc, .inr ⟨_, hv, hi⟩, rfl⟩)), by simp [text]⟩

end Verif.Serial
