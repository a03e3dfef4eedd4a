import Verif.Serial.SetLemmas
/-
Lemmas: reading back what was written.
-/
namespace Verif.Serial
open Verif.Path Verif.Enums Spec

variable {σ : Type}

theorem omitted_eq {s : Bool} {f : Field} {v : Value} :
    omitted s f v = (f.skipSer || skipField f s v) := by
  unfold omitted skipField skipNullField skipEmptyField
  cases f.skipSer <;> cases f.emitNull <;> cases f.skipIfNull <;> cases f.skipIfEmpty <;> cases s <;> simp

/-- What a field adds. -/
theorem addFields_cons {B : Backend σ} (hB : Lawful B) {s : Bool} {r : Option (List Str)} {f : Field} {t : Ty}
    {fs : Fields} {v : Value} {vs : List Value} {out : List (Str × Doc σ)} :
    addFields B s r (.cons f t fs) (v :: vs) [] = .ok out ↔ ∃ o1 o2, out = o1 ++ o2 ∧
      addFields B s r fs vs [] = .ok o2 ∧
      ((omitted s f v = true ∧ o1 = []) ∨
       (omitted s f v = false ∧ f.extra = true ∧ addExtras B s r t v [] = .ok o1) ∨
       (omitted s f v = false ∧ f.extra = false ∧ f.flatten = true ∧ addFlat B s r t v [] = .ok o1) ∨
       (omitted s f v = false ∧ f.extra = false ∧ f.flatten = false ∧
         ∃ d, ser B s t v = .ok d ∧ o1 = [(f.key, d)])) := by
  simp only [addFields]
  rw [omitted_eq]
  by_cases c : (f.skipSer || skipField f s v) = true
  · have e : (if f.skipSer then .ok []
        else if skipField f s v then .ok []
        else if f.extra then addExtras B s r t v []
        else if f.flatten then addFlat B s r t v []
        else (ser B s t v).map fun d => B.addField [] f.key d : Res (List (Str × Doc σ))) = .ok [] := by
      rcases Bool.or_eq_true_iff.1 c with c | c
      · rw [if_pos c]
      · rw [if_pos c]; split <;> rfl
    rw [e]
    simp only [c, Bool.true_eq_false, false_and, or_false, true_and]
    constructor
    · intro h; exact ⟨[], out, rfl, h, rfl⟩
    · rintro ⟨o1, o2, rfl, h, rfl⟩; exact h
  · have c' : (f.skipSer || skipField f s v) = false := by simpa using c
    obtain ⟨c1, c2⟩ := Bool.or_eq_false_iff.1 c'
    simp only [c1, c2, c', Bool.false_eq_true, false_and, if_false, true_and, false_or]
    have key : ∀ (q : Res (List (Str × Doc σ))),
        (match q with | .error e => (.error e : Res (List (Str × Doc σ))) | .ok o => addFields B s r fs vs o) = .ok out ↔
        ∃ o1 o2, out = o1 ++ o2 ∧ addFields B s r fs vs [] = .ok o2 ∧ q = .ok o1 := by
      intro q
      cases q with
      | error e => simp
      | ok o =>
        simp only [Except.ok.injEq]
        rw [addFields_acc hB, map_ok]
        constructor
        · rintro ⟨o2, h, rfl⟩; exact ⟨o, o2, rfl, h, rfl⟩
        · rintro ⟨o1, o2, rfl, h, rfl⟩; exact ⟨o2, h, rfl⟩
    refine Iff.trans (key _) ?_
    cases he : f.extra with
    | true => simp
    | false =>
      cases hfl : f.flatten with
      | true => simp
      | false =>
        simp only [Bool.false_eq_true, if_false, false_and, and_false, false_or, true_and, map_ok, hB.add,
          List.nil_append]
        simp only [eq_comm (a := [(f.key, _)])]
        simp

theorem ReservedFor.some {r : Option (List Str)} {names : List Str} {f : Field} {t : Ty} {fs : Fields}
    (h : ReservedFor r names (.cons f t fs)) (he : f.extra = true ∨ f.flatten = true) :
    ∃ l, r = .some l ∧ ∀ n, n ∈ l ↔ n ∈ names := by
  rcases h with h | ⟨h1, h2⟩
  · exact h
  · simp only [hasExtraOrFlatten, Bool.or_eq_false_iff] at h2
    rcases he with he | he
    · rw [he] at h2; cases h2.1.1
    · rw [he] at h2; cases h2.1.2

/-- The names written by fields, in terms of all names. -/
theorem out_names {B : Backend σ} (hB : Lawful B) {s : Bool} {r : Option (List Str)} {names : List Str}
    {fs : Fields} (hf : fieldsOk fs = true) {vs : List Value} {out : List (Str × Doc σ)}
    (hv : hasFields fs vs = true) (hr : ReservedFor r names fs)
    (h : addFields B s r fs vs [] = .ok out) :
    ∀ m ∈ out, m.1 ∈ allNames fs ∨ (0 < extraCount fs ∧ m.1 ∉ names) := by
  intro m hm
  rcases addFields_names hB fs hf vs out hv h m hm with h1 | ⟨h1, l, h2, h3⟩
  · exact .inl (outNames_sub fs _ h1)
  · rcases hr with ⟨l', h4, h5⟩ | ⟨h4, h5⟩
    · rw [h2] at h4; cases h4
      exact .inr ⟨h1, fun h => h3 ((h5 _).2 h)⟩
    · rw [h2] at h4; cases h4

theorem readFrom_key {ms : List (Str × Doc σ)} {f : Field} {d d' : Doc σ} (h : First ms f.key d)
    (h' : ReadFrom ms f d') : d' = d :=
  Spec.Picks.unique h' ⟨[], f.key, f.aliases, rfl, by simp, h⟩

theorem map_back {B : Backend σ} (hB : Lawful B) {E : Env} {s : Bool} {c : Str → Res Unit} {t : Ty}
    {es : List (Str × Value)} {out : List (Str × Doc σ)}
    (hs : sorted es = true) (h : serEntries B s c (ser B s t) es [] = .ok out)
    (hk : ∀ e ∈ es, s = true → isNullValue e.2 = false)
    (ih : ∀ e ∈ es, ∀ d, ser B s t e.2 = .ok d → deser B E t (fresh t) d = .ok e.2) :
    (∀ e ∈ es, ∃ d, (e.1, d) ∈ out ∧ deser B E t (fresh t) d = .ok e.2) ∧
    (∀ m ∈ out, ∃ e ∈ es, e.1 = m.1 ∧ deser B E t (fresh t) m.2 = .ok e.2) := by
  obtain ⟨-, h2⟩ := serEntries_ok hB h
  have hfil : es.filter (fun e => !(s && isNullValue e.2)) = es := by
    rw [List.filter_eq_self]
    intro e he
    cases s with
    | false => rfl
    | true => simp [hk e he rfl]
  rw [hfil] at h2
  constructor
  · intro e he
    obtain ⟨m, hm, h3, h4⟩ := h2.left e he
    exact ⟨m.2, by rw [← h3]; exact hm, ih e he _ h4⟩
  · intro m hm
    obtain ⟨e, he, h3, h4⟩ := h2.right m hm
    exact ⟨e, he, h3.symm, ih e he _ h4⟩

theorem atIndex_some {l : List (Doc σ)} {i : Nat} {d : Doc σ} (h : l[i]? = some d) : atIndex l i = d := by
  simp [atIndex, h]

mutual
theorem ser_back {B : Backend σ} (hB : Lawful B) {E : Env} {s : Bool} : ∀ (t : Ty), tyOk t = true →
    ∀ (old v : Value) (d : Doc σ), HasTy t old → HasTy t v → Keeps E s t old v → ser B s t v = .ok d →
    (d = .null ↔ isNullValue v = true) ∧ deser B E t old d = .ok v
  | .leaf l, ht, old, v, d, ho, hv, hk, h => by
    cases v <;> simp [HasTy, hasTy] at hv
    simp only [ser, Except.ok.injEq] at h
    subst h
    simp [isNullValue, deser, hB.leaf l _ ht hv, Except.map]
  | .enum e, ht, old, v, d, ho, hv, hk, h => by
    cases v <;> try simp [HasTy, hasTy] at hv
    rename_i a
    cases a <;> simp [HasTy, hasTy] at hv
    rename_i n
    simp only [tyOk] at ht
    simp only [Keeps] at hk
    simp only [ser, enumName_eq ht hv, Except.map, Except.ok.injEq] at h
    subst h
    refine ⟨by simp [isNullValue], ?_⟩
    simp only [deser]
    have := name_read hB hk.1 hk.2
    unfold nameOf at this
    rw [this]; rfl
  | .rawEnum t, ht, old, v, d, ho, hv, hk, h => by
    cases v <;> try simp [HasTy, hasTy] at hv
    rename_i a
    cases a <;> simp [HasTy, hasTy] at hv
    simp only [ser, Except.ok.injEq] at h
    subst h
    simp only [tyOk] at ht
    have := hB.leaf (.int t) (.int _) (by simpa [tyOk] using ht) (by simpa [hasLeaf] using hv)
    simp [isNullValue, deser, this, Except.map]
  | .enumSet e, ht, old, v, d, ho, hv, hk, h => by
    cases v <;> simp [HasTy, hasTy] at hv
    simp only [tyOk] at ht
    simp only [Keeps] at hk
    refine ⟨?_, (set_back_iff hB ht hk.1 h).2 hk.2⟩
    rw [ser_set ht] at h
    cases h
    simp [isNullValue]
  | .opt t, ht, old, v, d, ho, hv, hk, h => by
    simp only [tyOk] at ht
    rcases hasTy_opt hv with rfl | ⟨w, rfl, hw⟩
    · simp only [ser, Except.ok.injEq] at h
      subst h
      simp [isNullValue, deser, Doc.isNull]
    · simp only [ser] at h
      simp only [Keeps] at hk
      obtain ⟨h1, h2⟩ := ser_back hB t ht (fresh t) w d (fresh_typed t ht) hw hk.2 h
      have hd : ¬ d = .null := by rw [h1, hk.1]; simp
      have hd' : ¬ d.isNull = true := by rw [isNull_iff]; exact hd
      refine ⟨by simp [hd, isNullValue], ?_⟩
      simp only [deser]
      rw [if_neg hd', h2]; rfl
  | .vec t, ht, old, v, d, ho, hv, hk, h => by
    simp only [tyOk] at ht
    obtain ⟨vs, rfl, hvs⟩ := hasTy_seq hv
    simp only [ser, map_ok] at h
    obtain ⟨l, hl, rfl⟩ := h
    rw [mapAll_ok] at hl
    simp only [Keeps] at hk
    refine ⟨by simp [isNullValue], ?_⟩
    simp only [deser, elements, map_ok, Value.seq.injEq, exists_eq_right]
    rw [deserItems_ok, each_iff]
    rw [each_iff] at hl
    refine ⟨hl.1.symm, ?_⟩
    intro i d' w hd hw
    exact (ser_back hB t ht (fresh t) w d' (fresh_typed t ht) (hvs w (List.mem_of_getElem? hw))
      (hk w (List.mem_of_getElem? hw)) (hl.2 i w d' hw hd)).2
  | .arr n t, ht, old, v, d, ho, hv, hk, h => by
    simp only [tyOk] at ht
    obtain ⟨vs, rfl, hlen, hvs⟩ := hasTy_arr hv
    obtain ⟨os, rfl, hlen', hos⟩ := hasTy_arr ho
    simp only [ser, map_ok] at h
    obtain ⟨l, hl, rfl⟩ := h
    rw [mapAll_ok, each_iff] at hl
    simp only [Keeps] at hk
    refine ⟨by simp [isNullValue], ?_⟩
    simp only [deser, elements]
    rw [if_neg (by omega)]
    simp only [map_ok, Value.seq.injEq, exists_eq_right]
    rw [deserFixed_ok]
    refine ⟨by omega, ?_⟩
    intro j o w hj hw
    have hjl : j < l.length := by
      have := (List.getElem?_eq_some_iff.1 hw).1; omega
    have hd := List.getElem?_eq_getElem hjl
    rw [Nat.zero_add, atIndex_some hd]
    exact (ser_back hB t ht o w _ (hos o (List.mem_of_getElem? hj)) (hvs w (List.mem_of_getElem? hw))
      (hk j o w hj hw) (hl.2 j w _ hw hd)).2
  | .map t, ht, old, v, d, ho, hv, hk, h => by
    simp only [tyOk] at ht
    obtain ⟨es, rfl, hs, hes⟩ := hasTy_map hv
    simp only [ser, map_ok] at h
    obtain ⟨ms, h, rfl⟩ := h
    simp only [Keeps] at hk
    have hn := (serEntries_names hB hs h).1
    obtain ⟨h1, h2⟩ := map_back (E := E) hB hs h (fun e he => (hk e he).1) (fun e he d hd =>
      (ser_back hB t ht (fresh t) e.2 d (fresh_typed t ht) (hes e he) (hk e he).2 hd).2)
    refine ⟨by simp [isNullValue], ?_⟩
    simp only [deser, members, map_ok, Value.map.injEq, exists_eq_right]
    rw [deserEntries_ok]
    refine ⟨?_, hs, ?_⟩
    · intro m hm
      obtain ⟨e, -, -, he⟩ := h2 m hm
      exact ⟨_, he⟩
    · intro k w
      constructor
      · intro hkw
        obtain ⟨d, hd, hd'⟩ := h1 _ hkw
        exact ⟨d, first_of_mem hn hd, hd'⟩
      · rintro ⟨d, hd, hd'⟩
        obtain ⟨e, he, he1, he2⟩ := h2 _ hd.mem
        rw [hd'] at he2
        cases he2
        have he1' : e.1 = k := he1
        rw [← he1']; exact he
  | .tuple b ts, ht, old, v, d, ho, hv, hk, h => by
    simp only [tyOk] at ht
    obtain ⟨vs, rfl, hvs⟩ := hasTy_tuple hv
    obtain ⟨os, rfl, hos⟩ := hasTy_tuple ho
    simp only [ser, map_ok] at h
    obtain ⟨l, h, rfl⟩ := h
    simp only [Keeps] at hk
    obtain ⟨h1, h2⟩ := serTuple_back hB ts ht os vs l hos hvs hk h
    refine ⟨by simp [isNullValue], ?_⟩
    simp only [deser, elements]
    rw [if_neg (by omega)]
    have := h2 [] 0 rfl
    simp only [List.nil_append] at this
    simp only [this, Except.map]
  | .record n fs, ht, old, v, d, ho, hv, hk, h => by
    simp only [tyOk, Bool.and_eq_true] at ht
    obtain ⟨vs, rfl, hvs⟩ := hasTy_record hv
    obtain ⟨os, rfl, hos⟩ := hasTy_record ho
    simp only [ser] at h
    simp only [Keeps] at hk
    cases hr : reservedNames fs with
    | error e => rw [hr] at h; cases h
    | ok r =>
      rw [hr] at h
      simp only [map_ok] at h
      obtain ⟨ms, h, rfl⟩ := h
      refine ⟨by simp [isNullValue], ?_⟩
      obtain ⟨hc, hrf⟩ := reservedFor ht.1.1 hr
      rw [deser_record_obj ht.1.1]
      refine ⟨hc, os, vs, rfl, rfl, ?_⟩
      have hx : extraCount fs ≤ 1 := by
        by_cases hh : hasExtraOrFlatten fs = true
        · exact (hc hh).2
        · rw [extraCount_zero (by simpa using hh)]; omega
      exact addFields_back hB fs ht.1.1 (allNames fs) hrf hk.1 (fun _ h => h) hx os vs ms hos hvs hk.2 h ms
        (allNames fs) (.inl rfl) (fun _ h => h) (record_nodup hB ht.1.1 ht.1.2 hr hvs h)
        (fun m hm _ => hm) (fun _ m hm _ => hm)
theorem serTuple_back {B : Backend σ} (hB : Lawful B) {E : Env} {s : Bool} : ∀ (ts : Tys), tysOk ts = true →
    ∀ (os vs : List Value) (l : List (Doc σ)), hasTys ts os = true → hasTys ts vs = true →
    KeepsAll E s ts os vs → serTuple B s ts vs = .ok l →
    ts.length = l.length ∧ ∀ (pre : List (Doc σ)) (i : Nat), pre.length = i →
      deserTuple B E (pre ++ l) ts i os = .ok vs
  | .nil, _, os, vs, l, ho, hv, _, h => by
    rw [hasTys_nil hv] at h ⊢
    rw [hasTys_nil ho]
    simp only [serTuple, Except.ok.injEq] at h; subst h
    exact ⟨rfl, fun _ _ _ => by simp [deserTuple]⟩
  | .cons t ts, ht, os, vs, l, ho, hv, hk, h => by
    simp only [tysOk, Bool.and_eq_true] at ht
    obtain ⟨v, ws, rfl, h1, h2⟩ := hasTys_cons hv
    obtain ⟨o, os, rfl, h1', h2'⟩ := hasTys_cons ho
    simp only [KeepsAll] at hk
    simp only [serTuple] at h
    cases hd : ser B s t v with
    | error e => rw [hd] at h; cases h
    | ok d =>
      rw [hd] at h
      simp only at h
      cases hs : serTuple B s ts ws with
      | error e => rw [hs] at h; cases h
      | ok ds =>
        rw [hs] at h
        simp only [Except.ok.injEq] at h
        subst h
        obtain ⟨h3, h4⟩ := serTuple_back hB ts ht.2 os ws ds h2' h2 hk.2 hs
        refine ⟨by simp [Tys.length, h3], ?_⟩
        intro pre i hi
        have hat : atIndex (pre ++ d :: ds) i = d := by
          apply atIndex_some
          subst hi
          simp
        have h5 := (ser_back hB t ht.1 o v d h1' h1 hk.1 hd).2
        have h6 := h4 (pre ++ [d]) (i + 1) (by simp [hi])
        rw [List.append_assoc, List.singleton_append] at h6
        simp only [deserTuple, hat, h5, h6, Except.map]
theorem addFields_back {B : Backend σ} (hB : Lawful B) {E : Env} {s : Bool} {r : Option (List Str)} :
    ∀ (fs : Fields), fieldsOk fs = true → ∀ (names : List Str), ReservedFor r names fs →
    (allNames fs).Nodup → (∀ n ∈ allNames fs, n ∈ names) → extraCount fs ≤ 1 →
    ∀ (os vs : List Value) (out : List (Str × Doc σ)), hasFields fs os = true → hasFields fs vs = true →
    KeepsFields E s fs os vs → addFields B s r fs vs [] = .ok out →
    ∀ (ms : List (Str × Doc σ)) (names' : List Str), (names' = names ∨ extraCount fs = 0) →
    (∀ m ∈ out, m ∈ ms) → (ms.map (·.1)).Nodup →
    (∀ m ∈ ms, m.1 ∈ allNames fs → m ∈ out) →
    (0 < extraCount fs → ∀ m ∈ ms, m.1 ∉ names → m ∈ out) →
    EachField (FieldReads E (fun t o d v => deser B E t o d = .ok v) ms names') fs os vs
  | .nil, _, _, _, _, _, _, os, vs, out, ho, hv, _, h, _, _, _, _, _, _, _ => by
    rw [hasFields_nil ho, hasFields_nil hv]
    exact .nil
  | .cons f t fs, hf, names, hr, hnd, hsub, hx, os, vs, out, ho, hv, hk, h, ms, names', hn', hin, hms,
      hall, hext => by
    simp only [fieldsOk, Bool.and_eq_true] at hf
    have hfo := fieldOk_iff.1 hf.1.1
    obtain ⟨v, vs, rfl, h1, h2⟩ := hasFields_cons hv
    obtain ⟨o, os, rfl, h1', h2'⟩ := hasFields_cons ho
    rw [addFields_cons hB] at h
    obtain ⟨o1, o2, rfl, htl, hhd⟩ := h
    simp only [KeepsFields] at hk
    obtain ⟨hk1, hk2, hk3, hk4, hk5, hk6⟩ := hk
    simp only [allNames, nodup_append', List.mem_append] at hnd hsub hall
    simp only [extraCount] at hx hext hn'
    have names2 := out_names hB hf.2 h2 hr.tail htl
    -- the names of the first part
    have names1 : ∀ m ∈ o1,
        m.1 ∈ (if f.extra then [] else if f.flatten then allNamesTy t else f.key :: f.aliases) ∨
        (0 < (if f.extra then 1 else if f.flatten then extraCountTy t else 0) ∧ m.1 ∉ names) := by
      intro m hm
      rcases hhd with ⟨-, rfl⟩ | ⟨-, he, ha⟩ | ⟨-, he, hfl, ha⟩ | ⟨-, he, hfl, d, -, rfl⟩
      · cases hm
      · obtain ⟨l, rfl, hl⟩ := hr.some (.inl he)
        obtain ⟨u, rfl⟩ := isMap_iff.1 (hfo.2.2.2 he)
        obtain ⟨es, rfl, hs, -⟩ := hasTy_map h1
        simp only [addExtras] at ha
        obtain ⟨l', hl', hm'⟩ := checkExtraKey_ok ((serEntries_names hB hs ha).2 m hm).1
        cases hl'
        exact .inr ⟨by simp [he], fun h => hm' ((hl _).2 h)⟩
      · obtain ⟨l, rfl, hl⟩ := hr.some (.inr hfl)
        rcases addFlat_names hB t hf.1.2 (hfo.2.2.1 hfl) v o1 h1 ha m hm with h | ⟨h, l', hl', h'⟩
        · left; simpa [he, hfl] using outNamesTy_sub t _ h
        · cases hl'
          exact .inr ⟨by simpa [he, hfl] using h, fun h => h' ((hl _).2 h)⟩
      · left; rw [List.mem_singleton.1 hm]; simp [he, hfl]
    have apart1 : ∀ m, m ∈ o1 ++ o2 →
        m.1 ∈ (if f.extra then [] else if f.flatten then allNamesTy t else f.key :: f.aliases) → m ∈ o1 := by
      intro m hm hmn
      rcases List.mem_append.1 hm with hm | hm
      · exact hm
      · rcases names2 m hm with h | ⟨-, h⟩
        · exact absurd h (hnd.2.2 _ hmn)
        · exact absurd (hsub _ (.inl hmn)) h
    refine .cons ⟨hk1, ?_, ?_, ?_⟩ ?_
    · -- extra fields
      intro hs he
      have xb := addExtras_back (r := r) hB t hf.1.2 v f o1 h1 (hk2 hs he)
      obtain ⟨u, rfl⟩ := isMap_iff.1 (hfo.2.2.2 he)
      obtain ⟨es, rfl, hsrt, hes⟩ := hasTy_map h1
      have hk2 := hk2 hs he
      have hk2' := hk2
      simp only [KeepsExtras] at hk2'
      have hnn : names' = names := by
        rcases hn' with h | h
        · exact h
        · simp [he] at h
      subst hnn
      obtain ⟨l, rfl, hl⟩ := hr.some (.inl he)
      -- members outside the names are those of the map
      have honly : ∀ m ∈ ms, m.1 ∉ names' → m ∈ o1 := by
        intro m hm hmn
        rcases List.mem_append.1 (hext (by simp [he]; omega) m hm hmn) with h | h
        · exact h
        · rcases names2 m h with h | ⟨h, -⟩
          · exact absurd (hsub _ (.inr h)) hmn
          · simp [he] at hx; omega
      have hcase : (o1 = [] ∧ es = []) ∨
          serEntries B s (checkExtraKey (some l)) (ser B s u) es [] = .ok o1 := by
        rcases hhd with ⟨ho, rfl⟩ | ⟨-, -, ha⟩ | ⟨-, he', -⟩ | ⟨-, he', -⟩
        · refine .inl ⟨rfl, ?_⟩
          by_cases hes0 : es = []
          · exact hes0
          have h3 := hk2'.1 hes0
          cases es with
          | nil => rfl
          | cons e es' => simp [omitted, h3, isNullValue, isEmptyValue] at ho
        · simp only [addExtras] at ha; exact .inr ha
        · rw [he] at he'; cases he'
        · rw [he] at he'; cases he'
      refine ⟨u, es, rfl, rfl, hsrt, ?_⟩
      rcases hcase with ⟨rfl, rfl⟩ | ha
      · refine ⟨?_, ?_⟩
        · intro m hm hmn; cases honly m hm hmn
        · intro k w
          simp only [List.not_mem_nil, false_iff]
          rintro ⟨hkn, d, hd, -⟩
          cases honly _ hd.mem hkn
      · obtain ⟨a1, a2⟩ := xb (by simpa only [addExtras] using ha) u es rfl rfl
        refine ⟨?_, ?_⟩
        · intro m hm hmn
          obtain ⟨e, -, -, h⟩ := a2 m (honly m hm hmn)
          exact ⟨_, h⟩
        · intro k w
          constructor
          · intro hkw
            obtain ⟨d, hd, hd'⟩ := a1 _ hkw
            refine ⟨?_, d, first_of_mem hms (hin _ (List.mem_append_left _ hd)), hd'⟩
            rcases names1 _ hd with h | ⟨-, h⟩
            · simp [he] at h
            · exact h
          · rintro ⟨hkn, d, hd, hd'⟩
            obtain ⟨e, he, he1, he2⟩ := a2 _ (honly _ hd.mem hkn)
            rw [hd'] at he2
            cases he2
            have he1' : e.1 = k := he1
            rw [← he1']; exact he
    · -- a flattened record
      intro hs he hfl
      obtain ⟨hk3a, hk3b, hk3c⟩ := hk3 hs he hfl
      have hrec := hfo.2.2.1 hfl
      have hrs := hr.some (.inr hfl)
      have hnot : omitted s f v = false := by
        obtain ⟨n, gs, rfl⟩ := isRecord_iff.1 hrec
        obtain ⟨ws, rfl, -⟩ := hasTy_record h1
        simp [omitted, hk3a, isNullValue, isEmptyValue]
      have ha : addFlat B s r t v [] = .ok o1 := by
        rcases hhd with ⟨ho, -⟩ | ⟨-, he', -⟩ | ⟨-, -, -, ha⟩ | ⟨-, -, hfl', -⟩
        · rw [hnot] at ho; cases ho
        · rw [he] at he'; cases he'
        · exact ha
        · rw [hfl] at hfl'; cases hfl'
      have he' : ¬ f.extra = true := by simp [he]
      simp only [if_neg he', if_pos hfl] at hnd hsub hall apart1
      exact addFlat_back hB t hf.1.2 hrec names hrs hnd.1 (fun n hn => hsub n (.inl hn)) hk3b o v o1 h1' h1
        hk3c ha ms (fun m hm => hin m (List.mem_append_left _ hm)) hms
        (fun m hm hmn => apart1 m (List.mem_append.2 (hall m hm (.inl hmn))) hmn)
    · -- a plain field
      intro hp
      have hp' := hp
      simp only [plain, Bool.and_eq_true, Bool.not_eq_true'] at hp'
      obtain ⟨⟨hs, he⟩, hfl⟩ := hp'
      have he' : ¬ f.extra = true := by simp [he]
      have hfl' : ¬ f.flatten = true := by simp [hfl]
      simp only [if_neg he', if_neg hfl'] at hnd hsub hall apart1
      cases hom : omitted s f v with
      | true =>
        have ho1 : o1 = [] := by
          rcases hhd with ⟨-, h⟩ | ⟨h, -⟩ | ⟨h, -⟩ | ⟨h, -⟩
          · exact h
          all_goals rw [hom] at h; cases h
        subst ho1
        have hmiss : Missing ms f := by
          intro n hn m hm hmn
          have := apart1 m (List.mem_append.2 (hall m hm (.inl (hmn ▸ hn)))) (hmn ▸ hn)
          cases this
        refine ⟨?_, ?_⟩
        · intro d hd
          exact absurd hmiss (Spec.Picks.not_none hd)
        · intro _
          have hk4 := hk4 hp hom
          rcases hk4 with h | h | ⟨h3, h4, h5, h6⟩
          · exact .inl h
          · exact .inr (.inl h)
          · exact .inr (.inr ⟨h3, h4, (deser_null hB).2 h5, h6⟩)
      | false =>
        obtain ⟨d, hd, rfl⟩ : ∃ d, ser B s t v = .ok d ∧ o1 = [(f.key, d)] := by
          rcases hhd with ⟨h, -⟩ | ⟨-, h, -⟩ | ⟨-, -, h, -⟩ | ⟨-, -, -, h⟩
          · rw [hom] at h; cases h
          · rw [he] at h; cases h
          · rw [hfl] at h; cases h
          · exact h
        have hfirst : First ms f.key d := first_of_mem hms (hin _ (by simp))
        refine ⟨?_, ?_⟩
        · intro d' hd'
          rw [readFrom_key hfirst hd']
          rcases hk5 hp hom with ⟨h3, h4⟩ | ⟨h3, h4, h5⟩
          · refine .inl ⟨?_, h4⟩
            cases v with
            | opt w =>
              cases w with
              | some w => simp [isNullValue] at h3
              | none =>
                cases t <;> simp [HasTy, hasTy] at h1
                simp only [ser, Except.ok.injEq] at hd
                exact hd.symm
            | _ => simp [isNullValue] at h3
          · obtain ⟨h6, h7⟩ := ser_back hB t hf.1.2 o v d h1' h1 h4 hd
            refine .inr ⟨?_, h7, h5⟩
            rcases h3 with h3 | h3
            · left; rw [Ne, h6, h3]; simp
            · exact .inr h3
        · intro hmiss
          exact absurd rfl (hmiss f.key (by simp) _ hfirst.mem)
    · -- the rest
      refine addFields_back hB fs hf.2 names hr.tail hnd.2.1 (fun n hn => hsub n (.inr hn)) (by omega) os vs o2
        h2' h2 hk6 htl ms names' ?_ (fun m hm => hin m (List.mem_append_right _ hm)) hms ?_ ?_
      · rcases hn' with h | h
        · exact .inl h
        · exact .inr (by omega)
      · intro m hm hmn
        rcases hall m hm (.inr hmn) with h | h
        · rcases names1 m h with h | ⟨-, h⟩
          · exact absurd hmn (hnd.2.2 _ h)
          · exact absurd (hsub _ (.inr hmn)) h
        · exact h
      · intro hpos m hm hmn
        rcases List.mem_append.1 (hext (by omega) m hm hmn) with h | h
        · rcases names1 m h with h | ⟨h, -⟩
          · exact absurd (hsub _ (.inl h)) hmn
          · omega
        · exact h
theorem addExtras_back {B : Backend σ} (hB : Lawful B) {E : Env} {s : Bool} {r : Option (List Str)} :
    ∀ (t : Ty), tyOk t = true → ∀ (v : Value) (f : Field) (out : List (Str × Doc σ)), HasTy t v →
    KeepsExtras E s f t v → addExtras B s r t v [] = .ok out →
    ∀ u es, t = .map u → v = .map es →
    (∀ e ∈ es, ∃ d, (e.1, d) ∈ out ∧ deser B E u (fresh u) d = .ok e.2) ∧
    (∀ m ∈ out, ∃ e ∈ es, e.1 = m.1 ∧ deser B E u (fresh u) m.2 = .ok e.2)
  | .map t, ht, v, f, out, hv, hk, h, u, es, hu, hes => by
    cases hu
    subst hes
    simp only [tyOk] at ht
    obtain ⟨es', he, hs, hes⟩ := hasTy_map hv
    cases he
    simp only [addExtras] at h
    simp only [KeepsExtras] at hk
    exact map_back (E := E) hB hs h (fun e he => (hk.2 e he).1) (fun e he d hd =>
      (ser_back hB t ht (fresh t) e.2 d (fresh_typed t ht) (hes e he) (hk.2 e he).2 hd).2)
  | .leaf _, _, _, _, _, _, _, h, _, _, _, _ | .enum _, _, _, _, _, _, _, h, _, _, _, _
  | .rawEnum _, _, _, _, _, _, _, h, _, _, _, _ | .enumSet _, _, _, _, _, _, _, h, _, _, _, _
  | .opt _, _, _, _, _, _, _, h, _, _, _, _ | .vec _, _, _, _, _, _, _, h, _, _, _, _
  | .arr _ _, _, _, _, _, _, _, h, _, _, _, _ | .record _ _, _, _, _, _, _, _, h, _, _, _, _
  | .tuple _ _, _, _, _, _, _, _, h, _, _, _, _ => by cases h
theorem addFlat_back {B : Backend σ} (hB : Lawful B) {E : Env} {s : Bool} {r : Option (List Str)} :
    ∀ (t : Ty), tyOk t = true → isRecord t = true → ∀ (names : List Str),
    (∃ l, r = some l ∧ ∀ n, n ∈ l ↔ n ∈ names) →
    (allNamesTy t).Nodup → (∀ n ∈ allNamesTy t, n ∈ names) → extraCountTy t = 0 →
    ∀ (old v : Value) (out : List (Str × Doc σ)), HasTy t old → HasTy t v →
    KeepsFlat E s t old v → addFlat B s r t v [] = .ok out →
    ∀ (ms : List (Str × Doc σ)), (∀ m ∈ out, m ∈ ms) → (ms.map (·.1)).Nodup →
    (∀ m ∈ ms, m.1 ∈ allNamesTy t → m ∈ out) →
    deser B E t old (.obj ms) = .ok v
  | .record n fs, ht, _, names, hr, hnd, hsub, hx, old, v, out, ho, hv, hk, h, ms, hin, hms, hall => by
    simp only [tyOk, Bool.and_eq_true] at ht
    obtain ⟨vs, rfl, hvs⟩ := hasTy_record hv
    obtain ⟨os, rfl, hos⟩ := hasTy_record ho
    simp only [addFlat] at h
    simp only [KeepsFlat] at hk
    simp only [allNamesTy] at hnd hsub hall
    simp only [extraCountTy] at hx
    rw [deser_record_obj ht.1.1]
    refine ⟨fun _ => ⟨hnd, by omega⟩, os, vs, rfl, rfl, ?_⟩
    exact addFields_back hB fs ht.1.1 names (.inl hr) hnd hsub (by omega) os vs out hos hvs hk h ms
      (allNames fs) (.inr hx) hin hms hall (fun h => by omega)
  | .leaf _, _, hr, _, _, _, _, _, _, _, _, _, _, _, _, _, _, _, _ => by cases hr
  | .enum _, _, hr, _, _, _, _, _, _, _, _, _, _, _, _, _, _, _, _ => by cases hr
  | .rawEnum _, _, hr, _, _, _, _, _, _, _, _, _, _, _, _, _, _, _, _ => by cases hr
  | .enumSet _, _, hr, _, _, _, _, _, _, _, _, _, _, _, _, _, _, _, _ => by cases hr
  | .opt _, _, hr, _, _, _, _, _, _, _, _, _, _, _, _, _, _, _, _ => by cases hr
  | .vec _, _, hr, _, _, _, _, _, _, _, _, _, _, _, _, _, _, _, _ => by cases hr
  | .arr _ _, _, hr, _, _, _, _, _, _, _, _, _, _, _, _, _, _, _, _ => by cases hr
  | .map _, _, hr, _, _, _, _, _, _, _, _, _, _, _, _, _, _, _, _ => by cases hr
  | .tuple _ _, _, hr, _, _, _, _, _, _, _, _, _, _, _, _, _, _, _, _ => by cases hr
end

end Verif.Serial
