import Verif.Serial.TrailPatch
/-
Lemmas: a call that was cut short and is made again with the same document ends as it would have.
-/
namespace Verif.Serial
open Verif.Path Verif.Enums Spec

variable {σ : Type}

theorem inPlace_mem {r : Run Value} {tr olds : List Value} {others : List (List Value)} {w : List Value}
    (h : w ∈ inPlace r tr olds others) :
    (∃ v ∈ tr, w = v :: olds) ∨ (r.2 = none ∧ ∃ vs ∈ others, w = r.1 :: vs) := by
  unfold inPlace at h
  rcases List.mem_append.1 h with h | h
  · obtain ⟨v, hv, rfl⟩ := List.mem_map.1 h
    exact .inl ⟨v, hv, rfl⟩
  · rcases r with ⟨v, _ | e⟩
    · obtain ⟨vs, hvs, rfl⟩ := List.mem_map.1 h
      exact .inr ⟨rfl, vs, hvs, rfl⟩
    · cases h

theorem fixedTrail_length {f : Value → Doc σ → Run Value} {tr : Value → Doc σ → List Value} {l : List (Doc σ)} :
    ∀ {os : List Value} {i : Nat} {w : List Value}, w ∈ fixedTrail f tr l i os → w.length = os.length
  | [], i, w, h => by simp only [fixedTrail, List.mem_singleton] at h; rw [h]
  | o :: os, i, w, h => by
    simp only [fixedTrail] at h
    rcases inPlace_mem h with ⟨v, -, rfl⟩ | ⟨-, vs, hvs, rfl⟩
    · rfl
    · simp [fixedTrail_length hvs]

theorem fixed_resume {P : Value → Prop} {f : Value → Doc σ → Res Value} {fr : Value → Doc σ → Run Value}
    {tr : Value → Doc σ → List Value} (hl : ∀ o d, P o → (fr o d).1 ∈ tr o d) (hf : ∀ o w d, P o → w ∈ tr o d → f w d = f o d)
    {l : List (Doc σ)} : ∀ {os : List Value} {i : Nat} {w : List Value}, (∀ o ∈ os, P o) → w ∈ fixedTrail fr tr l i os →
      deserFixed f l i w = deserFixed f l i os
  | [], i, w, _, h => by simp only [fixedTrail, List.mem_singleton] at h; rw [h]
  | o :: os, i, w, ho, h => by
    have ho1 := ho o (by simp)
    simp only [fixedTrail] at h
    rcases inPlace_mem h with ⟨v, hv, rfl⟩ | ⟨-, vs, hvs, rfl⟩
    · simp only [deserFixed, hf _ _ _ ho1 hv]
    · simp only [deserFixed, hf _ _ _ ho1 (hl o _ ho1), fixed_resume hl hf (fun x hx => ho x (by simp [hx])) hvs]

theorem assignTrail_mem {α : Type} {old w : α} {r : Res α} (h : w ∈ assignTrail old r) : w = old ∨ r = .ok w := by
  cases r with
  | error e => simp only [assignTrail, List.mem_singleton] at h; exact .inl h
  | ok v =>
    simp only [assignTrail, List.mem_cons, List.not_mem_nil, or_false] at h
    rcases h with rfl | rfl
    · exact .inl rfl
    · exact .inr rfl

theorem readPlain_resume {E : Env} {f : Field} {ms : List (Str × Doc σ)} {old w : Value} {tr : Doc σ → List Value}
    {g : Value → Doc σ → Res Value} (hg : ∀ d w, w ∈ tr d → g w d = g old d) (h : w ∈ readPlainTrail f ms old tr) :
    readPlain E f ms w (g w) = readPlain E f ms old (g old) := by
  unfold readPlainTrail at h
  unfold readPlain
  cases hq : resolveName ms f with
  | none =>
    rw [hq] at h
    simp only at h ⊢
    unfold missingPolicy at h ⊢
    cases hd : applyDefault f with
    | some v => rfl
    | none =>
      rw [hd] at h
      simp only at h ⊢
      by_cases ha : f.allowMissing = true
      · simp only [if_pos ha, List.mem_cons, List.not_mem_nil, or_false, or_self] at h
        rw [h]
      · simp only [if_neg ha] at h ⊢
        rw [hg _ _ h]
  | some n =>
    rw [hq] at h
    simp only at h ⊢
    generalize (if (atField ms n).isNull then applyDefault f else none) = x at h ⊢
    cases x with
    | some v => rfl
    | none => simp only at h ⊢; rw [hg _ _ h]

/-- The last state is the one the call leaves. -/
theorem deserTrail_last {B : Backend σ} {E : Env} (hB : Lawful B) {t : Ty} (ht : tyOk t = true) {o : Value} (ho : HasTy t o) (d : Doc σ) :
    (deserRun B E t o d).1 ∈ deserTrail B E t o d := List.mem_of_getLast? (deserTrail_good hB t ht o d ho).last

theorem field_last {B : Backend σ} (hB : Lawful B) {E : Env} {r : Option (List Str)} {ms : List (Str × Doc σ)} {f : Field} {t : Ty}
    (hf : fieldOk f t = true) (ht : tyOk t = true) {o : Value} (ho : HasTy t o) :
    (if f.skipDeser then (o, none)
        else if f.extra then extrasRun B E r ms t o
        else if f.flatten then deserRun B E t o (.obj ms)
        else readPlainRun E f ms o (deserRun B E t o) : Run Value).1 ∈
      (if f.skipDeser then [o]
        else if f.extra then extrasTrail B E r ms t o
        else if f.flatten then deserTrail B E t o (.obj ms)
        else readPlainTrail f ms o (deserTrail B E t o)) := by
  by_cases c1 : f.skipDeser = true
  · simp [c1]
  rw [if_neg c1, if_neg c1]
  by_cases c2 : f.extra = true
  · rw [if_pos c2, if_pos c2]; exact List.mem_of_getLast? (extrasTrail_good hB r ms t ht o ho).last
  rw [if_neg c2, if_neg c2]
  by_cases c3 : f.flatten = true
  · rw [if_pos c3, if_pos c3]; exact List.mem_of_getLast? (deserTrail_good hB t ht o _ ho).last
  rw [if_neg c3, if_neg c3]
  exact List.mem_of_getLast? (readPlainTrail_good hf ho fun d => deserTrail_good hB t ht o d ho).last

mutual
theorem deser_resume {B : Backend σ} (hB : Lawful B) {E : Env} : ∀ (t : Ty), tyOk t = true →
    ∀ (old w : Value) (d : Doc σ), HasTy t old → w ∈ deserTrail B E t old d → deser B E t w d = deser B E t old d
  | .leaf _, _, _, _, _, _, _ | .enum _, _, _, _, _, _, _ | .rawEnum _, _, _, _, _, _, _ | .enumSet _, _, _, _, _, _, _
  | .opt _, _, _, _, _, _, _ | .vec _, _, _, _, _, _, _ | .map _, _, _, _, _, _, _ => by simp only [deser]
  | .arr n t, ht, old, w, d, ho, h => by
    obtain ⟨os, rfl, hl, hall⟩ := hasTy_arr ho
    simp only [tyOk] at ht
    simp only [deserTrail] at h
    cases he : elements B d with
    | error e => rw [he] at h; simp only [List.mem_singleton] at h; rw [h]
    | ok l =>
      rw [he] at h
      simp only at h
      by_cases hc : os.length < l.length
      · rw [if_pos hc, List.mem_singleton] at h; rw [h]
      rw [if_neg hc] at h
      obtain ⟨ws, hw, rfl⟩ := List.mem_map.1 h
      have hlen := fixedTrail_length hw
      simp only [deser, he, hlen, if_neg hc]
      rw [fixed_resume (P := HasTy t) (fun o d ho => deserTrail_last hB ht ho d) (fun o w d ho h => deser_resume hB t ht o w d ho h) hall hw]
  | .tuple b ts, ht, old, w, d, ho, h => by
    obtain ⟨os, rfl, hall⟩ := hasTy_tuple ho
    simp only [tyOk] at ht
    simp only [deserTrail] at h
    cases he : elements B d with
    | error e => rw [he] at h; simp only [List.mem_singleton] at h; rw [h]
    | ok l =>
      rw [he] at h
      simp only at h
      by_cases hc : ts.length < l.length
      · rw [if_pos hc, List.mem_singleton] at h; rw [h]
      rw [if_neg hc] at h
      obtain ⟨ws, hw, rfl⟩ := List.mem_map.1 h
      simp only [deser, he, if_neg hc]
      rw [tuple_resume hB ts (by first | exact ht | exact ht.1) _ _ _ hall hw]
  | .record n fs, ht, old, w, d, ho, h => by
    obtain ⟨os, rfl, hall⟩ := hasTy_record ho
    simp only [tyOk, Bool.and_eq_true] at ht
    simp only [deserTrail] at h
    cases d with
    | obj ms =>
      simp only at h
      cases hr : reservedNames fs with
      | error e => rw [hr] at h; simp only [List.mem_singleton] at h; rw [h]
      | ok r =>
        rw [hr] at h
        obtain ⟨ws, hw, rfl⟩ := List.mem_map.1 h
        simp only [deser, hr]
        rw [fields_resume hB fs ht.1.1 _ _ hall hw]
    | arr l =>
      simp only at h
      by_cases hc : seqFieldCount fs < l.length
      · rw [if_pos hc, List.mem_singleton] at h; rw [h]
      rw [if_neg hc] at h
      obtain ⟨ws, hw, rfl⟩ := List.mem_map.1 h
      simp only [deser, if_neg hc]
      rw [seqFields_resume hB fs ht.1.1 _ _ _ hall hw]
    | null => simp only [List.mem_singleton] at h; rw [h]
    | scalar s => simp only [List.mem_singleton] at h; rw [h]
theorem tuple_resume {B : Backend σ} (hB : Lawful B) {E : Env} {l : List (Doc σ)} : ∀ (ts : Tys), tysOk ts = true →
    ∀ (i : Nat) (os ws : List Value), hasTys ts os = true → ws ∈ tupleTrail B E l ts i os →
      deserTuple B E l ts i ws = deserTuple B E l ts i os
  | .nil, _, i, os, ws, _, h => by simp only [tupleTrail, List.mem_singleton] at h; rw [h]
  | .cons t ts, ht, i, os, ws, ho, h => by
    simp only [tysOk, Bool.and_eq_true] at ht
    obtain ⟨o, os, rfl, h1, h2⟩ := hasTys_cons ho
    simp only [tupleTrail] at h
    rcases inPlace_mem h with ⟨v, hv, rfl⟩ | ⟨-, vs, hvs, rfl⟩
    · simp only [deserTuple, deser_resume hB t ht.1 _ _ _ h1 hv]
    · simp only [deserTuple, deser_resume hB t ht.1 _ _ _ h1 (deserTrail_last hB ht.1 h1 _),
        tuple_resume hB ts ht.2 _ _ _ h2 hvs]
theorem fields_resume {B : Backend σ} (hB : Lawful B) {E : Env} {r : Option (List Str)} {ms : List (Str × Doc σ)} :
    ∀ (fs : Fields), fieldsOk fs = true → ∀ (os ws : List Value), hasFields fs os = true → ws ∈ fieldsTrail B E r ms fs os →
      deserFields B E r ms fs ws = deserFields B E r ms fs os
  | .nil, _, os, ws, _, h => by simp only [fieldsTrail, List.mem_singleton] at h; rw [h]
  | .cons f t fs, ht, os, ws, ho, h => by
    have ho' := ho
    simp only [fieldsOk, Bool.and_eq_true] at ht
    obtain ⟨o, os, rfl, h1, h2⟩ := hasFields_cons ho
    have key : ∀ v, v ∈ (if f.skipDeser then [o]
        else if f.extra then extrasTrail B E r ms t o
        else if f.flatten then deserTrail B E t o (.obj ms)
        else readPlainTrail f ms o (deserTrail B E t o)) →
      (if f.skipDeser then .ok v
        else if f.extra then deserExtras B E r ms t
        else note (fieldMsg f)
            (if f.flatten then deser B E t v (.obj ms)
            else readPlain E f ms v (deser B E t v)) : Res Value) =
      (if f.skipDeser then .ok o
        else if f.extra then deserExtras B E r ms t
        else note (fieldMsg f)
            (if f.flatten then deser B E t o (.obj ms)
            else readPlain E f ms o (deser B E t o)) : Res Value) := by
      intro v hv
      by_cases c1 : f.skipDeser = true
      · rw [if_pos c1, List.mem_singleton] at hv; rw [hv]
      rw [if_neg c1] at hv
      rw [if_neg c1, if_neg c1]
      by_cases c2 : f.extra = true
      · rw [if_pos c2, if_pos c2]
      rw [if_neg c2] at hv
      rw [if_neg c2, if_neg c2]
      by_cases c3 : f.flatten = true
      · rw [if_pos c3] at hv
        rw [if_pos c3, if_pos c3, deser_resume hB t ht.1.2 _ _ _ h1 hv]
      rw [if_neg c3] at hv
      rw [if_neg c3, if_neg c3, readPlain_resume (g := deser B E t) (fun d w hw => deser_resume hB t ht.1.2 _ _ _ h1 hw) hv]
    simp only [fieldsTrail] at h
    rcases inPlace_mem h with ⟨v, hv, rfl⟩ | ⟨-, vs, hvs, rfl⟩
    · simp only [deserFields]; rw [key v hv]
    · simp only [deserFields]; rw [key _ (field_last hB ht.1.1 ht.1.2 h1), fields_resume hB fs ht.2 _ _ h2 hvs]
theorem seqFields_resume {B : Backend σ} (hB : Lawful B) {E : Env} {l : List (Doc σ)} :
    ∀ (fs : Fields), fieldsOk fs = true → ∀ (i : Nat) (os ws : List Value), hasFields fs os = true →
      ws ∈ seqFieldsTrail B E l fs i os → deserSeqFields B E l fs i ws = deserSeqFields B E l fs i os
  | .nil, _, i, os, ws, _, h => by simp only [seqFieldsTrail, List.mem_singleton] at h; rw [h]
  | .cons f t fs, ht, i, os, ws, ho, h => by
    simp only [fieldsOk, Bool.and_eq_true] at ht
    obtain ⟨o, os, rfl, h1, h2⟩ := hasFields_cons ho
    simp only [seqFieldsTrail] at h
    by_cases c1 : f.skipDeser = true
    · rw [if_pos c1] at h
      obtain ⟨vs, hvs, rfl⟩ := List.mem_map.1 h
      simp only [deserSeqFields, if_pos c1, seqFields_resume hB fs ht.2 _ _ _ h2 hvs]
    rw [if_neg c1] at h
    by_cases c2 : (f.extra || f.flatten) = true
    · rw [if_pos c2, List.mem_singleton] at h; rw [h]
    rw [if_neg c2] at h
    rcases inPlace_mem h with ⟨v, hv, rfl⟩ | ⟨-, vs, hvs, rfl⟩
    · simp only [deserSeqFields, if_neg c1, deser_resume hB t ht.1.2 _ _ _ h1 hv]
    · simp only [deserSeqFields, if_neg c1, validateRun_left, deser_resume hB t ht.1.2 _ _ _ h1 (deserTrail_last hB ht.1.2 h1 _),
        seqFields_resume hB fs ht.2 _ _ _ h2 hvs]
end

/-! ### patch -/

theorem unique_atField {ms : List (Str × Doc σ)} (h : ∀ m ∈ ms, uniqueNames m.2 = true) (n : Str) : uniqueNames (atField ms n) = true := by
  unfold atField
  induction ms with
  | nil => simp [findMember, uniqueNames]
  | cons m ms ih =>
    simp only [findMember]
    by_cases hm : m.1 = n
    · rw [if_pos hm]; exact h m (by simp)
    · rw [if_neg hm]; exact ih fun m' hm' => h m' (by simp [hm'])

theorem patchPlain_resume {E : Env} {f : Field} {ms : List (Str × Doc σ)} {old w : Value} {tr : Doc σ → List Value}
    {g : Value → Doc σ → Res Value} (hu : ∀ m ∈ ms, uniqueNames m.2 = true)
    (hg : ∀ d w, uniqueNames d = true → w ∈ tr d → g w d = g old d) (h : w ∈ patchPlainTrail f ms old tr) :
    patchPlain E f ms w (g w) = patchPlain E f ms old (g old) := by
  unfold patchPlainTrail at h
  unfold patchPlain
  cases hq : resolveName ms f with
  | none =>
    rw [hq] at h
    simp only [List.mem_singleton] at h
    rw [h]
  | some n =>
    rw [hq] at h
    simp only at h ⊢
    generalize (if (atField ms n).isNull then applyDefault f else none) = x at h ⊢
    cases x with
    | some v => rfl
    | none => simp only at h ⊢; rw [hg _ _ (unique_atField hu _) h]

theorem lookup_trail {α : Type} {k : Str} {v w : α} : ∀ {es : List (Str × α)}, lookup es k = some v →
    lookup (assignEntry es k w) k = some w
  | [], h => by cases h
  | e :: es, h => by
    simp only [lookup] at h
    simp only [assignEntry]
    by_cases he : e.1 = k
    · rw [if_pos he]; simp [lookup, he]
    · rw [if_neg he] at h ⊢
      simp only [lookup, if_neg he]
      exact lookup_trail h

theorem assign_assign {α : Type} {k : Str} {v w : α} : ∀ (es : List (Str × α)),
    assignEntry (assignEntry es k w) k v = assignEntry es k v
  | [] => rfl
  | e :: es => by
    simp only [assignEntry]
    by_cases he : e.1 = k
    · rw [if_pos he, if_pos he]; simp [assignEntry, he]
    · rw [if_neg he, if_neg he]; simp only [assignEntry, if_neg he, assign_assign es]

theorem sorted_lookup {α : Type} {k : Str} {v : α} {es : List (Str × α)} (hs : sorted es = true) (h : (k, v) ∈ es) :
    lookup es k = some v := by
  induction es with
  | nil => cases h
  | cons e es ih =>
    have hs' := sorted_cons.1 hs
    simp only [lookup]
    rcases List.mem_cons.1 h with rfl | h
    · simp
    · have : e.1 ≠ k := by
        intro hk
        have := hs'.1 (k, v) h
        simp only [hk] at this
        exact absurd this (by simp)
      rw [if_neg this]
      exact ih hs'.2 h

theorem extra_resume {P : Value → Prop} {p : Value → Doc σ → Res Value} {pr : Value → Doc σ → Run Value}
    {tr : Value → Doc σ → List Value} {new : Value} (hpr : ∀ v d, (pr v d).res = p v d)
    (hp : ∀ v d, P v → Good P v (pr v d).1 (tr v d))
    (hn : P new) (hok : ∀ v w d, P v → p v d = .ok w → P w)
    (ha : ∀ v w d, uniqueNames d = true → P v → p v d = .ok w → p w d = .ok w)
    (hr : ∀ v w d, uniqueNames d = true → P v → w ∈ tr v d → p w d = p v d) (r : List Str) :
    ∀ (ms : List (Str × Doc σ)), (ms.map (·.1)).Nodup → (∀ m ∈ ms, uniqueNames m.2 = true) →
      ∀ (es ws : List (Str × Value)), sorted es = true → (∀ e ∈ es, P e.2) →
      ws ∈ patchExtraEntriesTrail pr tr (p new) r ms es →
      patchExtraEntries p new r ms ws = patchExtraEntries p new r ms es
  | [], _, _, es, ws, _, _, h => by simp only [patchExtraEntriesTrail, List.mem_singleton] at h; rw [h]
  | (k, d) :: ms, hnd, hu, es, ws, hs, ho, h => by
    simp only [List.map_cons, List.nodup_cons] at hnd
    have hu1 := hu (k, d) (by simp)
    have hu2 : ∀ m ∈ ms, uniqueNames m.2 = true := fun m hm => hu m (by simp [hm])
    have hno : NoMember ms k := by
      intro x hx hk
      exact hnd.1 (List.mem_map.2 ⟨x, hx, hk⟩)
    simp only [patchExtraEntriesTrail] at h
    simp only [patchExtraEntries]
    by_cases hc : r.contains k = true
    · rw [if_pos hc] at h ⊢
      rw [if_pos hc]
      exact extra_resume hpr hp hn hok ha hr r ms hnd.2 hu2 es ws hs ho h
    rw [if_neg hc] at h ⊢
    rw [if_neg hc]
    -- a state after this member
    have later : ∀ es1 x, sorted es1 = true → (∀ e ∈ es1, P e.2) → (k, x) ∈ es1 → p x d = .ok x →
        ws ∈ patchExtraEntriesTrail pr tr (p new) r ms es1 →
        lookup ws k = some x ∧ assignEntry ws k x = ws ∧
          patchExtraEntries p new r ms ws = patchExtraEntries p new r ms es1 := by
      intro es1 x hs1 ho1 hx hpx hw
      have g := patchExtraEntriesTrail_good (P := P) hp (fun d v h => hok _ _ _ hn h) r ms es1 hs1 ho1 (new := p new)
      have gw := g.all ws hw
      have hmem : (k, x) ∈ ws := (gw.2 k x hno).2 hx
      have hlk := sorted_lookup gw.1.1 hmem
      exact ⟨hlk, assignEntry_same hlk, extra_resume hpr hp hn hok ha hr r ms hnd.2 hu2 es1 ws hs1 ho1 hw⟩
    cases hl : lookup es k with
    | some v =>
      rw [hl] at h
      simp only at h
      have hmem := (lookup_some.1 hl).mem
      have hv : P v := ho (k, v) hmem
      rcases List.mem_append.1 h with h | h
      · obtain ⟨w, hw, rfl⟩ := List.mem_map.1 h
        simp only [lookup_trail hl, hr v w d hu1 hv hw, assign_assign]
      · have hres := hpr v d
        generalize hx : pr v d = x at h hres
        rcases x with ⟨w, _ | e⟩
        · simp only [Run.res] at hres h
          have hok' := hok _ _ _ hv hres.symm
          have hin : (k, w) ∈ assignEntry es k w := by
            rw [assignEntry_mem hs]
            exact .inr ⟨rfl, fun hno => hno _ hmem rfl⟩
          have ho1 : ∀ e ∈ assignEntry es k w, P e.2 := by
            intro e he
            rcases (assignEntry_mem hs e).1 he with ⟨he, -⟩ | ⟨rfl, -⟩
            · exact ho e he
            · exact hok'
          obtain ⟨e1, e2, e3⟩ := later _ w (assignEntry_sorted hs) ho1 hin (ha _ _ _ hu1 hv hres.symm) h
          simp only [e1, ← hres, ha _ _ _ hu1 hv hres.symm, note, e2, e3]
        · cases h
    | none =>
      rw [hl] at h
      simp only at h
      rcases List.mem_cons.1 h with rfl | h
      · simp only [hl]
      · cases hnew : p new d with
        | error e => rw [hnew] at h; cases h
        | ok v =>
          rw [hnew] at h
          simp only at h
          have hv := hok _ _ _ hn hnew
          have inv := emplace_inv (k := k) hs ho hv
          have hin : (k, v) ∈ emplace es k v := by
            rw [emplace_mem k v _ hs]
            exact .inr ⟨rfl, lookup_none.1 hl⟩
          obtain ⟨e1, e2, e3⟩ := later _ v inv.1 inv.2 hin (ha _ _ _ hu1 hn hnew) h
          simp only [e1, ha _ _ _ hu1 hn hnew, note, e2, e3]

theorem patch_field_last {B : Backend σ} (hB : Lawful B) {E : Env} {r : Option (List Str)} {ms : List (Str × Doc σ)} {f : Field} {t : Ty}
    (hf : fieldOk f t = true) (ht : tyOk t = true) {o : Value} (ho : HasTy t o) :
    (if f.skipDeser then (o, none)
        else if f.extra then patchExtrasRun B E r ms t o
        else if f.flatten then patchRun B E t o (.obj ms)
        else patchPlainRun E f ms o (patchRun B E t o) : Run Value).1 ∈
      (if f.skipDeser then [o]
        else if f.extra then patchExtrasTrail B E r ms t o
        else if f.flatten then patchTrail B E t o (.obj ms)
        else patchPlainTrail f ms o (patchTrail B E t o)) := by
  by_cases c1 : f.skipDeser = true
  · simp [c1]
  rw [if_neg c1, if_neg c1]
  by_cases c2 : f.extra = true
  · rw [if_pos c2, if_pos c2]; exact List.mem_of_getLast? (patchExtrasTrail_good hB r ms t ht o ho).last
  rw [if_neg c2, if_neg c2]
  by_cases c3 : f.flatten = true
  · rw [if_pos c3, if_pos c3]; exact List.mem_of_getLast? (patchTrail_good hB t ht o _ ho).last
  rw [if_neg c3, if_neg c3]
  have c1' : f.skipDeser = false := by simpa using c1
  have c2' : f.extra = false := by simpa using c2
  have c3' : f.flatten = false := by simpa using c3
  exact List.mem_of_getLast? (patchPlainTrail_good hf c1' c2' c3' ho fun d => patchTrail_good hB t ht o d ho).last

mutual
theorem patch_resume {B : Backend σ} (hB : Lawful B) {E : Env} : ∀ (t : Ty), tyOk t = true →
    ∀ (old w : Value) (d : Doc σ), HasTy t old → uniqueNames d = true → w ∈ patchTrail B E t old d →
      patch B E t w d = patch B E t old d
  | .opt t, ht, old, w, d, ho, hu, h => by
    have hag : ∀ v, patch B E (.opt t) old d = .ok v → patch B E (.opt t) v d = .ok v :=
      fun v => patch_again hB (.opt t) ht old v d ho hu
    simp only [tyOk] at ht
    simp only [patchTrail] at h
    by_cases hn : d.isNull = true
    · simp only [patch, if_pos hn]
    · rw [if_neg hn] at h
      rcases hasTy_opt ho with rfl | ⟨v, rfl, hv⟩
      · rcases assignTrail_mem h with rfl | h
        · rfl
        · have : patch B E (.opt t) (.opt none) d = .ok w := by simp only [patch, if_neg hn]; exact h
          rw [hag w this, this]
      · obtain ⟨x, hx, rfl⟩ := List.mem_map.1 h
        simp only [patch, if_neg hn, patch_resume hB t ht v x d hv hu hx]
  | .record n fs, ht, old, w, d, ho, hu, h => by
    have hda : ∀ d', w ∈ deserTrail B E (.record n fs) old d' → deser B E (.record n fs) w d' = deser B E (.record n fs) old d' :=
      fun d' h' => deser_resume hB (.record n fs) ht old w d' ho h'
    simp only [tyOk, Bool.and_eq_true] at ht
    simp only [patchTrail] at h
    obtain ⟨os, rfl, hall⟩ := hasTy_record ho
    cases d with
    | obj ms =>
      simp only at h
      cases hr : reservedNames fs with
      | error e => rw [hr] at h; simp only [List.mem_singleton] at h; rw [h]
      | ok r =>
        rw [hr] at h
        obtain ⟨ws, hw, rfl⟩ := List.mem_map.1 h
        simp only [patch, hr]
        rw [patchFields_resume hB hu fs ht.1.1 _ _ hall hw]
    | arr l => simp only [patch]; rw [hda _ h]
    | null => simp only [patch]; rw [hda _ h]
    | scalar s => simp only [patch]; rw [hda _ h]
  | .leaf _, ht, old, w, d, ho, hu, h | .enum _, ht, old, w, d, ho, hu, h
  | .rawEnum _, ht, old, w, d, ho, hu, h | .enumSet _, ht, old, w, d, ho, hu, h
  | .vec _, ht, old, w, d, ho, hu, h | .arr _ _, ht, old, w, d, ho, hu, h
  | .map _, ht, old, w, d, ho, hu, h | .tuple _ _, ht, old, w, d, ho, hu, h => by
    simp only [patchTrail] at h
    simp only [patch]
    exact deser_resume hB _ ht _ _ _ ho h
theorem patchFields_resume {B : Backend σ} (hB : Lawful B) {E : Env} {r : Option (List Str)} {ms : List (Str × Doc σ)}
    (hu : uniqueNames (.obj ms) = true) :
    ∀ (fs : Fields), fieldsOk fs = true → ∀ (os ws : List Value), hasFields fs os = true → ws ∈ patchFieldsTrail B E r ms fs os →
      patchFields B E r ms fs ws = patchFields B E r ms fs os
  | .nil, _, os, ws, _, h => by simp only [patchFieldsTrail, List.mem_singleton] at h; rw [h]
  | .cons f t fs, ht, os, ws, ho, h => by
    have hu' := hu
    simp only [uniqueNames, Bool.and_eq_true, decide_eq_true_eq] at hu'
    simp only [fieldsOk, Bool.and_eq_true] at ht
    obtain ⟨o, os, rfl, h1, h2⟩ := hasFields_cons ho
    have key : ∀ v, v ∈ (if f.skipDeser then [o]
        else if f.extra then patchExtrasTrail B E r ms t o
        else if f.flatten then patchTrail B E t o (.obj ms)
        else patchPlainTrail f ms o (patchTrail B E t o)) →
      (if f.skipDeser then .ok v
        else if f.extra then patchExtras B E r ms t v
        else note (txt "error when patching field " ++ f.name)
            (if f.flatten then patch B E t v (.obj ms)
            else patchPlain E f ms v (patch B E t v)) : Res Value) =
      (if f.skipDeser then .ok o
        else if f.extra then patchExtras B E r ms t o
        else note (txt "error when patching field " ++ f.name)
            (if f.flatten then patch B E t o (.obj ms)
            else patchPlain E f ms o (patch B E t o)) : Res Value) := by
      intro v hv
      by_cases c1 : f.skipDeser = true
      · rw [if_pos c1, List.mem_singleton] at hv; rw [hv]
      rw [if_neg c1] at hv
      rw [if_neg c1, if_neg c1]
      by_cases c2 : f.extra = true
      · rw [if_pos c2] at hv
        rw [if_pos c2, if_pos c2]
        exact patchExtras_resume hB hu t ht.1.2 _ _ h1 hv
      rw [if_neg c2] at hv
      rw [if_neg c2, if_neg c2]
      by_cases c3 : f.flatten = true
      · rw [if_pos c3] at hv
        rw [if_pos c3, if_pos c3, patch_resume hB t ht.1.2 _ _ _ h1 hu hv]
      rw [if_neg c3] at hv
      rw [if_neg c3, if_neg c3, patchPlain_resume (g := patch B E t) (uniqueObj_mem hu'.2)
        (fun d w hd hw => patch_resume hB t ht.1.2 _ _ _ h1 hd hw) hv]
    simp only [patchFieldsTrail] at h
    rcases inPlace_mem h with ⟨v, hv, rfl⟩ | ⟨-, vs, hvs, rfl⟩
    · simp only [patchFields]; rw [key v hv]
    · simp only [patchFields]; rw [key _ (patch_field_last hB ht.1.1 ht.1.2 h1), patchFields_resume hB hu fs ht.2 _ _ h2 hvs]
theorem patchExtras_resume {B : Backend σ} (hB : Lawful B) {E : Env} {r : Option (List Str)} {ms : List (Str × Doc σ)}
    (hu : uniqueNames (.obj ms) = true) : ∀ (t : Ty), tyOk t = true → ∀ (old w : Value), HasTy t old →
      w ∈ patchExtrasTrail B E r ms t old → patchExtras B E r ms t w = patchExtras B E r ms t old
  | .map t, ht, old, w, ho, h => by
    simp only [tyOk] at ht
    simp only [uniqueNames, Bool.and_eq_true, decide_eq_true_eq] at hu
    obtain ⟨es, rfl, hs, hall⟩ := hasTy_map ho
    simp only [patchExtrasTrail] at h
    cases r with
    | none => simp only [List.mem_singleton] at h; rw [h]
    | some names =>
      obtain ⟨ws, hw, rfl⟩ := List.mem_map.1 h
      simp only [patchExtras]
      rw [extra_resume (P := HasTy t) (pr := patchRun B E t) (tr := patchTrail B E t) (fun v d => patchRun_res B E t v d)
        (fun v d hv => good_imp (fun w hw => hw.1) (patchTrail_good hB t ht v d hv)) (fresh_typed t ht)
        (fun v w d hv h => patch_typed hB t ht _ _ _ hv h) (fun v w d hd hv h => patch_again hB t ht _ _ _ hv hd h)
        (fun v w d hd hv h => patch_resume hB t ht v w d hv hd h) names ms hu.1 (uniqueObj_mem hu.2) es ws hs hall hw]
  | .leaf _, _, old, w, _, h | .enum _, _, old, w, _, h | .rawEnum _, _, old, w, _, h
  | .enumSet _, _, old, w, _, h | .opt _, _, old, w, _, h | .vec _, _, old, w, _, h
  | .arr _ _, _, old, w, _, h | .record _ _, _, old, w, _, h | .tuple _ _, _, old, w, _, h => by simp only [patchExtras]
end

end Verif.Serial
