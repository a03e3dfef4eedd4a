import Verif.Serial.BlameProof
/-
Which value an error of `patch` blames, and that its text is the text of what it blames.
-/
namespace Verif.Serial
open Verif.Path Verif.Enums

namespace Spec

variable {σ : Type}

def patchMemberLine (k : Str) : Str := txt "error when patching field " ++ k
def patchExtraLine (k : Str) : Str := txt "error when patching extra field " ++ k
def patchTypeLine (n : Str) : Str := txt "error when patching type " ++ n

/-- What an extra member is patched onto: the entry of that name, or a new value. -/
def Onto (u : Ty) (es : List (Str × Value)) (k : Str) (o : Value) : Prop :=
  (k, o) ∈ es ∨ (NoMember es k ∧ o = fresh u)

/-- Patching `old` with `d` fails for the reason `base` somewhere inside; `lines` are the
places around it, from the inside out. -/
inductive PatchBlames (B : Backend σ) (E : Env) : Ty → Value → Doc σ → Str → List Str → Prop
  | other {t o d w ls} : isRecord t = false → isOpt t = false → Blames B E t o d w ls →
      PatchBlames B E t o d w ls
  | opt {t o d w ls} : d ≠ .null → PatchBlames B E t (o.getD (fresh t)) d w ls →
      PatchBlames B E (.opt t) (.opt o) d w ls
  | noObject {n fs o d w ls} : (∀ ms, d ≠ .obj ms) → Blames B E (.record n fs) o d w ls →
      PatchBlames B E (.record n fs) o d w (ls ++ [patchTypeLine n])
  | extra {n fs os ms j f u es i k d o w ls} : NamesChecked fs →
      FirstAt (fun _ (p : (Field × Ty) × Value) =>
        ∃ v, FieldPatches E (fun t o d v => patch B E t o d = .ok v) ms (allNames fs) p.1.1 p.1.2 p.2 v)
        ((fieldList fs).zip os) j ((f, .map u), .map es) →
      f.skipDeser = false → f.extra = true → k ∉ allNames fs →
      FirstAt (fun _ m => m.1 ∉ allNames fs → ∃ o v, Onto u es m.1 o ∧ patch B E u o m.2 = .ok v)
        ms i (k, d) →
      Onto u es k o → PatchBlames B E u o d w ls →
      PatchBlames B E (.record n fs) (.record os) (.obj ms) w (ls ++ [patchExtraLine k, patchTypeLine n])
  | flatten {n fs os ms j f t o w ls} : NamesChecked fs →
      FirstAt (fun _ (p : (Field × Ty) × Value) =>
        ∃ v, FieldPatches E (fun t o d v => patch B E t o d = .ok v) ms (allNames fs) p.1.1 p.1.2 p.2 v)
        ((fieldList fs).zip os) j ((f, t), o) →
      f.skipDeser = false → f.extra = false → f.flatten = true →
      PatchBlames B E t o (.obj ms) w ls →
      PatchBlames B E (.record n fs) (.record os) (.obj ms) w
        (ls ++ [patchMemberLine f.name, patchTypeLine n])
  | field {n fs os ms j f t o d w ls} : NamesChecked fs →
      FirstAt (fun _ (p : (Field × Ty) × Value) =>
        ∃ v, FieldPatches E (fun t o d v => patch B E t o d = .ok v) ms (allNames fs) p.1.1 p.1.2 p.2 v)
        ((fieldList fs).zip os) j ((f, t), o) →
      plain f = true → ReadFrom ms f d → (d ≠ .null ∨ f.defaults = []) → PatchBlames B E t o d w ls →
      PatchBlames B E (.record n fs) (.record os) (.obj ms) w
        (ls ++ [patchMemberLine f.name, patchTypeLine n])
  | fieldInvalid {n fs os ms j f t o d v w} : NamesChecked fs →
      FirstAt (fun _ (p : (Field × Ty) × Value) =>
        ∃ v, FieldPatches E (fun t o d v => patch B E t o d = .ok v) ms (allNames fs) p.1.1 p.1.2 p.2 v)
        ((fieldList fs).zip os) j ((f, t), o) →
      plain f = true → ReadFrom ms f d → (d ≠ .null ∨ f.defaults = []) →
      patch B E t o d = .ok v → Invalid E f v w →
      PatchBlames B E (.record n fs) (.record os) (.obj ms) w [patchMemberLine f.name, patchTypeLine n]

end Spec

open Spec

variable {σ : Type}

/-! ### Extra fields -/

theorem lookup_assign {α : Type} {k k' : Str} {v : α} (h : k' ≠ k) : ∀ {es : List (Str × α)},
    lookup (assignEntry es k v) k' = lookup es k'
  | [] => rfl
  | e :: es => by
    simp only [assignEntry]
    split
    · rename_i hk
      simp [lookup, hk, h.symm]
    · simp only [lookup, lookup_assign h]

theorem lookup_emplace {α : Type} {k k' : Str} {v : α} (h : k' ≠ k) : ∀ {es : List (Str × α)},
    lookup (emplace es k v) k' = lookup es k'
  | [] => by simp [emplace, lookup, h.symm]
  | e :: es => by
    simp only [emplace]
    split
    · simp [lookup, h.symm]
    · split
      · rfl
      · simp only [lookup, lookup_emplace h]

theorem onto_iff {u : Ty} {es : List (Str × Value)} (hs : sorted es = true) {k : Str} {o : Value} :
    Onto u es k o ↔ o = (lookup es k).getD (fresh u) := by
  unfold Onto
  cases hl : lookup es k with
  | none =>
    have := lookup_none.1 hl
    simp only [this, true_and, Option.getD_none, or_iff_right_iff_imp]
    intro h; exact absurd rfl (this _ h)
  | some v =>
    have hm := (lookup_some.1 hl).mem
    simp only [Option.getD_some]
    constructor
    · rintro (h | ⟨h, -⟩)
      · exact sorted_key_inj hs h hm
      · exact absurd rfl (h _ hm)
    · rintro rfl; exact .inl hm

theorem patchExtraEntries_err {p : Value → Doc σ → Res Value} {new : Value} {r : List Str} {e : Exc} :
    ∀ {ms : List (Str × Doc σ)} {out : List (Str × Value)}, (ms.map (·.1)).Nodup →
    (patchExtraEntries p new r ms out = .error e ↔
    ∃ i k d e', FirstAt (fun _ m => m.1 ∉ r → ∃ v, p ((lookup out m.1).getD new) m.2 = .ok v) ms i (k, d) ∧
      k ∉ r ∧ p ((lookup out k).getD new) d = .error e' ∧ e = e'.add (patchExtraLine k))
  | [], out, _ => by simp [patchExtraEntries, firstAt_nil]
  | (k, d) :: ms, out, hn => by
    simp only [List.map_cons, List.nodup_cons] at hn
    have hno : ∀ m ∈ ms, m.1 ≠ k := fun m hm h => hn.1 (h ▸ List.mem_map_of_mem (f := (·.1)) hm)
    simp only [patchExtraEntries]
    by_cases hk : k ∈ r
    · rw [if_pos (by simpa using hk), patchExtraEntries_err hn.2]
      constructor
      · rintro ⟨i, k', d', e', h1, h2, h3, rfl⟩
        exact ⟨i + 1, k', d', e', firstAt_cons.2 (.inr ⟨i, rfl, fun h => absurd hk h, h1⟩), h2, h3, rfl⟩
      · rintro ⟨i, k', d', e', h1, h2, h3, rfl⟩
        rcases firstAt_cons.1 h1 with ⟨rfl, h4⟩ | ⟨i, rfl, -, h3'⟩
        · cases h4; exact absurd hk h2
        · exact ⟨i, k', d', e', h3', h2, h3, rfl⟩
    rw [if_neg (by simpa using hk)]
    have key : ∀ (next : Value → List (Str × Value)),
        (∀ v k', k' ≠ k → lookup (next v) k' = lookup out k') →
        ((match note (txt "error when patching extra field " ++ k) (p ((lookup out k).getD new) d) with
          | .error e => .error e
          | .ok v => patchExtraEntries p new r ms (next v) : Res _) = .error e ↔
        ∃ i k' d' e', FirstAt (fun _ m => m.1 ∉ r → ∃ v, p ((lookup out m.1).getD new) m.2 = .ok v)
          ((k, d) :: ms) i (k', d') ∧ k' ∉ r ∧ p ((lookup out k').getD new) d' = .error e' ∧
          e = e'.add (patchExtraLine k')) := by
      intro next hnext
      cases hd : p ((lookup out k).getD new) d with
      | error e' =>
        simp only [note, Except.error.injEq]
        constructor
        · intro h; exact ⟨0, k, d, e', firstAt_cons.2 (.inl ⟨rfl, rfl⟩), hk, hd, h.symm⟩
        · rintro ⟨i, k', d', e'', h1, h2', h2, h3⟩
          rcases firstAt_cons.1 h1 with ⟨rfl, h4⟩ | ⟨i, -, hv, -⟩
          · cases h4; rw [hd] at h2; cases h2; exact h3.symm
          · obtain ⟨v, hv⟩ := hv hk
            rw [hd] at hv; cases hv
      | ok v =>
        simp only [note]
        rw [patchExtraEntries_err hn.2]
        constructor
        · rintro ⟨i, k', d', e', h1, h2', h2, rfl⟩
          have hne : k' ≠ k := hno _ h1.mem
          rw [hnext v k' hne] at h2
          refine ⟨i + 1, k', d', e', firstAt_cons.2 (.inr ⟨i, rfl, fun _ => ⟨v, hd⟩, h1.imp ?_⟩), h2', h2, rfl⟩
          intro j y hy h
          rwa [hnext v y.1 (hno _ (List.mem_of_getElem? hy))] at h
        · rintro ⟨i, k', d', e', h1, h2', h2, rfl⟩
          rcases firstAt_cons.1 h1 with ⟨rfl, h4⟩ | ⟨i, rfl, -, h3⟩
          · cases h4; rw [hd] at h2; cases h2
          · have hne : k' ≠ k := hno _ h3.mem
            refine ⟨i, k', d', e', h3.imp ?_, h2', by rw [hnext v k' hne]; exact h2, rfl⟩
            intro j y hy h
            rwa [hnext v y.1 (hno _ (List.mem_of_getElem? hy))]
    cases hl : lookup out k with
    | some v0 =>
      have := key (fun v => assignEntry out k v) (fun v k' h => lookup_assign h)
      simp only [hl, Option.getD_some] at this
      exact this
    | none =>
      have := key (fun v => emplace out k v) (fun v k' h => lookup_emplace h)
      simp only [hl, Option.getD_none] at this
      exact this

/-! ### Fields -/

/-- The step for a field. -/
def patchStep (B : Backend σ) (E : Env) (r : Option (List Str)) (ms : List (Str × Doc σ)) (f : Field) (t : Ty)
    (o : Value) : Res Value :=
  if f.skipDeser then .ok o
  else if f.extra then patchExtras B E r ms t o
  else note (txt "error when patching field " ++ f.name)
    (if f.flatten then patch B E t o (.obj ms) else patchPlain E f ms o (patch B E t o))

theorem patchFields_err {B : Backend σ} {E : Env} {r : Option (List Str)} {ms : List (Str × Doc σ)} {e : Exc} :
    ∀ {fs : Fields} {os : List Value}, (fieldList fs).length = os.length →
    (patchFields B E r ms fs os = .error e ↔
    ∃ k f t o, FirstAt (fun _ (p : (Field × Ty) × Value) => ∃ v, patchStep B E r ms p.1.1 p.1.2 p.2 = .ok v)
        ((fieldList fs).zip os) k ((f, t), o) ∧ patchStep B E r ms f t o = .error e)
  | .nil, os, h => by
    cases os with
    | nil => simp [patchFields, fieldList, firstAt_nil]
    | cons o os => simp [fieldList] at h
  | .cons f t fs, os, h => by
    cases os with
    | nil => simp [fieldList] at h
    | cons o os =>
      simp only [patchFields, fieldList, List.zip_cons_cons]
      have hstep : (if f.skipDeser then .ok o
        else if f.extra then patchExtras B E r ms t o
        else
          note (txt "error when patching field " ++ f.name)
            (if f.flatten then patch B E t o (.obj ms)
            else patchPlain E f ms o (patch B E t o)) : Res Value) = patchStep B E r ms f t o := rfl
      rw [hstep]
      cases hd : patchStep B E r ms f t o with
      | error e' =>
        simp only [Except.error.injEq]
        constructor
        · rintro rfl; exact ⟨0, f, t, o, firstAt_cons.2 (.inl ⟨rfl, rfl⟩), hd⟩
        · rintro ⟨k, f', t', o', h1, h2⟩
          rcases firstAt_cons.1 h1 with ⟨rfl, h4⟩ | ⟨k, -, ⟨v, hv⟩, -⟩
          · cases h4
            rw [hd] at h2; cases h2; rfl
          · rw [hd] at hv; cases hv
      | ok v =>
        simp only [map_error]
        rw [patchFields_err (by simpa [fieldList] using h)]
        constructor
        · rintro ⟨k, f', t', o', h1, h2⟩
          exact ⟨k + 1, f', t', o', firstAt_cons.2 (.inr ⟨k, rfl, ⟨v, hd⟩, h1⟩), h2⟩
        · rintro ⟨k, f', t', o', h1, h2⟩
          rcases firstAt_cons.1 h1 with ⟨rfl, h4⟩ | ⟨k, rfl, -, h3⟩
          · cases h4
            rw [hd] at h2; cases h2
          · exact ⟨k, f', t', o', h3, h2⟩

theorem patchPlain_err {E : Env} {f : Field} {ms : List (Str × Doc σ)} {o : Value} {p : Doc σ → Res Value}
    {w : Str} : patchPlain E f ms o p = .error (.deser w) ↔
    ∃ d, ReadFrom ms f d ∧ (d ≠ .null ∨ f.defaults = []) ∧
      (p d = .error (.deser w) ∨ ∃ v, p d = .ok v ∧ Invalid E f v w) := by
  unfold patchPlain
  rcases missing_or ms f with ⟨n, hn, hrf⟩ | ⟨hn, hm⟩
  rotate_left
  · rw [hn]
    simp only [reduceCtorEq, false_iff]
    rintro ⟨d, h, -⟩
    exact Spec.Picks.not_none h hm
  · rw [hn]
    simp only
    generalize atField ms n = d at hrf ⊢
    have huniq : ∀ d', ReadFrom ms f d' ↔ d' = d := by
      intro d'
      constructor
      · intro h; exact Spec.Picks.unique h hrf
      · rintro rfl; exact hrf
    simp only [huniq, exists_eq_left]
    unfold applyDefault
    by_cases hnl : d.isNull = true
    · rw [if_pos hnl]
      have hd := isNull_iff.1 hnl
      cases hh : f.defaults.head? with
      | some v =>
        have : f.defaults ≠ [] := by rintro h; rw [h] at hh; cases hh
        simp [hd, this]
      | none =>
        rw [head?_none] at hh
        simp only [hh, or_true, true_and]
        exact thenValidate_err
    · rw [if_neg hnl]
      have hd : d ≠ .null := fun h => hnl (isNull_iff.2 h)
      simp only [hd, ne_eq, not_false_eq_true, true_or, true_and]
      exact thenValidate_err

theorem patchStep_ok {B : Backend σ} {E : Env} {r : Option (List Str)} {names : List Str}
    {ms : List (Str × Doc σ)} (hn : (ms.map (·.1)).Nodup) {f : Field} {t : Ty} {o v : Value}
    (hf : fieldOk f t = true) (ho : HasTy t o)
    (hr : f.extra = true → ∃ l, r = some l ∧ ∀ n, n ∈ l ↔ n ∈ names) :
    patchStep B E r ms f t o = .ok v ↔
      FieldPatches E (fun t o d v => patch B E t o d = .ok v) ms names f t o v := by
  unfold FieldPatches plain patchStep
  cases c1 : f.skipDeser with
  | true =>
    simp only [if_true, Except.ok.injEq, forall_const, Bool.true_eq_false, false_implies,
      and_true, Bool.not_true, Bool.false_and, Bool.false_eq_true]
    exact eq_comm
  | false =>
    simp only [Bool.false_eq_true, if_false, false_implies, true_and, forall_const,
      Bool.not_false, Bool.true_and]
    cases c2 : f.extra with
    | true =>
      simp only [if_true, forall_const, Bool.true_eq_false, false_implies, and_true,
        Bool.not_true, Bool.false_and, Bool.false_eq_true]
      obtain ⟨l, rfl, hl⟩ := hr c2
      obtain ⟨u, rfl⟩ := isMap_iff.1 ((fieldOk_iff.1 hf).2.2.2 c2)
      obtain ⟨es, rfl, hs, -⟩ := hasTy_map ho
      simp only [patchExtras, map_ok, patchExtraEntries_char hn hs, hl]
      constructor
      · rintro ⟨es', ⟨h1, h2, h3⟩, rfl⟩
        exact ⟨u, es, es', rfl, rfl, rfl, h1, h2, h3⟩
      · rintro ⟨u', es1, es', h, h', rfl, h1, h2, h3⟩
        cases h; cases h'
        exact ⟨es', ⟨h1, h2, h3⟩, rfl⟩
    | false =>
      simp only [Bool.false_eq_true, if_false, false_implies, true_and, forall_const, note_ok,
        Bool.not_false, Bool.true_and]
      cases c3 : f.flatten with
      | true => simp
      | false =>
        simp only [Bool.false_eq_true, if_false, false_implies, true_and, forall_const,
          Bool.not_false]
        exact patchPlain_ok

theorem patchStep_err {B : Backend σ} {E : Env} {r : Option (List Str)} {names : List Str}
    {ms : List (Str × Doc σ)} (hn : (ms.map (·.1)).Nodup) {f : Field} {t : Ty} {o : Value} {w : Str}
    (hf : fieldOk f t = true) (ho : HasTy t o)
    (hr : f.extra = true → ∃ l, r = some l ∧ ∀ n, n ∈ l ↔ n ∈ names) :
    patchStep B E r ms f t o = .error (.deser w) ↔
      (f.skipDeser = false ∧ f.extra = true ∧ ∃ u es i k d o' w', t = .map u ∧ o = .map es ∧
        FirstAt (fun _ m => m.1 ∉ names → ∃ o v, Onto u es m.1 o ∧ patch B E u o m.2 = .ok v) ms i (k, d) ∧
        k ∉ names ∧ Onto u es k o' ∧
        patch B E u o' d = .error (.deser w') ∧ w = w' ++ [0x0A#8] ++ patchExtraLine k) ∨
      (f.skipDeser = false ∧ f.extra = false ∧ f.flatten = true ∧ ∃ w',
        patch B E t o (.obj ms) = .error (.deser w') ∧ w = w' ++ [0x0A#8] ++ patchMemberLine f.name) ∨
      (plain f = true ∧ ∃ d w', (ReadFrom ms f d ∧ (d ≠ .null ∨ f.defaults = [])) ∧
        (patch B E t o d = .error (.deser w') ∨ ∃ v, patch B E t o d = .ok v ∧ Invalid E f v w') ∧
        w = w' ++ [0x0A#8] ++ patchMemberLine f.name) := by
  unfold plain patchStep
  cases c1 : f.skipDeser with
  | true => simp
  | false =>
    simp only [Bool.false_eq_true, if_false, true_and, Bool.not_false, Bool.true_and]
    cases c2 : f.extra with
    | true =>
      obtain ⟨l, rfl, hl⟩ := hr c2
      obtain ⟨u, rfl⟩ := isMap_iff.1 ((fieldOk_iff.1 hf).2.2.2 c2)
      obtain ⟨es, rfl, hs, -⟩ := hasTy_map ho
      simp only [if_true, Bool.true_eq_false, true_and, false_and, Bool.not_true, Bool.false_and,
        Bool.false_eq_true, or_false, patchExtras, map_error, patchExtraEntries_err hn, hl, add_deser']
      constructor
      · rintro ⟨i, k, d, e', h1, h2, h3, w', rfl, h4⟩
        exact ⟨u, es, i, k, d, _, w', rfl, rfl, h1.imp fun j y _ hy hn =>
          let ⟨v, hv⟩ := hy hn; ⟨_, v, (onto_iff hs).2 rfl, hv⟩, h2, (onto_iff hs).2 rfl, h3, h4⟩
      · rintro ⟨u', es', i, k, d, o', w', h, h', h1, h2, h2', h3, h4⟩
        cases h; cases h'
        cases (onto_iff hs).1 h2'
        refine ⟨i, k, d, _, h1.imp fun j y _ hy hn => ?_, h2, h3, w', rfl, h4⟩
        obtain ⟨o, v, ho, hv⟩ := hy hn
        cases (onto_iff hs).1 ho
        exact ⟨v, hv⟩
    | false =>
      have hmsg : txt "error when patching field " ++ f.name = patchMemberLine f.name := rfl
      simp only [Bool.false_eq_true, if_false, true_and, Bool.not_false, Bool.true_and, false_and, false_or,
        note_deser, hmsg]
      cases c3 : f.flatten with
      | true => simp
      | false =>
        simp only [Bool.false_eq_true, if_false, true_and, Bool.not_false, false_and, false_or, patchPlain_err]
        constructor
        · rintro ⟨w', ⟨d, h1, h1', h2⟩, h3⟩; exact ⟨d, w', ⟨h1, h1'⟩, h2, h3⟩
        · rintro ⟨d, w', ⟨h1, h1'⟩, h2, h3⟩; exact ⟨w', ⟨d, h1, h1', h2⟩, h3⟩

theorem patch_obj_err {B : Backend σ} {E : Env} {n : Str} {fs : Fields} {os : List Value}
    {ms : List (Str × Doc σ)} (hu : (ms.map (·.1)).Nodup) {w : Str} (hf : fieldsOk fs = true)
    (ho : hasFields fs os = true) :
    patch B E (.record n fs) (.record os) (.obj ms) = .error (.deser w) ↔
    NamesChecked fs ∧ ∃ j f t o w', FirstAt (fun _ (p : (Field × Ty) × Value) =>
        ∃ v, FieldPatches E (fun t o d v => patch B E t o d = .ok v) ms (allNames fs) p.1.1 p.1.2 p.2 v)
        ((fieldList fs).zip os) j ((f, t), o) ∧
      (∀ r, ReservedFor r (allNames fs) fs → patchStep B E r ms f t o = .error (.deser w')) ∧
      w = w' ++ [0x0A#8] ++ patchTypeLine n := by
  obtain ⟨hlen, hz⟩ := zip_typed ho
  have conv : ∀ r, ReservedFor r (allNames fs) fs → ∀ j f t o,
      FirstAt (fun _ (p : (Field × Ty) × Value) =>
        ∃ v, FieldPatches E (fun t o d v => patch B E t o d = .ok v) ms (allNames fs) p.1.1 p.1.2 p.2 v)
        ((fieldList fs).zip os) j ((f, t), o) ↔
      FirstAt (fun _ (p : (Field × Ty) × Value) => ∃ v, patchStep B E r ms p.1.1 p.1.2 p.2 = .ok v)
        ((fieldList fs).zip os) j ((f, t), o) := by
    intro r hr j f t o
    constructor
    · intro h
      refine h.imp ?_
      rintro j ⟨⟨f', t'⟩, o'⟩ hm ⟨v, hv⟩
      obtain ⟨ho', hm'⟩ := hz _ _ _ (List.mem_of_getElem? hm)
      exact ⟨v, (patchStep_ok hu (fieldsOk_mem hf _ _ hm').1 ho' (fun he => reserved_mem hr hm' he)).2 hv⟩
    · intro h
      refine h.imp ?_
      rintro j ⟨⟨f', t'⟩, o'⟩ hm ⟨v, hv⟩
      obtain ⟨ho', hm'⟩ := hz _ _ _ (List.mem_of_getElem? hm)
      exact ⟨v, (patchStep_ok hu (fieldsOk_mem hf _ _ hm').1 ho' (fun he => reserved_mem hr hm' he)).1 hv⟩
  simp only [patch, note_deser]
  cases hr : reservedNames fs with
  | error e =>
    simp only
    constructor
    · rintro ⟨w', h1, h2⟩
      cases h1
      obtain ⟨_, h⟩ := reservedNames_err hf hr
      cases h
    · rintro ⟨hn, -⟩
      obtain ⟨r, hr'⟩ := namesChecked_ok hf hn
      rw [hr] at hr'; cases hr'
  | ok r =>
    obtain ⟨h1, h2⟩ := reservedFor hf hr
    simp only [map_error, patchFields_err hlen]
    constructor
    · rintro ⟨w', ⟨j, f, t, o, h3, h4⟩, h5⟩
      refine ⟨h1, j, f, t, o, w', (conv r h2 _ _ _ _).2 h3, ?_, h5⟩
      intro r' hr'
      obtain ⟨ho', hm'⟩ := hz _ _ _ h3.mem
      have hf' := (fieldsOk_mem hf _ _ hm').1
      exact (patchStep_err hu hf' ho' (fun he => reserved_mem hr' hm' he)).2
        ((patchStep_err hu hf' ho' (fun he => reserved_mem h2 hm' he)).1 h4)
    · rintro ⟨-, j, f, t, o, w', h3, h4, h5⟩
      exact ⟨w', ⟨j, f, t, o, (conv r h2 _ _ _ _).1 h3, h4 r h2⟩, h5⟩

/-! ### An error blames something -/

/-- Errors of patching `t` blame something. -/
def PatchExplains (B : Backend σ) (E : Env) (t : Ty) : Prop :=
  ∀ (o : Value) (d : Doc σ) (w : Str), HasTy t o → uniqueNames d = true →
    patch B E t o d = .error (.deser w) → ∃ base ls, PatchBlames B E t o d base ls ∧ w = text base ls

theorem unique_obj {ms : List (Str × Doc σ)} (h : uniqueNames (.obj ms) = true) :
    (ms.map (·.1)).Nodup ∧ ∀ m ∈ ms, uniqueNames m.2 = true := by
  simp only [uniqueNames, Bool.and_eq_true, decide_eq_true_eq] at h
  exact ⟨h.1, uniqueObj_iff.1 h.2⟩

theorem readFrom_mem {ms : List (Str × Doc σ)} {f : Field} {d : Doc σ} (h : ReadFrom ms f d) :
    ∃ k, (k, d) ∈ ms := by
  obtain ⟨_, n, _, -, -, h⟩ := h
  exact ⟨n, h.mem⟩

theorem onto_typed {u : Ty} (hu : tyOk u = true) {es : List (Str × Value)} (he : HasTy (.map u) (.map es))
    {k : Str} {o : Value} (h : Onto u es k o) : HasTy u o := by
  rcases h with h | ⟨-, rfl⟩
  · obtain ⟨es', heq, -, h2⟩ := hasTy_map he
    cases heq
    exact h2 _ h
  · exact fresh_typed u hu

theorem patch_explains_record {B : Backend σ} {E : Env} {n : Str} {fs : Fields}
    (ht : tyOk (.record n fs) = true)
    (h : ∀ f t, (f, t) ∈ fieldList fs → PatchExplains B E t ∧ ∀ u, t = .map u → PatchExplains B E u) :
    PatchExplains B E (.record n fs) := by
  have hf : fieldsOk fs = true := by simp only [tyOk, Bool.and_eq_true] at ht; exact ht.1.1
  intro o d w ho hun hw
  obtain ⟨os, rfl, ho'⟩ := hasTy_record ho
  obtain ⟨hlen, hz⟩ := zip_typed ho'
  have other : (∀ ms, d ≠ .obj ms) → ∃ base ls, PatchBlames B E (.record n fs) (.record os) d base ls ∧ w = text base ls := by
    intro hd
    have : patch B E (.record n fs) (.record os) d = note (patchTypeLine n) (deser B E (.record n fs) (.record os) d) := by
      cases d with
      | obj ms => exact absurd rfl (hd ms)
      | _ => simp only [patch]; rfl
    rw [this, note_deser] at hw
    obtain ⟨w', h1, rfl⟩ := hw
    obtain ⟨base, ls, h2, rfl⟩ := explains _ ht _ _ _ ho h1
    exact ⟨base, _, .noObject hd h2, by rw [text_snoc]⟩
  cases d with
  | obj ms =>
    obtain ⟨hu, hum⟩ := unique_obj hun
    rw [patch_obj_err hu hf ho'] at hw
    obtain ⟨hn, j, f, t, o, w', hat, hst, rfl⟩ := hw
    obtain ⟨r, hr⟩ := namesChecked_ok hf hn
    have h2 := (reservedFor hf hr).2
    obtain ⟨hto, hm⟩ := hz _ _ _ hat.mem
    have hf' := fieldsOk_mem hf _ _ hm
    rcases (patchStep_err hu hf'.1 hto (fun he => reserved_mem h2 hm he)).1 (hst r h2) with
      ⟨c1, c2, u, es, i, k, d, o', w'', rfl, rfl, h3, h4, h4', h5, rfl⟩ | ⟨c1, c2, c3, w'', h3, rfl⟩ |
      ⟨c1, d, w'', ⟨h3, h3'⟩, h4 | ⟨v, h4, h5⟩, rfl⟩
    · obtain ⟨base, ls, h6, rfl⟩ := (h _ _ hm).2 u rfl o' d w''
        (onto_typed (by simpa [tyOk] using hf'.2) hto h4') (hum _ h3.mem) h5
      exact ⟨base, _, .extra hn hat c1 c2 h4 h3 h4' h6, by rw [text_snoc2]⟩
    · obtain ⟨base, ls, h6, rfl⟩ := (h _ _ hm).1 o _ _ hto hun h3
      exact ⟨base, _, .flatten hn hat c1 c2 c3 h6, by rw [text_snoc2]⟩
    · obtain ⟨k, hk⟩ := readFrom_mem h3
      obtain ⟨base, ls, h6, rfl⟩ := (h _ _ hm).1 o _ _ hto (hum _ hk) h4
      exact ⟨base, _, .field hn hat c1 h3 h3' h6, by rw [text_snoc2]⟩
    · exact ⟨w'', _, .fieldInvalid hn hat c1 h3 h3' h4 h5, by simp [text]⟩
  | _ => exact other (by simp)

theorem patch_explains_other {B : Backend σ} {E : Env} {t : Ty} (ht : tyOk t = true) (h1 : isRecord t = false)
    (h2 : isOpt t = false) : PatchExplains B E t := by
  intro o d w ho _ hw
  have : patch B E t o d = deser B E t o d := by
    cases t <;> simp [isRecord, isOpt] at h1 h2 <;> simp only [patch]
  rw [this] at hw
  obtain ⟨base, ls, h3, h4⟩ := explains _ ht _ _ _ ho hw
  exact ⟨base, ls, .other h1 h2 h3, h4⟩

mutual
theorem patch_explains {B : Backend σ} {E : Env} : ∀ (t : Ty), tyOk t = true → PatchExplains B E t
  | .leaf l, ht => patch_explains_other ht rfl rfl
  | .enum e, ht => patch_explains_other ht rfl rfl
  | .rawEnum t, ht => patch_explains_other ht rfl rfl
  | .enumSet e, ht => patch_explains_other ht rfl rfl
  | .vec t, ht => patch_explains_other ht rfl rfl
  | .arr n t, ht => patch_explains_other ht rfl rfl
  | .map t, ht => patch_explains_other ht rfl rfl
  | .tuple b ts, ht => patch_explains_other ht rfl rfl
  | .opt t, ht => by
    have ht' : tyOk t = true := by simpa [tyOk] using ht
    have ih := patch_explains (B := B) (E := E) t ht'
    intro o d w ho hu h
    simp only [patch] at h
    split at h
    · cases h
    rename_i hn
    have hd : d ≠ .null := fun h => hn (isNull_iff.2 h)
    cases o with
    | opt o =>
      cases o with
      | none =>
        simp only [map_error] at h
        obtain ⟨base, ls, h1, h2⟩ := ih _ _ _ (fresh_typed t ht') hu h
        exact ⟨base, ls, .opt hd h1, h2⟩
      | some v =>
        simp only [map_error] at h
        obtain ⟨base, ls, h1, h2⟩ := ih v _ _ (by simpa [HasTy, hasTy] using ho) hu h
        exact ⟨base, ls, .opt hd h1, h2⟩
    | _ => cases h
  | .record n fs, ht => patch_explains_record ht (patch_explains_fields fs
      (by simp only [tyOk, Bool.and_eq_true] at ht; exact ht.1.1))
theorem patch_explains_elem {B : Backend σ} {E : Env} : ∀ (t : Ty), tyOk t = true →
    ∀ u, t = .map u → PatchExplains B E u
  | .map u, ht, u', h => by
    have := patch_explains (B := B) (E := E) u (by simpa [tyOk] using ht)
    cases h
    exact this
  | .leaf _, _, _, h => by cases h
  | .enum _, _, _, h => by cases h
  | .rawEnum _, _, _, h => by cases h
  | .enumSet _, _, _, h => by cases h
  | .vec _, _, _, h => by cases h
  | .arr _ _, _, _, h => by cases h
  | .opt _, _, _, h => by cases h
  | .tuple _ _, _, _, h => by cases h
  | .record _ _, _, _, h => by cases h
theorem patch_explains_fields {B : Backend σ} {E : Env} : ∀ (fs : Fields), fieldsOk fs = true →
    ∀ f t, (f, t) ∈ fieldList fs → PatchExplains B E t ∧ ∀ u, t = .map u → PatchExplains B E u
  | .nil, _, f, t, h => by simp [fieldList] at h
  | .cons f t fs, hfs, f', t', h => by
    simp only [fieldsOk, Bool.and_eq_true] at hfs
    have h1 := patch_explains (B := B) (E := E) t hfs.1.2
    have h1' := patch_explains_elem (B := B) (E := E) t hfs.1.2
    have h2 := patch_explains_fields (B := B) (E := E) fs hfs.2
    simp only [fieldList, List.mem_cons] at h
    rcases h with h | h
    · cases h; exact ⟨h1, h1'⟩
    · exact h2 _ _ h
end

/-! ### What is blamed is thrown -/

theorem patch_throws {B : Backend σ} {E : Env} {t : Ty} {o : Value} {d : Doc σ} {w : Str} {ls : List Str}
    (h : PatchBlames B E t o d w ls) : tyOk t = true → HasTy t o → uniqueNames d = true →
      patch B E t o d = .error (.deser (text w ls)) := by
  induction h with
  | @other t o d w ls h1 h2 h3 =>
    intro ht ho _
    have : patch B E t o d = deser B E t o d := by
      cases t <;> simp [isRecord, isOpt] at h1 h2 <;> simp only [patch]
    rw [this]
    exact blames_throws h3 ht ho
  | @opt t o d w ls hd h ih =>
    intro ht ho hu
    have ht' : tyOk t = true := by simpa [tyOk] using ht
    simp only [patch, if_neg (fun h => hd (isNull_iff.1 h))]
    cases o with
    | none => simp only [map_error]; exact ih ht' (fresh_typed t ht') hu
    | some v => simp only [map_error]; exact ih ht' (by simpa [HasTy, hasTy] using ho) hu
  | @noObject n fs o d w ls hd h =>
    intro ht ho _
    have : patch B E (.record n fs) o d = note (patchTypeLine n) (deser B E (.record n fs) o d) := by
      cases d with
      | obj ms => exact absurd rfl (hd ms)
      | _ => simp only [patch]; rfl
    rw [this, note_deser]
    exact ⟨_, blames_throws h ht ho, text_snoc⟩
  | extra hn hat c1 c2 hk hat' hon h ih =>
    intro ht ho hun
    obtain ⟨os', heq, ho'⟩ := hasTy_record ho
    cases heq
    obtain ⟨hu, hum⟩ := unique_obj hun
    simp only [tyOk, Bool.and_eq_true] at ht
    obtain ⟨h4, h5⟩ := (zip_typed ho').2 _ _ _ hat.mem
    obtain ⟨h6, h7⟩ := fieldsOk_mem ht.1.1 _ _ h5
    simp only [tyOk] at h7
    exact (patch_obj_err hu ht.1.1 ho').2 ⟨hn, _, _, _, _, _, hat, fun r hr =>
      (patchStep_err hu h6 h4 (fun he => reserved_mem hr h5 he)).2
        (.inl ⟨c1, c2, _, _, _, _, _, _, _, rfl, rfl, hat', hk, hon,
          ih h7 (onto_typed h7 h4 hon) (hum _ hat'.mem), rfl⟩), text_snoc2⟩
  | flatten hn hat c1 c2 c3 h ih =>
    intro ht ho hun
    obtain ⟨os', heq, ho'⟩ := hasTy_record ho
    cases heq
    obtain ⟨hu, hum⟩ := unique_obj hun
    simp only [tyOk, Bool.and_eq_true] at ht
    obtain ⟨h4, h5⟩ := (zip_typed ho').2 _ _ _ hat.mem
    obtain ⟨h6, h7⟩ := fieldsOk_mem ht.1.1 _ _ h5
    exact (patch_obj_err hu ht.1.1 ho').2 ⟨hn, _, _, _, _, _, hat, fun r hr =>
      (patchStep_err hu h6 h4 (fun he => reserved_mem hr h5 he)).2
        (.inr (.inl ⟨c1, c2, c3, _, ih h7 h4 hun, rfl⟩)), text_snoc2⟩
  | field hn hat c1 hc hc' h ih =>
    intro ht ho hun
    obtain ⟨os', heq, ho'⟩ := hasTy_record ho
    cases heq
    obtain ⟨hu, hum⟩ := unique_obj hun
    simp only [tyOk, Bool.and_eq_true] at ht
    obtain ⟨h4, h5⟩ := (zip_typed ho').2 _ _ _ hat.mem
    obtain ⟨h6, h7⟩ := fieldsOk_mem ht.1.1 _ _ h5
    obtain ⟨k, hk⟩ := readFrom_mem hc
    exact (patch_obj_err hu ht.1.1 ho').2 ⟨hn, _, _, _, _, _, hat, fun r hr =>
      (patchStep_err hu h6 h4 (fun he => reserved_mem hr h5 he)).2
        (.inr (.inr ⟨c1, _, _, ⟨hc, hc'⟩, .inl (ih h7 h4 (hum _ hk)), rfl⟩)), text_snoc2⟩
  | fieldInvalid hn hat c1 hc hc' hv hi =>
    intro ht ho hun
    obtain ⟨os', heq, ho'⟩ := hasTy_record ho
    cases heq
    obtain ⟨hu, hum⟩ := unique_obj hun
    simp only [tyOk, Bool.and_eq_true] at ht
    obtain ⟨h4, h5⟩ := (zip_typed ho').2 _ _ _ hat.mem
    obtain ⟨h6, h7⟩ := fieldsOk_mem ht.1.1 _ _ h5
    exact (patch_obj_err hu ht.1.1 ho').2 ⟨hn, _, _, _, _, _, hat, fun r hr =>
      (patchStep_err hu h6 h4 (fun he => reserved_mem hr h5 he)).2
        (.inr (.inr ⟨c1, _, _, ⟨hc, hc'⟩, .inr ⟨_, hv, hi⟩, rfl⟩)), by simp [text]⟩

end Verif.Serial
