import Verif.Serial.Trail
import Verif.Serial.StateKeep
/-
Lemmas: where trails begin and end, and what holds all along.
-/
namespace Verif.Serial
open Verif.Path Verif.Enums Spec

variable {σ : Type}

/-- From `old` to `fin`, and `P` all the way. -/
structure Good {α : Type} (P : α → Prop) (old fin : α) (tr : List α) : Prop where
  head : tr.head? = some old
  last : tr.getLast? = some fin
  all : ∀ w ∈ tr, P w

theorem good_one {α : Type} {P : α → Prop} {o : α} (h : P o) : Good P o o [o] :=
  ⟨rfl, rfl, fun w hw => by simp only [List.mem_cons, List.not_mem_nil, or_false] at hw; subst hw; exact h⟩

theorem good_cons {α : Type} {P : α → Prop} {o x f : α} {tr : List α} (h : P o) (g : Good P x f tr) : Good P o f (o :: tr) := by
  refine ⟨rfl, ?_, fun w hw => ?_⟩
  · rw [List.getLast?_cons, g.last]; rfl
  · rcases List.mem_cons.1 hw with rfl | hw
    · exact h
    · exact g.all w hw

theorem good_two {α : Type} {P : α → Prop} {o v : α} (h : P o) (hv : P v) : Good P o v [o, v] := good_cons h (good_one hv)

theorem good_map {α β : Type} {P : α → Prop} {Q : β → Prop} {o f : α} {tr : List α} (k : α → β) (hk : ∀ w, P w → Q (k w))
    (g : Good P o f tr) : Good Q (k o) (k f) (tr.map k) := by
  refine ⟨?_, ?_, fun w hw => ?_⟩
  · rw [List.head?_map, g.head]; rfl
  · rw [List.getLast?_map, g.last]; rfl
  · obtain ⟨v, hv, rfl⟩ := List.mem_map.1 hw
    exact hk v (g.all v hv)

theorem good_append {α : Type} {P : α → Prop} {o f x y : α} {tr tr' : List α} (g : Good P o f tr) (g' : Good P x y tr') :
    Good P o y (tr ++ tr') := by
  refine ⟨?_, ?_, fun w hw => ?_⟩
  · rw [List.head?_append, g.head]; rfl
  · rw [List.getLast?_append, g'.last]; rfl
  · rcases List.mem_append.1 hw with hw | hw
    · exact g.all w hw
    · exact g'.all w hw

theorem good_imp {α : Type} {P Q : α → Prop} {o f : α} {tr : List α} (h : ∀ w, P w → Q w) (g : Good P o f tr) : Good Q o f tr :=
  ⟨g.head, g.last, fun w hw => h w (g.all w hw)⟩

theorem assignTrail_good {α : Type} {P : α → Prop} {old : α} {r : Res α} (ho : P old) (hr : ∀ v, r = .ok v → P v) :
    Good P old (assign old r).1 (assignTrail old r) := by
  cases r with
  | error e => exact good_one ho
  | ok v => exact good_two ho (hr v rfl)

theorem inPlace_good {P : Value → Prop} {R Q : List Value → Prop} {r : Run Value} {old : Value} {olds fin : List Value} {tr : List Value}
    {others : List (List Value)} (g : Good P old r.1 tr) (g' : Good R olds fin others) (h1 : ∀ v, P v → Q (v :: olds))
    (h2 : ∀ vs, R vs → Q (r.1 :: vs)) :
    Good Q (old :: olds) (match r.2 with | some _ => r.1 :: olds | none => r.1 :: fin) (inPlace r tr olds others) := by
  unfold inPlace
  have a := good_map (Q := Q) (fun v => v :: olds) h1 g
  rcases r with ⟨v, _ | e⟩
  · exact good_append a (good_map (Q := Q) (fun vs => v :: vs) h2 g')
  · simpa using a

theorem setTrail_good {B : Backend σ} {e : EnumTy} : ∀ (l : List (Doc σ)) (out : EnumSet e.under.signed e.under.w),
    Good (fun _ => True) out (setRun B e l out).1 (setTrail B e l out)
  | [], out => good_one trivial
  | d :: ds, out => by
    simp only [setTrail, setRun]
    cases deserEnum B e d with
    | error x => exact good_one trivial
    | ok n => exact good_cons trivial (setTrail_good ds _)

theorem itemsTrail_good {P : Value → Prop} {f : Doc σ → Res Value} (hf : ∀ d v, f d = .ok v → P v) :
    ∀ (l : List (Doc σ)) (out : List Value), (∀ x ∈ out, P x) →
      Good (fun vs => ∀ x ∈ vs, P x) out (itemsRun f l out).1 (itemsTrail f l out)
  | [], out, ho => good_one ho
  | d :: ds, out, ho => by
    simp only [itemsTrail, itemsRun]
    cases h : f d with
    | error e => exact good_one ho
    | ok v =>
      refine good_cons ho (itemsTrail_good hf ds _ fun x hx => ?_)
      rcases List.mem_append.1 hx with hx | hx
      · exact ho x hx
      · simp only [List.mem_cons, List.not_mem_nil, or_false] at hx
        subst hx
        exact hf d x h

theorem entriesTrail_good {P : Value → Prop} {f : Doc σ → Res Value} (hf : ∀ d v, f d = .ok v → P v) :
    ∀ (ms : List (Str × Doc σ)) (out : List (Str × Value)), sorted out = true → (∀ e ∈ out, P e.2) →
      Good (fun es => sorted es = true ∧ ∀ e ∈ es, P e.2) out (entriesRun f ms out).1 (entriesTrail f ms out)
  | [], out, hs, ho => good_one ⟨hs, ho⟩
  | (k, d) :: ms, out, hs, ho => by
    simp only [entriesTrail, entriesRun]
    cases h : f d with
    | error e => exact good_one ⟨hs, ho⟩
    | ok v =>
      have := emplace_inv (k := k) hs ho (hf d v h)
      exact good_cons ⟨hs, ho⟩ (entriesTrail_good hf ms _ this.1 this.2)

theorem extraEntriesTrail_good {P : Value → Prop} {f : Doc σ → Res Value} (hf : ∀ d v, f d = .ok v → P v) (r : List Str) :
    ∀ (ms : List (Str × Doc σ)) (out : List (Str × Value)), sorted out = true → (∀ e ∈ out, P e.2) →
      Good (fun es => sorted es = true ∧ ∀ e ∈ es, P e.2) out (extraEntriesRun f r ms out).1 (extraEntriesTrail f r ms out)
  | [], out, hs, ho => good_one ⟨hs, ho⟩
  | (k, d) :: ms, out, hs, ho => by
    simp only [extraEntriesTrail, extraEntriesRun]
    split
    · exact extraEntriesTrail_good hf r ms out hs ho
    cases h : f d with
    | error e => exact good_one ⟨hs, ho⟩
    | ok v =>
      have := emplace_inv (k := k) hs ho (hf d v h)
      exact good_cons ⟨hs, ho⟩ (extraEntriesTrail_good hf r ms _ this.1 this.2)

theorem fixedTrail_good {P : Value → Prop} {f : Value → Doc σ → Run Value} {tr : Value → Doc σ → List Value}
    (hf : ∀ o d, P o → Good P o (f o d).1 (tr o d)) (hr : ∀ o d, P o → P (f o d).1) (l : List (Doc σ)) :
    ∀ (i : Nat) (os : List Value), (∀ x ∈ os, P x) →
      Good (fun vs => vs.length = os.length ∧ ∀ x ∈ vs, P x) os (fixedRun f l i os).1 (fixedTrail f tr l i os)
  | _, [], _ => good_one ⟨rfl, by simp⟩
  | i, o :: os, ho => by
    simp only [fixedTrail, fixedRun]
    have ho1 := ho o (by simp)
    have ih := fixedTrail_good hf hr l (i + 1) os fun x hx => ho x (by simp [hx])
    have g := inPlace_good (Q := fun vs => vs.length = (o :: os).length ∧ ∀ x ∈ vs, P x) (hf o (atIndex l i) ho1) ih
      (fun v hv => ⟨rfl, fun x hx => by
        rcases List.mem_cons.1 hx with rfl | hx
        · exact hv
        · exact ho x (by simp [hx])⟩)
      (fun vs hvs => ⟨by simp [hvs.1], fun x hx => by
        rcases List.mem_cons.1 hx with rfl | hx
        · exact hr o _ ho1
        · exact hvs.2 x hx⟩)
    generalize f o (atIndex l i) = x at g
    rcases x with ⟨v, _ | e⟩
    · exact g
    · exact g

theorem readPlainTrail_good {E : Env} {f : Field} {t : Ty} (hf : fieldOk f t = true) {ms : List (Str × Doc σ)} {old : Value}
    {read : Doc σ → Run Value} {tr : Doc σ → List Value} (ho : HasTy t old) (hr : ∀ d, Good (HasTy t) old (read d).1 (tr d)) :
    Good (HasTy t) old (readPlainRun E f ms old read).1 (readPlainTrail f ms old tr) := by
  unfold readPlainRun readPlainTrail
  cases resolveName ms f with
  | none =>
    simp only
    cases h : missingPolicy f old with
    | some v => exact good_two ho (missingPolicy_typed hf ho h)
    | none => simp only; rw [validateRun_left]; exact hr _
  | some name =>
    simp only
    generalize hm : (if (atField ms name).isNull then applyDefault f else none) = x
    cases x with
    | some v =>
      refine good_two ho ?_
      split at hm
      · exact (fieldOk_iff.1 hf).2.1 _ (applyDefault_mem hm)
      · cases hm
    | none => simp only; rw [validateRun_left]; exact hr _

theorem extrasTrail_good {B : Backend σ} (hB : Lawful B) {E : Env} (r : Option (List Str)) (ms : List (Str × Doc σ)) (t : Ty)
    (ht : tyOk t = true) (old : Value) (ho : HasTy t old) :
    Good (HasTy t) old (extrasRun B E r ms t old).1 (extrasTrail B E r ms t old) := by
  cases t <;> try exact good_one ho
  rename_i t
  simp only [tyOk] at ht
  cases r with
  | none => exact good_one ho
  | some names =>
    refine good_cons ho (good_map Value.map (fun w hw => hasTy_mkMap hw) (extraEntriesTrail_good (P := HasTy t)
      (fun d v h => deser_typed hB t ht _ _ _ (fresh_typed t ht) h) names ms [] sorted_nil (by simp)))

mutual
theorem deserTrail_good {B : Backend σ} (hB : Lawful B) {E : Env} : ∀ (t : Ty), tyOk t = true →
    ∀ (old : Value) (d : Doc σ), HasTy t old → Good (HasTy t) old (deserRun B E t old d).1 (deserTrail B E t old d)
  | .leaf l, ht, old, d, ho => by
    simp only [deserRun, deserTrail]
    refine assignTrail_good ho fun v h => deser_typed hB (.leaf l) ht old v d ho (E := E) ?_
    simpa only [deser] using h
  | .enum e, ht, old, d, ho => by
    simp only [deserRun, deserTrail]
    refine assignTrail_good ho fun v h => deser_typed hB (.enum e) ht old v d ho (E := E) ?_
    simpa only [deser] using h
  | .rawEnum i, ht, old, d, ho => by
    simp only [deserRun, deserTrail]
    refine assignTrail_good ho fun v h => deser_typed hB (.rawEnum i) ht old v d ho (E := E) ?_
    simpa only [deser] using h
  | .enumSet e, ht, old, d, ho => by
    simp only [deserRun, deserTrail]
    cases elements B d with
    | error x => exact good_one ho
    | ok l =>
      exact good_cons ho (good_map (fun s : EnumSet e.under.signed e.under.w => Value.bits s.value.toNat)
        (fun w _ => by simp [HasTy, hasTy, BitVec.isLt]) (setTrail_good l .empty))
  | .opt t, ht, old, d, ho => by
    have ht' := ht
    simp only [tyOk] at ht'
    simp only [deserRun, deserTrail]
    split
    · exact good_two ho (by simp [HasTy, hasTy])
    · refine assignTrail_good ho fun v h => ?_
      rw [map_ok] at h
      obtain ⟨w, h, rfl⟩ := h
      simpa [HasTy, hasTy] using deser_typed hB t ht' _ _ _ (fresh_typed t ht') h
  | .vec t, ht, old, d, ho => by
    simp only [tyOk] at ht
    simp only [deserRun, deserTrail]
    cases elements B d with
    | error x => exact good_one ho
    | ok l =>
      refine good_cons ho (good_map Value.seq (fun w hw => ?_) (itemsTrail_good (P := HasTy t)
        (fun d v h => deser_typed hB t ht _ _ _ (fresh_typed t ht) h) l [] (by simp)))
      simp only [HasTy, hasTy, List.all_eq_true]
      exact hw
  | .arr n t, ht, old, d, ho => by
    simp only [tyOk] at ht
    obtain ⟨vs, rfl, hl, hall⟩ := hasTy_arr ho
    simp only [deserRun, deserTrail]
    cases elements B d with
    | error x => exact good_one ho
    | ok l =>
      simp only
      split
      · exact good_one ho
      · refine good_map Value.seq (fun w hw => ?_) (fixedTrail_good (P := HasTy t)
          (fun o d h => deserTrail_good hB (E := E) t ht o d h) (fun o d h => deserRun_typed hB (E := E) t ht o d h) l 0 vs hall)
        simp only [HasTy, hasTy, List.all_eq_true, Bool.and_eq_true, decide_eq_true_eq]
        exact ⟨by rw [hw.1, hl], hw.2⟩
  | .map t, ht, old, d, ho => by
    simp only [tyOk] at ht
    simp only [deserRun, deserTrail]
    cases members B d with
    | error x => exact good_one ho
    | ok ms =>
      exact good_cons ho (good_map Value.map (fun w hw => hasTy_mkMap hw) (entriesTrail_good (P := HasTy t)
        (fun d v h => deser_typed hB t ht _ _ _ (fresh_typed t ht) h) ms [] sorted_nil (by simp)))
  | .tuple p ts, ht, old, d, ho => by
    simp only [tyOk] at ht
    obtain ⟨vs, rfl, hall⟩ := hasTy_tuple ho
    simp only [deserRun, deserTrail]
    cases elements B d with
    | error x => exact good_one ho
    | ok l =>
      simp only
      split
      · exact good_one ho
      · exact good_map Value.seq (fun w hw => by simpa only [HasTy, hasTy] using hw) (tupleTrail_good hB l ts ht 0 vs hall)
  | .record n fs, ht, old, d, ho => by
    simp only [tyOk, Bool.and_eq_true] at ht
    obtain ⟨vs, rfl, hall⟩ := hasTy_record ho
    simp only [deserRun, deserTrail, note_left]
    cases d with
    | obj ms =>
      simp only
      cases reservedNames fs with
      | error e => exact good_one ho
      | ok r => exact good_map Value.record (fun w hw => by simpa only [HasTy, hasTy] using hw) (fieldsTrail_good hB r ms fs ht.1.1 vs hall)
    | arr l =>
      simp only
      split
      · exact good_one ho
      · exact good_map Value.record (fun w hw => by simpa only [HasTy, hasTy] using hw) (seqFieldsTrail_good hB l fs ht.1.1 0 vs hall)
    | null => exact good_one ho
    | scalar s => exact good_one ho
theorem tupleTrail_good {B : Backend σ} (hB : Lawful B) {E : Env} (l : List (Doc σ)) : ∀ (ts : Tys),
    tysOk ts = true → ∀ (i : Nat) (os : List Value), hasTys ts os = true →
    Good (fun vs => hasTys ts vs = true) os (tupleRun B E l ts i os).1 (tupleTrail B E l ts i os)
  | .nil, _, i, os, ho => by
    rw [hasTys_nil ho]
    simp only [tupleRun, tupleTrail]
    exact good_one (by simp [hasTys])
  | .cons t ts, ht, i, os, ho => by
    simp only [tysOk, Bool.and_eq_true] at ht
    obtain ⟨o, os, rfl, h1, h2⟩ := hasTys_cons ho
    simp only [tupleRun, tupleTrail]
    have hv := deserRun_typed hB (E := E) t ht.1 o (atIndex l i) h1
    have g := inPlace_good (Q := fun vs => hasTys (.cons t ts) vs = true)
      (deserTrail_good hB (E := E) t ht.1 o (atIndex l i) h1) (tupleTrail_good hB (E := E) l ts ht.2 (i + 1) os h2)
      (fun v hv => by simp only [hasTys, Bool.and_eq_true]; exact ⟨hv, h2⟩)
      (fun vs hvs => by simp only [hasTys, Bool.and_eq_true]; exact ⟨hv, hvs⟩)
    generalize deserRun B E t o (atIndex l i) = x at g
    rcases x with ⟨v, _ | e⟩
    · exact g
    · exact g
theorem fieldsTrail_good {B : Backend σ} (hB : Lawful B) {E : Env} (r : Option (List Str))
    (ms : List (Str × Doc σ)) : ∀ (fs : Fields), fieldsOk fs = true → ∀ (os : List Value),
    hasFields fs os = true → Good (fun vs => hasFields fs vs = true) os (fieldsRun B E r ms fs os).1 (fieldsTrail B E r ms fs os)
  | .nil, _, os, ho => by
    rw [hasFields_nil ho]
    simp only [fieldsRun, fieldsTrail]
    exact good_one (by simp [hasFields])
  | .cons f t fs, ht, os, ho => by
    simp only [fieldsOk, Bool.and_eq_true] at ht
    obtain ⟨o, os, rfl, h1, h2⟩ := hasFields_cons ho
    have ih := fieldsTrail_good hB (E := E) r ms fs ht.2 os h2
    have hv : Good (HasTy t) o (if f.skipDeser then (o, none)
        else if f.extra then extrasRun B E r ms t o
        else if f.flatten then deserRun B E t o (.obj ms)
        else readPlainRun E f ms o (deserRun B E t o) : Run Value).1
        (if f.skipDeser then [o]
        else if f.extra then extrasTrail B E r ms t o
        else if f.flatten then deserTrail B E t o (.obj ms)
        else readPlainTrail f ms o (deserTrail B E t o)) := by
      by_cases c1 : f.skipDeser = true
      · rw [if_pos c1, if_pos c1]; exact good_one h1
      rw [if_neg c1, if_neg c1]
      by_cases c2 : f.extra = true
      · rw [if_pos c2, if_pos c2]; exact extrasTrail_good hB r ms t ht.1.2 o h1
      rw [if_neg c2, if_neg c2]
      by_cases c3 : f.flatten = true
      · rw [if_pos c3, if_pos c3]; exact deserTrail_good hB t ht.1.2 o _ h1
      rw [if_neg c3, if_neg c3]
      exact readPlainTrail_good ht.1.1 h1 fun d => deserTrail_good hB t ht.1.2 o d h1
    have hlast := hv.all _ (List.mem_of_getLast? hv.last)
    have hrun : ((if f.skipDeser then (o, none)
        else if f.extra then extrasRun B E r ms t o
        else Run.note (fieldMsg f)
            (if f.flatten then deserRun B E t o (.obj ms)
            else readPlainRun E f ms o (deserRun B E t o)) : Run Value).1,
        (if f.skipDeser then (o, none)
        else if f.extra then extrasRun B E r ms t o
        else Run.note (fieldMsg f)
            (if f.flatten then deserRun B E t o (.obj ms)
            else readPlainRun E f ms o (deserRun B E t o)) : Run Value).2.isSome) =
        ((if f.skipDeser then (o, none)
        else if f.extra then extrasRun B E r ms t o
        else if f.flatten then deserRun B E t o (.obj ms)
        else readPlainRun E f ms o (deserRun B E t o) : Run Value).1,
        (if f.skipDeser then (o, none)
        else if f.extra then extrasRun B E r ms t o
        else if f.flatten then deserRun B E t o (.obj ms)
        else readPlainRun E f ms o (deserRun B E t o) : Run Value).2.isSome) := by
      split
      · rfl
      · split
        · rfl
        · split <;> simp [Run.note]
    have g := inPlace_good (Q := fun vs => hasFields (.cons f t fs) vs = true) hv ih
      (fun v hv => by simp only [hasFields, Bool.and_eq_true]; exact ⟨hv, h2⟩)
      (fun vs hvs => by simp only [hasFields, Bool.and_eq_true]; exact ⟨hlast, hvs⟩)
    simp only [fieldsRun, fieldsTrail]
    generalize (if f.skipDeser then (o, none)
        else if f.extra then extrasRun B E r ms t o
        else Run.note (fieldMsg f)
            (if f.flatten then deserRun B E t o (.obj ms)
            else readPlainRun E f ms o (deserRun B E t o)) : Run Value) = y at hrun ⊢
    generalize (if f.skipDeser then (o, none)
        else if f.extra then extrasRun B E r ms t o
        else if f.flatten then deserRun B E t o (.obj ms)
        else readPlainRun E f ms o (deserRun B E t o) : Run Value) = x at g hrun ⊢
    rcases x with ⟨v, _ | e⟩ <;> rcases y with ⟨w, _ | e'⟩ <;> simp at hrun <;> subst hrun <;> exact g
theorem seqFieldsTrail_good {B : Backend σ} (hB : Lawful B) {E : Env} (l : List (Doc σ)) : ∀ (fs : Fields),
    fieldsOk fs = true → ∀ (i : Nat) (os : List Value), hasFields fs os = true →
    Good (fun vs => hasFields fs vs = true) os (seqFieldsRun B E l fs i os).1 (seqFieldsTrail B E l fs i os)
  | .nil, _, i, os, ho => by
    rw [hasFields_nil ho]
    simp only [seqFieldsRun, seqFieldsTrail]
    exact good_one (by simp [hasFields])
  | .cons f t fs, ht, i, os, ho => by
    simp only [fieldsOk, Bool.and_eq_true] at ht
    obtain ⟨o, os, rfl, h1, h2⟩ := hasFields_cons ho
    have ih := fun i => seqFieldsTrail_good hB (E := E) l fs ht.2 i os h2
    simp only [seqFieldsRun, seqFieldsTrail]
    by_cases c1 : f.skipDeser = true
    · rw [if_pos c1, if_pos c1]
      exact good_map (Q := fun vs => hasFields (.cons f t fs) vs = true) (fun vs => o :: vs)
        (fun vs hvs => by simp only [hasFields, Bool.and_eq_true]; exact ⟨h1, hvs⟩) (ih i)
    rw [if_neg c1, if_neg c1]
    by_cases c2 : f.extra = true
    · simp only [c2, if_true, Bool.true_or, Run.note, Option.map_some]
      exact good_one ho
    by_cases c3 : f.flatten = true
    · simp only [c2, c3, if_true, Bool.or_true, Run.note, Option.map_some]
      exact good_one ho
    simp only [c2, c3, Bool.or_self, if_false, Bool.false_eq_true]
    have hv := deserRun_typed hB (E := E) t ht.1.2 o (atIndex l i) h1
    have g := inPlace_good (Q := fun vs => hasFields (.cons f t fs) vs = true) (r := validateRun E f (deserRun B E t o (atIndex l i)))
      (by rw [validateRun_left]; exact deserTrail_good hB (E := E) t ht.1.2 o (atIndex l i) h1) (ih (i + 1))
      (fun v hv => by simp only [hasFields, Bool.and_eq_true]; exact ⟨hv, h2⟩)
      (fun vs hvs => by simp only [hasFields, Bool.and_eq_true]; rw [validateRun_left]; exact ⟨hv, hvs⟩)
    generalize validateRun E f (deserRun B E t o (atIndex l i)) = x at g
    rcases x with ⟨v, _ | e⟩
    · exact g
    · exact g
end

end Verif.Serial
