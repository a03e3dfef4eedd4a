import Verif.Serial.Unique
import Verif.Serial.Typing
/-
A backend whose `add_field` overwrites a member of the same name writes what one that appends
would write.
-/
namespace Verif.Serial
open Verif.Path Verif.Enums

namespace Spec

variable {σ : Type}

/-- The backend with an `add_field` that appends. -/
def appending (B : Backend σ) : Backend σ := { B with addField := fun ms k d => ms ++ [(k, d)] }

/-- A member with a new name is appended. -/
def AppendsNew (B : Backend σ) : Prop :=
  ∀ ms k d, NoMember ms k → B.addField ms k d = ms ++ [(k, d)]

end Spec

open Spec

variable {σ : Type}

/-! ### What does not add members does not change -/

mutual
theorem deser_appending (B : Backend σ) (E : Env) : ∀ (t : Ty), deser (appending B) E t = deser B E t
  | .leaf _ => by funext o d; simp only [deser]; rfl
  | .enum _ => by funext o d; simp only [deser, deserEnum]; rfl
  | .rawEnum _ => by funext o d; simp only [deser]; rfl
  | .enumSet e => by
    have h : ∀ l s, deserSet (appending B) e l s = deserSet B e l s := by
      intro l
      induction l with
      | nil => intro s; rfl
      | cons d l ih => intro s; simp only [deserSet, ih]; rfl
    funext o d; simp only [deser, h]; rfl
  | .opt t => by funext o d; simp only [deser, deser_appending B E t]
  | .vec t => by funext o d; simp only [deser, deser_appending B E t]; rfl
  | .arr _ t => by funext o d; simp only [deser, deser_appending B E t]; rfl
  | .map t => by funext o d; simp only [deser, deser_appending B E t]; rfl
  | .tuple _ ts => by funext o d; simp only [deser, deserTuple_appending B E ts]; rfl
  | .record _ fs => by
    funext o d
    simp only [deser, deserFields_appending B E fs, deserSeqFields_appending B E fs]
    rfl
theorem deserTuple_appending (B : Backend σ) (E : Env) : ∀ (ts : Tys) (l : List (Doc σ)) (i : Nat) (os : List Value),
    deserTuple (appending B) E l ts i os = deserTuple B E l ts i os
  | .nil, l, i, os => by simp only [deserTuple]
  | .cons t ts, l, i, os => by
    cases os with
    | nil => simp only [deserTuple]
    | cons o os => simp only [deserTuple, deser_appending B E t, deserTuple_appending B E ts]
theorem deserFields_appending (B : Backend σ) (E : Env) : ∀ (fs : Fields) (r : Option (List Str))
    (ms : List (Str × Doc σ)) (os : List Value),
    deserFields (appending B) E r ms fs os = deserFields B E r ms fs os
  | .nil, r, ms, os => by simp only [deserFields]
  | .cons f t fs, r, ms, os => by
    cases os with
    | nil => simp only [deserFields]
    | cons o os =>
      simp only [deserFields, deser_appending B E t, deserFields_appending B E fs, deserExtras_appending B E t]
theorem deserExtras_appending (B : Backend σ) (E : Env) : ∀ (t : Ty) (r : Option (List Str))
    (ms : List (Str × Doc σ)), deserExtras (appending B) E r ms t = deserExtras B E r ms t
  | .map t, r, ms => by simp only [deserExtras, deser_appending B E t]
  | .leaf _, _, _ | .enum _, _, _ | .rawEnum _, _, _ | .enumSet _, _, _ | .opt _, _, _ | .vec _, _, _
  | .arr _ _, _, _ | .tuple _ _, _, _ | .record _ _, _, _ => by simp only [deserExtras]
theorem deserSeqFields_appending (B : Backend σ) (E : Env) : ∀ (fs : Fields) (l : List (Doc σ)) (i : Nat)
    (os : List Value), deserSeqFields (appending B) E l fs i os = deserSeqFields B E l fs i os
  | .nil, l, i, os => by simp only [deserSeqFields]
  | .cons f t fs, l, i, os => by
    cases os with
    | nil => simp only [deserSeqFields]
    | cons o os => simp only [deserSeqFields, deser_appending B E t, deserSeqFields_appending B E fs]
end

mutual
theorem patch_appending (B : Backend σ) (E : Env) : ∀ (t : Ty), patch (appending B) E t = patch B E t
  | .opt t => by funext o d; simp only [patch, patch_appending B E t]
  | .record _ fs => by
    funext o d
    simp only [patch, deser_appending, patchFields_appending B E fs]
  | .leaf _ | .enum _ | .rawEnum _ | .enumSet _ | .vec _ | .arr _ _ | .map _ | .tuple _ _ => by
    funext o d; simp only [patch, deser_appending]
theorem patchFields_appending (B : Backend σ) (E : Env) : ∀ (fs : Fields) (r : Option (List Str))
    (ms : List (Str × Doc σ)) (os : List Value),
    patchFields (appending B) E r ms fs os = patchFields B E r ms fs os
  | .nil, r, ms, os => by simp only [patchFields]
  | .cons f t fs, r, ms, os => by
    cases os with
    | nil => simp only [patchFields]
    | cons o os =>
      simp only [patchFields, patch_appending B E t, patchFields_appending B E fs, patchExtras_appending B E t]
theorem patchExtras_appending (B : Backend σ) (E : Env) : ∀ (t : Ty) (r : Option (List Str))
    (ms : List (Str × Doc σ)) (o : Value), patchExtras (appending B) E r ms t o = patchExtras B E r ms t o
  | .map t, r, ms, o => by simp only [patchExtras, patch_appending B E t]
  | .leaf _, _, _, _ | .enum _, _, _, _ | .rawEnum _, _, _, _ | .enumSet _, _, _, _ | .opt _, _, _, _
  | .vec _, _, _, _ | .arr _ _, _, _, _ | .tuple _ _, _, _, _ | .record _ _, _, _, _ => by
    simp only [patchExtras]
end

mutual
theorem dump_appending (B : Backend σ) (s : Bool) : ∀ (t : Ty), dump (appending B) s t = dump B s t
  | .leaf _ | .enum _ | .rawEnum _ | .enumSet _ => by funext v; simp only [dump]; rfl
  | .opt t | .vec t | .arr _ t | .map t => by funext v; simp only [dump, dump_appending B s t]
  | .tuple _ ts => by funext v; simp only [dump, dumpTuple_appending B s ts]
  | .record _ fs => by funext v; simp only [dump, dumpFields_appending B s fs]
theorem dumpTuple_appending (B : Backend σ) (s : Bool) : ∀ (ts : Tys) (vs : List Value),
    dumpTuple (appending B) s ts vs = dumpTuple B s ts vs
  | .nil, vs => by simp only [dumpTuple]
  | .cons t ts, vs => by
    cases vs with
    | nil => simp only [dumpTuple]
    | cons v vs => simp only [dumpTuple, dump_appending B s t, dumpTuple_appending B s ts]
theorem dumpFields_appending (B : Backend σ) (s : Bool) : ∀ (fs : Fields) (r : Option (List Str))
    (vs : List Value), dumpFields (appending B) s r fs vs = dumpFields B s r fs vs
  | .nil, r, vs => by simp only [dumpFields]
  | .cons f t fs, r, vs => by
    cases vs with
    | nil => simp only [dumpFields]
    | cons v vs =>
      simp only [dumpFields, dump_appending B s t, dumpFields_appending B s fs, dumpExtras_appending B s t,
        dumpFlat_appending B s t]
theorem dumpExtras_appending (B : Backend σ) (s : Bool) : ∀ (t : Ty) (r : Option (List Str))
    (v : Value), dumpExtras (appending B) s r t v = dumpExtras B s r t v
  | .map t, r, v => by simp only [dumpExtras, dump_appending B s t]
  | .leaf _, _, _ | .enum _, _, _ | .rawEnum _, _, _ | .enumSet _, _, _ | .opt _, _, _ | .vec _, _, _
  | .arr _ _, _, _ | .tuple _ _, _, _ | .record _ _, _, _ => by simp only [dumpExtras]
theorem dumpFlat_appending (B : Backend σ) (s : Bool) : ∀ (t : Ty) (r : Option (List Str))
    (v : Value), dumpFlat (appending B) s r t v = dumpFlat B s r t v
  | .record _ fs, r, v => by simp only [dumpFlat, dumpFields_appending B s fs]
  | .leaf _, _, _ | .enum _, _, _ | .rawEnum _, _, _ | .enumSet _, _, _ | .opt _, _, _ | .vec _, _, _
  | .arr _ _, _, _ | .tuple _ _, _, _ | .map _, _, _ => by simp only [dumpFlat]
end

/-! ### Adding members -/

/-- Two ways to add members: the same errors, whatever is there already, and the same
members if their names are different. -/
structure Tracks (g g' : List (Str × Doc σ) → Res (List (Str × Doc σ))) : Prop where
  err : ∀ o o' e, g o = .error e ↔ g' o' = .error e
  grows : ∀ o r, g' o = .ok r → ∃ x, r = o ++ x
  ok : ∀ o r, g' o = .ok r → (r.map (·.1)).Nodup → g o = .ok r

theorem Tracks.id : Tracks (σ := σ) (fun o => .ok o) (fun o => .ok o) :=
  ⟨by simp, fun o r h => ⟨[], by cases h; simp⟩, fun o r h _ => h⟩

theorem Tracks.fail (e : Exc) : Tracks (σ := σ) (fun _ => .error e) (fun _ => .error e) :=
  ⟨by simp, by simp, by simp⟩

theorem Tracks.seq {g g' h h' : List (Str × Doc σ) → Res (List (Str × Doc σ))} (hg : Tracks g g')
    (hh : Tracks h h') : Tracks (fun o => match g o with | .error e => .error e | .ok o => h o)
      (fun o => match g' o with | .error e => .error e | .ok o => h' o) := by
  refine ⟨fun o o' e => ?_, fun o r hr => ?_, fun o r hr hn => ?_⟩
  · cases h1 : g o with
    | error e' =>
      have := (hg.err o o' e').1 h1
      simp [this]
    | ok x =>
      cases h2 : g' o' with
      | error e' =>
        have := (hg.err o o' e').2 h2
        rw [h1] at this; cases this
      | ok y => exact hh.err x y e
  · cases h2 : g' o with
    | error e' => simp [h2] at hr
    | ok y =>
      simp only [h2] at hr
      obtain ⟨x1, rfl⟩ := hg.grows _ _ h2
      obtain ⟨x2, rfl⟩ := hh.grows _ _ hr
      exact ⟨x1 ++ x2, by simp⟩
  · cases h2 : g' o with
    | error e' => simp [h2] at hr
    | ok y =>
      simp only [h2] at hr
      obtain ⟨x2, rfl⟩ := hh.grows _ _ hr
      have hy : (y.map (·.1)).Nodup := by
        rw [List.map_append] at hn
        exact (List.nodup_append.1 hn).1
      simp only [hg.ok _ _ h2 hy]
      exact hh.ok _ _ hr hn

theorem Tracks.add {B : Backend σ} (hB : AppendsNew B) (k : Str) (d : Doc σ) :
    Tracks (fun o => .ok (B.addField o k d)) (fun o => .ok ((appending B).addField o k d)) := by
  refine ⟨by simp, fun o r hr => ?_, fun o r hr hn => ?_⟩
  · cases hr; exact ⟨[(k, d)], rfl⟩
  · cases hr
    have hno : NoMember o k := by
      simp only [appending, List.map_append, List.map_cons, List.map_nil, List.nodup_append] at hn
      intro m hm h
      exact hn.2.2 m.1 (List.mem_map_of_mem hm) k (by simp) h
    rw [hB o k d hno]; rfl

theorem Tracks.eq {g g' : List (Str × Doc σ) → Res (List (Str × Doc σ))} (h : Tracks g g')
    (hn : ∀ r, g' [] = .ok r → (r.map (·.1)).Nodup) : g [] = g' [] := by
  cases h1 : g' [] with
  | error e => exact (h.err [] [] e).2 h1
  | ok r => exact h.ok [] r h1 (hn r h1)

theorem serEntries_tracks {B : Backend σ} (hB : AppendsNew B) {s : Bool} {c : Str → Res Unit}
    {f f' : Value → Res (Doc σ)} : ∀ {es : List (Str × Value)}, (∀ e ∈ es, f e.2 = f' e.2) →
    Tracks (serEntries B s c f es) (serEntries (appending B) s c f' es)
  | [], _ => Tracks.id
  | (k, v) :: es, h => by
    have ih := serEntries_tracks hB (s := s) (c := c) (f := f) (f' := f') (es := es) fun e he => h e (by simp [he])
    have hv : f v = f' v := h (k, v) (by simp)
    have h1 : ∀ (B : Backend σ) (f : Value → Res (Doc σ)), serEntries B s c f ((k, v) :: es) = fun o =>
        match c k with
        | .error e => .error e
        | .ok () =>
          if s && isNullValue v then serEntries B s c f es o
          else
            match f v with
            | .error e => .error e
            | .ok d => serEntries B s c f es (B.addField o k d) := by
      intro B f; funext o; rfl
    rw [h1 B f, h1 (appending B) f', hv]
    cases c k with
    | error e => exact Tracks.fail e
    | ok u =>
      simp only
      by_cases hs : (s && isNullValue v) = true
      · simp only [hs, if_true]; exact ih
      · simp only [hs, Bool.false_eq_true, if_false]
        cases f' v with
        | error e => exact Tracks.fail e
        | ok d => exact (Tracks.add hB k d).seq ih

mutual
theorem ser_appending {B : Backend σ} (hA : Lawful (appending B)) (hB : AppendsNew B) {s : Bool} :
    ∀ (t : Ty), tyOk t = true → ∀ v, HasTy t v → ser B s t v = ser (appending B) s t v
  | .leaf _, _, v, _ | .enum _, _, v, _ | .rawEnum _, _, v, _ | .enumSet _, _, v, _ => by
    simp only [ser]; rfl
  | .opt t, ht, v, hv => by
    have ih := ser_appending hA hB (s := s) t (by simpa [tyOk] using ht)
    rcases hasTy_opt hv with rfl | ⟨w, rfl, hw⟩
    · simp only [ser]
    · simp only [ser, ih w hw]
  | .vec t, ht, v, hv => by
    have ih := ser_appending hA hB (s := s) t (by simpa [tyOk] using ht)
    obtain ⟨vs, rfl, hvs⟩ := hasTy_seq hv
    have : mapAll (ser B s t) vs = mapAll (ser (appending B) s t) vs := by
      clear hv
      induction vs with
      | nil => rfl
      | cons w vs ih' =>
        simp only [mapAll, ih w (hvs w (by simp)), ih' fun x hx => hvs x (by simp [hx])]
    simp only [ser, this]
  | .arr n t, ht, v, hv => by
    have ih := ser_appending hA hB (s := s) t (by simpa [tyOk] using ht)
    obtain ⟨vs, rfl, -, hvs⟩ := hasTy_arr hv
    have : mapAll (ser B s t) vs = mapAll (ser (appending B) s t) vs := by
      clear hv
      induction vs with
      | nil => rfl
      | cons w vs ih' =>
        simp only [mapAll, ih w (hvs w (by simp)), ih' fun x hx => hvs x (by simp [hx])]
    simp only [ser, this]
  | .map t, ht, v, hv => by
    have ih := ser_appending hA hB (s := s) t (by simpa [tyOk] using ht)
    obtain ⟨es, rfl, -, hes⟩ := hasTy_map hv
    simp only [ser]
    rw [(serEntries_tracks hB fun e he => ih e.2 (hes e he)).eq]
    intro r hr
    have := ser_unique hA (s := s) (.map t) ht (.map es) (.obj r) hv (by simp [ser, hr, Except.map])
    simp only [uniqueNames, Bool.and_eq_true, decide_eq_true_eq] at this
    exact this.1
  | .tuple _ ts, ht, v, hv => by
    obtain ⟨vs, rfl, hvs⟩ := hasTy_tuple hv
    simp only [ser, serTuple_appending hA hB ts (by simpa [tyOk] using ht) vs hvs]
  | .record n fs, ht, v, hv => by
    have ht' := ht
    simp only [tyOk, Bool.and_eq_true] at ht'
    obtain ⟨vs, rfl, hvs⟩ := hasTy_record hv
    simp only [ser]
    cases hr : reservedNames fs with
    | error e => rfl
    | ok r =>
      simp only
      rw [(addFields_tracks hA hB r fs ht'.1.1 vs hvs).eq]
      intro o ho
      have := ser_unique hA (s := s) (.record n fs) ht (.record vs) (.obj o) hv (by simp [ser, hr, ho, Except.map])
      simp only [uniqueNames, Bool.and_eq_true, decide_eq_true_eq] at this
      exact this.1
theorem serTuple_appending {B : Backend σ} (hA : Lawful (appending B)) (hB : AppendsNew B) {s : Bool} :
    ∀ (ts : Tys), tysOk ts = true → ∀ vs, hasTys ts vs = true → serTuple B s ts vs = serTuple (appending B) s ts vs
  | .nil, _, vs, _ => by simp only [serTuple]
  | .cons t ts, ht, vs, hv => by
    simp only [tysOk, Bool.and_eq_true] at ht
    obtain ⟨v, vs, rfl, h1, h2⟩ := hasTys_cons hv
    simp only [serTuple, ser_appending hA hB t ht.1 v h1, serTuple_appending hA hB ts ht.2 vs h2]
theorem addFields_tracks {B : Backend σ} (hA : Lawful (appending B)) (hB : AppendsNew B) {s : Bool}
    (r : Option (List Str)) : ∀ (fs : Fields), fieldsOk fs = true → ∀ vs, hasFields fs vs = true →
    Tracks (addFields B s r fs vs) (addFields (appending B) s r fs vs)
  | .nil, _, vs, hv => by
    rw [hasFields_nil hv]
    simp only [addFields]
    exact Tracks.id
  | .cons f t fs, hf, vs, hv => by
    simp only [fieldsOk, Bool.and_eq_true] at hf
    obtain ⟨v, vs, rfl, h1, h2⟩ := hasFields_cons hv
    have ih := addFields_tracks hA hB (s := s) r fs hf.2 vs h2
    have ihs := ser_appending hA hB (s := s) t hf.1.2 v h1
    have ihx := addExtras_tracks hA hB (s := s) r t hf.1.2 v h1
    have ihf := addFlat_tracks hA hB (s := s) r t hf.1.2 v h1
    have h0 : ∀ B : Backend σ, addFields B s r (.cons f t fs) (v :: vs) = fun out =>
        match (if f.skipSer then .ok out
          else if skipField f s v then .ok out
          else if f.extra then addExtras B s r t v out
          else if f.flatten then addFlat B s r t v out
          else (ser B s t v).map fun d => B.addField out f.key d : Res (List (Str × Doc σ))) with
        | .error e => .error e
        | .ok out => addFields B s r fs vs out := by
      intro B; funext o; simp only [addFields]; rfl
    rw [h0 B, h0 (appending B)]
    refine Tracks.seq ?_ ih
    split
    · exact Tracks.id
    split
    · exact Tracks.id
    split
    · exact ihx
    split
    · exact ihf
    rw [ihs]
    cases ser (appending B) s t v with
    | error e => exact Tracks.fail e
    | ok d => exact Tracks.add hB f.key d
theorem addExtras_tracks {B : Backend σ} (hA : Lawful (appending B)) (hB : AppendsNew B) {s : Bool}
    (r : Option (List Str)) : ∀ (t : Ty), tyOk t = true → ∀ v, HasTy t v →
    Tracks (addExtras B s r t v) (addExtras (appending B) s r t v)
  | .map t, ht, v, hv => by
    have ih := ser_appending hA hB (s := s) t (by simpa [tyOk] using ht)
    obtain ⟨es, rfl, -, hes⟩ := hasTy_map hv
    have h0 : ∀ B : Backend σ, addExtras B s r (.map t) (.map es) =
        serEntries B s (checkExtraKey r) (ser B s t) es := by
      intro B; funext o; simp only [addExtras]
    rw [h0, h0]
    exact serEntries_tracks hB fun e he => ih e.2 (hes e he)
  | .leaf _, _, _, _ | .enum _, _, _, _ | .rawEnum _, _, _, _ | .enumSet _, _, _, _ | .opt _, _, _, _
  | .vec _, _, _, _ | .arr _ _, _, _, _ | .tuple _ _, _, _, _ | .record _ _, _, _, _ => by
    simp only [addExtras]; exact Tracks.fail _
theorem addFlat_tracks {B : Backend σ} (hA : Lawful (appending B)) (hB : AppendsNew B) {s : Bool}
    (r : Option (List Str)) : ∀ (t : Ty), tyOk t = true → ∀ v, HasTy t v →
    Tracks (addFlat B s r t v) (addFlat (appending B) s r t v)
  | .record n fs, ht, v, hv => by
    simp only [tyOk, Bool.and_eq_true] at ht
    obtain ⟨vs, rfl, hvs⟩ := hasTy_record hv
    have h0 : ∀ B : Backend σ, addFlat B s r (.record n fs) (.record vs) = addFields B s r fs vs := by
      intro B; funext o; simp only [addFlat]
    rw [h0, h0]
    exact addFields_tracks hA hB r fs ht.1.1 vs hvs
  | .leaf _, _, _, _ | .enum _, _, _, _ | .rawEnum _, _, _, _ | .enumSet _, _, _, _ | .opt _, _, _, _
  | .vec _, _, _, _ | .arr _ _, _, _, _ | .tuple _ _, _, _, _ | .map _, _, _, _ => by
    simp only [addFlat]; exact Tracks.fail _
end

end Verif.Serial
