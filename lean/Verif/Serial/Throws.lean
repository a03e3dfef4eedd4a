import Verif.Serial.Back
/-
Lemmas: when writing succeeds.
-/
namespace Verif.Serial
open Verif.Path Verif.Enums Spec

variable {σ : Type}

/-- Succeeds when `p`, else throws a `logic_error`. -/
def Decides {α : Type} (p : Prop) (r : Res α) : Prop :=
  (p ∧ ∃ a, r = .ok a) ∨ (¬ p ∧ ∃ w, r = .error (.logic w))

theorem Decides.yes {α : Type} {p : Prop} {r : Res α} (h : p) (a : ∃ a, r = .ok a) : Decides p r := .inl ⟨h, a⟩

theorem Decides.of_iff {α : Type} {p q : Prop} {r : Res α} (h : Decides p r) (e : p ↔ q) : Decides q r := by
  rcases h with ⟨h1, h2⟩ | ⟨h1, h2⟩
  · exact .inl ⟨e.1 h1, h2⟩
  · exact .inr ⟨fun h => h1 (e.2 h), h2⟩

theorem Decides.map {α β : Type} {p : Prop} {r : Res α} {f : α → β} (h : Decides p r) : Decides p (r.map f) := by
  rcases h with ⟨h1, a, rfl⟩ | ⟨h1, w, rfl⟩
  · exact .inl ⟨h1, f a, rfl⟩
  · exact .inr ⟨h1, w, rfl⟩

theorem mapAll_decides {α β : Type} {f : α → Res β} {p : α → Prop} : ∀ {l : List α},
    (∀ x ∈ l, Decides (p x) (f x)) → Decides (∀ x ∈ l, p x) (mapAll f l)
  | [], _ => .yes (by simp) ⟨[], rfl⟩
  | x :: l, h => by
    have ih := mapAll_decides fun y hy => h y (List.mem_cons_of_mem _ hy)
    simp only [mapAll]
    rcases h x (by simp) with ⟨h1, a, h2⟩ | ⟨h1, w, h2⟩
    · rw [h2]
      rcases ih with ⟨h3, b, h4⟩ | ⟨h3, w, h4⟩
      · rw [h4]; exact .inl ⟨by simpa using ⟨h1, h3⟩, _, rfl⟩
      · rw [h4]; exact .inr ⟨fun h => h3 fun y hy => h y (List.mem_cons_of_mem _ hy), w, rfl⟩
    · rw [h2]; exact .inr ⟨fun h => h1 (h x (by simp)), w, rfl⟩

theorem serEntries_decides {B : Backend σ} {s : Bool} {c : Str → Res Unit}
    {f : Value → Res (Doc σ)} {p : Str → Prop} {q : Value → Prop} : ∀ {es : List (Str × Value)}
    (out : List (Str × Doc σ)), (∀ e ∈ es, Decides (p e.1) (c e.1)) →
    (∀ e ∈ es, Decides (q e.2) (f e.2)) →
    Decides (∀ e ∈ es, p e.1 ∧ ((s && isNullValue e.2) = false → q e.2)) (serEntries B s c f es out)
  | [], out, _, _ => .yes (by simp) ⟨out, rfl⟩
  | (k, v) :: es, out, hc, hf => by
    have ih := fun out => serEntries_decides (B := B) (s := s) out
      (fun e he => hc e (List.mem_cons_of_mem _ he)) (fun e he => hf e (List.mem_cons_of_mem _ he))
    simp only [serEntries]
    rcases hc (k, v) (by simp) with ⟨h1, a, h2⟩ | ⟨h1, w, h2⟩
    · simp only at h1 h2
      rw [h2]
      simp only
      by_cases hn : (s && isNullValue v) = true
      · rw [if_pos hn]
        refine (ih out).of_iff ?_
        simp only [List.forall_mem_cons, h1, hn, Bool.true_eq_false, false_implies, and_self, true_and]
      · rw [if_neg hn]
        rcases hf (k, v) (by simp) with ⟨h3, d, h4⟩ | ⟨h3, w, h4⟩
        · simp only at h3 h4
          rw [h4]
          refine (ih _).of_iff ?_
          simp [h1, h3]
        · simp only at h3 h4
          rw [h4]
          refine .inr ⟨fun h => h3 ((h (k, v) (by simp)).2 (by simpa using hn)), w, rfl⟩
    · simp only at h1 h2
      rw [h2]
      exact .inr ⟨fun h => h1 (h (k, v) (by simp)).1, w, rfl⟩

theorem reservedNames_decides {fs : Fields} (hf : fieldsOk fs = true) :
    Decides (NamesChecked fs) (reservedNames fs) := by
  cases h : reservedNames fs with
  | ok r => exact .inl ⟨(reservedFor hf h).1, r, rfl⟩
  | error e =>
    obtain ⟨w, rfl⟩ := reservedNames_err hf h
    refine .inr ⟨fun hn => ?_, w, rfl⟩
    obtain ⟨r, hr⟩ := namesChecked_ok hf hn
    rw [hr] at h; cases h

theorem checkExtraKey_decides {l : List Str} {k : Str} :
    Decides (k ∉ l) (checkExtraKey (some l) k) := by
  simp only [checkExtraKey]
  by_cases h : l.contains k = true
  · rw [if_pos h]; exact .inr ⟨by simpa using h, _, rfl⟩
  · rw [if_neg h]; exact .inl ⟨by simpa using h, _, rfl⟩

mutual
theorem ser_decides {B : Backend σ} (hB : Lawful B) {s : Bool} : ∀ (t : Ty), tyOk t = true →
    ∀ (v : Value), HasTy t v → Decides (Writable s t v) (ser B s t v)
  | .leaf l, ht, v, hv => by
    cases v <;> simp [HasTy, hasTy] at hv
    exact .yes (by simp [Writable]) ⟨_, rfl⟩
  | .enum e, ht, v, hv => by
    cases v <;> try simp [HasTy, hasTy] at hv
    rename_i a
    cases a <;> simp [HasTy, hasTy] at hv
    simp only [tyOk] at ht
    refine .yes (by simp [Writable]) ?_
    simp [ser, enumName_eq ht hv]
  | .rawEnum t, ht, v, hv => by
    cases v <;> try simp [HasTy, hasTy] at hv
    exact .yes (by simp [Writable]) ⟨_, rfl⟩
  | .enumSet e, ht, v, hv => by
    cases v <;> simp [HasTy, hasTy] at hv
    simp only [tyOk] at ht
    exact .yes (by simp [Writable]) ⟨_, ser_set ht _⟩
  | .opt t, ht, v, hv => by
    simp only [tyOk] at ht
    rcases hasTy_opt hv with rfl | ⟨w, rfl, hw⟩
    · exact .yes (by simp [Writable]) ⟨_, rfl⟩
    · simp only [ser, Writable]
      exact ser_decides hB t ht w hw
  | .vec t, ht, v, hv => by
    simp only [tyOk] at ht
    obtain ⟨vs, rfl, hvs⟩ := hasTy_seq hv
    simp only [ser, Writable]
    exact (mapAll_decides fun x hx => ser_decides hB t ht x (hvs x hx)).map
  | .arr n t, ht, v, hv => by
    simp only [tyOk] at ht
    obtain ⟨vs, rfl, -, hvs⟩ := hasTy_arr hv
    simp only [ser, Writable]
    exact (mapAll_decides fun x hx => ser_decides hB t ht x (hvs x hx)).map
  | .map t, ht, v, hv => by
    simp only [tyOk] at ht
    obtain ⟨es, rfl, hs, hes⟩ := hasTy_map hv
    simp only [ser, Writable]
    have := serEntries_decides (B := B) (s := s) (c := fun _ => .ok ()) (p := fun _ => True) []
      (fun e _ => .yes trivial ⟨(), rfl⟩) (fun e he => ser_decides (s := s) hB t ht e.2 (hes e he))
    simp only [true_and] at this
    exact this.map
  | .tuple b ts, ht, v, hv => by
    simp only [tyOk] at ht
    obtain ⟨vs, rfl, hvs⟩ := hasTy_tuple hv
    simp only [ser, Writable]
    exact (serTuple_decides hB ts ht vs hvs).map
  | .record n fs, ht, v, hv => by
    simp only [tyOk, Bool.and_eq_true] at ht
    obtain ⟨vs, rfl, hvs⟩ := hasTy_record hv
    simp only [ser, Writable]
    rcases reservedNames_decides ht.1.1 with ⟨h1, r, h2⟩ | ⟨h1, w, h2⟩
    · rw [h2]
      refine (addFields_decides hB fs ht.1.1 (allNames fs) (reservedFor ht.1.1 h2).2 vs hvs []).map.of_iff ?_
      simp [h1]
    · rw [h2]
      exact .inr ⟨fun h => h1 h.1, w, rfl⟩
theorem serTuple_decides {B : Backend σ} (hB : Lawful B) {s : Bool} : ∀ (ts : Tys), tysOk ts = true →
    ∀ (vs : List Value), hasTys ts vs = true → Decides (WritableAll s ts vs) (serTuple B s ts vs)
  | .nil, _, vs, hv => by
    rw [hasTys_nil hv]
    exact .yes (by simp [WritableAll]) ⟨[], rfl⟩
  | .cons t ts, ht, vs, hv => by
    simp only [tysOk, Bool.and_eq_true] at ht
    obtain ⟨v, ws, rfl, h1, h2⟩ := hasTys_cons hv
    simp only [serTuple, WritableAll]
    rcases ser_decides hB t ht.1 v h1 with ⟨h3, a, h4⟩ | ⟨h3, w, h4⟩
    · rw [h4]
      rcases serTuple_decides hB ts ht.2 ws h2 with ⟨h5, b, h6⟩ | ⟨h5, w, h6⟩
      · rw [h6]; exact .inl ⟨⟨h3, h5⟩, _, rfl⟩
      · rw [h6]; exact .inr ⟨fun h => h5 h.2, w, rfl⟩
    · rw [h4]; exact .inr ⟨fun h => h3 h.1, w, rfl⟩
theorem addFields_decides {B : Backend σ} (hB : Lawful B) {s : Bool} {r : Option (List Str)} :
    ∀ (fs : Fields), fieldsOk fs = true → ∀ (names : List Str), ReservedFor r names fs →
    ∀ (vs : List Value), hasFields fs vs = true → ∀ (out : List (Str × Doc σ)),
    Decides (WritableFields s names fs vs) (addFields B s r fs vs out)
  | .nil, _, names, hr, vs, hv, out => by
    rw [hasFields_nil hv]
    exact .yes (by simp [WritableFields]) ⟨out, rfl⟩
  | .cons f t fs, hf, names, hr, vs, hv, out => by
    simp only [fieldsOk, Bool.and_eq_true] at hf
    have hfo := fieldOk_iff.1 hf.1.1
    obtain ⟨v, ws, rfl, h1, h2⟩ := hasFields_cons hv
    have ih := addFields_decides hB (s := s) fs hf.2 names hr.tail ws h2
    simp only [addFields, WritableFields]
    rw [omitted_eq]
    cases c : (f.skipSer || skipField f s v) with
    | true =>
      have e : (if f.skipSer then .ok out
          else if skipField f s v then .ok out
          else if f.extra then addExtras B s r t v out
          else if f.flatten then addFlat B s r t v out
          else (ser B s t v).map fun d => B.addField out f.key d : Res (List (Str × Doc σ))) = .ok out := by
        rcases Bool.or_eq_true_iff.1 c with c | c
        · rw [if_pos c]
        · rw [if_pos c]; split <;> rfl
      rw [e]
      exact (ih out).of_iff (by simp)
    | false =>
      obtain ⟨c1, c2⟩ := Bool.or_eq_false_iff.1 c
      simp only [c1, c2, Bool.false_eq_true, if_false]
      -- the first field decides one part, the rest the other
      have seq : ∀ (p : Prop) (q : Res (List (Str × Doc σ))), Decides p q →
          Decides (p ∧ WritableFields s names fs ws)
            (match q with
              | .error e => (.error e : Res (List (Str × Doc σ)))
              | .ok o => addFields B s r fs ws o) := by
        intro p q h
        rcases h with ⟨h3, o, rfl⟩ | ⟨h3, w, rfl⟩
        · exact (ih o).of_iff (by simp [h3])
        · exact .inr ⟨fun h => h3 h.1, w, rfl⟩
      cases he : f.extra with
      | true =>
        obtain ⟨l, rfl, hl⟩ := hr.some (.inl he)
        refine (seq _ _ (addExtras_decides hB t hf.1.2 (hfo.2.2.2 he) l v h1 out)).of_iff ?_
        have : ∀ t v, WritableExtras s l t v ↔ WritableExtras s names t v := by
          intro t v; cases t <;> cases v <;> simp [WritableExtras, hl]
        simp [this]
      | false =>
        cases hfl : f.flatten with
        | true =>
          have hrs := hr.some (.inr hfl)
          refine (seq _ _ (addFlat_decides hB t hf.1.2 (hfo.2.2.1 hfl) names hrs v h1 out)).of_iff ?_
          simp
        | false =>
          refine (seq _ _ (ser_decides hB t hf.1.2 v h1).map).of_iff ?_
          simp
theorem addExtras_decides {B : Backend σ} (hB : Lawful B) {s : Bool} :
    ∀ (t : Ty), tyOk t = true → isMap t = true → ∀ (l : List Str) (v : Value), HasTy t v →
    ∀ (out : List (Str × Doc σ)), Decides (WritableExtras s l t v) (addExtras B s (some l) t v out)
  | .map t, ht, _, l, v, hv, out => by
    simp only [tyOk] at ht
    obtain ⟨es, rfl, hs, hes⟩ := hasTy_map hv
    simp only [addExtras, WritableExtras]
    exact serEntries_decides (c := checkExtraKey (some l)) (p := fun k => k ∉ l) out
      (fun e _ => checkExtraKey_decides) (fun e he => ser_decides hB t ht e.2 (hes e he))
  | .leaf _, _, h, _, _, _, _ | .enum _, _, h, _, _, _, _ | .rawEnum _, _, h, _, _, _, _
  | .enumSet _, _, h, _, _, _, _ | .opt _, _, h, _, _, _, _ | .vec _, _, h, _, _, _, _
  | .arr _ _, _, h, _, _, _, _ | .record _ _, _, h, _, _, _, _ | .tuple _ _, _, h, _, _, _, _ => by cases h
theorem addFlat_decides {B : Backend σ} (hB : Lawful B) {s : Bool} {r : Option (List Str)} :
    ∀ (t : Ty), tyOk t = true → isRecord t = true → ∀ (names : List Str),
    (∃ l, r = some l ∧ ∀ n, n ∈ l ↔ n ∈ names) → ∀ (v : Value), HasTy t v →
    ∀ (out : List (Str × Doc σ)), Decides (WritableFlat s names t v) (addFlat B s r t v out)
  | .record _ fs, ht, _, names, hr, v, hv, out => by
    simp only [tyOk, Bool.and_eq_true] at ht
    obtain ⟨vs, rfl, hvs⟩ := hasTy_record hv
    simp only [addFlat, WritableFlat]
    exact addFields_decides hB fs ht.1.1 names (.inl hr) vs hvs out
  | .leaf _, _, h, _, _, _, _, _ | .enum _, _, h, _, _, _, _, _ | .rawEnum _, _, h, _, _, _, _, _
  | .enumSet _, _, h, _, _, _, _, _ | .opt _, _, h, _, _, _, _, _ | .vec _, _, h, _, _, _, _, _
  | .arr _ _, _, h, _, _, _, _, _ | .map _, _, h, _, _, _, _, _ | .tuple _ _, _, h, _, _, _, _, _ => by cases h
end

end Verif.Serial
