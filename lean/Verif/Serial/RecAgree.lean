import Verif.Serial.RecLemmas
/-! The functions of the model on types that agree down to the depth of the value or document. -/
namespace Verif.Serial
open Verif.Path Verif.Enums Spec

/-! ### What does not look below vectors and maps -/

mutual
theorem fresh_upto : ∀ {t : Ty} {k : Nat} {u : Ty}, Upto t k u → fresh t = fresh u
  | .leaf _, _, _, h | .enum _, _, _, h | .rawEnum _, _, _, h | .enumSet _, _, _, h => by
    simp only [Upto] at h; subst h; rfl
  | .opt t, _, _, h => by simp only [Upto] at h; obtain ⟨u, rfl, h⟩ := h; simp only [fresh]
  | .vec t, _, _, h => by simp only [Upto] at h; obtain ⟨u, rfl, h⟩ := h; simp only [fresh]
  | .map t, _, _, h => by simp only [Upto] at h; obtain ⟨u, rfl, h⟩ := h; simp only [fresh]
  | .arr _ t, _, _, h => by
    simp only [Upto] at h; obtain ⟨u, rfl, h⟩ := h; simp only [fresh, fresh_upto h]
  | .tuple _ ts, _, _, h => by
    simp only [Upto] at h; obtain ⟨u, rfl, h⟩ := h; simp only [fresh, freshs_upto h]
  | .record _ fs, _, _, h => by
    simp only [Upto] at h; obtain ⟨u, rfl, h⟩ := h; simp only [fresh, inits_upto h]
theorem freshs_upto : ∀ {ts : Tys} {k : Nat} {us : Tys}, Uptos ts k us → freshs ts = freshs us
  | .nil, _, _, h => by simp only [Uptos] at h; subst h; rfl
  | .cons t ts, _, _, h => by
    simp only [Uptos] at h; obtain ⟨u, us, rfl, h1, h2⟩ := h
    simp only [freshs, fresh_upto h1, freshs_upto h2]
theorem inits_upto : ∀ {fs : Fields} {k : Nat} {gs : Fields}, UptoFields fs k gs → inits fs = inits gs
  | .nil, _, _, h => by simp only [UptoFields] at h; subst h; rfl
  | .cons f t fs, _, _, h => by
    simp only [UptoFields] at h; obtain ⟨u, us, rfl, h1, h2⟩ := h
    simp only [inits, inits_upto h2]
end

theorem hasExtra_upto : ∀ {fs : Fields} {k : Nat} {gs : Fields}, UptoFields fs k gs →
    hasExtraOrFlatten fs = hasExtraOrFlatten gs
  | .nil, _, _, h => by simp only [UptoFields] at h; subst h; rfl
  | .cons f t fs, _, _, h => by
    simp only [UptoFields] at h; obtain ⟨u, us, rfl, h1, h2⟩ := h
    simp only [hasExtraOrFlatten, hasExtra_upto h2]

theorem seqFieldCount_upto : ∀ {fs : Fields} {k : Nat} {gs : Fields}, UptoFields fs k gs →
    seqFieldCount fs = seqFieldCount gs
  | .nil, _, _, h => by simp only [UptoFields] at h; subst h; rfl
  | .cons f t fs, _, _, h => by
    simp only [UptoFields] at h; obtain ⟨u, us, rfl, h1, h2⟩ := h
    simp only [seqFieldCount, seqFieldCount_upto h2]

theorem length_upto : ∀ {ts : Tys} {k : Nat} {us : Tys}, Uptos ts k us → ts.length = us.length
  | .nil, _, _, h => by simp only [Uptos] at h; subst h; rfl
  | .cons t ts, _, _, h => by
    simp only [Uptos] at h; obtain ⟨u, us, rfl, h1, h2⟩ := h
    simp only [Tys.length, length_upto h2]

mutual
theorem reserved_upto : ∀ {fs : Fields} {k : Nat} {gs : Fields}, UptoFields fs k gs →
    ∀ acc, collectReserved fs acc = collectReserved gs acc
  | .nil, _, _, h, _ => by simp only [UptoFields] at h; subst h; rfl
  | .cons f t fs, _, _, h, acc => by
    simp only [UptoFields] at h; obtain ⟨u, us, rfl, h1, h2⟩ := h
    simp only [collectReserved, reservedTy_upto h1 acc]
    split
    · rfl
    · exact reserved_upto h2 _
theorem reservedTy_upto : ∀ {t : Ty} {k : Nat} {u : Ty}, Upto t k u →
    ∀ acc, collectReservedTy t acc = collectReservedTy u acc
  | .leaf _, _, _, h, _ | .enum _, _, _, h, _ | .rawEnum _, _, _, h, _ | .enumSet _, _, _, h, _ => by
    simp only [Upto] at h; subst h; rfl
  | .opt t, _, _, h, _ | .vec t, _, _, h, _ | .arr _ t, _, _, h, _ | .map t, _, _, h, _ | .tuple _ t, _, _, h, _ => by
    simp only [Upto] at h; obtain ⟨u, rfl, h⟩ := h; simp only [collectReservedTy]
  | .record _ fs, _, _, h, acc => by
    simp only [Upto] at h; obtain ⟨u, rfl, h⟩ := h; simp only [collectReservedTy, reserved_upto h]
end

theorem reservedNames_upto {fs : Fields} {k : Nat} {gs : Fields} (h : UptoFields fs k gs) :
    reservedNames fs = reservedNames gs := by
  simp only [reservedNames, hasExtra_upto h, reserved_upto h]

mutual
theorem collectSer_upto : ∀ {fs : Fields} {k : Nat} {gs : Fields}, UptoFields fs k gs →
    ∀ acc, collectSer fs acc = collectSer gs acc
  | .nil, _, _, h, _ => by simp only [UptoFields] at h; subst h; rfl
  | .cons f t fs, _, _, h, acc => by
    simp only [UptoFields] at h; obtain ⟨u, us, rfl, h1, h2⟩ := h
    simp only [collectSer, collectSerTy_upto h1 acc, collectSer_upto h2]
theorem collectSerTy_upto : ∀ {t : Ty} {k : Nat} {u : Ty}, Upto t k u →
    ∀ acc, collectSerTy t acc = collectSerTy u acc
  | .leaf _, _, _, h, _ | .enum _, _, _, h, _ | .rawEnum _, _, _, h, _ | .enumSet _, _, _, h, _ => by
    simp only [Upto] at h; subst h; rfl
  | .opt t, _, _, h, _ | .vec t, _, _, h, _ | .arr _ t, _, _, h, _ | .map t, _, _, h, _ | .tuple _ t, _, _, h, _ => by
    simp only [Upto] at h; obtain ⟨u, rfl, h⟩ := h; simp only [collectSerTy]
  | .record _ fs, _, _, h, acc => by
    simp only [Upto] at h; obtain ⟨u, rfl, h⟩ := h; simp only [collectSerTy, collectSer_upto h]
end

mutual
theorem collectDeser_upto : ∀ {fs : Fields} {k : Nat} {gs : Fields}, UptoFields fs k gs →
    ∀ acc, collectDeser fs acc = collectDeser gs acc
  | .nil, _, _, h, _ => by simp only [UptoFields] at h; subst h; rfl
  | .cons f t fs, _, _, h, acc => by
    simp only [UptoFields] at h; obtain ⟨u, us, rfl, h1, h2⟩ := h
    simp only [collectDeser, collectDeserTy_upto h1 acc, collectDeser_upto h2]
theorem collectDeserTy_upto : ∀ {t : Ty} {k : Nat} {u : Ty}, Upto t k u →
    ∀ acc, collectDeserTy t acc = collectDeserTy u acc
  | .leaf _, _, _, h, _ | .enum _, _, _, h, _ | .rawEnum _, _, _, h, _ | .enumSet _, _, _, h, _ => by
    simp only [Upto] at h; subst h; rfl
  | .opt t, _, _, h, _ | .vec t, _, _, h, _ | .arr _ t, _, _, h, _ | .map t, _, _, h, _ | .tuple _ t, _, _, h, _ => by
    simp only [Upto] at h; obtain ⟨u, rfl, h⟩ := h; simp only [collectDeserTy]
  | .record _ fs, _, _, h, acc => by
    simp only [Upto] at h; obtain ⟨u, rfl, h⟩ := h; simp only [collectDeserTy, collectDeser_upto h]
end

/-! ### Loops -/

variable {σ : Type}

theorem all_same {α : Type} {f g : α → Bool} : ∀ {l : List α}, (∀ x ∈ l, f x = g x) → l.all f = l.all g
  | [], _ => rfl
  | x :: xs, h => by
    simp only [List.all_cons, h x (by simp), all_same fun y hy => h y (List.mem_cons_of_mem _ hy)]

theorem mapAll_same {α β : Type} {f g : α → Res β} : ∀ {l : List α}, (∀ x ∈ l, f x = g x) → mapAll f l = mapAll g l
  | [], _ => rfl
  | x :: xs, h => by
    simp only [mapAll, h x (by simp), mapAll_same fun y hy => h y (List.mem_cons_of_mem _ hy)]

theorem serEntries_same {B : Backend σ} {s : Bool} {check : Str → Res Unit} {f g : Value → Res (Doc σ)} :
    ∀ {es : List (Str × Value)}, (∀ e ∈ es, f e.2 = g e.2) → ∀ out,
      serEntries B s check f es out = serEntries B s check g es out
  | [], _, _ => rfl
  | (k, v) :: es, h, out => by
    have h1 : f v = g v := h (k, v) (by simp)
    have h2 := serEntries_same (B := B) (s := s) (check := check) fun y hy => h y (List.mem_cons_of_mem _ hy)
    simp only [serEntries, h1, h2]

theorem dumpEntries_same {s : Bool} {check : Str → Res Unit} {f g : Value → Res (List (Ev σ))} :
    ∀ {es : List (Str × Value)}, (∀ e ∈ es, f e.2 = g e.2) → dumpEntries s check f es = dumpEntries s check g es
  | [], _ => rfl
  | (k, v) :: es, h => by
    have h1 : f v = g v := h (k, v) (by simp)
    have h2 := dumpEntries_same (s := s) (check := check) fun y hy => h y (List.mem_cons_of_mem _ hy)
    simp only [dumpEntries, h1, h2]

theorem deserItems_same {f g : Doc σ → Res Value} : ∀ {l : List (Doc σ)}, (∀ x ∈ l, f x = g x) →
    ∀ i, deserItems f i l = deserItems g i l
  | [], _, _ => rfl
  | x :: xs, h, i => by
    simp only [deserItems, h x (by simp), deserItems_same (fun y hy => h y (List.mem_cons_of_mem _ hy)) (i + 1)]

theorem deserFixed_same {f g : Value → Doc σ → Res Value} {l : List (Doc σ)}
    (h : ∀ old i, f old (atIndex l i) = g old (atIndex l i)) : ∀ (olds : List Value) (i : Nat),
      deserFixed f l i olds = deserFixed g l i olds
  | [], _ => rfl
  | x :: xs, i => by simp only [deserFixed, h, deserFixed_same h xs (i + 1)]

theorem deserEntries_same {f g : Doc σ → Res Value} : ∀ {ms : List (Str × Doc σ)}, (∀ m ∈ ms, f m.2 = g m.2) →
    ∀ out, deserEntries f ms out = deserEntries g ms out
  | [], _, _ => rfl
  | (k, d) :: ms, h, out => by
    have h1 : f d = g d := h (k, d) (by simp)
    have h2 := deserEntries_same fun y hy => h y (List.mem_cons_of_mem _ hy)
    simp only [deserEntries, h1, h2]

theorem deserExtraEntries_same {f g : Doc σ → Res Value} {names : List Str} :
    ∀ {ms : List (Str × Doc σ)}, (∀ m ∈ ms, f m.2 = g m.2) →
      ∀ out, deserExtraEntries f names ms out = deserExtraEntries g names ms out
  | [], _, _ => rfl
  | (k, d) :: ms, h, out => by
    have h1 : f d = g d := h (k, d) (by simp)
    have h2 := deserExtraEntries_same (names := names) fun y hy => h y (List.mem_cons_of_mem _ hy)
    simp only [deserExtraEntries, h1, h2]

theorem patchExtraEntries_same {f g : Value → Doc σ → Res Value} {new : Value} {names : List Str} :
    ∀ {ms : List (Str × Doc σ)}, (∀ m ∈ ms, ∀ v, f v m.2 = g v m.2) →
      ∀ out, patchExtraEntries f new names ms out = patchExtraEntries g new names ms out
  | [], _, _ => rfl
  | (k, d) :: ms, h, out => by
    have h1 : ∀ v, f v d = g v d := h (k, d) (by simp)
    have h2 := patchExtraEntries_same (new := new) (names := names) fun y hy => h y (List.mem_cons_of_mem _ hy)
    simp only [patchExtraEntries, h1, h2]

theorem atField_depth {ms : List (Str × Doc σ)} {k : Nat} (h : memberDepths ms ≤ k) (n : Str) :
    (atField ms n).depth ≤ k := by
  have hm : ∀ (ms : List (Str × Doc σ)), memberDepths ms ≤ k → ∀ d, findMember ms n = some d → d.depth ≤ k := by
    intro ms
    induction ms with
    | nil => intro _ d hd; simp [findMember] at hd
    | cons m ms ih =>
      intro h d hd
      obtain ⟨k', d'⟩ := m
      rw [memberDepths] at h
      rw [findMember] at hd
      split at hd
      · cases hd; show d'.depth ≤ k; omega
      · exact ih (by omega) d hd
  unfold atField
  cases hf : findMember ms n with
  | none => simp [Doc.depth]
  | some d => exact hm ms h d hf

theorem atIndex_depth {l : List (Doc σ)} {k : Nat} (h : docDepths l ≤ k) (i : Nat) : (atIndex l i).depth ≤ k := by
  unfold atIndex
  cases hf : l[i]? with
  | none => simp [Doc.depth]
  | some d =>
    have hd : d ∈ l := List.mem_of_getElem? hf
    cases k with
    | zero => rw [docDepths_zero h] at hd; simp at hd
    | succ k => exact Nat.le_succ_of_le (docDepths_le h d hd)

/-! ### ser -/

mutual
theorem ser_upto {B : Backend σ} {s : Bool} : ∀ {t : Ty} {k : Nat} {u : Ty}, Upto t k u →
    ∀ {v : Value}, v.depth ≤ k → ser B s t v = ser B s u v
  | .leaf _, _, _, h, _, _ | .enum _, _, _, h, _, _ | .rawEnum _, _, _, h, _, _ | .enumSet _, _, _, h, _, _ => by
    simp only [Upto] at h; subst h; rfl
  | .opt t, k, _, h, v, hd => by
    simp only [Upto] at h; obtain ⟨u, rfl, h⟩ := h
    cases v <;> simp only [ser]
    rename_i v
    cases v with
    | none => rfl
    | some v => exact ser_upto h (by simpa only [Value.depth] using hd)
  | .vec t, k, _, h, v, hd => by
    simp only [Upto] at h; obtain ⟨u, rfl, h⟩ := h
    cases v <;> simp only [ser]
    rename_i vs
    congr 1
    simp only [Value.depth] at hd
    cases k with
    | zero => rw [depths_zero hd]; rfl
    | succ k => exact mapAll_same fun w hw => ser_upto (h k rfl) (depths_le hd w hw)
  | .arr _ t, k, _, h, v, hd => by
    simp only [Upto] at h; obtain ⟨u, rfl, h⟩ := h
    cases v <;> simp only [ser]
    rename_i vs
    congr 1
    simp only [Value.depth] at hd
    exact mapAll_same fun w hw => ser_upto h (depths_mem hd hw)
  | .map t, k, _, h, v, hd => by
    simp only [Upto] at h; obtain ⟨u, rfl, h⟩ := h
    cases v <;> simp only [ser]
    rename_i vs
    congr 1
    simp only [Value.depth] at hd
    cases k with
    | zero => rw [depthEntries_zero hd]; rfl
    | succ k => exact serEntries_same (fun w hw => ser_upto (h k rfl) (depthEntries_le hd w hw)) _
  | .tuple _ ts, k, _, h, v, hd => by
    simp only [Upto] at h; obtain ⟨u, rfl, h⟩ := h
    cases v <;> simp only [ser]
    rename_i vs
    congr 1
    simp only [Value.depth] at hd
    exact serTuple_upto h hd
  | .record _ fs, k, _, h, v, hd => by
    simp only [Upto] at h; obtain ⟨u, rfl, h⟩ := h
    cases v <;> simp only [ser]
    rename_i vs
    rw [reservedNames_upto h]
    split
    · rfl
    · simp only [Value.depth] at hd
      rw [addFields_upto h hd]
theorem serTuple_upto {B : Backend σ} {s : Bool} : ∀ {ts : Tys} {k : Nat} {us : Tys}, Uptos ts k us →
    ∀ {vs : List Value}, depths vs ≤ k → serTuple B s ts vs = serTuple B s us vs
  | .nil, _, _, h, _, _ => by simp only [Uptos] at h; subst h; rfl
  | .cons t ts, k, _, h, vs, hd => by
    simp only [Uptos] at h; obtain ⟨u, us, rfl, h1, h2⟩ := h
    cases vs with
    | nil => simp only [serTuple]
    | cons v vs =>
      rw [depths] at hd
      simp only [serTuple, ser_upto h1 (show v.depth ≤ k by omega), serTuple_upto h2 (show depths vs ≤ k by omega)]
theorem addFields_upto {B : Backend σ} {s : Bool} :
    ∀ {fs : Fields} {k : Nat} {gs : Fields}, UptoFields fs k gs →
    ∀ {vs : List Value}, depthFields vs ≤ k → ∀ {rs out}, addFields B s rs fs vs out = addFields B s rs gs vs out
  | .nil, _, _, h, _, _, _, _ => by simp only [UptoFields] at h; subst h; rfl
  | .cons f t fs, k, _, h, vs, hd, _, out => by
    simp only [UptoFields] at h; obtain ⟨u, us, rfl, h1, h2⟩ := h
    cases vs with
    | nil => simp only [addFields]
    | cons v vs =>
      rw [depthFields] at hd
      have hv : v.depth ≤ k := by omega
      have hvs : depthFields vs ≤ k := by omega
      simp only [addFields, addExtras_upto h1 hv, addFlat_upto h1 hv, ser_upto h1 hv]
      split
      · rfl
      · exact addFields_upto h2 hvs
theorem addExtras_upto {B : Backend σ} {s : Bool} : ∀ {t : Ty} {k : Nat} {u : Ty}, Upto t k u →
    ∀ {v : Value}, v.depth ≤ k → ∀ {rs out}, addExtras B s rs t v out = addExtras B s rs u v out
  | .leaf _, _, _, h, _, _, _, _ | .enum _, _, _, h, _, _, _, _ | .rawEnum _, _, _, h, _, _, _, _
  | .enumSet _, _, _, h, _, _, _, _ => by simp only [Upto] at h; subst h; rfl
  | .opt t, _, _, h, _, _, _, _ | .vec t, _, _, h, _, _, _, _ | .arr _ t, _, _, h, _, _, _, _ | .tuple _ t, _, _, h, _, _, _, _
  | .record _ fs, _, _, h, _, _, _, _ => by
    simp only [Upto] at h; obtain ⟨u, rfl, h⟩ := h; simp only [addExtras]
  | .map t, k, _, h, v, hd, _, out => by
    simp only [Upto] at h; obtain ⟨u, rfl, h⟩ := h
    cases v <;> simp only [addExtras]
    simp only [Value.depth] at hd
    cases k with
    | zero => rw [depthEntries_zero hd]; rfl
    | succ k => exact serEntries_same (fun w hw => ser_upto (h k rfl) (depthEntries_le hd w hw)) _
theorem addFlat_upto {B : Backend σ} {s : Bool} : ∀ {t : Ty} {k : Nat} {u : Ty}, Upto t k u →
    ∀ {v : Value}, v.depth ≤ k → ∀ {rs out}, addFlat B s rs t v out = addFlat B s rs u v out
  | .leaf _, _, _, h, _, _, _, _ | .enum _, _, _, h, _, _, _, _ | .rawEnum _, _, _, h, _, _, _, _
  | .enumSet _, _, _, h, _, _, _, _ => by simp only [Upto] at h; subst h; rfl
  | .opt t, _, _, h, _, _, _, _ | .vec t, _, _, h, _, _, _, _ | .arr _ t, _, _, h, _, _, _, _ | .tuple _ t, _, _, h, _, _, _, _
  | .map t, _, _, h, _, _, _, _ => by
    simp only [Upto] at h; obtain ⟨u, rfl, h⟩ := h; simp only [addFlat]
  | .record _ fs, k, _, h, v, hd, _, out => by
    simp only [Upto] at h; obtain ⟨u, rfl, h⟩ := h
    cases v <;> simp only [addFlat]
    simp only [Value.depth] at hd
    exact addFields_upto h hd
end

/-! ### deser -/

theorem readPlain_same {E : Env} {f : Field} {ms : List (Str × Doc σ)} {old : Value} {g h : Doc σ → Res Value}
    (hg : ∀ n, g (atField ms n) = h (atField ms n)) : readPlain E f ms old g = readPlain E f ms old h := by
  unfold readPlain
  cases resolveName ms f with
  | none => simp only [hg]
  | some n => simp only [hg]

theorem patchPlain_same {E : Env} {f : Field} {ms : List (Str × Doc σ)} {old : Value} {g h : Doc σ → Res Value}
    (hg : ∀ n, g (atField ms n) = h (atField ms n)) : patchPlain E f ms old g = patchPlain E f ms old h := by
  unfold patchPlain
  cases resolveName ms f with
  | none => rfl
  | some n => simp only [hg]

mutual
theorem deser_upto {B : Backend σ} {E : Env} : ∀ {t : Ty} {k : Nat} {u : Ty}, Upto t k u →
    ∀ {d : Doc σ}, d.depth ≤ k → ∀ {old : Value}, deser B E t old d = deser B E u old d
  | .leaf _, _, _, h, _, _, _ | .enum _, _, _, h, _, _, _ | .rawEnum _, _, _, h, _, _, _
  | .enumSet _, _, _, h, _, _, _ => by simp only [Upto] at h; subst h; rfl
  | .opt t, k, _, h, d, hd, old => by
    simp only [Upto] at h; obtain ⟨u, rfl, h⟩ := h
    simp only [deser, fresh_upto h, deser_upto h hd]
  | .vec t, k, _, h, d, hd, old => by
    simp only [Upto] at h; obtain ⟨u, rfl, h⟩ := h
    cases d <;> simp only [deser, elements]
    rename_i l
    simp only [Doc.depth] at hd
    congr 1
    cases k with
    | zero => rw [docDepths_zero hd]; rfl
    | succ k =>
      rw [fresh_upto (h k rfl)]
      exact deserItems_same (fun w hw => deser_upto (h k rfl) (docDepths_le hd w hw)) _
  | .arr _ t, k, _, h, d, hd, old => by
    simp only [Upto] at h; obtain ⟨u, rfl, h⟩ := h
    cases d <;> simp only [deser, elements]
    rename_i l
    simp only [Doc.depth] at hd
    cases old <;> simp only
    split
    · rfl
    · congr 1
      exact deserFixed_same (fun old i => deser_upto h (atIndex_depth hd i)) _ _
  | .map t, k, _, h, d, hd, old => by
    simp only [Upto] at h; obtain ⟨u, rfl, h⟩ := h
    cases d <;> simp only [deser, members]
    rename_i ms
    simp only [Doc.depth] at hd
    congr 1
    cases k with
    | zero => rw [memberDepths_zero hd]; rfl
    | succ k =>
      rw [fresh_upto (h k rfl)]
      exact deserEntries_same (fun w hw => deser_upto (h k rfl) (memberDepths_le hd w hw)) _
  | .tuple _ ts, k, _, h, d, hd, old => by
    simp only [Upto] at h; obtain ⟨u, rfl, h⟩ := h
    cases d <;> simp only [deser, elements]
    rename_i l
    simp only [Doc.depth] at hd
    rw [length_upto h]
    split
    · rfl
    · cases old <;> simp only
      rw [deserTuple_upto h hd]
  | .record _ fs, k, _, h, d, hd, old => by
    simp only [Upto] at h; obtain ⟨u, rfl, h⟩ := h
    simp only [deser]
    congr 1
    cases old <;> simp only
    cases d with
    | null => rfl
    | scalar s => rfl
    | arr l =>
      simp only [Doc.depth] at hd
      simp only [seqFieldCount_upto h, deserSeqFields_upto h hd]
    | obj ms =>
      simp only [Doc.depth] at hd
      simp only [reservedNames_upto h]
      split
      · rfl
      · rw [deserFields_upto h hd]
theorem deserTuple_upto {B : Backend σ} {E : Env} : ∀ {ts : Tys} {k : Nat} {us : Tys}, Uptos ts k us →
    ∀ {l : List (Doc σ)}, docDepths l ≤ k → ∀ {i : Nat} {olds : List Value},
      deserTuple B E l ts i olds = deserTuple B E l us i olds
  | .nil, _, _, h, _, _, _, _ => by simp only [Uptos] at h; subst h; rfl
  | .cons t ts, k, _, h, l, hd, i, olds => by
    simp only [Uptos] at h; obtain ⟨u, us, rfl, h1, h2⟩ := h
    cases olds with
    | nil => simp only [deserTuple]
    | cons o olds => simp only [deserTuple, deser_upto h1 (atIndex_depth hd i), deserTuple_upto h2 hd]
theorem deserFields_upto {B : Backend σ} {E : Env} : ∀ {fs : Fields} {k : Nat} {gs : Fields}, UptoFields fs k gs →
    ∀ {ms : List (Str × Doc σ)}, memberDepths ms ≤ k → ∀ {rs} {olds : List Value},
      deserFields B E rs ms fs olds = deserFields B E rs ms gs olds
  | .nil, _, _, h, _, _, _, _ => by simp only [UptoFields] at h; subst h; rfl
  | .cons f t fs, k, _, h, ms, hd, rs, olds => by
    simp only [UptoFields] at h; obtain ⟨u, us, rfl, h1, h2⟩ := h
    cases olds with
    | nil => simp only [deserFields]
    | cons o olds =>
      have e1 := readPlain_same (E := E) (f := f) (ms := ms) (old := o) (g := deser B E t o) (h := deser B E u o)
        fun n => deser_upto h1 (atField_depth hd n)
      have e2 : deser B E t o (.obj ms) = deser B E u o (.obj ms) :=
        deser_upto h1 (by simpa only [Doc.depth] using hd)
      simp only [deserFields, deserExtras_upto h1 hd, e1, e2, deserFields_upto h2 hd]
theorem deserExtras_upto {B : Backend σ} {E : Env} : ∀ {t : Ty} {k : Nat} {u : Ty}, Upto t k u →
    ∀ {ms : List (Str × Doc σ)}, memberDepths ms ≤ k → ∀ {rs}, deserExtras B E rs ms t = deserExtras B E rs ms u
  | .leaf _, _, _, h, _, _, _ | .enum _, _, _, h, _, _, _ | .rawEnum _, _, _, h, _, _, _
  | .enumSet _, _, _, h, _, _, _ => by simp only [Upto] at h; subst h; rfl
  | .opt t, _, _, h, _, _, _ | .vec t, _, _, h, _, _, _ | .arr _ t, _, _, h, _, _, _ | .tuple _ t, _, _, h, _, _, _
  | .record _ fs, _, _, h, _, _, _ => by
    simp only [Upto] at h; obtain ⟨u, rfl, h⟩ := h; simp only [deserExtras]
  | .map t, k, _, h, ms, hd, rs => by
    simp only [Upto] at h; obtain ⟨u, rfl, h⟩ := h
    cases rs <;> simp only [deserExtras]
    congr 1
    cases k with
    | zero => rw [memberDepths_zero hd]; rfl
    | succ k =>
      rw [fresh_upto (h k rfl)]
      exact deserExtraEntries_same (fun w hw => deser_upto (h k rfl) (memberDepths_le hd w hw)) _
theorem deserSeqFields_upto {B : Backend σ} {E : Env} : ∀ {fs : Fields} {k : Nat} {gs : Fields}, UptoFields fs k gs →
    ∀ {l : List (Doc σ)}, docDepths l ≤ k → ∀ {i} {olds : List Value},
      deserSeqFields B E l fs i olds = deserSeqFields B E l gs i olds
  | .nil, _, _, h, _, _, _, _ => by simp only [UptoFields] at h; subst h; rfl
  | .cons f t fs, k, _, h, l, hd, i, olds => by
    simp only [UptoFields] at h; obtain ⟨u, us, rfl, h1, h2⟩ := h
    cases olds with
    | nil => simp only [deserSeqFields]
    | cons o olds =>
      simp only [deserSeqFields, deser_upto h1 (atIndex_depth hd i), deserSeqFields_upto h2 hd]
end

/-! ### patch -/

mutual
theorem patch_upto {B : Backend σ} {E : Env} : ∀ {t : Ty} {k : Nat} {u : Ty}, Upto t k u →
    ∀ {d : Doc σ}, d.depth ≤ k → ∀ {old : Value}, patch B E t old d = patch B E u old d
  | .leaf _, _, _, h, _, _, _ | .enum _, _, _, h, _, _, _ | .rawEnum _, _, _, h, _, _, _
  | .enumSet _, _, _, h, _, _, _ => by simp only [Upto] at h; subst h; rfl
  | .vec t, k, _, h, d, hd, old | .arr _ t, k, _, h, d, hd, old | .map t, k, _, h, d, hd, old
  | .tuple _ t, k, _, h, d, hd, old => by
    have h' := h
    simp only [Upto] at h'; obtain ⟨u, rfl, -⟩ := h'
    simp only [patch]
    exact deser_upto h hd
  | .opt t, k, _, h, d, hd, old => by
    simp only [Upto] at h; obtain ⟨u, rfl, h⟩ := h
    simp only [patch, fresh_upto h, patch_upto h hd]
  | .record _ fs, k, _, h, d, hd, old => by
    have h' := h
    simp only [Upto] at h'; obtain ⟨u, rfl, h'⟩ := h'
    simp only [patch]
    congr 1
    cases d with
    | null => exact deser_upto h hd
    | scalar s => exact deser_upto h hd
    | arr l => exact deser_upto h hd
    | obj ms =>
      simp only [Doc.depth] at hd
      simp only [reservedNames_upto h']
      split
      · rfl
      · cases old <;> simp only
        rw [patchFields_upto h' hd]
theorem patchFields_upto {B : Backend σ} {E : Env} : ∀ {fs : Fields} {k : Nat} {gs : Fields}, UptoFields fs k gs →
    ∀ {ms : List (Str × Doc σ)}, memberDepths ms ≤ k → ∀ {rs} {olds : List Value},
      patchFields B E rs ms fs olds = patchFields B E rs ms gs olds
  | .nil, _, _, h, _, _, _, _ => by simp only [UptoFields] at h; subst h; rfl
  | .cons f t fs, k, _, h, ms, hd, rs, olds => by
    simp only [UptoFields] at h; obtain ⟨u, us, rfl, h1, h2⟩ := h
    cases olds with
    | nil => simp only [patchFields]
    | cons o olds =>
      have e1 := patchPlain_same (E := E) (f := f) (ms := ms) (old := o) (g := patch B E t o) (h := patch B E u o)
        fun n => patch_upto h1 (atField_depth hd n)
      have e2 : patch B E t o (.obj ms) = patch B E u o (.obj ms) :=
        patch_upto h1 (by simpa only [Doc.depth] using hd)
      simp only [patchFields, patchExtras_upto h1 hd, e1, e2, patchFields_upto h2 hd]
theorem patchExtras_upto {B : Backend σ} {E : Env} : ∀ {t : Ty} {k : Nat} {u : Ty}, Upto t k u →
    ∀ {ms : List (Str × Doc σ)}, memberDepths ms ≤ k → ∀ {rs old},
      patchExtras B E rs ms t old = patchExtras B E rs ms u old
  | .leaf _, _, _, h, _, _, _, _ | .enum _, _, _, h, _, _, _, _ | .rawEnum _, _, _, h, _, _, _, _
  | .enumSet _, _, _, h, _, _, _, _ => by simp only [Upto] at h; subst h; rfl
  | .opt t, _, _, h, _, _, _, _ | .vec t, _, _, h, _, _, _, _ | .arr _ t, _, _, h, _, _, _, _
  | .tuple _ t, _, _, h, _, _, _, _ | .record _ fs, _, _, h, _, _, _, _ => by
    simp only [Upto] at h; obtain ⟨u, rfl, h⟩ := h; simp only [patchExtras]
  | .map t, k, _, h, ms, hd, rs, old => by
    simp only [Upto] at h; obtain ⟨u, rfl, h⟩ := h
    cases rs <;> cases old <;> simp only [patchExtras]
    congr 1
    cases k with
    | zero => rw [memberDepths_zero hd]; rfl
    | succ k =>
      rw [fresh_upto (h k rfl)]
      exact patchExtraEntries_same (fun w hw v => patch_upto (h k rfl) (memberDepths_le hd w hw)) _
end

/-! ### Typing -/

mutual
theorem hasTy_upto : ∀ {t : Ty} {k : Nat} {u : Ty}, Upto t k u → ∀ {v : Value}, v.depth ≤ k → hasTy t v = hasTy u v
  | .leaf _, _, _, h, _, _ | .enum _, _, _, h, _, _ | .rawEnum _, _, _, h, _, _ | .enumSet _, _, _, h, _, _ => by
    simp only [Upto] at h; subst h; rfl
  | .opt t, k, _, h, v, hd => by
    simp only [Upto] at h; obtain ⟨u, rfl, h⟩ := h
    cases v <;> try simp only [hasTy]
    rename_i v
    cases v with
    | none => simp only [hasTy]
    | some v => simp only [hasTy]; exact hasTy_upto h (by simpa only [Value.depth] using hd)
  | .vec t, k, _, h, v, hd => by
    simp only [Upto] at h; obtain ⟨u, rfl, h⟩ := h
    cases v <;> simp only [hasTy]
    rename_i vs
    simp only [Value.depth] at hd
    cases k with
    | zero => rw [depths_zero hd]; rfl
    | succ k => exact all_same fun w hw => hasTy_upto (h k rfl) (depths_le hd w hw)
  | .arr _ t, k, _, h, v, hd => by
    simp only [Upto] at h; obtain ⟨u, rfl, h⟩ := h
    cases v <;> simp only [hasTy]
    rename_i vs
    simp only [Value.depth] at hd
    rw [all_same fun w hw => hasTy_upto h (depths_mem hd hw)]
  | .map t, k, _, h, v, hd => by
    simp only [Upto] at h; obtain ⟨u, rfl, h⟩ := h
    cases v <;> simp only [hasTy]
    rename_i vs
    simp only [Value.depth] at hd
    cases k with
    | zero => rw [depthEntries_zero hd]; rfl
    | succ k => rw [all_same fun w hw => hasTy_upto (h k rfl) (depthEntries_le hd w hw)]
  | .tuple _ ts, k, _, h, v, hd => by
    simp only [Upto] at h; obtain ⟨u, rfl, h⟩ := h
    cases v <;> simp only [hasTy]
    simp only [Value.depth] at hd
    exact hasTys_upto h hd
  | .record _ fs, k, _, h, v, hd => by
    simp only [Upto] at h; obtain ⟨u, rfl, h⟩ := h
    cases v <;> simp only [hasTy]
    simp only [Value.depth] at hd
    exact hasFields_upto h hd
theorem hasTys_upto : ∀ {ts : Tys} {k : Nat} {us : Tys}, Uptos ts k us →
    ∀ {vs : List Value}, depths vs ≤ k → hasTys ts vs = hasTys us vs
  | .nil, _, _, h, _, _ => by simp only [Uptos] at h; subst h; rfl
  | .cons t ts, k, _, h, vs, hd => by
    simp only [Uptos] at h; obtain ⟨u, us, rfl, h1, h2⟩ := h
    cases vs with
    | nil => simp only [hasTys]
    | cons v vs =>
      rw [depths] at hd
      simp only [hasTys, hasTy_upto h1 (show v.depth ≤ k by omega), hasTys_upto h2 (show depths vs ≤ k by omega)]
theorem hasFields_upto : ∀ {fs : Fields} {k : Nat} {gs : Fields}, UptoFields fs k gs →
    ∀ {vs : List Value}, depthFields vs ≤ k → hasFields fs vs = hasFields gs vs
  | .nil, _, _, h, _, _ => by simp only [UptoFields] at h; subst h; rfl
  | .cons f t fs, k, _, h, vs, hd => by
    simp only [UptoFields] at h; obtain ⟨u, us, rfl, h1, h2⟩ := h
    cases vs with
    | nil => simp only [hasFields]
    | cons v vs =>
      rw [depthFields] at hd
      simp only [hasFields, hasTy_upto h1 (show v.depth ≤ k by omega),
        hasFields_upto h2 (show depthFields vs ≤ k by omega)]
end

end Verif.Serial
