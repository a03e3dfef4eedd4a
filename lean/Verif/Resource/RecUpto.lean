import Verif.Resource.Rec
/-
Lemmas for C135: what does not look deeper than the value gives the same on codes that agree that far.
-/
namespace Verif.Resource
open Verif.Path Verif.Path.Spec Verif.Tracker Verif.Tracker.Spec Verif.Resource.Spec

theorem within_mono {n m : Nat} (h : n ≤ m) : ∀ {v : Value}, Within n v → Within m v := by
  induction n generalizing m with
  | zero => intro v hv; exact absurd hv id
  | succ n ih =>
    intro v hv
    cases m with
    | zero => omega
    | succ m =>
      intro w hw
      exact ih (by omega) (hv w hw)

mutual
theorem upto_mono {s : Ty} {n m : Nat} (h : n ≤ m) {t : Ty} (hu : Upto s m t) : Upto s n t := by
  cases n with
  | zero => cases s <;> simp [Upto]
  | succ n =>
    cases m with
    | zero => omega
    | succ m =>
      have h' : n ≤ m := by omega
      match s with
      | .leaf i => simp only [Upto] at hu ⊢; exact hu
      | .opt s =>
        simp only [Upto] at hu ⊢
        obtain ⟨s', e, hu⟩ := hu
        exact ⟨s', e, upto_mono h' hu⟩
      | .record i fs =>
        simp only [Upto] at hu ⊢
        obtain ⟨gs, e, hu⟩ := hu
        exact ⟨gs, e, uptoF_mono h' hu⟩
      | .map er s =>
        simp only [Upto] at hu ⊢
        obtain ⟨s', e, hu⟩ := hu
        exact ⟨s', e, upto_mono h' hu⟩
      | .seq k s =>
        simp only [Upto] at hu ⊢
        obtain ⟨s', e, hu⟩ := hu
        exact ⟨s', e, upto_mono h' hu⟩
theorem uptoF_mono {fs : Fields} {n m : Nat} (h : n ≤ m) {gs : Fields} (hu : UptoF fs m gs) : UptoF fs n gs := by
  match fs with
  | .nil => simp only [UptoF] at hu ⊢; exact hu
  | .cons a t fs =>
    simp only [UptoF] at hu ⊢
    obtain ⟨t', gs', e, h1, h2⟩ := hu
    exact ⟨t', gs', e, upto_mono h h1, uptoF_mono h h2⟩
end

mutual
theorem upto_refl (s : Ty) (n : Nat) : Upto s n s := by
  cases n with
  | zero => cases s <;> simp [Upto]
  | succ n =>
    match s with
    | .leaf i => simp [Upto]
    | .opt s => simp only [Upto]; exact ⟨s, rfl, upto_refl s n⟩
    | .record i fs => simp only [Upto]; exact ⟨fs, rfl, uptoF_refl fs n⟩
    | .map er s => simp only [Upto]; exact ⟨s, rfl, upto_refl s n⟩
    | .seq k s => simp only [Upto]; exact ⟨s, rfl, upto_refl s n⟩
theorem uptoF_refl (fs : Fields) (n : Nat) : UptoF fs n fs := by
  match fs with
  | .nil => simp [UptoF]
  | .cons a t fs => simp only [UptoF]; exact ⟨t, fs, rfl, upto_refl t n, uptoF_refl fs n⟩
end

mutual
/-- Every value has some depth. -/
theorem within_some : ∀ v : Value, ∃ n, Within n v
  | .leaf a => ⟨1, by intro w hw; cases hw⟩
  | .opt none => ⟨1, by intro w hw; cases hw⟩
  | .opt (some v) => by
    obtain ⟨n, hn⟩ := within_some v
    refine ⟨n + 1, ?_⟩
    intro w hw
    simp only [Value.kids, Option.toList, List.mem_singleton] at hw
    subst hw; exact hn
  | .record vs => by
    obtain ⟨n, hn⟩ := within_all vs
    exact ⟨n + 1, hn⟩
  | .seq vs => by
    obtain ⟨n, hn⟩ := within_all vs
    exact ⟨n + 1, hn⟩
  | .map es => by
    obtain ⟨n, hn⟩ := within_entries es
    refine ⟨n + 1, ?_⟩
    intro w hw
    simp only [Value.kids, List.mem_map] at hw
    obtain ⟨e, he, rfl⟩ := hw
    exact hn e he
theorem within_all : ∀ vs : List Value, ∃ n, ∀ v ∈ vs, Within n v
  | [] => ⟨0, by simp⟩
  | v :: vs => by
    obtain ⟨n, hn⟩ := within_some v
    obtain ⟨m, hm⟩ := within_all vs
    refine ⟨n + m, ?_⟩
    intro w hw
    rcases List.mem_cons.1 hw with rfl | hw
    · exact within_mono (by omega) hn
    · exact within_mono (by omega) (hm w hw)
theorem within_entries : ∀ es : List (Str × Value), ∃ n, ∀ e ∈ es, Within n e.2
  | [] => ⟨0, by simp⟩
  | (k, v) :: es => by
    obtain ⟨n, hn⟩ := within_some v
    obtain ⟨m, hm⟩ := within_entries es
    refine ⟨n + m, ?_⟩
    intro w hw
    rcases List.mem_cons.1 hw with rfl | hw
    · exact within_mono (by omega) hn
    · exact within_mono (by omega) (hm w hw)
end

/-! ### Parts -/

theorem Part.trans {a b c : Ty} (h : Part a b) (h' : Part b c) : Part a c := by
  induction h' with
  | self => exact h
  | opt _ ih => exact .opt ih
  | field hm _ ih => exact .field hm ih
  | map _ ih => exact .map ih
  | seq _ ih => exact .seq ih

section
variable {T : Nat → Ty}

theorem InFamily.part {s t : Ty} (h : InFamily T t) (hp : Part s t) : InFamily T s := let ⟨k, hk⟩ := h; ⟨k, hp.trans hk⟩
theorem InFamily.opt {t : Ty} (h : InFamily T (.opt t)) : InFamily T t := h.part (.opt .self)
theorem InFamily.map {e : Bool} {t : Ty} (h : InFamily T (.map e t)) : InFamily T t := h.part (.map .self)
theorem InFamily.seq {k : SeqKind} {t : Ty} (h : InFamily T (.seq k t)) : InFamily T t := h.part (.seq .self)
/-- All fields. -/
def InFamilyF (T : Nat → Ty) (fs : Fields) : Prop := ∀ p ∈ fieldList fs, InFamily T p.2
theorem InFamily.fields {i : Nat} {fs : Fields} (h : InFamily T (.record i fs)) : InFamilyF T fs :=
  fun _ hp => h.part (.field hp .self)
theorem InFamilyF.head {a : Attrs} {t : Ty} {fs : Fields} (h : InFamilyF T (.cons a t fs)) : InFamily T t :=
  h (a, t) (by simp [fieldList])
theorem InFamilyF.tail {a : Attrs} {t : Ty} {fs : Fields} (h : InFamilyF T (.cons a t fs)) : InFamilyF T fs :=
  fun p hp => h p (by simp [fieldList, hp])

end

/-! ### Navigation -/

/-- The two visits end at the same place, at types that agree for the rest of the depth. -/
def Same (T : Nat → Ty) (d n : Nat) : Except Err Target → Except Err Target → Prop
  | .ok a, .ok b => b = { a with ty := b.ty } ∧ a.addr.length ≤ d ∧ Upto a.ty (n - a.addr.length) b.ty ∧
    Within (d - a.addr.length) a.val ∧ InFamily T a.ty ∧ InFamily T b.ty
  | .error e, .error e' => e = e'
  | _, _ => False

theorem same_under {T : Nat → Ty} {d n i : Nat} {x y : Except Err Target} (h : Same T d n x y) :
    Same T (d + 1) (n + 1) (x.map (·.under i)) (y.map (·.under i)) := by
  cases x with
  | error e => cases y with
    | error e' => exact h
    | ok b => exact absurd h id
  | ok a => cases y with
    | error e' => exact absurd h id
    | ok b =>
      obtain ⟨h1, h2, h3, h4, h5, h6⟩ := h
      have e : ∀ m, m + 1 - (i :: a.addr).length = m - a.addr.length := by simp
      refine ⟨?_, ?_, ?_, ?_, h5, h6⟩
      · rw [h1]; rfl
      · simp only [Target.under, List.length_cons]; omega
      · simp only [Target.under]; rw [e]; exact h3
      · simp only [Target.under]; rw [e]; exact h4

section
variable {β : Type} {E : Env β} {T : Nat → Ty} {bd : β → Nat} {fd : Nat}

theorem findKeyed_upto (U : Uniform E T bd fd) {n : Nat} {s t : Ty} {vs : List Value} (hv : ∀ v ∈ vs, Within n v) (hs : InFamily T s)
    (ht : InFamily T t) (hu : Upto s n t) (x : Str) (ks : List Nat) : findKeyed E s vs x ks = findKeyed E t vs x ks := by
  induction ks with
  | nil => rfl
  | cons k ks ih =>
    have : (vs.findIdx? fun v => (member v k).any fun key => E.keyMatches s v key x) =
        vs.findIdx? fun v => (member v k).any fun key => E.keyMatches t v key x := by
      clear ih
      induction vs with
      | nil => rfl
      | cons v vs ih =>
        rw [List.findIdx?_cons, List.findIdx?_cons, ih (fun v hv' => hv v (by simp [hv']))]
        have : (fun key => E.keyMatches s v key x) = fun key => E.keyMatches t v key x := by
          funext key; exact U.keyMatches n s t v key x hs ht hu (hv v (by simp))
        rw [this]
    simp only [findKeyed, this, ih]

mutual
theorem visit_upto (U : Uniform E T bd fd) (stop : Nat) {s t : Ty} {d n : Nat} {v : Value} (node : Node) (path : List Str) (c : Access)
    (hd : d ≤ n) (hv : Within d v) (hs : InFamily T s) (ht : InFamily T t) (hu : Upto s n t) :
    Same T d n (visit E stop s node v path c) (visit E stop t node v path c) := by
  obtain ⟨d, rfl⟩ : ∃ d', d = d' + 1 := by
    cases d with
    | zero => exact absurd hv id
    | succ d => exact ⟨d, rfl⟩
  obtain ⟨n, rfl⟩ : ∃ n', n = n' + 1 := ⟨n - 1, by omega⟩
  have hd' : d ≤ n := by omega
  have stopped : Same T (d + 1) (n + 1) (.ok ⟨[], node, s, v, c, path⟩) (.ok ⟨[], node, t, v, c, path⟩) :=
    ⟨rfl, by simp, by simpa using hu, by simpa using hv, hs, ht⟩
  · match s with
    | .leaf i =>
      simp only [Upto] at hu
      subst hu
      simp only [visit]
      split
      · exact stopped
      · rfl
    | .opt s =>
      simp only [Upto] at hu
      obtain ⟨s', rfl, hu⟩ := hu
      simp only [visit]
      split
      · exact stopped
      · cases v with
        | opt x =>
          cases x with
          | none => rfl
          | some w =>
            exact same_under (visit_upto U stop (.elem none) path _ hd' (hv w (by simp [Value.kids])) hs.opt ht.opt hu)
        | _ => rfl
    | .record i fs =>
      simp only [Upto] at hu
      obtain ⟨gs, rfl, hu⟩ := hu
      simp only [visit]
      split
      · exact stopped
      · cases v with
        | record vs =>
          cases path with
          | nil => rfl
          | cons x rest => exact visitFields_upto U stop 0 node x rest c hd' hv hs.fields ht.fields hu
        | _ => rfl
    | .map er s =>
      simp only [Upto] at hu
      obtain ⟨s', rfl, hu⟩ := hu
      simp only [visit]
      split
      · exact stopped
      · cases v with
        | map es =>
          cases path with
          | nil => rfl
          | cons x rest =>
            dsimp only
            cases findKey es x with
            | none => rfl
            | some i =>
              dsimp only
              cases he : es[i]? with
              | none => rfl
              | some e =>
                refine same_under (visit_upto U stop (.elem none) rest _ hd' (hv e.2 ?_) hs.map ht.map hu)
                exact List.mem_map.2 ⟨e, List.mem_of_getElem? he, rfl⟩
        | _ => rfl
    | .seq k s =>
      simp only [Upto] at hu
      obtain ⟨s', rfl, hu⟩ := hu
      simp only [visit]
      split
      · exact stopped
      · cases v with
        | seq vs =>
          cases path with
          | nil => rfl
          | cons x rest =>
            dsimp only
            rw [findKeyed_upto U (vs := vs) (fun v h => within_mono hd' (hv v h)) hs.seq ht.seq hu]
            split
            · cases findKeyed E s' vs x node.childKeys with
              | error e => rfl
              | ok o =>
                cases o with
                | none => rfl
                | some ki =>
                  obtain ⟨key, i⟩ := ki
                  dsimp only
                  cases he : vs[i]? with
                  | none => rfl
                  | some w => exact same_under (visit_upto U stop _ rest _ hd' (hv w (List.mem_of_getElem? he)) hs.seq ht.seq hu)
            · split
              · cases parseIndex x with
                | none => rfl
                | some i =>
                  dsimp only
                  cases he : vs[i]? with
                  | none => rfl
                  | some w => exact same_under (visit_upto U stop _ rest _ hd' (hv w (List.mem_of_getElem? he)) hs.seq ht.seq hu)
              · rfl
        | _ => rfl
theorem visitFields_upto (U : Uniform E T bd fd) (stop : Nat) {fs gs : Fields} {d n : Nat} {vs : List Value} (i : Nat) (node : Node)
    (x : Str) (rest : List Str) (c : Access) (hd : d ≤ n) (hv : ∀ v ∈ vs, Within d v) (hs : InFamilyF T fs) (ht : InFamilyF T gs)
    (hu : UptoF fs n gs) : Same T (d + 1) (n + 1) (visitFields E stop fs i vs node x rest c) (visitFields E stop gs i vs node x rest c) := by
  match fs with
  | .nil =>
    simp only [UptoF] at hu
    subst hu
    simp only [visitFields]; rfl
  | .cons a t fs =>
    simp only [UptoF] at hu
    obtain ⟨t', gs', rfl, h1, h2⟩ := hu
    cases vs with
    | nil => simp only [visitFields]; rfl
    | cons v vs =>
      simp only [visitFields]
      split
      · exact visitFields_upto U stop (i + 1) node x rest c hd (fun v h => hv v (by simp [h])) hs.tail ht.tail h2
      · exact same_under (visit_upto U stop _ rest _ hd (hv v (by simp)) hs.head ht.head h1)
end

/-! ### Validation -/

theorem forEach_congr {f g : Value → Except Err Unit} {vs : List Value} (h : ∀ v ∈ vs, f v = g v) : forEach f vs = forEach g vs := by
  induction vs with
  | nil => rfl
  | cons v vs ih => simp only [forEach, h v (by simp), ih (fun v hv => h v (by simp [hv]))]

mutual
theorem validateNodeTree_upto (U : Uniform E T bd fd) {s t : Ty} {m : Nat} {v : Value} (node : Node) (hv : Within m v) (hs : InFamily T s) (ht : InFamily T t)
    (hu : Upto s m t) :
    validateNodeTree E s node v = validateNodeTree E t node v := by
  cases m with
  | zero => exact absurd hv id
  | succ m =>
    have hval := U.validate (m + 1) s t v hs ht hu hv
    match s with
    | .leaf i =>
      simp only [Upto] at hu
      subst hu; rfl
    | .opt s =>
      simp only [Upto] at hu
      obtain ⟨s', rfl, hu⟩ := hu
      simp only [validateNodeTree, hval]
      cases v with
      | opt x =>
        cases x with
        | none => rfl
        | some w => have h := validateNodeTree_upto U (.elem none) (hv w (by simp [Value.kids])) hs.opt ht.opt hu; simp only [h]
      | _ => rfl
    | .record i fs =>
      simp only [Upto] at hu
      obtain ⟨gs, rfl, hu⟩ := hu
      simp only [validateNodeTree, hval]
      cases v with
      | record vs => have h := validateFields_upto U (vs := vs) hv hs.fields ht.fields hu; simp only [h]
      | _ => rfl
    | .map er s =>
      simp only [Upto] at hu
      obtain ⟨s', rfl, hu⟩ := hu
      simp only [validateNodeTree, hval]
      cases v with
      | map es =>
        have h : forEach (validateNodeTree E s (.elem none)) (es.map (·.2)) = forEach (validateNodeTree E s' (.elem none)) (es.map (·.2)) :=
          forEach_congr fun w hw => validateNodeTree_upto U (.elem none) (hv w hw) hs.map ht.map hu
        simp only [h]
      | _ => rfl
    | .seq k s =>
      simp only [Upto] at hu
      obtain ⟨s', rfl, hu⟩ := hu
      simp only [validateNodeTree, hval]
      cases v with
      | seq vs =>
        have h : forEach (validateNodeTree E s (.elem none)) vs = forEach (validateNodeTree E s' (.elem none)) vs :=
          forEach_congr fun w hw => validateNodeTree_upto U (.elem none) (hv w hw) hs.seq ht.seq hu
        simp only [h]
      | _ => rfl
theorem validateFields_upto (U : Uniform E T bd fd) {fs gs : Fields} {m : Nat} {vs : List Value} (hv : ∀ v ∈ vs, Within m v)
    (hs : InFamilyF T fs) (ht : InFamilyF T gs) (hu : UptoF fs m gs) : validateFields E fs vs = validateFields E gs vs := by
  match fs with
  | .nil =>
    simp only [UptoF] at hu
    subst hu; rfl
  | .cons a t fs =>
    simp only [UptoF] at hu
    obtain ⟨t', gs', rfl, h1, h2⟩ := hu
    cases vs with
    | nil => rfl
    | cons v vs =>
      simp only [validateFields]
      rw [validateNodeTree_upto U _ (hv v (by simp)) hs.head ht.head h1, validateFields_upto U (fun v h => hv v (by simp [h])) hs.tail ht.tail h2]
end

theorem validateTree_upto (U : Uniform E T bd fd) {s t : Ty} {m : Nat} {v : Value} (hv : Within m v) (hs : InFamily T s) (ht : InFamily T t)
    (hu : Upto s m t) :
    validateTree E s v = validateTree E t v := validateNodeTree_upto U .root hv hs ht hu

theorem validateCandidate_upto (U : Uniform E T bd fd) {s t : Ty} {m : Nat} {v : Value} (hv : Within m v) (hs : InFamily T s) (ht : InFamily T t)
    (hu : Upto s m t) :
    validateCandidate E s v = validateCandidate E t v := by
  cases m with
  | zero => exact absurd hv id
  | succ m =>
    have hval := U.validate (m + 1) s t v hs ht hu hv
    match s with
    | .leaf i => simp only [Upto] at hu; subst hu; rfl
    | .opt s =>
      simp only [Upto] at hu
      obtain ⟨s', rfl, hu⟩ := hu
      simp only [validateCandidate, hval]
      cases v with
      | opt x =>
        cases x with
        | none => rfl
        | some w => dsimp only; rw [validateCandidate_upto U (hv w (by simp [Value.kids])) hs.opt ht.opt hu]
      | _ => rfl
    | .record i fs =>
      simp only [Upto] at hu
      obtain ⟨gs, rfl, hu⟩ := hu
      simp only [validateCandidate, hval]
    | .map er s =>
      simp only [Upto] at hu
      obtain ⟨s', rfl, hu⟩ := hu
      simp only [validateCandidate, hval]
    | .seq k s =>
      simp only [Upto] at hu
      obtain ⟨s', rfl, hu⟩ := hu
      simp only [validateCandidate, hval]

end

/-! ### Typing -/

mutual
theorem hasTy_upto {s t : Ty} {m : Nat} {v : Value} (hv : Within m v) (hu : Upto s m t) : HasTy s v ↔ HasTy t v := by
  cases m with
  | zero => exact absurd hv id
  | succ m =>
    match s with
    | .leaf i => simp only [Upto] at hu; subst hu; exact Iff.rfl
    | .opt s =>
      simp only [Upto] at hu
      obtain ⟨s', rfl, hu⟩ := hu
      cases v with
      | opt x =>
        simp only [HasTy]
        constructor
        · intro h w hw; subst hw; exact (hasTy_upto (hv w (by simp [Value.kids])) hu).1 (h w rfl)
        · intro h w hw; subst hw; exact (hasTy_upto (hv w (by simp [Value.kids])) hu).2 (h w rfl)
      | _ => simp only [HasTy]
    | .record i fs =>
      simp only [Upto] at hu
      obtain ⟨gs, rfl, hu⟩ := hu
      cases v with
      | record vs => simp only [HasTy]; exact hasTys_upto hv hu
      | _ => simp only [HasTy]
    | .map er s =>
      simp only [Upto] at hu
      obtain ⟨s', rfl, hu⟩ := hu
      cases v with
      | map es =>
        simp only [HasTy]
        constructor
        · exact fun h => ⟨h.1, fun e he => (hasTy_upto (hv e.2 (List.mem_map.2 ⟨e, he, rfl⟩)) hu).1 (h.2 e he)⟩
        · exact fun h => ⟨h.1, fun e he => (hasTy_upto (hv e.2 (List.mem_map.2 ⟨e, he, rfl⟩)) hu).2 (h.2 e he)⟩
      | _ => simp only [HasTy]
    | .seq k s =>
      simp only [Upto] at hu
      obtain ⟨s', rfl, hu⟩ := hu
      cases v with
      | seq vs =>
        simp only [HasTy]
        constructor
        · exact fun h w hw => (hasTy_upto (hv w hw) hu).1 (h w hw)
        · exact fun h w hw => (hasTy_upto (hv w hw) hu).2 (h w hw)
      | _ => simp only [HasTy]
theorem hasTys_upto {fs gs : Fields} {m : Nat} {vs : List Value} (hv : ∀ v ∈ vs, Within m v) (hu : UptoF fs m gs) :
    HasTys fs vs ↔ HasTys gs vs := by
  match fs with
  | .nil => simp only [UptoF] at hu; subst hu; exact Iff.rfl
  | .cons a t fs =>
    simp only [UptoF] at hu
    obtain ⟨t', gs', rfl, h1, h2⟩ := hu
    cases vs with
    | nil => simp only [HasTys]
    | cons v vs =>
      simp only [HasTys]
      rw [hasTy_upto (hv v (by simp)) h1, hasTys_upto (fun v h => hv v (by simp [h])) h2]
end

/-! ### Codes of declared structs -/

mutual
theorem subst_upto {r r' : Nat → Ty} {n : Nat} (h : ∀ i, Upto (r i) n (r' i)) (t : Ty) : Upto (subst r t) n (subst r' t) := by
  cases n with
  | zero => cases subst r t <;> simp [Upto]
  | succ n =>
    match t with
    | .leaf i => simp [subst, Upto]
    | .opt t => simp only [subst, Upto]; exact ⟨_, rfl, subst_upto (fun i => upto_mono (Nat.le_succ n) (h i)) t⟩
    | .record i .nil => simp only [subst]; exact h i
    | .record i (.cons a t fs) =>
      simp only [subst, Upto, UptoF]
      have h' := fun i => upto_mono (Nat.le_succ n) (h i)
      exact ⟨_, rfl, _, _, rfl, subst_upto h' t, substFields_upto h' fs⟩
    | .map er t => simp only [subst, Upto]; exact ⟨_, rfl, subst_upto (fun i => upto_mono (Nat.le_succ n) (h i)) t⟩
    | .seq k t => simp only [subst, Upto]; exact ⟨_, rfl, subst_upto (fun i => upto_mono (Nat.le_succ n) (h i)) t⟩
theorem substFields_upto {r r' : Nat → Ty} {n : Nat} (h : ∀ i, Upto (r i) n (r' i)) (fs : Fields) :
    UptoF (substFields r fs) n (substFields r' fs) := by
  match fs with
  | .nil => simp [substFields, UptoF]
  | .cons a t fs => simp only [substFields, UptoF]; exact ⟨_, _, rfl, subst_upto h t, substFields_upto h fs⟩
end

theorem unroll_upto (D : Decls) : ∀ (k j : Nat), k ≤ j → ∀ i, Upto (unroll D k i) k (unroll D j i) := by
  intro k
  induction k with
  | zero => intro j _ i; cases unroll D 0 i <;> simp [Upto]
  | succ k ih =>
    intro j hj i
    cases j with
    | zero => omega
    | succ j =>
      simp only [unroll, Upto]
      exact ⟨_, rfl, substFields_upto (ih j (by omega)) (D i)⟩

end Verif.Resource
