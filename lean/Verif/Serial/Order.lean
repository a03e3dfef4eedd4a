import Verif.Serial.PatchBlame
import Verif.Serial.Shapes
/-
The order of the members of an object does not matter.
-/
namespace Verif.Serial
open Verif.Path Verif.Enums

namespace Spec

variable {σ : Type}

/-- The same document but for the order of the members of its objects. -/
inductive Same : Doc σ → Doc σ → Prop
  | refl (d) : Same d d
  | trans {a b c} : Same a b → Same b c → Same a c
  | order {ms ms'} : ms.Perm ms' → Same (.obj ms) (.obj ms')
  | element {l d d' m} : Same d d' → Same (.arr (l ++ d :: m)) (.arr (l ++ d' :: m))
  | member {l k d d' m} : Same d d' → Same (.obj (l ++ (k, d) :: m)) (.obj (l ++ (k, d') :: m))

/-- The leaves are read from scalars. -/
def ScalarLeaves (B : Backend σ) : Prop := ∀ l d a, B.deserLeaf l d = .ok a → ∃ s, d = .scalar s

end Spec

open Spec

variable {σ : Type}

theorem same_symm {d d' : Doc σ} (h : Same d d') : Same d' d := by
  induction h with
  | refl d => exact .refl d
  | trans _ _ ih1 ih2 => exact .trans ih2 ih1
  | order h => exact .order h.symm
  | element _ ih => exact .element ih
  | member _ ih => exact .member ih

theorem same_null {d d' : Doc σ} (h : Same d d') : d = .null ↔ d' = .null := by
  induction h with
  | refl d => rfl
  | trans _ _ ih1 ih2 => exact ih1.trans ih2
  | _ => simp

theorem same_unique {d d' : Doc σ} (h : Same d d') : uniqueNames d = true ↔ uniqueNames d' = true := by
  induction h with
  | refl d => rfl
  | trans _ _ ih1 ih2 => exact ih1.trans ih2
  | @order ms ms' h =>
    simp only [uniqueNames, Bool.and_eq_true, decide_eq_true_eq, uniqueObj_iff]
    rw [(h.map _).nodup_iff]
    simp only [h.mem_iff]
  | @element l d d' m h ih =>
    simp only [uniqueNames, uniqueArr_iff]
    simp only [List.forall_mem_append, List.forall_mem_cons, ih]
  | @member l k d d' m h ih =>
    simp only [uniqueNames, Bool.and_eq_true, decide_eq_true_eq, uniqueObj_iff]
    simp only [List.forall_mem_append, List.forall_mem_cons, ih, List.map_append, List.map_cons]

/-! ### What can be read from one document can be read from the other -/

/-- `d'` gives the results that `d` gives. -/
def Le (B : Backend σ) (E : Env) (d d' : Doc σ) : Prop :=
  (d = .null ↔ d' = .null) ∧ ∀ t old v, tyOk t = true → HasTy t old →
    (deser B E t old d = .ok v → deser B E t old d' = .ok v) ∧
    (patch B E t old d = .ok v → patch B E t old d' = .ok v)

theorem Le.refl {B : Backend σ} {E : Env} (d : Doc σ) : Le B E d d :=
  ⟨Iff.rfl, fun _ _ _ _ _ => ⟨id, id⟩⟩

theorem Le.trans {B : Backend σ} {E : Env} {a b c : Doc σ} (h : Le B E a b) (h' : Le B E b c) : Le B E a c :=
  ⟨h.1.trans h'.1, fun t o v ht ho =>
    ⟨(h'.2 t o v ht ho).1 ∘ (h.2 t o v ht ho).1, (h'.2 t o v ht ho).2 ∘ (h.2 t o v ht ho).2⟩⟩

theorem element_le {B : Backend σ} {E : Env} {l l' : List (Doc σ)} (h : Each (Le B E) l l') (i : Nat) :
    Le B E (element l i) (element l' i) := by
  induction h generalizing i with
  | nil => exact Le.refl _
  | cons h1 _ ih =>
    cases i with
    | zero => simpa [element] using h1
    | succ i => simpa [element] using ih i

theorem each_le {B : Backend σ} {E : Env} {l l' : List (Doc σ)} (h : Each (Le B E) l l') {α : Type}
    {R : Doc σ → α → Prop} {vs : List α} (hR : ∀ d d' v, Le B E d d' → R d v → R d' v) (hv : Each R l vs) :
    Each R l' vs := by
  induction h generalizing vs with
  | nil => exact hv
  | cons h1 _ ih =>
    cases hv with
    | cons h2 h3 => exact .cons (hR _ _ _ h1 h2) (ih h3)

theorem patch_opt_ok {B : Backend σ} {E : Env} {t : Ty} {o : Option Value} {v : Value} {d : Doc σ} :
    patch B E (.opt t) (.opt o) d = .ok v ↔ (d = .null ∧ v = .opt none) ∨
      (d ≠ .null ∧ ∃ w, patch B E t (o.getD (fresh t)) d = .ok w ∧ v = .opt (some w)) := by
  simp only [patch]
  by_cases h : d.isNull = true
  · rw [if_pos h]
    rw [isNull_iff] at h
    subst h
    simp [eq_comm]
  · rw [if_neg h]
    rw [isNull_iff] at h
    have hsw : ∀ r : Res Value, (∃ a, r = .ok a ∧ Value.opt (some a) = v) ↔ ∃ w, r = .ok w ∧ v = .opt (some w) :=
      fun r => by simp only [eq_comm (a := v)]
    cases o <;> simp [h, hsw]

theorem leaf_no {B : Backend σ} (hB : ScalarLeaves B) {l : Leaf} {d : Doc σ} {a : Atom} (h : ∀ s, d ≠ .scalar s) :
    B.deserLeaf l d ≠ .ok a := by
  intro h'
  obtain ⟨s, hs⟩ := hB _ _ _ h'
  exact h s hs

/-- Types but records and optionals read from arrays. -/
theorem deser_arr_le {B : Backend σ} (hB : ScalarLeaves B) {E : Env} {l l' : List (Doc σ)}
    (h : Each (Le B E) l l') : ∀ (t : Ty) (old v : Value), tyOk t = true → HasTy t old →
    deser B E t old (.arr l) = .ok v → deser B E t old (.arr l') = .ok v
  | .leaf x, old, v, ht, ho, hv => by
    simp only [deser, map_ok] at hv
    obtain ⟨a, ha, -⟩ := hv
    exact absurd ha (leaf_no hB (by simp))
  | .rawEnum x, old, v, ht, ho, hv => by
    simp only [deser, map_ok] at hv
    obtain ⟨a, ha, -⟩ := hv
    exact absurd ha (leaf_no hB (by simp))
  | .enum e, old, v, ht, ho, hv => by
    obtain ⟨s, i, x, ha, -⟩ := deser_enum.1 hv
    exact absurd ha (leaf_no hB (by simp))
  | .enumSet e, old, v, ht, ho, hv => by
    obtain ⟨l0, xs, m, h1, rfl, h2, h3, h4⟩ := deser_set.1 hv
    cases h1
    refine deser_set.2 ⟨l', xs, m, rfl, rfl, each_le h ?_ h2, h3, h4⟩
    intro d d' w hd hw
    refine (hd.2 _ _ _ (by simpa [tyOk] using ht) ?_).1 hw
    exact fresh_typed (.enum e) (by simpa [tyOk] using ht)
  | .opt t, old, v, ht, ho, hv => by
    have ht' : tyOk t = true := by simpa [tyOk] using ht
    rcases deser_opt.1 hv with ⟨h1, -⟩ | ⟨-, w, h1, rfl⟩
    · cases h1
    · exact deser_opt.2 (.inr ⟨by simp, w, deser_arr_le hB h t _ _ ht' (fresh_typed t ht') h1, rfl⟩)
  | .vec t, old, v, ht, ho, hv => by
    have ht' : tyOk t = true := by simpa [tyOk] using ht
    obtain ⟨l0, vs, h1, rfl, h2⟩ := deser_vec.1 hv
    cases h1
    exact deser_vec.2 ⟨l', vs, rfl, rfl, each_le h (fun d d' w hd hw =>
      (hd.2 _ _ _ ht' (fresh_typed t ht')).1 hw) h2⟩
  | .arr n t, old, v, ht, ho, hv => by
    have ht' : tyOk t = true := by simpa [tyOk] using ht
    obtain ⟨os, rfl, h0, ho⟩ := hasTy_arr ho
    obtain ⟨l0, vs, h1, rfl, h2, h3, h4⟩ := deser_arr.1 hv
    cases h1
    exact deser_arr.2 ⟨l', vs, rfl, rfl, h.length ▸ h2, h3, fun i o w h5 h6 =>
      ((element_le h i).2 _ _ _ ht' (ho _ (List.mem_of_getElem? h5))).1 (h4 i o w h5 h6)⟩
  | .map t, old, v, ht, ho, hv => by
    obtain ⟨ms, es, h1, -⟩ := deser_map.1 hv
    cases h1
  | .tuple p ts, old, v, ht, ho, hv => by
    obtain ⟨os, rfl, ho⟩ := hasTy_tuple ho
    obtain ⟨l0, vs, h1, rfl, h2, h3, h4, h5⟩ := deser_tuple.1 hv
    cases h1
    refine deser_tuple.2 ⟨l', vs, rfl, rfl, h.length ▸ h2, h3, h4, fun j t o w h6 h7 h8 => ?_⟩
    have hz : (t, o) ∈ (tyList ts).zip os :=
      List.mem_of_getElem? (i := j) (List.getElem?_zip_eq_some.2 ⟨h6, h7⟩)
    obtain ⟨h9, h10⟩ := (zip_typed_tys ho).2 _ _ hz
    simp only [tyOk] at ht
    exact ((element_le h j).2 _ _ _ (tysOk_mem ht _ h10) h9).1 (h5 j t o w h6 h7 h8)
  | .record n fs, old, v, ht, ho, hv => by
    obtain ⟨h1, os, vs, rfl, rfl, h2, h3, h4⟩ := deser_record_arr.1 hv
    obtain ⟨os, h, ho⟩ := hasTy_record ho
    cases h
    refine deser_record_arr.2 ⟨h.length ▸ h1, os, vs, rfl, rfl, h2, h3, fun j f t o w h6 h7 h8 => ?_⟩
    have hz : ((f, t), o) ∈ (fieldList fs).zip os :=
      List.mem_of_getElem? (i := j) (List.getElem?_zip_eq_some.2 ⟨h6, h7⟩)
    obtain ⟨h9, h10⟩ := (zip_typed ho).2 _ _ _ hz
    simp only [tyOk, Bool.and_eq_true] at ht
    obtain ⟨h11, h12⟩ := h4 j f t o w h6 h7 h8
    refine ⟨h11, fun c => ?_⟩
    obtain ⟨c1, c2, h13, h14⟩ := h12 c
    exact ⟨c1, c2, ((element_le h _).2 _ _ _ (fieldsOk_mem ht.1.1 _ _ h10).2 h9).1 h13, h14⟩

theorem patch_arr_le {B : Backend σ} (hB : ScalarLeaves B) {E : Env} {l l' : List (Doc σ)}
    (h : Each (Le B E) l l') : ∀ (t : Ty) (old v : Value), tyOk t = true → HasTy t old →
    patch B E t old (.arr l) = .ok v → patch B E t old (.arr l') = .ok v
  | .opt t, old, v, ht, ho, hv => by
    have ht' : tyOk t = true := by simpa [tyOk] using ht
    have key : ∀ o, HasTy t (o.getD (fresh t)) → patch B E (.opt t) (.opt o) (.arr l) = .ok v →
        patch B E (.opt t) (.opt o) (.arr l') = .ok v := by
      intro o ho hv
      rcases patch_opt_ok.1 hv with ⟨h1, -⟩ | ⟨-, w, h1, rfl⟩
      · cases h1
      · exact patch_opt_ok.2 (.inr ⟨by simp, w, patch_arr_le hB h t _ _ ht' ho h1, rfl⟩)
    rcases hasTy_opt ho with rfl | ⟨w, rfl, hw⟩
    · exact key none (fresh_typed t ht') hv
    · exact key (some w) hw hv
  | .record n fs, old, v, ht, ho, hv => by
    simp only [patch, note_ok] at hv ⊢
    exact deser_arr_le hB h _ _ _ ht ho hv
  | .leaf _, old, v, ht, ho, hv | .enum _, old, v, ht, ho, hv | .rawEnum _, old, v, ht, ho, hv
  | .enumSet _, old, v, ht, ho, hv | .vec _, old, v, ht, ho, hv | .arr _ _, old, v, ht, ho, hv
  | .map _, old, v, ht, ho, hv | .tuple _ _, old, v, ht, ho, hv => by
    simp only [patch] at hv ⊢
    exact deser_arr_le hB h _ _ _ ht ho hv

theorem arr_le {B : Backend σ} (hB : ScalarLeaves B) {E : Env} {l l' : List (Doc σ)}
    (h : Each (Le B E) l l') : Le B E (.arr l) (.arr l') :=
  ⟨by simp, fun t o v ht ho => ⟨deser_arr_le hB h t o v ht ho, patch_arr_le hB h t o v ht ho⟩⟩

/-! ### Objects -/

/-- The members of the one object are members of the other. -/
def MembersLe (B : Backend σ) (E : Env) (ms ms' : List (Str × Doc σ)) : Prop :=
  ∀ k, (NoMember ms k ∧ NoMember ms' k) ∨ ∃ d d', First ms k d ∧ First ms' k d' ∧ Le B E d d'

section
variable {B : Backend σ} {E : Env} {ms ms' : List (Str × Doc σ)}

theorem MembersLe.noMember (h : MembersLe B E ms ms') {k : Str} : NoMember ms k ↔ NoMember ms' k := by
  rcases h k with ⟨h1, h2⟩ | ⟨d, d', h1, h2, -⟩
  · exact ⟨fun _ => h2, fun _ => h1⟩
  · exact ⟨fun h => absurd rfl (h _ h1.mem), fun h => absurd rfl (h _ h2.mem)⟩

theorem MembersLe.back (h : MembersLe B E ms ms') {k : Str} {d' : Doc σ} (hd : First ms' k d') :
    ∃ d, First ms k d ∧ Le B E d d' := by
  rcases h k with ⟨-, h2⟩ | ⟨d, d'', h1, h2, h3⟩
  · exact absurd rfl (h2 _ hd.mem)
  · rw [hd.unique h2]; exact ⟨d, h1, h3⟩

theorem MembersLe.forth (h : MembersLe B E ms ms') {k : Str} {d : Doc σ} (hd : First ms k d) :
    ∃ d', First ms' k d' ∧ Le B E d d' := by
  rcases h k with ⟨h2, -⟩ | ⟨d'', d', h1, h2, h3⟩
  · exact absurd rfl (h2 _ hd.mem)
  · rw [hd.unique h1]; exact ⟨d', h2, h3⟩

theorem MembersLe.readFrom (h : MembersLe B E ms ms') {f : Field} {d' : Doc σ} (hd : ReadFrom ms' f d') :
    ∃ d, ReadFrom ms f d ∧ Le B E d d' := by
  obtain ⟨before, n, after, h1, h2, h3⟩ := hd
  obtain ⟨d, h4, h5⟩ := h.back h3
  exact ⟨d, ⟨before, n, after, h1, fun m hm => h.noMember.2 (h2 m hm), h4⟩, h5⟩

theorem MembersLe.missing (h : MembersLe B E ms ms') {f : Field} (hd : Missing ms' f) : Missing ms f :=
  fun n hn => h.noMember.2 (hd n hn)

theorem present_le {f : Field} {d d' : Doc σ} {v : Value} (hd : Le B E d d') {R : Doc σ → Value → Prop}
    (hR : R d v → R d' v) (h : PresentReads E R f d v) : PresentReads E R f d' v := by
  rcases h with ⟨h1, h2⟩ | ⟨h1, h2, h3⟩
  · exact .inl ⟨hd.1.1 h1, h2⟩
  · refine .inr ⟨h1.imp (fun h h' => h (hd.1.2 h')) id, hR h2, h3⟩

/-- The entries read from members outside of some names. -/
theorem entries_le (h : MembersLe B E ms ms') (hn : (ms'.map (·.1)).Nodup) {names : List Str}
    {es : List (Str × Value)} {R : Doc σ → Value → Prop} (hR : ∀ d d' v, Le B E d d' → R d v → R d' v)
    (hu : ∀ d v v', R d v → R d v' → v = v')
    (h1 : ∀ m ∈ ms, m.1 ∉ names → ∃ w, R m.2 w)
    (h2 : ∀ k w, (k, w) ∈ es ↔ k ∉ names ∧ ∃ d, First ms k d ∧ R d w) :
    (∀ m ∈ ms', m.1 ∉ names → ∃ w, R m.2 w) ∧
    ∀ k w, (k, w) ∈ es ↔ k ∉ names ∧ ∃ d, First ms' k d ∧ R d w := by
  constructor
  · rintro ⟨k, d'⟩ hm hk
    obtain ⟨d, h3, h4⟩ := h.back (first_of_mem hn hm)
    obtain ⟨w, hw⟩ := h1 _ h3.mem hk
    exact ⟨w, hR _ _ _ h4 hw⟩
  · intro k w
    rw [h2]
    constructor
    · rintro ⟨hk, d, h3, h4⟩
      obtain ⟨d', h5, h6⟩ := h.forth h3
      exact ⟨hk, d', h5, hR _ _ _ h6 h4⟩
    · rintro ⟨hk, d', h3, h4⟩
      obtain ⟨d, h5, h6⟩ := h.back h3
      obtain ⟨w', hw⟩ := h1 _ h5.mem hk
      have := hu _ _ _ h4 (hR _ _ _ h6 hw)
      exact ⟨hk, d, h5, this ▸ hw⟩

theorem EachField.imp {R S : Field → Ty → Value → Value → Prop} : ∀ {fs : Fields} {os vs : List Value},
    hasFields fs os = true → (∀ f t o v, (f, t) ∈ fieldList fs → HasTy t o → R f t o v → S f t o v) →
    EachField R fs os vs → EachField S fs os vs
  | .nil, _, _, _, _, h => by cases h; exact .nil
  | .cons f t fs, _, _, ho, hi, h => by
    cases h with
    | cons h1 h2 =>
      obtain ⟨o, os, h3, h4, h5⟩ := hasFields_cons ho
      cases h3
      exact .cons (hi _ _ _ _ (by simp [fieldList]) h4 h1)
        (EachField.imp h5 (fun f t o v hm => hi f t o v (by simp [fieldList, hm])) h2)

theorem deser_det {t : Ty} {o : Value} {d : Doc σ} {v v' : Value} (h : deser B E t o d = .ok v)
    (h' : deser B E t o d = .ok v') : v = v' := by
  rw [h] at h'; cases h'; rfl

theorem patch_det {t : Ty} {o : Value} {d : Doc σ} {v v' : Value} (h : patch B E t o d = .ok v)
    (h' : patch B E t o d = .ok v') : v = v' := by
  rw [h] at h'; cases h'; rfl

mutual
theorem deser_obj_le (hB : ScalarLeaves B) (h : MembersLe B E ms ms') (hn : (ms'.map (·.1)).Nodup) :
    ∀ (t : Ty) (old v : Value), tyOk t = true → HasTy t old →
    deser B E t old (.obj ms) = .ok v → deser B E t old (.obj ms') = .ok v
  | .leaf x, old, v, ht, ho, hv => by
    simp only [deser, map_ok] at hv
    obtain ⟨a, ha, -⟩ := hv
    exact absurd ha (leaf_no hB (by simp))
  | .rawEnum x, old, v, ht, ho, hv => by
    simp only [deser, map_ok] at hv
    obtain ⟨a, ha, -⟩ := hv
    exact absurd ha (leaf_no hB (by simp))
  | .enum e, old, v, ht, ho, hv => by
    obtain ⟨s, i, x, ha, -⟩ := deser_enum.1 hv
    exact absurd ha (leaf_no hB (by simp))
  | .enumSet e, old, v, ht, ho, hv => by
    obtain ⟨l0, xs, m, h1, -⟩ := deser_set.1 hv
    cases h1
  | .opt t, old, v, ht, ho, hv => by
    have ht' : tyOk t = true := by simpa [tyOk] using ht
    rcases deser_opt.1 hv with ⟨h1, -⟩ | ⟨-, w, h1, rfl⟩
    · cases h1
    · exact deser_opt.2 (.inr ⟨by simp, w, deser_obj_le hB h hn t _ _ ht' (fresh_typed t ht') h1, rfl⟩)
  | .vec t, old, v, ht, ho, hv => by
    obtain ⟨l0, vs, h1, -⟩ := deser_vec.1 hv
    cases h1
  | .arr n t, old, v, ht, ho, hv => by
    obtain ⟨os, rfl, h0, ho⟩ := hasTy_arr ho
    obtain ⟨l0, vs, h1, -⟩ := deser_arr.1 hv
    cases h1
  | .tuple p ts, old, v, ht, ho, hv => by
    obtain ⟨os, rfl, ho⟩ := hasTy_tuple ho
    obtain ⟨l0, vs, h1, -⟩ := deser_tuple.1 hv
    cases h1
  | .map t, old, v, ht, ho, hv => by
    have ht' : tyOk t = true := by simpa [tyOk] using ht
    obtain ⟨ms0, es, h1, rfl, h2, h3, h4⟩ := deser_map.1 hv
    cases h1
    have := entries_le h hn (names := []) (es := es) (R := fun d v => deser B E t (fresh t) d = .ok v)
      (fun d d' v hd hv => (hd.2 _ _ _ ht' (fresh_typed t ht')).1 hv) (fun d v v' => deser_det)
      (fun m hm _ => h2 m hm) (by simpa using h4)
    exact deser_map.2 ⟨ms', es, rfl, rfl, by simpa using this.1, h3, by simpa using this.2⟩
  | .record n fs, old, v, ht, ho, hv => by
    simp only [tyOk, Bool.and_eq_true] at ht
    have ih := deser_fields_le hB h hn fs ht.1.1
    rw [deser_record_obj ht.1.1] at hv ⊢
    obtain ⟨hc, os, vs, rfl, rfl, hv⟩ := hv
    obtain ⟨os, h0, ho⟩ := hasTy_record ho
    cases h0
    refine ⟨hc, os, vs, rfl, rfl, EachField.imp ho ?_ hv⟩
    rintro f t o v hm ho ⟨h1, h2, h3, h4⟩
    have hf := fieldsOk_mem ht.1.1 _ _ hm
    refine ⟨h1, fun c1 c2 => ?_, fun c1 c2 c3 => ih f t hm o v ho (h3 c1 c2 c3), fun c => ⟨?_, ?_⟩⟩
    · obtain ⟨u, es, rfl, rfl, h5, h6, h7⟩ := h2 c1 c2
      have hu : tyOk u = true := by simpa [tyOk] using hf.2
      obtain ⟨h8, h9⟩ := entries_le h hn (R := fun d v => deser B E u (fresh u) d = .ok v)
        (fun d d' v hd hv => (hd.2 _ _ _ hu (fresh_typed u hu)).1 hv) (fun d v v' => deser_det) h6 h7
      exact ⟨u, es, rfl, rfl, h5, h8, h9⟩
    · intro d' hd'
      obtain ⟨d, hd, hle⟩ := h.readFrom hd'
      exact present_le hle (hle.2 _ _ _ hf.2 ho).1 ((h4 c).1 d hd)
    · intro hm'
      exact (h4 c).2 (h.missing hm')
theorem deser_fields_le (hB : ScalarLeaves B) (h : MembersLe B E ms ms') (hn : (ms'.map (·.1)).Nodup) :
    ∀ (fs : Fields), fieldsOk fs = true → ∀ f t, (f, t) ∈ fieldList fs → ∀ (old v : Value), HasTy t old →
    deser B E t old (.obj ms) = .ok v → deser B E t old (.obj ms') = .ok v
  | .nil, _, f, t, hm => by simp [fieldList] at hm
  | .cons f t fs, hfs, f', t', hm => by
    simp only [fieldsOk, Bool.and_eq_true] at hfs
    have h1 := fun o v => deser_obj_le hB h hn t o v hfs.1.2
    have h2 := deser_fields_le hB h hn fs hfs.2
    simp only [fieldList, List.mem_cons] at hm
    rcases hm with hm | hm
    · cases hm; exact h1
    · exact h2 _ _ hm
end

mutual
theorem patch_obj_le (hB : ScalarLeaves B) (h : MembersLe B E ms ms') (hn : (ms.map (·.1)).Nodup)
    (hn' : (ms'.map (·.1)).Nodup) : ∀ (t : Ty) (old v : Value), tyOk t = true → HasTy t old →
    patch B E t old (.obj ms) = .ok v → patch B E t old (.obj ms') = .ok v
  | .opt t, old, v, ht, ho, hv => by
    have ht' : tyOk t = true := by simpa [tyOk] using ht
    have key : ∀ o, HasTy t (o.getD (fresh t)) → patch B E (.opt t) (.opt o) (.obj ms) = .ok v →
        patch B E (.opt t) (.opt o) (.obj ms') = .ok v := by
      intro o ho hv
      rcases patch_opt_ok.1 hv with ⟨h1, -⟩ | ⟨-, w, h1, rfl⟩
      · cases h1
      · exact patch_opt_ok.2 (.inr ⟨by simp, w, patch_obj_le hB h hn hn' t _ _ ht' ho h1, rfl⟩)
    rcases hasTy_opt ho with rfl | ⟨w, rfl, hw⟩
    · exact key none (fresh_typed t ht') hv
    · exact key (some w) hw hv
  | .record n fs, old, v, ht, ho, hv => by
    simp only [tyOk, Bool.and_eq_true] at ht
    have ih := patch_fields_le hB h hn hn' fs ht.1.1
    rw [patch_record_obj ht.1.1 ho hn] at hv
    rw [patch_record_obj ht.1.1 ho hn']
    obtain ⟨hc, os, vs, rfl, rfl, hv⟩ := hv
    obtain ⟨os, h0, ho⟩ := hasTy_record ho
    cases h0
    refine ⟨hc, os, vs, rfl, rfl, EachField.imp ho ?_ hv⟩
    rintro f t o v hm ho ⟨h1, h2, h3, h4⟩
    have hf := fieldsOk_mem ht.1.1 _ _ hm
    refine ⟨h1, fun c1 c2 => ?_, fun c1 c2 c3 => ih f t hm o v ho (h3 c1 c2 c3), fun c => ⟨?_, ?_⟩⟩
    · obtain ⟨u, es, es', rfl, rfl, rfl, h5, h6, h7⟩ := h2 c1 c2
      have hu : tyOk u = true := by simpa [tyOk] using hf.2
      obtain ⟨es0, h0, hsort, hel⟩ := hasTy_map ho
      cases h0
      have hle : ∀ k d d' w, Le B E d d' →
          ((∃ o, (k, o) ∈ es ∧ patch B E u o d = .ok w) ∨
            (NoMember es k ∧ patch B E u (fresh u) d = .ok w)) →
          ((∃ o, (k, o) ∈ es ∧ patch B E u o d' = .ok w) ∨
            (NoMember es k ∧ patch B E u (fresh u) d' = .ok w)) := by
        rintro k d d' w hd (⟨o, ho, hw⟩ | ⟨hno, hw⟩)
        · exact .inl ⟨o, ho, (hd.2 _ _ _ hu (hel _ ho)).2 hw⟩
        · exact .inr ⟨hno, (hd.2 _ _ _ hu (fresh_typed u hu)).2 hw⟩
      have hdet : ∀ k d w w',
          ((∃ o, (k, o) ∈ es ∧ patch B E u o d = .ok w) ∨
            (NoMember es k ∧ patch B E u (fresh u) d = .ok w)) →
          ((∃ o, (k, o) ∈ es ∧ patch B E u o d = .ok w') ∨
            (NoMember es k ∧ patch B E u (fresh u) d = .ok w')) → w = w' := by
        rintro k d w w' (⟨o, ho, hw⟩ | ⟨hno, hw⟩) (⟨o', ho', hw'⟩ | ⟨hno', hw'⟩)
        · rw [sorted_key_inj hsort ho ho'] at hw; exact patch_det hw hw'
        · exact absurd rfl (hno' _ ho)
        · exact absurd rfl (hno _ ho')
        · exact patch_det hw hw'
      refine ⟨u, es, es', rfl, rfl, rfl, h5, ?_, ?_⟩
      · intro k d' hd' hk
        obtain ⟨d, hd, -⟩ := h.back hd'
        exact h6 k d hd hk
      · intro k w
        rw [h7]
        constructor
        · rintro (⟨h8, h9⟩ | ⟨hk, d, hd, hw⟩)
          · exact .inl ⟨h8.imp id h.noMember.1, h9⟩
          · obtain ⟨d', hd', hl⟩ := h.forth hd
            exact .inr ⟨hk, d', hd', hle k d d' w hl hw⟩
        · rintro (⟨h8, h9⟩ | ⟨hk, d', hd', hw⟩)
          · exact .inl ⟨h8.imp id h.noMember.2, h9⟩
          · obtain ⟨d, hd, hl⟩ := h.back hd'
            obtain ⟨w0, hw0⟩ := h6 k d hd hk
            rcases (h7 k w0).1 hw0 with ⟨h8 | h8, -⟩ | ⟨-, d0, hd0, hw0⟩
            · exact absurd h8 hk
            · exact absurd rfl (h8 _ hd.mem)
            · rw [hd0.unique hd] at hw0
              have := hdet k d' w w0 hw (hle k d d' w0 hl hw0)
              exact .inr ⟨hk, d, hd, this ▸ hw0⟩
    · intro d' hd'
      obtain ⟨d, hd, hle⟩ := h.readFrom hd'
      exact present_le hle (hle.2 _ _ _ hf.2 ho).2 ((h4 c).1 d hd)
    · intro hm'
      exact (h4 c).2 (h.missing hm')
  | .leaf _, old, v, ht, ho, hv | .enum _, old, v, ht, ho, hv | .rawEnum _, old, v, ht, ho, hv
  | .enumSet _, old, v, ht, ho, hv | .vec _, old, v, ht, ho, hv | .arr _ _, old, v, ht, ho, hv
  | .map _, old, v, ht, ho, hv | .tuple _ _, old, v, ht, ho, hv => by
    simp only [patch] at hv ⊢
    exact deser_obj_le hB h hn' _ _ _ ht ho hv
theorem patch_fields_le (hB : ScalarLeaves B) (h : MembersLe B E ms ms') (hn : (ms.map (·.1)).Nodup)
    (hn' : (ms'.map (·.1)).Nodup) :
    ∀ (fs : Fields), fieldsOk fs = true → ∀ f t, (f, t) ∈ fieldList fs → ∀ (old v : Value), HasTy t old →
    patch B E t old (.obj ms) = .ok v → patch B E t old (.obj ms') = .ok v
  | .nil, _, f, t, hm => by simp [fieldList] at hm
  | .cons f t fs, hfs, f', t', hm => by
    simp only [fieldsOk, Bool.and_eq_true] at hfs
    have h1 := fun o v => patch_obj_le hB h hn hn' t o v hfs.1.2
    have h2 := patch_fields_le hB h hn hn' fs hfs.2
    simp only [fieldList, List.mem_cons] at hm
    rcases hm with hm | hm
    · cases hm; exact h1
    · exact h2 _ _ hm
end

theorem obj_le (hB : ScalarLeaves B) (hn : (ms.map (·.1)).Nodup) (hn' : (ms'.map (·.1)).Nodup)
    (h1 : ∀ k d, (k, d) ∈ ms → ∃ d', (k, d') ∈ ms' ∧ Le B E d d') (h2 : ∀ k d', (k, d') ∈ ms' → ∃ d, (k, d) ∈ ms) :
    Le B E (.obj ms) (.obj ms') := by
  have h : MembersLe B E ms ms' := by
    intro k
    rcases first_or_none ms k with ⟨d, hd⟩ | hno
    · obtain ⟨d', h3, h4⟩ := h1 k d hd.mem
      exact .inr ⟨d, d', hd, first_of_mem hn' h3, h4⟩
    · refine .inl ⟨hno, ?_⟩
      rintro ⟨k', d'⟩ hm rfl
      obtain ⟨d, hd⟩ := h2 _ _ hm
      exact hno _ hd rfl
  exact ⟨by simp, fun t o v ht ho => ⟨deser_obj_le hB h hn' t o v ht ho, patch_obj_le hB h hn hn' t o v ht ho⟩⟩

end

theorem each_refl {α : Type} {R : α → α → Prop} (h : ∀ x, R x x) : ∀ l : List α, Each R l l
  | [] => .nil
  | x :: l => .cons (h x) (each_refl h l)

theorem each_append {α β : Type} {R : α → β → Prop} {l l' m m'} (h : Each R l l') (h' : Each R m m') :
    Each R (l ++ m) (l' ++ m') := by
  induction h with
  | nil => exact h'
  | cons h1 _ ih => exact .cons h1 ih

theorem same_le {B : Backend σ} (hB : ScalarLeaves B) {E : Env} {d d' : Doc σ} (h : Same d d')
    (hu : uniqueNames d = true) : Le B E d d' := by
  induction h with
  | refl d => exact Le.refl d
  | trans h1 _ ih1 ih2 => exact (ih1 hu).trans (ih2 ((same_unique h1).1 hu))
  | @order ms ms' h =>
    simp only [uniqueNames, Bool.and_eq_true, decide_eq_true_eq] at hu
    refine obj_le hB hu.1 ((h.map _).nodup_iff.1 hu.1) (fun k d hm => ⟨d, h.mem_iff.1 hm, Le.refl d⟩)
      fun k d hm => ⟨d, h.mem_iff.2 hm⟩
  | @element l d d' m h ih =>
    simp only [uniqueNames, uniqueArr_iff] at hu
    exact arr_le hB (each_append (each_refl Le.refl l) (.cons (ih (hu d (by simp))) (each_refl Le.refl m)))
  | @member l k d d' m h ih =>
    simp only [uniqueNames, Bool.and_eq_true, decide_eq_true_eq, uniqueObj_iff] at hu
    have hd := ih (hu.2 (k, d) (by simp))
    refine obj_le hB hu.1 (by simpa using hu.1) ?_ ?_
    · intro k0 d0 hm
      simp only [List.mem_append, List.mem_cons] at hm
      rcases hm with hm | hm | hm
      · exact ⟨d0, by simp [hm], Le.refl _⟩
      · cases hm; exact ⟨d', by simp, hd⟩
      · exact ⟨d0, by simp [hm], Le.refl _⟩
    · intro k0 d0 hm
      simp only [List.mem_append, List.mem_cons] at hm
      rcases hm with hm | hm | hm
      · exact ⟨d0, by simp [hm]⟩
      · cases hm; exact ⟨d, by simp⟩
      · exact ⟨d0, by simp [hm]⟩

end Verif.Serial
