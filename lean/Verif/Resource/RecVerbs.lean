import Verif.Resource.RecUpto
/-
Lemmas for C135: on the codes of one type each verb does the same from some depth on.
-/
namespace Verif.Resource
open Verif.Path Verif.Path.Spec Verif.Tracker Verif.Tracker.Spec Verif.Resource.Spec

def Settles {α : Type} (f : Nat → α) : Prop := ∃ x, Ends f x

theorem settles_const {α : Type} {x : α} : Settles (fun _ => x) := ⟨x, 0, fun _ _ => rfl⟩

macro "settle" : tactic => `(tactic| first | exact settles_const | (simp <;> exact settles_const))

theorem settles_shift {α : Type} (K : Nat) {f : Nat → α} (h : Settles (fun k => f (k + K))) : Settles f := by
  obtain ⟨x, M, h⟩ := h
  refine ⟨x, M + K, fun k hk => ?_⟩
  have := h (k - K) (by omega)
  simp only at this
  rwa [Nat.sub_add_cancel (by omega)] at this

theorem ends_unique {α : Type} {f : Nat → α} {x y : α} (h : Ends f x) (h' : Ends f y) : x = y := by
  obtain ⟨K, h⟩ := h
  obtain ⟨M, h'⟩ := h'
  rw [← h (K + M) (by omega), h' (K + M) (by omega)]

/-- Codes of one type that occurs in the family. -/
structure Coded (T S : Nat → Ty) : Prop where
  family : Family S
  part : ∀ k, InFamily T (S k)

theorem coded_self {T : Nat → Ty} (h : Family T) : Coded T T := ⟨h, fun k => ⟨k, .self⟩⟩

section
variable {T S : Nat → Ty}

theorem coded_opt (h : Coded T S) {t : Ty} (e : S 1 = .opt t) : ∃ S', Coded T S' ∧ ∀ k, S (k + 1) = .opt (S' k) := by
  have hs : ∀ k, ∃ s', S (k + 1) = .opt s' := by
    intro k
    have := h.family 1 (k + 1) (by omega)
    rw [e] at this; simp only [Upto] at this
    obtain ⟨s', hs, _⟩ := this
    exact ⟨s', hs⟩
  refine ⟨fun k => (hs k).choose, ⟨?_, ?_⟩, fun k => (hs k).choose_spec⟩
  · intro k j hkj
    have := h.family (k + 1) (j + 1) (by omega)
    rw [(hs k).choose_spec, (hs j).choose_spec] at this
    simp only [Upto, Ty.opt.injEq] at this
    obtain ⟨s', e, hu⟩ := this
    rw [← e] at hu; exact hu
  · intro k
    have := h.part (k + 1)
    rw [(hs k).choose_spec] at this
    exact this.opt

theorem coded_seq (h : Coded T S) {kd : SeqKind} {t : Ty} (e : S 1 = .seq kd t) :
    ∃ S', Coded T S' ∧ ∀ k, S (k + 1) = .seq kd (S' k) := by
  have hs : ∀ k, ∃ s', S (k + 1) = .seq kd s' := by
    intro k
    have := h.family 1 (k + 1) (by omega)
    rw [e] at this; simp only [Upto] at this
    obtain ⟨s', hs, _⟩ := this
    exact ⟨s', hs⟩
  refine ⟨fun k => (hs k).choose, ⟨?_, ?_⟩, fun k => (hs k).choose_spec⟩
  · intro k j hkj
    have := h.family (k + 1) (j + 1) (by omega)
    rw [(hs k).choose_spec, (hs j).choose_spec] at this
    simp only [Upto, Ty.seq.injEq, true_and] at this
    obtain ⟨s', e, hu⟩ := this
    rw [← e] at hu; exact hu
  · intro k
    have := h.part (k + 1)
    rw [(hs k).choose_spec] at this
    exact this.seq

theorem coded_map (h : Coded T S) {er : Bool} {t : Ty} (e : S 1 = .map er t) : ∀ k, ∃ t', S (k + 1) = .map er t' := by
  intro k
  have := h.family 1 (k + 1) (by omega)
  rw [e] at this; simp only [Upto] at this
  obtain ⟨s', hs, _⟩ := this
  exact ⟨s', hs⟩

theorem coded_record (h : Coded T S) {i : Nat} {fs : Fields} (e : S 1 = .record i fs) : ∀ k, ∃ gs, S (k + 1) = .record i gs := by
  intro k
  have := h.family 1 (k + 1) (by omega)
  rw [e] at this; simp only [Upto] at this
  obtain ⟨s', hs, _⟩ := this
  exact ⟨s', hs⟩

theorem coded_leaf (h : Coded T S) {i : Nat} (e : S 1 = .leaf i) : ∀ k, S (k + 1) = .leaf i := by
  intro k
  have := h.family 1 (k + 1) (by omega)
  rw [e] at this; simp only [Upto] at this
  exact this

theorem coded_head (h : Coded T S) : (∀ k, addressableDescendants (S (k + 1)) = addressableDescendants (S 1)) ∧
    ∀ k, isReflectable (S (k + 1)) = isReflectable (S 1) := by
  cases e : S 1 with
  | leaf i => exact ⟨fun k => by rw [coded_leaf h e k], fun k => by rw [coded_leaf h e k]⟩
  | opt t =>
    obtain ⟨S', _, e'⟩ := coded_opt h e
    exact ⟨fun k => by rw [e' k]; rfl, fun k => by rw [e' k]; rfl⟩
  | seq kd t =>
    obtain ⟨S', _, e'⟩ := coded_seq h e
    exact ⟨fun k => by rw [e' k]; rfl, fun k => by rw [e' k]; rfl⟩
  | map er t =>
    refine ⟨fun k => ?_, fun k => ?_⟩ <;> (obtain ⟨t', e'⟩ := coded_map h e k; rw [e']; rfl)
  | record i fs =>
    refine ⟨fun k => ?_, fun k => ?_⟩ <;> (obtain ⟨t', e'⟩ := coded_record h e k; rw [e']; rfl)

end

section
variable {β : Type} {E : Env β} {T : Nat → Ty} {bd : β → Nat} {fd : Nat} {S : Nat → Ty}

theorem settles_validateTree (U : Uniform E T bd fd) (h : Coded T S) (v : Value) : Settles fun k => validateTree E (S k) v := by
  obtain ⟨d, hd⟩ := within_some v
  exact ⟨_, d, fun k hk => (validateTree_upto U hd (h.part d) (h.part k) (h.family d k hk)).symm⟩

theorem settles_candidate (U : Uniform E T bd fd) (h : Coded T S) (v : Value) : Settles fun k => validateCandidate E (S k) v := by
  obtain ⟨d, hd⟩ := within_some v
  exact ⟨_, d, fun k hk => (validateCandidate_upto U hd (h.part d) (h.part k) (h.family d k hk)).symm⟩

theorem settles_findKeyed (U : Uniform E T bd fd) (h : Coded T S) (vs : List Value) (x : Str) (ks : List Nat) :
    Settles fun k => findKeyed E (S k) vs x ks := by
  obtain ⟨d, hd⟩ := within_all vs
  exact ⟨_, d, fun k hk => (findKeyed_upto U hd (h.part d) (h.part k) (h.family d k hk) x ks).symm⟩

theorem settles_deser (U : Uniform E T bd fd) (h : Coded T S) (v : Value) (b : β) : Settles fun k => E.deser (S k) v b := by
  obtain ⟨d, hd⟩ := within_some v
  exact ⟨_, d + bd b, fun k hk => (U.deser (d + bd b) _ _ v b (h.part _) (h.part k) (h.family _ k hk)
    (within_mono (by omega) hd) (by omega)).symm⟩

theorem settles_patch (U : Uniform E T bd fd) (h : Coded T S) (v : Value) (b : β) : Settles fun k => E.patch (S k) v b := by
  obtain ⟨d, hd⟩ := within_some v
  exact ⟨_, d + bd b, fun k hk => (U.patch (d + bd b) _ _ v b (h.part _) (h.part k) (h.family _ k hk)
    (within_mono (by omega) hd) (by omega)).symm⟩

theorem settles_fresh (U : Uniform E T bd fd) (h : Coded T S) : Settles fun k => E.fresh (S k) :=
  ⟨_, fd, fun k hk => (U.fresh _ _ (h.part _) (h.part k) (h.family _ k hk)).symm⟩

theorem settles_assign (U : Uniform E T bd fd) (h : Coded T S) (root : Value) (addr : List Nat) (old new : Value) :
    Settles fun k => assignChecked E (S k) root addr old new := by
  simp only [assignChecked]
  cases root.set new addr with
  | none => exact settles_const
  | some root1 =>
    obtain ⟨x, K, hx⟩ := settles_validateTree U h root1
    exact ⟨_, K, fun k hk => by simp only [hx k hk]; rfl⟩

theorem settles_push (U : Uniform E T bd fd) (h : Coded T S) (root : Value) (addr : List Nat) (vs : List Value) (x : Value) :
    Settles fun k => pushChecked E (S k) root addr vs x := by
  simp only [pushChecked]
  cases root.set (.seq (vs ++ [x])) addr with
  | none => exact settles_const
  | some root1 =>
    obtain ⟨x, K, hx⟩ := settles_validateTree U h root1
    exact ⟨_, K, fun k hk => by simp only [hx k hk]; rfl⟩

/-- From some depth on a visit fails with the same exception, or ends at the same place, with codes of one type. -/
theorem visit_family (U : Uniform E T bd fd) (hT : Family T) (v : Value) (path : List Str) (stop : Nat) :
    (∃ e d, ∀ k, d ≤ k → visitAtPath E (T k) v path stop = .error e) ∨
    ∃ (a : Target) (S : Nat → Ty) (d : Nat), Coded T S ∧ ∀ k, visitAtPath E (T (k + d)) v path stop = .ok { a with ty := S k } := by
  obtain ⟨d, hd⟩ := within_some v
  have hsame : ∀ k j, d ≤ k → k ≤ j → Same T d k (visitAtPath E (T k) v path stop) (visitAtPath E (T j) v path stop) := fun k j hk hj =>
    visit_upto U stop .root path {} hk hd ⟨k, .self⟩ ⟨j, .self⟩ (hT k j hj)
  cases hv : visitAtPath E (T d) v path stop with
  | error e =>
    left
    refine ⟨e, d, fun k hk => ?_⟩
    have := hsame d k (Nat.le_refl d) hk
    rw [hv] at this
    cases hk' : visitAtPath E (T k) v path stop with
    | error e' => rw [hk'] at this; rw [show e = e' from this]
    | ok b => rw [hk'] at this; exact absurd this id
  | ok a =>
    right
    have hb : ∀ k, ∃ t, visitAtPath E (T (k + d)) v path stop = .ok { a with ty := t } := by
      intro k
      have := hsame d (k + d) (Nat.le_refl d) (by omega)
      rw [hv] at this
      cases hk' : visitAtPath E (T (k + d)) v path stop with
      | error e' => rw [hk'] at this; exact absurd this id
      | ok b => rw [hk'] at this; exact ⟨b.ty, by rw [← this.1]⟩
    have hlen : a.addr.length ≤ d := by
      have := hsame d d (Nat.le_refl d) (Nat.le_refl d)
      rw [hv] at this
      exact this.2.1
    refine ⟨a, fun k => (hb k).choose, d, ⟨?_, ?_⟩, fun k => (hb k).choose_spec⟩
    · intro k j hkj
      have := hsame (k + d) (j + d) (by omega) (by omega)
      rw [(hb k).choose_spec, (hb j).choose_spec] at this
      exact upto_mono (by simp only; omega) this.2.2.1
    · intro k
      have := hsame (k + d) (k + d) (by omega) (by omega)
      rw [(hb k).choose_spec] at this
      exact this.2.2.2.2.1

theorem settles_replace (U : Uniform E T bd fd) (hT : Family T) {f : Ty → Value → β → Except Exc Value}
    (hf : ∀ S, Coded T S → ∀ v b, Settles fun k => f (S k) v b) (r : Resource) (w : View) (b : β) :
    Settles fun k => replaceNode E f (T k) r w b := by
  simp only [replaceNode]
  cases segs w with
  | none => settle
  | some path =>
    rcases visit_family U hT r.value path 0 with ⟨e, d, he⟩ | ⟨a, S, d, hS, ha⟩
    · exact ⟨(r, catchPut e), d, fun k hk => by simp only [he k hk]⟩
    · apply settles_shift d
      simp only [ha]
      by_cases hro : a.ctx.isNodeReadOnly a.node = true
      · simp only [hro, ↓reduceIte, Bool.false_eq_true, ne_eq, not_true_eq_false, not_false_eq_true]; settle
      · simp only [hro, ↓reduceIte, Bool.false_eq_true, ne_eq, not_true_eq_false, not_false_eq_true]
        obtain ⟨x, K, hx⟩ := hf S hS a.val b
        apply settles_shift K
        have hx' : ∀ k, f (S (k + K)) a.val b = x := fun k => hx _ (by omega)
        simp only [hx']
        cases x with
        | error e => settle
        | ok candidate =>
          simp only [liftUser]
          cases a.node.preservesIdentity E a.val candidate with
          | error e => settle
          | ok same =>
            cases same with
            | false => settle
            | true =>
              obtain ⟨y, M, hy⟩ := settles_assign U (coded_self hT) r.value a.addr a.val candidate
              apply settles_shift (M + 1)
              have hy' : ∀ k, assignChecked E (T (k + (M + 1) + K + d)) r.value a.addr a.val candidate = y := fun k => hy _ (by omega)
              have hh : ∀ k, addressableDescendants (S (k + (M + 1) + K)) = addressableDescendants (S 1) := fun k => by
                rw [show k + (M + 1) + K = (k + M + K) + 1 by omega]; exact (coded_head hS).1 _
              simp only [hy', hh]
              settle

theorem settles_put (U : Uniform E T bd fd) (hT : Family T) (r : Resource) (w : View) (b : β) : Settles fun k => put E (T k) r w b :=
  settles_replace U hT (fun _ hS v b => settles_deser U hS v b) r w b

theorem settles_patchVerb (U : Uniform E T bd fd) (hT : Family T) (r : Resource) (w : View) (b : β) : Settles fun k => patch E (T k) r w b :=
  settles_replace U hT (fun _ hS v b => settles_patch U hS v b) r w b

theorem settles_post (U : Uniform E T bd fd) (hT : Family T) (r : Resource) (w : View) (b : β) : Settles fun k => post E (T k) r w b := by
  simp only [post]
  cases segs w with
  | none => settle
  | some path =>
    rcases visit_family U hT r.value path 0 with ⟨e, d, he⟩ | ⟨a, S, d, hS, ha⟩
    · exact ⟨(r, catchPut e), d, fun k hk => by simp only [he k hk]⟩
    · apply settles_shift d
      simp only [ha]
      by_cases hro : a.ctx.isChildNodeReadOnly a.node = true
      · simp only [hro, ↓reduceIte, Bool.false_eq_true, ne_eq, not_true_eq_false, not_false_eq_true]; settle
      · simp only [hro, ↓reduceIte, Bool.false_eq_true, ne_eq, not_true_eq_false, not_false_eq_true]
        apply settles_shift 1
        cases e : S 1 with
        | leaf i => simp only [coded_leaf hS e]; settle
        | opt t => obtain ⟨S', _, e'⟩ := coded_opt hS e; simp only [e']; settle
        | map er t =>
          refine ⟨(r, .resp .methodNotAllowed []), 0, fun k _ => ?_⟩
          obtain ⟨t', e'⟩ := coded_map hS e k; simp [e']
        | record i fs =>
          refine ⟨(r, .resp .methodNotAllowed []), 0, fun k _ => ?_⟩
          obtain ⟨t', e'⟩ := coded_record hS e k; simp [e']
        | seq kd t =>
          obtain ⟨S', hS', e'⟩ := coded_seq hS e
          simp only [e']
          cases hv : a.val with
          | seq vs =>
            simp only
            by_cases hp : kd.push = true
            · simp only [hp, ↓reduceIte, Bool.false_eq_true, ne_eq, not_true_eq_false, not_false_eq_true]
              obtain ⟨x, K, hx⟩ := settles_fresh U hS'
              obtain ⟨y, M, hy⟩ := settles_deser U hS' x b
              apply settles_shift (K + M)
              have hx' : ∀ k, E.fresh (S' (k + (K + M))) = x := fun k => hx _ (by omega)
              have hy' : ∀ k, E.deser (S' (k + (K + M))) x b = y := fun k => hy _ (by omega)
              simp only [hx', hy']
              cases y with
              | error e => settle
              | ok candidate =>
                simp only [liftUser]
                cases checkDuplicateChildKey E vs candidate a.node.childKeys with
                | error e => settle
                | ok u =>
                  obtain ⟨z, M2, hz⟩ := settles_candidate U hS' candidate
                  obtain ⟨q, M3, hq⟩ := settles_push U (coded_self hT) r.value a.addr vs candidate
                  apply settles_shift (M2 + M3)
                  have hz' : ∀ k, validateCandidate E (S' (k + (M2 + M3) + (K + M))) candidate = z := fun k => hz _ (by omega)
                  have hq' : ∀ k, pushChecked E (T (k + (M2 + M3) + (K + M) + 1 + d)) r.value a.addr vs candidate = q :=
                    fun k => hq _ (by omega)
                  simp only [hz', hq']
                  settle
            · simp only [hp, ↓reduceIte, Bool.false_eq_true, ne_eq, not_true_eq_false, not_false_eq_true]; settle
          | _ => settle

theorem settles_erase (U : Uniform E T bd fd) (hT : Family T) (r : Resource) (w : View) (a : Target) (smaller : Value) (g : Nat → Nat)
    (hg : ∀ k, k ≤ g k) (S : Nat → Ty) :
    Settles fun k => eraseChecked E (T (g k)) r w { a with ty := S k } smaller := by
  simp only [eraseChecked]
  obtain ⟨y, M, hy⟩ := settles_assign U (coded_self hT) r.value a.addr a.val smaller
  exact ⟨_, M, fun k hk => by simp only [hy _ (Nat.le_trans hk (hg k))]; rfl⟩

theorem settles_deleteOptional (U : Uniform E T bd fd) (hT : Family T) (r : Resource) (w : View) (path : List Str) :
    Settles fun k => deleteOptional E (T k) r w path := by
  simp only [deleteOptional]
  rcases visit_family U hT r.value path 0 with ⟨e, d, he⟩ | ⟨a, S, d, hS, ha⟩
  · exact ⟨(r, catchDel e), d, fun k hk => by simp only [he k hk]⟩
  · apply settles_shift d
    simp only [ha]
    by_cases hro : a.ctx.isNodeReadOnly a.node = true
    · simp only [hro, ↓reduceIte, Bool.false_eq_true, ne_eq, not_true_eq_false, not_false_eq_true]; settle
    · simp only [hro, ↓reduceIte, Bool.false_eq_true, ne_eq, not_true_eq_false, not_false_eq_true]
      apply settles_shift 1
      cases e : S 1 with
      | leaf i => simp only [coded_leaf hS e]; settle
      | map er t =>
        refine ⟨(r, .resp .methodNotAllowed []), 0, fun k _ => ?_⟩
        obtain ⟨t', e'⟩ := coded_map hS e k; simp [e']
      | record i fs =>
        refine ⟨(r, .resp .methodNotAllowed []), 0, fun k _ => ?_⟩
        obtain ⟨t', e'⟩ := coded_record hS e k; simp [e']
      | seq kd t => obtain ⟨S', _, e'⟩ := coded_seq hS e; simp only [e']; settle
      | opt t =>
        obtain ⟨S', hS', e'⟩ := coded_opt hS e
        simp only [e']
        cases hv : a.val with
        | opt o =>
          simp only
          have hheld : Settles fun k => validateHeld E (S' k) o := by
            cases o with
            | none => settle
            | some x => exact settles_candidate U hS' x
          obtain ⟨x, K, hx⟩ := hheld
          have hS2 : Coded T (fun k => S (k + 1)) :=
            ⟨fun k j hkj => upto_mono (by omega) (hS.family (k + 1) (j + 1) (by omega)), fun k => hS.part _⟩
          obtain ⟨y, M, hy⟩ := settles_candidate U hS2 (.opt none)
          obtain ⟨z, N, hz⟩ := settles_assign U (coded_self hT) r.value a.addr (.opt o) (.opt none)
          apply settles_shift (K + M + N + 1)
          have hx' : ∀ k, validateHeld E (S' (k + (K + M + N + 1))) o = x := fun k => hx _ (by omega)
          have hy' : ∀ k, validateCandidate E (.opt (S' (k + (K + M + N + 1)))) (.opt none) = y := fun k => by
            rw [← e']; exact hy _ (by omega)
          have hz' : ∀ k, assignChecked E (T (k + (K + M + N + 1) + 1 + d)) r.value a.addr (.opt o) (.opt none) = z := fun k => hz _ (by omega)
          have hh : ∀ k, isReflectable (S' (k + (K + M + N + 1))) = isReflectable (S' 1) := fun k => by
            rw [show k + (K + M + N + 1) = (k + K + M + N) + 1 by omega]; exact (coded_head hS').2 _
          simp only [hx', hy', hz', hh]
          settle
        | _ => settle

theorem settles_deleteChild (U : Uniform E T bd fd) (hT : Family T) (r : Resource) (w : View) (a : Target) (hS : Coded T S) (d : Nat) :
    Settles fun k => deleteDirectChild E (T (k + d)) r w { a with ty := S k } := by
  have hmap : ∀ g : Nat → Nat, (∀ k, k ≤ g k) → ∀ (S' : Nat → Ty) (smaller : Value), Settles fun k => eraseChecked E (T (g k)) r w { a with ty := S' k } smaller :=
    fun g hg S' smaller => settles_erase U hT r w a smaller g hg S'
  apply settles_shift 1
  simp only [deleteDirectChild]
  cases e : S 1 with
  | leaf i => simp only [coded_leaf hS e]; settle
  | opt t => obtain ⟨S', _, e'⟩ := coded_opt hS e; simp only [e']; settle
  | record i fs =>
    refine ⟨none, 0, fun k _ => ?_⟩
    obtain ⟨t', e'⟩ := coded_record hS e k; simp [e']
  | map er t =>
    have hs := fun k => coded_map hS e k
    obtain ⟨S', e'⟩ : ∃ S' : Nat → Ty, ∀ k, S (k + 1) = .map er (S' k) := ⟨fun k => (hs k).choose, fun k => (hs k).choose_spec⟩
    simp only [e']
    cases hv : a.val with
    | map es =>
      match hr : a.rest with
      | [s] =>
        simp only
        cases findKey es s with
        | none => settle
        | some i =>
          simp only
          by_cases hro : a.ctx.isChildNodeReadOnly a.node = true
          · simp only [hro, ↓reduceIte, Bool.false_eq_true, ne_eq, not_true_eq_false, not_false_eq_true]; settle
          · simp only [hro, ↓reduceIte, Bool.false_eq_true, ne_eq, not_true_eq_false, not_false_eq_true]
            cases er with
            | false => settle
            | true =>
              obtain ⟨y, M, hy⟩ := hmap (fun k => k + 1 + d) (fun k => by omega) (fun k => .map true (S' k)) (.map (es.eraseIdx i))
              rw [hv, hr] at hy
              exact ⟨some y, M, fun k hk => by simpa using hy k hk⟩
      | [] => settle
      | _ :: _ :: _ => settle
    | _ => settle
  | seq kd t =>
    obtain ⟨S', hS', e'⟩ := coded_seq hS e
    simp only [e']
    cases hv : a.val with
    | seq vs =>
      match hr : a.rest with
      | [s] =>
        simp only
        by_cases hck : a.node.childKeys ≠ []
        · simp only [hck, ↓reduceIte, Bool.false_eq_true, ne_eq, not_true_eq_false, not_false_eq_true]
          obtain ⟨x, K, hx⟩ := settles_findKeyed U hS' vs s a.node.childKeys
          apply settles_shift K
          have hx' : ∀ k, findKeyed E (S' (k + K)) vs s a.node.childKeys = x := fun k => hx _ (by omega)
          simp only [hx']
          match x with
          | .error e => settle
          | .ok none => settle
          | .ok (some (_, i)) =>
            simp only
            by_cases hro : a.ctx.isChildNodeReadOnly a.node = true
            · simp only [hro, ↓reduceIte, Bool.false_eq_true, ne_eq, not_true_eq_false, not_false_eq_true]; settle
            · simp only [hro, ↓reduceIte, Bool.false_eq_true, ne_eq, not_true_eq_false, not_false_eq_true]
              cases her : kd.erase with
              | false => settle
              | true =>
                obtain ⟨y, M, hy⟩ := hmap (fun k => k + K + 1 + d) (fun k => by omega) (fun k => .seq kd (S' (k + K))) (.seq (vs.eraseIdx i))
                rw [hv, hr] at hy
                exact ⟨some y, M, fun k hk => by simpa using hy k hk⟩
        · simp only [hck, ↓reduceIte, Bool.false_eq_true, ne_eq, not_true_eq_false, not_false_eq_true]
          cases hat : kd.at_ with
          | false => settle
          | true =>
            simp only
            cases parseIndex s with
            | none => settle
            | some i =>
              simp only
              by_cases hro : a.ctx.isChildNodeReadOnly a.node = true
              · simp only [hro, ↓reduceIte, Bool.false_eq_true, ne_eq, not_true_eq_false, not_false_eq_true]; settle
              · simp only [hro, ↓reduceIte, Bool.false_eq_true, ne_eq, not_true_eq_false, not_false_eq_true]
                cases her : kd.erase with
                | false => settle
                | true =>
                  simp only
                  cases vs[i]? with
                  | none => settle
                  | some _ =>
                    obtain ⟨y, M, hy⟩ := hmap (fun k => k + 1 + d) (fun k => by omega) (fun k => .seq kd (S' k)) (.seq (vs.eraseIdx i))
                    rw [hv, hr] at hy
                    exact ⟨some y, M, fun k hk => by simpa using hy k hk⟩
      | [] => settle
      | _ :: _ :: _ => settle
    | _ => settle

theorem settles_del (U : Uniform E T bd fd) (hT : Family T) (r : Resource) (w : View) : Settles fun k => del E (T k) r w := by
  simp only [del]
  cases segs w with
  | none => settle
  | some path =>
    obtain ⟨z, N, hz⟩ := settles_deleteOptional U hT r w path
    by_cases hp : path ≠ []
    · simp only [hp, ↓reduceIte, Bool.false_eq_true, ne_eq, not_true_eq_false, not_false_eq_true]
      rcases visit_family U hT r.value path 1 with ⟨e, d, he⟩ | ⟨a, S, d, hS, ha⟩
      · exact ⟨(r, catchDel e), d, fun k hk => by simp [he k hk]⟩
      · apply settles_shift d
        simp only [ha]
        obtain ⟨y, M, hy⟩ := settles_deleteChild U hT r w a hS d
        apply settles_shift (M + N)
        have hy' : ∀ k, deleteDirectChild E (T (k + (M + N) + d)) r w { a with ty := S (k + (M + N)) } = y := fun k => hy _ (by omega)
        have hz' : ∀ k, deleteOptional E (T (k + (M + N) + d)) r w path = z := fun k => hz _ (by omega)
        simp only [hy', hz']
        settle
    · simp only [hp, ↓reduceIte, Bool.false_eq_true, ne_eq, not_true_eq_false, not_false_eq_true]
      exact ⟨z, N, fun k hk => by simpa using hz k hk⟩

theorem settles_serve (U : Uniform E T bd fd) (hT : Family T) (r : Resource) (q : Request β) : Settles fun k => serve E (T k) r q := by
  cases q with
  | put w b => exact settles_put U hT r w b
  | patch w b => exact settles_patchVerb U hT r w b
  | post w b => exact settles_post U hT r w b
  | del w => exact settles_del U hT r w

theorem settles_serveAll (U : Uniform E T bd fd) (hT : Family T) (qs : List (Request β)) :
    ∀ r, Settles fun k => serveAll E (T k) r qs := by
  induction qs with
  | nil => intro r; settle
  | cons q qs ih =>
    intro r
    obtain ⟨⟨r1, o⟩, K, h1⟩ := settles_serve U hT r q
    obtain ⟨⟨r2, os⟩, M, h2⟩ := ih r1
    refine ⟨(r2, o :: os), K + M, fun k hk => ?_⟩
    have e1 : serve E (T k) r q = (r1, o) := h1 k (by omega)
    have e2 : serveAll E (T k) r1 qs = (r2, os) := h2 k (by omega)
    simp only [serveAll, e1, e2]

end

end Verif.Resource
