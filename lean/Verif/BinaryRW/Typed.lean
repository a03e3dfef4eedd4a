import Verif.BinaryRW.Write
/- What the reader leaves in the destination. -/
namespace Verif.BinaryRW
open Spec

theorem slice_len {buf : List Byte} {pos n : Nat} {b : List Byte} (h : slice buf pos n = some b) :
    b.length = n := by
  unfold slice at h
  split at h
  · simp only [Option.some.injEq] at h
    subst h
    simp; omega
  · simp at h

theorem readImpl_len {c c' : Cursor} {n : Nat} {b : List Byte}
    (h : c.readImpl n = some (some b, c')) : b.length = n := by
  unfold Cursor.readImpl Cursor.peekImpl at h
  split at h
  · simp at h
  · rename_i b' hb
    split at hb
    · simp at hb
    · split at hb
      · simp at hb
      · rename_i b'' hs
        simp only [Option.some.injEq, Prod.mk.injEq] at hb h
        rw [← h.1, ← hb]; exact slice_len hs
  · simp at h

theorem readImpl_none {c c' : Cursor} {n : Nat} (h : c.readImpl n = some (none, c')) :
    c'.err = true := by
  unfold Cursor.readImpl at h
  split at h <;> simp at h
  rw [← h]

theorem readLoop_inv {α} {rd : Cursor → Option (α × Cursor)} {ins : List α → α → List α}
    {P : α → Prop} {Q : List α → Prop} (h0 : Q [])
    (hrd : ∀ c v c', rd c = some (v, c') → P v) (hins : ∀ acc v, Q acc → P v → Q (ins acc v))
    (n : Nat) (acc : List α) (c c' : Cursor) (l : List α) (hq : Q acc)
    (h : readLoop rd ins n acc c = some (l, c')) : Q l := by
  induction n generalizing acc c with
  | zero =>
    simp only [readLoop, Option.some.injEq, Prod.mk.injEq] at h
    rw [← h.1]; exact hq
  | succ n ih =>
    simp only [readLoop] at h
    cases hr : rd c with
    | none => simp [hr] at h
    | some r =>
      obtain ⟨v, c1⟩ := r
      simp only [hr] at h
      by_cases he : c1.err
      · simp only [he, if_true, Option.some.injEq, Prod.mk.injEq] at h
        rw [← h.1]; exact h0
      · simp only [he, if_false] at h
        exact ih _ _ (hins _ _ hq (hrd _ _ _ hr)) h

theorem readLoop_err {α} {rd : Cursor → Option (α × Cursor)} {ins : List α → α → List α}
    (n : Nat) (acc : List α) (c c' : Cursor) (l : List α) (hc : c.err = false ∨ acc = [])
    (h : readLoop rd ins n acc c = some (l, c')) (he : c'.err = true) : l = [] := by
  induction n generalizing acc c with
  | zero =>
    simp only [readLoop, Option.some.injEq, Prod.mk.injEq] at h
    rcases hc with hc | hc
    · rw [h.2] at hc; simp [hc] at he
    · rw [← h.1]; exact hc
  | succ n ih =>
    simp only [readLoop] at h
    cases hr : rd c with
    | none => simp [hr] at h
    | some r =>
      obtain ⟨v, c1⟩ := r
      simp only [hr] at h
      by_cases he1 : c1.err
      · simp only [he1, if_true, Option.some.injEq, Prod.mk.injEq] at h
        exact h.1.symm
      · simp only [he1] at h
        exact ih _ _ (.inl (by simpa using he1)) h

theorem chunks_typed (n k : Nat) (b : List Byte) (h : b.length = k * n) :
    ∀ v ∈ chunks n k b, HasTy (.scalar n) v := by
  induction k generalizing b with
  | zero => simp [chunks]
  | succ k ih =>
    have hm : (k + 1) * n = n + k * n := by rw [Nat.succ_mul]; omega
    rw [hm] at h
    intro v hv
    simp only [chunks, List.mem_cons] at hv
    rcases hv with rfl | hv
    · simp only [HasTy, List.length_take]; omega
    · exact ih (b.drop n) (by rw [List.length_drop]; omega) v hv

theorem guard_typed {t : Ty} (hk : TyOK t)
    (ih : ∀ old c v c', HasTy t old → readInto t old c = some (v, c') → HasTy t v) :
    ∀ c v c', (if c.err then some (default t, c) else readInto t (default t) c) = some (v, c') →
      HasTy t v := by
  intro c v c' h
  by_cases he : c.err
  · simp only [he, if_true, Option.some.injEq, Prod.mk.injEq] at h
    rw [← h.1]; exact default_hasTy t hk
  · simp only [he] at h
    exact ih _ _ _ _ (default_hasTy t hk) h

/-- Whatever happens, the destination keeps its type. -/
theorem readInto_typed (t : Ty) (hk : TyOK t) (old : Val) (c : Cursor) (v : Val) (c' : Cursor)
    (ht : HasTy t old) (h : readInto t old c = some (v, c')) : HasTy t v := by
  induction t using Ty.ind generalizing old c v c' with
  | hscalar n =>
    cases old <;> simp only [HasTy] at ht
    simp only [readInto] at h
    split at h <;> simp only [Option.some.injEq, Prod.mk.injEq, reduceCtorEq] at h
    · rw [← h.1]; exact ht
    · rename_i hr
      rw [← h.1]; exact readImpl_len hr
  | hstr =>
    cases old <;> simp only [HasTy] at ht
    simp only [readInto] at h
    split at h
    · simp at h
    · split at h
      · simp only [Option.some.injEq, Prod.mk.injEq] at h
        rw [← h.1]; trivial
      · split at h <;> simp only [Option.some.injEq, Prod.mk.injEq, reduceCtorEq] at h
        rw [← h.1]; trivial
  | hvec t ih =>
    cases old <;> simp only [HasTy] at ht
    simp only [TyOK] at hk
    simp only [readInto] at h
    split at h
    · simp at h
    · split at h
      · rename_i n
        split at h
        · simp only [Option.some.injEq, Prod.mk.injEq] at h
          rw [← h.1]; simp [HasTy]
        · split at h <;> simp only [Option.some.injEq, Prod.mk.injEq, reduceCtorEq] at h
          rename_i b c2 hr
          rw [← h.1]
          split
          · simp [HasTy]
          · cases b with
            | none => exact absurd (readImpl_none hr) (by assumption)
            | some b =>
              have := readImpl_len hr
              exact chunks_typed _ _ _ this
      · split at h <;> simp only [Option.some.injEq, Prod.mk.injEq, reduceCtorEq] at h
        rename_i l c2 hr
        rw [← h.1]
        have := readLoop_inv (P := HasTy t) (Q := fun l => ∀ v ∈ l, HasTy t v) (by simp)
          (guard_typed hk (ih hk)) (by
            intro acc v ha hv w hw
            simp only [List.mem_append, List.mem_singleton] at hw
            rcases hw with hw | rfl
            · exact ha w hw
            · exact hv) _ _ _ _ _ (by simp) hr
        exact this
  | hmap lt k w ihk ihv =>
    cases old <;> simp only [HasTy] at ht
    simp only [TyOK] at hk
    simp only [readInto] at h
    split at h
    · simp at h
    · split at h <;> simp only [Option.some.injEq, Prod.mk.injEq, reduceCtorEq] at h
      rename_i l c2 hr
      rw [← h.1]
      have := readLoop_inv (P := fun e : Val × Val => HasTy k e.1 ∧ HasTy w e.2)
        (Q := fun l => l.Pairwise (fun a b : Val × Val => lt a.1 b.1 = true) ∧
          ∀ e ∈ l, HasTy k e.1 ∧ HasTy w e.2) (by simp) (by
          intro c e c' he
          unfold readPair at he
          split at he
          · simp at he
          · rename_i a c1 ha
            split at he <;> simp only [Option.some.injEq, Prod.mk.injEq, reduceCtorEq] at he
            rename_i b c2 hb
            obtain ⟨e1, e2⟩ := e
            simp only [Prod.mk.injEq] at he
            rw [← he.1.1, ← he.1.2]
            exact ⟨guard_typed hk.2.1 (ihk hk.2.1) _ _ _ ha,
              guard_typed hk.2.2 (ihv hk.2.2) _ _ _ hb⟩) (by
          intro acc e ha hv
          refine ⟨insert_pairwise (lt := fun a b : Val × Val => lt a.1 b.1)
            (fun a b c h1 h2 => hk.1.2 a.1 b.1 c.1 h1 h2) acc e ha.1, ?_⟩
          intro x hx
          rcases insert_mem _ acc e x hx with rfl | hx
          · exact hv
          · exact ha.2 x hx) _ _ _ _ _ (by simp) hr
      exact this
  | hset lt t ih =>
    cases old <;> simp only [HasTy] at ht
    simp only [TyOK] at hk
    simp only [readInto] at h
    split at h
    · simp at h
    · split at h <;> simp only [Option.some.injEq, Prod.mk.injEq, reduceCtorEq] at h
      rename_i l c2 hr
      rw [← h.1]
      have := readLoop_inv (P := HasTy t)
        (Q := fun l => l.Pairwise (fun a b : Val => lt a b = true) ∧ ∀ e ∈ l, HasTy t e) (by simp)
        (guard_typed hk.2 (ih hk.2)) (by
          intro acc e ha hv
          refine ⟨insert_pairwise hk.1.2 acc e ha.1, ?_⟩
          intro x hx
          rcases insert_mem _ acc e x hx with rfl | hx
          · exact hv
          · exact ha.2 x hx) _ _ _ _ _ (by simp) hr
      exact this
  | hopt t ih =>
    simp only [TyOK] at hk
    simp only [readInto] at h
    split at h
    · simp at h
    · split at h
      · split at h <;> simp only [Option.some.injEq, Prod.mk.injEq, reduceCtorEq] at h
        rename_i v' c2 hr
        rw [← h.1]
        exact guard_typed hk (ih hk) _ _ _ hr
      · simp only [Option.some.injEq, Prod.mk.injEq] at h
        rw [← h.1]; trivial
  | hpair a b iha ihb =>
    cases old <;> simp only [HasTy] at ht
    simp only [TyOK] at hk
    simp only [readInto] at h
    split at h
    · split at h
      · simp at h
      · rename_i x' c1 hx
        split at h
        · split at h <;> simp only [Option.some.injEq, Prod.mk.injEq, reduceCtorEq] at h
          rename_i y' c2 hy
          rw [← h.1]
          exact ⟨iha hk.1 _ _ _ _ ht.1 hx, ihb hk.2 _ _ _ _ ht.2 hy⟩
        · simp only [Option.some.injEq, Prod.mk.injEq] at h
          rw [← h.1]
          exact ⟨iha hk.1 _ _ _ _ ht.1 hx, ht.2⟩
    · simp only [Option.some.injEq, Prod.mk.injEq] at h
      rw [← h.1]; exact ht
  | hvariant ts ih =>
    simp only [TyOK] at hk
    simp only [readInto] at h
    split at h
    · simp at h
    · rename_i i c1 _
      split at h
      · rw [readAlt_eq] at h
        cases hi : ts[i]? with
        | none =>
          simp only [hi, Option.some.injEq, Prod.mk.injEq] at h
          rw [← h.1]; exact ht
        | some t =>
          have hm := List.mem_of_getElem? hi
          have htk := allOK_mem hk.2 t hm
          simp only [hi] at h
          split at h
          · simp at h
          · rename_i v' c2 hr
            split at h <;> simp only [Option.some.injEq, Prod.mk.injEq] at h
            · rw [← h.1]
              simp only [HasTy, hasAlt_eq]
              exact ⟨t, by simpa using hi, guard_typed htk (ih t hm htk) _ _ _ hr⟩
            · rw [← h.1]; exact ht
      · simp only [Option.some.injEq, Prod.mk.injEq] at h
        rw [← h.1]; exact ht

end Verif.BinaryRW
