import Verif.Serial.Record
/-
Members outside the names of a record do not matter.
-/
namespace Verif.Serial
open Verif.Path Verif.Enums Spec

variable {σ : Type}

theorem firstAlias_congr {ms ms' : List (Str × Doc σ)} : ∀ {as : List Str},
    (∀ n ∈ as, findMember ms n = findMember ms' n) → firstAlias ms as = firstAlias ms' as
  | [], _ => rfl
  | a :: as, h => by
    have ih := firstAlias_congr (as := as) fun n hn => h n (by simp [hn])
    unfold firstAlias hasField
    rw [h a (by simp), ih]

theorem firstAlias_mem {ms : List (Str × Doc σ)} : ∀ {as : List Str} {n : Str},
    firstAlias ms as = some n → n ∈ as
  | [], n, h => by cases h
  | a :: as, n, h => by
    simp only [firstAlias] at h
    split at h
    · cases h; simp
    · simp [firstAlias_mem h]

theorem resolveName_congr {ms ms' : List (Str × Doc σ)} {f : Field}
    (h : ∀ n ∈ f.key :: f.aliases, findMember ms n = findMember ms' n) :
    resolveName ms f = resolveName ms' f := by
  unfold resolveName hasField
  rw [h f.key (by simp), firstAlias_congr fun n hn => h n (by simp [hn])]

theorem resolveName_mem {ms : List (Str × Doc σ)} {f : Field} {n : Str} (h : resolveName ms f = some n) :
    n ∈ f.key :: f.aliases := by
  unfold resolveName at h
  split at h
  · cases h; simp
  · simp [firstAlias_mem h]

theorem readPlain_congr {E : Env} {ms ms' : List (Str × Doc σ)} {f : Field} {o : Value} {p : Doc σ → Res Value}
    (h : ∀ n ∈ f.key :: f.aliases, findMember ms n = findMember ms' n) :
    readPlain E f ms o p = readPlain E f ms' o p := by
  unfold readPlain
  rw [resolveName_congr h]
  cases hr : resolveName ms' f with
  | none => unfold atField; rw [h f.key (by simp)]
  | some n => unfold atField; dsimp only; rw [h n (resolveName_mem hr)]

theorem patchPlain_congr {E : Env} {ms ms' : List (Str × Doc σ)} {f : Field} {o : Value} {p : Doc σ → Res Value}
    (h : ∀ n ∈ f.key :: f.aliases, findMember ms n = findMember ms' n) :
    patchPlain E f ms o p = patchPlain E f ms' o p := by
  unfold patchPlain
  rw [resolveName_congr h]
  cases hr : resolveName ms' f with
  | none => rfl
  | some n => unfold atField; dsimp only; rw [h n (resolveName_mem hr)]

theorem flatten_record {f : Field} {t : Ty} (h : fieldOk f t = true) (hf : f.flatten = true) : isRecord t = true := by
  simp only [fieldOk, hf] at h
  simp_all

mutual
theorem deserFields_agree {B : Backend σ} {E : Env} {ms ms' : List (Str × Doc σ)} {r : Option (List Str)} :
    ∀ (fs : Fields) (os : List Value), fieldsOk fs = true → extraCount fs = 0 →
    (∀ n ∈ inNames fs, findMember ms n = findMember ms' n) →
    deserFields B E r ms fs os = deserFields B E r ms' fs os
  | .nil, os, _, _, _ => by simp only [deserFields]
  | .cons f t fs, os, hf, hx, h => by
    simp only [fieldsOk, Bool.and_eq_true] at hf
    simp only [extraCount, Nat.add_eq_zero_iff] at hx
    simp only [inNames, List.mem_append] at h
    cases os with
    | nil => simp only [deserFields]
    | cons o os =>
      have h1 := deserTy_agree (B := B) (E := E) (ms := ms) (ms' := ms') t o hf.1.2
      have h2 := deserFields_agree (B := B) (E := E) (r := r) fs os hf.2 hx.2 fun n hn => h n (.inr hn)
      simp only [deserFields, h2]
      cases c0 : f.skipDeser with
      | true => simp only [if_true]
      | false =>
        cases c1 : f.extra with
        | true => simp [c1] at hx
        | false =>
          simp only [c0, c1, Bool.or_self, Bool.false_eq_true, if_false] at hx h ⊢
          cases c2 : f.flatten with
          | true =>
            simp only [c2, if_true] at hx h ⊢
            rw [h1 hx.1 (fun n hn => h n (.inl hn)) (flatten_record hf.1.1 c2)]
          | false =>
            simp only [c2, Bool.false_eq_true, if_false] at hx h ⊢
            rw [readPlain_congr fun n hn => h n (.inl hn)]
theorem deserTy_agree {B : Backend σ} {E : Env} {ms ms' : List (Str × Doc σ)} :
    ∀ (t : Ty) (o : Value), tyOk t = true → extraCountTy t = 0 → (∀ n ∈ inNamesTy t, findMember ms n = findMember ms' n) →
    isRecord t = true → deser B E t o (.obj ms) = deser B E t o (.obj ms')
  | .record n fs, o, ht, hx, h, _ => by
    simp only [tyOk, Bool.and_eq_true] at ht
    simp only [extraCountTy] at hx
    simp only [inNamesTy] at h
    have ih := fun r os => deserFields_agree (B := B) (E := E) (r := r) fs os ht.1.1 hx h
    simp only [deser, ih]
  | .leaf _, _, _, _, _, h | .enum _, _, _, _, _, h | .rawEnum _, _, _, _, _, h | .enumSet _, _, _, _, _, h
  | .opt _, _, _, _, _, h | .vec _, _, _, _, _, h | .arr _ _, _, _, _, _, h | .map _, _, _, _, _, h
  | .tuple _ _, _, _, _, _, h => by cases h
end

mutual
theorem patchFields_agree {B : Backend σ} {E : Env} {ms ms' : List (Str × Doc σ)} {r : Option (List Str)} :
    ∀ (fs : Fields) (os : List Value), fieldsOk fs = true → extraCount fs = 0 →
    (∀ n ∈ inNames fs, findMember ms n = findMember ms' n) →
    patchFields B E r ms fs os = patchFields B E r ms' fs os
  | .nil, os, _, _, _ => by simp only [patchFields]
  | .cons f t fs, os, hf, hx, h => by
    simp only [fieldsOk, Bool.and_eq_true] at hf
    simp only [extraCount, Nat.add_eq_zero_iff] at hx
    simp only [inNames, List.mem_append] at h
    cases os with
    | nil => simp only [patchFields]
    | cons o os =>
      have h1 := patchTy_agree (B := B) (E := E) (ms := ms) (ms' := ms') t o hf.1.2
      have h2 := patchFields_agree (B := B) (E := E) (r := r) fs os hf.2 hx.2 fun n hn => h n (.inr hn)
      simp only [patchFields, h2]
      cases c0 : f.skipDeser with
      | true => simp only [if_true]
      | false =>
        cases c1 : f.extra with
        | true => simp [c1] at hx
        | false =>
          simp only [c0, c1, Bool.or_self, Bool.false_eq_true, if_false] at hx h ⊢
          cases c2 : f.flatten with
          | true =>
            simp only [c2, if_true] at hx h ⊢
            rw [h1 hx.1 (fun n hn => h n (.inl hn)) (flatten_record hf.1.1 c2)]
          | false =>
            simp only [c2, Bool.false_eq_true, if_false] at hx h ⊢
            rw [patchPlain_congr fun n hn => h n (.inl hn)]
theorem patchTy_agree {B : Backend σ} {E : Env} {ms ms' : List (Str × Doc σ)} :
    ∀ (t : Ty) (o : Value), tyOk t = true → extraCountTy t = 0 → (∀ n ∈ inNamesTy t, findMember ms n = findMember ms' n) →
    isRecord t = true → patch B E t o (.obj ms) = patch B E t o (.obj ms')
  | .record n fs, o, ht, hx, h, _ => by
    simp only [tyOk, Bool.and_eq_true] at ht
    simp only [extraCountTy] at hx
    simp only [inNamesTy] at h
    have ih := fun r os => patchFields_agree (B := B) (E := E) (r := r) fs os ht.1.1 hx h
    simp only [patch, ih]
  | .leaf _, _, _, _, _, h | .enum _, _, _, _, _, h | .rawEnum _, _, _, _, _, h | .enumSet _, _, _, _, _, h
  | .opt _, _, _, _, _, h | .vec _, _, _, _, _, h | .arr _ _, _, _, _, _, h | .map _, _, _, _, _, h
  | .tuple _ _, _, _, _, _, h => by cases h
end

end Verif.Serial
