import Verif.Serial.YamlLemmas
/-
What two backends write differs in the scalars only.
-/
namespace Verif.Serial
open Verif.Path Verif.Enums

variable {σ τ : Type}

namespace Spec

mutual
/-- The document with other scalars. -/
def relabel (f : σ → τ) : Doc σ → Doc τ
  | .null => .null
  | .scalar s => .scalar (f s)
  | .arr l => .arr (relabelAll f l)
  | .obj ms => .obj (relabelMembers f ms)
def relabelAll (f : σ → τ) : List (Doc σ) → List (Doc τ)
  | [] => []
  | d :: ds => relabel f d :: relabelAll f ds
def relabelMembers (f : σ → τ) : List (Str × Doc σ) → List (Str × Doc τ)
  | [] => []
  | (k, d) :: ms => (k, relabel f d) :: relabelMembers f ms
end

/-- The leaves of the second backend are those of the first, translated. -/
def Translates (f : σ → τ) (B : Backend σ) (C : Backend τ) : Prop :=
  ∀ l a, C.serLeaf l a = f (B.serLeaf l a)

/-- Members are appended. -/
def Appends (B : Backend σ) : Prop := ∀ ms k d, B.addField ms k d = ms ++ [(k, d)]

end Spec

open Spec

theorem relabelAll_append (f : σ → τ) : ∀ a b, relabelAll f (a ++ b) = relabelAll f a ++ relabelAll f b
  | [], b => by simp [relabelAll]
  | d :: a, b => by simp [relabelAll, relabelAll_append f a b]

theorem relabelMembers_append (f : σ → τ) : ∀ a b,
    relabelMembers f (a ++ b) = relabelMembers f a ++ relabelMembers f b
  | [], b => by simp [relabelMembers]
  | (k, d) :: a, b => by simp [relabelMembers, relabelMembers_append f a b]

theorem mapAll_relabel {f : σ → τ} {α : Type} {g : α → Res (Doc σ)} {h : α → Res (Doc τ)} :
    ∀ {l : List α}, (∀ v ∈ l, h v = (g v).map (relabel f)) → mapAll h l = (mapAll g l).map (relabelAll f)
  | [], _ => rfl
  | v :: l, hl => by
    have ih := mapAll_relabel (f := f) (g := g) (h := h) (l := l) fun w hw => hl w (by simp [hw])
    simp only [mapAll, hl v (by simp), ih]
    cases g v with
    | error e => rfl
    | ok d => cases mapAll g l <;> rfl

theorem serEntries_relabel {f : σ → τ} {B : Backend σ} {C : Backend τ} (hB : Appends B) (hC : Appends C)
    {s : Bool} {c : Str → Res Unit} {g : Value → Res (Doc σ)} {h : Value → Res (Doc τ)}
    (hg : ∀ v, h v = (g v).map (relabel f)) : ∀ (es : List (Str × Value)) (o : List (Str × Doc σ)),
    serEntries C s c h es (relabelMembers f o) = (serEntries B s c g es o).map (relabelMembers f)
  | [], o => rfl
  | (k, v) :: es, o => by
    simp only [serEntries]
    cases c k with
    | error e => rfl
    | ok u =>
      simp only
      split
      · exact serEntries_relabel hB hC hg es o
      · rw [hg]
        cases g v with
        | error e => rfl
        | ok d =>
          have ih := serEntries_relabel hB hC hg (s := s) (c := c) es (B.addField o k d)
          simp only [Except.map, hB o k d, hC (relabelMembers f o) k (relabel f d)] at ih ⊢
          rw [← ih, relabelMembers_append]
          rfl

mutual
theorem ser_relabel {f : σ → τ} {B : Backend σ} {C : Backend τ} (hf : Translates f B C) (hB : Appends B)
    (hC : Appends C) {s : Bool} : ∀ (t : Ty) (v : Value), ser C s t v = (ser B s t v).map (relabel f)
  | .leaf l, v => by cases v <;> simp only [ser] <;> first | rfl | (rw [hf]; rfl)
  | .rawEnum l, v => by cases v <;> simp only [ser] <;> first | rfl | (rw [hf]; rfl)
  | .enum e, v => by
    simp only [ser]
    split
    · cases enumName e _ with
      | error e => rfl
      | ok n => simp only [Except.map]; rw [hf]; rfl
    · rfl
  | .enumSet e, v => by
    cases v with
    | bits n =>
      simp only [ser]
      rw [mapAll_relabel (f := f) (g := fun m => (enumName e m).map fun s => .scalar (B.serLeaf .str (.str s)))]
      · cases mapAll _ (setMembers e n) <;> rfl
      · intro m _
        cases enumName e m with
        | error e => rfl
        | ok n => simp only [Except.map]; rw [hf]; rfl
    | _ => simp only [ser]; rfl
  | .opt t, v => by
    cases v with
    | opt w =>
      cases w with
      | none => simp only [ser]; rfl
      | some w => simp only [ser, ser_relabel hf hB hC t w]
    | _ => simp only [ser]; rfl
  | .vec t, v => by
    cases v with
    | seq vs =>
      simp only [ser]
      rw [mapAll_relabel (f := f) fun w _ => ser_relabel hf hB hC t w]
      cases mapAll _ vs <;> rfl
    | _ => simp only [ser]; rfl
  | .arr n t, v => by
    cases v with
    | seq vs =>
      simp only [ser]
      rw [mapAll_relabel (f := f) fun w _ => ser_relabel hf hB hC t w]
      cases mapAll _ vs <;> rfl
    | _ => simp only [ser]; rfl
  | .map t, v => by
    cases v with
    | map es =>
      simp only [ser]
      have := serEntries_relabel (f := f) hB hC (s := s) (c := fun _ => .ok ())
        (fun w => ser_relabel hf hB hC (s := s) t w) es []
      simp only [relabelMembers] at this
      rw [this]
      cases serEntries B s _ _ es [] <;> rfl
    | _ => simp only [ser]; rfl
  | .tuple _ ts, v => by
    cases v with
    | seq vs =>
      simp only [ser, serTuple_relabel hf hB hC ts vs]
      cases serTuple B s ts vs <;> rfl
    | _ => simp only [ser]; rfl
  | .record _ fs, v => by
    cases v with
    | record vs =>
      simp only [ser]
      cases reservedNames fs with
      | error e => rfl
      | ok r =>
        have := addFields_relabel hf hB hC (s := s) r fs vs []
        simp only [relabelMembers] at this
        simp only [this]
        cases addFields B s r fs vs [] <;> rfl
    | _ => simp only [ser]; rfl
theorem serTuple_relabel {f : σ → τ} {B : Backend σ} {C : Backend τ} (hf : Translates f B C) (hB : Appends B)
    (hC : Appends C) {s : Bool} : ∀ (ts : Tys) (vs : List Value),
    serTuple C s ts vs = (serTuple B s ts vs).map (relabelAll f)
  | .nil, vs => by cases vs <;> simp only [serTuple] <;> rfl
  | .cons t ts, vs => by
    cases vs with
    | nil => simp only [serTuple]; rfl
    | cons v vs =>
      simp only [serTuple, ser_relabel hf hB hC t v, serTuple_relabel hf hB hC ts vs]
      cases ser B s t v with
      | error e => rfl
      | ok d => cases serTuple B s ts vs <;> rfl
theorem addFields_relabel {f : σ → τ} {B : Backend σ} {C : Backend τ} (hf : Translates f B C) (hB : Appends B)
    (hC : Appends C) {s : Bool} (r : Option (List Str)) : ∀ (fs : Fields) (vs : List Value)
    (o : List (Str × Doc σ)),
    addFields C s r fs vs (relabelMembers f o) = (addFields B s r fs vs o).map (relabelMembers f)
  | .nil, vs, o => by cases vs <;> simp only [addFields] <;> rfl
  | .cons x t fs, vs, o => by
    cases vs with
    | nil => simp only [addFields]; rfl
    | cons v vs =>
      have h : (if x.skipSer then .ok (relabelMembers f o)
          else if skipField x s v then .ok (relabelMembers f o)
          else if x.extra then addExtras C s r t v (relabelMembers f o)
          else if x.flatten then addFlat C s r t v (relabelMembers f o)
          else (ser C s t v).map fun d => C.addField (relabelMembers f o) x.key d : Res (List (Str × Doc τ))) =
        (if x.skipSer then .ok o
          else if skipField x s v then .ok o
          else if x.extra then addExtras B s r t v o
          else if x.flatten then addFlat B s r t v o
          else (ser B s t v).map fun d => B.addField o x.key d : Res (List (Str × Doc σ))).map
            (relabelMembers f) := by
        split
        · rfl
        split
        · rfl
        split
        · exact addExtras_relabel hf hB hC r t v o
        split
        · exact addFlat_relabel hf hB hC r t v o
        rw [ser_relabel hf hB hC t v]
        cases ser B s t v with
        | error e => rfl
        | ok d =>
          simp only [Except.map, hB o, hC (relabelMembers f o), relabelMembers_append]
          rfl
      unfold addFields
      dsimp only
      rw [h]
      cases (if x.skipSer then .ok o
          else if skipField x s v then .ok o
          else if x.extra then addExtras B s r t v o
          else if x.flatten then addFlat B s r t v o
          else (ser B s t v).map fun d => B.addField o x.key d : Res (List (Str × Doc σ))) with
      | error e => rfl
      | ok o' => exact addFields_relabel hf hB hC r fs vs o'
theorem addExtras_relabel {f : σ → τ} {B : Backend σ} {C : Backend τ} (hf : Translates f B C) (hB : Appends B)
    (hC : Appends C) {s : Bool} (r : Option (List Str)) : ∀ (t : Ty) (v : Value) (o : List (Str × Doc σ)),
    addExtras C s r t v (relabelMembers f o) = (addExtras B s r t v o).map (relabelMembers f)
  | .map t, v, o => by
    cases v with
    | map es =>
      simp only [addExtras]
      exact serEntries_relabel hB hC (fun w => ser_relabel hf hB hC (s := s) t w) es o
    | _ => simp only [addExtras]; rfl
  | .leaf _, _, _ | .enum _, _, _ | .rawEnum _, _, _ | .enumSet _, _, _ | .opt _, _, _ | .vec _, _, _
  | .arr _ _, _, _ | .tuple _ _, _, _ | .record _ _, _, _ => by simp only [addExtras]; rfl
theorem addFlat_relabel {f : σ → τ} {B : Backend σ} {C : Backend τ} (hf : Translates f B C) (hB : Appends B)
    (hC : Appends C) {s : Bool} (r : Option (List Str)) : ∀ (t : Ty) (v : Value) (o : List (Str × Doc σ)),
    addFlat C s r t v (relabelMembers f o) = (addFlat B s r t v o).map (relabelMembers f)
  | .record _ fs, v, o => by
    cases v with
    | record vs => simp only [addFlat]; exact addFields_relabel hf hB hC r fs vs o
    | _ => simp only [addFlat]; rfl
  | .leaf _, _, _ | .enum _, _, _ | .rawEnum _, _, _ | .enumSet _, _, _ | .opt _, _, _ | .vec _, _, _
  | .arr _ _, _, _ | .tuple _ _, _, _ | .map _, _, _ => by simp only [addFlat]; rfl
end

end Verif.Serial
