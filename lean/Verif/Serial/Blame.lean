import Verif.Serial.Easy
/-
Which value an error of `deserialize` blames, and lemmas about it.
-/
namespace Verif.Serial
open Verif.Path Verif.Enums

namespace Spec

variable {σ : Type}

/-- Reading `d` into `old` fails for the reason `base` somewhere inside; `lines` are the
places around it, from the inside out. -/
inductive Blames (B : Backend σ) (E : Env) : Ty → Value → Doc σ → Str → List Str → Prop
  | leaf {l o d w} : B.deserLeaf l d = .error (.deser w) → Blames B E (.leaf l) o d w []
  | rawEnum {t o d w} : B.deserLeaf (.int t) d = .error (.deser w) → Blames B E (.rawEnum t) o d w []
  | enumText {e o d w} : B.deserLeaf .str d = .error (.deser w) → Blames B E (.enum e) o d w []
  | enumName {e o d s} : B.deserLeaf .str d = .ok (.str s) → (∀ x ∈ e.entries, txt x.name ≠ s) →
      Blames B E (.enum e) o d (txt "invalid enum value: " ++ s) []
  | setShape {e o d} : (∀ l, d ≠ .arr l) → Blames B E (.enumSet e) o d (B.notSeq d) []
  /-- No line tells the element of a set. -/
  | setItem {e o l i d w ls} :
      FirstAt (fun _ d => ∃ v, deser B E (.enum e) (fresh (.enum e)) d = .ok v) l i d →
      Blames B E (.enum e) (fresh (.enum e)) d w ls → Blames B E (.enumSet e) o (.arr l) w ls
  | opt {t o d w ls} : d ≠ .null → Blames B E t (fresh t) d w ls → Blames B E (.opt t) o d w ls
  | vecShape {t o d} : (∀ l, d ≠ .arr l) → Blames B E (.vec t) o d (B.notSeq d) []
  | vecItem {t o l i d w ls} : FirstAt (fun _ d => ∃ v, deser B E t (fresh t) d = .ok v) l i d →
      Blames B E t (fresh t) d w ls → Blames B E (.vec t) o (.arr l) w (ls ++ [elementLine i])
  | arrShape {n t o d} : (∀ l, d ≠ .arr l) → Blames B E (.arr n t) o d (B.notSeq d) []
  | arrLong {n t os l} : os.length < l.length →
      Blames B E (.arr n t) (.seq os) (.arr l)
        (txt "sequence size is greater than declared range field count") []
  | arrItem {n t os l i o w ls} : l.length ≤ os.length →
      FirstAt (fun j o => ∃ v, deser B E t o (element l j) = .ok v) os i o →
      Blames B E t o (element l i) w ls → Blames B E (.arr n t) (.seq os) (.arr l) w (ls ++ [elementLine i])
  | mapShape {t o d} : (∀ ms, d ≠ .obj ms) → Blames B E (.map t) o d (B.notMap d) []
  | mapItem {t o ms i k d w ls} :
      FirstAt (fun _ m => ∃ v, deser B E t (fresh t) m.2 = .ok v) ms i (k, d) →
      Blames B E t (fresh t) d w ls → Blames B E (.map t) o (.obj ms) w (ls ++ [memberLine k])
  | tupleShape {b ts o d} : (∀ l, d ≠ .arr l) → Blames B E (.tuple b ts) o d (B.notSeq d) []
  | tupleLong {b ts o l} : (tyList ts).length < l.length → Blames B E (.tuple b ts) o (.arr l)
      (if b then txt "sequence size is greater than pair field count"
       else txt "sequence size is greater than declared tuple field count") []
  /-- No line tells the element of a tuple. -/
  | tupleItem {b ts os l i t o w ls} : l.length ≤ (tyList ts).length →
      FirstAt (fun j (p : Ty × Value) => ∃ v, deser B E p.1 p.2 (element l j) = .ok v)
        ((tyList ts).zip os) i (t, o) →
      Blames B E t o (element l i) w ls → Blames B E (.tuple b ts) (.seq os) (.arr l) w ls
  | recordShape {n fs o d} : (∀ ms, d ≠ .obj ms) → (∀ l, d ≠ .arr l) →
      Blames B E (.record n fs) o d (txt "type must be a sequence or map but is a " ++ B.typeName d)
        [typeLine n]
  | recordLong {n fs o l} : (fieldList fs).countP (fun p => !p.1.skipDeser) < l.length →
      Blames B E (.record n fs) o (.arr l)
        (txt "sequence size is greater than declared struct's field count") [typeLine n]
  | slotExtra {n fs os l j f t o} : l.length ≤ (fieldList fs).countP (fun p => !p.1.skipDeser) →
      FirstAt (fun j (p : (Field × Ty) × Value) =>
        ∃ v, SlotReads E (fun t o d v => deser B E t o d = .ok v) (element l (slot fs j)) p.1.1 p.1.2 p.2 v)
        ((fieldList fs).zip os) j ((f, t), o) →
      f.skipDeser = false → f.extra = true →
      Blames B E (.record n fs) (.record os) (.arr l)
        (txt "extra_fields fields are not supported in sequence deserialization")
        [elementLine (slot fs j), typeLine n]
  | slotFlatten {n fs os l j f t o} : l.length ≤ (fieldList fs).countP (fun p => !p.1.skipDeser) →
      FirstAt (fun j (p : (Field × Ty) × Value) =>
        ∃ v, SlotReads E (fun t o d v => deser B E t o d = .ok v) (element l (slot fs j)) p.1.1 p.1.2 p.2 v)
        ((fieldList fs).zip os) j ((f, t), o) →
      f.skipDeser = false → f.extra = false → f.flatten = true →
      Blames B E (.record n fs) (.record os) (.arr l)
        (txt "flatten fields are not supported in sequence deserialization")
        [elementLine (slot fs j), typeLine n]
  | slotRead {n fs os l j f t o w ls} : l.length ≤ (fieldList fs).countP (fun p => !p.1.skipDeser) →
      FirstAt (fun j (p : (Field × Ty) × Value) =>
        ∃ v, SlotReads E (fun t o d v => deser B E t o d = .ok v) (element l (slot fs j)) p.1.1 p.1.2 p.2 v)
        ((fieldList fs).zip os) j ((f, t), o) →
      plain f = true → Blames B E t o (element l (slot fs j)) w ls →
      Blames B E (.record n fs) (.record os) (.arr l) w (ls ++ [elementLine (slot fs j), typeLine n])
  | slotInvalid {n fs os l j f t o v w} : l.length ≤ (fieldList fs).countP (fun p => !p.1.skipDeser) →
      FirstAt (fun j (p : (Field × Ty) × Value) =>
        ∃ v, SlotReads E (fun t o d v => deser B E t o d = .ok v) (element l (slot fs j)) p.1.1 p.1.2 p.2 v)
        ((fieldList fs).zip os) j ((f, t), o) →
      plain f = true → deser B E t o (element l (slot fs j)) = .ok v → Invalid E f v w →
      Blames B E (.record n fs) (.record os) (.arr l) w [elementLine (slot fs j), typeLine n]
  | extra {n fs os ms j f u o i k d w ls} : NamesChecked fs →
      FirstAt (fun _ (p : (Field × Ty) × Value) =>
        ∃ v, FieldReads E (fun t o d v => deser B E t o d = .ok v) ms (allNames fs) p.1.1 p.1.2 p.2 v)
        ((fieldList fs).zip os) j ((f, .map u), o) →
      f.skipDeser = false → f.extra = true →
      k ∉ allNames fs →
      FirstAt (fun _ m => m.1 ∉ allNames fs → ∃ v, deser B E u (fresh u) m.2 = .ok v) ms i (k, d) →
      Blames B E u (fresh u) d w ls →
      Blames B E (.record n fs) (.record os) (.obj ms) w (ls ++ [extraLine k, typeLine n])
  | flatten {n fs os ms j f t o w ls} : NamesChecked fs →
      FirstAt (fun _ (p : (Field × Ty) × Value) =>
        ∃ v, FieldReads E (fun t o d v => deser B E t o d = .ok v) ms (allNames fs) p.1.1 p.1.2 p.2 v)
        ((fieldList fs).zip os) j ((f, t), o) →
      f.skipDeser = false → f.extra = false → f.flatten = true →
      Blames B E t o (.obj ms) w ls →
      Blames B E (.record n fs) (.record os) (.obj ms) w (ls ++ [memberLine f.name, typeLine n])
  | field {n fs os ms j f t o d w ls} : NamesChecked fs →
      FirstAt (fun _ (p : (Field × Ty) × Value) =>
        ∃ v, FieldReads E (fun t o d v => deser B E t o d = .ok v) ms (allNames fs) p.1.1 p.1.2 p.2 v)
        ((fieldList fs).zip os) j ((f, t), o) →
      plain f = true → Consulted ms f d → Blames B E t o d w ls →
      Blames B E (.record n fs) (.record os) (.obj ms) w (ls ++ [memberLine f.name, typeLine n])
  | fieldInvalid {n fs os ms j f t o d v w} : NamesChecked fs →
      FirstAt (fun _ (p : (Field × Ty) × Value) =>
        ∃ v, FieldReads E (fun t o d v => deser B E t o d = .ok v) ms (allNames fs) p.1.1 p.1.2 p.2 v)
        ((fieldList fs).zip os) j ((f, t), o) →
      plain f = true → Consulted ms f d → deser B E t o d = .ok v → Invalid E f v w →
      Blames B E (.record n fs) (.record os) (.obj ms) w [memberLine f.name, typeLine n]

end Spec

open Spec

variable {σ : Type}

theorem text_snoc {base : Str} {ls : List Str} {l : Str} :
    text base (ls ++ [l]) = text base ls ++ [0x0A#8] ++ l := by
  simp [text]

theorem text_snoc2 {base : Str} {ls : List Str} {l m : Str} :
    text base (ls ++ [l, m]) = text base ls ++ [0x0A#8] ++ l ++ [0x0A#8] ++ m := by
  simp [text]

theorem firstAt_nil {α : Type} {ok : Nat → α → Prop} {i : Nat} {x : α} : ¬ FirstAt ok [] i x := by
  simp [FirstAt]

theorem firstAt_cons {α : Type} {ok : Nat → α → Prop} {y : α} {l : List α} {i : Nat} {x : α} :
    FirstAt ok (y :: l) i x ↔ (i = 0 ∧ x = y) ∨
      ∃ k, i = k + 1 ∧ ok 0 y ∧ FirstAt (fun j => ok (j + 1)) l k x := by
  constructor
  · rintro ⟨h1, h2⟩
    cases i with
    | zero => left; simp at h1; exact ⟨rfl, h1.symm⟩
    | succ k =>
      right
      refine ⟨k, rfl, h2 0 y (by omega) rfl, by simpa using h1, ?_⟩
      intro j z hj hz
      exact h2 (j + 1) z (by omega) (by simpa using hz)
  · rintro (⟨rfl, rfl⟩ | ⟨k, rfl, h1, h2, h3⟩)
    · exact ⟨rfl, fun j y hj => absurd hj (by omega)⟩
    · refine ⟨by simpa using h2, ?_⟩
      intro j z hj hz
      cases j with
      | zero => simp at hz; exact hz ▸ h1
      | succ j => exact h3 j z (by omega) (by simpa using hz)

/-! ### Loops -/

theorem deserItems_err {f : Doc σ → Res Value} {e : Exc} : ∀ {l : List (Doc σ)} {i : Nat},
    deserItems f i l = .error e ↔ ∃ k d e', FirstAt (fun _ d => ∃ v, f d = .ok v) l k d ∧
      f d = .error e' ∧ e = e'.add (elementLine (i + k))
  | [], i => by simp [deserItems, firstAt_nil]
  | d :: l, i => by
    simp only [deserItems]
    cases hd : f d with
    | error e' =>
      simp only [note, Except.error.injEq]
      constructor
      · intro h; exact ⟨0, d, e', firstAt_cons.2 (.inl ⟨rfl, rfl⟩), hd, h.symm⟩
      · rintro ⟨k, d', e'', h1, h2, h3⟩
        rcases firstAt_cons.1 h1 with ⟨rfl, rfl⟩ | ⟨k, -, ⟨v, hv⟩, -⟩
        · rw [hd] at h2; cases h2; exact h3.symm
        · rw [hd] at hv; cases hv
    | ok v =>
      simp only [note, map_error]
      rw [deserItems_err]
      constructor
      · rintro ⟨k, d', e', h1, h2, rfl⟩
        exact ⟨k + 1, d', e', firstAt_cons.2 (.inr ⟨k, rfl, ⟨v, hd⟩, h1⟩), h2, by
          rw [show i + 1 + k = i + (k + 1) by omega]⟩
      · rintro ⟨k, d', e', h1, h2, rfl⟩
        rcases firstAt_cons.1 h1 with ⟨rfl, rfl⟩ | ⟨k, rfl, -, h3⟩
        · rw [hd] at h2; cases h2
        · exact ⟨k, d', e', h3, h2, by rw [show i + 1 + k = i + (k + 1) by omega]⟩

theorem elem_shift {l : List (Doc σ)} {i : Nat} (k : Nat) :
    element l (i + (k + 1)) = element l (i + 1 + k) := by
  rw [show i + (k + 1) = i + 1 + k by omega]

theorem deserFixed_err {f : Value → Doc σ → Res Value} {l : List (Doc σ)} {e : Exc} :
    ∀ {os : List Value} {i : Nat}, deserFixed f l i os = .error e ↔
    ∃ k o e', FirstAt (fun j o => ∃ v, f o (element l (i + j)) = .ok v) os k o ∧
      f o (element l (i + k)) = .error e' ∧ e = e'.add (elementLine (i + k))
  | [], i => by simp [deserFixed, firstAt_nil]
  | o :: os, i => by
    simp only [deserFixed]
    have hat : atIndex l i = element l i := rfl
    rw [hat]
    cases hd : f o (element l i) with
    | error e' =>
      simp only [note, Except.error.injEq]
      constructor
      · intro h; exact ⟨0, o, e', firstAt_cons.2 (.inl ⟨rfl, rfl⟩), hd, h.symm⟩
      · rintro ⟨k, d', e'', h1, h2, h3⟩
        rcases firstAt_cons.1 h1 with ⟨rfl, rfl⟩ | ⟨k, -, ⟨v, hv⟩, -⟩
        · simp only [Nat.add_zero] at h2 h3
          rw [hd] at h2; cases h2; exact h3.symm
        · simp only [Nat.add_zero] at hv
          rw [hd] at hv; cases hv
    | ok v =>
      simp only [note, map_error]
      rw [deserFixed_err]
      constructor
      · rintro ⟨k, d', e', h1, h2, rfl⟩
        refine ⟨k + 1, d', e', firstAt_cons.2 (.inr ⟨k, rfl, ⟨v, hd⟩, ?_⟩), ?_, ?_⟩
        · simpa only [elem_shift] using h1
        · rw [show i + (k + 1) = i + 1 + k by omega]; exact h2
        · rw [show i + (k + 1) = i + 1 + k by omega]
      · rintro ⟨k, d', e', h1, h2, rfl⟩
        rcases firstAt_cons.1 h1 with ⟨rfl, rfl⟩ | ⟨k, rfl, -, h3⟩
        · simp only [Nat.add_zero] at h2
          rw [hd] at h2; cases h2
        · simp only [elem_shift] at h3 h2
          exact ⟨k, d', e', h3, h2, by rw [show i + 1 + k = i + (k + 1) by omega]⟩

theorem deserEntries_err {f : Doc σ → Res Value} {e : Exc} : ∀ {ms : List (Str × Doc σ)}
    {out : List (Str × Value)}, deserEntries f ms out = .error e ↔
    ∃ i k d e', FirstAt (fun _ m => ∃ v, f m.2 = .ok v) ms i (k, d) ∧ f d = .error e' ∧
      e = e'.add (memberLine k)
  | [], out => by simp [deserEntries, firstAt_nil]
  | (k, d) :: ms, out => by
    simp only [deserEntries]
    cases hd : f d with
    | error e' =>
      simp only [note, Except.error.injEq]
      constructor
      · intro h; exact ⟨0, k, d, e', firstAt_cons.2 (.inl ⟨rfl, rfl⟩), hd, h.symm⟩
      · rintro ⟨i, k', d', e'', h1, h2, h3⟩
        rcases firstAt_cons.1 h1 with ⟨rfl, h4⟩ | ⟨i, -, ⟨v, hv⟩, -⟩
        · cases h4; rw [hd] at h2; cases h2; exact h3.symm
        · rw [hd] at hv; cases hv
    | ok v =>
      simp only [note]
      rw [deserEntries_err]
      constructor
      · rintro ⟨i, k', d', e', h1, h2, rfl⟩
        exact ⟨i + 1, k', d', e', firstAt_cons.2 (.inr ⟨i, rfl, ⟨v, hd⟩, h1⟩), h2, rfl⟩
      · rintro ⟨i, k', d', e', h1, h2, rfl⟩
        rcases firstAt_cons.1 h1 with ⟨rfl, h4⟩ | ⟨i, rfl, -, h3⟩
        · cases h4; rw [hd] at h2; cases h2
        · exact ⟨i, k', d', e', h3, h2, rfl⟩

theorem deserExtraEntries_err {f : Doc σ → Res Value} {r : List Str} {e : Exc} :
    ∀ {ms : List (Str × Doc σ)} {out : List (Str × Value)}, deserExtraEntries f r ms out = .error e ↔
    ∃ i k d e', FirstAt (fun _ m => m.1 ∉ r → ∃ v, f m.2 = .ok v) ms i (k, d) ∧ k ∉ r ∧
      f d = .error e' ∧ e = e'.add (extraLine k)
  | [], out => by simp [deserExtraEntries, firstAt_nil]
  | (k, d) :: ms, out => by
    simp only [deserExtraEntries]
    by_cases hk : k ∈ r
    · rw [if_pos (by simpa using hk), deserExtraEntries_err]
      constructor
      · rintro ⟨i, k', d', e', h1, h2, h3, rfl⟩
        exact ⟨i + 1, k', d', e', firstAt_cons.2 (.inr ⟨i, rfl, fun h => absurd hk h, h1⟩), h2, h3, rfl⟩
      · rintro ⟨i, k', d', e', h1, h2, h3, rfl⟩
        rcases firstAt_cons.1 h1 with ⟨rfl, h4⟩ | ⟨i, rfl, -, h3'⟩
        · cases h4; exact absurd hk h2
        · exact ⟨i, k', d', e', h3', h2, h3, rfl⟩
    rw [if_neg (by simpa using hk)]
    cases hd : f d with
    | error e' =>
      simp only [note, Except.error.injEq]
      constructor
      · intro h; exact ⟨0, k, d, e', firstAt_cons.2 (.inl ⟨rfl, rfl⟩), hk, hd, h.symm⟩
      · rintro ⟨i, k', d', e'', h1, h2', h2, h3⟩
        rcases firstAt_cons.1 h1 with ⟨rfl, h4⟩ | ⟨i, -, hv, -⟩
        · cases h4; rw [hd] at h2; cases h2; exact h3.symm
        · obtain ⟨v, hv⟩ := hv hk
          rw [hd] at hv; cases hv
    | ok v =>
      simp only [note]
      rw [deserExtraEntries_err]
      constructor
      · rintro ⟨i, k', d', e', h1, h2', h2, rfl⟩
        exact ⟨i + 1, k', d', e', firstAt_cons.2 (.inr ⟨i, rfl, fun _ => ⟨v, hd⟩, h1⟩), h2', h2, rfl⟩
      · rintro ⟨i, k', d', e', h1, h2', h2, rfl⟩
        rcases firstAt_cons.1 h1 with ⟨rfl, h4⟩ | ⟨i, rfl, -, h3⟩
        · cases h4; rw [hd] at h2; cases h2
        · exact ⟨i, k', d', e', h3, h2', h2, rfl⟩

theorem deserSet_err {B : Backend σ} {e : EnumTy} {x : Exc} : ∀ {l : List (Doc σ)}
    {s : EnumSet e.under.signed e.under.w}, deserSet B e l s = .error x ↔
    ∃ i d, FirstAt (fun _ d => ∃ n, deserEnum B e d = .ok n) l i d ∧ deserEnum B e d = .error x
  | [], s => by simp [deserSet, firstAt_nil]
  | d :: l, s => by
    simp only [deserSet]
    cases hd : deserEnum B e d with
    | error e' =>
      simp only [Except.error.injEq]
      constructor
      · rintro rfl; exact ⟨0, d, firstAt_cons.2 (.inl ⟨rfl, rfl⟩), hd⟩
      · rintro ⟨k, d', h1, h2⟩
        rcases firstAt_cons.1 h1 with ⟨rfl, rfl⟩ | ⟨k, -, ⟨v, hv⟩, -⟩
        · rw [hd] at h2; cases h2; rfl
        · rw [hd] at hv; cases hv
    | ok v =>
      simp only
      rw [deserSet_err]
      constructor
      · rintro ⟨k, d', h1, h2⟩
        exact ⟨k + 1, d', firstAt_cons.2 (.inr ⟨k, rfl, ⟨v, hd⟩, h1⟩), h2⟩
      · rintro ⟨k, d', h1, h2⟩
        rcases firstAt_cons.1 h1 with ⟨rfl, rfl⟩ | ⟨k, rfl, -, h3⟩
        · rw [hd] at h2; cases h2
        · exact ⟨k, d', h3, h2⟩

theorem tysLength : ∀ ts : Tys, ts.length = (tyList ts).length
  | .nil => rfl
  | .cons t ts => by simp [Tys.length, tyList, tysLength ts]

theorem deserTuple_err {B : Backend σ} {E : Env} {l : List (Doc σ)} {e : Exc} : ∀ {ts : Tys} {i : Nat}
    {os : List Value}, (tyList ts).length = os.length → (deserTuple B E l ts i os = .error e ↔
    ∃ k t o, FirstAt (fun j (p : Ty × Value) => ∃ v, deser B E p.1 p.2 (element l (i + j)) = .ok v)
        ((tyList ts).zip os) k (t, o) ∧ deser B E t o (element l (i + k)) = .error e)
  | .nil, i, os, h => by
    cases os with
    | nil => simp [deserTuple, tyList, firstAt_nil]
    | cons o os => simp [tyList] at h
  | .cons t ts, i, os, h => by
    cases os with
    | nil => simp [tyList] at h
    | cons o os =>
      simp only [deserTuple, tyList, List.zip_cons_cons]
      have hat : atIndex l i = element l i := rfl
      rw [hat]
      cases hd : deser B E t o (element l i) with
      | error e' =>
        simp only [Except.error.injEq]
        constructor
        · rintro rfl; exact ⟨0, t, o, firstAt_cons.2 (.inl ⟨rfl, rfl⟩), hd⟩
        · rintro ⟨k, t', o', h1, h2⟩
          rcases firstAt_cons.1 h1 with ⟨rfl, h4⟩ | ⟨k, -, ⟨v, hv⟩, -⟩
          · cases h4
            simp only [Nat.add_zero] at h2
            rw [hd] at h2; cases h2; rfl
          · simp only [Nat.add_zero] at hv
            rw [hd] at hv; cases hv
      | ok v =>
        simp only [map_error]
        rw [deserTuple_err (by simpa [tyList] using h)]
        constructor
        · rintro ⟨k, t', o', h1, h2⟩
          refine ⟨k + 1, t', o', firstAt_cons.2 (.inr ⟨k, rfl, ⟨v, hd⟩, ?_⟩), ?_⟩
          · simpa only [elem_shift] using h1
          · rw [show i + (k + 1) = i + 1 + k by omega]; exact h2
        · rintro ⟨k, t', o', h1, h2⟩
          rcases firstAt_cons.1 h1 with ⟨rfl, h4⟩ | ⟨k, rfl, -, h3⟩
          · cases h4
            simp only [Nat.add_zero] at h2
            rw [hd] at h2; cases h2
          · simp only [elem_shift] at h3 h2
            exact ⟨k, t', o', h3, h2⟩

/-! ### Fields -/

/-- The step for a field of an object. -/
def fieldStep (B : Backend σ) (E : Env) (r : Option (List Str)) (ms : List (Str × Doc σ)) (f : Field) (t : Ty)
    (o : Value) : Res Value :=
  if f.skipDeser then .ok o
  else if f.extra then deserExtras B E r ms t
  else note (fieldMsg f)
    (if f.flatten then deser B E t o (.obj ms) else readPlain E f ms o (deser B E t o))

theorem deserFields_err {B : Backend σ} {E : Env} {r : Option (List Str)} {ms : List (Str × Doc σ)} {e : Exc} :
    ∀ {fs : Fields} {os : List Value}, (fieldList fs).length = os.length →
    (deserFields B E r ms fs os = .error e ↔
    ∃ k f t o, FirstAt (fun _ (p : (Field × Ty) × Value) => ∃ v, fieldStep B E r ms p.1.1 p.1.2 p.2 = .ok v)
        ((fieldList fs).zip os) k ((f, t), o) ∧ fieldStep B E r ms f t o = .error e)
  | .nil, os, h => by
    cases os with
    | nil => simp [deserFields, fieldList, firstAt_nil]
    | cons o os => simp [fieldList] at h
  | .cons f t fs, os, h => by
    cases os with
    | nil => simp [fieldList] at h
    | cons o os =>
      simp only [deserFields, fieldList, List.zip_cons_cons]
      have hstep : (if f.skipDeser then .ok o
        else if f.extra then deserExtras B E r ms t
        else
          note (fieldMsg f)
            (if f.flatten then deser B E t o (.obj ms)
            else readPlain E f ms o (deser B E t o)) : Res Value) = fieldStep B E r ms f t o := rfl
      rw [hstep]
      cases hd : fieldStep B E r ms f t o with
      | error e' =>
        simp only [Except.error.injEq]
        constructor
        · rintro rfl; exact ⟨0, f, t, o, firstAt_cons.2 (.inl ⟨rfl, rfl⟩), hd⟩
        · rintro ⟨k, f', t', o', h1, h2⟩
          rcases firstAt_cons.1 h1 with ⟨rfl, h4⟩ | ⟨k, -, ⟨v, hv⟩, -⟩
          · cases h4
            rw [hd] at h2; cases h2; rfl
          · rw [hd] at hv; cases hv
      | ok v =>
        simp only [map_error]
        rw [deserFields_err (by simpa [fieldList] using h)]
        constructor
        · rintro ⟨k, f', t', o', h1, h2⟩
          exact ⟨k + 1, f', t', o', firstAt_cons.2 (.inr ⟨k, rfl, ⟨v, hd⟩, h1⟩), h2⟩
        · rintro ⟨k, f', t', o', h1, h2⟩
          rcases firstAt_cons.1 h1 with ⟨rfl, h4⟩ | ⟨k, rfl, -, h3⟩
          · cases h4
            rw [hd] at h2; cases h2
          · exact ⟨k, f', t', o', h3, h2⟩

/-- The step for a field from a sequence. -/
def slotStep (B : Backend σ) (E : Env) (d : Doc σ) (f : Field) (t : Ty) (o : Value) : Res Value :=
  if f.skipDeser then .ok o
  else if f.extra then
    .error (.deser (txt "extra_fields fields are not supported in sequence deserialization"))
  else if f.flatten then
    .error (.deser (txt "flatten fields are not supported in sequence deserialization"))
  else thenValidate E f (deser B E t o d)

theorem slotStep_ok {B : Backend σ} {E : Env} {d : Doc σ} {f : Field} {t : Ty} {o v : Value} :
    slotStep B E d f t o = .ok v ↔ SlotReads E (fun t o d v => deser B E t o d = .ok v) d f t o v := by
  unfold slotStep SlotReads
  cases f.skipDeser with
  | true => simp; exact eq_comm
  | false =>
    cases f.extra with
    | true => simp
    | false =>
      cases f.flatten with
      | true => simp
      | false => simp [thenValidate_ok]

theorem deserSeqFields_err {B : Backend σ} {E : Env} {l : List (Doc σ)} {e : Exc} :
    ∀ {fs : Fields} {i : Nat} {os : List Value}, (fieldList fs).length = os.length →
    (deserSeqFields B E l fs i os = .error e ↔
    ∃ k f t o e', FirstAt (fun j (p : (Field × Ty) × Value) =>
          ∃ v, slotStep B E (element l (i + slot fs j)) p.1.1 p.1.2 p.2 = .ok v)
        ((fieldList fs).zip os) k ((f, t), o) ∧ slotStep B E (element l (i + slot fs k)) f t o = .error e' ∧
      e = e'.add (elementLine (i + slot fs k)))
  | .nil, i, os, h => by
    cases os with
    | nil => simp [deserSeqFields, fieldList, firstAt_nil]
    | cons o os => simp [fieldList] at h
  | .cons f t fs, i, os, h => by
    cases os with
    | nil => simp [fieldList] at h
    | cons o os =>
      have hlen : (fieldList fs).length = os.length := by simpa [fieldList] using h
      have h0 : slot (.cons f t fs) 0 = 0 := rfl
      have shift : ∀ (c : Nat), c = (if f.skipDeser then 0 else 1) →
          (∃ v, slotStep B E (element l i) f t o = .ok v) →
          (deserSeqFields B E l fs (i + c) os = .error e ↔
          ∃ k f' t' o' e', FirstAt (fun j (p : (Field × Ty) × Value) =>
            ∃ v, slotStep B E (element l (i + slot (.cons f t fs) j)) p.1.1 p.1.2 p.2 = .ok v)
            ((fieldList (.cons f t fs)).zip (o :: os)) k ((f', t'), o') ∧
            slotStep B E (element l (i + slot (.cons f t fs) k)) f' t' o' = .error e' ∧
            e = e'.add (elementLine (i + slot (.cons f t fs) k))) := by
        rintro c hc ⟨v, hv⟩
        rw [deserSeqFields_err hlen]
        have hsl : ∀ k, i + slot (.cons f t fs) (k + 1) = i + c + slot fs k := by
          intro k; rw [slot_cons, ← hc]; omega
        simp only [fieldList, List.zip_cons_cons]
        constructor
        · rintro ⟨k, f', t', o', e', h1, h2, h3⟩
          refine ⟨k + 1, f', t', o', e', firstAt_cons.2 (.inr ⟨k, rfl, ⟨v, by simpa [h0] using hv⟩, ?_⟩), ?_, ?_⟩
          · simpa only [hsl] using h1
          · rw [hsl]; exact h2
          · rw [hsl]; exact h3
        · rintro ⟨k, f', t', o', e', h1, h2, h3⟩
          rcases firstAt_cons.1 h1 with ⟨rfl, h4⟩ | ⟨k, rfl, -, h5⟩
          · cases h4
            rw [h0, Nat.add_zero, hv] at h2; cases h2
          · simp only [hsl] at h5 h2 h3
            exact ⟨k, f', t', o', e', h5, h2, h3⟩
      by_cases hs : f.skipDeser = true
      · have : deserSeqFields B E l (.cons f t fs) i (o :: os) = .error e ↔
            deserSeqFields B E l fs (i + 0) os = .error e := by
          simp only [deserSeqFields, if_pos hs, map_error, Nat.add_zero]
        rw [this]
        exact shift 0 (by simp [hs]) ⟨o, by simp [slotStep, hs]⟩
      · have hstep : (if f.extra then
            .error (.deser (txt "extra_fields fields are not supported in sequence deserialization"))
          else if f.flatten then
            .error (.deser (txt "flatten fields are not supported in sequence deserialization"))
          else thenValidate E f (deser B E t o (atIndex l i)) : Res Value) =
            slotStep B E (element l i) f t o := by
          unfold slotStep
          rw [if_neg hs]
          rfl
        simp only [deserSeqFields, if_neg hs, hstep]
        cases hd : slotStep B E (element l i) f t o with
        | ok v =>
          simp only [note, map_error]
          exact shift 1 (by simp [hs]) ⟨v, hd⟩
        | error e' =>
          simp only [note, Except.error.injEq, fieldList, List.zip_cons_cons]
          constructor
          · rintro rfl
            exact ⟨0, f, t, o, e', firstAt_cons.2 (.inl ⟨rfl, rfl⟩), by rw [h0, Nat.add_zero]; exact hd,
              by rw [h0, Nat.add_zero]; rfl⟩
          · rintro ⟨k, f', t', o', e'', h1, h2, h3⟩
            rcases firstAt_cons.1 h1 with ⟨rfl, h4⟩ | ⟨k, -, ⟨v, hv⟩, -⟩
            · cases h4
              rw [h0, Nat.add_zero] at h2 h3
              rw [hd] at h2; cases h2; exact h3.symm
            · rw [h0, Nat.add_zero] at hv
              simp only at hv
              rw [hd] at hv; cases hv

/-! ### Validators -/

theorem runValidator_err {E : Env} {v : Value} {x : Validator} {w : Str} :
    runValidator E v x = .error (.deser w) ↔ Rejects E v x w := by
  have lt : ∀ lo, AtLeast lo v ↔ valueLt v lo = false := by
    intro lo
    unfold valueLt AtLeast
    split <;> simp
  have gt : ∀ hi, AtMost hi v ↔ valueGt v hi = false := by
    intro hi
    unfold valueGt AtMost
    split <;> simp
  cases x with
  | range lo hi =>
    simp only [runValidator, Rejects, lt, gt]
    cases valueLt v lo <;> cases valueGt v hi <;> simp [eq_comm]
  | ge lo =>
    simp only [runValidator, Rejects, lt]
    cases valueLt v lo <;> simp [eq_comm]
  | le hi =>
    simp only [runValidator, Rejects, gt]
    cases valueGt v hi <;> simp [eq_comm]
  | user id => simp [runValidator, Rejects]

theorem validateField_err {E : Env} {v : Value} {w : Str} : ∀ {xs : List Validator},
    validateField E v xs = .error (.deser w) ↔
      ∃ i x, FirstAt (fun _ y => Meets E v y) xs i x ∧ Rejects E v x w
  | [] => by simp [validateField, firstAt_nil]
  | x :: xs => by
    simp only [validateField]
    cases h : runValidator E v x with
    | error e =>
      have hm : ¬ Meets E v x := by rw [← runValidator_ok, h]; simp
      simp only [Except.error.injEq]
      constructor
      · rintro rfl; exact ⟨0, x, firstAt_cons.2 (.inl ⟨rfl, rfl⟩), runValidator_err.1 h⟩
      · rintro ⟨i, y, h1, h2⟩
        rcases firstAt_cons.1 h1 with ⟨rfl, rfl⟩ | ⟨k, -, h3, -⟩
        · rw [runValidator_err.2 h2] at h; cases h; rfl
        · exact absurd h3 hm
    | ok u =>
      have hm : Meets E v x := by rw [← runValidator_ok, h]
      simp only
      rw [validateField_err]
      constructor
      · rintro ⟨i, y, h1, h2⟩
        exact ⟨i + 1, y, firstAt_cons.2 (.inr ⟨i, rfl, hm, h1⟩), h2⟩
      · rintro ⟨i, y, h1, h2⟩
        rcases firstAt_cons.1 h1 with ⟨rfl, rfl⟩ | ⟨k, rfl, -, h3⟩
        · rw [runValidator_err.2 h2] at h; cases h
        · exact ⟨k, y, h3, h2⟩

theorem thenValidate_err {E : Env} {f : Field} {r : Res Value} {w : Str} :
    thenValidate E f r = .error (.deser w) ↔ r = .error (.deser w) ∨ ∃ v, r = .ok v ∧ Invalid E f v w := by
  unfold thenValidate Invalid
  cases r with
  | error e => simp
  | ok v =>
    simp only [reduceCtorEq, Except.ok.injEq, exists_eq_left', false_or]
    rw [← validateField_err]
    cases validateField E v f.validators <;> simp

theorem readPlain_err {E : Env} {f : Field} {ms : List (Str × Doc σ)} {o : Value} {p : Doc σ → Res Value}
    {w : Str} : readPlain E f ms o p = .error (.deser w) ↔
    ∃ d, Consulted ms f d ∧ (p d = .error (.deser w) ∨ ∃ v, p d = .ok v ∧ Invalid E f v w) := by
  unfold readPlain
  rcases missing_or ms f with ⟨n, hn, hrf⟩ | ⟨hn, hm⟩
  rotate_left
  · rw [hn]
    simp only
    have hnull : atField ms f.key = .null := atField_none (hm f.key (by simp))
    have huniq : ∀ d, Consulted ms f d ↔ d = .null ∧ f.defaults = [] ∧ f.allowMissing = false := by
      intro d
      constructor
      · rintro (⟨h1, -⟩ | ⟨-, h⟩)
        · exact absurd hm (Spec.Picks.not_none h1)
        · exact h
      · intro h; exact .inr ⟨hm, h⟩
    simp only [huniq]
    unfold missingPolicy applyDefault
    cases hd : f.defaults.head? with
    | some v =>
      simp only [reduceCtorEq, false_iff]
      rintro ⟨d, ⟨-, h, -⟩, -⟩
      rw [h] at hd; cases hd
    | none =>
      rw [head?_none] at hd
      cases ha : f.allowMissing with
      | true => simp
      | false =>
        simp only [Bool.false_eq_true, if_false, hd, and_true, hnull, exists_eq_left]
        exact thenValidate_err
  · rw [hn]
    simp only
    generalize atField ms n = d at hrf ⊢
    have huniq : ∀ d', Consulted ms f d' ↔ d' = d ∧ (d ≠ .null ∨ f.defaults = []) := by
      intro d'
      constructor
      · rintro (⟨h1, h2⟩ | ⟨h1, -⟩)
        · have := Spec.Picks.unique h1 hrf
          subst this
          exact ⟨rfl, h2⟩
        · exact absurd h1 (Spec.Picks.not_none hrf)
      · rintro ⟨rfl, h⟩; exact .inl ⟨hrf, h⟩
    simp only [huniq]
    unfold applyDefault
    by_cases hnl : d.isNull = true
    · rw [if_pos hnl]
      have hd := isNull_iff.1 hnl
      cases hh : f.defaults.head? with
      | some v =>
        have : f.defaults ≠ [] := by rintro h; rw [h] at hh; cases hh
        simp only [reduceCtorEq, false_iff]
        rintro ⟨d', ⟨-, h⟩, -⟩
        rcases h with h | h
        · exact h hd
        · exact this h
      | none =>
        rw [head?_none] at hh
        simp only [hh, or_true, and_true, exists_eq_left]
        exact thenValidate_err
    · rw [if_neg hnl]
      have hd : d ≠ .null := fun h => hnl (isNull_iff.2 h)
      simp only [hd, ne_eq, not_false_eq_true, true_or, and_true, exists_eq_left]
      exact thenValidate_err

end Verif.Serial
