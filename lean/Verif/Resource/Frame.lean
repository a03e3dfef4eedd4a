import Verif.Resource.Paths
import Verif.Resource.Access
/-
Replacing the node at one path: the new node is found there, and other paths lead where they
led before.
-/
namespace Verif.Resource
open Verif.Path Verif.Path.Spec Verif.Resource.Spec

/-! ### Spelling of indices -/

theorem decimal_lt {s : Seg} (h : ∀ c ∈ s, digit c) : decimal s < 10 ^ s.length := by
  induction s with
  | nil => simp [decimal]
  | cons c s ih =>
    have h1 := ih (fun c hc => h c (by simp [hc]))
    have h2 := (h c (by simp)).2
    simp only [decimal, List.length_cons, Nat.pow_succ]
    have : (c.toNat - 48) * 10 ^ s.length ≤ 9 * 10 ^ s.length := Nat.mul_le_mul_right _ (by omega)
    generalize (c.toNat - 48) * 10 ^ s.length = A at *
    generalize 10 ^ s.length = B at *
    omega

theorem decimal_inj_len {s s' : Seg} (hl : s.length = s'.length) (h : ∀ c ∈ s, digit c)
    (h' : ∀ c ∈ s', digit c) (he : decimal s = decimal s') : s = s' := by
  induction s generalizing s' with
  | nil => cases s' with
    | nil => rfl
    | cons _ _ => simp at hl
  | cons c s ih =>
    cases s' with
    | nil => simp at hl
    | cons c' s' =>
      simp only [List.length_cons, Nat.add_right_cancel_iff] at hl
      have hs : ∀ c ∈ s, digit c := fun c hc => h c (by simp [hc])
      have hs' : ∀ c ∈ s', digit c := fun c hc => h' c (by simp [hc])
      have l1 := decimal_lt hs
      have l2 := decimal_lt hs'
      simp only [decimal, ← hl] at he
      rw [← hl] at l2
      have hd : c.toNat - 48 = c'.toNat - 48 := by
        rcases Nat.lt_trichotomy (c.toNat - 48) (c'.toNat - 48) with hlt | heq | hgt
        · have := Nat.mul_le_mul_right (10 ^ s.length) (Nat.succ_le_of_lt hlt)
          rw [Nat.succ_mul] at this
          generalize (c.toNat - 48) * 10 ^ s.length = A at *
          generalize (c'.toNat - 48) * 10 ^ s.length = B at *
          omega
        · exact heq
        · have := Nat.mul_le_mul_right (10 ^ s.length) (Nat.succ_le_of_lt hgt)
          rw [Nat.succ_mul] at this
          generalize (c.toNat - 48) * 10 ^ s.length = A at *
          generalize (c'.toNat - 48) * 10 ^ s.length = B at *
          omega
      have hc := h c (by simp)
      have hc' := h' c' (by simp)
      have e1 : c.toNat = c'.toNat := by have := hc.1; have := hc'.1; omega
      have e2 : c = c' := BitVec.eq_of_toNat_eq e1
      rw [hd] at he
      have := ih hl hs hs' (by omega)
      rw [e2, this]

theorem decimal_ge {s : Seg} (hc : Canonical s) (hd : ∀ c ∈ s, digit c) (hl : 2 ≤ s.length) :
    10 ^ (s.length - 1) ≤ decimal s := by
  match s, hl with
  | c :: d :: cs, _ =>
    have h1 : c.toNat ≠ 48 := by
      intro h
      have : c = 0x30#8 := BitVec.eq_of_toNat_eq (by simpa using h)
      exact hc d cs (by rw [this]) hd
    have h2 := (hd c (by simp)).1
    have : 1 * 10 ^ (d :: cs).length ≤ (c.toNat - 48) * 10 ^ (d :: cs).length :=
      Nat.mul_le_mul_right _ (by omega)
    simp only [Nat.one_mul] at this
    rw [decimal]
    simp only [List.length_cons, Nat.add_sub_cancel] at this ⊢
    omega

theorem index_inj {s s' : Seg} {i : Nat} (h : IndexText s i) (h' : IndexText s' i) (hc : Canonical s)
    (hc' : Canonical s') : s = s' := by
  obtain ⟨hne, hd, he, _⟩ := h
  obtain ⟨hne', hd', he', _⟩ := h'
  refine decimal_inj_len ?_ hd hd' (by rw [he, he'])
  have key : ∀ a b : Seg, a ≠ [] → (∀ c ∈ a, digit c) → (∀ c ∈ b, digit c) → Canonical b →
      decimal a = decimal b → ¬ a.length < b.length := by
    intro a b hna ha hb hcb hab hlt
    have h1 := decimal_lt ha
    have : 0 < a.length := List.length_pos_iff.2 hna
    have h2 := decimal_ge hcb hb (by omega)
    have h3 : 10 ^ a.length ≤ 10 ^ (b.length - 1) := Nat.pow_le_pow_right (by omega) (by omega)
    omega
  have h1 := key s s' hne hd hd' hc' (by rw [he, he'])
  have h2 := key s' s hne' hd' hd hc (by rw [he, he'])
  omega

/-! ### Replacing preserves types -/

theorem hasTys_set {fs : Fields} {pre post : List Value} {x x' : Value} {a : Attrs} {t : Ty}
    (h : HasTys fs (pre ++ x :: post)) (hi : (fieldList fs)[pre.length]? = some (a, t))
    (hx : HasTy t x') : HasTys fs (pre ++ x' :: post) := by
  induction pre generalizing fs with
  | nil =>
    cases fs with
    | nil => simp [HasTys] at h
    | cons b u fs =>
      simp [fieldList] at hi
      obtain ⟨rfl, rfl⟩ := hi
      simp only [List.nil_append, HasTys] at h ⊢
      exact ⟨hx, h.2⟩
  | cons y pre ih =>
    cases fs with
    | nil => simp [HasTys] at h
    | cons b u fs =>
      simp only [List.cons_append, HasTys] at h ⊢
      exact ⟨h.1, ih h.2 (by simpa [fieldList] using hi)⟩

theorem other_kid {α : Type} {pre post : List α} {x x' : α} {j : Nat} (h : j ≠ pre.length) :
    (pre ++ x :: post)[j]? = (pre ++ x' :: post)[j]? := by
  rcases Nat.lt_or_ge j pre.length with hlt | hge
  · rw [List.getElem?_append_left hlt, List.getElem?_append_left hlt]
  · rw [List.getElem?_append_right hge, List.getElem?_append_right hge]
    obtain ⟨m, hm⟩ : ∃ m, j - pre.length = m + 1 := ⟨j - pre.length - 1, by omega⟩
    rw [hm]; rfl

theorem same_kid {α : Type} {pre post : List α} {x : α} : (pre ++ x :: post)[pre.length]? = some x := by
  simp

theorem kid_of {α : Type} {pre post : List α} {x y : α} (h : (pre ++ x :: post)[pre.length]? = some y) :
    x = y := by simpa using h

theorem kidChanged_opt {x x' v w : Value} {i : Nat} (h : KidChanged x x' i (.opt (some v)) w) :
    x = v ∧ w = .opt (some x') := by
  generalize hu : Value.opt (some v) = u at h
  cases h <;> cases hu
  exact ⟨rfl, rfl⟩

theorem changed_typed {β : Type} {E : Env β} {ks : List Nat} {t : Ty} {v : Value} {path : List Str}
    {steps : List Step} {tp : Ty} {old : Value} (h : Leads E ks t v path steps tp old) :
    ∀ {new v' : Value}, HasTy t v → HasTy tp new → Changed old new (steps.map Step.pos) v v' → HasTy t v' := by
  induction h with
  | here =>
    intro new v' _ hn hc
    cases hc; exact hn
  | @field ks id fs vs i a t v path steps tp old h1 h2 h3 h4 ih =>
    intro new v' hv hn hc
    simp only [List.map_cons, Step.pos] at hc
    cases hc with
    | kid hk hc =>
      cases hk with
      | record =>
        have := kid_of h3; subst this
        simp only [HasTy] at hv ⊢
        exact hasTys_set hv h1 (ih (hasTys_get hv h1 h3) hn hc)
  | @unwrap ks t v s path steps tp old h1 ih =>
    intro new v' hv hn hc
    simp only [List.map_cons, Step.pos] at hc
    cases hc with
    | kid hk hc =>
      obtain ⟨rfl, rfl⟩ := kidChanged_opt hk
      simp only [HasTy] at hv ⊢
      intro w hw; cases hw
      exact ih (hv _ rfl) hn hc
  | @entry ks er t es i s v path steps tp old h1 h2 ih =>
    intro new v' hv hn hc
    simp only [List.map_cons, Step.pos] at hc
    cases hc with
    | kid hk hc =>
      cases hk with
      | map =>
        have := kid_of h1; cases this
        simp only [HasTy] at hv ⊢
        refine ⟨by simpa using hv.1, ?_⟩
        intro e he
        rcases List.mem_append.1 he with he | he
        · exact hv.2 e (by simp [he])
        · rcases List.mem_cons.1 he with rfl | he
          · exact ih (hv.2 _ (List.mem_of_getElem? h1)) hn hc
          · exact hv.2 e (by simp [he])
  | @item k t vs i s v path steps tp old h1 h2 h3 h4 ih =>
    intro new v' hv hn hc
    simp only [List.map_cons, Step.pos] at hc
    cases hc with
    | kid hk hc =>
      cases hk with
      | seq =>
        have := kid_of h3; subst this
        simp only [HasTy] at hv ⊢
        intro e he
        rcases List.mem_append.1 he with he | he
        · exact hv e (by simp [he])
        · rcases List.mem_cons.1 he with rfl | he
          · exact ih (hv _ (List.mem_of_getElem? h3)) hn hc
          · exact hv e (by simp [he])
  | @child ks k t vs key i s v path steps tp old h1 h2 h3 ih =>
    intro new v' hv hn hc
    simp only [List.map_cons, Step.pos] at hc
    cases hc with
    | kid hk hc =>
      cases hk with
      | seq =>
        have := kid_of h2; subst this
        simp only [HasTy] at hv ⊢
        intro e he
        rcases List.mem_append.1 he with he | he
        · exact hv e (by simp [he])
        · rcases List.mem_cons.1 he with rfl | he
          · exact ih (hv _ (List.mem_of_getElem? h2)) hn hc
          · exact hv e (by simp [he])

/-! ### Keys are preserved -/

/-- The change does not touch the keys by which the path addressed children: no key member on
the way, and if the last step selects a child by key, the new child has the same key. -/
def KeepsKeys (steps : List Step) (old new : Value) : Prop :=
  (¬ ∃ pre key i a post, steps = pre ++ .child key i :: .field key a :: post) ∧
  ∀ key i, steps.getLast? = some (.child key i) → ∀ k, KeyOf key old k ↔ KeyOf key new k

theorem KeepsKeys.tail {s : Step} {steps : List Step} {old new : Value} (h : KeepsKeys (s :: steps) old new) :
    KeepsKeys steps old new := by
  refine ⟨?_, ?_⟩
  · rintro ⟨pre, key, i, a, post, rfl⟩
    exact h.1 ⟨s :: pre, key, i, a, post, rfl⟩
  · intro key i hl
    apply h.2 key i
    cases steps with
    | nil => simp at hl
    | cons s' ss => rwa [List.getLast?_cons_cons]

/-- The child keeps its key. -/
theorem key_kept {β : Type} {E : Env β} {ks : List Nat} {t : Ty} {x x' : Value} {path : List Str}
    {steps : List Step} {tp : Ty} {old new : Value} {key i : Nat}
    (h : Leads E ks t x path steps tp old) (hk : KeepsKeys (.child key i :: steps) old new)
    (hc : Changed old new (steps.map Step.pos) x x') (k : Value) : KeyOf key x k ↔ KeyOf key x' k := by
  cases h with
  | here =>
    cases hc
    exact hk.2 key i rfl k
  | @field _ id fs vs j a t v path steps _ _ h1 h2 h3 h4 =>
    simp only [List.map_cons, Step.pos] at hc
    cases hc with
    | kid hkid hc =>
      cases hkid with
      | @record pre post =>
        have hne : key ≠ pre.length := by
          intro e
          subst e
          exact hk.1 ⟨[], _, i, a, steps, rfl⟩
        have hget := fun x x' : Value => other_kid (post := post) (x := x) (x' := x') hne
        unfold KeyOf
        constructor
        · rintro ⟨vs, e, he⟩
          cases e
          exact ⟨_, rfl, by rw [← he]; exact hget _ _⟩
        · rintro ⟨vs, e, he⟩
          cases e
          exact ⟨_, rfl, by rw [← he]; exact hget _ _⟩
  | unwrap h1 =>
    simp only [List.map_cons, Step.pos] at hc
    cases hc with
    | kid hkid hc => obtain ⟨rfl, rfl⟩ := kidChanged_opt hkid; simp [KeyOf]
  | entry h1 h2 =>
    simp only [List.map_cons, Step.pos] at hc
    cases hc with
    | kid hkid hc => cases hkid; simp [KeyOf]
  | item _ _ h3 h4 =>
    simp only [List.map_cons, Step.pos] at hc
    cases hc with
    | kid hkid hc => cases hkid; simp [KeyOf]
  | child _ h2 h3 =>
    simp only [List.map_cons, Step.pos] at hc
    cases hc with
    | kid hkid hc => cases hkid; simp [KeyOf]

/-- Matching by a key that no element changes. -/
theorem matches_same {β : Type} {E : Env β} (hE : Lawful E) {t : Ty} {pre post : List Value} {x x' : Value}
    {s : Seg} {key : Nat} (hk : ∀ k, KeyOf key x k ↔ KeyOf key x' k) (j : Nat) :
    MatchesAt E t (pre ++ x :: post) s key j ↔ MatchesAt E t (pre ++ x' :: post) s key j := by
  unfold MatchesAt
  by_cases hj : j = pre.length
  · subst hj
    simp only [same_kid]
    constructor
    · rintro ⟨v, k, h1, h2, h3⟩
      cases h1
      exact ⟨x', k, rfl, (hk k).1 h2, by rw [hE.only_key t x' x]; exact h3⟩
    · rintro ⟨v, k, h1, h2, h3⟩
      cases h1
      exact ⟨x, k, rfl, (hk k).2 h2, by rw [hE.only_key t x x']; exact h3⟩
  · rw [other_kid hj]

theorem matches_other {β : Type} {E : Env β} {t : Ty} {pre post : List Value} {x x' : Value}
    {s : Seg} {key j : Nat} (hj : j ≠ pre.length) :
    MatchesAt E t (pre ++ x :: post) s key j ↔ MatchesAt E t (pre ++ x' :: post) s key j := by
  unfold MatchesAt
  rw [other_kid hj]

/-- If anything matches, something is selected. -/
theorem selects_exists {β : Type} {E : Env β} {t : Ty} {vs : List Value} {s : Seg} {ks : List Nat}
    (h : ∃ k ∈ ks, ∃ j, MatchesAt E t vs s k j) : ∃ k i, Selects E t vs s ks k i := by
  induction ks with
  | nil => obtain ⟨k, hk, _⟩ := h; simp at hk
  | cons k0 ks ih =>
    by_cases h0 : ∃ j, MatchesAt E t vs s k0 j
    · obtain ⟨j, hj⟩ := h0
      have : ∃ i, MatchesAt E t vs s k0 i ∧ ∀ j < i, ¬ MatchesAt E t vs s k0 j := by
        induction j using Nat.strongRecOn with
        | ind j ihj =>
          by_cases hx : ∃ j' < j, MatchesAt E t vs s k0 j'
          · obtain ⟨j', hlt, hm⟩ := hx
            exact ihj j' hlt hm
          · exact ⟨j, hj, fun j' hlt hm => hx ⟨j', hlt, hm⟩⟩
      obtain ⟨i, h1, h2⟩ := this
      exact ⟨k0, i, [], ks, rfl, by simp, h1, h2⟩
    · obtain ⟨k, hk, j, hj⟩ := h
      rcases List.mem_cons.1 hk with rfl | hk
      · exact absurd ⟨j, hj⟩ h0
      · obtain ⟨k', i, b, a, rfl, h1, h2⟩ := ih ⟨k, hk, j, hj⟩
        refine ⟨k', i, k0 :: b, a, rfl, ?_, h2⟩
        intro x hx
        rcases List.mem_cons.1 hx with rfl | hx
        · exact fun j hm => h0 ⟨j, hm⟩
        · exact h1 x hx

theorem selects_unique {β : Type} {E : Env β} {t : Ty} {vs : List Value} {s : Seg} {ks : List Nat}
    {k k' i i' : Nat} (h : Selects E t vs s ks k i) (h' : Selects E t vs s ks k' i') : k = k' ∧ i = i' := by
  obtain ⟨b, a, hks, hb, hmi, hf⟩ := h
  obtain ⟨b2, a2, hks2, hb2, hmi2, hf2⟩ := h'
  have hb' : k = k' := by
    rw [hks] at hks2
    rcases List.append_eq_append_iff.1 hks2 with ⟨c, e1, e2⟩ | ⟨c, e1, e2⟩
    · cases c with
      | nil => simp at e1 e2; exact e2.1
      | cons x c =>
        simp at e2
        exact absurd hmi (hb2 k (by rw [e1, e2.1]; simp) i)
    · cases c with
      | nil => simp at e1 e2; exact e2.1.symm
      | cons x c =>
        simp at e2
        exact absurd hmi2 (hb k' (by rw [e1, e2.1]; simp) i')
  subst hb'
  refine ⟨rfl, ?_⟩
  rcases Nat.lt_trichotomy i i' with h | h | h
  · exact absurd hmi (hf2 i h)
  · exact h
  · exact absurd hmi2 (hf i' h)

theorem oneKeys_get {fs : Fields} (h : oneKeys fs = true) {i : Nat} {a : Attrs} {t : Ty}
    (h1 : (fieldList fs)[i]? = some (a, t)) : a.childKeys.length ≤ 1 ∧ oneKey t = true := by
  match fs, i with
  | .nil, _ => simp [fieldList] at h1
  | .cons b u fs, 0 =>
    simp [fieldList] at h1
    simp only [oneKeys, Bool.and_eq_true, decide_eq_true_eq] at h
    obtain ⟨rfl, rfl⟩ := h1; exact h.1
  | .cons b u fs, i + 1 =>
    simp only [oneKeys, Bool.and_eq_true] at h
    exact oneKeys_get h.2 (i := i) (by simpa [fieldList] using h1)

/-- The node that replaced another is found where the old one was. -/
theorem leads_new {β : Type} {E : Env β} (hE : Lawful E) {ks : List Nat} {t : Ty} {v : Value} {path : List Str}
    {steps : List Step} {tp : Ty} {old : Value} (h : Leads E ks t v path steps tp old) :
    ∀ {new v' : Value}, KeepsKeys steps old new → Changed old new (steps.map Step.pos) v v' →
      ∃ steps', Leads E ks t v' path steps' tp new ∧ steps'.map Step.pos = steps.map Step.pos ∧
        (oneKey t = true → ks.length ≤ 1 → steps' = steps) := by
  induction h with
  | here =>
    intro new v' _ hc
    cases hc; exact ⟨[], .here, rfl, fun _ _ => rfl⟩
  | @field ks id fs vs i a t v path steps tp old h1 h2 h3 h4 ih =>
    intro new v' hk hc
    simp only [List.map_cons, Step.pos] at hc ⊢
    cases hc with
    | kid hkid hc =>
      cases hkid with
      | record =>
        have := kid_of h3; subst this
        obtain ⟨st, h5, h6, h7⟩ := ih hk.tail hc
        exact ⟨.field _ a :: st, .field h1 h2 same_kid h5, by simp [Step.pos, h6], fun ho _ => by
          simp only [oneKey] at ho
          rw [h7 (oneKeys_get ho h1).2 (oneKeys_get ho h1).1]⟩
  | @unwrap ks t v s path steps tp old h1 ih =>
    intro new v' hk hc
    simp only [List.map_cons, Step.pos] at hc ⊢
    cases hc with
    | kid hkid hc =>
      obtain ⟨rfl, rfl⟩ := kidChanged_opt hkid
      obtain ⟨st, h5, h6, h7⟩ := ih hk.tail hc
      exact ⟨.unwrap :: st, .unwrap h5, by simp [Step.pos, h6], fun ho _ => by
        simp only [oneKey] at ho
        rw [h7 ho (by simp)]⟩
  | @entry ks er t es i s v path steps tp old h1 h2 ih =>
    intro new v' hk hc
    simp only [List.map_cons, Step.pos] at hc ⊢
    cases hc with
    | kid hkid hc =>
      cases hkid with
      | map =>
        have := kid_of h1; cases this
        obtain ⟨st, h5, h6, h7⟩ := ih hk.tail hc
        exact ⟨.entry _ :: st, .entry same_kid h5, by simp [Step.pos, h6], fun ho _ => by
          simp only [oneKey] at ho
          rw [h7 ho (by simp)]⟩
  | @item k t vs i s v path steps tp old h1 h2 h3 h4 ih =>
    intro new v' hk hc
    simp only [List.map_cons, Step.pos] at hc ⊢
    cases hc with
    | kid hkid hc =>
      cases hkid with
      | seq =>
        have := kid_of h3; subst this
        obtain ⟨st, h5, h6, h7⟩ := ih hk.tail hc
        exact ⟨.item _ :: st, .item h1 h2 same_kid h5, by simp [Step.pos, h6], fun ho _ => by
          simp only [oneKey] at ho
          rw [h7 ho (by simp)]⟩
  | @child ks k t vs key i s v path steps tp old h1 h2 h3 ih =>
    intro new v' hk hc
    simp only [List.map_cons, Step.pos] at hc ⊢
    cases hc with
    | kid hkid hc =>
      cases hkid with
      | @seq pre post =>
        have := kid_of h2; subst this
        obtain ⟨st, h5, h6, h7⟩ := ih hk.tail hc
        have hkept := key_kept h3 hk hc
        obtain ⟨b, a, rfl, hb, hm, hf⟩ := h1
        have hm' := (matches_same hE hkept (t := t) (pre := pre) (post := post) (s := s) pre.length).1 hm
        obtain ⟨k2, i2, hs⟩ := selects_exists (E := E) (ks := b ++ key :: a) ⟨key, by simp, _, hm'⟩
        have hi2 : i2 = pre.length := by
          obtain ⟨b2, a2, e, hb2, hm2, hf2⟩ := hs
          rcases List.append_eq_append_iff.1 e with ⟨c, e1, e2⟩ | ⟨c, e1, e2⟩
          · cases c with
            | nil =>
              simp at e2
              rw [← e2.1] at hm2 hf2
              rcases Nat.lt_trichotomy i2 pre.length with h | h | h
              · exact absurd ((matches_same hE hkept _).2 hm2) (hf i2 h)
              · exact h
              · exact absurd hm' (hf2 _ h)
            | cons x c =>
              simp at e2
              exact absurd hm' (hb2 key (by rw [e1, e2.1]; simp) _)
          · cases c with
            | nil =>
              simp at e2
              rw [e2.1] at hm2 hf2
              rcases Nat.lt_trichotomy i2 pre.length with h | h | h
              · exact absurd ((matches_same hE hkept _).2 hm2) (hf i2 h)
              · exact h
              · exact absurd hm' (hf2 _ h)
            | cons x c =>
              simp at e2
              by_cases hj : i2 = pre.length
              · exact hj
              · exact absurd ((matches_other hj).2 hm2) (hb k2 (by rw [e1, e2.1]; simp) i2)
        subst hi2
        refine ⟨.child k2 _ :: st, .child hs same_kid h5, by simp [Step.pos, h6], fun ho hk1 => ?_⟩
        simp only [oneKey] at ho
        rw [h7 ho (by simp)]
        obtain ⟨b2, a2, e, _⟩ := hs
        simp only [List.length_append, List.length_cons] at hk1
        have e1 : b = [] := List.length_eq_zero_iff.1 (by omega)
        have e2 : a = [] := List.length_eq_zero_iff.1 (by omega)
        subst e1 e2
        cases b2 with
        | nil => simp at e; rw [e.1]
        | cons x b2 => simp at e

/-! ### Other paths -/

theorem field_unique {fs : Fields} {i j : Nat} {a b : Attrs} {t u : Ty}
    (h1 : (fieldList fs)[i]? = some (a, t))
    (h2 : ∀ k < i, ∀ b u, (fieldList fs)[k]? = some (b, u) → b.name ≠ a.name)
    (h3 : (fieldList fs)[j]? = some (b, u))
    (h4 : ∀ k < j, ∀ c u, (fieldList fs)[k]? = some (c, u) → c.name ≠ b.name) (he : b.name = a.name) :
    i = j := by
  rcases Nat.lt_trichotomy i j with h | h | h
  · exact absurd he.symm (h4 i h a t h1)
  · exact h
  · exact absurd he (h2 j h b u h3)

theorem entry_unique {es : List (Str × Value)} {i j : Nat} {s : Str} {v w : Value}
    (hn : (es.map (·.1)).Nodup) (h1 : es[i]? = some (s, v)) (h2 : es[j]? = some (s, w)) : i = j := by
  have e1 := findKey_of hn h1
  have e2 := findKey_of hn h2
  rw [e1] at e2
  exact Option.some.inj e2

/-- Paths that part before the end of either lead where they led before. -/
theorem leads_other {β : Type} {E : Env β} (hE : Plain E) {ks : List Nat} {t : Ty} {v : Value}
    {path : List Str} {steps : List Step} {tp : Ty} {old : Value} (h : Leads E ks t v path steps tp old) :
    ∀ {new v' : Value} {q : List Seg} {stq : List Step} {tq : Ty} {vq : Value}, HasTy t v →
      oneKey t = true → ks.length ≤ 1 → KeepsKeys steps old new →
      Changed old new (steps.map Step.pos) v v' → (∀ s ∈ path, Canonical s) → (∀ s ∈ q, Canonical s) →
      ¬ path <+: q → ¬ q <+: path → Leads E ks t v q stq tq vq → Leads E ks t v' q stq tq vq := by
  induction h with
  | here => intro new v' q stq tq vq _ _ _ _ _ _ _ h; exact absurd List.nil_prefix h
  | @field ks id fs vs i a t v path steps tp old h1 h2 h3 h4 ih =>
    intro new v' q stq tq vq hv ho hks hk hc hcp hcq hpq hqp hq
    simp only [List.map_cons, Step.pos] at hc
    simp only [HasTy] at hv
    simp only [oneKey] at ho
    cases hc with
    | kid hkid hc =>
      cases hkid with
      | @record pre post =>
        have := kid_of h3; subst this
        cases hq with
        | here => exact absurd List.nil_prefix hqp
        | @field _ _ _ _ j b u w q stq _ _ g1 g2 g3 g4 =>
          by_cases he : b.name = a.name
          · have hij := field_unique h1 h2 g1 g2 he
            subst hij
            rw [h1] at g1; cases g1
            have := kid_of g3; subst this
            refine .field h1 h2 same_kid (ih (hasTys_get hv h1 h3) (oneKeys_get ho h1).2 (oneKeys_get ho h1).1 hk.tail hc
              (fun s hs => hcp s (by simp [hs])) (fun s hs => hcq s (by simp [hs])) ?_ ?_ g4)
            · exact fun hp => hpq (by rw [he]; exact (List.prefix_cons_inj _).2 hp)
            · exact fun hp => hqp (by rw [he]; exact (List.prefix_cons_inj _).2 hp)
          · have hij : j ≠ pre.length := fun e => by
              subst e; rw [h1] at g1; cases g1; exact he rfl
            exact .field g1 g2 (by rw [← other_kid hij]; exact g3) g4
  | @unwrap ks t v s path steps tp old h1 ih =>
    intro new v' q stq tq vq hv ho hks hk hc hcp hcq hpq hqp hq
    simp only [List.map_cons, Step.pos] at hc
    simp only [HasTy] at hv
    simp only [oneKey] at ho
    cases hc with
    | kid hkid hc =>
      obtain ⟨rfl, rfl⟩ := kidChanged_opt hkid
      cases hq with
      | here => exact absurd List.nil_prefix hqp
      | unwrap g1 => exact .unwrap (ih (hv _ rfl) ho (by simp) hk.tail hc hcp hcq hpq hqp g1)
  | @entry ks er t es i s v path steps tp old h1 h2 ih =>
    intro new v' q stq tq vq hv ho hks hk hc hcp hcq hpq hqp hq
    simp only [List.map_cons, Step.pos] at hc
    simp only [HasTy] at hv
    simp only [oneKey] at ho
    cases hc with
    | kid hkid hc =>
      cases hkid with
      | @map pre _ post =>
        have := kid_of h1; cases this
        cases hq with
        | here => exact absurd List.nil_prefix hqp
        | @entry _ _ _ _ j s' w q stq _ _ g1 g2 =>
          by_cases he : s' = s
          · subst he
            have hij := entry_unique hv.1 h1 g1
            subst hij
            have := kid_of g1; cases this
            refine .entry same_kid (ih (hv.2 _ (List.mem_of_getElem? h1)) ho (by simp) hk.tail hc
              (fun s hs => hcp s (by simp [hs])) (fun s hs => hcq s (by simp [hs])) ?_ ?_ g2)
            · exact fun hp => hpq ((List.prefix_cons_inj _).2 hp)
            · exact fun hp => hqp ((List.prefix_cons_inj _).2 hp)
          · have hij : j ≠ pre.length := fun e => by
              subst e; rw [h1] at g1; cases g1; exact he rfl
            exact .entry (by rw [← other_kid hij]; exact g1) g2
  | @item k t vs i s v path steps tp old h1 h2 h3 h4 ih =>
    intro new v' q stq tq vq hv ho hks hk hc hcp hcq hpq hqp hq
    simp only [List.map_cons, Step.pos] at hc
    simp only [HasTy] at hv
    simp only [oneKey] at ho
    cases hc with
    | kid hkid hc =>
      cases hkid with
      | @seq pre post =>
        have := kid_of h3; subst this
        cases hq with
        | here => exact absurd List.nil_prefix hqp
        | @item _ _ _ j s' w q stq _ _ g1 g2 g3 g4 =>
          by_cases he : s' = s
          · subst he
            have hij : _ = j := h2.2.2.1.symm.trans g2.2.2.1
            subst hij
            have := kid_of g3; subst this
            refine .item g1 g2 same_kid (ih (hv _ (List.mem_of_getElem? h3)) ho (by simp) hk.tail hc
              (fun s hs => hcp s (by simp [hs])) (fun s hs => hcq s (by simp [hs])) ?_ ?_ g4)
            · exact fun hp => hpq ((List.prefix_cons_inj _).2 hp)
            · exact fun hp => hqp ((List.prefix_cons_inj _).2 hp)
          · have hij : j ≠ pre.length := fun e => by
              subst e
              exact he (index_inj g2 h2 (hcq s' (by simp)) (hcp s (by simp)))
            exact .item g1 g2 (by rw [← other_kid hij]; exact g3) g4
        | child hsel _ _ =>
          obtain ⟨b, a, e, _⟩ := hsel
          simp at e
  | @child ks k t vs key i s v path steps tp old h1 h2 h3 ih =>
    intro new v' q stq tq vq hv ho hks hk hc hcp hcq hpq hqp hq
    simp only [List.map_cons, Step.pos] at hc
    simp only [HasTy] at hv
    simp only [oneKey] at ho
    cases hc with
    | kid hkid hc =>
      cases hkid with
      | @seq pre post =>
        rename_i x0 _
        have := kid_of h2; subst this
        have hkept := key_kept h3 hk hc
        have hks1 : ks = [key] := by
          obtain ⟨b, a, e, _⟩ := h1
          rw [e] at hks ⊢
          simp at hks
          have h1 : b = [] := List.length_eq_zero_iff.1 (by omega)
          have h2 : a = [] := List.length_eq_zero_iff.1 (by omega)
          simp [h1, h2]
        cases hq with
        | here => exact absurd List.nil_prefix hqp
        | item g1 g2 g3 g4 => simp at hks1
        | @child _ _ _ _ key' j s' w q stq _ _ g1 g2 g3 =>
          have hkey : key' = key := by
            obtain ⟨b, a, e, _⟩ := g1
            rw [hks1] at e
            cases b with
            | nil => simp at e; exact e.1.symm
            | cons x b => simp at e
          subst hkey
          subst hks1
          have g1' : ∀ x', (∀ k, KeyOf key' x0 k ↔ KeyOf key' x' k) →
              Selects E t (pre ++ x' :: post) s' [key'] key' j := by
            intro x' hx'
            obtain ⟨b, a, e, hb, hm, hf⟩ := g1
            have : b = [] ∧ a = [] := by
              cases b with
              | nil => simp at e; exact ⟨rfl, by simpa using e⟩
              | cons x b => simp at e
            obtain ⟨rfl, rfl⟩ := this
            exact ⟨[], [], rfl, by simp, (matches_same hE.toLawful hx' _).1 hm,
              fun j' hj' hm' => hf j' hj' ((matches_same hE.toLawful hx' _).2 hm')⟩
          by_cases he : s' = s
          · subst he
            obtain ⟨-, hij⟩ := selects_unique h1 g1
            subst hij
            have := kid_of g2; subst this
            refine .child (g1' _ hkept) same_kid (ih (hv _ (List.mem_of_getElem? h2)) ho (by simp) hk.tail hc
              (fun s hs => hcp s (by simp [hs])) (fun s hs => hcq s (by simp [hs])) ?_ ?_ g3)
            · exact fun hp => hpq ((List.prefix_cons_inj _).2 hp)
            · exact fun hp => hqp ((List.prefix_cons_inj _).2 hp)
          · have hij : j ≠ pre.length := fun e => by
              subst e
              obtain ⟨_, _, _, _, ⟨x1, k1, e1, e2, e3⟩, _⟩ := h1
              obtain ⟨_, _, _, _, ⟨x2, k2, e4, e5, e6⟩, _⟩ := g1
              rw [e1] at e4; cases e4
              obtain ⟨vs1, rfl, e7⟩ := e2
              obtain ⟨vs2, e8, e9⟩ := e5
              cases e8
              rw [e7] at e9; cases e9
              exact he (hE.inj _ _ _ _ _ e6 e3)
            exact .child (g1' _ hkept) (by rw [← other_kid hij]; exact g2) g3

end Verif.Resource
