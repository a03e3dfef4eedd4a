import Verif.Serial.Props

/-!
The check of field names at compile time as it is written: a buffer of fixed capacity that is counted first,
comparisons of C strings character by character, and what is no constant expression as outcomes of their own.
`Serial/Model.lean` (`collectSer`, `collectDeser`) has the same check on lists; C127 says that the two agree.
-/
namespace Verif.Serial
open Verif.Path Spec

/-! ### Model -/

/-- Why a program is ill-formed apart from the assertion on names: the static assertion at
detail/serialization.hpp:298-299, 366-367; the `throw` at 249-250; a read or write that is no constant expression
(242-263). -/
inductive Bad where
  | notReflectable
  | overflow
  | outside
  deriving DecidableEq, Repr

/-- What a `const char*` points to: the characters of the text and the terminating zero.
(detail/serialization.hpp:71-78 `serialized_name`; serialization_attributes.hpp:61-87) -/
def cString (s : Str) : List (BitVec 8) := s ++ [0]

/-- detail/serialization.hpp:256-264 `cstring_equal`; `none` if it reads outside of an array. -/
def cstringEqual : List (BitVec 8) → List (BitVec 8) → Option Bool
  | x :: a, y :: b => if x ≠ 0 ∧ x = y then cstringEqual a b else some (x == y)
  | _, _ => none

/-- detail/serialization.hpp:236-240 `cstr_name_set`. -/
structure NameSet where
  cap : Nat
  data : List (Option (List (BitVec 8)))
  size : Nat

/-- detail/serialization.hpp:239-240: `Capacity > 0 ? Capacity : 1` null pointers. -/
def NameSet.new (cap : Nat) : NameSet :=
  { cap, data := List.replicate (if 0 < cap then cap else 1) none, size := 0 }

/-- detail/serialization.hpp:244-248: is the name among the first `n`? Counts down what is left. -/
def NameSet.has (b : NameSet) (name : List (BitVec 8)) (i : Nat) : Nat → Except Bad Bool
  | 0 => .ok false
  | n + 1 =>
    match b.data[i]? with
    | some (some p) =>
      match cstringEqual p name with
      | some true => .ok true
      | some false => b.has name (i + 1) n
      | none => .error .outside
    | _ => .error .outside

/-- detail/serialization.hpp:242-253 `push_unique`. -/
def NameSet.push (b : NameSet) (name : List (BitVec 8)) : Except Bad (NameSet × Bool) :=
  match b.has name 0 b.size with
  | .error e => .error e
  | .ok true => .ok (b, false)
  | .ok false =>
    if b.cap ≤ b.size then .error .overflow
    else if b.size < b.data.length then
      .ok ({ b with data := b.data.set b.size (some name), size := b.size + 1 }, true)
    else .error .outside

/-- What the two validators differ in. (detail/serialization.hpp:268-332, 334-414) -/
structure Pass where
  skip : Field → Bool
  count : Field → Nat
  names : Field → List Str

/-- detail/serialization.hpp:288-306, 312-327 -/
def serPass : Pass where
  skip f := f.skipSer || f.extra
  count _ := 1
  names f := [f.key]

/-- detail/serialization.hpp:356-378, 384-409. (`aliases()` without names reserves 9 as well, here 1.) -/
def deserPass : Pass where
  skip f := f.skipDeser || f.extra
  count f := if f.aliases.isEmpty then 1 else 1 + 8
  names f := f.key :: f.aliases

mutual
/-- detail/serialization.hpp:279-306, 345-378 `field_count`, `count_field_contribution`. -/
def fieldCount (p : Pass) : Fields → Except Bad Nat
  | .nil => .ok 0
  | .cons f t fs =>
    let one := if p.skip f then .ok 0 else if f.flatten then fieldCountTy p t else .ok (p.count f)
    match one, fieldCount p fs with
    | .ok n, .ok n' => .ok (n + n')
    | .error e, _ => .error e
    | _, .error e => .error e
/-- detail/serialization.hpp:296-301, 364-369 -/
def fieldCountTy (p : Pass) : Ty → Except Bad Nat
  | .record _ fs => fieldCount p fs
  | _ => .error .notReflectable
end

/-- The names of one field. (detail/serialization.hpp:323-327, 395-409) -/
def pushNames (b : NameSet) : List Str → Except Bad (NameSet × Bool)
  | [] => .ok (b, true)
  | n :: ns =>
    match b.push (cString n) with
    | .error e => .error e
    | .ok r =>
      match pushNames r.1 ns with
      | .error e => .error e
      | .ok r' => .ok (r'.1, r.2 && r'.2)

mutual
/-- detail/serialization.hpp:308-330, 380-412 `collect_field_names`. -/
def collectNames (p : Pass) : Fields → NameSet → Except Bad (NameSet × Bool)
  | .nil, b => .ok (b, true)
  | .cons f t fs, b =>
    let one := if p.skip f then .ok (b, true) else if f.flatten then collectNamesTy p t b else pushNames b (p.names f)
    match one with
    | .error e => .error e
    | .ok r =>
      match collectNames p fs r.1 with
      | .error e => .error e
      | .ok r' => .ok (r'.1, r.2 && r'.2)
/-- detail/serialization.hpp:318-322, 390-394 -/
def collectNamesTy (p : Pass) : Ty → NameSet → Except Bad (NameSet × Bool)
  | .record _ fs, b => collectNames p fs b
  | _, _ => .error .notReflectable
end

/-- detail/serialization.hpp:272-276, 338-342 `validate`. -/
def validateNames (p : Pass) (fs : Fields) : Except Bad Bool :=
  match fieldCount p fs with
  | .error e => .error e
  | .ok n =>
    match collectNames p fs (.new n) with
    | .error e => .error e
    | .ok r => .ok r.2

/-! ### Specification -/

/-- The text that a `const char*` stands for: up to the first zero. -/
def cText (s : Str) : Str := s.takeWhile (· ≠ 0)

mutual
/-- Flattened fields are structs, unless they are skipped. -/
def flatOk (skip : Field → Bool) : Fields → Bool
  | .nil => true
  | .cons f t fs => (skip f || !f.flatten || flatOkTy skip t) && flatOk skip fs
def flatOkTy (skip : Field → Bool) : Ty → Bool
  | .record _ fs => flatOk skip fs
  | _ => false
end

mutual
/-- serialization_attributes.hpp:69-70: no field has more than eight aliases. -/
def aliasesFit : Fields → Bool
  | .nil => true
  | .cons f t fs => decide (f.aliases.length ≤ 8) && aliasesFitTy t && aliasesFit fs
def aliasesFitTy : Ty → Bool
  | .record _ fs => aliasesFit fs
  | _ => true
end

/-! ### Lemmas -/

theorem cText_zero (a : Str) : cText (0 :: a) = [] := by simp [cText]
theorem cText_cons {x : BitVec 8} (hx : x ≠ 0) (a : Str) : cText (x :: a) = x :: cText a := by
  unfold cText
  rw [List.takeWhile_cons_of_pos (by simpa using hx)]

theorem cstringEqual_eq : ∀ (a b : Str), cstringEqual (cString a) (cString b) = some (cText a == cText b)
  | [], [] => by decide
  | [], y :: b => by
    by_cases hy : y = 0
    · subst hy; rw [cText_zero]; rfl
    · have : (0 == y) = false := by simpa using fun h => hy h.symm
      rw [cText_cons hy]; simp only [cString, List.nil_append, List.cons_append, cstringEqual, this]; rfl
  | x :: a, [] => by
    by_cases hx : x = 0
    · subst hx; rw [cText_zero]; rfl
    · have : (x == 0) = false := by simpa using hx
      rw [cText_cons hx]
      simp only [cString, List.nil_append, List.cons_append, cstringEqual, this, hx, and_false, if_false]
      rfl
  | x :: a, y :: b => by
    have ih := cstringEqual_eq a b
    simp only [cString, List.cons_append, cstringEqual] at ih ⊢
    by_cases hx : x = 0
    · subst hx
      rw [if_neg (by simp), cText_zero]
      by_cases hy : y = 0
      · subst hy; rw [cText_zero]; rfl
      · have : (0 == y) = false := by simpa using fun h => hy h.symm
        rw [cText_cons hy, this]; rfl
    · rw [cText_cons hx]
      by_cases hxy : x = y
      · subst hxy
        rw [if_pos ⟨hx, rfl⟩, ih, cText_cons hx]
        simp
      · have : (x == y) = false := by simpa using hxy
        rw [if_neg (fun h => hxy h.2), this]
        by_cases hy : y = 0
        · subst hy; rw [cText_zero]; rfl
        · rw [cText_cons hy]; simp [hxy]

/-- The buffer holds these names, in this order. -/
structure Holds (b : NameSet) (ns : List Str) : Prop where
  size : b.size = ns.length
  room : b.cap ≤ b.data.length
  data : ∀ i (h : i < ns.length), b.data[i]? = some (some (cString ns[i]))

theorem has_spec {b : NameSet} {ns : List Str} (h : Holds b ns) (x : Str) : ∀ (n i : Nat), i + n = ns.length →
    b.has (cString x) i n = .ok (decide (cText x ∈ (ns.drop i).map cText))
  | 0, i, hi => by
    have : ns.drop i = [] := List.drop_eq_nil_of_le (by omega)
    simp [NameSet.has, this]
  | n + 1, i, hi => by
    have hl : i < ns.length := by omega
    have hd : ns.drop i = ns[i] :: ns.drop (i + 1) := (List.drop_eq_getElem_cons hl)
    simp only [NameSet.has, h.data i hl, cstringEqual_eq]
    rw [has_spec h x n (i + 1) (by omega), hd]
    by_cases hx : cText ns[i] = cText x
    · rw [show (cText ns[i] == cText x) = true by simpa using hx]
      simp only [List.map_cons, List.mem_cons, hx, true_or, decide_true]
    · have hx' : ¬ cText x = cText ns[i] := fun e => hx e.symm
      rw [show (cText ns[i] == cText x) = false by simpa using hx]
      simp only [List.map_cons, List.mem_cons, hx', false_or]

theorem push_spec {b : NameSet} {ns : List Str} (h : Holds b ns) (x : Str) (hr : ns.length < b.cap) :
    ∃ b' r, b.push (cString x) = .ok (b', r) ∧ b'.cap = b.cap ∧
      ((r = false ∧ cText x ∈ ns.map cText ∧ b' = b) ∨ (r = true ∧ cText x ∉ ns.map cText ∧ Holds b' (ns ++ [x]))) := by
  unfold NameSet.push
  rw [has_spec h x b.size 0 (by simp [h.size])]
  by_cases hx : cText x ∈ ns.map cText
  · simp only [List.drop_zero, hx, decide_true]
    exact ⟨b, false, rfl, rfl, .inl ⟨rfl, by simp, rfl⟩⟩
  · simp only [List.drop_zero, hx, decide_false]
    rw [if_neg (by rw [h.size]; omega), if_pos (by rw [h.size]; exact Nat.lt_of_lt_of_le hr h.room)]
    refine ⟨_, true, rfl, rfl, .inr ⟨rfl, by simp, ⟨by simp [h.size], by simpa using h.room, fun i hi => ?_⟩⟩⟩
    simp only [List.length_append, List.length_singleton] at hi
    by_cases he : i = ns.length
    · subst he
      have : ns.length < b.data.length := Nat.lt_of_lt_of_le hr h.room
      simp [h.size, this]
    · have hl : i < ns.length := by omega
      rw [List.getElem?_set_ne (by rw [h.size]; exact fun e => he e.symm), List.getElem_append_left hl]
      exact h.data i hl

/-- What a call that pushes names does: it answers whether names are new and different; the buffer holds them. -/
def Pushes (c : NameSet → Except Bad (NameSet × Bool)) (ns : List Str) (room : Nat) : Prop :=
  ∀ (b : NameSet) (old : List Str), Holds b old → (old.map cText).Nodup → old.length + room ≤ b.cap →
    ∃ b' r new, c b = .ok (b', r) ∧ b'.cap = b.cap ∧ Holds b' new ∧ (new.map cText).Nodup ∧
      new.length ≤ old.length + room ∧ (∀ x, x ∈ new.map cText ↔ x ∈ (old ++ ns).map cText) ∧
      (r = true ↔ ((old ++ ns).map cText).Nodup)

theorem nodup_snoc {l : List Str} {x : Str} : (l ++ [x]).Nodup ↔ l.Nodup ∧ x ∉ l := by
  rw [nodup_append']
  constructor
  · exact fun h => ⟨h.1, fun hx => h.2.2 x hx (by simp)⟩
  · exact fun h => ⟨h.1, by simp, fun y hy => by rintro hm; rw [List.mem_singleton.1 hm] at hy; exact h.2 hy⟩

theorem pushes_none : Pushes (fun b => .ok (b, true)) [] 0 :=
  fun b old hb hn _ => ⟨b, true, old, rfl, rfl, hb, hn, by simp, by simp, by simp [hn]⟩

/-- Whether `a ++ b` repeats a name, by whether `a` does and `new`, the names of `a`, with `b`. -/
theorem nodup_via {a b new : List Str} (hn : new.Nodup) (hs : ∀ x, x ∈ new ↔ x ∈ a) :
    (a ++ b).Nodup ↔ a.Nodup ∧ (new ++ b).Nodup := by
  rw [nodup_append', nodup_append']
  constructor
  · exact fun h => ⟨h.1, hn, h.2.1, fun x hx => h.2.2 x ((hs x).1 hx)⟩
  · exact fun h => ⟨h.1, h.2.2.1, fun x hx => h.2.2.2 x ((hs x).2 hx)⟩

theorem Pushes.seq {c c' : NameSet → Except Bad (NameSet × Bool)} {ns ns' : List Str} {r r' : Nat}
    (h : Pushes c ns r) (h' : Pushes c' ns' r') :
    Pushes (fun b => match c b with
      | .error e => .error e
      | .ok x => match c' x.1 with
        | .error e => .error e
        | .ok y => .ok (y.1, x.2 && y.2)) (ns ++ ns') (r + r') := by
  intro b old hb hn hr
  obtain ⟨b1, r1, new1, h1, h2, h3, h4, h5, h6, h7⟩ := h b old hb hn (by omega)
  obtain ⟨b2, r2, new2, k1, k2, k3, k4, k5, k6, k7⟩ := h' b1 new1 h3 h4 (by omega)
  refine ⟨b2, r1 && r2, new2, by simp [h1, k1], by omega, k3, k4, by omega, fun x => ?_, ?_⟩
  · rw [k6]
    have := h6 x
    simp only [List.map_append, List.mem_append] at this ⊢
    rw [this]
    exact ⟨fun h => by rcases h with (h | h) | h <;> simp [h], fun h => by rcases h with h | h | h <;> simp [h]⟩
  · rw [Bool.and_eq_true, h7, k7, ← List.append_assoc, List.map_append (l₁ := old ++ ns), List.map_append (l₁ := new1)]
    exact (nodup_via h4 h6).symm

theorem pushes_one (x : Str) : Pushes (fun b => b.push (cString x)) [x] 1 := by
  intro b old hb hn hr
  obtain ⟨b', r, h1, h2, h3 | h3⟩ := push_spec hb x (by omega)
  · obtain ⟨rfl, hx, rfl⟩ := h3
    refine ⟨b', false, old, h1, h2, hb, hn, by omega, fun y => ?_, ?_⟩
    · simp only [List.map_append, List.mem_append]
      refine ⟨.inl, fun h => h.elim id fun h => ?_⟩
      simp at h
      rw [h]; exact hx
    · rw [List.map_append]
      simp only [Bool.false_eq_true, List.map_cons, List.map_nil, false_iff]
      exact fun hc => (nodup_snoc.1 hc).2 hx
  · obtain ⟨rfl, hx, hb'⟩ := h3
    have hnn : ((old ++ [x]).map cText).Nodup := by
      rw [List.map_append]
      exact nodup_snoc.2 ⟨hn, hx⟩
    exact ⟨b', true, old ++ [x], h1, h2, hb', hnn, by simp, fun y => Iff.rfl, by simp only [true_iff]; exact hnn⟩

theorem pushes_names : ∀ (ns : List Str), Pushes (fun b => pushNames b ns) ns ns.length
  | [] => pushes_none
  | n :: ns => by
    have := (pushes_one n).seq (pushes_names ns)
    intro b old hb hn hr
    obtain ⟨b', r, new, h⟩ := this b old hb hn (by simp at hr; omega)
    refine ⟨b', r, new, by simpa [pushNames] using h.1, h.2.1, h.2.2.1, h.2.2.2.1, ?_, by simpa using h.2.2.2.2.2.1,
      by simpa using h.2.2.2.2.2.2⟩
    have := h.2.2.2.2.1
    simp
    omega

theorem Pushes.more {c : NameSet → Except Bad (NameSet × Bool)} {ns : List Str} {r r' : Nat} (h : Pushes c ns r)
    (hr : r ≤ r') : Pushes c ns r' := by
  intro b old hb hn hc
  obtain ⟨b', x, new, h1, h2, h3, h4, h5, h6⟩ := h b old hb hn (by omega)
  exact ⟨b', x, new, h1, h2, h3, h4, by omega, h6⟩

mutual
/-- The names a pass collects. -/
def passNames (p : Pass) : Fields → List Str
  | .nil => []
  | .cons f t fs => (if p.skip f then [] else if f.flatten then passNamesTy p t else p.names f) ++ passNames p fs
def passNamesTy (p : Pass) : Ty → List Str
  | .record _ fs => passNames p fs
  | _ => []
end

mutual
/-- Enough is reserved for each field. -/
def Enough (p : Pass) : Fields → Prop
  | .nil => True
  | .cons f t fs => (p.names f).length ≤ p.count f ∧ EnoughTy p t ∧ Enough p fs
def EnoughTy (p : Pass) : Ty → Prop
  | .record _ fs => Enough p fs
  | _ => True
end

mutual
theorem collect_pushes (p : Pass) : ∀ (fs : Fields), flatOk p.skip fs = true → Enough p fs →
    ∃ n, fieldCount p fs = .ok n ∧ Pushes (collectNames p fs) (passNames p fs) n
  | .nil, _, _ => ⟨0, rfl, by simpa only [collectNames, passNames] using pushes_none⟩
  | .cons f t fs, hf, he => by
    simp only [flatOk, Bool.and_eq_true, Bool.or_eq_true, Bool.not_eq_true'] at hf
    obtain ⟨n', hn', hp'⟩ := collect_pushes p fs hf.2 he.2.2
    have hone : ∃ n, (if p.skip f then (Except.ok 0 : Except Bad Nat) else if f.flatten then fieldCountTy p t
          else .ok (p.count f)) = .ok n ∧
        Pushes (fun b => if p.skip f then (.ok (b, true) : Except Bad (NameSet × Bool))
          else if f.flatten then collectNamesTy p t b else pushNames b (p.names f))
          (if p.skip f then [] else if f.flatten then passNamesTy p t else p.names f) n := by
      by_cases hs : p.skip f = true
      · simp only [hs, if_true]
        exact ⟨0, rfl, pushes_none⟩
      · simp only [hs, if_false, Bool.false_eq_true]
        by_cases hl : f.flatten = true
        · simp only [hl, if_true]
          have ht : flatOkTy p.skip t = true := by
            rcases hf.1 with (h | h) | h
            · exact absurd h hs
            · rw [hl] at h; cases h
            · exact h
          exact collect_pushesTy p t ht he.2.1
        · simp only [hl, if_false, Bool.false_eq_true]
          exact ⟨_, rfl, (pushes_names _).more he.1⟩
    obtain ⟨n, hn, hp⟩ := hone
    refine ⟨n + n', by simp only [fieldCount, hn, hn'], ?_⟩
    have := hp.seq hp'
    unfold Pushes at this ⊢
    simp only [collectNames, passNames]
    exact this
theorem collect_pushesTy (p : Pass) : ∀ (t : Ty), flatOkTy p.skip t = true → EnoughTy p t →
    ∃ n, fieldCountTy p t = .ok n ∧ Pushes (collectNamesTy p t) (passNamesTy p t) n
  | .record _ fs, hf, he => by
    simp only [flatOkTy] at hf
    obtain ⟨n, h1, h2⟩ := collect_pushes p fs hf he
    refine ⟨n, by simpa only [fieldCountTy] using h1, ?_⟩
    unfold Pushes at h2 ⊢
    simp only [collectNamesTy, passNamesTy]
    exact h2
  | .leaf _, hf, _ | .enum _, hf, _ | .rawEnum _, hf, _ | .enumSet _, hf, _ | .opt _, hf, _ | .vec _, hf, _
  | .arr _ _, hf, _ | .map _, hf, _ | .tuple _ _, hf, _ => by simp [flatOkTy] at hf
end

theorem validate_spec (p : Pass) {fs : Fields} (hf : flatOk p.skip fs = true) (he : Enough p fs) :
    ∃ b, validateNames p fs = .ok b ∧ (b = true ↔ ((passNames p fs).map cText).Nodup) := by
  obtain ⟨n, h1, h2⟩ := collect_pushes p fs hf he
  have hb : Holds (.new n) [] := ⟨rfl, by simp only [NameSet.new]; split <;> simp; omega, by simp⟩
  obtain ⟨b', r, new, k⟩ := h2 (.new n) [] hb (by simp) (by simp [NameSet.new])
  refine ⟨r, ?_, by simpa using k.2.2.2.2.2.2⟩
  simp only [validateNames, h1, k.1]

mutual
theorem serEnough : ∀ fs : Fields, Enough serPass fs
  | .nil => trivial
  | .cons _ t fs => ⟨Nat.le_refl _, serEnoughTy t, serEnough fs⟩
theorem serEnoughTy : ∀ t : Ty, EnoughTy serPass t
  | .record _ fs => by simpa only [EnoughTy] using serEnough fs
  | .leaf _ | .enum _ | .rawEnum _ | .enumSet _ | .opt _ | .vec _ | .arr _ _ | .map _ | .tuple _ _ => by
    simp [EnoughTy]
end

mutual
theorem deserEnough : ∀ fs : Fields, aliasesFit fs = true → Enough deserPass fs
  | .nil, _ => trivial
  | .cons f t fs, h => by
    simp only [aliasesFit, Bool.and_eq_true, decide_eq_true_eq] at h
    refine ⟨?_, deserEnoughTy t h.1.2, deserEnough fs h.2⟩
    simp only [deserPass, List.length_cons]
    cases ha : f.aliases with
    | nil => simp
    | cons a as => have := h.1.1; rw [ha] at this; simp only [List.length_cons] at this; simp; omega
theorem deserEnoughTy : ∀ t : Ty, aliasesFitTy t = true → EnoughTy deserPass t
  | .record _ fs, h => by
    simp only [aliasesFitTy] at h
    simpa only [EnoughTy] using deserEnough fs h
  | .leaf _, _ | .enum _, _ | .rawEnum _, _ | .enumSet _, _ | .opt _, _ | .vec _, _ | .arr _ _, _ | .map _, _
  | .tuple _ _, _ => by simp [EnoughTy]
end

mutual
theorem passNames_ser : ∀ fs : Fields, passNames serPass fs = outNames fs
  | .nil => rfl
  | .cons f t fs => by
    simp only [passNames, outNames, passNames_ser fs, passNames_serTy t]; rfl
theorem passNames_serTy : ∀ t : Ty, passNamesTy serPass t = outNamesTy t
  | .record _ fs => by simp only [passNamesTy, outNamesTy, passNames_ser fs]
  | .leaf _ | .enum _ | .rawEnum _ | .enumSet _ | .opt _ | .vec _ | .arr _ _ | .map _ | .tuple _ _ => by
    simp [passNamesTy, outNamesTy]
end

mutual
theorem passNames_deser : ∀ fs : Fields, passNames deserPass fs = inNames fs
  | .nil => rfl
  | .cons f t fs => by
    simp only [passNames, inNames, passNames_deser fs, passNames_deserTy t]; rfl
theorem passNames_deserTy : ∀ t : Ty, passNamesTy deserPass t = inNamesTy t
  | .record _ fs => by simp only [passNamesTy, inNamesTy, passNames_deser fs]
  | .leaf _ | .enum _ | .rawEnum _ | .enumSet _ | .opt _ | .vec _ | .arr _ _ | .map _ | .tuple _ _ => by
    simp [passNamesTy, inNamesTy]
end

mutual
theorem count_ok (p : Pass) : ∀ (fs : Fields), flatOk p.skip fs = true → ∃ n, fieldCount p fs = .ok n
  | .nil, _ => ⟨0, rfl⟩
  | .cons f t fs, h => by
    simp only [flatOk, Bool.and_eq_true, Bool.or_eq_true, Bool.not_eq_true'] at h
    obtain ⟨n, hn⟩ := count_ok p fs h.2
    simp only [fieldCount, hn]
    by_cases hs : p.skip f = true
    · exact ⟨0 + n, by simp only [hs, if_true]⟩
    · by_cases hl : f.flatten = true
      · have ht : flatOkTy p.skip t = true := by
          rcases h.1 with (h | h) | h
          · exact absurd h hs
          · rw [hl] at h; cases h
          · exact h
        obtain ⟨n', hn'⟩ := count_okTy p t ht
        exact ⟨n' + n, by simp only [hs, hl, if_true, if_false, Bool.false_eq_true, hn']⟩
      · exact ⟨p.count f + n, by simp only [hs, hl, if_false, Bool.false_eq_true]⟩
theorem count_okTy (p : Pass) : ∀ (t : Ty), flatOkTy p.skip t = true → ∃ n, fieldCountTy p t = .ok n
  | .record _ fs, h => by
    simp only [flatOkTy] at h
    simpa only [fieldCountTy] using count_ok p fs h
  | .leaf _, h | .enum _, h | .rawEnum _, h | .enumSet _, h | .opt _, h | .vec _, h | .arr _ _, h | .map _, h
  | .tuple _ _, h => by simp [flatOkTy] at h
end

mutual
theorem count_bad (p : Pass) : ∀ (fs : Fields), flatOk p.skip fs = false → fieldCount p fs = .error .notReflectable
  | .nil, h => by simp [flatOk] at h
  | .cons f t fs, h => by
    simp only [fieldCount]
    by_cases hone : (p.skip f || !f.flatten || flatOkTy p.skip t) = true
    · have hr : flatOk p.skip fs = false := by simpa [flatOk, hone] using h
      rw [count_bad p fs hr]
      by_cases hs : p.skip f = true
      · simp [hs]
      · by_cases hl : f.flatten = true
        · have ht : flatOkTy p.skip t = true := by simpa [hs, hl] using hone
          simp only [hs, hl, if_true, if_false, Bool.false_eq_true]
          cases hx : fieldCountTy p t with
          | ok n => rfl
          | error e => obtain ⟨n, hn⟩ := count_okTy p t ht; rw [hn] at hx; cases hx
        · simp [hs, hl]
    · simp only [Bool.or_eq_true, not_or, Bool.not_eq_true', Bool.not_eq_false] at hone
      simp only [hone.1.1, hone.1.2, if_true, if_false, Bool.false_eq_true,
        count_badTy p t (by simpa using hone.2)]
theorem count_badTy (p : Pass) : ∀ (t : Ty), flatOkTy p.skip t = false → fieldCountTy p t = .error .notReflectable
  | .record _ fs, h => by
    simp only [flatOkTy] at h
    simp only [fieldCountTy, count_bad p fs h]
  | .leaf _, _ | .enum _, _ | .rawEnum _, _ | .enumSet _, _ | .opt _, _ | .vec _, _ | .arr _ _, _ | .map _, _
  | .tuple _ _, _ => by simp [fieldCountTy]
end

end Verif.Serial
