import Verif.BinaryRW.Spec
/-
Helper lemmas for the binary reader/writer.
-/
namespace Verif.BinaryRW
open Spec

/-- Induction over type codes. -/
theorem Ty.ind {P : Ty → Prop} (hscalar : ∀ n, P (.scalar n)) (hstr : P .str)
    (hvec : ∀ t, P t → P (.vec t)) (hmap : ∀ lt k v, P k → P v → P (.map lt k v))
    (hset : ∀ lt t, P t → P (.set lt t)) (hopt : ∀ t, P t → P (.opt t))
    (hpair : ∀ a b, P a → P b → P (.pair a b))
    (hvariant : ∀ ts, (∀ t ∈ ts, P t) → P (.variant ts)) : ∀ t, P t := by
  intro t
  apply Ty.rec (motive_1 := P) (motive_2 := fun ts => ∀ t ∈ ts, P t)
  · exact hscalar
  · exact hstr
  · exact hvec
  · exact hmap
  · exact hset
  · exact hopt
  · exact hpair
  · exact hvariant
  · simp
  · intro t ts h1 h2 u hu
    rcases List.mem_cons.1 hu with rfl | hu
    · exact h1
    · exact h2 u hu

/-! ### Numbers -/

theorem le_eq_toLE (k n : Nat) : le k n = toLE k n := by
  induction k generalizing n with
  | zero => rfl
  | succ k ih =>
    simp only [toLE, ← ih, le, List.range_succ_eq_map, List.map_cons, List.map_map]
    congr 1
    · simp
    · apply List.map_congr_left
      intro i _
      simp only [Function.comp, Nat.div_div_eq_div_mul]
      rw [Nat.pow_succ, Nat.mul_comm]

theorem toLE_length (k n : Nat) : (toLE k n).length = k := by
  induction k generalizing n with
  | zero => rfl
  | succ k ih => simp [toLE, ih]

theorem fromLE_toLE (k n : Nat) (h : n < 256 ^ k) : fromLE (toLE k n) = n := by
  induction k generalizing n with
  | zero => simp at h; subst h; rfl
  | succ k ih =>
    have h' : n < 256 * 256 ^ k := by rw [Nat.pow_succ] at h; omega
    have : n / 256 < 256 ^ k := Nat.div_lt_of_lt_mul h'
    simp only [toLE, fromLE, ih _ this, BitVec.toNat_ofNat]
    omega

theorem foldr_fromLE (b : List Byte) : b.foldr (fun b n => b.toNat + 256 * n) 0 = fromLE b := by
  induction b with
  | nil => rfl
  | cons x xs ih => simp [fromLE, ih]

theorem take?_append (x rest : List Byte) : take? x.length (x ++ rest) = some (x, rest) := by
  simp [take?]

theorem num?_le (k n : Nat) (h : n < 256 ^ k) (rest : List Byte) :
    num? k (le k n ++ rest) = some (n, rest) := by
  have hl : (le k n).length = k := by rw [le_eq_toLE, toLE_length]
  have := take?_append (le k n) rest
  rw [hl] at this
  simp only [num?, this, foldr_fromLE]
  rw [le_eq_toLE, fromLE_toLE k n h]

theorem num?_one (n : Nat) (h : n < 256) (rest : List Byte) :
    num? 1 (BitVec.ofNat 8 n :: rest) = some (n, rest) := by
  have := num?_le 1 n (by omega) rest
  simpa [le] using this

/-! ### Parser: extension and round trip -/

/-- A successful parse looks only at the bytes it consumes. -/
def Ext {α} (p : List Byte → Option (α × List Byte)) : Prop :=
  ∀ b v rest, p b = some (v, rest) → ∃ used, b = used ++ rest ∧ ∀ r, p (used ++ r) = some (v, r)

theorem ext_take? (n : Nat) : Ext (take? n) := by
  intro b v rest h
  unfold take? at h
  split at h
  · simp only [Option.some.injEq, Prod.mk.injEq] at h
    obtain ⟨rfl, rfl⟩ := h
    rename_i hl
    refine ⟨b.take n, by simp, fun r => ?_⟩
    have : (b.take n).length = n := by simp [hl]
    have h2 := take?_append (b.take n) r
    rwa [this] at h2
  · simp at h

theorem ext_num? (n : Nat) : Ext (num? n) := by
  intro b v rest h
  unfold num? at h
  split at h
  · simp at h
  · rename_i x r hx
    simp only [Option.some.injEq, Prod.mk.injEq] at h
    obtain ⟨rfl, rfl⟩ := h
    obtain ⟨used, e, hu⟩ := ext_take? n _ _ _ hx
    exact ⟨used, e, fun r => by simp [num?, hu]⟩

theorem ext_map {α β} {p : List Byte → Option (α × List Byte)} (hp : Ext p) (f : α → β) :
    Ext fun b => (p b).map fun r => (f r.1, r.2) := by
  intro b v rest h
  simp only [Option.map_eq_some_iff, Prod.mk.injEq] at h
  obtain ⟨⟨x, r⟩, hx, rfl, rfl⟩ := h
  obtain ⟨used, e, hu⟩ := hp _ _ _ hx
  exact ⟨used, e, fun r => by simp [hu]⟩

theorem ext_bind {α β} {p : List Byte → Option (α × List Byte)} (hp : Ext p)
    {q : α → List Byte → Option (β × List Byte)} (hq : ∀ a, Ext (q a)) :
    Ext fun b => (p b).bind fun r => q r.1 r.2 := by
  intro b v rest h
  simp only [Option.bind_eq_some_iff] at h
  obtain ⟨⟨x, r⟩, hx, hy⟩ := h
  obtain ⟨used, e, hu⟩ := hp _ _ _ hx
  simp only at hy
  obtain ⟨used', e', hu'⟩ := hq _ _ _ _ hy
  refine ⟨used ++ used', by rw [e, e']; simp, fun r => ?_⟩
  simp [hu, hu']

theorem ext_many? {α} {p : List Byte → Option (α × List Byte)} (hp : Ext p) (n : Nat) :
    Ext (many? p n) := by
  induction n with
  | zero =>
    intro b v rest h
    simp only [many?, Option.some.injEq, Prod.mk.injEq] at h
    obtain ⟨rfl, rfl⟩ := h
    exact ⟨[], by simp, fun r => by simp [many?]⟩
  | succ n ih =>
    intro b v rest h
    simp only [many?] at h
    split at h
    · simp at h
    · rename_i x r hx
      split at h
      · simp at h
      · rename_i xs r' hxs
        simp only [Option.some.injEq, Prod.mk.injEq] at h
        obtain ⟨rfl, rfl⟩ := h
        obtain ⟨used, e, hu⟩ := hp _ _ _ hx
        obtain ⟨used', e', hu'⟩ := ih _ _ _ hxs
        exact ⟨used ++ used', by rw [e, e']; simp, fun r => by simp [many?, hu, hu']⟩

theorem ext_both? {α β} {p : List Byte → Option (α × List Byte)}
    {q : List Byte → Option (β × List Byte)} (hp : Ext p) (hq : Ext q) : Ext (both? p q) := by
  intro b v rest h
  simp only [both?] at h
  split at h
  · simp at h
  · rename_i x r hx
    split at h
    · simp at h
    · rename_i y r' hy
      simp only [Option.some.injEq, Prod.mk.injEq] at h
      obtain ⟨rfl, rfl⟩ := h
      obtain ⟨used, e, hu⟩ := hp _ _ _ hx
      obtain ⟨used', e', hu'⟩ := hq _ _ _ hy
      exact ⟨used ++ used', by rw [e, e']; simp, fun r => by simp [both?, hu, hu']⟩

theorem ext_none {α} : Ext (fun _ : List Byte => (none : Option (α × List Byte))) := by
  intro b v rest h; simp at h

theorem ext_pure {α} (a : α) : Ext (fun b : List Byte => some (a, b)) := by
  intro b v rest h
  simp only [Option.some.injEq, Prod.mk.injEq] at h
  obtain ⟨rfl, rfl⟩ := h
  exact ⟨[], by simp, fun r => by simp⟩

theorem parseAlt_eq (ts : List Ty) (i : Nat) (b : List Byte) :
    parseAlt ts i b = (ts[i]?).bind fun t => parse t b := by
  induction ts generalizing i with
  | nil => simp [parseAlt]
  | cons t ts ih => cases i <;> simp [parseAlt, ih]

theorem hasAlt_eq (ts : List Ty) (i : Nat) (v : Val) :
    HasAlt ts i v ↔ ∃ t, ts[i]? = some t ∧ HasTy t v := by
  induction ts generalizing i with
  | nil => simp [HasAlt]
  | cons t ts ih => cases i <;> simp [HasAlt, ih]

theorem fitsAlt_eq (ts : List Ty) (i : Nat) (v : Val) :
    FitsAlt ts i v ↔ ∀ t, ts[i]? = some t → Fits t v := by
  induction ts generalizing i with
  | nil => simp [FitsAlt]
  | cons t ts ih => cases i <;> simp [FitsAlt, ih]

theorem encodeAlt_eq (ts : List Ty) (i : Nat) (v : Val) :
    encodeAlt ts i v = match ts[i]? with | some t => encode t v | none => [] := by
  induction ts generalizing i with
  | nil => simp [encodeAlt]
  | cons t ts ih => cases i <;> simp [encodeAlt, ih]

theorem allOK_mem {ts : List Ty} (h : AllOK ts) : ∀ t ∈ ts, TyOK t := by
  induction ts with
  | nil => simp
  | cons t ts ih =>
    obtain ⟨h1, h2⟩ := h
    intro u hu
    rcases List.mem_cons.1 hu with rfl | hu
    · exact h1
    · exact ih h2 u hu

theorem parse_scalar (n : Nat) : parse (.scalar n) =
    fun b => (take? n b).map fun r => (.scalar r.1, r.2) := by funext b; simp only [parse]
theorem parse_str : parse .str = fun b =>
    (num? 4 b).bind fun r => (take? r.1 r.2).map fun r => (.str r.1, r.2) := by
  funext b; simp only [parse]
theorem parse_vec (t : Ty) : parse (.vec t) = fun b =>
    (num? 4 b).bind fun r => (many? (parse t) r.1 r.2).map fun r => (.vec r.1, r.2) := by
  funext b; simp only [parse]
theorem parse_map (lt) (k v : Ty) : parse (.map lt k v) = fun b =>
    (num? 4 b).bind fun r => (many? (both? (parse k) (parse v)) r.1 r.2).map
      fun r => (.map (r.1.foldl (insertSorted fun a b => lt a.1 b.1) []), r.2) := by
  funext b; simp only [parse]
theorem parse_set (lt) (t : Ty) : parse (.set lt t) = fun b =>
    (num? 4 b).bind fun r => (many? (parse t) r.1 r.2).map
      fun r => (.set (r.1.foldl (insertSorted lt) []), r.2) := by
  funext b; simp only [parse]
theorem parse_opt (t : Ty) : parse (.opt t) = fun b => (num? 1 b).bind fun r =>
      if r.1 = 0 then some (.none, r.2) else (parse t r.2).map fun r => (.some r.1, r.2) := by
  funext b; simp only [parse]
theorem parse_pair (s t : Ty) : parse (.pair s t) = fun b =>
    (both? (parse s) (parse t) b).map fun r => (.pair r.1.1 r.1.2, r.2) := by
  funext b; simp only [parse]
theorem parse_variant (ts : List Ty) : parse (.variant ts) = fun b => (num? 1 b).bind fun r =>
      (parseAlt ts r.1 r.2).map fun x => (.var r.1 x.1, x.2) := by
  funext b; simp only [parse]

theorem ext_parse (t : Ty) : Ext (parse t) := by
  induction t using Ty.ind with
  | hscalar n => rw [parse_scalar]; exact ext_map (ext_take? n) _
  | hstr =>
    rw [parse_str]
    exact ext_bind (ext_num? 4) fun a => ext_map (ext_take? a) _
  | hvec t ih =>
    rw [parse_vec]
    exact ext_bind (ext_num? 4) fun a => ext_map (ext_many? ih a) _
  | hmap lt k v ihk ihv =>
    rw [parse_map]
    exact ext_bind (ext_num? 4) fun a => ext_map (ext_many? (ext_both? ihk ihv) a)
      fun x => Val.map (x.foldl (insertSorted fun a b => lt a.1 b.1) [])
  | hset lt t ih =>
    rw [parse_set]
    exact ext_bind (ext_num? 4) fun a => ext_map (ext_many? ih a)
      fun x => Val.set (x.foldl (insertSorted lt) [])
  | hopt t ih =>
    rw [parse_opt]
    refine ext_bind (q := fun a b => if a = 0 then some (Val.none, b)
      else (parse t b).map fun r => (Val.some r.1, r.2)) (ext_num? 1) fun a => ?_
    by_cases h : a = 0
    · simp only [h, if_true]; exact ext_pure _
    · simp only [h, if_false]; exact ext_map ih _
  | hpair a b iha ihb =>
    rw [parse_pair]
    exact ext_map (ext_both? iha ihb) fun x => Val.pair x.1 x.2
  | hvariant ts ih =>
    rw [parse_variant]
    refine ext_bind (q := fun a b => (parseAlt ts a b).map fun x => (Val.var a x.1, x.2))
      (ext_num? 1) fun a => ?_
    apply ext_map
    have : parseAlt ts a = fun b => (ts[a]?).bind fun t => parse t b := funext (parseAlt_eq ts a)
    rw [this]
    cases h : ts[a]? with
    | none => exact ext_none
    | some t => exact ih t (List.mem_of_getElem? h)

theorem many?_flatMap {α} {p : List Byte → Option (α × List Byte)} {enc : α → List Byte}
    (l : List α) (h : ∀ v ∈ l, ∀ rest, p (enc v ++ rest) = some (v, rest)) (rest : List Byte) :
    many? p l.length (l.flatMap enc ++ rest) = some (l, rest) := by
  induction l with
  | nil => rfl
  | cons v l ih =>
    simp only [List.length_cons, many?, List.flatMap_cons, List.append_assoc,
      h v (by simp), ih (fun v hv => h v (by simp [hv]))]

theorem insert_snoc {α} {lt : α → α → Bool} (hirr : ∀ a, lt a a = false)
    (htr : ∀ a b c, lt a b = true → lt b c = true → lt a c = true) (l : List α) (x : α)
    (h : ∀ y ∈ l, lt y x = true) : insertSorted lt l x = l ++ [x] := by
  induction l with
  | nil => rfl
  | cons y l ih =>
    have hy := h y (by simp)
    have hn : lt x y = false := by
      cases hxy : lt x y with
      | false => rfl
      | true => have := htr _ _ _ hxy hy; rw [hirr] at this; cases this
    simp [insertSorted, hy, hn, ih (fun y hy => h y (by simp [hy]))]

theorem foldl_insert_sorted {α} {lt : α → α → Bool} (hirr : ∀ a, lt a a = false)
    (htr : ∀ a b c, lt a b = true → lt b c = true → lt a c = true) (l acc : List α)
    (h : (acc ++ l).Pairwise fun a b => lt a b = true) :
    l.foldl (insertSorted lt) acc = acc ++ l := by
  induction l generalizing acc with
  | nil => simp
  | cons x l ih =>
    have h' := List.pairwise_append.1 h
    rw [List.foldl_cons, insert_snoc hirr htr acc x (fun y hy => h'.2.2 y hy x (by simp)), ih]
    · simp
    · simpa using h

theorem insert_mem {α} (lt : α → α → Bool) (l : List α) (x : α) :
    ∀ y ∈ insertSorted lt l x, y = x ∨ y ∈ l := by
  induction l with
  | nil => simp [insertSorted]
  | cons z l ih =>
    intro y hy
    unfold insertSorted at hy
    split at hy
    · simpa using hy
    · split at hy
      · rcases List.mem_cons.1 hy with rfl | hy
        · simp
        · rcases ih y hy with h | h
          · exact .inl h
          · exact .inr (by simp [h])
      · exact .inr hy

theorem insert_pairwise {α} {lt : α → α → Bool}
    (htr : ∀ a b c, lt a b = true → lt b c = true → lt a c = true) (l : List α) (x : α)
    (h : l.Pairwise fun a b => lt a b = true) :
    (insertSorted lt l x).Pairwise fun a b => lt a b = true := by
  induction l with
  | nil => simp [insertSorted]
  | cons z l ih =>
    rw [List.pairwise_cons] at h
    unfold insertSorted
    split
    · rename_i hxz
      rw [List.pairwise_cons, List.pairwise_cons]
      refine ⟨?_, h⟩
      intro y hy
      rcases List.mem_cons.1 hy with rfl | hy
      · exact hxz
      · exact htr _ _ _ hxz (h.1 y hy)
    · split
      · rename_i hzx
        rw [List.pairwise_cons]
        refine ⟨?_, ih h.2⟩
        intro y hy
        rcases insert_mem lt l x y hy with rfl | hy
        · exact hzx
        · exact h.1 y hy
      · rw [List.pairwise_cons]; exact h

theorem parse_encode (t : Ty) (v : Val) (hk : TyOK t) (ht : HasTy t v) (hf : Fits t v)
    (rest : List Byte) : parse t (encode t v ++ rest) = some (v, rest) := by
  induction t using Ty.ind generalizing v rest with
  | hscalar n =>
    cases v <;> simp only [HasTy] at ht
    subst ht
    simp only [parse, encode, take?_append, Option.map_some]
  | hstr =>
    cases v <;> simp only [HasTy] at ht
    simp only [Fits] at hf
    simp only [parse, encode, List.append_assoc, num?_le 4 _ (by simpa using hf), Option.bind_some,
      take?_append, Option.map_some]
  | hvec t ih =>
    cases v <;> simp only [HasTy] at ht
    simp only [Fits] at hf
    simp only [TyOK] at hk
    rename_i l
    have := many?_flatMap (p := parse t) (enc := encode t) l
      (fun v hv rest => ih v hk (ht v hv) (hf.2 v hv) rest) rest
    simp only [parse, encode, List.append_assoc, num?_le 4 _ (by simpa using hf.1),
      Option.bind_some, this, Option.map_some]
  | hmap lt k v ihk ihv =>
    cases v <;> simp only [HasTy] at ht
    simp only [Fits] at hf
    simp only [TyOK] at hk
    rename_i l
    have := many?_flatMap (p := both? (parse k) (parse v))
      (enc := fun e => encode k e.1 ++ encode v e.2) l
      (fun e he rest => by
        simp only [both?, List.append_assoc, ihk _ hk.2.1 (ht.2 e he).1 (hf.2 e he).1,
          ihv _ hk.2.2 (ht.2 e he).2 (hf.2 e he).2]) rest
    simp only [parse, encode, List.append_assoc, num?_le 4 _ (by simpa using hf.1),
      Option.bind_some]
    rw [this]
    simp only [Option.map_some]
    rw [foldl_insert_sorted (lt := fun a b => lt a.1 b.1) (fun a => hk.1.1 a.1)
      (fun a b c => hk.1.2 a.1 b.1 c.1) l [] (by simpa using ht.1)]
    simp
  | hset lt t ih =>
    cases v <;> simp only [HasTy] at ht
    simp only [Fits] at hf
    simp only [TyOK] at hk
    rename_i l
    have := many?_flatMap (p := parse t) (enc := encode t) l
      (fun v hv rest => ih v hk.2 (ht.2 v hv) (hf.2 v hv) rest) rest
    simp only [parse, encode, List.append_assoc, num?_le 4 _ (by simpa using hf.1),
      Option.bind_some, this, Option.map_some]
    rw [foldl_insert_sorted hk.1.1 hk.1.2 l [] (by simpa using ht.1)]
    simp
  | hopt t ih =>
    simp only [TyOK] at hk
    cases v <;> simp only [HasTy] at ht
    · have := num?_one 0 (by omega) rest
      simp only [parse, encode]
      simp [this]
    · simp only [Fits] at hf
      rename_i v
      have := num?_one 1 (by omega) (encode t v ++ rest)
      simp only [parse, encode]
      simp [this, ih v hk ht hf]
  | hpair a b iha ihb =>
    cases v <;> simp only [HasTy] at ht
    simp only [Fits] at hf
    simp only [TyOK] at hk
    simp only [parse, both?, encode, List.append_assoc, iha _ hk.1 ht.1 hf.1,
      ihb _ hk.2 ht.2 hf.2, Option.map_some]
  | hvariant ts ih =>
    cases v <;> simp only [HasTy] at ht
    rename_i i v
    simp only [Fits] at hf
    simp only [TyOK] at hk
    rw [hasAlt_eq] at ht
    obtain ⟨t, e, ht⟩ := ht
    have hf2 := (fitsAlt_eq ts i v).1 hf.2 t e
    have hm := List.mem_of_getElem? e
    have := num?_one i (by simpa using hf.1) (encode t v ++ rest)
    simp only [parse, encode, List.cons_append, encodeAlt_eq, e, this, Option.bind_some,
      parseAlt_eq, ih t hm v (allOK_mem hk.2 t hm) ht hf2, Option.map_some]

/-! ### Cursor -/

/-- The cursor is inside a buffer that fits in the address space. -/
structure Good (c : Cursor) : Prop where
  pos : c.pos ≤ c.buf.length
  size : c.buf.length < 2 ^ 63

theorem left_eq {c : Cursor} (h : Good c) : c.left = c.buf.length - c.pos := by
  have := h.pos; have := h.size
  unfold Cursor.left usub
  omega

theorem peekImpl_eq {c : Cursor} (h : Good c) (he : c.err = false) (n : Nat) :
    c.peekImpl n = some (if c.pos + n ≤ c.buf.length then some ((c.buf.drop c.pos).take n)
      else none) := by
  have := h.pos
  unfold Cursor.peekImpl slice
  rw [left_eq h, he]
  by_cases hn : c.pos + n ≤ c.buf.length
  · have : ¬ c.buf.length - c.pos < n := by omega
    simp [hn, this]
  · have : c.buf.length - c.pos < n := by omega
    simp [hn, this]

theorem readImpl_eq {c : Cursor} (h : Good c) (he : c.err = false) (n : Nat) :
    c.readImpl n = if c.pos + n ≤ c.buf.length
      then some (some ((c.buf.drop c.pos).take n), { c with pos := c.pos + n })
      else some (none, { c with err := true }) := by
  have := h.pos; have := h.size
  unfold Cursor.readImpl
  rw [peekImpl_eq h he]
  by_cases hn : c.pos + n ≤ c.buf.length
  · have : uadd c.pos n = c.pos + n := by unfold uadd; omega
    simp [hn, this]
  · simp [hn]

/-- The cursor program `rd` reads what the parser `p` finds at the cursor. -/
def Ref {α} (rd : Cursor → Option (α × Cursor)) (p : List Byte → Option (α × List Byte)) :
    Prop :=
  ∀ buf pos, pos ≤ buf.length → buf.length < 2 ^ 63 →
    (∀ v rest, p (buf.drop pos) = some (v, rest) → ∃ n, pos + n ≤ buf.length ∧
      rest = buf.drop (pos + n) ∧ rd ⟨buf, pos, false⟩ = some (v, ⟨buf, pos + n, false⟩)) ∧
    (p (buf.drop pos) = none → ∃ v pos', rd ⟨buf, pos, false⟩ = some (v, ⟨buf, pos', true⟩) ∧
      pos ≤ pos' ∧ pos' ≤ buf.length)

theorem readImpl_eq' {buf : List Byte} {pos : Nat} (hp : pos ≤ buf.length)
    (hs : buf.length < 2 ^ 63) (n : Nat) :
    Cursor.readImpl ⟨buf, pos, false⟩ n = if pos + n ≤ buf.length
      then some (some ((buf.drop pos).take n), ⟨buf, pos + n, false⟩)
      else some (none, ⟨buf, pos, true⟩) :=
  readImpl_eq (c := ⟨buf, pos, false⟩) ⟨hp, hs⟩ rfl n

theorem readUInt_err (buf : List Byte) (pos : Nat) (n : Nat) :
    Cursor.readUInt ⟨buf, pos, true⟩ n = some (0, ⟨buf, pos, true⟩) := by
  simp [Cursor.readUInt]

theorem readUInt_eq {buf : List Byte} {pos : Nat} (hp : pos ≤ buf.length)
    (hs : buf.length < 2 ^ 63) (n : Nat) :
    Cursor.readUInt ⟨buf, pos, false⟩ n = match num? n (buf.drop pos) with
      | some (v, _) => some (v, ⟨buf, pos + n, false⟩)
      | none => some (0, ⟨buf, pos, true⟩) := by
  simp only [Cursor.readUInt, readImpl_eq' hp hs, num?, take?, List.length_drop]
  by_cases h : pos + n ≤ buf.length
  · have h' : n ≤ buf.length - pos := by omega
    simp [h, h', foldr_fromLE]
  · have h' : ¬ n ≤ buf.length - pos := by omega
    simp [h, h']

theorem num?_some {n : Nat} {b : List Byte} {v : Nat} {rest : List Byte}
    (h : num? n b = some (v, rest)) : n ≤ b.length ∧ rest = b.drop n := by
  unfold num? take? at h
  by_cases hn : n ≤ b.length
  · simp [hn] at h; exact ⟨hn, h.2.symm⟩
  · simp [hn] at h

/-- Reading through the error check of `read<T>()` is the same when there is no error. -/
theorem ref_guard {α} {rd : Cursor → Option (α × Cursor)}
    {p : List Byte → Option (α × List Byte)} (h : Ref rd p) (d : α) :
    Ref (fun c => if c.err then some (d, c) else rd c) p := by
  intro buf pos hp hs
  simpa using h buf pos hp hs

theorem ref_loop {α} {rd : Cursor → Option (α × Cursor)}
    {p : List Byte → Option (α × List Byte)} (h : Ref rd p) (ins : List α → α → List α) (n : Nat)
    (acc : List α) (buf : List Byte) (pos : Nat) (hp : pos ≤ buf.length)
    (hs : buf.length < 2 ^ 63) :
    (∀ l rest, many? p n (buf.drop pos) = some (l, rest) → ∃ k, pos + k ≤ buf.length ∧
      rest = buf.drop (pos + k) ∧ readLoop rd ins n acc ⟨buf, pos, false⟩ =
        some (l.foldl ins acc, ⟨buf, pos + k, false⟩)) ∧
    (many? p n (buf.drop pos) = none → ∃ pos', readLoop rd ins n acc ⟨buf, pos, false⟩ =
      some ([], ⟨buf, pos', true⟩) ∧ pos ≤ pos' ∧ pos' ≤ buf.length) := by
  induction n generalizing acc pos with
  | zero =>
    refine ⟨?_, by simp [many?]⟩
    intro l rest hm
    simp only [many?, Option.some.injEq, Prod.mk.injEq] at hm
    obtain ⟨rfl, rfl⟩ := hm
    exact ⟨0, by simpa using hp, by simp, by simp [readLoop]⟩
  | succ n ih =>
    obtain ⟨h1, h2⟩ := h buf pos hp hs
    simp only [many?]
    cases hq : p (buf.drop pos) with
    | none =>
      obtain ⟨v, pos', e1, e2, e3⟩ := h2 hq
      exact ⟨by simp, fun _ => ⟨pos', by simp [readLoop, e1], e2, e3⟩⟩
    | some r =>
      obtain ⟨v, rest⟩ := r
      obtain ⟨k, k1, k2, k3⟩ := h1 v rest hq
      obtain ⟨i1, i2⟩ := ih (ins acc v) (pos + k) k1
      subst k2
      simp only
      cases hm : many? p n (buf.drop (pos + k)) with
      | none =>
        obtain ⟨pos', e1, e2, e3⟩ := i2 hm
        exact ⟨by simp, fun _ => ⟨pos', by simp [readLoop, k3, e1], by omega, e3⟩⟩
      | some r =>
        obtain ⟨l, rest⟩ := r
        obtain ⟨k', e1, e2, e3⟩ := i1 l rest hm
        refine ⟨?_, by simp⟩
        intro l' rest' hm'
        simp only [Option.some.injEq, Prod.mk.injEq] at hm'
        obtain ⟨rfl, rfl⟩ := hm'
        refine ⟨k + k', by omega, by rw [e2, Nat.add_assoc], ?_⟩
        simp [readLoop, k3, e3, Nat.add_assoc]

theorem ref_pair {α β} {ra : Cursor → Option (α × Cursor)} {rb : Cursor → Option (β × Cursor)}
    {p : List Byte → Option (α × List Byte)} {q : List Byte → Option (β × List Byte)}
    (ha : Ref ra p) (hb : Ref rb q)
    (hberr : ∀ buf pos, ∃ b, rb ⟨buf, pos, true⟩ = some (b, ⟨buf, pos, true⟩)) :
    Ref (readPair ra rb) (both? p q) := by
  intro buf pos hp hs
  obtain ⟨h1, h2⟩ := ha buf pos hp hs
  simp only [both?]
  cases hq : p (buf.drop pos) with
  | none =>
    obtain ⟨v, pos', e1, e2, e3⟩ := h2 hq
    obtain ⟨b, eb⟩ := hberr buf pos'
    exact ⟨by simp, fun _ => ⟨(v, b), pos', by simp [readPair, e1, eb], e2, e3⟩⟩
  | some r =>
    obtain ⟨v, rest⟩ := r
    obtain ⟨k, k1, k2, k3⟩ := h1 v rest hq
    obtain ⟨i1, i2⟩ := hb buf (pos + k) k1 hs
    subst k2
    simp only
    cases hm : q (buf.drop (pos + k)) with
    | none =>
      obtain ⟨b, pos', e1, e2, e3⟩ := i2 hm
      exact ⟨by simp, fun _ => ⟨(v, b), pos', by simp [readPair, k3, e1], by omega, e3⟩⟩
    | some r =>
      obtain ⟨w, rest⟩ := r
      obtain ⟨k', e1, e2, e3⟩ := i1 w rest hm
      refine ⟨?_, by simp⟩
      intro l' rest' hm'
      simp only [Option.some.injEq, Prod.mk.injEq] at hm'
      obtain ⟨rfl, rfl⟩ := hm'
      exact ⟨k + k', by omega, by rw [e2, Nat.add_assoc], by simp [readPair, k3, e3, Nat.add_assoc]⟩

/-- Reading a number first, then something that depends on it. -/
theorem ref_num {α} {k : Nat} {f : Nat → Cursor → Option (α × Cursor)}
    {q : Nat → List Byte → Option (α × List Byte)} (hf : ∀ n, Ref (f n) (q n))
    (hferr : ∀ buf pos, ∃ b, f 0 ⟨buf, pos, true⟩ = some (b, ⟨buf, pos, true⟩)) :
    Ref (fun c => match c.readUInt k with | none => none | some (n, c1) => f n c1)
      (fun b => (num? k b).bind fun r => q r.1 r.2) := by
  intro buf pos hp hs
  simp only [readUInt_eq hp hs]
  cases hn : num? k (buf.drop pos) with
  | none =>
    obtain ⟨a, ea⟩ := hferr buf pos
    exact ⟨by simp, fun _ => ⟨a, pos, by simp [ea], Nat.le_refl _, hp⟩⟩
  | some r =>
    obtain ⟨n, rest⟩ := r
    obtain ⟨hk, rfl⟩ := num?_some hn
    rw [List.length_drop] at hk
    rw [List.drop_drop] at hn ⊢
    obtain ⟨i1, i2⟩ := hf n buf (pos + k) (by omega) hs
    simp only [Option.bind_some]
    refine ⟨?_, ?_⟩
    · intro v rest hq
      obtain ⟨k', e1, e2, e3⟩ := i1 v rest hq
      exact ⟨k + k', by omega, by rw [e2, Nat.add_assoc], by rw [e3, Nat.add_assoc]⟩
    · intro hq
      obtain ⟨b, pos', e1, e2, e3⟩ := i2 hq
      exact ⟨b, pos', e1, by omega, e3⟩

theorem ref_map {α β} {rd : Cursor → Option (α × Cursor)}
    {p : List Byte → Option (α × List Byte)} (h : Ref rd p) (f : α → β) :
    Ref (fun c => match rd c with | none => none | some (a, c') => some (f a, c'))
      (fun b => (p b).map fun r => (f r.1, r.2)) := by
  intro buf pos hp hs
  obtain ⟨h1, h2⟩ := h buf pos hp hs
  dsimp only
  cases hq : p (buf.drop pos) with
  | none =>
    obtain ⟨v, pos', e1, e2, e3⟩ := h2 hq
    exact ⟨by simp, fun _ => ⟨f v, pos', by simp [e1], e2, e3⟩⟩
  | some r =>
    obtain ⟨v, rest⟩ := r
    obtain ⟨k, k1, k2, k3⟩ := h1 v rest hq
    refine ⟨?_, by simp⟩
    intro l' rest' hm'
    simp only [Option.map_some, Option.some.injEq, Prod.mk.injEq] at hm'
    obtain ⟨rfl, rfl⟩ := hm'
    exact ⟨k, k1, k2, by simp [k3]⟩

theorem ref_bytes {α} (n : Nat) (f : Option (List Byte) → α) (g : List Byte → α)
    (hfg : ∀ b, f (some b) = g b) :
    Ref (fun c => match c.readImpl n with | none => none | some (b, c') => some (f b, c'))
      (fun b => (take? n b).map fun r => (g r.1, r.2)) := by
  intro buf pos hp hs
  simp only [readImpl_eq' hp hs, take?, List.length_drop]
  by_cases h : pos + n ≤ buf.length
  · have h' : n ≤ buf.length - pos := by omega
    simp only [h, h', if_true, Option.map_some, List.drop_drop]
    refine ⟨?_, by simp⟩
    intro l' rest' hm'
    simp only [Option.some.injEq, Prod.mk.injEq] at hm'
    obtain ⟨rfl, rfl⟩ := hm'
    exact ⟨n, h, rfl, by rw [hfg]⟩
  · have h' : ¬ n ≤ buf.length - pos := by omega
    simp only [h, h', if_false, Option.map_none]
    exact ⟨by simp, fun _ => ⟨_, pos, rfl, Nat.le_refl _, hp⟩⟩

theorem ref_pure {α} (a : α) : Ref (fun c => some (a, c)) (fun b => some (a, b)) := by
  intro buf pos hp hs
  refine ⟨?_, by simp⟩
  intro l' rest' hm'
  simp only [Option.some.injEq, Prod.mk.injEq] at hm'
  obtain ⟨rfl, rfl⟩ := hm'
  exact ⟨0, hp, rfl, rfl⟩

theorem ref_congr {α} {rd rd' : Cursor → Option (α × Cursor)}
    {p p' : List Byte → Option (α × List Byte)} (h : Ref rd p) (h1 : ∀ c, rd' c = rd c)
    (h2 : ∀ b, p' b = p b) : Ref rd' p' := by
  have e1 : rd' = rd := funext h1
  have e2 : p' = p := funext h2
  rw [e1, e2]; exact h

/-! ### Typing of defaults and results -/

theorem default_hasTy (t : Ty) (h : TyOK t) : HasTy t (default t) := by
  induction t using Ty.ind with
  | hscalar n => simp [HasTy, default]
  | hstr => simp [HasTy, default]
  | hvec t ih => simp [HasTy, default]
  | hmap lt k v ihk ihv => simp [HasTy, default]
  | hset lt t ih => simp [HasTy, default]
  | hopt t ih => simp [HasTy, default]
  | hpair a b iha ihb =>
    simp only [TyOK] at h
    simp [HasTy, default, iha h.1, ihb h.2]
  | hvariant ts ih =>
    simp only [TyOK] at h
    cases ts with
    | nil => exact absurd rfl h.1
    | cons t ts =>
      simp [HasTy, default, HasAlt, ih t (by simp) (allOK_mem h.2 t (by simp))]

/-- What reading leaves in the destination when the error flag is already set. -/
def afterErr : Ty → Val → Val
  | .scalar _, old => old
  | .str, _ => .str []
  | .vec _, _ => .vec []
  | .map .., _ => .map []
  | .set .., _ => .set []
  | .opt _, _ => .none
  | .pair .., old => old
  | .variant _, old => old

theorem readImpl_err {c : Cursor} (he : c.err = true) (n : Nat) :
    c.readImpl n = some (none, c) := by
  cases c
  simp only at he
  subst he
  simp [Cursor.readImpl, Cursor.peekImpl]

theorem readInto_err (t : Ty) (old : Val) (ht : HasTy t old) (c : Cursor) (he : c.err = true) :
    readInto t old c = some (afterErr t old, c) := by
  have hu : ∀ n, c.readUInt n = some (0, c) := by
    intro n; simp [Cursor.readUInt, he]
  cases t with
  | scalar n =>
    cases old <;> simp only [HasTy] at ht
    simp [readInto, readImpl_err he, afterErr]
  | str =>
    cases old <;> simp only [HasTy] at ht
    simp [readInto, hu, afterErr]
  | vec t =>
    cases old <;> simp only [HasTy] at ht
    cases t <;> simp [readInto, hu, afterErr, readLoop]
  | map lt k v =>
    cases old <;> simp only [HasTy] at ht
    simp [readInto, hu, afterErr, readLoop]
  | set lt t =>
    cases old <;> simp only [HasTy] at ht
    simp [readInto, hu, afterErr, readLoop]
  | opt t => simp [readInto, hu, afterErr, he]
  | pair a b =>
    cases old <;> simp only [HasTy] at ht
    simp [readInto, afterErr, he]
  | variant ts => simp [readInto, hu, afterErr, he]

theorem readAlt_eq (ts : List Ty) (old : Val) (base i : Nat) (c : Cursor) :
    readAlt ts old base i c = match ts[i]? with
      | none => some (old, c.notifyError)
      | some t => match (if c.err then some (default t, c) else readInto t (default t) c) with
        | .none => .none
        | .some (v, c') => if !c'.err then .some (.var (base + i) v, c') else .some (old, c') := by
  induction ts generalizing base i with
  | nil => simp [readAlt]
  | cons t ts ih =>
    cases i with
    | zero =>
      simp only [readAlt, if_true, List.getElem?_cons_zero, Nat.add_zero]
      rfl
    | succ i =>
      simp only [readAlt, Nat.add_one_ne_zero, if_false, Nat.add_sub_cancel, ih,
        List.getElem?_cons_succ]
      have : base + 1 + i = base + (i + 1) := by omega
      rw [this]

theorem many?_scalar (n k : Nat) (b : List Byte) :
    many? (parse (.scalar n)) k b =
      if k * n ≤ b.length then some (chunks n k b, b.drop (k * n)) else none := by
  induction k generalizing b with
  | zero => simp [many?, chunks]
  | succ k ih =>
    have hp : parse (.scalar n) b = if n ≤ b.length then some (.scalar (b.take n), b.drop n)
        else none := by
      rw [parse_scalar]; simp only [take?]; split <;> rfl
    rw [many?, hp]
    have hm : (k + 1) * n = n + k * n := by rw [Nat.succ_mul]; omega
    rw [hm]
    generalize k * n = x at ih
    by_cases h : n ≤ b.length
    · simp only [h, if_true, ih, List.length_drop]
      by_cases h2 : n + x ≤ b.length
      · have : x ≤ b.length - n := by omega
        simp only [h2, this, if_true, chunks, List.drop_drop]
      · have : ¬ x ≤ b.length - n := by omega
        simp [h2, this]
    · have : ¬ n + x ≤ b.length := by omega
      simp [h, this]

theorem chunks_take (n k m : Nat) (b : List Byte) (h : k * n ≤ m) :
    chunks n k (b.take m) = chunks n k b := by
  induction k generalizing b m with
  | zero => rfl
  | succ k ih =>
    have hm : (k + 1) * n = n + k * n := by rw [Nat.succ_mul]; omega
    rw [hm] at h
    simp only [chunks, List.take_take, List.drop_take]
    rw [ih _ _ (by omega), Nat.min_eq_left (by omega)]

/-! ### The main refinement -/

theorem foldl_snoc (l acc : List Val) : l.foldl (fun acc v => acc ++ [v]) acc = acc ++ l := by
  induction l generalizing acc with
  | nil => simp
  | cons x l ih => simp [ih]

theorem ref_readLoop {α β} {rd : Cursor → Option (α × Cursor)}
    {p : List Byte → Option (α × List Byte)} (h : Ref rd p) (ins : List α → α → List α)
    (f : List α → β) (n : Nat) :
    Ref (fun c => match readLoop rd ins n [] c with
        | .none => .none
        | .some (l, c2) => .some (f l, c2))
      (fun b => (many? p n b).map fun r => (f (r.1.foldl ins []), r.2)) := by
  intro buf pos hp hs
  obtain ⟨h1, h2⟩ := ref_loop h ins n [] buf pos hp hs
  dsimp only
  cases hq : many? p n (buf.drop pos) with
  | none =>
    obtain ⟨pos', e1, e2, e3⟩ := h2 hq
    exact ⟨by simp, fun _ => ⟨f [], pos', by simp [e1], e2, e3⟩⟩
  | some r =>
    obtain ⟨v, rest⟩ := r
    obtain ⟨k, k1, k2, k3⟩ := h1 v rest hq
    refine ⟨?_, by simp⟩
    intro l' rest' hm'
    simp only [Option.map_some, Option.some.injEq, Prod.mk.injEq] at hm'
    obtain ⟨rfl, rfl⟩ := hm'
    exact ⟨k, k1, k2, by simp [k3]⟩

theorem ref_readInto (t : Ty) (hk : TyOK t) (old : Val) (ht : HasTy t old) :
    Ref (readInto t old) (parse t) := by
  induction t using Ty.ind generalizing old with
  | hscalar n =>
    cases old <;> simp only [HasTy] at ht
    rename_i o
    rw [parse_scalar]
    refine ref_congr (ref_bytes n (fun b => Val.scalar (b.getD o)) Val.scalar (by simp)) ?_ (by simp)
    intro c
    simp only [readInto]
    cases c.readImpl n with
    | none => rfl
    | some r => obtain ⟨_ | b, c'⟩ := r <;> rfl
  | hstr =>
    cases old <;> simp only [HasTy] at ht
    rw [parse_str]
    refine ref_congr (ref_num (k := 4) (f := fun size c1 => if size = 0 then some (Val.str [], c1)
      else match c1.readImpl size with
        | .none => .none
        | .some (b, c2) =>
          .some (.str (if c2.err then [] else b.getD (List.replicate size 0)), c2))
      (q := fun n b => (take? n b).map fun r => (.str r.1, r.2)) ?_ ?_) ?_ (by simp)
    · intro n
      by_cases h0 : n = 0
      · subst h0
        refine ref_congr (ref_pure (Val.str [])) (by simp) (by simp [take?])
      · intro buf pos hp hs
        have := ref_bytes n (fun b => Val.str (b.getD [])) Val.str (by simp) buf pos hp hs
        simp only [h0, if_false, readImpl_eq' hp hs] at this ⊢
        by_cases h : pos + n ≤ buf.length
        · simp only [h, if_true, Option.getD_some] at this ⊢
          simpa using this
        · simp only [h, if_false] at this ⊢
          simpa using this
    · intro buf pos; refine ⟨Val.str [], ?_⟩; simp only [if_true]
    · intro c; simp only [readInto]; rfl
  | hvec t ih =>
    cases old <;> simp only [HasTy] at ht
    rename_i o
    simp only [TyOK] at hk
    rw [parse_vec]
    by_cases hsc : ∃ n, t = .scalar n
    · obtain ⟨n, rfl⟩ := hsc
      refine ref_congr (ref_num (k := 4) (f := fun size c1 => if size = 0 then some (Val.vec [], c1)
        else match c1.readImpl (size * n) with
          | .none => .none
          | .some (b, c2) =>
            .some (.vec (if c2.err then []
              else chunks n size (b.getD (List.replicate (size * n) 0))), c2))
        (q := fun k b => (many? (parse (.scalar n)) k b).map fun r => (.vec r.1, r.2)) ?_ ?_) ?_
        (by simp)
      · intro k
        by_cases h0 : k = 0
        · subst h0
          refine ref_congr (ref_pure (Val.vec [])) (by simp) (by simp [many?])
        · intro buf pos hp hs
          have := ref_bytes (k * n) (fun b => Val.vec (chunks n k (b.getD [])))
            (fun b => Val.vec (chunks n k b)) (by simp) buf pos hp hs
          simp only [h0, if_false, readImpl_eq' hp hs, many?_scalar, take?, List.length_drop,
            List.drop_drop] at this ⊢
          by_cases h : pos + k * n ≤ buf.length
          · have h' : k * n ≤ buf.length - pos := by omega
            simp only [h, h', if_true, Option.getD_some, Option.map_some,
              chunks_take n k (k * n) _ (Nat.le_refl _)] at this ⊢
            simpa using this
          · have h' : ¬ k * n ≤ buf.length - pos := by omega
            simp only [h, h', if_false, Option.map_none]
            exact ⟨by simp, fun _ => ⟨_, pos, rfl, Nat.le_refl _, hp⟩⟩
      · intro buf pos; refine ⟨Val.vec [], ?_⟩; simp only [if_true]
      · intro c; simp only [readInto]; rfl
    · have hr := ref_guard (ih hk (default t) (default_hasTy t hk)) (default t)
      refine ref_congr (ref_num (k := 4) (f := fun size c1 =>
        match readLoop (fun c => if c.err then .some (default t, c)
            else readInto t (default t) c) (fun acc v => acc ++ [v]) size [] c1 with
        | .none => .none
        | .some (l, c2) => .some (Val.vec l, c2))
        (q := fun k b => (many? (parse t) k b).map fun r => (.vec r.1, r.2)) ?_ ?_) ?_ (by simp)
      · intro k
        refine ref_congr (ref_readLoop hr (fun acc v => acc ++ [v]) Val.vec k)
          (fun c => by generalize readLoop _ _ _ _ _ = x; rcases x with _ | ⟨l, c2⟩ <;> rfl) ?_
        intro b
        simp only [foldl_snoc, List.nil_append]
      · intro buf pos; refine ⟨Val.vec [], ?_⟩; simp only [readLoop]
      · intro c
        cases t <;> first | exact absurd ⟨_, rfl⟩ hsc | (simp only [readInto]; rfl)
  | hmap lt k v ihk ihv =>
    cases old <;> simp only [HasTy] at ht
    simp only [TyOK] at hk
    rw [parse_map]
    have hr := ref_pair (ref_guard (ihk hk.2.1 (default k) (default_hasTy k hk.2.1)) (default k))
      (ref_guard (ihv hk.2.2 (default v) (default_hasTy v hk.2.2)) (default v))
      (fun buf pos => ⟨default v, by simp⟩)
    refine ref_congr (ref_num (k := 4) (f := fun size c1 =>
      match readLoop (readPair
          (fun c => if c.err then .some (default k, c) else readInto k (default k) c)
          (fun c => if c.err then .some (default v, c) else readInto v (default v) c))
          (insertSorted (fun a b => lt a.1 b.1)) size [] c1 with
      | .none => .none
      | .some (l, c2) => .some (Val.map l, c2))
      (q := fun n b => (many? (both? (parse k) (parse v)) n b).map
        fun r => (.map (r.1.foldl (insertSorted fun a b => lt a.1 b.1) []), r.2)) ?_ ?_) ?_
      (by simp)
    · intro n
      exact ref_congr (ref_readLoop hr (insertSorted (fun a b => lt a.1 b.1)) Val.map n)
        (fun c => by generalize readLoop _ _ _ _ _ = x; rcases x with _ | ⟨l, c2⟩ <;> rfl) (fun _ => rfl)
    · intro buf pos; refine ⟨Val.map [], ?_⟩; simp only [readLoop]
    · intro c; simp only [readInto]; rfl
  | hset lt t ih =>
    cases old <;> simp only [HasTy] at ht
    simp only [TyOK] at hk
    rw [parse_set]
    have hr := ref_guard (ih hk.2 (default t) (default_hasTy t hk.2)) (default t)
    refine ref_congr (ref_num (k := 4) (f := fun size c1 =>
      match readLoop (fun c => if c.err then .some (default t, c)
          else readInto t (default t) c) (insertSorted lt) size [] c1 with
      | .none => .none
      | .some (l, c2) => .some (Val.set l, c2))
      (q := fun n b => (many? (parse t) n b).map
        fun r => (.set (r.1.foldl (insertSorted lt) []), r.2)) ?_ ?_) ?_ (by simp)
    · intro n
      exact ref_congr (ref_readLoop hr (insertSorted lt) Val.set n)
        (fun c => by generalize readLoop _ _ _ _ _ = x; rcases x with _ | ⟨l, c2⟩ <;> rfl) (fun _ => rfl)
    · intro buf pos; refine ⟨Val.set [], ?_⟩; simp only [readLoop]
    · intro c; simp only [readInto]; rfl
  | hopt t ih =>
    simp only [TyOK] at hk
    rw [parse_opt]
    have hr := ref_guard (ih hk (default t) (default_hasTy t hk)) (default t)
    refine ref_congr (ref_num (k := 1) (f := fun flag c1 =>
      if !c1.err && flag != 0 then
        match (if c1.err then .some (default t, c1) else readInto t (default t) c1) with
        | .none => .none
        | .some (v, c2) => .some (Val.some v, c2)
      else .some (Val.none, c1))
      (q := fun n b => if n = 0 then some (Val.none, b)
        else (parse t b).map fun r => (Val.some r.1, r.2)) ?_ ?_) ?_ (by simp)
    · intro n
      by_cases h0 : n = 0
      · subst h0
        refine ref_congr (ref_pure Val.none) (by simp) (by simp)
      · intro buf pos hp hs
        have := ref_map (ih hk (default t) (default_hasTy t hk)) Val.some buf pos hp hs
        have hb : (!false && n != 0) = true := by simp [h0]
        simp only [h0, hb, if_true, Bool.false_eq_true, if_false]
        dsimp only at this
        generalize readInto t (default t) ⟨buf, pos, false⟩ = x at this ⊢
        rcases x with _ | ⟨l, c2⟩ <;> exact this
    · intro buf pos; exact ⟨.none, by simp⟩
    · intro c; simp only [readInto]; rfl
  | hpair a b iha ihb =>
    cases old <;> simp only [HasTy] at ht
    rename_i x y
    simp only [TyOK] at hk
    rw [parse_pair]
    intro buf pos hp hs
    obtain ⟨h1, h2⟩ := iha hk.1 x ht.1 buf pos hp hs
    simp only [both?]
    cases hq : parse a (buf.drop pos) with
    | none =>
      obtain ⟨v, pos', e1, e2, e3⟩ := h2 hq
      exact ⟨by simp, fun _ => ⟨.pair v y, pos', by simp [readInto, e1], e2, e3⟩⟩
    | some r =>
      obtain ⟨v, rest⟩ := r
      obtain ⟨k, k1, k2, k3⟩ := h1 v rest hq
      obtain ⟨i1, i2⟩ := ihb hk.2 y ht.2 buf (pos + k) k1 hs
      subst k2
      simp only
      cases hm : parse b (buf.drop (pos + k)) with
      | none =>
        obtain ⟨w, pos', e1, e2, e3⟩ := i2 hm
        exact ⟨by simp, fun _ => ⟨.pair v w, pos', by simp [readInto, k3, e1], by omega, e3⟩⟩
      | some r =>
        obtain ⟨w, rest⟩ := r
        obtain ⟨k', e1, e2, e3⟩ := i1 w rest hm
        refine ⟨?_, by simp⟩
        intro l' rest' hm'
        simp only [Option.map_some, Option.some.injEq, Prod.mk.injEq] at hm'
        obtain ⟨rfl, rfl⟩ := hm'
        exact ⟨k + k', by omega, by rw [e2, Nat.add_assoc],
          by simp [readInto, k3, e3, Nat.add_assoc]⟩
  | hvariant ts ih =>
    simp only [TyOK] at hk
    rw [parse_variant]
    refine ref_congr (ref_num (k := 1) (f := fun index c1 =>
      if !c1.err then readAlt ts old 0 index c1 else .some (old, c1))
      (q := fun n b => (parseAlt ts n b).map fun x => (Val.var n x.1, x.2)) ?_ ?_) ?_ (by simp)
    · intro n buf pos hp hs
      simp only [Bool.not_false, if_true, readAlt_eq, parseAlt_eq, Nat.zero_add]
      cases htn : ts[n]? with
      | none =>
        simp only [Option.bind_none, Option.map_none]
        exact ⟨by simp, fun _ => ⟨_, pos, rfl, Nat.le_refl _, hp⟩⟩
      | some t =>
        have hm := List.mem_of_getElem? htn
        have htk := allOK_mem hk.2 t hm
        obtain ⟨h1, h2⟩ := ih t hm htk (default t) (default_hasTy t htk) buf pos hp hs
        simp only [Option.bind_some, Bool.false_eq_true, if_false]
        cases hq : parse t (buf.drop pos) with
        | none =>
          obtain ⟨v, pos', e1, e2, e3⟩ := h2 hq
          exact ⟨by simp, fun _ => ⟨old, pos', by simp [e1], e2, e3⟩⟩
        | some r =>
          obtain ⟨v, rest⟩ := r
          obtain ⟨k, k1, k2, k3⟩ := h1 v rest hq
          refine ⟨?_, by simp⟩
          intro l' rest' hm'
          simp only [Option.map_some, Option.some.injEq, Prod.mk.injEq] at hm'
          obtain ⟨rfl, rfl⟩ := hm'
          exact ⟨k, k1, k2, by simp [k3]⟩
    · intro buf pos; exact ⟨old, by simp⟩
    · intro c; simp only [readInto]; rfl

end Verif.BinaryRW
