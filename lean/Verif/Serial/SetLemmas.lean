import Verif.Serial.Unique
/-
Lemmas: reading and writing enums and sets of them.
-/
namespace Verif.Serial
open Verif.Path Verif.Enums Spec

variable {σ : Type}

theorem includes_iff {e : EnumTy} {n : Nat} {v : Int} :
    includes e n v = true ↔ ∀ i, i < e.under.w → bit e v i = true → n.testBit i = true := by
  simp only [includes, List.all_eq_true, List.mem_range, Bool.or_eq_true, Bool.not_eq_true']
  constructor
  · intro h i hi hb
    rcases h i hi with h | h
    · rw [hb] at h; cases h
    · exact h
  · intro h i hi
    cases hb : bit e v i with
    | false => exact .inl rfl
    | true => exact .inr (h i hi hb)

theorem bit_lt {e : EnumTy} {v : Int} {i : Nat} (h : bit e v i = true) : i < e.under.w := by
  unfold bit at h
  exact BitVec.lt_of_getLsbD h

theorem test_eq {e : EnumTy} {n : Nat} {v : Int} :
    (⟨BitVec.ofNat e.under.w n⟩ : EnumSet e.under.signed e.under.w).test (BitVec.ofInt e.under.w v) =
      includes e n v := by
  rw [Bool.eq_iff_iff, includes_iff]
  unfold EnumSet.test EnumSet.hasAllE
  rw [(C53_queries _ _).1]
  simp only [EnumSet.Mem, EnumSet.of, bit, BitVec.getLsbD_ofNat]
  constructor
  · intro h i hi hb
    have := h i hi hb
    simp only [Bool.and_eq_true] at this
    exact this.2
  · intro h i hi hb
    simp [hi, h i hi hb]

theorem setMembers_eq (e : EnumTy) (n : Nat) :
    setMembers e n = (e.entries.filter fun x => includes e n x.value).map (·.value) := by
  unfold setMembers values
  rw [List.filter_map]
  congr 1
  apply List.filter_congr
  intro x _
  exact test_eq

/-- The name of a listed value reads as the value. -/
theorem name_back {e : EnumTy} (hn : namesOnce e) {v : Int} (hv : ∃ x ∈ e.entries, x.value = v) :
    ∃ x, e.entries.find? (fun x => txt x.name == nameOf e v) = some x ∧ x.value = v := by
  obtain ⟨x, hx, rfl⟩ := hv
  have : ∃ y, e.entries.find? (fun y => y.value = x.value) = some y := by
    cases h : e.entries.find? (fun y => y.value = x.value) with
    | some y => exact ⟨y, rfl⟩
    | none => rw [List.find?_eq_none] at h; exact absurd (h x hx) (by simp)
  obtain ⟨y, hy⟩ := this
  have hym := List.mem_of_find?_eq_some hy
  have hyv : y.value = x.value := by simpa using List.find?_some hy
  have hname : nameOf e x.value = txt y.name := by rw [nameOf, hy]; rfl
  rw [hname]
  cases hz : e.entries.find? (fun z => txt z.name == txt y.name) with
  | none => rw [List.find?_eq_none] at hz; exact absurd (hz y hym) (by simp)
  | some z =>
    have hzm := List.mem_of_find?_eq_some hz
    have hzn : txt z.name = txt y.name := by simpa using List.find?_some hz
    have : z = y := by
      unfold namesOnce at hn
      rw [List.Nodup, List.pairwise_map] at hn
      clear hy hz
      generalize e.entries = l at hn hym hzm
      induction l with
      | nil => cases hym
      | cons a l ih =>
        rw [List.pairwise_cons] at hn
        rcases List.mem_cons.1 hym with rfl | h1 <;> rcases List.mem_cons.1 hzm with rfl | h2
        · rfl
        · exact absurd hzn.symm (hn.1 z h2)
        · exact absurd hzn (hn.1 y h1)
        · exact ih hn.2 h1 h2
    exact ⟨z, rfl, this ▸ hyv⟩

theorem deserSet_ok {B : Backend σ} {e : EnumTy} : ∀ {l : List (Doc σ)}
    {s0 s : EnumSet e.under.signed e.under.w}, deserSet B e l s0 = .ok s ↔
    ∃ ns, Each (fun d n => deserEnum B e d = .ok n) l ns ∧
      ∀ i, i < e.under.w → (s.Mem i ↔ s0.Mem i ∨ ∃ n ∈ ns, bit e n i = true)
  | [], s0, s => by
    simp only [deserSet, Except.ok.injEq]
    constructor
    · rintro rfl; exact ⟨[], .nil, by simp⟩
    · rintro ⟨ns, h, h'⟩
      cases h
      rw [set_ext]
      intro i hi
      simp [h' i hi]
  | d :: ds, s0, s => by
    simp only [deserSet]
    cases hd : deserEnum B e d with
    | error x =>
      simp only [reduceCtorEq, false_iff]
      rintro ⟨ns, h, -⟩
      cases h with
      | cons h _ => rw [hd] at h; cases h
    | ok n =>
      simp only
      rw [deserSet_ok]
      have hm : ∀ i, i < e.under.w → ((s0.orAssignE (BitVec.ofInt e.under.w n)).Mem i ↔
          s0.Mem i ∨ bit e n i = true) := by
        intro i hi
        have := (C53_bits s0 (.of (BitVec.ofInt e.under.w n)) i hi).1
        exact this
      constructor
      · rintro ⟨ns, h1, h2⟩
        refine ⟨n :: ns, .cons hd h1, ?_⟩
        intro i hi
        rw [h2 i hi, hm i hi]
        simp [or_assoc]
      · rintro ⟨ns, h1, h2⟩
        cases h1 with
        | cons h3 h1 =>
          rw [hd] at h3
          cases h3
          refine ⟨_, h1, ?_⟩
          intro i hi
          rw [h2 i hi, hm i hi]
          simp [or_assoc]

/-- What is written for a set. -/
theorem ser_set {B : Backend σ} {s : Bool} {e : EnumTy} (he : enumOk e = true) (n : Nat) :
    ser B s (.enumSet e) (.bits n) = .ok (.arr ((e.entries.filter fun x => includes e n x.value).map
      fun x => .scalar (B.serLeaf .str (.str (nameOf e x.value))))) := by
  have key : ∀ l : List Entry, (∀ x ∈ l, x ∈ e.entries) →
      mapAll (fun m => (enumName e m).map fun s => Doc.scalar (B.serLeaf .str (.str s))) (l.map (·.value)) =
      .ok (l.map fun x => .scalar (B.serLeaf .str (.str (nameOf e x.value)))) := by
    intro l hl
    induction l with
    | nil => rfl
    | cons x l ih =>
      have hx := (enumOk_iff.1 he).2.2 x (hl x (by simp))
      simp only [List.map_cons, mapAll, enumName_eq he hx]
      rw [ih fun y hy => hl y (List.mem_cons_of_mem _ hy)]
      rfl
  simp only [ser, setMembers_eq]
  rw [key _ (fun x hx => (List.mem_filter.1 hx).1)]
  rfl

theorem each_map {α β γ : Type} {R : β → γ → Prop} {f : α → β} {g : α → γ} {l : List α}
    (h : ∀ x ∈ l, R (f x) (g x)) : Each R (l.map f) (l.map g) := by
  induction l with
  | nil => exact .nil
  | cons x l ih => exact .cons (h x (by simp)) (ih fun y hy => h y (List.mem_cons_of_mem _ hy))

theorem each_unique {α β : Type} {R : α → β → Prop} (hR : ∀ x y z, R x y → R x z → y = z) {l : List α}
    {a b : List β} (ha : Each R l a) (hb : Each R l b) : a = b := by
  induction ha generalizing b with
  | nil => cases hb; rfl
  | cons h1 h2 ih => cases hb with | cons h3 h4 => rw [hR _ _ _ h1 h3, ih h4]

theorem name_read {B : Backend σ} (hB : Lawful B) {e : EnumTy} (hn : namesOnce e) {v : Int}
    (hv : ∃ x ∈ e.entries, x.value = v) :
    deserEnum B e (.scalar (B.serLeaf .str (.str (nameOf e v)))) = .ok v := by
  rw [deserEnum_ok]
  refine ⟨nameOf e v, hB.leaf .str _ (by simp [tyOk]) (by simp [hasLeaf]), ?_⟩
  exact name_back hn hv

/-- Reading back what was written for a set gives the bits of the listed enumerators. -/
theorem set_back {B : Backend σ} (hB : Lawful B) {E : Env} {s : Bool} {e : EnumTy} (he : enumOk e = true)
    (hn : namesOnce e) {n : Nat} {old : Value} {d : Doc σ} (h : ser B s (.enumSet e) (.bits n) = .ok d) :
    ∃ m, deser B E (.enumSet e) old d = .ok (.bits m) ∧ m < 2 ^ e.under.w ∧
      ∀ i, m.testBit i = true ↔ ∃ x ∈ e.entries, includes e n x.value = true ∧ bit e x.value i = true := by
  rw [ser_set he] at h
  cases h
  have hE : Each (fun d n => deserEnum B e d = .ok n)
      ((e.entries.filter fun x => includes e n x.value).map
        fun x => Doc.scalar (B.serLeaf .str (.str (nameOf e x.value))))
      ((e.entries.filter fun x => includes e n x.value).map (·.value)) := by
    apply each_map
    intro x hx
    exact name_read hB hn ⟨x, (List.mem_filter.1 hx).1, rfl⟩
  have hsome : ∀ {l : List (Doc σ)} {ns : List Int} (s0 : EnumSet e.under.signed e.under.w),
      Each (fun d n => deserEnum B e d = .ok n) l ns → ∃ s, deserSet B e l s0 = .ok s := by
    intro l ns s0 h
    induction h generalizing s0 with
    | nil => exact ⟨s0, rfl⟩
    | cons h1 h2 ih => simp only [deserSet, h1]; exact ih _
  obtain ⟨r, hr⟩ := hsome .empty hE
  refine ⟨r.value.toNat, ?_, BitVec.isLt _, ?_⟩
  · simp only [deser, elements, hr, Except.map]
  · intro i
    obtain ⟨ns, h1, h2⟩ := deserSet_ok.1 hr
    have : ns = _ := each_unique (fun x y z h h' => by rw [h] at h'; cases h'; rfl) h1 hE
    subst this
    rw [BitVec.testBit_toNat]
    constructor
    · intro h
      have hi := BitVec.lt_of_getLsbD h
      rcases (h2 i hi).1 h with h | ⟨n', hn', hb⟩
      · simp [EnumSet.Mem, EnumSet.empty] at h
      · obtain ⟨x, hx, rfl⟩ := List.mem_map.1 hn'
        exact ⟨x, (List.mem_filter.1 hx).1, (List.mem_filter.1 hx).2, hb⟩
    · rintro ⟨x, hx, hi, hb⟩
      exact (h2 i (bit_lt hb)).2 (.inr ⟨x.value, List.mem_map.2 ⟨x, List.mem_filter.2 ⟨hx, hi⟩, rfl⟩, hb⟩)

theorem set_back_iff {B : Backend σ} (hB : Lawful B) {E : Env} {s : Bool} {e : EnumTy} (he : enumOk e = true)
    (hn : namesOnce e) {n : Nat} {old : Value} {d : Doc σ} (h : ser B s (.enumSet e) (.bits n) = .ok d) :
    deser B E (.enumSet e) old d = .ok (.bits n) ↔ Covered e n := by
  obtain ⟨m, hm, -, hb⟩ := set_back (E := E) (old := old) hB he hn h
  rw [hm]
  simp only [Except.ok.injEq, Value.bits.injEq]
  constructor
  · rintro rfl i hi; exact (hb i).1 hi
  · intro hc
    apply Nat.eq_of_testBit_eq
    intro i
    rw [Bool.eq_iff_iff, hb i]
    constructor
    · rintro ⟨x, -, h1, h2⟩; exact includes_iff.1 h1 i (bit_lt h2) h2
    · exact hc i

end Verif.Serial
