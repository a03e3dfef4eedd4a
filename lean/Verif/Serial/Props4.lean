import Verif.Serial.Props3
import Verif.Serial.Builder
/-
The properties C89 and C90: builders and extractors.
-/
namespace Verif.Serial
open Verif.Path Verif.Enums Spec Sample

variable {σ : Type}

namespace Spec

/-- Where the calls of an array extractor read: at the index given, else behind the element
read last; a call that throws does not move on. -/
def Positions (cs : List ArrayExtractor.Call) (rs : List (Res Value)) (p : Nat → Nat) : Prop :=
  (∀ i t o k, cs[i]? = some (.at t o k) → p i = k) ∧
  (∀ t o, cs[0]? = some (.next t o) → p 0 = 0) ∧
  (∀ i t o v, cs[i + 1]? = some (.next t o) → rs[i]? = some (.ok v) → p (i + 1) = (p i + 1) % 2 ^ 32) ∧
  ∀ i t o e, cs[i + 1]? = some (.next t o) → rs[i]? = some (.error e) → p (i + 1) = p i

def callTy : ArrayExtractor.Call → Ty
  | .next t _ => t
  | .at t _ _ => t
def callOld : ArrayExtractor.Call → Value
  | .next _ o => o
  | .at _ o _ => o

/-- A document read at position `p`: a line is added to what it throws. -/
def ReadsAt (B : Backend σ) (E : Env) (t : Ty) (old : Value) (l : List (Doc σ)) (p : Nat) (r : Res Value) : Prop :=
  (∀ v, r = .ok v ↔ deser B E t old (element l p) = .ok v) ∧
  (∀ w, deser B E t old (element l p) = .error (.deser w) → r = .error (.deser (text w [elementLine p]))) ∧
  ∀ e, deser B E t old (element l p) = .error e → (∀ w, e ≠ .deser w) → r = .error e

/-- The values serialise to the documents. -/
def Written (B : Backend σ) (s : Bool) : List (Ty × Value) → List (Doc σ) → Prop :=
  Each fun a d => ser B s a.1 a.2 = .ok d

end Spec

/-! ### Backends -/

/-- The requirements of a backend whose `add_field` may overwrite. -/
def Spec.Good (B : Backend σ) : Prop := Lawful (appending B) ∧ AppendsNew B

theorem lawful_good {B : Backend σ} (h : Lawful B) : Good B := by
  refine ⟨⟨fun _ _ _ => rfl, h.dump, h.leaf, h.null, h.typed, h.polite⟩, fun ms k d _ => h.add ms k d⟩

theorem json_good (ofInt : Int → BitVec 64) : Good (json ofInt) := lawful_good (json_lawful ofInt)

theorem yaml_good {c : Yaml.Conv} (hc : Faithful c) : Good (yaml c) := ⟨yaml_lawful hc, yaml_appends c⟩

theorem good_back {B : Backend σ} (hB : Good B) {E : Env} {s : Bool} {t : Ty} (ht : tyOk t = true)
    {old v : Value} (ho : HasTy t old) (hv : HasTy t v) (hk : Keeps E s t old v) {d : Doc σ}
    (h : ser B s t v = .ok d) : deser B E t old d = .ok v := by
  rw [ser_appending hB.1 hB.2 t ht v hv] at h
  rw [← deser_appending]
  exact C41_kept hB.1 ht ho hv hk h

/-! ### C89 Arrays -/

/-- Adding the values one after another; throws what the first failing `add` throws. -/
def ArrayBuilder.addAll (B : Backend σ) (s : Bool) (b : ArrayBuilder σ) : List (Ty × Value) → Res (ArrayBuilder σ)
  | [] => .ok b
  | (t, v) :: l =>
    match b.add B s t v with
    | .error e => .error e
    | .ok b => b.addAll B s l

/-- C89: the builder's array holds what the values serialise to, in order. -/
theorem C89_built {B : Backend σ} {s : Bool} : ∀ {vs : List (Ty × Value)} {b b' : ArrayBuilder σ},
    b.addAll B s vs = .ok b' ↔ ∃ ds, Written B s vs ds ∧ b'.items = b.items ++ ds
  | [], b, b' => by
    simp only [ArrayBuilder.addAll, Except.ok.injEq, Written]
    constructor
    · rintro rfl; exact ⟨[], .nil, by simp⟩
    · rintro ⟨ds, h', h⟩
      cases h'
      cases b; cases b'
      simp at h
      rw [h]
  | (t, v) :: vs, b, b' => by
    simp only [ArrayBuilder.addAll, ArrayBuilder.add]
    cases h : ser B s t v with
    | error e =>
      simp only [reduceCtorEq, false_iff]
      rintro ⟨ds, hw, -⟩
      cases hw with
      | cons hd _ => simp only [h] at hd; cases hd
    | ok d =>
      simp only
      rw [C89_built]
      constructor
      · rintro ⟨ds, hw, h'⟩
        exact ⟨d :: ds, .cons h hw, by rw [h']; simp [ArrayBuilder.addDoc]⟩
      · rintro ⟨ds, hw, h'⟩
        cases hw with
        | cons hd hw =>
          simp only [h] at hd
          cases hd
          exact ⟨_, hw, by rw [h']; simp [ArrayBuilder.addDoc]⟩

theorem call_reads (B : Backend σ) (E : Env) (x : ArrayExtractor σ) (c : ArrayExtractor.Call) : ∃ p,
    (∀ t o k, c = .at t o k → p = k) ∧ (∀ t o, c = .next t o → p = x.index) ∧
    ReadsAt B E (callTy c) (callOld c) x.items p (x.call B E c).1 ∧
    (x.call B E c).2.items = x.items ∧
    (∀ v, (x.call B E c).1 = .ok v → (x.call B E c).2.index = (p + 1) % 2 ^ 32) ∧
    (∀ e, (x.call B E c).1 = .error e → (x.call B E c).2.index = p) := by
  have key : ∀ (y : ArrayExtractor σ) (t : Ty) (o : Value),
      ReadsAt B E t o y.items y.index (y.extract B E t o).1 ∧ (y.extract B E t o).2.items = y.items ∧
      (∀ v, (y.extract B E t o).1 = .ok v → (y.extract B E t o).2.index = (y.index + 1) % 2 ^ 32) ∧
      (∀ e, (y.extract B E t o).1 = .error e → (y.extract B E t o).2.index = y.index) := by
    intro y t o
    unfold ReadsAt ArrayExtractor.extract
    have he : atIndex y.items y.index = element y.items y.index := rfl
    rw [he]
    cases h : deser B E t o (element y.items y.index) with
    | ok v => simp
    | error e =>
      refine ⟨⟨by simp, ?_, ?_⟩, rfl, by simp, by simp⟩
      · intro w hw
        cases hw
        rfl
      · intro e' he' hn
        cases he'
        cases e with
        | deser w => exact absurd rfl (hn w)
        | _ => rfl
  cases c with
  | next t o =>
    obtain ⟨h1, h2, h3, h4⟩ := key x t o
    exact ⟨x.index, by simp, by simp, h1, h2, h3, h4⟩
  | «at» t o k =>
    obtain ⟨h1, h2, h3, h4⟩ := key { x with index := k } t o
    exact ⟨k, by simp, by simp, h1, h2, h3, h4⟩

theorem calls_reads {B : Backend σ} {E : Env} : ∀ (cs : List ArrayExtractor.Call) (x : ArrayExtractor σ),
    ∃ p : Nat → Nat, (∀ i t o k, cs[i]? = some (.at t o k) → p i = k) ∧
      (∀ t o, cs[0]? = some (.next t o) → p 0 = x.index) ∧
      (∀ i t o v, cs[i + 1]? = some (.next t o) → (x.calls B E cs)[i]? = some (.ok v) →
        p (i + 1) = (p i + 1) % 2 ^ 32) ∧
      (∀ i t o e, cs[i + 1]? = some (.next t o) → (x.calls B E cs)[i]? = some (.error e) → p (i + 1) = p i) ∧
      (x.calls B E cs).length = cs.length ∧
      ∀ i c r, cs[i]? = some c → (x.calls B E cs)[i]? = some r → ReadsAt B E (callTy c) (callOld c) x.items (p i) r
  | [], x => ⟨fun _ => 0, by simp [ArrayExtractor.calls]⟩
  | c :: cs, x => by
    obtain ⟨q, h1, h2, h3, h4, h5, h6⟩ := call_reads B E x c
    obtain ⟨p, g1, g2, g3, g4, g5, g6⟩ := calls_reads (B := B) (E := E) cs (x.call B E c).2
    refine ⟨fun i => match i with | 0 => q | i + 1 => p i, ?_, ?_, ?_, ?_, ?_, ?_⟩
    · intro i t o k h
      cases i with
      | zero => exact h1 t o k (by simpa using h)
      | succ i => exact g1 i t o k (by simpa using h)
    · intro t o h
      exact h2 t o (by simpa using h)
    · intro i t o v h hr
      cases i with
      | zero =>
        simp only [ArrayExtractor.calls, List.getElem?_cons_zero, Option.some.injEq] at hr
        show p 0 = _
        rw [g2 t o (by simpa using h)]
        exact h5 v hr
      | succ i => exact g3 i t o v (by simpa using h) (by simpa [ArrayExtractor.calls] using hr)
    · intro i t o e h hr
      cases i with
      | zero =>
        simp only [ArrayExtractor.calls, List.getElem?_cons_zero, Option.some.injEq] at hr
        show p 0 = _
        rw [g2 t o (by simpa using h)]
        exact h6 e hr
      | succ i => exact g4 i t o e (by simpa using h) (by simpa [ArrayExtractor.calls] using hr)
    · simp [ArrayExtractor.calls, g5]
    · intro i c' r hc hr
      cases i with
      | zero =>
        simp only [ArrayExtractor.calls, List.getElem?_cons_zero, Option.some.injEq] at hc hr
        subst hc hr
        exact h3
      | succ i =>
        rw [← h4]
        exact g6 i c' r (by simpa using hc) (by simpa [ArrayExtractor.calls] using hr)

/-- C89: each call reads the element at the index given, else the one behind the element read
last, else the first; what is not there is null; and adds the line to what is thrown. -/
theorem C89_extracted (B : Backend σ) (E : Env) (l : List (Doc σ)) (cs : List ArrayExtractor.Call) :
    ∃ p, Positions cs (ArrayExtractor.calls B E ⟨l, 0⟩ cs) p ∧
      (ArrayExtractor.calls B E ⟨l, 0⟩ cs).length = cs.length ∧
      ∀ i c r, cs[i]? = some c → (ArrayExtractor.calls B E ⟨l, 0⟩ cs)[i]? = some r →
        ReadsAt B E (callTy c) (callOld c) l (p i) r := by
  obtain ⟨p, g1, g2, g3, g4, g5, g6⟩ := calls_reads (B := B) (E := E) cs ⟨l, 0⟩
  exact ⟨p, ⟨g1, g2, g3, g4⟩, g5, g6⟩

/-- C89: an array extractor is made of arrays only. -/
theorem C89_constructed (B : Backend σ) (d : Doc σ) :
    (∀ l, d = .arr l → ArrayExtractor.new B d = .ok ⟨l, 0⟩) ∧
    ((∀ l, d ≠ .arr l) → ArrayExtractor.new B d = .error (.deser (B.notSeq d))) := by
  refine ⟨?_, ?_⟩
  · rintro l rfl; rfl
  · intro h
    cases d with
    | arr l => exact absurd rfl (h l)
    | _ => rfl

theorem extract_all {B : Backend σ} (hB : Good B) {E : Env} {s : Bool} : ∀ (as : List ((Ty × Value) × Value))
    (before ds : List (Doc σ)), before.length + as.length < 2 ^ 32 →
    (∀ a ∈ as, tyOk a.1.1 = true ∧ HasTy a.1.1 a.2 ∧ HasTy a.1.1 a.1.2 ∧ Keeps E s a.1.1 a.2 a.1.2) →
    Written B s (as.map (·.1)) ds →
    ArrayExtractor.calls B E ⟨before ++ ds, before.length⟩ (as.map fun a => .next a.1.1 a.2) =
      as.map fun a => .ok a.1.2
  | [], _, _, _, _, _ => rfl
  | a :: as, before, ds, hl, ha, hw => by
    cases hw with
    | @cons _ d _ ds hd hw =>
      obtain ⟨h1, h2, h3, h4⟩ := ha a (by simp)
      have hr := good_back hB h1 h2 h3 h4 hd
      have hat : atIndex (before ++ d :: ds) before.length = d := by simp [atIndex]
      simp only [List.map_cons, ArrayExtractor.calls, ArrayExtractor.call, ArrayExtractor.extract, hat, hr]
      simp only [List.length_cons] at hl
      have := extract_all hB as (before ++ [d]) ds (by simp; omega) (fun x hx => ha x (by simp [hx])) hw
      simp only [List.append_assoc, List.singleton_append, List.length_append, List.length_cons, List.length_nil,
        Nat.zero_add] at this
      rw [Nat.mod_eq_of_lt (by omega), this]

/-- C89: what was added is extracted, one after another. -/
theorem C89_round_trip {B : Backend σ} (hB : Good B) {E : Env} {s : Bool} {as : List ((Ty × Value) × Value)}
    (hl : as.length < 2 ^ 32)
    (ha : ∀ a ∈ as, tyOk a.1.1 = true ∧ HasTy a.1.1 a.2 ∧ HasTy a.1.1 a.1.2 ∧ Keeps E s a.1.1 a.2 a.1.2)
    {b : ArrayBuilder σ} (hb : ArrayBuilder.addAll B s {} (as.map (·.1)) = .ok b) :
    ∃ x, ArrayExtractor.new B b.done = .ok x ∧
      x.calls B E (as.map fun a => .next a.1.1 a.2) = as.map fun a => .ok a.1.2 := by
  obtain ⟨ds, hw, hi⟩ := C89_built.1 hb
  refine ⟨⟨b.items, 0⟩, rfl, ?_⟩
  rw [hi]
  exact extract_all hB as [] ds (by simpa using hl) ha hw

/-- C89: and at any index. -/
theorem C89_random {B : Backend σ} (hB : Good B) {E : Env} {s : Bool} {vs : List (Ty × Value)}
    {b : ArrayBuilder σ} (hb : ArrayBuilder.addAll B s {} vs = .ok b) {i : Nat} {t : Ty} {v old : Value}
    (hi : vs[i]? = some (t, v)) (ht : tyOk t = true) (ho : HasTy t old) (hv : HasTy t v)
    (hk : Keeps E s t old v) {x : ArrayExtractor σ} (hx : x.items = b.items) :
    (x.extractAt B E t old i).1 = .ok v := by
  obtain ⟨ds, hw, hd⟩ := C89_built.1 hb
  have hlen := hw.length
  have hlt : i < ds.length := by rw [← hlen]; exact (List.getElem?_eq_some_iff.1 hi).1
  have hr : ser B s t v = .ok ds[i] := (each_iff.1 hw).2 i (t, v) ds[i] hi (by simp)
  have hat : atIndex x.items i = ds[i] := by
    rw [hx, hd]
    show ((ds[i]?).getD .null) = _
    rw [List.getElem?_eq_getElem hlt]; rfl
  simp only [ArrayExtractor.extractAt, ArrayExtractor.extract, hat, good_back hB ht ho hv hk hr]

namespace Sample
def three : List ((Ty × Value) × Value) :=
  [((int i8, num (-5)), num 0), ((.vec (.leaf .str), .seq [.atom (.str (txt "a"))]), .seq []),
    ((.opt (int u8), .opt none), .opt (some (num 1)))]
end Sample

example : ∃ b, ArrayBuilder.addAll J true {} (three.map (·.1)) = .ok b ∧
    b.done = .arr [jint (-5), .arr [jstr "a"], .null] := ⟨_, rfl, rfl⟩
example : ∀ a ∈ three, tyOk a.1.1 = true ∧ HasTy a.1.1 a.2 ∧ HasTy a.1.1 a.1.2 ∧ Keeps E true a.1.1 a.2 a.1.2 := by
  intro a ha
  simp only [three, List.mem_cons, List.not_mem_nil, or_false] at ha
  rcases ha with rfl | rfl | rfl
  · exact ⟨by decide +kernel, by decide +kernel, by decide +kernel, by simp [Keeps, Sample.int]⟩
  · exact ⟨by decide +kernel, by decide +kernel, by decide +kernel, by simp [Keeps]⟩
  · exact ⟨by decide +kernel, by decide +kernel, by decide +kernel, by simp [Keeps]⟩
example : ArrayExtractor.calls J E ⟨[jint 1, jint 300, jint 3], 0⟩
    [.next (int u8) (num 0), .next (int u8) (num 0), .next (int i32) (num 0), .next (int u8) (num 0),
      .next (int u8) (num 0), .at (int u8) (num 0) 0, .at (.opt (int u8)) (.opt none) 7] =
    [.ok (num 1), .error (.deser (text (txt "value cannot be losslessly stored in the variable") [elementLine 1])),
      .ok (num 300), .ok (num 3), .error (.deser (text (txt "type must be an integral but is a kNullType")
        [elementLine 3])), .ok (num 1), .ok (.opt none)] := rfl

/-! ### C90 Objects -/

/-- Adding members one after another; throws what the first failing `add` throws. -/
def ObjectBuilder.addAll (B : Backend σ) (s : Bool) (b : ObjectBuilder σ) :
    List (Str × Ty × Value) → Res (ObjectBuilder σ)
  | [] => .ok b
  | (k, t, v) :: l =>
    match b.add B s k t v with
    | .error e => .error e
    | .ok b => b.addAll B s l

/-- The members added, in order. -/
def Spec.WrittenAs (B : Backend σ) (s : Bool) : List (Str × Ty × Value) → List (Str × Doc σ) → Prop :=
  Each fun a m => a.1 = m.1 ∧ ser B s a.2.1 a.2.2 = .ok m.2

theorem addAll_obj {B : Backend σ} {s : Bool} : ∀ {vs : List (Str × Ty × Value)} {b b' : ObjectBuilder σ},
    b.addAll B s vs = .ok b' ↔ ∃ ms, WrittenAs B s vs ms ∧
      b'.members = ms.foldl (fun o m => B.addField o m.1 m.2) b.members
  | [], b, b' => by
    simp only [ObjectBuilder.addAll, Except.ok.injEq, WrittenAs]
    constructor
    · rintro rfl; exact ⟨[], .nil, by simp⟩
    · rintro ⟨ds, h', h⟩
      cases h'
      cases b; cases b'
      simp at h
      rw [h]
  | (k, t, v) :: vs, b, b' => by
    simp only [ObjectBuilder.addAll, ObjectBuilder.add]
    cases h : ser B s t v with
    | error e =>
      simp only [reduceCtorEq, false_iff]
      rintro ⟨ds, hw, -⟩
      cases hw with
      | cons hd _ => simp only [h] at hd; cases hd.2
    | ok d =>
      simp only
      rw [addAll_obj]
      constructor
      · rintro ⟨ms, hw, h'⟩
        exact ⟨(k, d) :: ms, .cons ⟨rfl, h⟩ hw, by rw [h']; simp [ObjectBuilder.addDoc]⟩
      · rintro ⟨ms, hw, h'⟩
        cases hw with
        | @cons _ m _ ms hd hw =>
          simp only [h] at hd
          obtain ⟨rfl, hd⟩ := hd
          cases hd
          exact ⟨_, hw, by rw [h']; simp [ObjectBuilder.addDoc]⟩

theorem foldl_append {B : Backend σ} (hB : Appends B) : ∀ (ms o : List (Str × Doc σ)),
    ms.foldl (fun o m => B.addField o m.1 m.2) o = o ++ ms
  | [], o => by simp
  | m :: ms, o => by simp [hB o, foldl_append hB ms]

theorem foldl_new {B : Backend σ} (hB : AppendsNew B) : ∀ (ms o : List (Str × Doc σ)),
    ((o ++ ms).map (·.1)).Nodup → ms.foldl (fun o m => B.addField o m.1 m.2) o = o ++ ms
  | [], o, _ => by simp
  | m :: ms, o, h => by
    have hno : NoMember o m.1 := by
      simp only [List.map_append, List.map_cons, List.nodup_append] at h
      intro x hx he
      exact h.2.2 x.1 (List.mem_map_of_mem hx) m.1 (by simp) he
    simp only [List.foldl_cons, hB o m.1 m.2 hno]
    rw [foldl_new hB ms (o ++ [m]) (by simpa using h)]
    simp

theorem findMember_set (ms : List (Str × YDoc)) (k k' : Str) (d : YDoc) :
    findMember (Yaml.setField ms k d) k' = if k = k' then some d else findMember ms k' := by
  induction ms with
  | nil => simp [Yaml.setField, findMember]
  | cons m ms ih =>
    simp only [Yaml.setField]
    split
    · rename_i h
      simp only [findMember]
      subst h
      split <;> rfl
    · rename_i h
      simp only [findMember, ih]
      split
      · rename_i h'
        subst h'
        rw [if_neg (fun he => h he.symm)]
      · rfl

/-- The last of that name. -/
def Spec.Last {α : Type} (ms : List (Str × α)) (name : Str) (d : α) : Prop :=
  ∃ before after, ms = before ++ (name, d) :: after ∧ NoMember after name

theorem foldl_set : ∀ (ms o : List (Str × YDoc)) (k : Str) {c : Yaml.Conv},
    (∀ d, Last ms k d → findMember (ms.foldl (fun o m => (yaml c).addField o m.1 m.2) o) k = some d) ∧
    (NoMember ms k → findMember (ms.foldl (fun o m => (yaml c).addField o m.1 m.2) o) k = findMember o k)
  | [], o, k, c => by
    refine ⟨?_, fun _ => rfl⟩
    rintro d ⟨before, after, h, -⟩
    cases before <;> simp at h
  | m :: ms, o, k, c => by
    obtain ⟨h1, h2⟩ := foldl_set ms ((yaml c).addField o m.1 m.2) k (c := c)
    refine ⟨?_, ?_⟩
    · rintro d ⟨before, after, h, hn⟩
      cases before with
      | nil =>
        simp at h
        obtain ⟨rfl, rfl⟩ := h
        simp only [List.foldl_cons]
        rw [h2 hn]
        exact (findMember_set o k k d).trans (by simp)
      | cons b before =>
        simp at h
        obtain ⟨rfl, rfl⟩ := h
        simp only [List.foldl_cons]
        exact h1 d ⟨before, after, rfl, hn⟩
    · intro hn
      have hn' := NoMember.cons.1 hn
      simp only [List.foldl_cons]
      rw [h2 hn'.2]
      exact (findMember_set o m.1 k m.2).trans (by rw [if_neg hn'.1])

theorem last_or_none {α : Type} : ∀ (ms : List (Str × α)) (k : Str), (∃ d, Last ms k d) ∨ NoMember ms k
  | [], k => .inr (by simp [NoMember])
  | m :: ms, k => by
    rcases last_or_none ms k with ⟨d, before, after, rfl, h⟩ | h
    · exact .inl ⟨d, m :: before, after, rfl, h⟩
    · by_cases hm : m.1 = k
      · exact .inl ⟨m.2, [], ms, by rw [← hm]; rfl, h⟩
      · exact .inr (NoMember.cons.2 ⟨hm, h⟩)

theorem setField_names {ms : List (Str × YDoc)} {k : Str} {d : YDoc} {x : Str} :
    x ∈ (Yaml.setField ms k d).map (·.1) ↔ x ∈ ms.map (·.1) ∨ x = k := by
  induction ms with
  | nil => simp [Yaml.setField]
  | cons m ms ih =>
    simp only [Yaml.setField]
    split
    · rename_i h; subst h; simp; grind
    · simp only [List.map_cons, List.mem_cons, ih]; grind

theorem setField_nodup {ms : List (Str × YDoc)} {k : Str} {d : YDoc} (h : (ms.map (·.1)).Nodup) :
    ((Yaml.setField ms k d).map (·.1)).Nodup := by
  induction ms with
  | nil => simp [Yaml.setField]
  | cons m ms ih =>
    simp only [List.map_cons, List.nodup_cons] at h
    simp only [Yaml.setField]
    split
    · rename_i hm; subst hm; simpa using h
    · rename_i hm
      simp only [List.map_cons, List.nodup_cons, setField_names]
      exact ⟨fun hx => hx.elim h.1 hm, ih h.2⟩

theorem first_of_nodup {α : Type} {ms : List (Str × α)} (h : (ms.map (·.1)).Nodup) {k : Str} {d : α} :
    First ms k d ↔ (k, d) ∈ ms := by
  constructor
  · rintro ⟨before, after, rfl, -⟩; simp
  · intro hm
    obtain ⟨before, after, rfl⟩ := List.append_of_mem hm
    refine ⟨before, after, rfl, ?_⟩
    intro m hm' he
    simp only [List.map_append, List.map_cons, List.nodup_append] at h
    exact h.2.2 m.1 (List.mem_map_of_mem hm') k (by simp) he

/-- A document read as a member: a line is added to what it throws. -/
def Spec.ReadsMember (B : Backend σ) (E : Env) (t : Ty) (old : Value) (k : Str) (d : Doc σ) (r : Res Value) : Prop :=
  (∀ v, r = .ok v ↔ deser B E t old d = .ok v) ∧
  (∀ w, deser B E t old d = .error (.deser w) → r = .error (.deser (text w [memberLine k]))) ∧
  ∀ e, deser B E t old d = .error e → (∀ w, e ≠ .deser w) → r = .error e

/-- C90: `extract` reads the first member of the name; what is not there is null. -/
theorem C90_extracted (B : Backend σ) (E : Env) (x : ObjectExtractor σ) (k : Str) (t : Ty) (old : Value) :
    (∀ d, First x.members k d → ReadsMember B E t old k d (x.extract B E k t old)) ∧
    (NoMember x.members k → ReadsMember B E t old k .null (x.extract B E k t old)) := by
  have key : ∀ d, atField x.members k = d → ReadsMember B E t old k d (x.extract B E k t old) := by
    rintro d rfl
    unfold ObjectExtractor.extract ReadsMember
    cases h : deser B E t old (atField x.members k) with
    | ok v => simp [note]
    | error e =>
      refine ⟨by simp [note], ?_, ?_⟩
      · intro w hw; cases hw; rfl
      · intro e' he hn
        cases he
        cases e with
        | deser w => exact absurd rfl (hn w)
        | _ => rfl
  refine ⟨fun d hd => key d ?_, fun hn => key .null ?_⟩
  · rw [atField, (findMember_some _ _ _).2 hd]; rfl
  · rw [atField, (findMember_none _ _).2 hn]; rfl

/-- C90: an object extractor is made of objects only. -/
theorem C90_constructed (B : Backend σ) (d : Doc σ) :
    (∀ ms, d = .obj ms → ObjectExtractor.new B d = .ok ⟨ms⟩) ∧
    ((∀ ms, d ≠ .obj ms) → ObjectExtractor.new B d = .error (.deser (B.notMap d))) := by
  refine ⟨?_, ?_⟩
  · rintro ms rfl; rfl
  · intro h
    cases d with
    | obj l => exact absurd rfl (h l)
    | _ => rfl

/-- C90: a JSON builder appends: its object holds what was added, in order, repetitions
included. -/
theorem C90_json_built {ofInt : Int → BitVec 64} {s : Bool} {vs : List (Str × Ty × Value)}
    {b : ObjectBuilder JScalar} :
    ObjectBuilder.addAll (json ofInt) s {} vs = .ok b ↔ WrittenAs (json ofInt) s vs b.members := by
  rw [addAll_obj]
  constructor
  · rintro ⟨ms, hw, h⟩
    rw [foldl_append (json_lawful ofInt).add] at h
    simp at h
    rw [h]; exact hw
  · intro hw
    exact ⟨_, hw, by rw [foldl_append (json_lawful ofInt).add]; simp⟩

/-- C90: a YAML builder assigns: the last value added under a name is the member of that
name, and there is one member for each name. -/
theorem C90_yaml_built {c : Yaml.Conv} {s : Bool} {vs : List (Str × Ty × Value)} {b : ObjectBuilder YScalar}
    (hb : ObjectBuilder.addAll (yaml c) s {} vs = .ok b) : ∃ ms, WrittenAs (yaml c) s vs ms ∧
      (b.members.map (·.1)).Nodup ∧ ∀ k d, (k, d) ∈ b.members ↔ Last ms k d := by
  obtain ⟨ms, hw, h⟩ := addAll_obj.1 hb
  have hn : ∀ (ms o : List (Str × YDoc)), (o.map (·.1)).Nodup →
      ((ms.foldl (fun o m => (yaml c).addField o m.1 m.2) o).map (·.1)).Nodup := by
    intro ms
    induction ms with
    | nil => intro o h; exact h
    | cons m ms ih => intro o h; exact ih _ (setField_nodup h)
  have hnd : (b.members.map (·.1)).Nodup := by rw [h]; exact hn ms [] (by simp)
  refine ⟨ms, hw, hnd, fun k d => ?_⟩
  rw [← first_of_nodup hnd, ← findMember_some]
  obtain ⟨h1, h2⟩ := foldl_set ms [] k (c := c)
  rw [h]
  constructor
  · intro hf
    rcases last_or_none ms k with ⟨d', hd'⟩ | hno
    · have := h1 d' hd'
      rw [show ({} : ObjectBuilder YScalar).members = [] from rfl] at hf
      rw [this] at hf
      cases hf
      exact hd'
    · have := h2 hno
      rw [show ({} : ObjectBuilder YScalar).members = [] from rfl] at hf
      rw [this] at hf
      simp [findMember] at hf
  · intro hl
    exact h1 d hl

/-- C90: in both formats, members added under different names are extracted, in any order. -/
theorem C90_round_trip {B : Backend σ} (hB : Good B) {E : Env} {s : Bool} {vs : List (Str × Ty × Value)}
    (hn : (vs.map (·.1)).Nodup) {b : ObjectBuilder σ} (hb : ObjectBuilder.addAll B s {} vs = .ok b)
    {k : Str} {t : Ty} {v old : Value} (hv : (k, t, v) ∈ vs) (ht : tyOk t = true) (ho : HasTy t old)
    (hty : HasTy t v) (hk : Keeps E s t old v) :
    ∃ x, ObjectExtractor.new B b.done = .ok x ∧ x.extract B E k t old = .ok v := by
  obtain ⟨ms, hw, h⟩ := addAll_obj.1 hb
  have hkeys : vs.map (·.1) = ms.map (·.1) := by
    clear hn hv h hb
    induction hw with
    | nil => rfl
    | cons h _ ih => simp [h.1, ih]
  rw [foldl_new hB.2 ms [] (by rw [hkeys] at hn; simpa using hn)] at h
  simp only [List.nil_append] at h
  obtain ⟨i, hi⟩ := List.mem_iff_getElem?.1 hv
  have hlt : i < ms.length := by rw [← hw.length]; exact (List.getElem?_eq_some_iff.1 hi).1
  obtain ⟨h1, h2⟩ := (each_iff.1 hw).2 i (k, t, v) ms[i] hi (by simp)
  simp only at h1 h2
  have hm : (k, ms[i].2) ∈ b.members := by
    rw [h]
    have : (k, ms[i].2) = ms[i] := by rw [h1]
    rw [this]; exact List.getElem_mem hlt
  have hf := (first_of_nodup (by rw [h, ← hkeys]; exact hn)).2 hm
  refine ⟨⟨b.members⟩, rfl, ?_⟩
  exact (((C90_extracted B E ⟨b.members⟩ k t old).1 _ hf).1 v).2 (good_back hB ht ho hty hk h2)

example : ObjectBuilder.addAll J true {} [(txt "a", int i8, num 1), (txt "b", int i8, num 2), (txt "a", int i8, num 3)] =
    .ok ⟨[(txt "a", jint 1), (txt "b", jint 2), (txt "a", jint 3)]⟩ := rfl
example : (ObjectExtractor.mk [(txt "a", jint 1), (txt "b", jint 2), (txt "a", jint 3)]).extract J E (txt "a")
    (int i8) (num 0) = .ok (num 1) := rfl
example : ObjectBuilder.addAll Y true {} [(txt "a", .leaf .str, .atom (.str (txt "x"))),
    (txt "b", .leaf .bool, .atom (.bool true)), (txt "a", .leaf .bool, .atom (.bool false))] =
    .ok ⟨[(txt "a", ystr "false"), (txt "b", ystr "true")]⟩ := rfl
example : (ObjectExtractor.mk [(txt "a", ystr "x")]).extract Y E (txt "c") (int i8) (num 0) =
    .error (.deser (text (txt "type must be a scalar but is a Null") [memberLine (txt "c")])) := rfl

end Verif.Serial
