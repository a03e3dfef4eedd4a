import Verif.Lifetime.Spec
/-
Lemmas on documents and serialization for the properties of `Lifetime`.
-/
namespace Verif.Lifetime
open Verif.Path

/-! ### Constant strings, and values all in one allocator -/

def JStr.consts : JStr → List Mem
  | .const m _ => [m]
  | _ => []

mutual
/-- What the constant strings of a value point to. -/
def Doc.consts : Doc → List Mem
  | .null => []
  | .num _ => []
  | .str s => s.consts
  | .arr _ l => l.consts
  | .obj _ ms => ms.consts
def Docs.consts : Docs → List Mem
  | .nil => []
  | .cons d l => d.consts ++ l.consts
def Mems.consts : Mems → List Mem
  | .nil => []
  | .cons k d ms => k.consts ++ (d.consts ++ ms.consts)
end

def JStr.within (a : Nat) : JStr → Prop
  | .copied b _ => b = a
  | _ => True

mutual
/-- All of the value that is not constant strings was made with allocator `a`. -/
def Doc.within (a : Nat) : Doc → Prop
  | .null => True
  | .num _ => True
  | .str s => s.within a
  | .arr b l => b = a ∧ l.within a
  | .obj b ms => b = a ∧ ms.within a
def Docs.within (a : Nat) : Docs → Prop
  | .nil => True
  | .cons d l => d.within a ∧ l.within a
def Mems.within (a : Nat) : Mems → Prop
  | .nil => True
  | .cons k d ms => k.within a ∧ d.within a ∧ ms.within a
end

theorem JStr.mem_cases {a : Nat} {at_ : Mem} {s : JStr} (h : s.within a) :
    s.mem at_ = at_ ∨ s.mem at_ = .pool a ∨ s.mem at_ ∈ s.consts := by
  cases s with
  | const m s => exact .inr (.inr (by simp [JStr.mem, JStr.consts]))
  | copied b s => simp only [JStr.within] at h; subst h; exact .inr (.inl rfl)
  | short s => exact .inl rfl

mutual
theorem Doc.mems_cases {a : Nat} {at_ : Mem} {m : Mem} : ∀ {d : Doc}, d.within a → m ∈ d.mems at_ →
    m = at_ ∨ m = .pool a ∨ m ∈ d.consts
  | .null, _, hm => by simp only [Doc.mems, List.mem_singleton] at hm; exact .inl hm
  | .num _, _, hm => by simp only [Doc.mems, List.mem_singleton] at hm; exact .inl hm
  | .str s, h, hm => by
    simp only [Doc.mems, List.mem_cons, List.mem_nil_iff, or_false] at hm
    simp only [Doc.within] at h
    rcases hm with rfl | rfl
    · exact .inl rfl
    · exact JStr.mem_cases h
  | .arr b l, h, hm => by
    obtain ⟨rfl, hl⟩ := h
    simp only [Doc.mems, List.mem_cons] at hm
    rcases hm with rfl | hm
    · exact .inl rfl
    · exact .inr (Docs.mems_cases hl hm)
  | .obj b ms, h, hm => by
    obtain ⟨rfl, hl⟩ := h
    simp only [Doc.mems, List.mem_cons] at hm
    rcases hm with rfl | hm
    · exact .inl rfl
    · exact .inr (Mems.mems_cases hl hm)
theorem Docs.mems_cases {a : Nat} {m : Mem} : ∀ {l : Docs}, l.within a → m ∈ l.mems a →
    m = .pool a ∨ m ∈ l.consts
  | .nil, _, hm => by simp [Docs.mems] at hm
  | .cons d l, h, hm => by
    simp only [Docs.mems, List.mem_append] at hm
    simp only [Docs.consts, List.mem_append]
    rcases hm with hm | hm
    · rcases Doc.mems_cases h.1 hm with h' | h' | h'
      · exact .inl h'
      · exact .inl h'
      · exact .inr (.inl h')
    · rcases Docs.mems_cases h.2 hm with h' | h'
      · exact .inl h'
      · exact .inr (.inr h')
theorem Mems.mems_cases {a : Nat} {m : Mem} : ∀ {l : Mems}, l.within a → m ∈ l.mems a →
    m = .pool a ∨ m ∈ l.consts
  | .nil, _, hm => by simp [Mems.mems] at hm
  | .cons k d l, h, hm => by
    simp only [Mems.mems, List.mem_cons, List.mem_append] at hm
    simp only [Mems.consts, List.mem_append]
    rcases hm with hm | hm | hm | hm
    · exact .inl hm
    · subst hm
      rcases JStr.mem_cases (at_ := .pool a) h.1 with h' | h' | h'
      · exact .inl h'
      · exact .inl h'
      · exact .inr (.inl h')
    · rcases Doc.mems_cases h.2.1 hm with h' | h' | h'
      · exact .inl h'
      · exact .inl h'
      · exact .inr (.inr (.inl h'))
    · rcases Mems.mems_cases h.2.2 hm with h' | h'
      · exact .inl h'
      · exact .inr (.inr (.inr h'))
end

mutual
theorem Doc.consts_mems {at_ : Mem} {m : Mem} : ∀ {d : Doc}, m ∈ d.consts → m ∈ d.mems at_
  | .null, h => by simp [Doc.consts] at h
  | .num _, h => by simp [Doc.consts] at h
  | .str s, h => by
    cases s <;> simp_all [Doc.consts, JStr.consts, Doc.mems, JStr.mem]
  | .arr b l, h => by
    simp only [Doc.consts] at h
    simp only [Doc.mems, List.mem_cons]
    exact .inr (Docs.consts_mems h)
  | .obj b l, h => by
    simp only [Doc.consts] at h
    simp only [Doc.mems, List.mem_cons]
    exact .inr (Mems.consts_mems h)
theorem Docs.consts_mems {a : Nat} {m : Mem} : ∀ {l : Docs}, m ∈ l.consts → m ∈ l.mems a
  | .nil, h => by simp [Docs.consts] at h
  | .cons d l, h => by
    simp only [Docs.consts, List.mem_append] at h
    simp only [Docs.mems, List.mem_append]
    exact h.imp Doc.consts_mems Docs.consts_mems
theorem Mems.consts_mems {a : Nat} {m : Mem} : ∀ {l : Mems}, m ∈ l.consts → m ∈ l.mems a
  | .nil, h => by simp [Mems.consts] at h
  | .cons k d l, h => by
    simp only [Mems.consts, List.mem_append] at h
    simp only [Mems.mems, List.mem_cons, List.mem_append]
    rcases h with h | h | h
    · cases k <;> simp_all [JStr.consts, JStr.mem]
    · exact .inr (.inr (.inl (Doc.consts_mems h)))
    · exact .inr (.inr (.inr (Mems.consts_mems h)))
end

/-! ### Copies -/

theorem copyStr_within (k a : Nat) (s : Str) : (copyStr k a s).within a := by
  unfold copyStr; split <;> simp [JStr.within]
theorem copyStr_text (k a : Nat) (s : Str) : (copyStr k a s).text = s := by
  unfold copyStr; split <;> rfl
theorem copyStr_consts (k a : Nat) (s : Str) : (copyStr k a s).consts = [] := by
  unfold copyStr; split <;> rfl

theorem copyJStr_within (k a : Nat) (s : JStr) : (copyJStr k a s).within a := by
  cases s <;> first | exact trivial | exact copyStr_within _ _ _
theorem copyJStr_text (k a : Nat) (s : JStr) : (copyJStr k a s).text = s.text := by
  cases s <;> first | rfl | exact copyStr_text _ _ _
theorem copyJStr_consts (k a : Nat) (s : JStr) : (copyJStr k a s).consts = s.consts := by
  cases s <;> first | rfl | exact copyStr_consts _ _ _

mutual
theorem copyDoc_within (k a : Nat) : ∀ d : Doc, (copyDoc k a d).within a
  | .null => trivial
  | .num _ => trivial
  | .str s => by simp only [copyDoc, Doc.within, copyJStr_within]
  | .arr _ l => ⟨rfl, copyDocs_within k a l⟩
  | .obj _ l => ⟨rfl, copyMems_within k a l⟩
theorem copyDocs_within (k a : Nat) : ∀ d : Docs, (copyDocs k a d).within a
  | .nil => trivial
  | .cons d l => ⟨copyDoc_within k a d, copyDocs_within k a l⟩
theorem copyMems_within (k a : Nat) : ∀ d : Mems, (copyMems k a d).within a
  | .nil => trivial
  | .cons s d l => ⟨copyJStr_within k a s, copyDoc_within k a d, copyMems_within k a l⟩
end

mutual
theorem copyDoc_plain (k a : Nat) : ∀ d : Doc, (copyDoc k a d).plain = d.plain
  | .null => rfl
  | .num _ => rfl
  | .str s => by simp only [copyDoc, Doc.plain, copyJStr_text]
  | .arr _ l => by simp only [copyDoc, Doc.plain, copyDocs_plain k a l]
  | .obj _ l => by simp only [copyDoc, Doc.plain, copyMems_plain k a l]
theorem copyDocs_plain (k a : Nat) : ∀ d : Docs, (copyDocs k a d).plain = d.plain
  | .nil => rfl
  | .cons d l => by simp only [copyDocs, Docs.plain, copyDoc_plain k a d, copyDocs_plain k a l]
theorem copyMems_plain (k a : Nat) : ∀ d : Mems, (copyMems k a d).plain = d.plain
  | .nil => rfl
  | .cons s d l => by
    simp only [copyMems, Mems.plain, copyDoc_plain k a d, copyMems_plain k a l, copyJStr_text]
end

mutual
theorem copyDoc_consts (k a : Nat) : ∀ d : Doc, (copyDoc k a d).consts = d.consts
  | .null => rfl
  | .num _ => rfl
  | .str s => by simp only [copyDoc, Doc.consts, copyJStr_consts]
  | .arr _ l => by simp only [copyDoc, Doc.consts, copyDocs_consts k a l]
  | .obj _ l => by simp only [copyDoc, Doc.consts, copyMems_consts k a l]
theorem copyDocs_consts (k a : Nat) : ∀ d : Docs, (copyDocs k a d).consts = d.consts
  | .nil => rfl
  | .cons d l => by simp only [copyDocs, Docs.consts, copyDoc_consts k a d, copyDocs_consts k a l]
theorem copyMems_consts (k a : Nat) : ∀ d : Mems, (copyMems k a d).consts = d.consts
  | .nil => rfl
  | .cons s d l => by
    simp only [copyMems, Mems.consts, copyDoc_consts k a d, copyMems_consts k a l, copyJStr_consts]
end

mutual
theorem own_within (k a : Nat) : ∀ t : Plain, (own k a t).within a
  | .null => trivial
  | .num _ => trivial
  | .str s => by simp only [own, Doc.within, copyStr_within]
  | .arr l => ⟨rfl, owns_within k a l⟩
  | .obj l => ⟨rfl, ownMems_within k a l⟩
theorem owns_within (k a : Nat) : ∀ t : Plains, (owns k a t).within a
  | .nil => trivial
  | .cons d l => ⟨own_within k a d, owns_within k a l⟩
theorem ownMems_within (k a : Nat) : ∀ t : PMems, (ownMems k a t).within a
  | .nil => trivial
  | .cons s d l => ⟨copyStr_within k a s, own_within k a d, ownMems_within k a l⟩
end

mutual
theorem own_plain (k a : Nat) : ∀ t : Plain, (own k a t).plain = t
  | .null => rfl
  | .num _ => rfl
  | .str s => by simp only [own, Doc.plain, copyStr_text]
  | .arr l => by simp only [own, Doc.plain, owns_plain k a l]
  | .obj l => by simp only [own, Doc.plain, ownMems_plain k a l]
theorem owns_plain (k a : Nat) : ∀ t : Plains, (owns k a t).plain = t
  | .nil => rfl
  | .cons d l => by simp only [owns, Docs.plain, own_plain k a d, owns_plain k a l]
theorem ownMems_plain (k a : Nat) : ∀ t : PMems, (ownMems k a t).plain = t
  | .nil => rfl
  | .cons s d l => by simp only [ownMems, Mems.plain, own_plain k a d, ownMems_plain k a l, copyStr_text]
end

mutual
theorem own_consts (k a : Nat) : ∀ t : Plain, (own k a t).consts = []
  | .null => rfl
  | .num _ => rfl
  | .str s => by simp only [own, Doc.consts, copyStr_consts]
  | .arr l => by simp only [own, Doc.consts, owns_consts k a l]
  | .obj l => by simp only [own, Doc.consts, ownMems_consts k a l]
theorem owns_consts (k a : Nat) : ∀ t : Plains, (owns k a t).consts = []
  | .nil => rfl
  | .cons d l => by simp [owns, Docs.consts, own_consts k a d, owns_consts k a l]
theorem ownMems_consts (k a : Nat) : ∀ t : PMems, (ownMems k a t).consts = []
  | .nil => rfl
  | .cons s d l => by
    simp [ownMems, Mems.consts, own_consts k a d, ownMems_consts k a l, copyStr_consts]
end

theorem Mems.append_within {a : Nat} : ∀ {l r : Mems}, l.within a → r.within a → (l.append r).within a
  | .nil, _, _, hr => hr
  | .cons _ _ _, _, hl, hr => ⟨hl.1, hl.2.1, Mems.append_within hl.2.2 hr⟩

theorem Mems.append_plain : ∀ (l r : Mems), (l.append r).plain = l.plain.append r.plain
  | .nil, _ => rfl
  | .cons _ _ l, r => by simp only [Mems.append, Mems.plain, PMems.append, Mems.append_plain l r]

theorem Mems.append_consts : ∀ (l r : Mems), (l.append r).consts = l.consts ++ r.consts
  | .nil, _ => rfl
  | .cons _ _ l, r => by simp only [Mems.append, Mems.consts, Mems.append_consts l r, List.append_assoc]

/-! ### serialize -/

/-- What a view shows. -/
def look (w : World) (l : Loc) : Option Plain := (deref w l).map Doc.plain

/-- The characters the values shown by the views `ls` point to. -/
def Shown (w : World) (ls : List Loc) (m : Mem) : Prop :=
  ∃ l ∈ ls, ∃ d, deref w l = some d ∧ m ∈ d.consts

theorem Shown.mono {w : World} {ls ls' : List Loc} {m : Mem} (h : Shown w ls m) (hs : ∀ l ∈ ls, l ∈ ls') :
    Shown w ls' m := by
  obtain ⟨l, hl, d, hd, hm⟩ := h
  exact ⟨l, hs l hl, d, hd, hm⟩

/-- A result of serialization. -/
structure Made (w : World) (a : Nat) (lends : List Mem) (views : List Loc) (consts : List Mem) (within : Prop) :
    Prop where
  within : within
  consts : ∀ m ∈ consts, m = .static ∨ m ∈ lends ∨ Shown w views m

theorem readStr_some {w : World} {m : Mem} {s s' : Str} (h : readStr w m s = some s') : s' = s ∧ live w m = true := by
  unfold readStr at h
  split at h
  · cases h; exact ⟨rfl, by assumption⟩
  · cases h

theorem joinMems_some {x y : Option Mems} {d : Mems} (h : joinMems x y = some d) :
    ∃ l r, x = some l ∧ y = some r ∧ d = l.append r := by
  cases x <;> cases y <;> simp only [joinMems, reduceCtorEq, Option.some.injEq] at h
  exact ⟨_, _, rfl, rfl, h.symm⟩

theorem keyStr_some {w : World} {a : Nat} {k : Key} {s : JStr} (h : keyStr w a k = some s) :
    s.text = k.text ∧ s.within a ∧ ∀ m ∈ s.consts, m ∈ k.lends := by
  cases k with
  | own s' =>
    simp only [keyStr, Option.some.injEq] at h
    subst h
    exact ⟨copyStr_text _ _ _, copyStr_within _ _ _, by simp [copyStr_consts]⟩
  | cstr m s' =>
    simp only [keyStr, Option.map_eq_some_iff] at h
    obtain ⟨s'', h1, rfl⟩ := h
    obtain ⟨rfl, _⟩ := readStr_some h1
    exact ⟨rfl, trivial, by simp [JStr.consts, Key.lends]⟩
  | sv m s' => simp [keyStr] at h

mutual
theorem ser_made {w : World} {a : Nat} {sn : Bool} : ∀ {v : Val} {d : Doc}, ser w a sn v = some d →
    Says (look w) sn v d.plain ∧ Made w a v.lends v.views d.consts (d.within a)
  | .none, d, h => by
    simp only [ser, Option.some.injEq] at h
    subst h
    exact ⟨.none, trivial, by simp [Doc.consts]⟩
  | .num n, d, h => by
    simp only [ser, Option.some.injEq] at h
    subst h
    exact ⟨.num n, trivial, by simp [Doc.consts]⟩
  | .str s, d, h => by
    simp only [ser, Option.some.injEq] at h
    subst h
    refine ⟨?_, copyStr_within _ _ _, by simp [Doc.consts, copyStr_consts]⟩
    simp only [Doc.plain, copyStr_text]
    exact .str s
  | .sv m s, d, h => by
    simp only [ser, Option.map_eq_some_iff] at h
    obtain ⟨s', h1, rfl⟩ := h
    obtain ⟨rfl, _⟩ := readStr_some h1
    refine ⟨?_, copyStr_within _ _ _, by simp [Doc.consts, copyStr_consts]⟩
    simp only [Doc.plain, copyStr_text]
    exact .sv m _
  | .sref m s, d, h => by
    simp only [ser, Option.map_eq_some_iff] at h
    obtain ⟨s', h1, rfl⟩ := h
    obtain ⟨rfl, _⟩ := readStr_some h1
    refine ⟨.sref m _, trivial, fun x hx => .inr (.inl ?_)⟩
    simpa [Doc.consts, JStr.consts, Val.lends] using hx
  | .view none, d, h => by simp [ser] at h
  | .view (some l), d, h => by
    simp only [ser] at h
    split at h
    · next dd hd =>
      split at h
      · cases h
        refine ⟨.view ?_, copyDoc_within _ _ _, fun m hm => .inr (.inr ⟨l, by simp [Val.views], dd, hd, ?_⟩)⟩
        · simp [look, hd, copyDoc_plain]
        · rwa [copyDoc_consts] at hm
      · cases h
    · cases h
  | .seq l, d, h => by
    simp only [ser, Option.map_eq_some_iff] at h
    obtain ⟨ds, h1, rfl⟩ := h
    obtain ⟨h2, h3⟩ := sers_made h1
    exact ⟨.seq h2, ⟨rfl, h3.within⟩, h3.consts⟩
  | .map es, d, h => by
    simp only [ser, Option.map_eq_some_iff] at h
    obtain ⟨ds, h1, rfl⟩ := h
    obtain ⟨h2, h3⟩ := serEnts_made h1
    exact ⟨.map h2, ⟨rfl, h3.within⟩, h3.consts⟩
  | .record fs, d, h => by
    simp only [ser, Option.map_eq_some_iff] at h
    obtain ⟨ds, h1, rfl⟩ := h
    obtain ⟨h2, h3⟩ := serFlds_made h1
    exact ⟨.record h2, ⟨rfl, h3.within⟩, h3.consts⟩
theorem sers_made {w : World} {a : Nat} {sn : Bool} : ∀ {v : Vals} {d : Docs}, sers w a sn v = some d →
    SaysAll (look w) sn v d.plain ∧ Made w a v.lends v.views d.consts (d.within a)
  | .nil, d, h => by
    simp only [sers, Option.some.injEq] at h
    subst h
    exact ⟨.nil, trivial, by simp [Docs.consts]⟩
  | .cons v l, d, h => by
    simp only [sers] at h
    split at h
    · cases h
    · next dv hv =>
      simp only [Option.map_eq_some_iff] at h
      obtain ⟨ds, h1, rfl⟩ := h
      obtain ⟨h2, h3⟩ := ser_made hv
      obtain ⟨h4, h5⟩ := sers_made h1
      refine ⟨.cons h2 h4, ⟨h3.within, h5.within⟩, fun m hm => ?_⟩
      simp only [Docs.consts, List.mem_append] at hm
      simp only [Vals.lends, Vals.views, List.mem_append]
      rcases hm with hm | hm
      · rcases h3.consts m hm with h | h | h
        · exact .inl h
        · exact .inr (.inl (.inl h))
        · exact .inr (.inr (h.mono fun _ => List.mem_append_left _))
      · rcases h5.consts m hm with h | h | h
        · exact .inl h
        · exact .inr (.inl (.inr h))
        · exact .inr (.inr (h.mono fun _ => List.mem_append_right _))
theorem serEnts_made {w : World} {a : Nat} {sn : Bool} : ∀ {v : Ents} {d : Mems}, serEnts w a sn v = some d →
    SaysEnts (look w) sn v d.plain ∧ Made w a v.lends v.views d.consts (d.within a)
  | .nil, d, h => by
    simp only [serEnts, Option.some.injEq] at h
    subst h
    exact ⟨.nil, trivial, by simp [Mems.consts]⟩
  | .cons k v es, d, h => by
    simp only [serEnts] at h
    split at h
    · next hn =>
      simp only [Bool.and_eq_true] at hn
      obtain ⟨h4, h5⟩ := serEnts_made h
      have hv : v = .none := by cases v <;> simp_all [isNull]
      subst hv
      refine ⟨.skip hn.1 h4, h5.within, fun m hm => ?_⟩
      simp only [Ents.lends, Ents.views, List.mem_append]
      rcases h5.consts m hm with h | h | h
      · exact .inl h
      · exact .inr (.inl (.inr (.inr h)))
      · exact .inr (.inr (h.mono fun _ => List.mem_append_right _))
    · next hn =>
      split at h
      · next kk dv hk hv =>
        simp only [Option.map_eq_some_iff] at h
        obtain ⟨ds, h1, rfl⟩ := h
        obtain ⟨h2, h3⟩ := ser_made hv
        obtain ⟨h4, h5⟩ := serEnts_made h1
        obtain ⟨h6, h7, h8⟩ := keyStr_some hk
        refine ⟨?_, ⟨h7, h3.within, h5.within⟩, fun m hm => ?_⟩
        · simp only [Mems.plain, h6]
          refine .cons ?_ h2 h4
          rintro ⟨rfl, rfl⟩
          simp [isNull] at hn
        · simp only [Mems.consts, List.mem_append] at hm
          simp only [Ents.lends, Ents.views, List.mem_append]
          rcases hm with hm | hm | hm
          · exact .inr (.inl (.inl (h8 m hm)))
          · rcases h3.consts m hm with h | h | h
            · exact .inl h
            · exact .inr (.inl (.inr (.inl h)))
            · exact .inr (.inr (h.mono fun _ => List.mem_append_left _))
          · rcases h5.consts m hm with h | h | h
            · exact .inl h
            · exact .inr (.inl (.inr (.inr h)))
            · exact .inr (.inr (h.mono fun _ => List.mem_append_right _))
      · cases h
theorem serFlds_made {w : World} {a : Nat} {sn : Bool} : ∀ {v : Flds} {d : Mems}, serFlds w a sn v = some d →
    SaysFlds (look w) sn v d.plain ∧ Made w a v.lends v.views d.consts (d.within a)
  | .nil, d, h => by
    simp only [serFlds, Option.some.injEq] at h
    subst h
    exact ⟨.nil, trivial, by simp [Mems.consts]⟩
  | .cons n kind v fs, d, h => by
    have right : ∀ {d : Mems}, Made w a fs.lends fs.views d.consts (d.within a) →
        Made w a (Flds.cons n kind v fs).lends (Flds.cons n kind v fs).views d.consts (d.within a) := by
      intro d h5
      refine ⟨h5.within, fun m hm => ?_⟩
      simp only [Flds.lends, Flds.views, List.mem_append]
      rcases h5.consts m hm with h | h | h
      · exact .inl h
      · exact .inr (.inl (.inr h))
      · exact .inr (.inr (h.mono fun _ => List.mem_append_right _))
    have both : ∀ {l r : Mems}, Made w a v.lends v.views l.consts (l.within a) →
        Made w a fs.lends fs.views r.consts (r.within a) →
        Made w a (Flds.cons n kind v fs).lends (Flds.cons n kind v fs).views (l.append r).consts ((l.append r).within a) := by
      intro l r hl hr
      refine ⟨Mems.append_within hl.within hr.within, fun m hm => ?_⟩
      rw [Mems.append_consts, List.mem_append] at hm
      rcases hm with hm | hm
      · simp only [Flds.lends, Flds.views, List.mem_append]
        rcases hl.consts m hm with h | h | h
        · exact .inl h
        · exact .inr (.inl (.inl h))
        · exact .inr (.inr (h.mono fun _ => List.mem_append_left _))
      · exact (right hr).consts m hm
    simp only [serFlds] at h
    obtain ⟨l, r, h1, h2, rfl⟩ := joinMems_some h
    obtain ⟨h4, h5⟩ := serFlds_made h2
    split at h1
    · next hn =>
      simp only [Bool.and_eq_true] at hn
      cases h1
      have hv : v = .none := by cases v <;> simp_all [isNull]
      subst hv
      exact ⟨.null hn.1 h4, right h5⟩
    · next hn =>
      cases kind with
      | skip =>
        simp only [Option.some.injEq] at h1
        subst h1
        exact ⟨.skip h4, right h5⟩
      | plain =>
        simp only [Option.map_eq_some_iff] at h1
        obtain ⟨dv, hv, rfl⟩ := h1
        obtain ⟨h2, h3⟩ := ser_made hv
        refine ⟨?_, both ⟨⟨trivial, h3.within, trivial⟩, fun m hm => ?_⟩ h5⟩
        · simp only [Mems.append_plain, Mems.plain, PMems.append, JStr.text]
          refine .plain ?_ h2 h4
          rintro ⟨rfl, rfl⟩
          simp [isNull] at hn
        · simp only [Mems.consts, JStr.consts, List.mem_append, List.mem_singleton, List.mem_nil_iff, or_false] at hm
          rcases hm with rfl | hm
          · exact .inl rfl
          · exact h3.consts m hm
      | extra =>
        dsimp only at h1
        obtain ⟨es, rfl, h2, h3⟩ := serExtra_made h1
        refine ⟨?_, both h3 h5⟩
        rw [Mems.append_plain]
        exact .extra h2 h4
      | flatten =>
        dsimp only at h1
        obtain ⟨es, rfl, h2, h3⟩ := serFlat_made h1
        refine ⟨?_, both h3 h5⟩
        rw [Mems.append_plain]
        exact .flatten h2 h4
theorem serExtra_made {w : World} {a : Nat} {sn : Bool} : ∀ {v : Val} {d : Mems}, serExtra w a sn v = some d →
    ∃ es, v = .map es ∧ SaysEnts (look w) sn es d.plain ∧ Made w a v.lends v.views d.consts (d.within a)
  | .map es, d, h => by
    simp only [serExtra] at h
    obtain ⟨h2, h3⟩ := serEnts_made h
    exact ⟨es, rfl, h2, h3⟩
  | .none, _, h | .num _, _, h | .str _, _, h | .sv _ _, _, h | .sref _ _, _, h | .view _, _, h | .seq _, _, h
  | .record _, _, h => by simp [serExtra] at h
theorem serFlat_made {w : World} {a : Nat} {sn : Bool} : ∀ {v : Val} {d : Mems}, serFlat w a sn v = some d →
    ∃ fs, v = .record fs ∧ SaysFlds (look w) sn fs d.plain ∧ Made w a v.lends v.views d.consts (d.within a)
  | .record fs, d, h => by
    simp only [serFlat] at h
    obtain ⟨h2, h3⟩ := serFlds_made h
    exact ⟨fs, rfl, h2, h3⟩
  | .none, _, h | .num _, _, h | .str _, _, h | .sv _ _, _, h | .sref _ _, _, h | .view _, _, h | .seq _, _, h
  | .map _, _, h => by simp [serFlat] at h
end

end Verif.Lifetime
