import Verif.ExcInfo.Throw


/-! C101, C102: exceptions thrown with information, and diagnostic texts. -/

namespace Verif.ExcInfo

/-! ### Specification -/

/-- The subobject of the object at `p` is of class `x`. -/
def Sub (c : Cls) (p : Route) (x : Name) : Prop := ∃ cs, c.at p = some cs ∧ cs.name = x

/-- The only subobject of class `x`. -/
def Only (c : Cls) (p : Route) (x : Name) : Prop := Sub c p x ∧ ∀ q, Sub c q x → q = p

/-- No subobject of class `x`. -/
def Lacks (c : Cls) (x : Name) : Prop := ∀ p, ¬ Sub c p x

/-- A class name stands for one class, as far as the header and `std::exception` are
concerned. -/
def Consistent (c : Cls) : Prop := ∀ p cs, c.at p = some cs →
  (cs.name = .stdException → cs = stdExceptionCls) ∧
  (cs.name = .exceptionInfo → cs = infoCls) ∧
  (cs.name = .withInfoBase → cs = withInfoBaseCls) ∧
  (∀ n, cs.name = .withInfo n → ∃ e, e.name = n ∧ cs = withInfoCls e)

/-- 262-263: what the static assertions demand of the class of an exception. -/
def Throwable (c : Cls) : Prop := Consistent c ∧ Lacks c .exceptionInfo

/-! ### Routes -/

mutual
theorem mem_routes (x : Name) : ∀ (c : Cls) (p : Route), p ∈ routes x c ↔ Sub c p x
  | .mk n v bs, p => by
    rw [routes, List.mem_append, mem_routesIn x 0 bs p]
    cases p with
    | nil =>
      by_cases h : n = x
      · simp [h, Sub, Cls.at, Cls.name]
      · simp [h, Sub, Cls.at, Cls.name]
    | cons i p =>
      have : (i :: p) ∉ (if n = x then [[]] else [] : List Route) := by split <;> simp
      simp only [this, false_or, Nat.zero_add]
      constructor
      · rintro ⟨j, q, b, e, hb, hs⟩
        cases e
        obtain ⟨cs, h1, h2⟩ := hs
        exact ⟨cs, by simp only [Cls.at, hb]; exact h1, h2⟩
      · rintro ⟨cs, h1, h2⟩
        simp only [Cls.at] at h1
        split at h1
        · rename_i b hb
          exact ⟨i, p, b, rfl, hb, cs, h1, h2⟩
        · cases h1
theorem mem_routesIn (x : Name) : ∀ (k : Nat) (cs : List Cls) (p : Route),
    p ∈ routesIn x k cs ↔ ∃ i q b, p = (k + i) :: q ∧ cs[i]? = some b ∧ Sub b q x
  | k, [], p => by simp [routesIn]
  | k, c :: cs, p => by
    rw [routesIn, List.mem_append, List.mem_map, mem_routesIn x (k + 1) cs p]
    constructor
    · rintro (⟨q, hq, rfl⟩ | ⟨i, q, b, rfl, hb, hs⟩)
      · exact ⟨0, q, c, rfl, rfl, (mem_routes x c q).1 hq⟩
      · exact ⟨i + 1, q, b, by simp; omega, hb, hs⟩
    · rintro ⟨i, q, b, rfl, hb, hs⟩
      cases i with
      | zero =>
        simp at hb
        subst hb
        exact .inl ⟨q, (mem_routes x c q).2 hs, rfl⟩
      | succ i => exact .inr ⟨i, q, b, by simp; omega, by simpa using hb, hs⟩
end

mutual
theorem nodup_routes (x : Name) : ∀ c : Cls, (routes x c).Nodup
  | .mk n v bs => by
    rw [routes, List.nodup_append]
    refine ⟨by split <;> simp, nodup_routesIn x 0 bs, ?_⟩
    intro a ha b hb
    obtain ⟨i, q, _, rfl, _⟩ := (mem_routesIn x 0 bs b).1 hb
    split at ha
    · simp at ha; subst ha; simp
    · simp at ha
theorem nodup_routesIn (x : Name) : ∀ (k : Nat) (cs : List Cls), (routesIn x k cs).Nodup
  | k, [] => by simp [routesIn]
  | k, c :: cs => by
    rw [routesIn, List.nodup_append]
    refine ⟨?_, nodup_routesIn x (k + 1) cs, ?_⟩
    · have := nodup_routes x c
      unfold List.Nodup at this ⊢
      rw [List.pairwise_map]
      exact this.imp fun h h' => h (by simpa using h')
    · intro a ha b hb
      obtain ⟨q, _, rfl⟩ := List.mem_map.1 ha
      obtain ⟨i, q', _, rfl, _⟩ := (mem_routesIn x (k + 1) cs b).1 hb
      simp
      intro h
      omega
end

theorem routes_one {x : Name} {c : Cls} {p : Route} : routes x c = [p] ↔ Only c p x := by
  constructor
  · intro h
    exact ⟨(mem_routes x c p).1 (by simp [h]), fun q hq => by
      have := (mem_routes x c q).2 hq
      simpa [h] using this⟩
  · rintro ⟨h1, h2⟩
    have hn := nodup_routes x c
    have hm := (mem_routes x c p).2 h1
    match h : routes x c with
    | [] => rw [h] at hm; simp at hm
    | [q] => rw [h] at hm; simp at hm; rw [hm]
    | q :: r :: l =>
      have e1 := h2 q ((mem_routes x c q).1 (by simp [h]))
      have e2 := h2 r ((mem_routes x c r).1 (by simp [h]))
      rw [h, e1, e2] at hn
      simp at hn

theorem routes_nil {x : Name} {c : Cls} : routes x c = [] ↔ Lacks c x := by
  rw [List.eq_nil_iff_forall_not_mem]
  exact ⟨fun h p hp => h p ((mem_routes x c p).2 hp), fun h p hp => h p ((mem_routes x c p).1 hp)⟩

theorem handler_iff {c : Cls} {x : Name} {p : Route} : handler c x = some p ↔ Only c p x := by
  rw [← routes_one]
  unfold handler
  split
  · rename_i q h; rw [h]; simp
  · rename_i h
    constructor
    · intro h'; cases h'
    · intro h'; exact absurd h' (h p)

theorem at_append {c cs : Cls} {s p : Route} (h : c.at s = some cs) : c.at (s ++ p) = cs.at p := by
  induction s generalizing c with
  | nil => simp [Cls.at] at h; subst h; rfl
  | cons i s ih =>
    cases c with
    | mk n v bs =>
      simp only [List.cons_append, Cls.at] at h ⊢
      split at h
      · exact ih h
      · cases h

/-- The cast to a class of which there is one subobject finds it, if that subobject is no
part of the source and no whole around it in which it could be repeated. -/
theorem cast_only {c : Cls} {s : Route} {cs : Cls} (hs : c.at s = some cs) {x : Name} {p : Route}
    (h : Only c p x) : dynamicCast c s x = some p := by
  unfold dynamicCast
  rw [hs]
  dsimp only
  have hin : ∀ q ∈ routes x cs, s ++ q = p := by
    intro q hq
    obtain ⟨d, h1, h2⟩ := (mem_routes x cs q).1 hq
    exact h.2 _ ⟨d, by rw [at_append hs]; exact h1, h2⟩
  have hn := nodup_routes x cs
  split
  · rename_i q hq
    rw [hin q (by simp [hq])]
  · rename_i q r l hq
    have e1 := hin q (by simp [hq])
    have e2 := hin r (by simp [hq])
    have : q = r := List.append_cancel_left (e1.trans e2.symm)
    rw [hq, this] at hn
    simp at hn
  · rw [routes_one.2 h]
    by_cases hp : p <+: s
    · simp [hp]
    · simp [hp]

/-- The cast to a class of which there is no subobject fails. -/
theorem cast_lacks {c : Cls} {s : Route} {x : Name} (h : Lacks c x) : dynamicCast c s x = none := by
  unfold dynamicCast
  split
  · rfl
  · rename_i cs hs
    have : routes x cs = [] := routes_nil.2 fun q hq => by
      obtain ⟨d, h1, h2⟩ := hq
      exact h (s ++ q) ⟨d, by rw [at_append hs]; exact h1, h2⟩
    rw [this, routes_nil.2 h]
    rfl

/-! ### The thrown object -/

theorem at_withInfo (e : Cls) (p : Route) (cs : Cls) : (withInfoCls e).at p = some cs ↔
    (p = [] ∧ cs = withInfoCls e) ∨ (∃ q, p = 0 :: q ∧ e.at q = some cs) ∨
    (p = [1] ∧ cs = withInfoBaseCls) ∨ (p = [1, 0] ∧ cs = infoCls) := by
  match p with
  | [] =>
    show some (withInfoCls e) = some cs ↔ _
    constructor
    · intro h; cases h; exact .inl ⟨rfl, rfl⟩
    · rintro (⟨_, rfl⟩ | ⟨q, h, _⟩ | ⟨h, _⟩ | ⟨h, _⟩)
      · rfl
      all_goals cases h
  | 0 :: q => simp [withInfoCls, Cls.at]
  | [1] =>
    show some withInfoBaseCls = some cs ↔ _
    constructor
    · intro h; cases h; exact .inr (.inr (.inl ⟨rfl, rfl⟩))
    · rintro (⟨h, _⟩ | ⟨q, h, _⟩ | ⟨_, rfl⟩ | ⟨h, _⟩)
      · cases h
      · cases h
      · rfl
      · cases h
  | [1, 0] =>
    show some infoCls = some cs ↔ _
    constructor
    · intro h; cases h; exact .inr (.inr (.inr ⟨rfl, rfl⟩))
    · rintro (⟨h, _⟩ | ⟨q, h, _⟩ | ⟨h, _⟩ | ⟨_, rfl⟩)
      · cases h
      · cases h
      · cases h
      · rfl
  | 1 :: 0 :: i :: q => simp [withInfoCls, withInfoBaseCls, infoCls, Cls.at]
  | 1 :: (i + 1) :: q => simp [withInfoCls, withInfoBaseCls, Cls.at]
  | (i + 2) :: q => simp [withInfoCls, Cls.at]

theorem sub_withInfo (e : Cls) (p : Route) (x : Name) : Sub (withInfoCls e) p x ↔
    (p = [] ∧ x = .withInfo e.name) ∨ (∃ q, p = 0 :: q ∧ Sub e q x) ∨
    (p = [1] ∧ x = .withInfoBase) ∨ (p = [1, 0] ∧ x = .exceptionInfo) := by
  unfold Sub
  simp only [at_withInfo]
  constructor
  · rintro ⟨cs, ⟨h1, rfl⟩ | ⟨q, h1, h2⟩ | ⟨h1, rfl⟩ | ⟨h1, rfl⟩, rfl⟩
    · exact .inl ⟨h1, rfl⟩
    · exact .inr (.inl ⟨q, h1, cs, h2, rfl⟩)
    · exact .inr (.inr (.inl ⟨h1, rfl⟩))
    · exact .inr (.inr (.inr ⟨h1, rfl⟩))
  · rintro (⟨h1, rfl⟩ | ⟨q, h1, cs, h2, rfl⟩ | ⟨h1, rfl⟩ | ⟨h1, rfl⟩)
    · exact ⟨_, .inl ⟨h1, rfl⟩, rfl⟩
    · exact ⟨cs, .inr (.inl ⟨q, h1, h2⟩), rfl⟩
    · exact ⟨_, .inr (.inr (.inl ⟨h1, rfl⟩)), rfl⟩
    · exact ⟨_, .inr (.inr (.inr ⟨h1, rfl⟩)), rfl⟩

theorem Throwable.lacks_base {e : Cls} (h : Throwable e) : Lacks e .withInfoBase := by
  rintro p ⟨cs, h1, h2⟩
  have := (h.1 p cs h1).2.2.1 h2
  subst this
  exact h.2 (p ++ [0]) ⟨infoCls, by rw [at_append h1]; rfl, rfl⟩

theorem Throwable.lacks_withInfo {e : Cls} (h : Throwable e) (n : Name) : Lacks e (.withInfo n) := by
  rintro p ⟨cs, h1, h2⟩
  obtain ⟨d, _, rfl⟩ := (h.1 p cs h1).2.2.2 n h2
  exact h.2 (p ++ [1, 0]) ⟨infoCls, by rw [at_append h1]; rfl, rfl⟩

theorem only_info {e : Cls} (h : Throwable e) : Only (withInfoCls e) [1, 0] .exceptionInfo := by
  refine ⟨(sub_withInfo ..).2 (.inr (.inr (.inr ⟨rfl, rfl⟩))), fun q hq => ?_⟩
  rcases (sub_withInfo ..).1 hq with ⟨_, h'⟩ | ⟨r, _, h'⟩ | ⟨_, h'⟩ | ⟨h', _⟩
  · cases h'
  · exact absurd h' (h.2 r)
  · cases h'
  · exact h'

theorem only_base {e : Cls} (h : Throwable e) : Only (withInfoCls e) [1] .withInfoBase := by
  refine ⟨(sub_withInfo ..).2 (.inr (.inr (.inl ⟨rfl, rfl⟩))), fun q hq => ?_⟩
  rcases (sub_withInfo ..).1 hq with ⟨_, h'⟩ | ⟨r, _, h'⟩ | ⟨h', _⟩ | ⟨_, h'⟩
  · cases h'
  · exact absurd h' (h.lacks_base r)
  · exact h'
  · cases h'

/-- The subobjects of other classes are those of the exception. -/
theorem sub_other {e : Cls} {x : Name} (h1 : x ≠ .withInfo e.name) (h2 : x ≠ .withInfoBase)
    (h3 : x ≠ .exceptionInfo) (p : Route) : Sub (withInfoCls e) p x ↔ ∃ q, p = 0 :: q ∧ Sub e q x := by
  rw [sub_withInfo]
  simp [h1, h2, h3]

theorem only_other {e : Cls} {x : Name} (h1 : x ≠ .withInfo e.name) (h2 : x ≠ .withInfoBase)
    (h3 : x ≠ .exceptionInfo) {p : Route} : Only (withInfoCls e) p x ↔ ∃ q, p = 0 :: q ∧ Only e q x := by
  unfold Only
  simp only [sub_other h1 h2 h3]
  constructor
  · rintro ⟨⟨q, rfl, hq⟩, h⟩
    exact ⟨q, rfl, hq, fun r hr => by simpa using h _ ⟨r, rfl, hr⟩⟩
  · rintro ⟨q, rfl, hq, h⟩
    refine ⟨⟨q, rfl, hq⟩, ?_⟩
    rintro r ⟨s, rfl, hs⟩
    rw [h s hs]

/-! ### C101 -/

/-- C101: however an exception thrown with information is caught, as itself or by a reference
to any subobject, `get_exception_info` finds the information. -/
theorem C101_found (e : Obj) (xi : Info) (he : Throwable e.cls) (s : Route) (cs : Cls)
    (hs : (throwWithInfo e xi).cls.at s = some cs) :
    ∃ p, getInfo (throwWithInfo e xi) s = some p ∧ (throwWithInfo e xi).info p = xi :=
  ⟨[1, 0], cast_only hs (only_info he), rfl⟩

/-- C101: an exception thrown with information is taken by the handlers that would take the
exception itself, which get the same subobject, and by those for the three classes added. -/
theorem C101_handlers (e : Obj) (xi : Info) (he : Throwable e.cls) (x : Name) (p : Route) :
    handler (throwWithInfo e xi).cls x = some p ↔
      (x = .withInfo e.cls.name ∧ p = []) ∨ (x = .withInfoBase ∧ p = [1]) ∨ (x = .exceptionInfo ∧ p = [1, 0]) ∨
      ∃ q, p = 0 :: q ∧ handler e.cls x = some q := by
  rw [handler_iff]
  show Only (withInfoCls e.cls) p x ↔ _
  by_cases h1 : x = .withInfo e.cls.name
  · subst h1
    have hl := he.lacks_withInfo e.cls.name
    constructor
    · rintro ⟨h, -⟩
      rcases (sub_withInfo ..).1 h with ⟨h, _⟩ | ⟨r, _, h'⟩ | ⟨_, h'⟩ | ⟨_, h'⟩
      · exact .inl ⟨rfl, h⟩
      · exact absurd h' (hl r)
      · cases h'
      · cases h'
    · rintro (⟨_, rfl⟩ | ⟨h, _⟩ | ⟨h, _⟩ | ⟨q, _, h⟩)
      · refine ⟨(sub_withInfo ..).2 (.inl ⟨rfl, rfl⟩), fun q hq => ?_⟩
        rcases (sub_withInfo ..).1 hq with ⟨h, _⟩ | ⟨r, _, h'⟩ | ⟨_, h'⟩ | ⟨_, h'⟩
        · exact h
        · exact absurd h' (hl r)
        · cases h'
        · cases h'
      · cases h
      · cases h
      · exact absurd (handler_iff.1 h).1 (hl q)
  · by_cases h2 : x = .withInfoBase
    · subst h2
      constructor
      · intro h; exact .inr (.inl ⟨rfl, ((only_base he).2 p h.1)⟩)
      · rintro (⟨h, _⟩ | ⟨_, rfl⟩ | ⟨h, _⟩ | ⟨q, _, h⟩)
        · cases h
        · exact only_base he
        · cases h
        · exact absurd (handler_iff.1 h).1 (he.lacks_base q)
    · by_cases h3 : x = .exceptionInfo
      · subst h3
        constructor
        · intro h; exact .inr (.inr (.inl ⟨rfl, ((only_info he).2 p h.1)⟩))
        · rintro (⟨h, _⟩ | ⟨h, _⟩ | ⟨_, rfl⟩ | ⟨q, _, h⟩)
          · cases h
          · cases h
          · exact only_info he
          · exact absurd (handler_iff.1 h).1 (he.2 q)
      · rw [only_other h1 h2 h3]
        simp [h1, h2, h3, handler_iff]

/-- The text for an exception: its class, what it says if it is one `std::exception`, and the
information. -/
def Says (P : Printer) (e : Obj) (info : Text) (text : Text) : Prop :=
  (∀ p, Only e.cls p .stdException →
    text = tx "dynamic exception type: " ++ P.cls e.cls.name ++ tx "\nwhat: " ++ e.what p ++ ['\n'] ++ info) ∧
  (Lacks e.cls .stdException → text = tx "dynamic exception type: " ++ P.cls e.cls.name ++ ['\n'] ++ info)

theorem thrown_text (P : Printer) (e : Obj) (xi : Info) (he : Throwable e.cls) {s : Route} {cs : Cls}
    (hs : (throwWithInfo e xi).cls.at s = some cs) (hp : cs.poly = true) :
    Says P e (infoText P xi) (objText P (throwWithInfo e xi) s cs) := by
  have h1 : dynamicCast (throwWithInfo e xi).cls s .withInfoBase = some [1] := cast_only hs (only_base he)
  have h2 : dynamicCast (throwWithInfo e xi).cls s .exceptionInfo = some [1, 0] := cast_only hs (only_info he)
  refine ⟨fun p ho => ?_, fun hl => ?_⟩
  · have h3 : dynamicCast (throwWithInfo e xi).cls s .stdException = some (0 :: p) :=
      cast_only hs ((only_other (by simp) (by simp) (by simp)).2 ⟨p, rfl, ho⟩)
    unfold objText
    rw [if_pos hp, h1, h2, h3]
    simp [typeLine, throwWithInfo, tx]
  · have h3 : dynamicCast (throwWithInfo e xi).cls s .stdException = none := by
      refine cast_lacks fun q hq => ?_
      obtain ⟨r, _, h⟩ := (sub_other (by simp) (by simp) (by simp) q).1 hq
      exact hl r h
    unfold objText
    rw [if_pos hp, h1, h2, h3]
    simp [typeLine, throwWithInfo, tx]

/-- C101: the diagnostic text of an exception thrown with information is the same by whatever
polymorphic subobject it is caught: the class it was thrown as, what it says, and the
information. -/
theorem C101_text (P : Printer) (e : Obj) (xi : Info) (he : Throwable e.cls) (s : Route) (cs : Cls)
    (hs : (throwWithInfo e xi).cls.at s = some cs) (hp : cs.poly = true) :
    Says P e (infoText P xi) (objText P (throwWithInfo e xi) s cs) := thrown_text P e xi he hs hp

/-- C101: so is that of an `exception_ptr` to it. -/
theorem C101_pointer (P : Printer) (e : Obj) (xi : Info) (he : Throwable e.cls) :
    Says P e (infoText P xi) (ptrText P (some (throwWithInfo e xi))) := by
  have h : handler (throwWithInfo e xi).cls .exceptionInfo = some [1, 0] := handler_iff.2 (only_info he)
  unfold ptrText
  dsimp only
  rw [h]
  exact thrown_text P e xi he (s := [1, 0]) (cs := infoCls) rfl rfl

/-- C101: the text of an `exception_ptr` to an exception that was thrown without information:
its class and what it says if it is one `std::exception`, nothing about it otherwise. -/
theorem C101_plain (P : Printer) (o : Obj) (ho : Throwable o.cls) :
    (∀ p, Only o.cls p .stdException → ptrText P (some o) =
      tx "dynamic exception type: " ++ P.cls o.cls.name ++ tx "\nwhat: " ++ o.what p ++ ['\n']) ∧
    ((¬ ∃ p, Only o.cls p .stdException) →
      ptrText P (some o) = tx "dynamic exception type: <unknown-exception>\n") := by
  have hn : handler o.cls .exceptionInfo = none := by
    cases h : handler o.cls .exceptionInfo with
    | none => rfl
    | some p => exact absurd (handler_iff.1 h).1 (ho.2 p)
  refine ⟨fun p hp => ?_, fun h => ?_⟩
  · obtain ⟨⟨cs, h1, h2⟩, h3⟩ := hp
    have hc := (ho.1 p cs h1).1 h2
    subst hc
    unfold ptrText
    dsimp only
    rw [hn, handler_iff.2 ⟨⟨_, h1, h2⟩, h3⟩]
    dsimp only
    unfold objText
    rw [if_pos (show stdExceptionCls.poly = true from rfl), cast_lacks ho.lacks_base, cast_lacks ho.2, cast_only h1 ⟨⟨_, h1, h2⟩, h3⟩]
    simp [typeLine, tx]
  · have h' : handler o.cls .stdException = none := by
      cases h' : handler o.cls .stdException with
      | none => rfl
      | some p => exact absurd ⟨p, handler_iff.1 h'⟩ h
    unfold ptrText
    dsimp only
    rw [hn, h']

/-! ### C102 -/

/-- A hexadecimal digit. -/
def digit (c : Char) : Option Nat :=
  if 48 ≤ c.toNat ∧ c.toNat ≤ 57 then some (c.toNat - 48)
  else if 65 ≤ c.toNat ∧ c.toNat ≤ 70 then some (c.toNat - 55) else none

/-- `l` writes the bytes as pairs of hexadecimal digits with spaces between. -/
inductive Hex : Text → List (BitVec 8) → Prop
  | nil : Hex [] []
  | one {h l b x y} : digit h = some x → digit l = some y → b.toNat = 16 * x + y → Hex [h, l] [b]
  | cons {h l b x y t bs} : digit h = some x → digit l = some y → b.toNat = 16 * x + y → bs ≠ [] → Hex t bs →
      Hex (h :: l :: ' ' :: t) (b :: bs)

theorem hex_byte : ∀ b : BitVec 8, ∃ h l x y, hexByte b = [h, l] ∧ digit h = some x ∧ digit l = some y ∧
    b.toNat = 16 * x + y := by
  have key : ∀ n, n < 256 → ((hexByte (BitVec.ofNat 8 n)).length = 2 ∧
      ((hexByte (BitVec.ofNat 8 n))[0]?.bind digit).bind (fun x => ((hexByte (BitVec.ofNat 8 n))[1]?.bind digit).map
        fun y => 16 * x + y) = some n) := by decide +kernel
  intro b
  have h := key b.toNat b.isLt
  rw [BitVec.ofNat_toNat, BitVec.setWidth_eq] at h
  obtain ⟨h1, h2⟩ := h
  match hb : hexByte b with
  | [h, l] =>
    rw [hb] at h2
    simp only [List.getElem?_cons_zero, List.getElem?_cons_succ, Option.bind_some] at h2
    cases hx : digit h with
    | none => rw [hx] at h2; cases h2
    | some x =>
      cases hy : digit l with
      | none => rw [hx, hy] at h2; cases h2
      | some y =>
        rw [hx, hy] at h2
        simp at h2
        exact ⟨h, l, x, y, rfl, hx, hy, h2.symm⟩
  | [] => rw [hb] at h1; simp at h1
  | [_] => rw [hb] at h1; simp at h1
  | _ :: _ :: _ :: _ => rw [hb] at h1; simp at h1

theorem hexBytes_succ (i : Nat) (bs : List (BitVec 8)) (h : bs ≠ []) :
    hexBytes (i + 1) bs = ' ' :: hexBytes 0 bs := by
  have key : ∀ (bs : List (BitVec 8)) (i j : Nat), hexBytes (i + 1) bs = hexBytes (j + 1) bs := by
    intro bs
    induction bs with
    | nil => intros; rfl
    | cons b bs ih => intro i j; simp only [hexBytes]; rw [ih (i + 1) (j + 1)]; simp
  cases bs with
  | nil => exact absurd rfl h
  | cons b bs => simp only [hexBytes]; rw [key bs (i + 1) 0]; simp

/-- C102: the bytes of a value without `<<` are written as pairs of hexadecimal digits. -/
theorem C102_hex (bs : List (BitVec 8)) : Hex (hexBytes 0 bs) bs := by
  induction bs with
  | nil => exact .nil
  | cons b bs ih =>
    obtain ⟨h, l, x, y, e, h1, h2, h3⟩ := hex_byte b
    cases bs with
    | nil => simp only [hexBytes, e]; exact .one h1 h2 h3
    | cons c bs =>
      rw [hexBytes, hexBytes_succ 0 _ (by simp), e]
      exact .cons h1 h2 h3 (by simp) ih

/-- C102: so that different bytes are written differently. -/
theorem C102_hex_injective {t : Text} {bs cs : List (BitVec 8)} (h : Hex t bs) (h' : Hex t cs) : bs = cs := by
  induction h generalizing cs with
  | nil => cases h'; rfl
  | one h1 h2 h3 =>
    cases h' with
    | one g1 g2 g3 =>
      rw [h1] at g1; rw [h2] at g2
      cases g1; cases g2
      rw [BitVec.eq_of_toNat_eq (h3.trans g3.symm)]
  | cons h1 h2 h3 _ _ ih =>
    cases h' with
    | cons g1 g2 g3 _ g5 =>
      rw [h1] at g1; rw [h2] at g2
      cases g1; cases g2
      rw [BitVec.eq_of_toNat_eq (h3.trans g3.symm), ih g5]

example : hexBytes 0 [0x03#8, 0xA0#8, 0xFF#8] = tx "03 A0 FF" := by decide

/-- The lines of a text in which every line ends with a newline. -/
inductive Lines : Text → List Text → Prop
  | nil : Lines [] []
  | cons {l t ls} : '\n' ∉ l → Lines t ls → Lines (l ++ '\n' :: t) (l :: ls)

/-- A line says `tag = value`, or `tag = [bytes]`. -/
def Entry (P : Printer) (e : Tag × Val) (l : Text) : Prop :=
  match P.value e.1 e.2 with
  | .text t => l = P.tag e.1 ++ tx " = " ++ t
  | .bytes bs => ∃ t, Hex t bs ∧ l = P.tag e.1 ++ tx " = [" ++ t ++ [']']

/-- Names and values are written without newlines. -/
structure OneLine (P : Printer) (xi : Info) : Prop where
  tag : ∀ e ∈ xi.values, '\n' ∉ P.tag e.1
  value : ∀ e ∈ xi.values, ∀ t, P.value e.1 e.2 = .text t → '\n' ∉ t
  file : ∀ f, xi.file = some f → '\n' ∉ f
  function : ∀ f, xi.function = some f → '\n' ∉ f

theorem hex_no_newline {t : Text} {bs : List (BitVec 8)} (h : Hex t bs) : '\n' ∉ t := by
  have hd : digit '\n' = none := by decide
  induction h with
  | nil => simp
  | one h1 h2 _ =>
    simp only [List.mem_cons, List.not_mem_nil, or_false, not_or]
    exact ⟨fun h => (by rw [← h, hd] at h1; cases h1), fun h => (by rw [← h, hd] at h2; cases h2)⟩
  | cons h1 h2 _ _ _ ih =>
    simp only [List.mem_cons, not_or]
    exact ⟨fun h => (by rw [← h, hd] at h1; cases h1), fun h => (by rw [← h, hd] at h2; cases h2), by decide, ih⟩

theorem repr_no_newline (n : Nat) : '\n' ∉ (Nat.repr n).toList := by
  intro h
  have := Nat.isDigit_of_mem_toDigits (b := 10) (by decide) (by decide) (by simpa [Nat.repr] using h)
  exact absurd this (by decide)

theorem number_no_newline (n : Int) : '\n' ∉ tx (toString n) := by
  cases n with
  | ofNat n => exact repr_no_newline n
  | negSucc n =>
    show '\n' ∉ ("-" ++ Nat.repr (n + 1)).toList
    rw [String.toList_append, List.mem_append, not_or]
    exact ⟨by decide, repr_no_newline _⟩

theorem lines_entries (P : Printer) : ∀ (l : List (Tag × Val)),
    (∀ e ∈ l, '\n' ∉ P.tag e.1) → (∀ e ∈ l, ∀ t, P.value e.1 e.2 = .text t → '\n' ∉ t) →
    ∃ ls, Lines (showEntries P l) ls ∧ ls.length = l.length ∧
      ∀ (i : Nat) e s, l[i]? = some e → ls[i]? = some s → Entry P e s
  | [], _, _ => ⟨[], .nil, rfl, fun i e s h => by simp at h⟩
  | (t, v) :: l, h1, h2 => by
    obtain ⟨ls, a1, a2, a3⟩ := lines_entries P l (fun e he => h1 e (by simp [he])) (fun e he => h2 e (by simp [he]))
    obtain ⟨s, b1, b2, b3⟩ : ∃ s, showEntry (P.tag t) (P.value t v) = s ++ ['\n'] ∧ '\n' ∉ s ∧ Entry P (t, v) s := by
      have ht := h1 (t, v) (by simp)
      have hv := h2 (t, v) (by simp)
      simp only at ht hv
      unfold Entry
      simp only
      cases hp : P.value t v with
      | text u =>
        refine ⟨P.tag t ++ tx " = " ++ u, by simp [showEntry, tx], ?_, rfl⟩
        have := hv u hp
        simp [tx, ht, this]
      | bytes bs =>
        have := hex_no_newline (C102_hex bs)
        refine ⟨P.tag t ++ tx " = [" ++ hexBytes 0 bs ++ [']'], by simp [showEntry, tx], ?_, _, C102_hex bs, rfl⟩
        simp [tx, ht, this]
    refine ⟨s :: ls, ?_, by simp [a2], ?_⟩
    · rw [showEntries, b1, List.append_assoc]
      exact .cons b2 a1
    · intro i e u he hu
      cases i with
      | zero => simp at he hu; subst he; subst hu; exact b3
      | succ i => exact a3 i e u (by simpa using he) (by simpa using hu)

/-- Where the exception was thrown. -/
def Place (xi : Info) (l : Text) : Prop := ∃ place function, l = place ++ tx ": throw_with_info in function " ++ function ∧
  (∀ f, xi.file = some f → place = f ++ tx "(" ++ tx (toString xi.line) ++ tx ")") ∧
  (xi.file = none → place = tx "<unknown-file>") ∧
  (∀ f, xi.function = some f → function = f) ∧ (xi.function = none → function = tx "<unknown-function>")

/-- C102: the diagnostic text of an information has a line that says where the exception was
thrown, and a line for every value, newest first. -/
theorem C102_lines (P : Printer) (xi : Info) (h : OneLine P xi) :
    ∃ l ls, Lines (infoText P xi) (l :: ls) ∧ Place xi l ∧ ls.length = xi.values.length ∧
      ∀ (i : Nat) e s, xi.values[i]? = some e → ls[i]? = some s → Entry P e s := by
  obtain ⟨ls, a1, a2, a3⟩ := lines_entries P xi.values h.tag h.value
  obtain ⟨l, b1, b2, b3⟩ : ∃ l, infoText P xi = l ++ '\n' :: showEntries P xi.values ∧ '\n' ∉ l ∧ Place xi l := by
    unfold infoText
    have hf := h.file
    have hg := h.function
    have hn := number_no_newline xi.line
    cases hx : xi.file with
    | none =>
      cases hy : xi.function with
      | none => exact ⟨tx "<unknown-file>" ++ tx ": throw_with_info in function " ++ tx "<unknown-function>", by simp,
          by decide, tx "<unknown-file>", tx "<unknown-function>", rfl,
          by simp [hx], by simp, by simp [hy], by simp⟩
      | some g =>
        have := hg g hy
        exact ⟨tx "<unknown-file>" ++ tx ": throw_with_info in function " ++ g, by simp, by simp [tx, this],
          tx "<unknown-file>", g, rfl, by simp [hx], by simp, by simp [hy], by simp [hy]⟩
    | some f =>
      have := hf f hx
      cases hy : xi.function with
      | none =>
        exact ⟨f ++ tx "(" ++ tx (toString xi.line) ++ tx ")" ++ tx ": throw_with_info in function " ++
          tx "<unknown-function>", by simp [tx], by simp only [List.mem_append, not_or]; exact
            ⟨⟨⟨⟨⟨this, by decide⟩, hn⟩, by decide⟩, by decide⟩, by decide⟩,
          _, _, rfl, by simp [hx], by simp [hx], by simp [hy], by simp⟩
      | some g =>
        exact ⟨f ++ tx "(" ++ tx (toString xi.line) ++ tx ")" ++ tx ": throw_with_info in function " ++ g,
          by simp [tx], by simp only [List.mem_append, not_or]; exact
            ⟨⟨⟨⟨⟨this, by decide⟩, hn⟩, by decide⟩, by decide⟩, hg g hy⟩,
          _, _, rfl, by simp [hx], by simp [hx], by simp [hy], by simp [hy]⟩
  exact ⟨l, ls, by rw [b1]; exact .cons b2 a1, b3, a2, a3⟩

/-- C102: a text has its lines in one way, so that the values are told apart by it. -/
theorem C102_lines_unique {t : Text} {ls ms : List Text} (h : Lines t ls) (h' : Lines t ms) : ls = ms := by
  have key : ∀ (a b c d : Text), '\n' ∉ a → '\n' ∉ b → a ++ '\n' :: c = b ++ '\n' :: d → a = b ∧ c = d := by
    intro a
    induction a with
    | nil =>
      intro b c d _ hb e
      cases b with
      | nil => simpa using e
      | cons x b => simp at e hb; exact absurd e.1 hb.1
    | cons x a ih =>
      intro b c d ha hb e
      cases b with
      | nil => simp at e ha; exact absurd e.1.symm ha.1
      | cons y b =>
        simp only [List.cons_append, List.cons.injEq] at e
        simp only [List.mem_cons, not_or] at ha hb
        obtain ⟨h1, h2⟩ := ih b c d ha.2 hb.2 e.2
        exact ⟨by rw [e.1, h1], h2⟩
  induction h generalizing ms with
  | nil =>
    generalize he : ([] : Text) = t at h'
    cases h' with
    | nil => rfl
    | cons _ _ => simp at he
  | @cons l t ls hl _ ih =>
    generalize he : l ++ '\n' :: t = t' at h'
    cases h' with
    | nil => simp at he
    | cons hm hr =>
      obtain ⟨rfl, rfl⟩ := key _ _ _ _ hl hm he
      rw [ih hr]

namespace Demo

/-- `struct error : std::runtime_error`, say. -/
def runtimeCls : Cls := .mk (.user 0) true [stdExceptionCls]
def errorCls : Cls := .mk (.user 1) false [runtimeCls]
/-- `struct both : reader, error` where `reader` is a `std::exception` too. -/
def bothCls : Cls := .mk (.user 3) false [.mk (.user 2) false [stdExceptionCls], errorCls]
/-- A class without virtual functions. -/
def plainCls : Cls := .mk (.user 4) false []

def xi : Info := ⟨some (tx "a.cpp"), 7, some (tx "f"), [(1, 5), (0, 3)]⟩
def obj (c : Cls) : Obj := ⟨c, fun _ => xi, fun _ => tx "oops", fun _ => .user 9⟩
def printer : Printer where
  tag t := tx (if t = 0 then "zero" else "one")
  value t v := if t = 0 then .bytes [BitVec.ofNat 8 v, 0xA0#8] else .text (tx (toString v))
  cls
    | .user 1 => tx "error"
    | .user 3 => tx "both"
    | _ => tx "other"

theorem error_throwable : Throwable errorCls := by
  have h : ∀ p cs, errorCls.at p = some cs → cs = errorCls ∨ cs = runtimeCls ∨ cs = stdExceptionCls := by
    intro p cs hp
    match p with
    | [] => simp [Cls.at] at hp; exact .inl hp.symm
    | [0] => simp [Cls.at, errorCls] at hp; exact .inr (.inl hp.symm)
    | [0, 0] => simp [Cls.at, errorCls, runtimeCls] at hp; exact .inr (.inr hp.symm)
    | 0 :: 0 :: i :: p => simp [Cls.at, errorCls, runtimeCls, stdExceptionCls] at hp
    | 0 :: (i + 1) :: p => simp [Cls.at, errorCls, runtimeCls] at hp
    | (i + 1) :: p => simp [Cls.at, errorCls] at hp
  refine ⟨fun p cs hp => ?_, fun p hp => ?_⟩
  · rcases h p cs hp with rfl | rfl | rfl <;>
      simp [errorCls, runtimeCls, stdExceptionCls, Cls.name]
  · obtain ⟨cs, h1, h2⟩ := hp
    rcases h p cs h1 with rfl | rfl | rfl <;>
      simp [errorCls, runtimeCls, stdExceptionCls, Cls.name] at h2

end Demo

example : OneLine Demo.printer Demo.xi where
  tag := by decide
  value e he t ht := by
    simp only [Demo.xi, List.mem_cons, List.not_mem_nil, or_false] at he
    rcases he with rfl | rfl
    · simp [Demo.printer] at ht
      subst ht
      decide
    · simp [Demo.printer] at ht
  file := by intro f hf; cases hf; decide
  function := by intro f hf; cases hf; decide

example : handler (throwWithInfo (Demo.obj Demo.errorCls) Demo.xi).cls .stdException = some [0, 0, 0] ∧
    handler Demo.errorCls .stdException = some [0, 0] := by decide

example : getInfo (throwWithInfo (Demo.obj Demo.errorCls) Demo.xi) [0, 0] = some [1, 0] := by decide

example : Throwable (Demo.obj Demo.errorCls).cls ∧ Demo.runtimeCls.poly = true ∧
    (throwWithInfo (Demo.obj Demo.errorCls) Demo.xi).cls.at [0, 0] = some Demo.runtimeCls ∧
    objText Demo.printer (throwWithInfo (Demo.obj Demo.errorCls) Demo.xi) [0, 0] Demo.runtimeCls =
      tx "dynamic exception type: error\nwhat: oops\na.cpp(7): throw_with_info in function f\none = 5\nzero = [03 A0]\n" :=
  ⟨Demo.error_throwable, rfl, rfl, by decide +kernel⟩

example : ptrText Demo.printer (some (throwWithInfo (Demo.obj Demo.errorCls) Demo.xi)) =
    tx "dynamic exception type: error\nwhat: oops\na.cpp(7): throw_with_info in function f\none = 5\nzero = [03 A0]\n" := by
  decide +kernel

example : ptrText Demo.printer (some (Demo.obj Demo.errorCls)) = tx "dynamic exception type: error\nwhat: oops\n" ∧
    ptrText Demo.printer (some (Demo.obj Demo.plainCls)) = tx "dynamic exception type: <unknown-exception>\n" ∧
    ptrText Demo.printer none = tx "no exception" := by decide +kernel

/-- C101, violated for a class with two `std::exception` bases: by a reference to one of them
the text has what it says, by `exception_ptr` it has not. -/
theorem C101_ambiguous_violated :
    objText Demo.printer (throwWithInfo (Demo.obj Demo.bothCls) Demo.xi) [0, 1, 0] Demo.runtimeCls =
      tx "dynamic exception type: both\nwhat: oops\na.cpp(7): throw_with_info in function f\none = 5\nzero = [03 A0]\n" ∧
    ptrText Demo.printer (some (throwWithInfo (Demo.obj Demo.bothCls) Demo.xi)) =
      tx "dynamic exception type: both\na.cpp(7): throw_with_info in function f\none = 5\nzero = [03 A0]\n" := by
  decide +kernel

end Verif.ExcInfo
