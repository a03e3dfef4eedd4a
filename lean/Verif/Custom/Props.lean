import Verif.Custom.Round
import Verif.Custom.Same
import Verif.Custom.Patch
import Verif.Custom.Compiles

/-! C108 and C109: what users' customisations of serialization come to. -/

namespace Verif.Custom

/-! ### C108: customised types keep their format wherever they are used -/

theorem select_member {α : Type} {m u : Option α} {g b : Bool} {f : α} (h : m = some f) :
    select m u g b = .custom f := by subst h; rfl

theorem select_user {α : Type} {m u : Option α} {g b : Bool} {f : α} (hm : m = none) (hu : u = some f)
    (hg : g = true → b = false) : select m u g b = .custom f := by
  subst hm hu
  cases g with
  | false => cases b <;> rfl
  | true => simp [select, resolve_user, hg rfl]

theorem dump_run (sk : Bool) (t : Ty) : ∃ b, ∀ v, dump sk t v = (t.hooks.onDump t.supported).run b v := by
  cases t <;> exact ⟨_, fun v => by rw [dump]; rfl⟩

theorem write_run (sk : Bool) (t : Ty) : ∃ b, ∀ v, write sk t v = (t.hooks.onWrite t.supported).run b v := by
  cases t <;> exact ⟨_, fun v => by rw [write]; rfl⟩

theorem read_run (t : Ty) : ∃ b, ∀ d, read t d = (t.hooks.onRead t.supported).run b d := by
  cases t <;> exact ⟨_, fun v => by rw [read]; rfl⟩

theorem patch_run (t : Ty) : ∃ b, ∀ v d, patch t v d = (t.hooks.onPatch t.patchable).run b (read t) v d := by
  cases t <;> exact ⟨_, fun v d => by rw [patch]; rfl⟩

/-- A member of `serializer<T>` handles every value of `T`, whatever else there is. -/
theorem C108_member (t : Ty) :
    (∀ f, t.hooks.ser.dump = some f → ∀ sk v, dump sk t v = f v) ∧
    (∀ f, t.hooks.ser.write = some f → ∀ sk v, write sk t v = f v) ∧
    (∀ f, t.hooks.ser.read = some f → ∀ d, read t d = f d) ∧
    (∀ f, t.hooks.ser.patch = some f → ∀ v d, patch t v d = f v d) := by
  refine ⟨fun f h sk v => ?_, fun f h sk v => ?_, fun f h d => ?_, fun f h v d => ?_⟩
  · obtain ⟨b, hb⟩ := dump_run sk t
    rw [hb, Hooks.onDump, select_member h]; rfl
  · obtain ⟨b, hb⟩ := write_run sk t
    rw [hb, Hooks.onWrite, select_member h]; rfl
  · obtain ⟨b, hb⟩ := read_run t
    rw [hb, Hooks.onRead, select_member h]; rfl
  · obtain ⟨b, hb⟩ := patch_run t
    rw [hb]
    simp only [Hooks.onPatch, h, PatchSel.run]

/-- Without one, an ADL overload handles every value of `T`. An overload that is a template over the tag
does so only if the library has none of its own for `T`. -/
theorem C108_adl (t : Ty) :
    (∀ f, t.hooks.ser.dump = none → t.hooks.adl.dump = some f → (t.hooks.generic = true → t.supported = false) →
      ∀ sk v, dump sk t v = f v) ∧
    (∀ f, t.hooks.ser.write = none → t.hooks.adl.write = some f → (t.hooks.generic = true → t.supported = false) →
      ∀ sk v, write sk t v = f v) ∧
    (∀ f, t.hooks.ser.read = none → t.hooks.adl.read = some f → (t.hooks.generic = true → t.supported = false) →
      ∀ d, read t d = f d) ∧
    (∀ f, t.hooks.ser.patch = none → t.hooks.ser.read = none → t.hooks.adl.patch = some f →
      (t.hooks.generic = true → t.patchable = false) → ∀ v d, patch t v d = f v d) := by
  refine ⟨fun f hm hu hg sk v => ?_, fun f hm hu hg sk v => ?_, fun f hm hu hg d => ?_, fun f hm hr hu hg v d => ?_⟩
  · obtain ⟨b, hb⟩ := dump_run sk t
    rw [hb, Hooks.onDump, select_user hm hu hg]; rfl
  · obtain ⟨b, hb⟩ := write_run sk t
    rw [hb, Hooks.onWrite, select_user hm hu hg]; rfl
  · obtain ⟨b, hb⟩ := read_run t
    rw [hb, Hooks.onRead, select_user hm hu hg]; rfl
  · have key : ∀ (h : Hooks) (b : Bool), h.ser.patch = none → h.ser.read = none → h.adl.patch = some f →
        (h.generic = true → b = false) → h.onPatch b = .custom f := by
      intro h b h1 h2 h3 h4
      rcases onPatch_cases h b with ⟨g, e1, _⟩ | ⟨_, e2, _⟩ | ⟨_, _, e3, _⟩ | ⟨g, _, _, e3, e4⟩
      · rw [h1] at e1; cases e1
      · exact absurd h2 e2
      · rw [h3] at e3; cases e3
      · rw [h3] at e3
        cases e3
        rw [e4, if_neg]
        cases hg : h.generic with
        | false => simp
        | true => simp [h4 hg]
    obtain ⟨b, hb⟩ := patch_run t
    rw [hb, key _ _ hm hr hu hg]; rfl

/-- If the two directions of every customised part of a type fit together, they do for the type: reading
gives back what was written. -/
theorem C108_round_trip (sk : Bool) (t : Ty) (v : Val) (d : Doc) (hf : Faithful sk t) (hv : HasTy t v)
    (hw : write sk t v = some d) : read t d = some v :=
  write_read sk t v d hf hv hw

/-- If for every customised part of a type `dump` says what `serialize` builds, it does for the type. -/
theorem C108_dump (sk : Bool) (t : Ty) (v : Val) (hf : Agrees t) (hv : HasTy t v) :
    dump sk t v = (write sk t v).map events :=
  dump_events sk t v hf hv

/-! #### Types for the examples -/

/-- `std::chrono::seconds` as in tests/serialization_test.cpp:31, with a text for its form: 5 is "xxxxx". -/
def seconds : Impl where
  dump := some fun v => match v with | .opq n => some [.str (String.ofList (List.replicate n.toNat 'x'))] | _ => none
  write := some fun v => match v with
    | .opq n => if n < 0 then none else some (.str (String.ofList (List.replicate n.toNat 'x')))
    | _ => none
  read := some fun d => match d with | .str s => some (.opq s.toList.length) | _ => none

/-- An enumeration written as a number that is one more than its own. -/
def shifted : Impl where
  dump := some fun v => match v with | .num n => some [.num (n + 1)] | _ => none
  write := some fun v => match v with | .num n => some (.num (n + 1)) | _ => none
  read := some fun d => match d with | .num n => some (.num (n - 1)) | _ => none

/-- An object written as its first field only. -/
def firstOnly : Impl where
  dump := some fun v => match v with | .list (.num n :: _) => some [.num n] | _ => none
  write := some fun v => match v with | .list [.num n] => some (.num n) | _ => none
  read := some fun d => match d with | .num n => some (.list [.num n]) | _ => none

def tSeconds : Ty := .opq { ser := seconds }
def tPoint : Ty := .obj {} (.cons ⟨"x", false⟩ (.num {}) (.cons ⟨"y", false⟩ (.num {}) .nil))

/-- An object with a customised type in an optional, in a map and in a tuple, a set of a customised
enumeration, and a flattened object. -/
def tJob : Ty :=
  .obj {} (.cons ⟨"after", false⟩ (.opt {} tSeconds)
    (.cons ⟨"times", false⟩ (.map {} none tSeconds)
      (.cons ⟨"pair", false⟩ (.tup {} (.cons tSeconds (.cons (.num {}) .nil)))
        (.cons ⟨"days", false⟩ (.set {} { ser := shifted } ["mo", "tu", "we"])
          (.cons ⟨"at", true⟩ tPoint .nil)))))

def vJob : Val :=
  .list [.absent, .pairs [("a", .opq 1), ("b", .opq 2)], .list [.opq 3, .num 7], .set [true, false, true],
    .list [.num 4, .num 5]]

theorem seconds_round : RoundTrips (HasTy tSeconds)
    (fun v => match v with
      | .opq n => if n < 0 then none else some (.str (String.ofList (List.replicate n.toNat 'x')))
      | _ => none)
    (fun d => match d with | .str s => some (.opq s.toList.length) | _ => none) := by
  rintro v d ⟨n, rfl⟩ h
  dsimp only at h
  split at h
  · cases h
  · simp only [Option.some.injEq] at h
    subst h
    simp only [String.toList_ofList, List.length_replicate, Option.some.injEq, Val.opq.injEq]
    omega

theorem shifted_round (names : List String) : RoundTrips (HasTy (.enm { ser := shifted } names))
    (fun v => match v with | .num n => some (.num (n + 1)) | _ => none)
    (fun d => match d with | .num n => some (.num (n - 1)) | _ => none) := by
  rintro v d ⟨n, rfl⟩ h
  simp only [Option.some.injEq] at h
  subst h
  simp only [Option.some.injEq, Val.num.injEq]
  omega

theorem tJob_faithful (sk : Bool) : Faithful sk tJob := by
  refine ⟨⟨⟨⟨seconds_round, fun v => ?_⟩, ?_⟩, ⟨⟨seconds_round, ?_, ?_⟩, ?_⟩, ⟨⟨seconds_round, trivial, trivial⟩, ?_⟩,
    ⟨shifted_round _, ?_⟩, ⟨rfl, ⟨trivial, ?_⟩, ⟨trivial, ?_⟩, trivial⟩, trivial⟩, by decide⟩
  · cases v <;> simp
  all_goals first
    | (intro _ h u r ht hr; cases ht; cases hr; done)
    | (intro _ _ h u ht; cases ht; done)
    | (intro f hf; cases hf; done)
    | (intro _ h u ht; cases ht; done)
    | skip

theorem vJob_hasTy : HasTy tJob vJob := by
  refine ⟨_, rfl, _, _, rfl, Or.inl rfl, _, _, rfl, ⟨_, rfl, by decide, ?_⟩, _, _, rfl,
    ⟨_, rfl, _, _, rfl, ⟨_, rfl⟩, _, _, rfl, ⟨_, rfl⟩, rfl⟩, _, _, rfl, ⟨_, rfl, rfl⟩, _, _, rfl,
    ⟨_, rfl, _, _, rfl, ⟨_, rfl⟩, _, _, rfl, ⟨_, rfl⟩, rfl⟩, rfl⟩
  intro e he
  simp only [List.mem_cons, List.not_mem_nil, or_false] at he
  rcases he with rfl | rfl <;> exact ⟨_, rfl⟩

/-- The document of `vJob`. -/
def dJob : Doc :=
  .obj [("times", .obj [("a", .str "x"), ("b", .str "xx")]), ("pair", .arr [.str "xxx", .num 7]),
    ("days", .arr [.num 1, .num 3]), ("x", .num 4), ("y", .num 5)]

example : write true tJob vJob = some dJob := rfl
example : read tJob dJob = some vJob := C108_round_trip true tJob vJob dJob (tJob_faithful true) vJob_hasTy rfl

/-- With a field of type `seconds` in a list, `dump` says what `serialize` builds. -/
example : dump true (.seq {} (.opt {} tPoint)) (.list [.absent, .present (.list [.num 1, .num 2])]) =
    some [.beginArr, .null, .beginObj, .key "x", .num 1, .key "y", .num 2, .endObj, .endArr] := rfl

def tShifted : Ty := .seq {} (.enm { ser := shifted } ["mo", "tu"])

example : Agrees tShifted := by
  intro v hv
  obtain ⟨n, rfl⟩ := hv
  rfl
example : HasTy tShifted (.list [.num 0, .num 1]) := by
  refine ⟨_, rfl, ?_⟩
  intro x hx
  simp only [List.mem_cons, List.not_mem_nil, or_false] at hx
  rcases hx with rfl | rfl <;> exact ⟨_, rfl⟩
example : dump true tShifted (.list [.num 0, .num 1]) = some [.beginArr, .num 1, .num 2, .endArr] := rfl

example : (Ty.hooks tSeconds).ser.read ≠ none := by simp [tSeconds, Ty.hooks, seconds]
example : write true tSeconds (.opq 2) = some (.str "xx") := rfl

/-- A reflected object whose format the user changed with `serializer<T>`. -/
def tFirst : Ty := .obj { ser := firstOnly } (.cons ⟨"n", false⟩ (.num {}) .nil)

theorem tFirst_faithful (sk : Bool) : Faithful sk tFirst := by
  rintro v d ⟨vs, rfl, x, xs, rfl, ⟨n, rfl⟩, hxs⟩ h
  simp only [HasFlds] at hxs
  subst hxs
  simp only [Option.some.injEq] at h
  subst h
  rfl

/-- The format is used for the object itself, but not when it is flattened: then its fields are written
one by one, and reading them goes through `serializer<T>`, which does not know them. -/
theorem C108_flatten_violated : ∃ (t u : Ty) (v : Val) (d : Doc), Faithful true t ∧ HasTy u v ∧
    u = .obj {} (.cons ⟨"f", true⟩ t .nil) ∧ write true u v = some d ∧ read u d ≠ some v ∧
    readCompiles u = true := by
  refine ⟨tFirst, _, .list [.list [.num 3]], .obj [("n", .num 3)], tFirst_faithful true, ?_, rfl, rfl, ?_, rfl⟩
  · exact ⟨_, rfl, _, _, rfl, ⟨_, rfl, _, _, rfl, ⟨_, rfl⟩, rfl⟩, rfl⟩
  · simp [read, readFlds, tFirst, Hooks.onRead, select, resolve, Sel.run, firstOnly]

/-- A set of a customised enumeration is serialized with the user's format and dumped without it. -/
theorem C108_set_violated : ∃ (e : Hooks) (names : List String) (v : Val),
    Agrees (.enm e names) ∧ HasTy (.set {} e names) v ∧
    dump true (.set {} e names) v ≠ (write true (.set {} e names) v).map events := by
  refine ⟨{ ser := shifted }, ["mo", "tu"], .set [true, false], ?_, ⟨_, rfl, rfl⟩, ?_⟩
  · rintro v ⟨n, rfl⟩; rfl
  · have h1 : dump true (.set {} { ser := shifted } ["mo", "tu"]) (.set [true, false]) =
        some [.beginArr, .str "mo", .endArr] := rfl
    have h2 : (write true (.set {} { ser := shifted } ["mo", "tu"]) (.set [true, false])).map events =
        some [.beginArr, .num 1, .endArr] := rfl
    rw [h1, h2]
    decide

/-- The keys of a map are written as their text, and read with the key type's `deserialize`. -/
theorem C108_key_violated : ∃ (key : String → Option String) (v : Val) (d : Doc),
    HasTy (.map {} (some key) (.num {})) v ∧ write true (.map {} (some key) (.num {})) v = some d ∧
    read (.map {} (some key) (.num {})) d ≠ some v := by
  refine ⟨fun k => if k.length = 2 then some (String.ofList (k.toList.drop 1)) else none,
    .pairs [("a", .num 1)], .obj [("a", .num 1)], ⟨_, rfl, by decide, ?_⟩, rfl, ?_⟩
  · intro e he
    simp only [List.mem_cons, List.not_mem_nil, or_false] at he
    subst he
    exact ⟨_, rfl⟩
  · have : read (.map {} (some fun k => if k.length = 2 then some (String.ofList (k.toList.drop 1)) else none) (.num {}))
        (.obj [("a", .num 1)]) = none := by
      have h2 : ¬ "a".length = 2 := by decide
      simp [read, Hooks.onRead, select, resolve, Sel.run, readEntries, readKey, h2]
    rw [this]
    simp

/-- An optional written by the user's own format. -/
def orNever : Impl where
  write := some fun v => match v with
    | .absent => some (.str "never")
    | .present (.num n) => some (.num n)
    | _ => none
  read := some fun d => match d with
    | .str "never" => some .absent
    | .num n => some (.present (.num n))
    | _ => none

/-- A field that is null is left out without asking the type's format, and a format that has a text for it
cannot read that. -/
theorem C108_absent_violated : ∃ (t u : Ty) (v : Val) (d : Doc), Faithful true t ∧ HasTy u v ∧
    u = .obj {} (.cons ⟨"f", false⟩ t .nil) ∧ write true u v = some d ∧ read u d ≠ some v := by
  refine ⟨.opt { ser := orNever } (.num {}), _, .list [.absent], .obj [], ?_, ?_, rfl, rfl, ?_⟩
  · rintro v d (rfl | ⟨x, rfl, n, rfl⟩) h
    · simp only [Option.some.injEq] at h
      subst h; rfl
    · simp only [Option.some.injEq] at h
      subst h; rfl
  · exact ⟨_, rfl, _, _, rfl, Or.inl rfl, rfl⟩
  · have : read (.obj {} (.cons ⟨"f", false⟩ (.opt { ser := orNever } (.num {})) .nil)) (.obj []) = none := rfl
    rw [this]
    simp

/-! ### C109: patching follows the format of every type it reaches -/

/-- `patch` compiles exactly if it is available for every type it reaches, and `deserialize` exactly if it
is for every type that reaches. -/
theorem C109_compiles (t : Ty) :
    (patchCompiles t = true ↔ ∀ u, PatchReaches t u → Patchable u) ∧
    (readCompiles t = true ↔ ∀ u, ReadReaches t u → Readable u) :=
  ⟨patch_compiles t, read_compiles t⟩

/-- A type whose `serializer` has a `deserialize` is patched by its `serializer` wherever `patch` reaches
it, or the program does not compile. -/
theorem C109_contract (t u : Ty) (hc : patchCompiles t = true) (hr : PatchReaches t u)
    (hd : u.hooks.ser.read ≠ none) : ∃ p, u.hooks.ser.patch = some p ∧ ∀ v d, patch u v d = p v d := by
  rcases (patch_compiles t).mp hc u hr with h | ⟨h, _⟩
  · obtain ⟨p, hp⟩ := Option.ne_none_iff_exists'.mp h
    exact ⟨p, hp, (C108_member u).2.2.2 p hp⟩
  · exact absurd h hd

/-- Patching with all that was written of a value gives that value, if every customised part that `patch`
reaches takes the format it is written in. -/
theorem C109_replaces (t : Ty) (v x : Val) (d : Doc) (hf : PatchFaithful t) (hv : HasTy t v) (hx : HasTy t x)
    (hw : write false t x = some d) : patch t v d = some x :=
  write_patch t v x d hf hv hx hw

/-- Patching a reflected object with a map: a field whose name is not in the map keeps its value, any other
is patched with the first member of its name. That includes the fields of flattened objects. -/
theorem C109_fields (t : Ty) (v w : Val) (ms : List (String × Doc)) (hl : FlatByLibTy t)
    (hp : patch t v (.obj ms) = some w) (n : String) (u : Ty) (x : Val) (hx : HoldsFlat t v n u x) :
    ∃ y, HoldsFlat t w n u y ∧ ((n ∉ ms.map (·.1) ∧ y = x) ∨ ∃ d, First ms n d ∧ patch u x d = some y) :=
  patchFlat_fields t v w ms hl hp n u x hx

/-- Patching a reflected object with anything but a map, or anything but an object or optional with
anything, replaces it. -/
theorem C109_whole (t : Ty) (v : Val) (d : Doc) (hs : t.hooks.ser.patch = none) (hr : t.hooks.ser.read = none)
    (ha : t.hooks.adl.patch = none) :
    (∀ h fs, t = .obj h fs → (∀ ms, d ≠ .obj ms) → patch t v d = read t d) ∧
    (t.patchable = false → patch t v d = read t d) := by
  have key : ∀ b, t.hooks.onPatch b = if b then .builtin else .replace := by
    intro b
    rcases onPatch_cases t.hooks b with ⟨g, e1, _⟩ | ⟨_, e2, _⟩ | ⟨_, _, _, e4⟩ | ⟨g, _, _, e3, _⟩
    · rw [hs] at e1; cases e1
    · exact absurd hr e2
    · exact e4
    · rw [ha] at e3; cases e3
  refine ⟨?_, ?_⟩
  · rintro h fs rfl hd
    have hk : h.onPatch true = .builtin := key true
    cases d with
    | obj ms => exact absurd rfl (hd ms)
    | _ => simp only [patch, hk, PatchSel.run]
  · intro hp
    obtain ⟨b, hb⟩ := patch_run t
    rw [hb, key, hp]
    rfl

/-- `seconds` with a `patch` that adds up nothing: it replaces. -/
def secondsPatched : Impl :=
  { seconds with patch := some fun _ d => match d with | .str s => some (.opq s.toList.length) | _ => none }

def tTimer : Ty :=
  .obj {} (.cons ⟨"after", false⟩ (.opt {} (.opq { ser := secondsPatched }))
    (.cons ⟨"all", false⟩ (.seq {} tSeconds) (.cons ⟨"at", true⟩ tPoint .nil)))

example : patchCompiles tTimer = true := rfl
example : PatchReaches tTimer (.opq { ser := secondsPatched }) :=
  .obj (t := .opt {} (.opq { ser := secondsPatched })) rfl (by simp [Flds.types]) (.opt rfl (.refl _))
/-- A list is replaced as a whole, so its elements need no `patch` of their own. -/
example : patchCompiles (.seq {} tSeconds) = true ∧ patchCompiles tSeconds = false := ⟨rfl, rfl⟩
example : patchCompiles (.opt {} tSeconds) = false := rfl

theorem tTimer_faithful : PatchFaithful tTimer := by
  refine ⟨rfl, ⟨⟨rfl, ?_, fun v => ?_⟩, seconds_round, ⟨rfl, trivial, trivial, trivial⟩, trivial⟩, by decide⟩
  · intro v x d _ hx h
    exact seconds_round x d hx h
  · cases v <;> simp

example : patch tTimer (.list [.absent, .list [.opq 1, .opq 2], .list [.num 1, .num 2]])
    (.obj [("after", .str "xx"), ("y", .num 9)]) =
      some (.list [.present (.opq 2), .list [.opq 1, .opq 2], .list [.num 1, .num 9]]) := rfl

example : FlatByLibTy tTimer :=
  ⟨rfl, fun h => (by cases h), fun h => (by cases h), fun _ => ⟨rfl, fun h => (by cases h), fun h => (by cases h), trivial⟩,
    trivial⟩
example : HoldsFlat tTimer (.list [.absent, .list [.opq 1, .opq 2], .list [.num 1, .num 2]]) "x" (.num {}) (.num 1) :=
  .mk (.later (.later (.inside rfl (.mk (.here rfl)))))
example : patch tPoint (.list [.num 1, .num 2]) (.arr [.num 3, .num 4]) = some (.list [.num 3, .num 4]) := rfl

example : write false tTimer (.list [.present (.opq 1), .list [.opq 3], .list [.num 6, .num 7]]) =
    some (.obj [("after", .str "x"), ("all", .arr [.str "xxx"]), ("x", .num 6), ("y", .num 7)]) := rfl

/-- An object with one field, written under another name. -/
def renamed : Impl where
  write := some fun v => match v with | .list [.num n] => some (.obj [("value", .num n)]) | _ => none
  read := some fun d => match d with | .obj [("value", .num n)] => some (.list [.num n]) | _ => none

/-- A reflected object with `serialize_adl` and `deserialize_adl` of the user's but no `patch_adl`: the
program compiles, and patching with all that was written of a value changes nothing. The comment at
serialization.hpp:45-51 says that such types must supply `patch_adl`. -/
theorem C109_adl_violated : ∃ (t : Ty) (v x : Val) (d : Doc), Faithful false t ∧ HasTy t v ∧ HasTy t x ∧
    t.hooks.adl.read ≠ none ∧ patchCompiles t = true ∧ write false t x = some d ∧ read t d = some x ∧
    patch t v d = some v ∧ v ≠ x := by
  refine ⟨.obj { adl := renamed } (.cons ⟨"n", false⟩ (.num {}) .nil), .list [.num 1], .list [.num 2],
    .obj [("value", .num 2)], ?_, ⟨_, rfl, _, _, rfl, ⟨_, rfl⟩, rfl⟩, ⟨_, rfl, _, _, rfl, ⟨_, rfl⟩, rfl⟩,
    by simp [Ty.hooks, renamed], rfl, rfl, rfl, rfl, by simp⟩
  rintro v d ⟨vs, rfl, x, xs, rfl, ⟨n, rfl⟩, hxs⟩ h
  simp only [HasFlds] at hxs
  subst hxs
  simp only [Option.some.injEq] at h
  subst h
  rfl

/-- A `patch_adl` that is a template over the tag is ambiguous next to the library's for a reflected type or
an optional. That is no error: the whole value is replaced and the user's function is never called. -/
theorem C109_generic_ignored (t : Ty) (f : Val → Doc → Option Val) (hs : t.hooks.ser.patch = none)
    (hr : t.hooks.ser.read = none) (hf : t.hooks.adl.patch = some f) (hg : t.hooks.generic = true)
    (hp : t.patchable = true) :
    (∀ v d, patch t v d = read t d) ∧ patchCompiles t = readCompiles t := by
  have key : ∀ (h : Hooks), h.ser.patch = none → h.ser.read = none → h.adl.patch = some f →
      h.generic = true → h.onPatch true = .replace := by
    intro h h1 h2 h3 h4
    rcases onPatch_cases h true with ⟨g, e1, _⟩ | ⟨_, e2, _⟩ | ⟨_, _, e3, _⟩ | ⟨g, _, _, e3, e4⟩
    · rw [h1] at e1; cases e1
    · exact absurd h2 e2
    · rw [h3] at e3; cases e3
    · rw [e4, h4]; rfl
  cases t <;> simp only [Ty.patchable, Bool.false_eq_true] at hp
  · rename_i h u
    have hk : h.onPatch true = .replace := key h hs hr hf hg
    exact ⟨fun v d => by simp only [patch, hk, PatchSel.run], by simp only [patchCompiles, hk, PatchSel.compiles]⟩
  · rename_i h fs
    have hk : h.onPatch true = .replace := key h hs hr hf hg
    exact ⟨fun v d => by simp only [patch, hk, PatchSel.run], by simp only [patchCompiles, hk, PatchSel.compiles]⟩

/-- A counter whose patch adds instead of replacing. -/
def adding : Impl where
  patch := some fun v d => match v, d with
    | .list [.num a], .obj [("n", .num b)] => some (.list [.num (a + b)])
    | _, _ => none

def tCounter (generic : Bool) : Ty :=
  .obj { adl := adding, generic := generic } (.cons ⟨"n", false⟩ (.num {}) .nil)

/-- The same overload, once naming the tag and once as a template over it: the first is called, the second is
ignored. -/
theorem C109_generic_violated :
    patch (tCounter false) (.list [.num 40]) (.obj [("n", .num 2)]) = some (.list [.num 42]) ∧
    patch (tCounter true) (.list [.num 40]) (.obj [("n", .num 2)]) = some (.list [.num 2]) ∧
    patchCompiles (tCounter true) = true := ⟨rfl, rfl, rfl⟩

/-- The same for the other functions is an error: a reflected type cannot have a `deserialize_adl` that is a
template over the tag. -/
theorem C109_generic_rejected (t : Ty) (f : Doc → Option Val) (hs : t.hooks.ser.read = none)
    (hf : t.hooks.adl.read = some f) (hg : t.hooks.generic = true) (hp : t.supported = true) :
    readCompiles t = false := by
  cases hc : readCompiles t with
  | false => rfl
  | true =>
    rcases (read_compiles t).mp hc t (.refl t) with h | ⟨_, h⟩ | ⟨h, _⟩
    · exact absurd hs h
    · have := h hg
      rw [hp] at this
      cases this
    · rw [hf] at h; cases h

example : readCompiles (.obj { adl := firstOnly, generic := true } (.cons ⟨"n", false⟩ (.num {}) .nil)) = false := rfl

end Verif.Custom
