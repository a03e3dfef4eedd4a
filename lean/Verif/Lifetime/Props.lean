import Verif.Lifetime.Fits
/-
C106: documents hold what they say.  C107: what is read from a document.
-/
namespace Verif.Lifetime
open Verif.Path

/-! ### C106 -/

theorem new_doc {w : World} (d : Doc) : Has (w.addDoc d) w.docs.length ⟨w.pools, d, .intact⟩ :=
  ⟨by simp [World.addDoc], rfl⟩

/-- `parse`, `serialize` and `object_builder` make a document that says what they were given,
however its strings are stored; so does moving a document. -/
theorem C106_content {w w' : World} :
    (∀ t, step w (.parse t) = .ok w' → ∃ x, Has w' w.docs.length x ∧ x.root.plain = t) ∧
    (∀ o sn v, w.objs[o]? = some v → step w (.ser o sn) = .ok w' →
      ∃ x, Has w' w.docs.length x ∧ Says (look w) sn v x.root.plain) ∧
    (∀ d x, Has w d x → step w (.move d) = .ok w' → Has w' w.docs.length x) := by
  refine ⟨fun t h => ?_, fun o sn v hv h => ?_, fun d x hx h => ?_⟩
  · simp only [step, Out.ok.injEq] at h
    subst h
    exact ⟨_, new_doc _, own_plain _ _ _⟩
  · simp only [step, hv] at h
    split at h
    · split at h
      · cases h
      · next d hd => cases h; exact ⟨_, new_doc _, (ser_made hd).1⟩
    · cases h
  · simp only [step, hx.1, hx.2, if_true] at h
    cases h
    exact ⟨by simp [List.length_set], hx.2⟩

/-- The members of an object builder: the names and what the objects say, in order. -/
inductive SaysMembers (look : Loc → Option Plain) (sn : Bool) (objs : List Val) : List Member → PMems → Prop
  | nil : SaysMembers look sn objs [] .nil
  | cons {m : Member} {v : Val} {p : Plain} {ms : List Member} {r : PMems} : objs[m.obj]? = some v →
      Says look sn v p → SaysMembers look sn objs ms r → SaysMembers look sn objs (m :: ms) (.cons m.name p r)

theorem build_says {w : World} {a : Nat} {sn : Bool} : ∀ {ms : List Member} {r : Mems},
    build w a sn ms = some r → SaysMembers (look w) sn w.objs ms r.plain
  | [], r, hr => by simp only [build, Option.some.injEq] at hr; subst hr; exact .nil
  | m :: ms, r, hr => by
    simp only [build] at hr
    split at hr
    · cases hr
    · next v hv =>
      split at hr
      · next k d hk hd =>
        simp only [Option.map_eq_some_iff] at hr
        obtain ⟨r', h1, rfl⟩ := hr
        simp only [Mems.plain, (memberName_some hk).1]
        exact .cons hv (ser_made hd).1 (build_says h1)
      · cases hr

theorem C106_builder {w w' : World} {ms : List Member} {sn : Bool} (h : step w (.build ms sn) = .ok w') :
    ∃ x r, Has w' w.docs.length x ∧ x.root.plain = .obj r ∧ SaysMembers (look w) sn w.objs ms r := by
  simp only [step] at h
  split at h
  · split at h
    · cases h
    · next r hr =>
      cases h
      exact ⟨_, r.plain, new_doc _, rfl, build_says hr⟩
  · cases h

/-- Whatever a program did, a document uses only itself, its allocator, static memory, and
characters that were handed to rapidjson by pointer: `StringRefType`s and `const char*` keys in
objects made by the user, and names given to `object_builder::add`. -/
theorem C106_memory {short : Nat} {ops : List Op} {w : World} (h : Runs (start short) ops w) {d : Nat}
    {x : Document} (hd : Has w d x) :
    ∀ m ∈ x.root.mems (.object d),
      m = .object d ∨ m = .pool x.alloc ∨ m = .static ∨ m ∈ ops.flatMap Op.lends := by
  intro m hm
  have hi := runs_inv h (inv_start short)
  obtain ⟨h1, _, h3⟩ := hi.doc d x hd.1
  rcases Doc.mems_cases h1 hm with h | h | h
  · exact .inl h
  · exact .inr (.inl h)
  · exact .inr (.inr ((h3 m h).imp id (by simp)))

/-- So a document can be used, and says the same, until it is moved or destroyed, whatever
happens to other documents and to objects, as long as the characters handed over by pointer
are there. -/
theorem C106_lives {short : Nat} {ops ops' : List Op} {w w' : World} (h : Runs (start short) ops w)
    (h' : Runs w ops' w') {d : Nat} {x y : Document} (hd : Has w d x) (hd' : Has w' d y)
    (hl : ∀ m ∈ ops.flatMap Op.lends ++ ops'.flatMap Op.lends, live w' m = true) :
    step w' (.read d) = .ok w' ∧ y.root = x.root := by
  have hi := runs_inv h' (runs_inv h (inv_start short))
  obtain ⟨h1, _, h3⟩ := hi.doc d y hd'.1
  constructor
  · simp only [step, hd'.1, hd'.2, if_true]
    rw [if_pos]
    rw [List.all_eq_true]
    intro m hm
    rcases Doc.mems_cases h1 hm with rfl | rfl | h
    · exact live_object hd'
    · exact live_pool hd'
    · rcases h3 m h with rfl | h
      · rfl
      · exact hl m (by simpa using h)
  · obtain ⟨z, hz, _, h5⟩ := (runs_stays h').docs d x hd.1
    cases hd'.1.symm.trans hz
    exact h5

/-- What a leaf of an object refers to can be used. -/
def Usable (w : World) : Val → Prop
  | .sv m _ => live w m = true
  | .sref m _ => live w m = true
  | .view (some l) => ∃ d, deref w l = some d ∧ ∀ m ∈ d.mems l.mem, live w m = true
  | .view none => False
  | _ => True

mutual
theorem ser_defined {w : World} {a : Nat} {sn : Bool} : ∀ {v : Val}, v.compiles = true →
    v.all (Usable w) (fun k => ∀ m ∈ k.mems, live w m = true) → ∃ d, ser w a sn v = some d
  | .none, _, _ => ⟨_, rfl⟩
  | .num _, _, _ => ⟨_, rfl⟩
  | .str _, _, _ => ⟨_, rfl⟩
  | .sv m s, _, h => ⟨.str (copyStr w.short a s), by simp only [Val.all, Usable] at h; simp [ser, readStr, h]⟩
  | .sref m s, _, h => ⟨.str (.const m s), by simp only [Val.all, Usable] at h; simp [ser, readStr, h]⟩
  | .view none, _, h => h.elim
  | .view (some l), _, h => by
    obtain ⟨d, h1, h2⟩ := h
    exact ⟨_, by simp only [ser, h1]; rw [if_pos (List.all_eq_true.2 h2)]⟩
  | .seq l, hc, h => by
    obtain ⟨d, hd⟩ := sers_defined (a := a) (sn := sn) hc h
    exact ⟨_, by simp only [ser, hd]; rfl⟩
  | .map l, hc, h => by
    obtain ⟨d, hd⟩ := serEnts_defined (a := a) (sn := sn) hc h
    exact ⟨_, by simp only [ser, hd]; rfl⟩
  | .record l, hc, h => by
    obtain ⟨d, hd⟩ := serFlds_defined (a := a) (sn := sn) hc h
    exact ⟨_, by simp only [ser, hd]; rfl⟩
theorem sers_defined {w : World} {a : Nat} {sn : Bool} : ∀ {v : Vals}, v.compiles = true →
    v.all (Usable w) (fun k => ∀ m ∈ k.mems, live w m = true) → ∃ d, sers w a sn v = some d
  | .nil, _, _ => ⟨_, rfl⟩
  | .cons v l, hc, h => by
    simp only [Vals.compiles, Bool.and_eq_true] at hc
    obtain ⟨d, hd⟩ := ser_defined (a := a) (sn := sn) hc.1 h.1
    obtain ⟨r, hr⟩ := sers_defined (a := a) (sn := sn) hc.2 h.2
    exact ⟨_, by simp only [sers, hd, hr]; rfl⟩
theorem serEnts_defined {w : World} {a : Nat} {sn : Bool} : ∀ {v : Ents}, v.compiles = true →
    v.all (Usable w) (fun k => ∀ m ∈ k.mems, live w m = true) → ∃ d, serEnts w a sn v = some d
  | .nil, _, _ => ⟨_, rfl⟩
  | .cons k v l, hc, h => by
    simp only [Ents.compiles, Bool.and_eq_true] at hc
    obtain ⟨d, hd⟩ := ser_defined (a := a) (sn := sn) hc.1.2 h.2.1
    obtain ⟨r, hr⟩ := serEnts_defined (a := a) (sn := sn) hc.2 h.2.2
    have hk : ∃ s, keyStr w a k = some s := by
      cases k with
      | own s => exact ⟨_, rfl⟩
      | cstr m s =>
        have h1 := h.1 m (by simp [Key.mems])
        exact ⟨.const m s, by simp [keyStr, readStr, h1]⟩
      | sv m s => simp at hc
    obtain ⟨s, hs⟩ := hk
    simp only [serEnts]
    split
    · exact ⟨_, hr⟩
    · exact ⟨_, by simp only [hs, hd, hr]; rfl⟩
theorem serFlds_defined {w : World} {a : Nat} {sn : Bool} : ∀ {v : Flds}, v.compiles = true →
    v.all (Usable w) (fun k => ∀ m ∈ k.mems, live w m = true) → ∃ d, serFlds w a sn v = some d
  | .nil, _, _ => ⟨_, rfl⟩
  | .cons n kind v l, hc, h => by
    simp only [Flds.compiles, Bool.and_eq_true] at hc
    obtain ⟨r, hr⟩ := serFlds_defined (a := a) (sn := sn) hc.2 h.2
    have key : ∀ {o : Option Mems}, (∃ d, o = some d) → ∃ d, joinMems o (some r) = some d := by
      rintro o ⟨d, rfl⟩; exact ⟨_, rfl⟩
    simp only [serFlds, hr]
    refine key ?_
    split
    · exact ⟨_, rfl⟩
    · cases kind with
      | skip => exact ⟨_, rfl⟩
      | plain =>
        obtain ⟨d, hd⟩ := ser_defined (a := a) (sn := sn) hc.1.2 h.1
        exact ⟨_, by simp only [hd]; rfl⟩
      | extra =>
        cases v <;> simp only [Bool.false_eq_true, false_and] at hc
        exact serEnts_defined hc.1.2 h.1
      | flatten =>
        cases v <;> simp only [Bool.false_eq_true, false_and] at hc
        exact serFlds_defined hc.1.2 h.1
end

/-- Serializing an object is defined if its `string_view`s, keys and views can be used; views
must not be default constructed. -/
theorem C106_defined {w : World} {o : Nat} {v : Val} (hv : w.objs[o]? = some v) (hc : v.compiles = true)
    (hu : v.all (Usable w) (fun k => ∀ m ∈ k.mems, live w m = true)) (sn : Bool) :
    ∃ w', step w (.ser o sn) = .ok w' := by
  obtain ⟨d, hd⟩ := ser_defined (a := w.pools) (sn := sn) hc hu
  exact ⟨w.addDoc d, by simp [step, hv, hc, hd]⟩

/-- Executes a program; `none` is undefined behaviour. -/
def play : World → List Op → Option World
  | w, [] => some w
  | w, op :: ops =>
    match step w op with
    | .ok w' => play w' ops
    | .ub => none
    | _ => play w ops

theorem play_runs : ∀ {w w' : World} {ops : List Op}, play w ops = some w' → Runs w ops w'
  | w, w', [], h => by cases h; exact .nil w
  | w, w', op :: ops, h => by
    simp only [play] at h
    split at h
    · next hs => exact .ok hs (play_runs h)
    · cases h
    · next hs1 hs2 =>
      cases hs : step w op with
      | ok w1 => exact absurd hs (hs1 w1)
      | ub => exact absurd hs hs2
      | threw => exact .threw hs (play_runs h)
      | off => exact .off hs (play_runs h)

/-- A string of `n` characters. -/
def text (n : Nat) : Str := List.replicate n 0x61#8

/-- A record with a long string, a `string_view`, an extra field and a view of a document: all
of it is copied, so that the first document and the string can go. -/
def copies : List Op :=
  [.parse (.arr (.cons (.str (text 30)) .nil)), .buf (text 20),
    .object (.record (.cons (text 1) .plain (.sv (.buf 0) (text 20))
      (.cons (text 2) .plain (.view (some (.root 0)))
        (.cons (text 3) .extra (.map (.cons (.own (text 40)) (.str (text 50)) .nil)) .nil)))),
    .ser 0 true, .free 0, .drop 0]

example : (play (start 13) copies).isSome ∧ copies.flatMap Op.lends = [] ∧
    ((play (start 13) copies).bind fun w => w.docs[1]?).map (·.root) =
      some (.obj 1 (.cons (.const .static (text 1)) (.str (.copied 1 (text 20)))
        (.cons (.const .static (text 2)) (.arr 1 (.cons (.str (.copied 1 (text 30))) .nil))
          (.cons (.copied 1 (text 40)) (.str (.copied 1 (text 50))) .nil)))) :=
  ⟨rfl, rfl, rfl⟩

example : ((play (start 13) copies).map fun w => step w (.read 1)) =
    (play (start 13) copies).map fun w => .ok w := rfl

/-- A document made with `object_builder::add` uses the characters of the name. -/
theorem C106_name_violated :
    ∃ ops w, Runs (start 13) ops w ∧ (∃ x, Has w 0 x) ∧ step w (.read 0) = .ub := by
  refine ⟨[.buf (text 1), .object (.num 1), .build [⟨false, .buf 0, text 1, 0⟩] true, .free 0], _,
    play_runs rfl, ⟨_, rfl, rfl⟩, rfl⟩

/-- `add_dynamic_name` copies it. -/
example : ((play (start 13) [.buf (text 1), .object (.num 1), .build [⟨true, .buf 0, text 1, 0⟩] true, .free 0]).map
    fun w => (step w (.read 0) matches .ok _)) = some true := rfl

/-- A `std::map` whose keys are `const char*` is serialized with `serialize`, yet the document
uses the characters of the keys. -/
theorem C106_key_violated :
    ∃ ops w, Runs (start 13) ops w ∧ (∃ x, Has w 0 x) ∧ step w (.read 0) = .ub := by
  refine ⟨[.buf (text 1), .object (.map (.cons (.cstr (.buf 0) (text 1)) (.num 1) .nil)), .ser 0 true, .free 0], _,
    play_runs rfl, ⟨_, rfl, rfl⟩, rfl⟩

/-- A `json::view` copies a document, but not the names that the document itself did not copy. -/
theorem C106_view_violated :
    ∃ ops w, Runs (start 13) ops w ∧ (∃ x, Has w 1 x) ∧ step w (.read 1) = .ub := by
  refine ⟨[.buf (text 1), .object (.num 1), .build [⟨false, .buf 0, text 1, 0⟩] true,
    .object (.view (some (.root 0))), .ser 1 true, .free 0], _, play_runs rfl, ⟨_, rfl, rfl⟩, rfl⟩

/-! ### C107 -/

mutual
theorem all_mems {P : Mem → Prop} : ∀ {v : Val},
    v.all (fun v => ∀ m ∈ v.mems, P m) (fun k => ∀ m ∈ k.mems, P m) → ∀ m ∈ v.mems, P m
  | .none, h => h
  | .num _, h => h
  | .str _, h => h
  | .sv _ _, h => h
  | .sref _ _, h => h
  | .view _, h => h
  | .seq l, h => by simp only [Val.mems]; exact alls_mems h
  | .map l, h => by simp only [Val.mems]; exact allEnts_mems h
  | .record l, h => by simp only [Val.mems]; exact allFlds_mems h
theorem alls_mems {P : Mem → Prop} : ∀ {v : Vals},
    v.all (fun v => ∀ m ∈ v.mems, P m) (fun k => ∀ m ∈ k.mems, P m) → ∀ m ∈ v.mems, P m
  | .nil, _, m, hm => by simp [Vals.mems] at hm
  | .cons v l, h, m, hm => by
    simp only [Vals.mems, List.mem_append] at hm
    exact hm.elim (all_mems h.1 m) (alls_mems h.2 m)
theorem allEnts_mems {P : Mem → Prop} : ∀ {v : Ents},
    v.all (fun v => ∀ m ∈ v.mems, P m) (fun k => ∀ m ∈ k.mems, P m) → ∀ m ∈ v.mems, P m
  | .nil, _, m, hm => by simp [Ents.mems] at hm
  | .cons k v l, h, m, hm => by
    simp only [Ents.mems, List.mem_append] at hm
    exact hm.elim (h.1 m) fun hm => hm.elim (all_mems h.2.1 m) (allEnts_mems h.2.2 m)
theorem allFlds_mems {P : Mem → Prop} : ∀ {v : Flds},
    v.all (fun v => ∀ m ∈ v.mems, P m) (fun k => ∀ m ∈ k.mems, P m) → ∀ m ∈ v.mems, P m
  | .nil, _, m, hm => by simp [Flds.mems] at hm
  | .cons _ _ v l, h, m, hm => by
    simp only [Flds.mems, List.mem_append] at hm
    exact hm.elim (all_mems h.1 m) (allFlds_mems h.2 m)
end

mutual
theorem all_views {P : Loc → Prop} : ∀ {v : Val},
    v.all (fun v => ∀ l ∈ v.views, P l) (fun _ => True) → ∀ l ∈ v.views, P l
  | .none, h => h
  | .num _, h => h
  | .str _, h => h
  | .sv _ _, h => h
  | .sref _ _, h => h
  | .view _, h => h
  | .seq l, h => by simp only [Val.views]; exact alls_views h
  | .map l, h => by simp only [Val.views]; exact allEnts_views h
  | .record l, h => by simp only [Val.views]; exact allFlds_views h
theorem alls_views {P : Loc → Prop} : ∀ {v : Vals},
    v.all (fun v => ∀ l ∈ v.views, P l) (fun _ => True) → ∀ l ∈ v.views, P l
  | .nil, _, m, hm => by simp [Vals.views] at hm
  | .cons v l, h, m, hm => by
    simp only [Vals.views, List.mem_append] at hm
    exact hm.elim (all_views h.1 m) (alls_views h.2 m)
theorem allEnts_views {P : Loc → Prop} : ∀ {v : Ents},
    v.all (fun v => ∀ l ∈ v.views, P l) (fun _ => True) → ∀ l ∈ v.views, P l
  | .nil, _, m, hm => by simp [Ents.views] at hm
  | .cons k v l, h, m, hm => by
    simp only [Ents.views, List.mem_append] at hm
    exact hm.elim (all_views h.2.1 m) (allEnts_views h.2.2 m)
theorem allFlds_views {P : Loc → Prop} : ∀ {v : Flds},
    v.all (fun v => ∀ l ∈ v.views, P l) (fun _ => True) → ∀ l ∈ v.views, P l
  | .nil, _, m, hm => by simp [Flds.views] at hm
  | .cons _ _ v l, h, m, hm => by
    simp only [Flds.views, List.mem_append] at hm
    exact hm.elim (all_views h.1 m) (allFlds_views h.2 m)
end

/-- Everything is owned. -/
abbrev Owned (v : Val) : Prop := v.all (fun v => v.mems = []) (fun k => k.mems = [])

mutual
theorem fresh_owned : ∀ {t : Ty}, t.owning = true → Owned (fresh t)
  | .num, _ => rfl
  | .str, _ => rfl
  | .sv, h => by simp [Ty.owning] at h
  | .view, h => by simp [Ty.owning] at h
  | .opt _, _ => rfl
  | .vec _, _ => trivial
  | .map _ _, _ => trivial
  | .record fs, h => freshFlds_owned (by simpa [Ty.owning] using h)
theorem freshFlds_owned : ∀ {fs : TFlds}, fs.owning = true →
    (freshFlds fs).all (fun v => v.mems = []) (fun k => k.mems = [])
  | .nil, _ => trivial
  | .cons _ _ _ t fs, h => by
    simp only [TFlds.owning, Bool.and_eq_true] at h
    exact ⟨fresh_owned h.1, freshFlds_owned h.2⟩
end

mutual
theorem deser_owned : ∀ {t : Ty} {l : Loc} {d : Doc} {v : Val}, t.owning = true → deser t l d = some v → Owned v
  | .num, l, d, v, ht, h => by
    cases d <;> simp only [deser, reduceCtorEq, Option.some.injEq] at h
    subst h
    rfl
  | .str, l, d, v, ht, h => by
    cases d <;> simp only [deser, reduceCtorEq, Option.some.injEq] at h
    subst h
    rfl
  | .sv, l, d, v, ht, h => by simp [Ty.owning] at ht
  | .view, l, d, v, ht, h => by simp [Ty.owning] at ht
  | .opt t, l, d, v, ht, h => by
    simp only [deser] at h
    simp only [Ty.owning] at ht
    split at h
    · cases h; rfl
    · exact deser_owned ht h
  | .vec t, l, d, v, ht, h => by
    simp only [Ty.owning] at ht
    cases d <;> simp only [deser, reduceCtorEq, Option.map_eq_some_iff] at h
    obtain ⟨r, h1, rfl⟩ := h
    exact deserVec_all (r := r) (fun j d v hd hv => deser_owned ht hv) h1
  | .map b t, l, d, v, ht, h => by
    simp only [Ty.owning, Bool.and_eq_true, Bool.not_eq_true'] at ht
    cases d <;> simp only [deser, reduceCtorEq, Option.map_eq_some_iff] at h
    obtain ⟨r, h1, rfl⟩ := h
    refine deserMap_all (r := r) (fun _ => rfl) (fun j k d v hd hv => deser_owned ht.2 hv) (fun hb => ?_) h1
    rw [ht.1] at hb
    cases hb
  | .record fs, l, d, v, ht, h => by
    simp only [Ty.owning] at ht
    cases d <;> simp only [deser, reduceCtorEq, Option.map_eq_some_iff] at h
    obtain ⟨r, h1, rfl⟩ := h
    exact deserFlds_owned ht h1
theorem deserFlds_owned {ex : List Str} : ∀ {fs : TFlds} {a : Nat} {l : Loc} {ms : Mems} {v : Flds},
    fs.owning = true → deserFlds ex fs a l ms = some v → v.all (fun v => v.mems = []) (fun k => k.mems = [])
  | .nil, a, l, ms, v, ht, h => by
    simp only [deserFlds, Option.some.injEq] at h
    subst h
    trivial
  | .cons name kind miss t fs, a, l, ms, v, ht, h => by
    simp only [TFlds.owning, Bool.and_eq_true] at ht
    have plain : ∀ {v : Val}, (match findMem a l.path name ms 0 with
        | some (l', d') => deser t l' d'
        | none => if miss then some (fresh t) else deser t .null .null) = some v → Owned v := by
      intro v h
      split at h
      · exact deser_owned ht.1 h
      · split at h
        · cases h; exact fresh_owned ht.1
        · exact deser_owned ht.1 h
    simp only [deserFlds] at h
    split at h
    · cases h
    · next x hx =>
      simp only [Option.map_eq_some_iff] at h
      obtain ⟨r, h1, rfl⟩ := h
      refine ⟨?_, deserFlds_owned ht.2 h1⟩
      cases kind with
      | extra => exact deserExtra_owned ht.1 hx
      | flatten => exact deserFlat_owned ht.1 hx
      | plain => exact plain hx
      | skip => exact plain hx
theorem deserExtra_owned {ex : List Str} : ∀ {t : Ty} {a : Nat} {l : Loc} {ms : Mems} {v : Val},
    t.owning = true → deserExtra ex t a l ms = some v → Owned v
  | .map _ t, a, l, ms, v, ht, h => by
    simp only [Ty.owning, Bool.and_eq_true] at ht
    simp only [deserExtra, Option.map_eq_some_iff] at h
    obtain ⟨r, h1, rfl⟩ := h
    exact deserMap_all (r := r) (fun _ => rfl) (fun j k d v hd hv => deser_owned ht.2 hv) (fun hb => by cases hb) h1
  | .num, _, _, _, _, _, h | .str, _, _, _, _, _, h | .sv, _, _, _, _, _, h | .view, _, _, _, _, _, h
  | .opt _, _, _, _, _, _, h | .vec _, _, _, _, _, _, h | .record _, _, _, _, _, _, h => by simp [deserExtra] at h
theorem deserFlat_owned : ∀ {t : Ty} {a : Nat} {l : Loc} {ms : Mems} {v : Val},
    t.owning = true → deserFlat t a l ms = some v → Owned v
  | .record fs, a, l, ms, v, ht, h => by
    simp only [Ty.owning] at ht
    simp only [deserFlat, Option.map_eq_some_iff] at h
    obtain ⟨r, h1, rfl⟩ := h
    exact deserFlds_owned ht h1
  | .num, _, _, _, _, _, h | .str, _, _, _, _, _, h | .sv, _, _, _, _, _, h | .view, _, _, _, _, _, h
  | .opt _, _, _, _, _, _, h | .vec _, _, _, _, _, _, h | .map _ _, _, _, _, _, _, h => by simp [deserFlat] at h
end

/-- The object that `deserialize` made. -/
theorem deser_step {w w' : World} {d : Nat} {t : Ty} (h : step w (.deser d t) = .ok w') :
    ∃ x v, Has w d x ∧ deser t (.root d) x.root = some v ∧ w' = { w with objs := w.objs ++ [v] } := by
  simp only [step] at h
  split at h
  · cases h
  · next x hx =>
    split at h
    · next hs =>
      split at h
      · split at h
        · cases h
        · next v hv => cases h; exact ⟨x, v, ⟨hx, hs⟩, hv, rfl⟩
      · cases h
    · cases h

/-- An object without `string_view`s and views refers to nothing: it does not need the
document it was read from. -/
theorem C107_owning {w w' : World} {d : Nat} {t : Ty} (ht : t.owning = true) (h : step w (.deser d t) = .ok w') :
    ∃ v, w'.objs = w.objs ++ [v] ∧ v.mems = [] := by
  obtain ⟨x, v, _, hv, rfl⟩ := deser_step h
  refine ⟨v, rfl, ?_⟩
  have := all_mems (P := fun _ => False) (v := v) ?_
  · exact List.eq_nil_iff_forall_not_mem.2 this
  · have h1 := deser_owned ht hv
    have e1 : (fun v : Val => v.mems = []) = fun v : Val => ∀ m ∈ v.mems, False := by
      funext v; exact propext List.eq_nil_iff_forall_not_mem
    have e2 : (fun k : Key => k.mems = []) = fun k : Key => ∀ m ∈ k.mems, False := by
      funext v; exact propext List.eq_nil_iff_forall_not_mem
    unfold Owned at h1
    rwa [e1, e2] at h1

example : (Ty.record (.cons (text 1) .plain false (.vec .str) (.cons (text 2) .extra false (.map false .num) .nil))).owning = true :=
  rfl

mutual
theorem deserFlds_path {ex : List Str} {a : Nat} {l l' : Loc} (hl : l.path = l'.path) {ms : Mems} :
    ∀ {fs : TFlds}, deserFlds ex fs a l ms = deserFlds ex fs a l' ms
  | .nil => by simp only [deserFlds]
  | .cons n k miss t fs => by
    have h1 : deserExtra ex t a l ms = deserExtra ex t a l' ms := by
      cases t <;> simp only [deserExtra, hl]
    simp only [deserFlds, hl, deserFlds_path hl, h1, deserFlat_path hl]
theorem deserFlat_path {a : Nat} {l l' : Loc} (hl : l.path = l'.path) {ms : Mems} :
    ∀ {t : Ty}, deserFlat t a l ms = deserFlat t a l' ms
  | .record fs => by simp only [deserFlat, deserFlds_path hl]
  | .num | .str | .sv | .view | .opt _ | .vec _ | .map _ _ => by simp only [deserFlat]
end

/-- Only views and `string_view`s see where the value itself is. -/
theorem deser_path {l l' : Loc} (hl : l.path = l'.path) {d : Doc} :
    ∀ {t : Ty}, t.deep = true → deser t l d = deser t l' d
  | .num, _ => by cases d <;> rfl
  | .str, _ => by cases d <;> rfl
  | .sv, ht => by cases ht
  | .view, ht => by cases ht
  | .opt t, ht => by
    simp only [Ty.deep] at ht
    simp only [deser]
    split
    · rfl
    · exact deser_path hl ht
  | .vec t, _ => by cases d <;> simp only [deser, hl]
  | .map b t, _ => by cases d <;> simp only [deser, hl]
  | .record fs, _ => by cases d <;> simp only [deser, deserFlds_path hl]

/-- All of a part of a document can be used. -/
theorem part_live {w : World} {lent : List Mem} (hi : Inv w lent) (hl : ∀ m ∈ lent, live w m = true) {x : Document}
    {d : Nat} (hx : Has w d x) {l : Loc} {e : Doc} (h : Part x d l e) : ∀ m ∈ e.mems l.mem, live w m = true := by
  intro m hm
  have hd := part_deref hi hx h
  rcases h with ⟨rfl, rfl⟩ | ⟨h1, _, h3⟩
  · simp only [Doc.mems, Loc.mem, List.mem_singleton] at hm
    subst hm
    rfl
  · rcases Doc.mems_cases h1 hm with rfl | rfl | h
    · rcases h3 with rfl | ⟨p, rfl⟩
      · exact live_object hx
      · exact live_pool hx
    · exact live_pool hx
    · rcases deref_consts hi hd h with rfl | h
      · rfl
      · exact hl m h

theorem head_mems (m : Mem) (d : Doc) : m ∈ d.mems m := by cases d <;> simp [Doc.mems]

/-- What was read from a part of a document is good as long as the document is. -/
theorem read_good {w : World} {lent : List Mem} (hi : Inv w lent) (hl : ∀ m ∈ lent, live w m = true) {x : Document}
    {d : Nat} (hx : Has w d x) {l : Loc} (hp : Part x d l x.root) {t : Ty} {v : Val} (h : deser t l x.root = some v) :
    Fits (look w) t x.root.plain v ∧ ∀ m ∈ v.mems, live w m = true := by
  refine ⟨deser_fits (part_walks x d) (fun h => ?_) hp h, all_mems (deser_all (part_walks x d) ?_ hp h)⟩
  · simp only [look, part_deref hi hx h, Option.map_some]
  · exact {
      none := by simp [Val.mems], num := by simp [Val.mems], str := by simp [Val.mems]
      sv0 := by simp [Val.mems, live]
      view0 := by simp [Val.mems], own := by simp [Key.mems]
      sv := fun {l s} h m hm => by
        simp only [Val.mems, List.mem_singleton] at hm
        subst hm
        exact part_live hi hl hx h _ (by simp [Doc.mems])
      view := fun {l d} h m hm => by
        simp only [Val.mems, List.mem_singleton] at hm
        subst hm
        exact part_live hi hl hx h _ (head_mems _ _)
      key := fun {l a ms i k d} h hk m hm => by
        simp only [Key.mems, List.mem_singleton] at hm
        subst hm
        exact part_live hi hl hx h _ (List.mem_cons_of_mem _ (hk.mems a).2) }

/-- `deserialize` gives what the document says, and the object is good as long as the document
is there: its views show what they showed, and the memory of its `string_view`s is there.  What
was handed over by pointer must be there too. -/
theorem C107_lives {short : Nat} {ops ops' : List Op} {w w' w'' : World} {d : Nat} {t : Ty} {x y : Document}
    (h : Runs (start short) ops w) (hs : step w (.deser d t) = .ok w') (h' : Runs w' ops' w'') (hx : Has w d x)
    (hy : Has w'' d y) (hl : ∀ m ∈ ops.flatMap Op.lends ++ ops'.flatMap Op.lends, live w'' m = true) :
    ∃ v, w'.objs = w.objs ++ [v] ∧ Fits (look w'') t x.root.plain v ∧ ∀ m ∈ v.mems, live w'' m = true := by
  obtain ⟨x', v, hx', hv, rfl⟩ := deser_step hs
  cases hx.1.symm.trans hx'.1
  have hi' := step_inv (runs_inv h (inv_start short)) hs
  have hi := runs_inv h' hi'
  obtain ⟨z, hz, h1, h2⟩ := (runs_stays h').docs d x hx.1
  cases hy.1.symm.trans hz
  refine ⟨v, rfl, ?_⟩
  rw [← h2] at hv ⊢
  refine read_good hi (fun m hm => hl m (by simpa [Op.lends] using hm)) hy (l := .root d) ?_ hv
  exact .inr ⟨(hi.doc d y hy.1).1, rfl, .inl rfl⟩

/-- If the object is not a view or `string_view` itself, it does not matter if the document is
moved. -/
theorem C107_moved {short : Nat} {ops ops' : List Op} {w w' w'' : World} {d e : Nat} {t : Ty} {x y : Document}
    (h : Runs (start short) ops w) (hs : step w (.deser d t) = .ok w') (h' : Runs w' ops' w'') (ht : t.deep = true)
    (hx : Has w d x) (hy : Has w'' e y) (hxy : y.alloc = x.alloc)
    (hl : ∀ m ∈ ops.flatMap Op.lends ++ ops'.flatMap Op.lends, live w'' m = true) :
    ∃ v, w'.objs = w.objs ++ [v] ∧ Fits (look w'') t x.root.plain v ∧ ∀ m ∈ v.mems, live w'' m = true := by
  obtain ⟨x', v, hx', hv, rfl⟩ := deser_step hs
  cases hx.1.symm.trans hx'.1
  have hi' := step_inv (runs_inv h (inv_start short)) hs
  have hi := runs_inv h' hi'
  obtain ⟨z, hz, h1, h2⟩ := (runs_stays h').docs d x hx.1
  have h3 := hi.same e d y z hy.1 hz (hxy.trans h1.symm)
  refine ⟨v, rfl, ?_⟩
  rw [deser_path (l := .root d) (l' := .node y.alloc []) rfl ht] at hv
  rw [← h2, ← h3] at hv ⊢
  refine read_good hi (fun m hm => hl m (by simpa [Op.lends] using hm)) hy ?_ hv
  exact .inr ⟨(hi.doc e y hy.1).1, rfl, .inr ⟨_, rfl⟩⟩

/-- Moving a document keeps its allocator. -/
theorem C107_move {w w' : World} {d : Nat} {x : Document} (hx : Has w d x) (h : step w (.move d) = .ok w') :
    ∃ y, Has w' w.docs.length y ∧ y.alloc = x.alloc ∧ y.root = x.root ∧ ¬ ∃ z, Has w' d z := by
  have hd : d < w.docs.length := (List.getElem?_eq_some_iff.1 hx.1).1
  simp only [step, hx.1, hx.2, if_true] at h
  cases h
  refine ⟨x, ⟨by simp [List.length_set], hx.2⟩, rfl, rfl, ?_⟩
  rintro ⟨z, hz, hz'⟩
  rw [List.getElem?_append_left (by simpa using hd), List.getElem?_set_self (by simpa using hd)] at hz
  cases hz
  cases hz'

/-- `{"aa": "a…", "aaa": {"a": 1}}` with strings that are not short. -/
def sample : Plain :=
  .obj (.cons (text 2) (.str (text 30)) (.cons (text 3) (.obj (.cons (text 1) (.num 1) .nil)) .nil))

/-- A record of a `string_view`, a view, and a field that may be missing. -/
def sampleTy : Ty :=
  .record (.cons (text 2) .plain false .sv (.cons (text 3) .plain false .view (.cons (text 4) .plain true .view .nil)))

/-- The object: the document can be moved. -/
example : (play (start 13) [.parse sample, .deser 0 sampleTy, .move 0]).map (fun w => (w.objs, w.objs.map fun v => v.mems.all (live w))) =
    some ([.record (.cons (text 2) .plain (.sv (.pool 0) (text 30)) (.cons (text 3) .plain (.view (some (.node 0 [1])))
      (.cons (text 4) .plain (.view none) .nil)))], [true]) ∧ sampleTy.deep = true :=
  ⟨rfl, rfl⟩

/-- A `string_view` or a view does not keep the document. -/
theorem C107_destroyed_violated :
    ∃ ops w v, Runs (start 13) ops w ∧ w.objs = [v] ∧ ops.flatMap Op.lends = [] ∧ ∃ m ∈ v.mems, live w m = false := by
  refine ⟨[.parse sample, .deser 0 sampleTy, .drop 0], _, _, play_runs rfl, rfl, rfl, .pool 0, ?_, rfl⟩
  exact List.mem_cons_self

/-- Moving a document makes a view of all of it useless. -/
theorem C107_root_view_violated :
    ∃ ops w v, Runs (start 13) ops w ∧ w.objs = [v] ∧ (∃ x, Has w 1 x) ∧ v.mems = [.object 0] ∧
      live w (.object 0) = false := by
  exact ⟨[.parse sample, .deser 0 .view, .move 0], _, _, play_runs rfl, rfl, ⟨_, rfl, rfl⟩, rfl, rfl⟩

/-- And a `string_view` of a document that is a short string; one that is longer is good. -/
theorem C107_short_violated :
    ∃ ops w v, Runs (start 13) ops w ∧ w.objs = [v] ∧ (∃ x, Has w 1 x) ∧ v.mems = [.object 0] ∧
      live w (.object 0) = false := by
  exact ⟨[.parse (.str (text 13)), .deser 0 .sv, .move 0], _, _, play_runs rfl, rfl, ⟨_, rfl, rfl⟩, rfl, rfl⟩

example : (play (start 13) [.parse (.str (text 14)), .deser 0 .sv, .move 0]).map
    (fun w => (w.objs, w.objs.map fun v => v.mems.all (live w))) = some ([.sv (.pool 0) (text 14)], [true]) := rfl

/-- A field that may be missing leaves a default constructed view, which cannot be serialized. -/
theorem C107_missing_view_violated :
    ∃ ops w, Runs (start 13) ops w ∧ (∃ x, Has w 0 x) ∧ step w (.ser 0 false) = .ub :=
  ⟨[.parse sample, .deser 0 sampleTy], _, play_runs rfl, ⟨_, rfl, rfl⟩, rfl⟩

end Verif.Lifetime
