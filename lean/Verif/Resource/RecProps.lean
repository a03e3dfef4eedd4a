import Verif.Resource.RecSpec
import Verif.Resource.Demo
/-
Property C135: the verbs on resources of recursive types.
-/
namespace Verif.Resource
open Verif.Path Verif.Path.Spec Verif.Tracker Verif.Tracker.Spec Verif.Resource.Spec

section
variable {β : Type} {E : Env β} {T : Nat → Ty} {bd : β → Nat} {fd : Nat} {r : Resource} {hist : List Note}

/-- What C++ guarantees about a resource of the recursive type with codes `T`. -/
structure RecSetup (E : Env β) (T : Nat → Ty) (bd : β → Nat) (fd : Nat) (r : Resource) (hist : List Note) : Prop where
  typed : Typed E
  uniform : Uniform E T bd fd
  family : Family T
  ok : ∀ k, tyOk (T k) = true
  isA : IsA T r.value
  told : Tracked r.tracker hist

/-- What holds on all codes that are deep enough. -/
def Eventually (P : Nat → Prop) : Prop := ∃ K, ∀ k, K ≤ k → P k

theorem RecSetup.setup (h : RecSetup E T bd fd r hist) : Eventually fun k => Setup E (T k) r hist := by
  obtain ⟨K, hK⟩ := h.isA
  exact ⟨K, fun k hk => ⟨h.typed, ⟨h.ok k, hK k hk⟩, h.told⟩⟩

/-- C135: a request on a recursive type has exactly one outcome: from some depth on all codes give it. On all of them it is what the
theorems about finite types say: nothing undefined happens, nothing changes unless the answer is a success, and then one sub-object
does. -/
theorem C135_served (h : RecSetup E T bd fd r hist) (q : Request β) (p : List Seg) (hp : q.At p) :
    ∃ r' o, Ends (fun k => serve E (T k) r q) (r', o) ∧ (∀ x, Ends (fun k => serve E (T k) r q) x → x = (r', o)) ∧
      o ≠ .stuck ∧ (¬ Success o → r' = r) ∧ (∃ notes, RecSetup E T bd fd r' (hist ++ notes)) ∧
      Eventually fun k => Served E (T k) r hist p r' o := by
  obtain ⟨⟨r', o⟩, K, hK⟩ := settles_serve h.uniform h.family r q
  obtain ⟨M, hM⟩ := h.setup
  have hs : ∀ k, K + M ≤ k → Served E (T k) r hist p r' o := by
    intro k hk
    have := served (hM k (by omega)) q p hp
    rw [show serve E (T k) r q = (r', o) from hK k (by omega)] at this
    exact this
  refine ⟨r', o, ⟨K, hK⟩, fun x hx => ends_unique hx ⟨K, hK⟩, ?_, ?_, ?_, K + M, hs⟩
  · cases hs (K + M) (Nat.le_refl _) with
    | failed _ h2 => exact h2
    | edited h1 => rintro rfl; exact h1
  · intro hn
    cases hs (K + M) (Nat.le_refl _) with
    | failed _ _ => rfl
    | edited h1 => exact absurd h1 hn
  · have hA : IsA T r'.value := by
      refine ⟨K + M, fun k hk => ?_⟩
      cases hs k hk with
      | failed _ _ => exact (hM k (by omega)).wt.ty
      | edited _ he => exact he.typed.ty
    cases hs (K + M) (Nat.le_refl _) with
    | failed _ _ => exact ⟨[], by simpa using h⟩
    | edited _ he => exact ⟨_, h.typed, h.uniform, h.family, h.ok, hA, he.told⟩

/-- C135: any sequence of requests has exactly one outcome. The value is of its type afterwards, no request got stuck, the tracker
knows one more generation for each success, and if the resource was valid before or one request succeeded it is valid. -/
theorem C135_sequence (h : RecSetup E T bd fd r hist) (qs : List (Request β)) (hq : ∀ q ∈ qs, ∃ p, q.At p) :
    ∃ r' os, Ends (fun k => serveAll E (T k) r qs) (r', os) ∧ (∀ x, Ends (fun k => serveAll E (T k) r qs) x → x = (r', os)) ∧
      (∃ notes, RecSetup E T bd fd r' (hist ++ notes) ∧ notes.length = successes os) ∧
      (∀ o ∈ os, o ≠ .stuck) ∧ r'.tracker.current = r.tracker.current + successes os ∧
      ((Eventually fun k => Spec.Valid E (T k) r.value) ∨ 0 < successes os → Eventually fun k => Spec.Valid E (T k) r'.value) ∧
      (successes os = 0 → r' = r) := by
  obtain ⟨⟨r', os⟩, K, hK⟩ := settles_serveAll h.uniform h.family qs r
  obtain ⟨M, hM⟩ := h.setup
  have hall := fun k (hk : K + M ≤ k) => by
    have := C72_any_sequence qs hq (hM k (by omega))
    rw [show serveAll E (T k) r qs = (r', os) from hK k (by omega)] at this
    exact this
  obtain ⟨⟨notes, hn, hl⟩, h2, h3, _, h5⟩ := hall (K + M) (Nat.le_refl _)
  refine ⟨r', os, ⟨K, hK⟩, fun x hx => ends_unique hx ⟨K, hK⟩, ⟨notes, ⟨h.typed, h.uniform, h.family, h.ok, ?_, hn.told⟩, hl⟩, h2, h3,
    ?_, h5⟩
  · refine ⟨K + M, fun k hk => ?_⟩
    obtain ⟨⟨_, hn', _⟩, _⟩ := hall k hk
    exact hn'.wt.ty
  · rintro (⟨N, hN⟩ | hpos)
    · exact ⟨K + M + N, fun k hk => (hall k (by omega)).2.2.2.1 (.inl (hN k (by omega)))⟩
    · exact ⟨K + M, fun k hk => (hall k hk).2.2.2.1 (.inr hpos)⟩

/-- Serialisation does not look further into the code than the value goes. -/
def UniformDump (T : Nat → Ty) (dump : Ty → Value → Except Exc Str) : Prop :=
  ∀ n s t v, InFamily T s → InFamily T t → Upto s n t → Within n v → dump s v = dump t v

theorem settles_get (U : Uniform E T bd fd) (hT : Family T) {dump : Ty → Value → Except Exc Str} (hd : UniformDump T dump) (r : Resource)
    (w : View) : Settles fun k => get E (T k) dump r w := by
  simp only [get]
  cases segs w with
  | none => exact settles_const
  | some path =>
    rcases visit_family U hT r.value path 0 with ⟨e, d, he⟩ | ⟨a, S, d, hS, ha⟩
    · exact ⟨catchGet e, d, fun k hk => by simp only [he k hk]⟩
    · apply settles_shift d
      simp only [ha]
      obtain ⟨n, hn⟩ := within_some a.val
      have : ∀ k, n ≤ k → dump (S k) a.val = dump (S n) a.val := fun k hk =>
        (hd n _ _ _ (hS.part n) (hS.part k) (hS.family n k hk) hn).symm
      exact ⟨_, n, fun k hk => by simp only [this k hk]; rfl⟩

/-- C135: `get` on a recursive type has exactly one outcome: 404 if on all codes that are deep enough the path names no node, and
otherwise the path names the same sub-object on all of them and the answer is its serialisation. -/
theorem C135_get (h : RecSetup E T bd fd r hist) {dump : Ty → Value → Except Exc Str} (hd : UniformDump T dump) (w : View)
    (p : List Seg) (hp : PathTo w p) :
    ∃ o, Ends (fun k => get E (T k) dump r w) o ∧ (∀ x, Ends (fun k => get E (T k) dump r w) x → x = o) ∧ o ≠ .stuck ∧
      ((o = .resp .notFound [] ∧ Eventually fun k => ¬ Resolves E (T k) r.value p) ∨
       ∃ place u, Eventually fun k => ∃ steps t, LeadsTo E (T k) r.value p steps t u ∧ steps.map Step.pos = place ∧
         ∀ text, dump t u = .ok text → o = .resp .ok text) := by
  obtain ⟨o, K, hK⟩ := settles_get h.uniform h.family hd r w
  obtain ⟨M, hM⟩ := h.setup
  refine ⟨o, ⟨K, hK⟩, fun x hx => ends_unique hx ⟨K, hK⟩, ?_, ?_⟩
  · rw [← hK (K + M) (by omega)]
    exact C71_get (hM _ (by omega)).wt w p hp dump
  · rcases visit_family h.uniform h.family r.value p 0 with ⟨e, d, he⟩ | ⟨a, S, d, hS, ha⟩
    · left
      have hn : ∀ k, M + d ≤ k → ¬ Resolves E (T k) r.value p := by
        rintro k hk ⟨st, t, u, hl⟩
        have := visit_leads (hM k (by omega)).wt hl
        rw [he k (by omega)] at this
        cases this
      refine ⟨?_, M + d, hn⟩
      rw [← hK (K + M + d) (by omega)]
      exact (C37_get (hM _ (by omega)).wt w p hp dump).1 (hn _ (by omega))
    · right
      refine ⟨a.addr, a.val, K + M + d, fun k hk => ?_⟩
      have hw := (hM k (by omega)).wt
      have hv := ha (k - d)
      rw [Nat.sub_add_cancel (by omega)] at hv
      rcases visit_cases hw (E := E) p with ⟨_, e, he, _⟩ | ⟨st, t, u, hl⟩
      · rw [he] at hv; cases hv
      · have hl' := visit_leads hw hl
        rw [hv] at hl'
        simp only [Except.ok.injEq, Target.mk.injEq] at hl'
        obtain ⟨h1, _, h3, h4, _⟩ := hl'
        refine ⟨st, t, by rw [h4]; exact hl, h1.symm, fun text ht => ?_⟩
        rw [← hK k (by omega)]
        exact (C37_get hw w p hp dump).2 st t u text hl (by rw [← h4]; exact ht)

/-- C135: polling works on recursive types: if after any sequence of requests `changed_since(q, g)` is false, `get` at `q` answers the
same. -/
theorem C135_polling (hE : Plain E) (h : RecSetup E T bd fd r hist) (ho : ∀ k, oneKey (T k) = true) (hem : ∀ k, emptyables (T k) = true)
    (qs : List (Request β)) (hq : ∀ q ∈ qs, ∃ p, q.At p ∧ ∀ s ∈ p, Canonical s) (r' : Resource) (os : List Outcome)
    (hr : Ends (fun k => serveAll E (T k) r qs) (r', os)) (wq : View) (loc : List Seg) (hp : PathTo wq loc)
    (hcq : ∀ s ∈ loc, Canonical s) (hs : r'.tracker.changedSince wq r.tracker.current = some false)
    {dump : Ty → Value → Except Exc Str} (hd : UniformDump T dump) :
    ∃ o, Ends (fun k => get E (T k) dump r wq) o ∧ Ends (fun k => get E (T k) dump r' wq) o := by
  obtain ⟨K, hK⟩ := hr
  obtain ⟨M, hM⟩ := h.setup
  obtain ⟨o, N, hN⟩ := settles_get h.uniform h.family hd r wq
  refine ⟨o, ⟨N, hN⟩, K + M + N, fun k hk => ?_⟩
  have e : serveAll E (T k) r qs = (r', os) := hK k (by omega)
  have := C73_polling hE (ho k) (hem k) qs hq (hM k (by omega)) wq loc hp hcq (by rw [e]; exact hs) dump
  rw [e] at this
  exact this.trans (hN k (by omega))

/-- C135: a sub-object put at a path of a recursive type is what `get` finds there. -/
theorem C135_put_get (hE : Lawful E) (h : RecSetup E T bd fd r hist) (w : View) (p : List Seg) (hp : PathTo w p) (b : β) (r' : Resource)
    (o : Outcome) (hr : Ends (fun k => put E (T k) r w b) (r', o)) (hs : Success o) {dump : Ty → Value → Except Exc Str} :
    Eventually fun k => ∃ steps t old new, LeadsTo E (T k) r.value p steps t old ∧ E.deser t old b = .ok new ∧
      ∀ text, dump t new = .ok text → get E (T k) dump r' w = .resp .ok text := by
  obtain ⟨K, hK⟩ := hr
  obtain ⟨M, hM⟩ := h.setup
  refine ⟨K + M, fun k hk => ?_⟩
  have e : put E (T k) r w b = (r', o) := hK k (by omega)
  obtain ⟨st, t, old, new, h1, h2, _, h4⟩ := C36_put_get hE (hM k (by omega)) w p hp b (by rw [e]; exact hs)
  refine ⟨st, t, old, new, h1, h2, fun text ht => ?_⟩
  have := h4 dump text ht
  rw [e] at this
  exact this

end

/-! ### Declared structs -/

/-- C135: the codes of a type over declared structs are codes of one type, they compile if the declarations do, and the values of the
recursive type are those which the declarations describe. -/
theorem C135_structs (D : Decls) (hD : DeclsOk D) (t : Ty) (ht : tyOkD D t = true) :
    Family (fun k => subst (unroll D k) t) ∧ (∀ k, tyOk (subst (unroll D k) t) = true) ∧
    ∀ v, IsA (fun k => subst (unroll D k) t) v ↔ isOf D v t = true := by
  refine ⟨fun k j hkj => subst_upto (unroll_upto D k j hkj) t, fun k => tyOk_subst D k (tyOk_unroll D hD k) t ht, fun v => ?_⟩
  obtain ⟨n, hn⟩ := within_some v
  constructor
  · rintro ⟨K, hK⟩
    exact (hasTy_isOf D v t (K + n) (within_mono (by omega) hn)).1 (hK _ (by omega))
  · intro h
    exact ⟨n, fun k hk => (hasTy_isOf D v t k (within_mono hk hn)).2 h⟩

/-! ### A tree -/

namespace Demo

mutual
theorem check_complete (t : Ty) (v : Value) (h : HasTy t v) : check t v = true := by
  match t, v with
  | .leaf _, .leaf _ => rfl
  | .opt t, .opt none => rfl
  | .opt t, .opt (some v) => simp only [HasTy] at h; exact check_complete t v (h v rfl)
  | .record _ fs, .record vs => simp only [HasTy] at h; exact checks_complete fs vs h
  | .map _ t, .map es =>
    simp only [HasTy] at h
    simp only [check, Bool.and_eq_true, decide_eq_true_eq, List.all_eq_true]
    exact ⟨h.1, fun e he => check_complete t e.2 (h.2 e he)⟩
  | .seq _ t, .seq vs =>
    simp only [HasTy] at h
    simp only [check, List.all_eq_true]
    exact fun v hv => check_complete t v (h v hv)
  | .leaf _, .opt _ | .leaf _, .record _ | .leaf _, .map _ | .leaf _, .seq _ => simp [HasTy] at h
  | .opt _, .leaf _ | .opt _, .record _ | .opt _, .map _ | .opt _, .seq _ => simp [HasTy] at h
  | .record _ _, .leaf _ | .record _ _, .opt _ | .record _ _, .map _ | .record _ _, .seq _ => simp [HasTy] at h
  | .map _ _, .leaf _ | .map _ _, .opt _ | .map _ _, .record _ | .map _ _, .seq _ => simp [HasTy] at h
  | .seq _ _, .leaf _ | .seq _ _, .opt _ | .seq _ _, .record _ | .seq _ _, .map _ => simp [HasTy] at h
theorem checks_complete (fs : Fields) (vs : List Value) (h : HasTys fs vs) : checks fs vs = true := by
  match fs, vs with
  | .nil, [] => rfl
  | .nil, _ :: _ => simp [HasTys] at h
  | .cons _ _ _, [] => simp [HasTys] at h
  | .cons a t fs, v :: vs =>
    simp only [HasTys] at h
    simp only [checks, check_complete t v h.1, checks_complete fs vs h.2, Bool.and_self]
end

theorem check_upto {s t : Ty} {n : Nat} {v : Value} (hv : Within n v) (hu : Upto s n t) : check s v = check t v := by
  have h : check s v = true ↔ check t v = true :=
    ⟨fun h => check_complete _ _ ((hasTy_upto hv hu).1 (check_sound _ _ h)),
     fun h => check_complete _ _ ((hasTy_upto hv hu).2 (check_sound _ _ h))⟩
  exact Bool.eq_iff_iff.2 h

mutual
theorem fresh_upto {s t : Ty} {n : Nat} (hv : Within n (fresh s)) (hu : Upto s n t) : fresh s = fresh t := by
  cases n with
  | zero => exact absurd hv id
  | succ n =>
    match s with
    | .leaf i => simp only [Upto] at hu; rw [hu]
    | .opt s => simp only [Upto] at hu; obtain ⟨s', rfl, _⟩ := hu; simp only [fresh]
    | .map e s => simp only [Upto] at hu; obtain ⟨s', rfl, _⟩ := hu; simp only [fresh]
    | .seq k s => simp only [Upto] at hu; obtain ⟨s', rfl, _⟩ := hu; simp only [fresh]
    | .record i fs =>
      simp only [Upto] at hu
      obtain ⟨gs, rfl, hu⟩ := hu
      simp only [fresh] at hv ⊢
      rw [freshs_upto hv hu]
theorem freshs_upto {fs gs : Fields} {n : Nat} (hv : ∀ v ∈ freshs fs, Within n v) (hu : UptoF fs n gs) : freshs fs = freshs gs := by
  match fs with
  | .nil => simp only [UptoF] at hu; rw [hu]
  | .cons a t fs =>
    simp only [UptoF] at hu
    obtain ⟨t', gs', rfl, h1, h2⟩ := hu
    simp only [freshs] at hv ⊢
    rw [fresh_upto (hv _ (by simp)) h1, freshs_upto (fun v h => hv v (by simp [h])) h2]
end

/-- `struct tree { std::string name; int weight; std::vector<tree> children; };`, children known by name. -/
def treeDecls : Decls := fun _ =>
  .cons { name := str "name" } (.leaf 1)
  (.cons { name := str "weight" } (.leaf 0)
  (.cons { name := str "children", childKeys := [0] } (.seq vec (.record 0 .nil)) .nil))

def tree (k : Nat) : Ty := subst (unroll treeDecls k) (.record 0 .nil)

theorem tree_parts (k : Nat) : ∀ t, Part t (tree k) → Within 2 (fresh t) := by
  have leaf : ∀ i, Within 2 (fresh (.leaf i)) := by intro i w hw; cases hw
  induction k with
  | zero =>
    intro t h
    cases h with
    | self =>
      intro w hw
      have hw : w ∈ [Value.leaf (.num 0), .leaf (.num 0), .leaf (.num 0)] := hw
      simp only [List.mem_cons, List.not_mem_nil, or_false, or_self] at hw
      subst hw
      intro w hw; cases hw
    | field hm hp =>
      simp [cutFields, treeDecls, fieldList] at hm
      rcases hm with ⟨_, rfl⟩ | ⟨_, rfl⟩ | ⟨_, rfl⟩ <;> (cases hp; exact leaf 0)
  | succ k ih =>
    intro t h
    cases h with
    | self =>
      intro w hw
      have hw : w ∈ [Value.leaf (.num 0), .leaf (.num 0), .seq []] := hw
      simp only [List.mem_cons, List.not_mem_nil, or_false] at hw
      rcases hw with rfl | rfl | rfl <;> (intro w hw; cases hw)
    | field hm hp =>
      simp [substFields, subst, treeDecls, fieldList] at hm
      rcases hm with ⟨_, rfl⟩ | ⟨_, rfl⟩ | ⟨_, rfl⟩
      · cases hp; exact leaf 1
      · cases hp; exact leaf 0
      · cases hp with
        | self => intro w hw; cases hw
        | seq hp => exact ih _ hp

/-- The depth of a body. -/
noncomputable def depth (v : Value) : Nat := (within_some v).choose
theorem depth_spec (v : Value) : Within (depth v) v := (within_some v).choose_spec

theorem tree_uniform : Uniform env tree depth 2 where
  validate _ _ _ _ _ _ _ _ := rfl
  keyMatches _ _ _ _ _ _ _ _ _ _ := rfl
  deser n s t v b _ _ hu _ hb := by simp only [env, check_upto (within_mono hb (depth_spec b)) hu]
  patch n s t v b _ _ hu _ hb := by simp only [env, check_upto (within_mono hb (depth_spec b)) hu]
  fresh s t hs _ hu := let ⟨k, hk⟩ := hs; fresh_upto (tree_parts k s hk) hu

theorem treeDecls_ok : DeclsOk treeDecls := fun _ => rfl

def node (name : String) (weight : Int) (children : List Value) : Value := .record [text name, num weight, .seq children]

/-- `/` with children `a` (with child `b`) and `c`. -/
def tree0 : Resource := ⟨node "root" 1 [node "a" 2 [node "b" 3 []], node "c" 4 []], {}⟩

theorem tree_setup : RecSetup env tree depth 2 tree0 [] where
  typed := env_typed
  uniform := tree_uniform
  family := (C135_structs treeDecls treeDecls_ok (.record 0 .nil) rfl).1
  ok := (C135_structs treeDecls treeDecls_ok (.record 0 .nil) rfl).2.1
  isA := ((C135_structs treeDecls treeDecls_ok (.record 0 .nil) rfl).2.2 _).2 (by decide +kernel)
  told := tracked

theorem tree_dump : UniformDump tree dump := fun _ _ _ _ _ _ _ _ => rfl

/-- What the codes of five and of nine levels agree on. -/
example : (serveAll env (tree 5) tree0
    [.put (view "/children/a/children/b/weight") (num 41), .post (view "/children/c/children") (node "d" 5 [node "e" 6 []]),
     .put (view "/children/c/children/d/children/e/weight") (num 100), .put (view "/children/a/name") (text "x"),
     .del (view "/children/a"), .post (view "/children") (node "c" 0 [])]).2 =
    [.resp .ok [], .resp .created [], .resp .conflict (str "too big"), .resp .methodNotAllowed [], .resp .noContent [],
     .resp .conflict duplicateText] := by decide +kernel
example : (serveAll env (tree 9) tree0
    [.put (view "/children/a/children/b/weight") (num 41), .post (view "/children/c/children") (node "d" 5 [node "e" 6 []]),
     .put (view "/children/c/children/d/children/e/weight") (num 100), .put (view "/children/a/name") (text "x"),
     .del (view "/children/a"), .post (view "/children") (node "c" 0 [])]).2 =
    [.resp .ok [], .resp .created [], .resp .conflict (str "too big"), .resp .methodNotAllowed [], .resp .noContent [],
     .resp .conflict duplicateText] := by decide +kernel
/-- A code that is cut too early says something else: the claims are about deep codes. -/
example : (serveAll env (tree 1) tree0 [.put (view "/children/a/children/b/weight") (num 41)]).2 = [.resp .notFound []] := by
  decide +kernel
example : get env (tree 6) dump tree0 (view "/children/a/children/b/weight") = .resp .ok (str "3") := by decide +kernel
example : ∃ o, Ends (fun k => get env (tree k) dump tree0 (view "/children/a/children/b/weight")) o ∧ o ≠ .stuck := by
  obtain ⟨o, h1, _, h2, _⟩ := C135_get tree_setup tree_dump (view "/children/a/children/b/weight")
    [str "children", str "a", str "children", str "b", str "weight"] (view_to (by decide +kernel) (by decide +kernel))
  exact ⟨o, h1, h2⟩
/-- The hypotheses of `C135_polling`. -/
example : oneKey (tree 4) = true ∧ emptyables (tree 4) = true := by decide +kernel
/-- Not every value is a tree. -/
example : isOf treeDecls tree0.value (.record 0 .nil) = true ∧ isOf treeDecls (node "x" 1 [num 3]) (.record 0 .nil) = false := by
  decide +kernel

end Demo

end Verif.Resource
