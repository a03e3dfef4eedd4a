import Verif.Resource.Props

/-! C34 in full for resources whose fields have at most one `child_key` attribute: the keys
of the children of a collection are the same after every `put` and `patch` addressed to a
child of it or below it. -/

namespace Verif.Resource

open Verif.Path Verif.Path.Spec Verif.Tracker Verif.Tracker.Spec Verif.Resource.Spec

variable {β : Type} {E : Env β} {T : Ty} {r : Resource} {hist : List Note}

/-- A step to a keyed child comes after the step to the field that names the key. -/
theorem child_after_field {ks : List Nat} {T t : Ty} {v u : Value} {p : List Seg} {steps : List Step}
    (h : Leads E ks T v p steps t u) (h1 : oneKey T = true) (pre post : List Step) (key i : Nat)
    (hs : steps = pre ++ .child key i :: post) :
    (pre = [] ∧ key ∈ ks) ∨ ∃ pre0 j a, pre = pre0 ++ [.field j a] ∧ key ∈ a.childKeys ∧ a.childKeys.length ≤ 1 := by
  induction h generalizing pre with
  | here => simp at hs
  | @field ks id fs vs j a t v path steps t' v' hf hn hv hl ih =>
    cases pre with
    | nil => simp at hs
    | cons x pre =>
      simp only [List.cons_append, List.cons.injEq] at hs
      obtain ⟨rfl, hs⟩ := hs
      obtain ⟨hk, ho⟩ := oneKeys_get (by simpa [oneKey] using h1) hf
      rcases ih ho pre hs with ⟨rfl, hm⟩ | ⟨pre0, j', a', rfl, hm, hk'⟩
      · exact .inr ⟨[], j, a, rfl, hm, hk⟩
      · exact .inr ⟨.field j a :: pre0, j', a', rfl, hm, hk'⟩
  | unwrap hl ih =>
    cases pre with
    | nil => simp at hs
    | cons x pre =>
      simp only [List.cons_append, List.cons.injEq] at hs
      rcases ih (by simpa [oneKey] using h1) pre hs.2 with ⟨-, hm⟩ | ⟨pre0, j', a', rfl, hm, hk'⟩
      · cases hm
      · exact .inr ⟨x :: pre0, j', a', rfl, hm, hk'⟩
  | entry he hl ih =>
    cases pre with
    | nil => simp at hs
    | cons x pre =>
      simp only [List.cons_append, List.cons.injEq] at hs
      rcases ih (by simpa [oneKey] using h1) pre hs.2 with ⟨-, hm⟩ | ⟨pre0, j', a', rfl, hm, hk'⟩
      · cases hm
      · exact .inr ⟨x :: pre0, j', a', rfl, hm, hk'⟩
  | item ha hi hv hl ih =>
    cases pre with
    | nil => simp at hs
    | cons x pre =>
      simp only [List.cons_append, List.cons.injEq] at hs
      rcases ih (by simpa [oneKey] using h1) pre hs.2 with ⟨-, hm⟩ | ⟨pre0, j', a', rfl, hm, hk'⟩
      · cases hm
      · exact .inr ⟨x :: pre0, j', a', rfl, hm, hk'⟩
  | child hsel hv hl ih =>
    cases pre with
    | nil =>
      simp only [List.nil_append, List.cons.injEq, Step.child.injEq] at hs
      obtain ⟨before, after, rfl, -⟩ := hsel
      exact .inl ⟨rfl, by simp [hs.1.1]⟩
    | cons x pre =>
      simp only [List.cons_append, List.cons.injEq] at hs
      rcases ih (by simpa [oneKey] using h1) pre hs.2 with ⟨-, hm⟩ | ⟨pre0, j', a', rfl, hm, hk'⟩
      · cases hm
      · exact .inr ⟨x :: pre0, j', a', rfl, hm, hk'⟩

theorem only_key {l : List Nat} {k k' : Nat} (h : l.length ≤ 1) (hk : k ∈ l) (hk' : k' ∈ l) : k' = k := by
  match l, h with
  | [], _ => cases hk
  | [x], _ => simp at hk hk'; rw [hk, hk']

/-- C34 in full for resources with at most one `child_key` for each field: a `put` whose path
passes through a keyed child leaves every key of every child of that collection as it was,
whatever the outcome. -/
theorem C34_one_key_put (hE : Lawful E) (h : Setup E T r hist) (h1 : oneKey T = true) (w : View)
    (c : List Seg) (s : Seg) (rest : List Seg) (hp : PathTo w (c ++ s :: rest)) (b : β)
    (pre post : List Step) (key i : Nat) (t : Ty) (u : Value)
    (hl : LeadsTo E T r.value (c ++ s :: rest) (pre ++ .child key i :: post) t u)
    (k : SeqKind) (tc : Ty) (vs : List Value) (hc : LeadsTo E T r.value c pre (.seq k tc) (.seq vs)) :
    ∃ pre0 j a, pre = pre0 ++ [.field j a] ∧ key ∈ a.childKeys ∧
    ∃ pre' vs', LeadsTo E T (put E T r w b).1.value c pre' (.seq k tc) (.seq vs') ∧
      ∀ key' ∈ a.childKeys, SameKeys key' vs vs' := by
  rcases child_after_field hl h1 pre post key i rfl with ⟨-, hm⟩ | ⟨pre0, j, a, hpre, hm, hk⟩
  · cases hm
  · obtain ⟨pre', vs', hl', hsame⟩ := C34_put_partial hE h w c s rest hp b pre post key i t u hl k tc vs hc
    exact ⟨pre0, j, a, hpre, hm, pre', vs', hl', fun k' hk' => only_key hk hm hk' ▸ hsame⟩

/-- C34 in full for `patch`. -/
theorem C34_one_key_patch (hE : Lawful E) (h : Setup E T r hist) (h1 : oneKey T = true) (w : View)
    (c : List Seg) (s : Seg) (rest : List Seg) (hp : PathTo w (c ++ s :: rest)) (b : β)
    (pre post : List Step) (key i : Nat) (t : Ty) (u : Value)
    (hl : LeadsTo E T r.value (c ++ s :: rest) (pre ++ .child key i :: post) t u)
    (k : SeqKind) (tc : Ty) (vs : List Value) (hc : LeadsTo E T r.value c pre (.seq k tc) (.seq vs)) :
    ∃ pre0 j a, pre = pre0 ++ [.field j a] ∧ key ∈ a.childKeys ∧
    ∃ pre' vs', LeadsTo E T (patch E T r w b).1.value c pre' (.seq k tc) (.seq vs') ∧
      ∀ key' ∈ a.childKeys, SameKeys key' vs vs' := by
  rcases child_after_field hl h1 pre post key i rfl with ⟨-, hm⟩ | ⟨pre0, j, a, hpre, hm, hk⟩
  · cases hm
  · obtain ⟨pre', vs', hl', hsame⟩ := C34_patch_partial hE h w c s rest hp b pre post key i t u hl k tc vs hc
    exact ⟨pre0, j, a, hpre, hm, pre', vs', hl', fun k' hk' => only_key hk hm hk' ▸ hsame⟩

/-- The collection `/users` and the child `/users/bob` meet the hypotheses on the steps; the
type has one key for each field, and a `put` below the child succeeds. -/
example : oneKey Demo.T = true ∧
    (∃ k tc vs, LeadsTo Demo.env Demo.T Demo.v0 [str "users"]
      [.field 0 { name := str "users", childKeys := [0] }] (.seq k tc) (.seq vs) ∧ vs.length = 2) ∧
    (∃ t u, LeadsTo Demo.env Demo.T Demo.v0 ([str "users"] ++ str "bob" :: [str "age"])
      ([.field 0 { name := str "users", childKeys := [0] }] ++ .child 0 1 :: [.field 1 { name := str "age" }]) t u) ∧
    (put Demo.env Demo.T Demo.r0 (Demo.view "/users/bob/age") (Demo.num 41)).2 = .resp .ok [] ∧
    (put Demo.env Demo.T Demo.r0 (Demo.view "/users/bob") (.record [Demo.text "rob", Demo.num 41])).2 =
      .resp .methodNotAllowed [] := by
  refine ⟨Demo.oneKey_T, ⟨_, _, _, .field (i := 0) (a := { name := str "users", childKeys := [0] }) rfl (by simp) rfl .here, rfl⟩,
    ?_, by decide +kernel, by decide +kernel⟩
  have hsel : Selects Demo.env Demo.user
      [.record [Demo.text "ann", Demo.num 30], .record [Demo.text "bob", Demo.num 40]] (str "bob") [0] 0 1 := by
    refine ⟨[], [], rfl, by simp, ⟨_, _, rfl, ⟨_, rfl, rfl⟩, by decide⟩, ?_⟩
    intro j hj
    obtain rfl : j = 0 := by omega
    rintro ⟨_, _, h1, ⟨_, h2, h3⟩, h4⟩
    cases h1
    cases h2
    cases h3
    revert h4
    decide
  have l1 : Leads Demo.env [0] (.seq Demo.vec Demo.user)
      (.seq [.record [Demo.text "ann", Demo.num 30], .record [Demo.text "bob", Demo.num 40]])
      [str "bob", str "age"] [.child 0 1, .field 1 { name := str "age" }] (.leaf 0) (Demo.num 40) :=
    .child hsel rfl (.field (i := 1) (a := { name := str "age" }) rfl (by
      intro j hj b u h
      obtain rfl : j = 0 := by omega
      cases h
      decide) rfl .here)
  exact ⟨_, _, .field (i := 0) (a := { name := str "users", childKeys := [0] }) rfl (by simp) rfl l1⟩

end Verif.Resource
