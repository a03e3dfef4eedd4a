import Verif.Serial.RecExpand
/-! C128: recursive types. -/
namespace Verif.Serial
open Verif.Path Verif.Enums Spec Sample

variable {σ : Type}

/-! ### A sample -/

namespace Sample

/-- `struct tree { int32_t value; std::vector<tree> children; };` -/
def treeFields : Fields := .cons { name := txt "value", init := num 0 } (int i32)
  (.cons { name := txt "children", init := .seq [], allowMissing := true } (.vec (.record (txt "tree") .nil)) .nil)
/-- `struct edge { uint8_t weight; node to; };` and `struct node { std::map<std::string, edge> out; };` -/
def edgeFields : Fields := .cons { name := txt "weight", init := num 0 } (int u8)
  (.cons { name := txt "to", init := .record [.map []] } (.record (txt "node") .nil) .nil)
def nodeFields : Fields := .cons { name := txt "out", init := .map [] } (.map (.record (txt "edge") edgeFields)) .nil

def decls : Decls := fun n => if n = txt "tree" then treeFields else if n = txt "node" then nodeFields else .nil

theorem decls_ok : DeclsOk decls := by
  intro n
  by_cases h1 : n = txt "tree"
  · subst h1; decide +kernel
  · by_cases h2 : n = txt "node"
    · subst h2; decide +kernel
    · have h : decls n = .nil := by simp [decls, h1, h2]
      rw [unroll, h]
      simp only [substFields, tyOk, fieldsOk, guardedFields, plainInitsFields, serNamesOk, deserNamesOk, collectSer,
        collectDeser]
      decide

theorem decls_easy : ∀ n, easy true (unroll decls 1 n) = true := by
  intro n
  by_cases h1 : n = txt "tree"
  · subst h1; decide +kernel
  · by_cases h2 : n = txt "node"
    · subst h2; decide +kernel
    · have h : decls n = .nil := by simp [decls, h1, h2]
      rw [unroll, h]
      simp only [substFields, easy, easyFields, allNames]
      decide

def leafTree (n : Int) : Value := .record [num n, .seq []]
def someTree : Value := .record [num 1, .seq [leafTree 2, .record [num 3, .seq [leafTree 4, leafTree 5]]]]
def jleaf (n : Int) : JDoc := obj [("value", jint n), ("children", .arr [])]
def jtree : JDoc := obj [("value", jint 1), ("children", .arr [jleaf 2,
  obj [("value", jint 3), ("children", .arr [jleaf 4, jleaf 5])]])]
def someNode : Value := .record [.map [(txt "a", .record [num 7, .record [.map []]]),
  (txt "b", .record [num 8, .record [.map [(txt "c", .record [num 9, .record [.map []]])]]])]]

end Sample

/-! ### The functions on recursive types -/

/-- The number of times names are replaced does not matter, if it is at least the depth of the value or document: no
execution reaches what is left at the bottom. -/
theorem C128_stable {B : Backend σ} (hB : Lawful B) {E : Env} {s : Bool} {D : Decls} (hD : DeclsOk D) {n : Str}
    {k : Nat} :
    (∀ v : Value, v.depth ≤ k → ser B s (unroll D k n) v = serRec B s D n v ∧
      dump B s (unroll D k n) v = dumpRec B s D n v) ∧
    (∀ (d : Doc σ) (old : Value), d.depth ≤ k → deser B E (unroll D k n) old d = deserRec B E D n old d ∧
      patch B E (unroll D k n) old d = patchRec B E D n old d) := by
  have g := fun n => (hD n).2.1
  refine ⟨fun v hv => ?_, fun d old hd => ?_⟩
  · have hu := unroll_upto g v.depth k hv n
    have hs := ser_upto (B := B) (s := s) hu (Nat.le_refl _)
    refine ⟨hs.symm, ?_⟩
    rw [dumpRec, C42_same hB, C42_same hB, hs]
  · have hu := unroll_upto g d.depth k hd n
    exact ⟨(deser_upto hu (Nat.le_refl _)).symm, (patch_upto hu (Nat.le_refl _)).symm⟩

/-- On values and documents of at most `k` levels a recursive struct is the same as an ordinary type, to which all of
C41-C93 applies: the type compiles and is the declared one with names replaced. -/
theorem C128_ordinary {B : Backend σ} (hB : Lawful B) {E : Env} {s : Bool} {D : Decls} (hD : DeclsOk D) (n : Str)
    (k : Nat) : ∃ t, tyOk t = true ∧ Expands D k (.record n .nil) t ∧
      (∀ v : Value, v.depth ≤ k → (IsStruct D n v ↔ HasTy t v) ∧ serRec B s D n v = ser B s t v ∧
        dumpRec B s D n v = dump B s t v) ∧
      (∀ (d : Doc σ) (old : Value), d.depth ≤ k → deserRec B E D n old d = deser B E t old d ∧
        patchRec B E D n old d = patch B E t old d) := by
  have h := C128_stable hB (E := E) (s := s) hD (n := n) (k := k + 1)
  refine ⟨unroll D (k + 1) n, unroll_ok hD k n,
    expands_mono (Nat.le_succ k) (unroll_expands (fun n => (hD n).2.1) _ n), fun v hv => ?_, fun d old hd => ?_⟩
  · have := h.1 v (by omega)
    exact ⟨isStruct_iff (fun n => (hD n).2.1) (by omega), this.1.symm, this.2.symm⟩
  · have := h.2 d old (by omega)
    exact ⟨this.1.symm, this.2.symm⟩

/-- What was written is read back. -/
theorem C128_round_trip {B : Backend σ} (hB : Lawful B) {E : Env} {s : Bool} {D : Decls} (hD : DeclsOk D)
    (hE : ∀ n, easy s (unroll D 1 n) = true) {n : Str} {old v : Value} (ho : IsStruct D n old) (hv : IsStruct D n v)
    (hl : Listed (unroll D v.depth n) v) :
    ∃ d, serRec B s D n v = .ok d ∧ deserRec B E D n old d = .ok v := by
  have g := fun n => (hD n).2.1
  have trip : ∀ k, v.depth ≤ k → old.depth ≤ k → ∃ d, ser B s (unroll D (k + 1) n) v = .ok d ∧
      deser B E (unroll D (k + 1) n) old d = .ok v := fun k h1 h2 =>
    C41_round_trip hB (unroll_ok hD k n) (unroll_easy g hE k n) ((isStruct_iff g (by omega)).1 ho)
      ((isStruct_iff g (by omega)).1 hv)
      ((listed_upto (unroll_upto g v.depth (k + 1) (by omega) n) (Nat.le_refl _)).1 hl)
  obtain ⟨d, h1, -⟩ := trip (v.depth + old.depth) (by omega) (by omega)
  rw [((C128_stable hB (E := E) hD).1 v (by omega)).1] at h1
  refine ⟨d, h1, ?_⟩
  obtain ⟨d', h1', h2⟩ := trip (v.depth + old.depth + d.depth) (by omega) (by omega)
  rw [((C128_stable hB (E := E) hD).1 v (by omega)).1, h1] at h1'
  cases h1'
  rw [((C128_stable hB (s := s) hD).2 d old (by omega)).1] at h2
  exact h2

/-- What is read or patched is a value of the struct. -/
theorem C128_typed {B : Backend σ} (hB : Lawful B) {E : Env} {D : Decls} (hD : DeclsOk D) {n : Str} {old v : Value}
    {d : Doc σ} (ho : IsStruct D n old) (h : deserRec B E D n old d = .ok v ∨ patchRec B E D n old d = .ok v) :
    IsStruct D n v := by
  have g := fun n => (hD n).2.1
  have hs := (C128_stable hB (E := E) (s := true) hD (n := n) (k := old.depth + v.depth + d.depth + 1)).2 d old
    (by omega)
  have ho' := (isStruct_iff g (k := old.depth + v.depth + d.depth + 1) (by omega)).1 ho
  refine (isStruct_iff g (k := old.depth + v.depth + d.depth + 1) (by omega)).2 ?_
  rcases h with h | h
  · rw [← hs.1] at h; exact C77_deserialize hB (unroll_ok hD _ n) ho' h
  · rw [← hs.2] at h; exact C77_patch hB (unroll_ok hD _ n) ho' h

/-- dump and serialize agree. -/
theorem C128_dump {B : Backend σ} (hB : Lawful B) (s : Bool) (D : Decls) (n : Str) (v : Value) :
    dumpRec B s D n v = (serRec B s D n v).map events := C42_same hB s _ v

example : IsStruct decls (txt "tree") someTree ∧ someTree.depth = 2 ∧ IsStruct decls (txt "node") someNode ∧
    someNode.depth = 2 := by decide +kernel
example : serRec J true decls (txt "tree") someTree = .ok jtree := rfl
example : jtree.depth = 5 := by decide +kernel
example : deserRec J E decls (txt "tree") (leafTree 0) jtree = .ok someTree := rfl
example : deser J E (unroll decls 9 (txt "tree")) (leafTree 0) jtree = .ok someTree :=
  ((C128_stable (json_lawful _) (s := true) decls_ok).2 jtree (leafTree 0) (by decide +kernel)).1
example : patchRec J E decls (txt "tree") someTree (obj [("children", .arr [jleaf 6])]) =
    .ok (.record [num 1, .seq [leafTree 6]]) := rfl
example : IsStruct decls (txt "tree") (.record [num 1, .seq [leafTree 6]]) :=
  C128_typed (json_lawful fun _ => 0#64) decls_ok (old := someTree) (by decide +kernel)
    (.inr (show patchRec J E decls (txt "tree") someTree (obj [("children", .arr [jleaf 6])]) = _ from rfl))
example : deserRec J E decls (txt "tree") (leafTree 0) (obj [("value", jint 1), ("children", .arr [jleaf 2, jint 3])]) =
    .error (.deser (text (txt "type must be a sequence or map but is a kNumberType")
      [typeLine (txt "tree"), elementLine 1, memberLine (txt "children"), typeLine (txt "tree")])) := rfl
example : ∃ d, serRec J true decls (txt "node") someNode = .ok d ∧
    deserRec J E decls (txt "node") (.record [.map []]) d = .ok someNode := by
  refine C128_round_trip (json_lawful _) decls_ok decls_easy (by decide +kernel) (by decide +kernel) ?_
  show Listed (unroll decls 2 (txt "node")) someNode
  have h : decls (txt "node") = nodeFields := rfl
  simp [unroll, h, nodeFields, edgeFields, substFields, subst, cutFields, cut, Listed, ListedFields, someNode, num, int]
example : ∃ d, serRec J true decls (txt "tree") someTree = .ok d ∧
    deserRec J E decls (txt "tree") (leafTree 0) d = .ok someTree := by
  refine C128_round_trip (json_lawful _) decls_ok decls_easy (by decide +kernel) (by decide +kernel) ?_
  show Listed (unroll decls 2 (txt "tree")) someTree
  have h : decls (txt "tree") = treeFields := rfl
  simp [unroll, h, treeFields, substFields, subst, cutFields, cut, Listed, ListedFields, someTree, leafTree, num, int]

end Verif.Serial
