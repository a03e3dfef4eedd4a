import Verif.Resource.Effects
/-
A concrete resource: the cases shown beside the theorems of Props.lean.
-/
namespace Verif.Resource.Demo
open Verif.Path Verif.Path.Spec Verif.Tracker Verif.Resource.Spec

/-! ### Checking types -/

mutual
/-- Does the value have the type? -/
def check : Ty → Value → Bool
  | .leaf _, .leaf _ => true
  | .opt _, .opt none => true
  | .opt t, .opt (some v) => check t v
  | .record _ fs, .record vs => checks fs vs
  | .map _ t, .map es => decide (es.map (·.1)).Nodup && es.all fun e => check t e.2
  | .seq _ t, .seq vs => vs.all fun v => check t v
  | _, _ => false
def checks : Fields → List Value → Bool
  | .nil, [] => true
  | .cons _ t fs, v :: vs => check t v && checks fs vs
  | _, _ => false
end

mutual
theorem check_sound (t : Ty) (v : Value) (h : check t v = true) : HasTy t v := by
  match t, v with
  | .leaf _, .leaf _ => simp [HasTy]
  | .opt t, .opt none => simp [HasTy]
  | .opt t, .opt (some v) =>
    simp only [check] at h
    simp only [HasTy]
    intro w hw
    cases hw
    exact check_sound t v h
  | .record _ fs, .record vs =>
    simp only [check] at h
    simp only [HasTy]
    exact checks_sound fs vs h
  | .map _ t, .map es =>
    simp only [check, Bool.and_eq_true, decide_eq_true_eq, List.all_eq_true] at h
    simp only [HasTy]
    exact ⟨h.1, fun e he => check_sound t e.2 (h.2 e he)⟩
  | .seq _ t, .seq vs =>
    simp only [check, List.all_eq_true] at h
    simp only [HasTy]
    exact fun v hv => check_sound t v (h v hv)
  | .leaf _, .opt _ => simp [check] at h
  | .leaf _, .record _ => simp [check] at h
  | .leaf _, .map _ => simp [check] at h
  | .leaf _, .seq _ => simp [check] at h
  | .opt _, .leaf _ => simp [check] at h
  | .opt _, .record _ => simp [check] at h
  | .opt _, .map _ => simp [check] at h
  | .opt _, .seq _ => simp [check] at h
  | .record _ _, .leaf _ => simp [check] at h
  | .record _ _, .opt _ => simp [check] at h
  | .record _ _, .map _ => simp [check] at h
  | .record _ _, .seq _ => simp [check] at h
  | .map _ _, .leaf _ => simp [check] at h
  | .map _ _, .opt _ => simp [check] at h
  | .map _ _, .record _ => simp [check] at h
  | .map _ _, .seq _ => simp [check] at h
  | .seq _ _, .leaf _ => simp [check] at h
  | .seq _ _, .opt _ => simp [check] at h
  | .seq _ _, .record _ => simp [check] at h
  | .seq _ _, .map _ => simp [check] at h
theorem checks_sound (fs : Fields) (vs : List Value) (h : checks fs vs = true) : HasTys fs vs := by
  match fs, vs with
  | .nil, [] => simp [HasTys]
  | .cons _ t fs, v :: vs =>
    simp only [checks, Bool.and_eq_true] at h
    simp only [HasTys]
    exact ⟨check_sound t v h.1, checks_sound fs vs h.2⟩
  | .nil, _ :: _ => simp [checks] at h
  | .cons _ _ _, [] => simp [checks] at h
end

mutual
/-- `T{}`. -/
def fresh : Ty → Value
  | .leaf _ => .leaf (.num 0)
  | .opt _ => .opt none
  | .record _ fs => .record (freshs fs)
  | .map _ _ => .map []
  | .seq _ _ => .seq []
def freshs : Fields → List Value
  | .nil => []
  | .cons _ t fs => fresh t :: freshs fs
end

mutual
theorem fresh_ty (t : Ty) : HasTy t (fresh t) := by
  match t with
  | .leaf _ => simp [fresh, HasTy]
  | .opt _ => simp [fresh, HasTy]
  | .record _ fs => simp only [fresh, HasTy]; exact freshs_ty fs
  | .map _ _ => simp [fresh, HasTy]
  | .seq _ _ => simp [fresh, HasTy]
theorem freshs_ty (fs : Fields) : HasTys fs (freshs fs) := by
  match fs with
  | .nil => simp [freshs, HasTys]
  | .cons _ t fs => simp only [freshs, HasTys]; exact ⟨fresh_ty t, freshs_ty fs⟩
end

/-! ### The environment -/

/-- Scalars compare by value. -/
def leafEq : Value → Value → Bool
  | .leaf a, .leaf b => a == b
  | _, _ => false

/-- A body is a value, taken as it is if it has the type; numbers above 99 are invalid. -/
def env : Env Value where
  validate _ v := match v with
    | .leaf (.num n) => if n > 99 then .error (.validation (str "too big")) else .ok ()
    | _ => .ok ()
  keyMatches := defaultKeyMatches
  keyEq := leafEq
  deser t _ b := if check t b then .ok b else .error .deserialize
  patch t _ b := if check t b then .ok b else .error .deserialize
  fresh := fresh

theorem env_typed : Typed env := by
  refine ⟨?_, ?_, fresh_ty⟩
  · intro t v b v' _ h
    simp only [env] at h
    split at h
    · cases h; exact check_sound _ _ ‹_›
    · cases h
  · intro t v b v' _ h
    simp only [env] at h
    split at h
    · cases h; exact check_sound _ _ ‹_›
    · cases h

theorem env_polite : Polite env := by
  refine ⟨?_, ?_, ?_⟩
  · intro t v e h
    simp only [env] at h
    split at h
    · split at h
      · cases h; exact ⟨_, rfl⟩
      · cases h
    · cases h
  · intro t v b e h
    simp only [env] at h
    split at h
    · cases h
    · cases h; rfl
  · intro t v b e h
    simp only [env] at h
    split at h
    · cases h
    · cases h; rfl

theorem env_plain : Plain env where
  eq := by
    intro a b h
    simp only [env] at h
    unfold leafEq at h
    split at h
    · rw [eq_of_beq h]
    · cases h
  only_key := by intros; rfl
  inj := by
    intro t v key s s' h h'
    simp only [env, defaultKeyMatches] at h h'
    split at h
    · simp only [beq_iff_eq] at h h'
      rw [← h, ← h']
    · cases h

/-! ### Paths -/

theorem pathTo_of {v : Str} {q : Path} {loc : List Seg} (h : Path.default.set v = (q, none))
    (hs : segs q.view = some loc) : PathTo q.view loc := by
  obtain ⟨loc', h1, _⟩ := C11_normalisation _ _ _ h
  have hp : PathTo q.view loc' := ⟨_, q, v, h, h1, rfl⟩
  rw [hp.segs] at hs
  cases hs
  exact hp

/-- The view of a parsed path. -/
def view (s : String) : View := (Path.default.set (str s)).1.view

theorem view_to {s : String} {loc : List Seg} (h : (Path.default.set (str s)).2 = none)
    (hs : segs (view s) = some loc) : PathTo (view s) loc :=
  pathTo_of (Prod.ext rfl h) hs

/-! ### The resource -/

def vec : SeqKind := ⟨true, true, true⟩

def num (n : Int) : Value := .leaf (.num n)
def text (s : String) : Value := .leaf (.str (str s))

/-- `struct user { std::string name; int age; };` -/
def user : Ty := .record 1 (.cons { name := str "name" } (.leaf 1) (.cons { name := str "age" } (.leaf 0) .nil))

/-- `struct limits { int low; int high; };` -/
def limits : Ty := .record 2 (.cons { name := str "low" } (.leaf 0) (.cons { name := str "high" } (.leaf 0) .nil))

/-- users: keyed by name; tags: `vector<int>`; limit: `optional<limits>`; version: read only;
frozen: `map<string, int>`, subtree read only; spare: `optional<vector<int>>`. -/
def T : Ty := .record 0
  (.cons { name := str "users", childKeys := [0] } (.seq vec user)
  (.cons { name := str "tags" } (.seq vec (.leaf 0))
  (.cons { name := str "limit" } (.opt limits)
  (.cons { name := str "version", readOnly := true } (.leaf 0)
  (.cons { name := str "frozen", subtreeReadOnly := true } (.map true (.leaf 0))
  (.cons { name := str "spare" } (.opt (.seq vec (.leaf 0))) .nil))))))

def v0 : Value := .record
  [.seq [.record [text "ann", num 30], .record [text "bob", num 40]],
   .seq [num 7, num 8, num 9],
   .opt (some (.record [num 1, num 5])),
   num 3,
   .map [(str "a", num 1)],
   .opt (some (.seq [num 6]))]

def r0 : Resource := ⟨v0, {}⟩

theorem wt : WT T r0.value := ⟨by decide +kernel, check_sound _ _ (by decide +kernel)⟩
theorem tracked : Tracked r0.tracker [] := ⟨[], .nil, rfl⟩
theorem oneKey_T : oneKey T = true := by decide +kernel

/-- A serialisation of scalars and of the size of anything else. -/
def dump (_ : Ty) : Value → Except Exc Str
  | .leaf (.str s) => .ok s
  | .leaf (.num n) => .ok (str (toString n))
  | v => .ok (List.replicate v.kids.length 0x2E#8)

/-! ### Comparing values in examples -/

mutual
def same : Value → Value → Bool
  | .leaf a, .leaf b => a == b
  | .opt none, .opt none => true
  | .opt (some a), .opt (some b) => same a b
  | .record a, .record b => sames a b
  | .seq a, .seq b => sames a b
  | .map a, .map b => sameEntries a b
  | _, _ => false
def sames : List Value → List Value → Bool
  | [], [] => true
  | a :: as, b :: bs => same a b && sames as bs
  | _, _ => false
def sameEntries : List (Str × Value) → List (Str × Value) → Bool
  | [], [] => true
  | (k, a) :: as, (l, b) :: bs => k == l && same a b && sameEntries as bs
  | _, _ => false
end

mutual
theorem same_eq (a b : Value) (h : same a b = true) : a = b := by
  unfold same at h
  split at h
  · rw [eq_of_beq h]
  · rfl
  · rw [same_eq _ _ h]
  · rw [sames_eq _ _ h]
  · rw [sames_eq _ _ h]
  · rw [sameEntries_eq _ _ h]
  · cases h
theorem sames_eq (a b : List Value) (h : sames a b = true) : a = b := by
  unfold sames at h
  split at h
  · rfl
  · simp only [Bool.and_eq_true] at h
    rw [same_eq _ _ h.1, sames_eq _ _ h.2]
  · cases h
theorem sameEntries_eq (a b : List (Str × Value)) (h : sameEntries a b = true) : a = b := by
  unfold sameEntries at h
  split at h
  · rfl
  · simp only [Bool.and_eq_true] at h
    rw [eq_of_beq h.1.1, same_eq _ _ h.1.2, sameEntries_eq _ _ h.2]
  · cases h
end

end Verif.Resource.Demo
