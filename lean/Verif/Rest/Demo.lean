import Verif.Rest.Lemmas
/-
Concrete resources for the cases shown beside the theorems of Props.lean.
-/
namespace Verif.Rest.Demo
open Verif.Path Verif.Serial.Spec Verif.Rest.Spec
open Verif.Serial (txt)
open Verif.Serial.Sample (J E i8 jint jstr obj)
open Verif.Resource.Demo (vec leafEq same same_eq)

/-- `int8_t` has number 0, `std::string` 1, `std::optional<std::string>`s are of 1. -/
def Γ : Table where
  leaf
    | 0 => .leaf (.int i8)
    | _ => .leaf .str
  name _ := txt "struct"
  field
    -- account
    | 0, 0 => { name := txt "age", init := .atom (.int 0), validators := [.range 0 99] }
    | 0, 1 => { name := txt "secret", init := .atom (.str []), skipSer := true, allowMissing := true }
    | 0, 2 => { name := txt "version", init := .atom (.int 1), skipDeser := true }
    | 0, 3 => { name := txt "at", init := .record [.atom (.int 0)], flatten := true }
    | 0, 4 => { name := txt "users", init := .seq [], allowMissing := true }
    | 0, 5 => { name := txt "limits", init := .map [], allowMissing := true }
    | 0, 6 => { name := txt "nick", init := .opt none }
    -- user
    | 1, 0 => { name := txt "name", init := .atom (.str []) }
    | 1, 1 => { name := txt "mail", init := .atom (.str []) }
    -- geo
    | 2, 0 => { name := txt "x", init := .atom (.int 0) }
    -- two keys
    | 3, 0 => { name := txt "users", init := .seq [] }
    -- pair
    | 4, 0 => { name := txt "user", init := .record [.atom (.str []), .atom (.str [])] }
    | 4, 1 => { name := txt "tags", init := .seq [] }
    -- guarded
    | 5, 0 => { name := txt "age", init := .atom (.int 0) }
    | 5, 1 => { name := txt "id", init := .atom (.int 0) }
    | 5, 2 => { name := txt "users", init := .seq [] }
    | _, _ => { name := [], init := .bits 0 }

def user : Resource.Ty := .record 1 (.cons { name := txt "name" } (.leaf 1) (.cons { name := txt "mail" } (.leaf 1) .nil))
def geo : Resource.Ty := .record 2 (.cons { name := txt "x" } (.leaf 0) .nil)

/-- age: validated; secret: `skip_serializing`; version: `skip_deserializing`; at: flattened;
users: keyed by name. -/
def account : Resource.Ty := .record 0
  (.cons { name := txt "age" } (.leaf 0)
  (.cons { name := txt "secret" } (.leaf 1)
  (.cons { name := txt "version" } (.leaf 0)
  (.cons { name := txt "at" } geo
  (.cons { name := txt "users", childKeys := [0] } (.seq vec user)
  (.cons { name := txt "limits" } (.map true (.leaf 0))
  (.cons { name := txt "nick" } (.opt (.leaf 1)) .nil)))))))

def num (n : Int) : Resource.Value := .leaf (.num n)
def text (s : String) : Resource.Value := .leaf (.str (txt s))

def r0 : Resource.Resource := ⟨.record
  [num 30, text "pw", num 3, .record [num 5],
   .seq [.record [text "ann", text "a@b"], .record [text "bob", text "b@c"]],
   .map [(txt "high", num 9), (txt "low", num 1)], .opt none], {}⟩

/-- Keys are compared as strings, validators accept, other exceptions have their number. -/
def U : User where
  validate _ _ := .ok ()
  keyMatches := Resource.defaultKeyMatches
  keyEq := leafEq
  thrown n := .other n

def R : Resource.Env Serial.JDoc := env Γ J E U

theorem lawful : Lawful J := Serial.json_lawful _

theorem r0_service : Service Γ account r0 [] := ⟨by decide +kernel, by decide +kernel, ⟨[], .nil, rfl⟩⟩

theorem plain : Resource.Spec.Plain R where
  eq := by
    intro a b h
    simp only [R, env, U] at h
    unfold leafEq at h
    split at h
    · rw [eq_of_beq h]
    · cases h
  only_key := by intros; rfl
  inj := by
    intro t v key s s' h h'
    simp only [R, env, U, Resource.defaultKeyMatches] at h h'
    split at h
    · simp only [beq_iff_eq] at h h'
      rw [← h, ← h']
    · cases h

/-! ### Printing -/

def joined : List Str → Str
  | [] => []
  | [s] => s
  | s :: ss => s ++ txt "," ++ joined ss

mutual
def print : Serial.JDoc → Str
  | .null => txt "null"
  | .scalar (.bool b) => txt (if b then "true" else "false")
  | .scalar (.int n) => Serial.numText n
  | .scalar (.dbl _) => txt "0.0"
  | .scalar (.str s) => txt "'" ++ s ++ txt "'"
  | .arr l => txt "[" ++ joined (prints l) ++ txt "]"
  | .obj ms => txt "{" ++ joined (printMembers ms) ++ txt "}"
def prints : List Serial.JDoc → List Str
  | [] => []
  | d :: ds => print d :: prints ds
def printMembers : List (Str × Serial.JDoc) → List Str
  | [] => []
  | (k, d) :: ms => (k ++ txt ":" ++ print d) :: printMembers ms
end

def get (T : Resource.Ty) (r : Resource.Resource) (path : String) : Resource.Outcome :=
  Resource.get R T (dumper Γ J U true print) r (Resource.Demo.view path)
def put (T : Resource.Ty) (r : Resource.Resource) (path : String) (d : Serial.JDoc) :
    Resource.Resource × Resource.Outcome := Resource.put R T r (Resource.Demo.view path) d
def patch (T : Resource.Ty) (r : Resource.Resource) (path : String) (d : Serial.JDoc) :
    Resource.Resource × Resource.Outcome := Resource.patch R T r (Resource.Demo.view path) d
def post (T : Resource.Ty) (r : Resource.Resource) (path : String) (d : Serial.JDoc) :
    Resource.Resource × Resource.Outcome := Resource.post R T r (Resource.Demo.view path) d

example : get account r0 "/" = .resp .ok (txt
    "{age:30,version:3,x:5,users:[{name:'ann',mail:'a@b'},{name:'bob',mail:'b@c'}],limits:{high:9,low:1}}") := by
  decide +kernel
example : get account r0 "/users/bob" = .resp .ok (txt "{name:'bob',mail:'b@c'}") := by decide +kernel
example : get account r0 "/nick" = .resp .ok (txt "null") := by decide +kernel
example : get account r0 "/none" = .resp .notFound [] := by decide +kernel

theorem success {o : Resource.Outcome} (h : o = .resp .ok []) : Resource.Spec.Success o := by subst h; trivial

/-! ### Paths -/

def limitsAttrs : Resource.Attrs := { name := txt "limits" }
def usersAttrs : Resource.Attrs := { name := txt "users", childKeys := [0] }

theorem leads_limits : Resource.Spec.LeadsTo R account r0.value [txt "limits"] [.field 5 limitsAttrs]
    (.map true (.leaf 0)) (.map [(txt "high", num 9), (txt "low", num 1)]) := by
  refine .field (a := limitsAttrs) (i := 5) rfl ?_ rfl .here
  intro j hj b u h
  match j, hj with
  | 0, _ | 1, _ | 2, _ | 3, _ | 4, _ => cases h; decide +kernel

theorem leads_low : Resource.Spec.LeadsTo R account r0.value [txt "limits", txt "low"]
    [.field 5 limitsAttrs, .entry 1] (.leaf 0) (num 1) := by
  refine .field (a := limitsAttrs) (i := 5) rfl ?_ rfl (.entry rfl .here)
  intro j hj b u h
  match j, hj with
  | 0, _ | 1, _ | 2, _ | 3, _ | 4, _ => cases h; decide +kernel

theorem leads_bob : Resource.Spec.LeadsTo R account r0.value [txt "users", txt "bob"]
    [.field 4 usersAttrs, .child 0 1] user (.record [text "bob", text "b@c"]) := by
  refine .field (a := usersAttrs) (i := 4) rfl ?_ rfl (.child (key := 0) (i := 1) ?_ rfl .here)
  · intro j hj b u h
    match j, hj with
    | 0, _ | 1, _ | 2, _ | 3, _ => cases h; decide +kernel
  · refine ⟨[], [], rfl, by simp, ⟨_, text "bob", rfl, ⟨_, rfl, rfl⟩, by decide +kernel⟩, ?_⟩
    intro j hj
    have : j = 0 := by omega
    subst this
    rintro ⟨v, key, h1, ⟨vs, rfl, h2⟩, h3⟩
    cases h1
    cases h2
    exact absurd h3 (by decide +kernel)

theorem to_low : Resource.PathTo (Resource.Demo.view "/limits/low") [txt "limits", txt "low"] :=
  Resource.Demo.view_to (by decide +kernel) (by decide +kernel)
theorem to_root : Resource.PathTo (Resource.Demo.view "/") [] :=
  Resource.Demo.view_to (by decide +kernel) (by decide +kernel)
theorem to_limits : Resource.PathTo (Resource.Demo.view "/limits") [txt "limits"] :=
  Resource.Demo.view_to (by decide +kernel) (by decide +kernel)
theorem to_bob : Resource.PathTo (Resource.Demo.view "/users/bob") [txt "users", txt "bob"] :=
  Resource.Demo.view_to (by decide +kernel) (by decide +kernel)

/-- Users keyed by name or mail. -/
def twoKeys : Resource.Ty := .record 3 (.cons { name := txt "users", childKeys := [0, 1] } (.seq vec user) .nil)

def r2 : Resource.Resource := ⟨.record [.seq [.record [text "bob", text "ann"]]], {}⟩

theorem r2_service : Service Γ twoKeys r2 [] := ⟨by decide +kernel, by decide +kernel, ⟨[], .nil, rfl⟩⟩

/-- id: `read_only`; users: keyed by name. -/
def guarded : Resource.Ty := .record 5
  (.cons { name := txt "age" } (.leaf 0)
  (.cons { name := txt "id", readOnly := true } (.leaf 0)
  (.cons { name := txt "users", childKeys := [0] } (.seq vec user) .nil)))

def r3 : Resource.Resource :=
  ⟨.record [num 30, num 1, .seq [.record [text "ann", text "a@b"], .record [text "bob", text "b@c"]]], {}⟩

theorem r3_service : Service Γ guarded r3 [] := ⟨by decide +kernel, by decide +kernel, ⟨[], .nil, rfl⟩⟩

/-- `validate_resource` of a user refuses an empty mail, that of `guarded` an age of 77. -/
def U3 : User := { U with
  validate := fun t v =>
    match t, v with
    | .record 1 _, .record [_, .leaf (.str [])] => .error (.validation (txt "mail"))
    | .record 5 _, .record (.leaf (.num 77) :: _) => .error (.validation (txt "age"))
    | _, _ => .ok () }

def R3 : Resource.Env Serial.JDoc := env Γ J E U3

theorem polite3 : Resource.Spec.PoliteValidators R3 := by
  intro t v e h
  simp only [R3, env, U3] at h
  split at h
  · cases h; exact ⟨_, rfl⟩
  · cases h; exact ⟨_, rfl⟩
  · cases h

end Verif.Rest.Demo
