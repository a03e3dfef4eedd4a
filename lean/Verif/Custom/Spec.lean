import Verif.Custom.Model

/-! What is expected of customised serialization, stated apart from the model's functions. -/

namespace Verif.Custom

mutual
/-- A value has a type. -/
def HasTy : Ty → Val → Prop
  | .opq _, v => ∃ n, v = .opq n
  | .num _, v => ∃ n, v = .num n
  | .str _, v => ∃ s, v = .str s
  | .enm _ _, v => ∃ n, v = .num n
  | .opt _ t, v => v = .absent ∨ ∃ x, v = .present x ∧ HasTy t x
  | .seq _ t, v => ∃ vs, v = .list vs ∧ ∀ x ∈ vs, HasTy t x
  | .map _ _ t, v => ∃ es, v = .pairs es ∧ (es.map (·.1)).Nodup ∧ ∀ e ∈ es, HasTy t e.2
  | .tup _ ts, v => ∃ vs, v = .list vs ∧ HasTys ts vs
  | .set _ _ names, v => ∃ bs, v = .set bs ∧ bs.length = names.length
  | .obj _ fs, v => ∃ vs, v = .list vs ∧ HasFlds fs vs

def HasTys : Tys → List Val → Prop
  | .nil, vs => vs = []
  | .cons t rest, vs => ∃ v vs', vs = v :: vs' ∧ HasTy t v ∧ HasTys rest vs'

def HasFlds : Flds → List Val → Prop
  | .nil, vs => vs = []
  | .cons _ t rest, vs => ∃ v vs', vs = v :: vs' ∧ HasTy t v ∧ HasFlds rest vs'
end

mutual
/-- The calls a writer gets for a document. -/
def events : Doc → List Ev
  | .null => [.null]
  | .num n => [.num n]
  | .str s => [.str s]
  | .arr l => .beginArr :: eventsArr l ++ [.endArr]
  | .obj ms => .beginObj :: eventsObj ms ++ [.endObj]

def eventsArr : List Doc → List Ev
  | [] => []
  | d :: ds => events d ++ eventsArr ds

def eventsObj : List (String × Doc) → List Ev
  | [] => []
  | (k, d) :: ms => .key k :: events d ++ eventsObj ms
end

/-- The customisations of a type. -/
def Ty.hooks : Ty → Hooks
  | .opq h | .num h | .str h | .enm h _ | .opt h _ | .seq h _ | .map h _ _ | .tup h _ | .set h _ _ | .obj h _ => h

/-- Whether the library has an overload of its own for a type. -/
def Ty.supported : Ty → Bool
  | .opq _ => false
  | _ => true

/-- Whether the library has a `patch_adl` for a type. -/
def Ty.patchable : Ty → Bool
  | .opt _ _ | .obj _ _ => true
  | _ => false

/-- The types of the fields of an object. -/
def Flds.types : Flds → List Ty
  | .nil => []
  | .cons _ t rest => t :: rest.types

/-- The components of a tuple. -/
def Tys.types : Tys → List Ty
  | .nil => []
  | .cons t rest => t :: rest.types

mutual
/-- The names an object is written with, those of flattened objects included. -/
def outNames : Flds → List String
  | .nil => []
  | .cons f t rest => (if f.flat then flatNames t else [f.name]) ++ outNames rest

def flatNames : Ty → List String
  | .obj _ fs => outNames fs
  | _ => []
end

/-- Reading gives back what was written. -/
def RoundTrips (P : Val → Prop) (w : Val → Option Doc) (r : Doc → Option Val) : Prop :=
  ∀ v d, P v → w v = some d → r d = some v

/-- One type's part in a faithful format: the user supplied both directions and they fit together, or
neither, and then `inner` is required of its parts. -/
def Both (P : Val → Prop) (w : Sel (Val → Option Doc)) (r : Sel (Doc → Option Val)) (inner : Prop) : Prop :=
  match w, r with
  | .custom w, .custom r => RoundTrips P w r
  | .builtin, .builtin => inner
  | _, _ => False

/-- A type is never written as null. -/
def NeverNull (t : Ty) : Prop :=
  match t.hooks.onWrite t.supported with
  | .custom w => ∀ v, w v ≠ some .null
  | .builtin => ∀ h u, t ≠ .opt h u
  | .fails => True

/-- A key type is read the way it is written: as its text. -/
def KeyPlain (key : Option (String → Option String)) : Prop := ∀ f, key = some f → ∀ k, f k = some k

/-- A field that was not written because it is null is read from a null value. -/
def ReadsAbsent (sk : Bool) (t : Ty) : Prop :=
  sk = true → ∀ h u r, t = .opt h u → h.onRead true = .custom r → r .null = some .absent

mutual
/-- Every customised part of a type brings both directions, and the parts may be put together. -/
def Faithful (sk : Bool) : Ty → Prop
  | .opq h => Both (HasTy (.opq h)) (h.onWrite false) (h.onRead false) True
  | .num h => Both (HasTy (.num h)) (h.onWrite true) (h.onRead true) True
  | .str h => Both (HasTy (.str h)) (h.onWrite true) (h.onRead true) True
  | .enm h names => Both (HasTy (.enm h names)) (h.onWrite true) (h.onRead true) names.Nodup
  | .opt h t => Both (HasTy (.opt h t)) (h.onWrite true) (h.onRead true) (Faithful sk t ∧ NeverNull t)
  | .seq h t => Both (HasTy (.seq h t)) (h.onWrite true) (h.onRead true) (Faithful sk t)
  | .map h key t =>
    Both (HasTy (.map h key t)) (h.onWrite true) (h.onRead true)
      (Faithful sk t ∧ KeyPlain key ∧ (sk = true → ∀ h u, t ≠ .opt h u))
  | .tup h ts => Both (HasTy (.tup h ts)) (h.onWrite true) (h.onRead true) (FaithfulTys sk ts)
  | .set h eh names =>
    Both (HasTy (.set h eh names)) (h.onWrite true) (h.onRead true)
      (Both (HasTy (.enm eh names)) (eh.onWrite true) (eh.onRead true) names.Nodup)
  | .obj h fs =>
    Both (HasTy (.obj h fs)) (h.onWrite true) (h.onRead true) (FaithfulFlds sk fs ∧ (outNames fs).Nodup)

def FaithfulTys (sk : Bool) : Tys → Prop
  | .nil => True
  | .cons t rest => Faithful sk t ∧ FaithfulTys sk rest

def FaithfulFlds (sk : Bool) : Flds → Prop
  | .nil => True
  | .cons f t rest =>
    (if f.flat then FaithfulFlat sk t else Faithful sk t ∧ ReadsAbsent sk t) ∧ FaithfulFlds sk rest

/-- A flattened object is read by the library. -/
def FaithfulFlat (sk : Bool) : Ty → Prop
  | .obj h fs => h.onRead true = .builtin ∧ FaithfulFlds sk fs
  | _ => False
end

/-- One type's part in `dump` agreeing with `serialize`. -/
def Same (P : Val → Prop) (d : Sel (Val → Option (List Ev))) (w : Sel (Val → Option Doc)) (inner : Prop) : Prop :=
  match d, w with
  | .custom d, .custom w => ∀ v, P v → d v = (w v).map events
  | .builtin, .builtin => inner
  | _, _ => False

/-- An enumeration is written by its names. -/
def WritesNames (h : Hooks) (names : List String) : Prop :=
  match h.onWrite true with
  | .custom w => ∀ (i : Nat) (_ : i < names.length), w (.num i) = some (.str names[i])
  | .builtin => True
  | .fails => False

mutual
/-- For every customised part of a type, `dump` and `serialize` say the same. -/
def Agrees : Ty → Prop
  | .opq h => Same (HasTy (.opq h)) (h.onDump false) (h.onWrite false) True
  | .num h => Same (HasTy (.num h)) (h.onDump true) (h.onWrite true) True
  | .str h => Same (HasTy (.str h)) (h.onDump true) (h.onWrite true) True
  | .enm h names => Same (HasTy (.enm h names)) (h.onDump true) (h.onWrite true) True
  | .opt h t => Same (HasTy (.opt h t)) (h.onDump true) (h.onWrite true) (Agrees t)
  | .seq h t => Same (HasTy (.seq h t)) (h.onDump true) (h.onWrite true) (Agrees t)
  | .map h key t => Same (HasTy (.map h key t)) (h.onDump true) (h.onWrite true) (Agrees t)
  | .tup h ts => Same (HasTy (.tup h ts)) (h.onDump true) (h.onWrite true) (AgreesTys ts)
  | .set h eh names =>
    Same (HasTy (.set h eh names)) (h.onDump true) (h.onWrite true) (WritesNames eh names)
  | .obj h fs => Same (HasTy (.obj h fs)) (h.onDump true) (h.onWrite true) (AgreesFlds fs)

def AgreesTys : Tys → Prop
  | .nil => True
  | .cons t rest => Agrees t ∧ AgreesTys rest

def AgreesFlds : Flds → Prop
  | .nil => True
  | .cons f t rest => (if f.flat then AgreesFlat t else Agrees t) ∧ AgreesFlds rest

def AgreesFlat : Ty → Prop
  | .obj _ fs => AgreesFlds fs
  | _ => True
end

/-- Which objects a `deserialize` call may reach through the dispatcher. -/
inductive ReadReaches : Ty → Ty → Prop
  | refl (t : Ty) : ReadReaches t t
  | opt {h : Hooks} {t u : Ty} : h.onRead true = .builtin → ReadReaches t u → ReadReaches (.opt h t) u
  | seq {h : Hooks} {t u : Ty} : h.onRead true = .builtin → ReadReaches t u → ReadReaches (.seq h t) u
  | map {h : Hooks} {key : Option (String → Option String)} {t u : Ty} :
    h.onRead true = .builtin → ReadReaches t u → ReadReaches (.map h key t) u
  | tup {h : Hooks} {ts : Tys} {t u : Ty} :
    h.onRead true = .builtin → t ∈ ts.types → ReadReaches t u → ReadReaches (.tup h ts) u
  | set {h eh : Hooks} {names : List String} :
    h.onRead true = .builtin → ReadReaches (.set h eh names) (.enm eh names)
  | obj {h : Hooks} {fs : Flds} {t u : Ty} :
    h.onRead true = .builtin → t ∈ fs.types → ReadReaches t u → ReadReaches (.obj h fs) u

/-- Which objects a `patch` call may reach through the dispatcher of `patch`. -/
inductive PatchReaches : Ty → Ty → Prop
  | refl (t : Ty) : PatchReaches t t
  | opt {h : Hooks} {t u : Ty} : h.onPatch true = .builtin → PatchReaches t u → PatchReaches (.opt h t) u
  | obj {h : Hooks} {fs : Flds} {t u : Ty} :
    h.onPatch true = .builtin → t ∈ fs.types → PatchReaches t u → PatchReaches (.obj h fs) u

/-- `deserialize` is available for a type: a function of the user's, or exactly one way to read it. -/
def Readable (t : Ty) : Prop :=
  t.hooks.ser.read ≠ none ∨
  (t.hooks.adl.read ≠ none ∧ (t.hooks.generic = true → t.supported = false)) ∨
  (t.hooks.adl.read = none ∧ t.supported = true)

mutual
/-- A field of that name and type, of the object or of one flattened into it, holds a value. -/
inductive Holds : Flds → List Val → String → Ty → Val → Prop
  | here {f : Fld} {t : Ty} {rest : Flds} {v : Val} {vs : List Val} :
    f.flat = false → Holds (.cons f t rest) (v :: vs) f.name t v
  | inside {f : Fld} {u : Ty} {rest : Flds} {v : Val} {vs : List Val} {n : String} {t : Ty} {x : Val} :
    f.flat = true → HoldsFlat u v n t x → Holds (.cons f u rest) (v :: vs) n t x
  | later {f : Fld} {u : Ty} {rest : Flds} {v : Val} {vs : List Val} {n : String} {t : Ty} {x : Val} :
    Holds rest vs n t x → Holds (.cons f u rest) (v :: vs) n t x

inductive HoldsFlat : Ty → Val → String → Ty → Val → Prop
  | mk {h : Hooks} {fs : Flds} {vs : List Val} {n : String} {t : Ty} {x : Val} :
    Holds fs vs n t x → HoldsFlat (.obj h fs) (.list vs) n t x
end

mutual
/-- Flattened objects, and those flattened into them, are patched by the library. -/
def FlatByLib : Flds → Prop
  | .nil => True
  | .cons f t rest => (f.flat = true → FlatByLibTy t) ∧ FlatByLib rest

def FlatByLibTy : Ty → Prop
  | .obj h fs => h.onPatch true = .builtin ∧ FlatByLib fs
  | _ => False
end

/-- The first member of that name. -/
def First (ms : List (String × Doc)) (n : String) (d : Doc) : Prop :=
  ∃ pre post, ms = pre ++ (n, d) :: post ∧ ∀ m ∈ pre, m.1 ≠ n

/-- The user's ADL overload of `patch_adl` is the one that is called. -/
def AdlPatch (t : Ty) : Prop := t.hooks.adl.patch ≠ none ∧ (t.hooks.generic = true → t.patchable = false)

/-- An optional that the library patches by patching its content. -/
def PatchesContent (t : Ty) : Prop := t.hooks.adl.patch = none ∧ ∃ h u, t = .opt h u

/-- `patch` is available for a type. -/
def Patchable (t : Ty) : Prop :=
  t.hooks.ser.patch ≠ none ∨
  (t.hooks.ser.read = none ∧ (AdlPatch t ∨ PatchesContent t ∨ ∀ u, ReadReaches t u → Readable u))

/-- The way a document replaces a value of the type. -/
def Replaces (w : Val → Option Doc) (P : Val → Prop) (p : Val → Doc → Option Val) : Prop :=
  ∀ v x d, P v → P x → w x = some d → p v d = some x

/-- One type's part in `patch` following its written form. `whole` is required where `patch` replaces the
whole value, `inner` where it goes into its parts. -/
def PatchPart (t : Ty) (s : PatchSel) (inner whole : Prop) : Prop :=
  match s with
  | .custom p => Replaces (write false t) (HasTy t) p
  | .builtin => inner
  | .replace => whole
  | .fails => False

mutual
/-- Every part that `patch` reaches takes the form that `serialize` gives it. -/
def PatchFaithful : Ty → Prop
  | .opt h t =>
    PatchPart (.opt h t) (h.onPatch true) (h.onWrite true = .builtin ∧ PatchFaithful t ∧ NeverNull t)
      (Faithful false (.opt h t))
  | .obj h fs =>
    PatchPart (.obj h fs) (h.onPatch true)
      (h.onWrite true = .builtin ∧ PatchFaithfulFlds fs ∧ (outNames fs).Nodup) (Faithful false (.obj h fs))
  | .opq h => PatchPart (.opq h) (h.onPatch false) False (Faithful false (.opq h))
  | .num h => PatchPart (.num h) (h.onPatch false) False (Faithful false (.num h))
  | .str h => PatchPart (.str h) (h.onPatch false) False (Faithful false (.str h))
  | .enm h names => PatchPart (.enm h names) (h.onPatch false) False (Faithful false (.enm h names))
  | .seq h t => PatchPart (.seq h t) (h.onPatch false) False (Faithful false (.seq h t))
  | .map h key t => PatchPart (.map h key t) (h.onPatch false) False (Faithful false (.map h key t))
  | .tup h ts => PatchPart (.tup h ts) (h.onPatch false) False (Faithful false (.tup h ts))
  | .set h eh names => PatchPart (.set h eh names) (h.onPatch false) False (Faithful false (.set h eh names))

def PatchFaithfulFlds : Flds → Prop
  | .nil => True
  | .cons f t rest => (if f.flat then PatchFaithfulFlat t else PatchFaithful t) ∧ PatchFaithfulFlds rest

/-- A flattened object is patched by the library. -/
def PatchFaithfulFlat : Ty → Prop
  | .obj h fs => h.onPatch true = .builtin ∧ PatchFaithfulFlds fs
  | _ => False
end

end Verif.Custom
