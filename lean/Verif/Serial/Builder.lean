import Verif.Serial.Yaml
import Verif.Serial.Json
/-
The builders and extractors of json.hpp and yaml.hpp.  Those of the two formats differ in the
backend only.  Keys of YAML maps are strings here.
-/
namespace Verif.Serial
open Verif.Path Verif.Enums

variable {σ : Type}

/-- json.hpp:168-195 `array_builder`, yaml.hpp:120-147 `sequence_builder`. -/
structure ArrayBuilder (σ : Type) where
  items : List (Doc σ) := []

namespace ArrayBuilder

/-- json.hpp:183-187 `add(rapidjson::Value)`, yaml.hpp:135-139. -/
def addDoc (b : ArrayBuilder σ) (d : Doc σ) : ArrayBuilder σ := ⟨b.items ++ [d]⟩

/-- json.hpp:177-181 `add(value)`, yaml.hpp:129-133. -/
def add (B : Backend σ) (skipNull : Bool) (b : ArrayBuilder σ) (t : Ty) (v : Value) : Res (ArrayBuilder σ) :=
  match ser B skipNull t v with
  | .error e => .error e
  | .ok d => .ok (b.addDoc d)

/-- json.hpp:189 `done`, yaml.hpp:141. -/
def done (b : ArrayBuilder σ) : Doc σ := .arr b.items

end ArrayBuilder

/-- json.hpp:197-254 `object_builder`, yaml.hpp:149-176 `map_builder`. -/
structure ObjectBuilder (σ : Type) where
  members : List (Str × Doc σ) := []

namespace ObjectBuilder

/-- json.hpp:242-246 `add(rapidjson::Value, rapidjson::Value)` and its callers (216-221,
233-240), yaml.hpp:163-168: `node_[member_name] = v`. -/
def addDoc (B : Backend σ) (b : ObjectBuilder σ) (k : Str) (d : Doc σ) : ObjectBuilder σ :=
  ⟨B.addField b.members k d⟩

/-- json.hpp:208-212 `add(member_name, value)`, 225-229 `add_dynamic_name`; yaml.hpp:157-161. -/
def add (B : Backend σ) (skipNull : Bool) (b : ObjectBuilder σ) (k : Str) (t : Ty) (v : Value) :
    Res (ObjectBuilder σ) :=
  match ser B skipNull t v with
  | .error e => .error e
  | .ok d => .ok (b.addDoc B k d)

/-- json.hpp:248 `done`, yaml.hpp:170. -/
def done (b : ObjectBuilder σ) : Doc σ := .obj b.members

end ObjectBuilder

/-- json.hpp:256-285 `object_extractor`, yaml.hpp:178-208 `map_extractor`. -/
structure ObjectExtractor (σ : Type) where
  members : List (Str × Doc σ)

namespace ObjectExtractor

/-- json.hpp:260-264, yaml.hpp:182-186: the constructor. -/
def new (B : Backend σ) (d : Doc σ) : Res (ObjectExtractor σ) := (Serial.members B d).map fun ms => ⟨ms⟩

/-- json.hpp:266-280, yaml.hpp:188-203 `extract`: what it leaves in `out`. -/
def extract (B : Backend σ) (E : Env) (x : ObjectExtractor σ) (k : Str) (t : Ty) (old : Value) : Res Value :=
  note (txt "error when deserializing field " ++ k) (deser B E t old (atField x.members k))

end ObjectExtractor

/-- json.hpp:287-325 `array_extractor`, yaml.hpp:210-248 `sequence_extractor`. -/
structure ArrayExtractor (σ : Type) where
  items : List (Doc σ)
  /-- `unsigned index_`. -/
  index : Nat := 0

namespace ArrayExtractor

/-- json.hpp:291-295, yaml.hpp:214-218: the constructor. -/
def new (B : Backend σ) (d : Doc σ) : Res (ArrayExtractor σ) := (elements B d).map fun l => ⟨l, 0⟩

/-- json.hpp:304-319, yaml.hpp:227-242 `extract(out)`: what it leaves in `out`, and itself. -/
def extract (B : Backend σ) (E : Env) (x : ArrayExtractor σ) (t : Ty) (old : Value) :
    Res Value × ArrayExtractor σ :=
  match deser B E t old (atIndex x.items x.index) with
  | .ok v => (.ok v, { x with index := (x.index + 1) % 2 ^ 32 })
  | .error e => (.error (e.add (txt "error when deserializing element " ++ numText x.index)), x)

/-- json.hpp:297-302, yaml.hpp:220-225 `extract(out, index)`. -/
def extractAt (B : Backend σ) (E : Env) (x : ArrayExtractor σ) (t : Ty) (old : Value) (index : Nat) :
    Res Value × ArrayExtractor σ :=
  extract B E { x with index := index } t old

/-- A call of `extract`, with what `out` holds before it. -/
inductive Call where
  | next (t : Ty) (old : Value)
  | at (t : Ty) (old : Value) (index : Nat)

def call (B : Backend σ) (E : Env) (x : ArrayExtractor σ) : Call → Res Value × ArrayExtractor σ
  | .next t old => x.extract B E t old
  | .at t old i => x.extractAt B E t old i

/-- The results of calls one after another; a caller may catch what is thrown. -/
def calls (B : Backend σ) (E : Env) (x : ArrayExtractor σ) : List Call → List (Res Value)
  | [] => []
  | c :: cs => (x.call B E c).1 :: ((x.call B E c).2).calls B E cs

end ArrayExtractor

end Verif.Serial
