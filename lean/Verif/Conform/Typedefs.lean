import Verif.Conform.Text
import Verif.Serial.Builder
/-
The types of tests/input/typedefs.hpp, for the tests of the models of the JSON and YAML
serialization.
-/
namespace Verif.Conform
open Verif.Path Verif.Serial Verif.Enums

/-! ### tests/input/typedefs.hpp -/

def i8 : IT := ⟨true, 8⟩
def i16 : IT := ⟨true, 16⟩
def i32 : IT := ⟨true, 32⟩
def i64 : IT := ⟨true, 64⟩
def u8 : IT := ⟨false, 8⟩
def u16 : IT := ⟨false, 16⟩
def u32 : IT := ⟨false, 32⟩
def u64 : IT := ⟨false, 64⟩
def tint : Ty := .leaf (.int i32)
def tstr : Ty := .leaf .str
def tdbl : Ty := .leaf .dbl
def tbool : Ty := .leaf .bool
def n (x : Int) : Value := .atom (.int x)
def b (x : Bool) : Value := .atom (.bool x)
def s (x : String) : Value := .atom (.str (txt x))
/-- A decimal `m / 10 ^ k`. -/
def d (m : Int) (k : Nat) : Value := .atom (.dbl (decimal m k))
def some' (v : Value) : Value := .opt (some v)
def none' : Value := .opt none
def ints (l : List Int) : Value := .seq (l.map n)

/-- A field without attributes, holding what `T{}` does. -/
def f (name : String) (t : Ty) (rest : Fields) : Fields := .cons { name := txt name, init := fresh t } t rest
/-- A field with an initializer. -/
def fi (name : String) (t : Ty) (init : Value) (rest : Fields) : Fields := .cons { name := txt name, init := init } t rest

/-- No user code. -/
def E0 : Env := ⟨fun _ _ => .ok ()⟩

def deJ (t : Ty) (text : String) : Res Value := deser J E0 t (fresh t) (js text)
def deY (t : Ty) (text : String) : Res Value := deser Y E0 t (fresh t) (ys text)
/-- Both backends give the value. -/
def both (t : Ty) (text : String) (v : Value) : Bool := gives (deJ t text) v && gives (deY t text) v

def colourSpace : EnumTy := ⟨i32, [⟨0, "rgb"⟩, ⟨1, "xyz"⟩, ⟨2, "ycrcb"⟩, ⟨3, "hsv"⟩, ⟨4, "lab"⟩, ⟨5, "hls"⟩, ⟨6, "luv"⟩], ""⟩
def deviceType : EnumTy := ⟨i32, [⟨1, "default"⟩, ⟨2, "cpu"⟩, ⟨4, "gpu"⟩, ⟨8, "accelerator"⟩, ⟨16, "custom"⟩], ""⟩
def ordinaryReflectable : EnumTy := ⟨u32, [⟨0, "oe_one_ref"⟩], ""⟩
def scopeReflectable : EnumTy := ⟨i32, [⟨0, "one"⟩], ""⟩

def optionalTest : Ty := .record (txt "optional_test") (f "non_opt" tint (f "opt" (.opt tint) .nil))
def skippedSeq : Ty := .record (txt "skipped")
  (f "a" tint (.cons { name := txt "skipped", init := n 13, skipDeser := true } tint (f "b" tint .nil)))
def inner : Ty := .record (txt "inner_t") (fi "r" tint (n 1337) (fi "d" tdbl (d 3145926 6) .nil))
def manual : Ty := .record (txt "Manual")
  (fi "Ar" tint (n 1337) (fi "Ad" tdbl (d 3145926 6) (fi "B" tint (n 416) (fi "C" tdbl (d 271828 5) .nil))))
def enums : Ty := .record (txt "enums")
  (f "e0" (.rawEnum i32) (f "e1" (.rawEnum i32) (f "e2" (.enum ordinaryReflectable) (f "e3" (.enum scopeReflectable) .nil))))
def unsignedTest : Ty := .record (txt "unsigned_test")
  (fi "u8" (.leaf (.int u8)) (n 128) (fi "u16" (.leaf (.int u16)) (n 32768)
  (fi "u32" (.leaf (.int u32)) (n 4294967295) (fi "u64" (.leaf (.int u64)) (n 18446744073709551615) .nil))))
def signedTest : Ty := .record (txt "signed_test")
  (fi "i8" (.leaf (.int i8)) (n (-127)) (fi "i16" (.leaf (.int i16)) (n (-13768))
  (fi "i32" (.leaf (.int i32)) (n (-2147483648)) (fi "i64" (.leaf (.int i64)) (n (-9223372036854775808)) .nil))))
def testT : Ty := .record (txt "test_t")
  (fi "hello" tstr (s "world") (fi "t" tbool (b true) (fi "f" tbool (b false) (f "n" (.opt tint) (fi "i" tint (n 123)
  (fi "pi" tdbl (d 31416 4) (fi "a" (.vec tint) (ints [1, 2, 3, 4])
  (fi "ad" (.vec (.vec tint)) (.seq [ints [1, 2], ints [3, 4, 5]]) (fi "space" (.enum colourSpace) (n 4)
  (fi "tup" (.tuple false (.cons tint (.cons tdbl (.cons tstr .nil)))) (.seq [n 1, d 314 2, s "QWE"])
  (fi "map" (.map (.enum colourSpace)) (.map [(txt "1", n 5), (txt "2", n 0)])
  (f "inner" inner .nil))))))))))))
def tup4 : Ty := .tuple false (.cons tint (.cons tdbl (.cons (.enum colourSpace) (.cons tbool .nil))))
def pair : Ty := .tuple true (.cons tint (.cons (.enum colourSpace) .nil))
def tupOpt : Ty := .tuple false (.cons tint (.cons tbool (.cons (.opt tstr) .nil)))


end Verif.Conform
