import Verif.ExcInfo.Model
/-
Model of the rest of `exception_info.hpp`: `throw_with_info`, the casts that find the
information again, and the diagnostic texts.

* Bases are public and not virtual.  A class is the tree of its bases; a subobject is the path
  of base numbers that leads to it.
* `typeid(..).name()` demangled is an arbitrary function of the class name.
* What `operator<<` prints for a value, the bytes of a value without one, and what `what()`
  returns are arbitrary.
* Text is a list of characters.
-/
namespace Verif.ExcInfo

abbrev Text := List Char

def tx (s : String) : Text := s.toList

/-- A class, as `std::type_info` tells classes apart. -/
inductive Name where
  | stdException
  /-- 110-226 `exception_info` -/
  | exceptionInfo
  /-- 230-239 `exception_with_info_base` -/
  | withInfoBase
  /-- 241-255 `exception_with_info<E>` -/
  | withInfo (e : Name)
  | user (n : Nat)
  deriving DecidableEq

/-- A class with its bases in order; whether it has virtual functions of its own. -/
inductive Cls where
  | mk (name : Name) (virt : Bool) (bases : List Cls)

def Cls.name : Cls → Name
  | .mk n _ _ => n

def Cls.bases : Cls → List Cls
  | .mk _ _ bs => bs

mutual
/-- `std::is_polymorphic_v`. -/
def Cls.poly : Cls → Bool
  | .mk _ v bs => v || anyPoly bs
def anyPoly : List Cls → Bool
  | [] => false
  | c :: cs => c.poly || anyPoly cs
end

abbrev Route := List Nat

mutual
/-- The subobjects of class `x` in an object of the class. -/
def routes (x : Name) : Cls → List Route
  | .mk n _ bs => (if n = x then [[]] else []) ++ routesIn x 0 bs
def routesIn (x : Name) : Nat → List Cls → List Route
  | _, [] => []
  | i, c :: cs => (routes x c).map (i :: ·) ++ routesIn x (i + 1) cs
end

/-- The class of a subobject. -/
def Cls.at : Cls → Route → Option Cls
  | c, [] => some c
  | .mk _ _ bs, i :: p =>
    match bs[i]? with
    | some b => b.at p
    | none => none

/-- An `exception_info` object: 221-225; of the list its values, newest first. -/
structure Info where
  file : Option Text
  line : Int
  function : Option Text
  values : List (Tag × Val)

/-- An object with what its subobjects hold: the information in an `exception_info`, the
result of `what()` of a `std::exception`, `exception_type` (238) of an
`exception_with_info_base`. -/
structure Obj where
  cls : Cls
  info : Route → Info
  what : Route → Text
  exType : Route → Name

/-- `dynamic_cast<const X*>` of a pointer to the subobject `s` ([expr.dynamic.cast]): to a
base of its class, or to the object of class X it is a base of, or to the only X of the
object.  `none`: null pointer (or a program that does not compile, if the base is ambiguous). -/
def dynamicCast (c : Cls) (s : Route) (x : Name) : Option Route :=
  match c.at s with
  | none => none
  | some cs =>
    match routes x cs with
    | [p] => some (s ++ p)
    | _ :: _ :: _ => none
    | [] =>
      match (routes x c).filter (· <+: s) with
      | [p] => some p
      | _ =>
        match routes x c with
        | [p] => some p
        | _ => none

/-- Whether a handler for `const X&` takes the exception ([except.handle]), and the
subobject the handler gets. -/
def handler (c : Cls) (x : Name) : Option Route :=
  match routes x c with
  | [p] => some p
  | _ => none

/-- `exception_info` has a virtual destructor (120). -/
def infoCls : Cls := .mk .exceptionInfo true []

/-- 230 -/
def withInfoBaseCls : Cls := .mk .withInfoBase false [infoCls]

/-- 241-242 -/
def withInfoCls (e : Cls) : Cls := .mk (.withInfo e.name) false [e, withInfoBaseCls]

/-- 257-268, 270-274 `throw_with_info(e, xi)`: the exception thrown (244-254).  `e` is the
copy of the argument, an object of the static type of the argument. -/
def throwWithInfo (e : Obj) (xi : Info) : Obj where
  cls := withInfoCls e.cls
  info
    | 0 :: p => e.info p
    | _ => xi
  what
    | 0 :: p => e.what p
    | _ => []
  exType
    | 0 :: p => e.exType p
    | _ => e.cls.name

/-- 276-288 `get_exception_info(e)` for a reference to the subobject `s`. -/
def getInfo (o : Obj) (s : Route) : Option Route := dynamicCast o.cls s .exceptionInfo

/-- 58-71: a value that cannot be written with `<<` is written as its bytes. -/
inductive Shown where
  | text (t : Text)
  | bytes (bs : List (BitVec 8))

/-- 60 `hex` -/
def hexDigits : Text := tx "0123456789ABCDEF"

/-- 69: `hex[(bytes[i] & 0xF0) >> 4] << hex[bytes[i] & 0xF]`. -/
def hexByte (b : BitVec 8) : Text :=
  match hexDigits[((b &&& 0xF0#8) >>> 4).toNat]?, hexDigits[(b &&& 0x0F#8).toNat]? with
  | some h, some l => [h, l]
  | _, _ => []

/-- 65-70: the loop over the bytes from number `i` on. -/
def hexBytes : Nat → List (BitVec 8) → Text
  | _, [] => []
  | i, b :: bs => (if i > 0 then [' '] else []) ++ hexByte b ++ hexBytes (i + 1) bs

/-- 46-74 `diagnostic_info_impl`. -/
def showEntry (name : Text) : Shown → Text
  | .text t => name ++ tx " = " ++ t ++ ['\n']
  | .bytes bs => name ++ tx " = [" ++ hexBytes 0 bs ++ tx "]\n"

/-- How tags, values and classes are written. -/
structure Printer where
  tag : Tag → Text
  value : Tag → Val → Shown
  cls : Name → Text

/-- 211-215: the loop over the nodes. -/
def showEntries (P : Printer) : List (Tag × Val) → Text
  | [] => []
  | (t, v) :: l => showEntry (P.tag t) (P.value t v) ++ showEntries P l

/-- 201-217 `exception_info::diagnostic_info`. -/
def infoText (P : Printer) (xi : Info) : Text :=
  (match xi.file with
    | some f => f ++ ['('] ++ tx (toString xi.line) ++ [')']
    | none => tx "<unknown-file>") ++
  tx ": throw_with_info in function " ++ xi.function.getD (tx "<unknown-function>") ++ ['\n'] ++
  showEntries P xi.values

def typeLine (P : Printer) (n : Name) : Text := tx "dynamic exception type: " ++ P.cls n ++ ['\n']

/-- 290-324 `exception_diagnostic_info(e)` for a reference to the subobject `s` of class `cs`. -/
def objText (P : Printer) (o : Obj) (s : Route) (cs : Cls) : Text :=
  if cs.poly then
    (match dynamicCast o.cls s .withInfoBase with
      | some p => typeLine P (o.exType p)
      | none => typeLine P o.cls.name) ++
    (match dynamicCast o.cls s .stdException with
      | some p => tx "what: " ++ o.what p ++ ['\n']
      | none => []) ++
    (match dynamicCast o.cls s .exceptionInfo with
      | some p => infoText P (o.info p)
      | none => [])
  else typeLine P cs.name

/-- The class of a `std::exception`. -/
def stdExceptionCls : Cls := .mk .stdException true []

/-- 326-345 `exception_diagnostic_info(exception_ptr)`: handlers in order. -/
def ptrText (P : Printer) : Option Obj → Text
  | none => tx "no exception"
  | some o =>
    match handler o.cls .exceptionInfo with
    | some p => objText P o p infoCls
    | none =>
      match handler o.cls .stdException with
      | some p => objText P o p stdExceptionCls
      | none => tx "dynamic exception type: <unknown-exception>\n"

end Verif.ExcInfo
