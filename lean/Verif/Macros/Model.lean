/-
Model of the reflection macros: `detail/macros.hpp`, `reflect_enum.hpp` and `reflect_struct.hpp`.

A text is a list of tokens in which a pair of parentheses with what is between them is one token:
that is all the preprocessor knows of structure.  A macro is a function from the texts of its
arguments to its expansion.  A call that stands in the body of another macro sees the parameters
already replaced, and its arguments are separated again (`call1`, `call2`): an argument that has
brought a comma with it becomes two.  The argument that is itself a call of a macro stays one.

The macros of Boost.Preprocessor are modelled by what their documentation says they do.  Left out:
the arguments are supposed not to be names of macros themselves; comments; the order in which the
preprocessor works where it cannot be seen.
-/
namespace Verif.Macros

/-- Preprocessing tokens.  `word` is any token without further meaning here (identifiers, numbers,
operators, brackets, braces); `lit` is a string literal by its spelling between the quotes; `quoted`
is a string literal made by `#`, by its value; `sp` is whitespace. (the text of macros.hpp:20-125) -/
inductive Tok
  | word (s : String)
  | lit (s : String)
  | quoted (s : String)
  | comma
  | sp
  | paren (l : List Tok)

/-- The text of macros.hpp:20-125 and of its arguments. -/
abbrev Text := List Tok

/-- What goes wrong: a macro gets another number of arguments than it has parameters; a limit of
Boost.Preprocessor is exceeded; something is not a tuple or sequence where one is needed.
(limits at reflect_enum.hpp:69-72, 155-159) -/
inductive Err
  | arity
  | limit
  | shape
  deriving DecidableEq, Repr

/-- How the expansion of a macro of macros.hpp:20-125 ends. -/
abbrev PP (α : Type) := Except Err α

/-- BOOST_PP_LIMIT_TUPLE, BOOST_PP_LIMIT_SEQ, BOOST_PP_LIMIT_REPEAT (reflect_enum.hpp:50-52, 70-77),
and whether the preprocessor has `__VA_OPT__` (then `()` is a tuple of no elements, otherwise of one
empty one). -/
structure Cfg where
  tupleLimit : Nat
  seqLimit : Nat
  repeatLimit : Nat
  vaOpt : Bool

/-! ### The preprocessor -/

/-- Whitespace before an argument, macros.hpp:20-125. -/
def trimL : Text → Text
  | .sp :: t => trimL t
  | t => t

/-- Whitespace around an argument does not belong to it. (macros.hpp:20-125) -/
def trim (t : Text) : Text := (trimL (trimL t).reverse).reverse

/-- Separation at the commas that are not inside parentheses. (macros.hpp:29, 53) -/
def splitC : Text → List Text
  | [] => [[]]
  | .comma :: t => [] :: splitC t
  | x :: t =>
    match splitC t with
    | [] => [[x]]
    | a :: as => (x :: a) :: as

/-- The arguments written between the parentheses of a call. (macros.hpp:20-125) -/
def args (t : Text) : List Text := (splitC t).map trim

/-- Texts separated by commas: what `__VA_ARGS__` stands for. (macros.hpp:29, 53) -/
def joinC : List Text → Text
  | [] => []
  | [a] => a
  | a :: as => a ++ .comma :: joinC as

/-- What stands at the place of an argument in the body of a macro: text with the parameters
replaced, or a call of a macro, by its result. (macros.hpp:20-125) -/
inductive Piece
  | text (t : Text)
  | call (r : Text)

/-- The arguments the called macro gets. (macros.hpp:20-125) -/
def actuals : List Piece → List Text
  | [] => []
  | .text t :: ps => args t ++ actuals ps
  | .call r :: ps => trim r :: actuals ps

/-- A call of a macro with one parameter. (macros.hpp:20-125) -/
def call1 {α : Type} (m : Text → PP α) (ps : List Piece) : PP α :=
  match actuals ps with
  | [a] => m a
  | _ => .error .arity

/-- A call of a macro with two parameters. (macros.hpp:20-125) -/
def call2 {α : Type} (m : Text → Text → PP α) (ps : List Piece) : PP α :=
  match actuals ps with
  | [a, b] => m a b
  | _ => .error .arity

/-- A call of a macro with three parameters. (macros.hpp:26, 40-125) -/
def call3 {α : Type} (m : Text → Text → Text → PP α) (ps : List Piece) : PP α :=
  match actuals ps with
  | [a, b, c] => m a b c
  | _ => .error .arity

mutual
/-- The spelling of a token. (for `#`, macros.hpp:20) -/
def spellTok : Tok → String
  | .word s => s
  | .lit s => "\"" ++ s ++ "\""
  | .quoted s => "\"" ++ s ++ "\""
  | .comma => ","
  | .sp => " "
  | .paren l => "(" ++ spell l ++ ")"

/-- The operator `#`: whitespace between tokens becomes one blank. (macros.hpp:20) -/
def spell : List Tok → String
  | [] => ""
  | .sp :: .sp :: t => spell (.sp :: t)
  | x :: t => spellTok x ++ spell t
end

/-! ### Boost.Preprocessor -/

/-- The inside of a tuple. (macros.hpp:56-99) -/
def inside (t : Text) : PP Text :=
  match t with
  | [.paren l] => .ok l
  | _ => .error .shape

/-- BOOST_PP_TUPLE_SIZE. (macros.hpp:56) -/
def boostTupleSize (c : Cfg) (t : Text) : PP Nat := do
  let l ← inside t
  let n := if c.vaOpt && (trim l).isEmpty then 0 else (args l).length
  if n ≤ c.tupleLimit then .ok n else .error .limit

/-- BOOST_PP_TUPLE_ELEM(i, tuple). (macros.hpp:62) -/
def boostTupleElem (c : Cfg) (i : Nat) (t : Text) : PP Text := do
  let l ← inside t
  if (args l).length > c.tupleLimit then .error .limit
  else match (args l)[i]? with
    | some e => .ok e
    | none => .error .shape

/-- BOOST_PP_TUPLE_ENUM. (macros.hpp:68) -/
def boostTupleEnum (t : Text) : PP Text := inside t

/-- BOOST_PP_TUPLE_POP_FRONT; there must be two elements at least. (macros.hpp:65) -/
def boostTuplePopFront (t : Text) : PP Text := do
  let l ← inside t
  match args l with
  | _ :: b :: rest => .ok [.paren (joinC (b :: rest))]
  | _ => .error .shape

/-- BOOST_PP_TUPLE_PUSH_BACK. (macros.hpp:99) -/
def boostTuplePushBack (t e : Text) : PP Text := do
  let l ← inside t
  .ok [.paren (l ++ .comma :: e)]

/-- BOOST_PP_REMOVE_PARENS: the parentheses an argument begins with, if it does. (macros.hpp:50) -/
def boostRemoveParens (t : Text) : PP Text :=
  match t with
  | .paren l :: rest => .ok (l ++ rest)
  | t => .ok t

/-- BOOST_PP_DEC. (macros.hpp:59) -/
def boostDec (n : Nat) : Nat := n - 1

/-- BOOST_PP_IF. (macros.hpp:26) -/
def boostIf (cond : Nat) (t e : Text) : PP Text := .ok (if cond ≠ 0 then t else e)

/-- BOOST_PP_STRINGIZE. (macros.hpp:20) -/
def boostStringize (t : Text) : PP Text := .ok [.quoted (spell t)]

/-- BOOST_PP_CAT, of an identifier and a text. (macros.hpp:23) -/
def boostCat (a : String) (t : Text) : PP Text :=
  match t with
  | .word s :: rest => .ok (.word (a ++ s) :: rest)
  | [] => .ok [.word a]
  | _ => .error .shape

/-- The expansions of BOOST_PP_REPEAT one after the other, from the `i`-th. (macros.hpp:40, 119, 125) -/
def repeatFrom (m : Nat → PP Text) (i : Nat) : Nat → PP Text
  | 0 => .ok []
  | n + 1 => do
    let a ← m i
    let b ← repeatFrom m (i + 1) n
    .ok (a ++ b)

/-- BOOST_PP_REPEAT. (macros.hpp:40, 119, 125) -/
def boostRepeat (c : Cfg) (n : Nat) (m : Nat → PP Text) : PP Text :=
  if n ≤ c.repeatLimit then repeatFrom m 0 n else .error .limit

/-- The elements of a sequence `(a)(b)(c)`.  The macros that walk along it have one parameter. (macros.hpp:32-40) -/
def seqElems : Text → PP (List Text)
  | [] => .ok []
  | .sp :: t => seqElems t
  | .paren l :: t =>
    match args l with
    | [a] => do
      let as ← seqElems t
      .ok (a :: as)
    | _ => .error .arity
  | _ :: _ => .error .shape

/-- BOOST_PP_SEQ_SIZE; a sequence has one element at least. (macros.hpp:32) -/
def boostSeqSize (c : Cfg) (t : Text) : PP Nat := do
  let es ← seqElems t
  if es.length = 0 then .error .shape
  else if es.length ≤ c.seqLimit then .ok es.length
  else .error .limit

/-- BOOST_PP_SEQ_ELEM(i, seq). (macros.hpp:35) -/
def boostSeqElem (i : Nat) (t : Text) : PP Text := do
  let es ← seqElems t
  match es[i]? with
  | some e => .ok e
  | none => .error .shape

/-- BOOST_PP_VARIADIC_TO_SEQ, which goes through a tuple (reflect_enum.hpp:50-52). -/
def boostVariadicToSeq (c : Cfg) (va : Text) : PP Text :=
  if (args va).length ≤ c.tupleLimit then .ok ((args va).map Tok.paren) else .error .limit

/-- BOOST_PP_VARIADIC_TO_TUPLE. (macros.hpp:53) -/
def boostVariadicToTuple (va : Text) : PP Text := .ok [.paren va]

/-! ### detail/macros.hpp -/

/-- macros.hpp:20. -/
def STRINGIZE (arg : Text) : PP Text := call1 boostStringize [.text arg]

/-- macros.hpp:26. -/
def IF (cond : Nat) (then_ else_ : Text) : PP Text := call2 (boostIf cond) [.text then_, .text else_]

/-- macros.hpp:32. -/
def SEQ_SIZE (c : Cfg) (seq : Text) : PP Nat := call1 (boostSeqSize c) [.text seq]

/-- macros.hpp:35. -/
def SEQ_ELEM (i : Nat) (seq : Text) : PP Text := call1 (boostSeqElem i) [.text seq]

/-- macros.hpp:44-47 `KL_SEQ_LOOP_INVOKER2`.  `seq_macro_` is here the three elements that
`(arg_)(seq_)(body_)` is made of. -/
def SEQ_LOOP_INVOKER2 (arg seq : Text) (body : Text → Text → PP Text) (i : Nat) : PP Text := do
  let e ← call1 (SEQ_ELEM i) [.call seq]
  call2 body [.call arg, .call e]

/-- macros.hpp:39-41 `KL_SEQ_FOR_EACH2`; the elements of `(arg_)(seq_)(body_)` must be single
arguments. -/
def SEQ_FOR_EACH2 (c : Cfg) (arg seq : Text) (body : Text → Text → PP Text) : PP Text := do
  let n ← call1 (SEQ_SIZE c) [.text seq]
  call2 (fun arg seq => boostRepeat c n (SEQ_LOOP_INVOKER2 arg seq body)) [.text arg, .text seq]

/-- macros.hpp:50 `KL_ARG_TO_TUPLE`. -/
def ARG_TO_TUPLE (arg : Text) : PP Text := do
  let r ← call1 boostRemoveParens [.text arg]
  .ok [.paren r]

/-- macros.hpp:56 `KL_TUPLE_SIZE`. -/
def TUPLE_SIZE (c : Cfg) (tuple : Text) : PP Nat := call1 (boostTupleSize c) [.text tuple]

/-- macros.hpp:59 `KL_TUPLE_SIZE_MINUS_ONE`. -/
def TUPLE_SIZE_MINUS_ONE (c : Cfg) (tuple : Text) : PP Nat := do
  let n ← call1 (TUPLE_SIZE c) [.text tuple]
  .ok (boostDec n)

/-- macros.hpp:62 `KL_TUPLE_ELEM`. -/
def TUPLE_ELEM (c : Cfg) (i : Nat) (tuple : Text) : PP Text := call1 (boostTupleElem c i) [.text tuple]

/-- macros.hpp:65 `KL_TUPLE_POP_FRONT`. -/
def TUPLE_POP_FRONT (tuple : Text) : PP Text := call1 boostTuplePopFront [.text tuple]

/-- macros.hpp:102 `KL_TUPLE_PUSH_BACK`. -/
def TUPLE_PUSH_BACK (tuple arg : Text) : PP Text := call2 boostTuplePushBack [.text tuple, .text arg]

/-- macros.hpp:133-135 `KL_TUPLE_LOOP_INVOKER`; `tuple_macro_` is the pair of the tuple and the
body. -/
def TUPLE_LOOP_INVOKER (c : Cfg) (tuple : Text) (body : Text → PP Text) (i : Nat) : PP Text := do
  let e ← call1 (TUPLE_ELEM c i) [.call tuple]
  call1 body [.call e]

/-- macros.hpp:122-124 `KL_TUPLE_FOR_EACH`. -/
def TUPLE_FOR_EACH (c : Cfg) (tuple : Text) (body : Text → PP Text) : PP Text := do
  let n ← call1 (TUPLE_SIZE c) [.text tuple]
  call1 (fun tuple => boostRepeat c n (TUPLE_LOOP_INVOKER c tuple body)) [.text tuple]

/-- macros.hpp:138-141 `KL_TUPLE_LOOP_INVOKER2`. -/
def TUPLE_LOOP_INVOKER2 (c : Cfg) (arg tuple : Text) (body : Text → Text → PP Text) (i : Nat) :
    PP Text := do
  let e ← call1 (TUPLE_ELEM c i) [.call tuple]
  call2 body [.call arg, .call e]

/-- macros.hpp:128-130 `KL_TUPLE_FOR_EACH2`. -/
def TUPLE_FOR_EACH2 (c : Cfg) (arg tuple : Text) (body : Text → Text → PP Text) : PP Text := do
  let n ← call1 (TUPLE_SIZE c) [.text tuple]
  call2 (fun arg tuple => boostRepeat c n (TUPLE_LOOP_INVOKER2 c arg tuple body))
    [.text arg, .text tuple]

/-- macros.hpp:98-99 `KL_LAMBDA_WRAP_COMMA_ENTRY`. -/
def LAMBDA_WRAP_COMMA_ENTRY (arg : Text) : PP Text :=
  .ok ([.comma, .word "[", .word "]", .word "{", .word "return"] ++ arg ++ [.word ";", .word "}"])

/-- macros.hpp:95-96 `KL_TUPLE_ENUM_POP_FRONT_LAMBDA_COMMA_IMPL`. -/
def TUPLE_ENUM_POP_FRONT_LAMBDA_COMMA_IMPL (c : Cfg) (tuple : Text) : PP Text := do
  let t ← call1 TUPLE_POP_FRONT [.text tuple]
  call1 (fun t => TUPLE_FOR_EACH c t LAMBDA_WRAP_COMMA_ENTRY) [.call t]

/-- macros.hpp:90-93 `KL_TUPLE_ENUM_POP_FRONT_LAMBDA_COMMA`: the macro chosen by `KL_IF` is
called. -/
def TUPLE_ENUM_POP_FRONT_LAMBDA_COMMA (c : Cfg) (tuple : Text) : PP Text := do
  let n ← call1 (TUPLE_SIZE_MINUS_ONE c) [.text tuple]
  if n ≠ 0 then call1 (TUPLE_ENUM_POP_FRONT_LAMBDA_COMMA_IMPL c) [.text tuple]
  else call1 (fun _ => .ok []) [.text tuple]

/-- macros.hpp:115-117 `KL_TUPLE_EXTEND_BY_FIRST_IMPL`: both alternatives are expanded. -/
def TUPLE_EXTEND_BY_FIRST_IMPL (c : Cfg) (tuple : Text) : PP Text := do
  let n ← call1 (TUPLE_SIZE_MINUS_ONE c) [.text tuple]
  let e ← call1 (TUPLE_ELEM c 0) [.text tuple]
  let t ← call2 TUPLE_PUSH_BACK [.text tuple, .call e]
  call2 (IF n) [.text tuple, .call t]

/-- macros.hpp:107-108 `KL_TUPLE_EXTEND_BY_FIRST`. -/
def TUPLE_EXTEND_BY_FIRST (c : Cfg) (arg : Text) : PP Text := do
  let t ← call1 ARG_TO_TUPLE [.text arg]
  call1 (TUPLE_EXTEND_BY_FIRST_IMPL c) [.call t]

/-! ### reflect_enum.hpp -/

/-- Words of the fixed parts of an expansion. (reflect_enum.hpp:121-153, reflect_struct.hpp:120-213) -/
def ws (l : List String) : Text := l.map Tok.word

/-- reflect_enum.hpp:152-153 `KL_REFLECT_ENUM_REFLECTION_PAIR2`. -/
def REFLECTION_PAIR2 (c : Cfg) (name value : Text) : PP Text := do
  let v ← call1 (TUPLE_ELEM c 0) [.text value]
  let e ← call1 (TUPLE_ELEM c 1) [.text value]
  let s ← call1 STRINGIZE [.call e]
  .ok (ws ["{"] ++ name ++ ws ["::"] ++ v ++ [.comma] ++ s ++ ws ["}"] ++ [.comma])

/-- reflect_enum.hpp:147-148 `KL_REFLECT_ENUM_REFLECTION_PAIR`. -/
def REFLECTION_PAIR (c : Cfg) (name value : Text) : PP Text := do
  let t ← call1 (TUPLE_EXTEND_BY_FIRST c) [.text value]
  call2 (REFLECTION_PAIR2 c) [.text name, .call t]

/-- reflect_enum.hpp:144-145 `KL_REFLECT_ENUM_REFLECTION_PAIRS`. -/
def REFLECTION_PAIRS (c : Cfg) (name values : Text) : PP Text :=
  call2 (fun name values => SEQ_FOR_EACH2 c name values (REFLECTION_PAIR c))
    [.text name, .text values]

/-- reflect_enum.hpp:142 `KL_REFLECT_ENUM_NSNAME`. -/
def NSNAME (name : Text) : PP Text := call1 (boostCat "kl_reflect_") [.text name]

/-- reflect_enum.hpp:124-140 `KL_REFLECT_ENUM_SEQ`. -/
def REFLECT_ENUM_SEQ (c : Cfg) (name values : Text) : PP Text := do
  let ns ← call1 NSNAME [.text name]
  let pairs ← call2 (REFLECTION_PAIRS c) [.text name, .text values]
  let str ← call1 STRINGIZE [.text name]
  .ok (ws ["namespace"] ++ ns ++ ws ["{", "inline", "constexpr", "::kl::enum_reflection_pair", "<"] ++
    name ++ ws [">", "reflection_data", "[", "]", "=", "{"] ++ pairs ++ ws ["}", ";", "}"] ++
    ws ["[[maybe_unused]]", "constexpr", "auto", "reflect_enum"] ++
    [.paren (ws ["::kl::enum_class", "<"] ++ name ++ ws [">"])] ++
    ws ["noexcept", "{", "return", "::kl::enum_reflection_view", "{"] ++ ns ++
    ws ["::", "reflection_data", "}", ";", "}"] ++
    ws ["[[maybe_unused]]", "constexpr", "auto", "reflect_enum_unknown_name"] ++
    [.paren (ws ["::kl::enum_class", "<"] ++ name ++ ws [">"])] ++
    ws ["noexcept", "{", "return"] ++ [.quoted "unknown <"] ++ str ++ [.quoted ">"] ++
    ws [";", "}"])

/-- reflect_enum.hpp:121-122 `KL_REFLECT_ENUM`. -/
def REFLECT_ENUM (c : Cfg) (name va : Text) : PP Text := do
  let s ← boostVariadicToSeq c va
  call2 (REFLECT_ENUM_SEQ c) [.text name, .call s]

/-- A program that uses `KL_REFLECT_ENUM`: what it writes between the parentheses. (reflect_enum.hpp:121-122) -/
def useReflectEnum (c : Cfg) (t : Text) : PP Text :=
  match args t with
  | name :: va => REFLECT_ENUM c name (joinC va)
  | [] => .error .arity

/-- A program that uses `KL_REFLECT_ENUM_SEQ`. (reflect_enum.hpp:124-140) -/
def useReflectEnumSeq (c : Cfg) (t : Text) : PP Text := call2 (REFLECT_ENUM_SEQ c) [.text t]

/-! ### reflect_struct.hpp -/

/-- reflect_struct.hpp:197-200 `KL_REFLECT_STRUCT_VIS_MEMBER_TUPLE`. -/
def VIS_MEMBER_TUPLE (c : Cfg) (type field : Text) : PP Text := do
  let m ← call1 (TUPLE_ELEM c 0) [.text field]
  let s ← call1 STRINGIZE [.call m]
  let attrs ← call1 (TUPLE_ENUM_POP_FRONT_LAMBDA_COMMA c) [.text field]
  .ok (ws ["vis"] ++ [.paren (ws ["factory", ".", "template", "field", "<", "&"] ++ type ++
    ws ["::"] ++ m ++ ws [">"] ++ [.paren (s ++ attrs)])] ++ ws [";"])

/-- reflect_struct.hpp:194-195 `KL_REFLECT_STRUCT_VIS_MEMBER_IMPL`. -/
def VIS_MEMBER_IMPL (c : Cfg) (type field : Text) : PP Text :=
  call2 (VIS_MEMBER_TUPLE c) [.text type, .text field]

/-- reflect_struct.hpp:191-192 `KL_REFLECT_STRUCT_VIS_MEMBER`. -/
def VIS_MEMBER (c : Cfg) (type name : Text) : PP Text := do
  let t ← call1 ARG_TO_TUPLE [.text name]
  call2 (VIS_MEMBER_IMPL c) [.text type, .call t]

/-- reflect_struct.hpp:182-183 `KL_REFLECT_STRUCT_VIS_MEMBERS`. -/
def VIS_MEMBERS (c : Cfg) (type fields : Text) : PP Text :=
  call2 (fun type fields => TUPLE_FOR_EACH2 c type fields (VIS_MEMBER c)) [.text type, .text fields]

/-- reflect_struct.hpp:202-203 `KL_REFLECT_STRUCT_VIS_BASE`. -/
def VIS_BASE (base : Text) : PP Text :=
  .ok (ws ["reflect_struct_fields"] ++
    [.paren (ws ["factory"] ++ [.comma] ++ ws ["vis"] ++ [.comma] ++ ws ["::kl::ctti::record", "<"] ++
      base ++ ws [">"])] ++ ws [";"])

/-- reflect_struct.hpp:185-186 `KL_REFLECT_STRUCT_VIS_BASES`. -/
def VIS_BASES (c : Cfg) (bases : Text) : PP Text :=
  call1 (fun bases => TUPLE_FOR_EACH c bases VIS_BASE) [.text bases]

/-- reflect_struct.hpp:205-206 `KL_REFLECT_STRUCT_NUM_FIELDS`. -/
def NUM_FIELDS (base : Text) : PP Text :=
  .ok (ws ["reflect_num_fields"] ++ [.paren (ws ["::kl::ctti::record", "<"] ++ base ++ ws [">"])] ++
    ws ["+"])

/-- reflect_struct.hpp:188-189 `KL_REFLECT_STRUCT_NUM_BASE_FIELDS`. -/
def NUM_BASE_FIELDS (c : Cfg) (bases : Text) : PP Text :=
  call1 (fun bases => TUPLE_FOR_EACH c bases NUM_FIELDS) [.text bases]

/-- The two function definitions around what a macro has put together (reflect_struct.hpp:144-156,
166-180). -/
def functions (decl type body count : Text) : Text :=
  ws ["template", "<", "typename", "Factory"] ++ [.comma] ++ ws ["typename", "Visitor", ">"] ++ decl ++
    ws ["constexpr", "void", "reflect_struct_fields"] ++
    [.paren (ws ["Factory", "&&", "factory"] ++ [.comma] ++ ws ["Visitor", "&&", "vis"] ++ [.comma] ++
      ws ["::kl::ctti::record_class", "<"] ++ type ++ ws [">"])] ++
    ws ["{"] ++ body ++ ws ["}"] ++
    decl ++ ws ["constexpr", "std::size_t", "reflect_num_fields"] ++
    [.paren (ws ["::kl::ctti::record_class", "<"] ++ type ++ ws [">"])] ++
    ws ["noexcept", "{", "return"] ++ count ++ ws [";", "}"]

/-- The digits of a number. (reflect_struct.hpp:144-180: what `KL_TUPLE_SIZE` leaves) -/
def number (n : Nat) : Text := [.word (toString n)]

/-- reflect_struct.hpp:144-156 `KL_REFLECT_STRUCT_TUPLE_IMPL`. -/
def REFLECT_STRUCT_TUPLE_IMPL (c : Cfg) (decl type fields : Text) : PP Text := do
  let members ← call2 (VIS_MEMBERS c) [.text type, .text fields]
  let n ← call1 (TUPLE_SIZE c) [.text fields]
  .ok (functions decl type members (number n))

/-- reflect_struct.hpp:166-180 `KL_REFLECT_STRUCT_DERIVED_TUPLE_IMPL`. -/
def REFLECT_STRUCT_DERIVED_TUPLE_IMPL (c : Cfg) (decl type bases fields : Text) : PP Text := do
  let vb ← call1 (VIS_BASES c) [.text bases]
  let members ← call2 (VIS_MEMBERS c) [.text type, .text fields]
  let n ← call1 (TUPLE_SIZE c) [.text fields]
  let nb ← call1 (NUM_BASE_FIELDS c) [.text bases]
  .ok (functions decl type (vb ++ members) (number n ++ ws ["+"] ++ nb ++ ws ["0"]))

/-- reflect_struct.hpp:134-135: the word before the functions. -/
def NAMESPACE_DECL : Text := ws ["[[maybe_unused]]"]
/-- reflect_struct.hpp:134-135. -/
def FRIEND_DECL : Text := ws ["friend"]

/-- reflect_struct.hpp:137-142 `KL_REFLECT_STRUCT_TUPLE`, `KL_REFLECT_STRUCT_FRIEND_TUPLE`. -/
def REFLECT_STRUCT_TUPLE (c : Cfg) (isFriend : Bool) (type fields : Text) : PP Text :=
  call3 (REFLECT_STRUCT_TUPLE_IMPL c)
    [.call (if isFriend then FRIEND_DECL else NAMESPACE_DECL), .text type, .text fields]

/-- reflect_struct.hpp:120-124 `KL_REFLECT_STRUCT`, `KL_REFLECT_STRUCT_FRIEND`. -/
def REFLECT_STRUCT (c : Cfg) (isFriend : Bool) (type va : Text) : PP Text := do
  let t ← boostVariadicToTuple va
  call2 (REFLECT_STRUCT_TUPLE c isFriend) [.text type, .call t]

/-- reflect_struct.hpp:158-164 `KL_REFLECT_STRUCT_DERIVED_TUPLE`,
`KL_REFLECT_STRUCT_DERIVED_FRIEND_TUPLE`. -/
def REFLECT_STRUCT_DERIVED_TUPLE (c : Cfg) (isFriend : Bool) (type bases fields : Text) : PP Text :=
  call3 (REFLECT_STRUCT_DERIVED_TUPLE_IMPL c (if isFriend then FRIEND_DECL else NAMESPACE_DECL))
    [.text type, .text bases, .text fields]

/-- reflect_struct.hpp:126-132 `KL_REFLECT_STRUCT_DERIVED`, `KL_REFLECT_STRUCT_DERIVED_FRIEND`. -/
def REFLECT_STRUCT_DERIVED (c : Cfg) (isFriend : Bool) (type bases va : Text) : PP Text := do
  let b ← call1 ARG_TO_TUPLE [.text bases]
  let t ← boostVariadicToTuple va
  call3 (REFLECT_STRUCT_DERIVED_TUPLE c isFriend) [.text type, .call b, .call t]

/-- A program that uses `KL_REFLECT_STRUCT` or `KL_REFLECT_STRUCT_FRIEND`. (reflect_struct.hpp:120-124) -/
def useReflectStruct (c : Cfg) (isFriend : Bool) (t : Text) : PP Text :=
  match args t with
  | type :: va => REFLECT_STRUCT c isFriend type (joinC va)
  | [] => .error .arity

/-- A program that uses `KL_REFLECT_STRUCT_DERIVED` or `KL_REFLECT_STRUCT_DERIVED_FRIEND`.
(reflect_struct.hpp:126-132) -/
def useReflectDerived (c : Cfg) (isFriend : Bool) (t : Text) : PP Text :=
  match args t with
  | type :: bases :: va => REFLECT_STRUCT_DERIVED c isFriend type bases (joinC va)
  | _ => .error .arity

/-- reflect_struct.hpp:211-213 `KL_ACCESSOR_FIELD_NAMED`. -/
def ACCESSOR_FIELD_NAMED (name expression : Text) : PP Text :=
  .ok (ws ["factory", ".", "accessor"] ++ [.paren (name ++ [.comma] ++ ws ["[", "]"] ++
    [.paren (ws ["auto", "&", "object"])] ++ ws ["->", "decltype"] ++ [.paren (ws ["auto"])] ++
    ws ["{", "return"] ++ [.paren expression] ++ ws [";", "}"])])

/-- reflect_struct.hpp:208-209 `KL_ACCESSOR_FIELD`. -/
def ACCESSOR_FIELD (name : Text) : PP Text := do
  let s ← call1 STRINGIZE [.text name]
  call2 ACCESSOR_FIELD_NAMED [.call s, .text (ws ["object", "."] ++ name)]

end Verif.Macros
