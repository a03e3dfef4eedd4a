import Verif.Macros.Model
/-
What the reflection macros are documented to expand to (reflect_enum.hpp:11-60,
reflect_struct.hpp:9-70), and how their arguments may be written.
-/
namespace Verif.Macros.Spec
open Verif.Macros

/-- A text that is one argument: no comma outside parentheses, no whitespace around it. -/
def Clean (t : Text) : Prop := Tok.comma ∉ t ∧ t.head? ≠ some .sp ∧ t.getLast? ≠ some .sp

/-- `t` is `a` with whitespace around it. -/
def Padded (t a : Text) : Prop :=
  Clean a ∧ ∃ m n, t = List.replicate m .sp ++ a ++ List.replicate n .sp

/-- `t` is the list `as`, written with commas between the elements. -/
inductive Written : Text → List Text → Prop
  | one {t a} : Padded t a → Written t [a]
  | more {t u a as} : Padded t a → Written u as → Written (t ++ .comma :: u) (a :: as)

/-- Words, side by side or with whitespace between them, and how they read. -/
inductive Reads : Text → String → Prop
  | word (w : String) : Reads [.word w] w
  | beside {t s} (w : String) : Reads t s → Reads (.word w :: t) (w ++ s)
  | apart {t s} (w : String) (k : Nat) : Reads t s →
      Reads (.word w :: (List.replicate (k + 1) .sp ++ t)) (w ++ " " ++ s)

/-- The ways to write an enumerator `v` that is called `s` (reflect_enum.hpp:24-26): its name, its
name in parentheses, or the pair of both.  What follows in the parentheses is not used. -/
inductive Enumerator (lim : Nat) : Text → String × String → Prop
  | plain (v : String) : Enumerator lim [.word v] (v, v)
  | wrapped {l} {v : String} : Written l [[.word v]] → Enumerator lim [.paren l] (v, v)
  | named {l n more} {v s : String} : Written l ([.word v] :: n :: more) → Reads n s →
      more.length + 2 ≤ lim → Enumerator lim [.paren l] (v, s)

inductive Enumerators (lim : Nat) : List Text → List (String × String) → Prop
  | nil : Enumerators lim [] []
  | cons {e es p ps} : Enumerator lim e p → Enumerators lim es ps →
      Enumerators lim (e :: es) (p :: ps)

/-- reflect_enum.hpp:38-43: the table. -/
def table (name : String) (ps : List (String × String)) : Text :=
  ps.flatMap fun p => [.word "{", .word name, .word "::", .word p.1, .comma, .quoted p.2, .word "}",
    .comma]

/-- reflect_enum.hpp:36-48: the expansion. -/
def enumText (name : String) (ps : List (String × String)) : Text :=
  ws ["namespace", "kl_reflect_" ++ name, "{",
      "inline", "constexpr", "::kl::enum_reflection_pair", "<", name, ">", "reflection_data", "[", "]", "=", "{"] ++
    table name ps ++ ws ["}", ";", "}"] ++
  ws ["[[maybe_unused]]", "constexpr", "auto", "reflect_enum"] ++
    [.paren (ws ["::kl::enum_class", "<", name, ">"])] ++
    ws ["noexcept", "{", "return", "::kl::enum_reflection_view", "{", "kl_reflect_" ++ name, "::",
      "reflection_data", "}", ";", "}"] ++
  ws ["[[maybe_unused]]", "constexpr", "auto", "reflect_enum_unknown_name"] ++
    [.paren (ws ["::kl::enum_class", "<", name, ">"])] ++
    ws ["noexcept", "{", "return"] ++ [.quoted "unknown <", .quoted name, .quoted ">"] ++ ws [";", "}"]

/-- The elements in parentheses one after the other. -/
inductive Sequence : Text → List Text → Prop
  | nil (k : Nat) : Sequence (List.replicate k .sp) []
  | cons {t l a as} (k : Nat) : Padded l a → Sequence t as →
      Sequence (List.replicate k .sp ++ .paren l :: t) (a :: as)

/-- The ways to write a field `m` with attributes (reflect_struct.hpp:37-41). -/
inductive Field (lim : Nat) : Text → String × List Text → Prop
  | plain (m : String) : Field lim [.word m] (m, [])
  | tuple {l attrs} {m : String} : Written l ([.word m] :: attrs) → attrs.length + 1 ≤ lim →
      Field lim [.paren l] (m, attrs)

inductive Fields (lim : Nat) : List Text → List (String × List Text) → Prop
  | nil : Fields lim [] []
  | cons {e es f fs} : Field lim e f → Fields lim es fs → Fields lim (e :: es) (f :: fs)

/-- The ways to write the bases (reflect_struct.hpp:74-76): one, or a tuple of them. -/
inductive Bases (lim : Nat) : Text → List Text → Prop
  | one {b} : Clean b → (∀ l rest, b ≠ .paren l :: rest) → b ≠ [] → Bases lim b [b]
  | tuple {l bs} : Written l bs → bs.length ≤ lim → (∀ b ∈ bs, b ≠ []) → Bases lim [.paren l] bs

/-- reflect_struct.hpp:51-53: the visit of one field, each attribute in a lambda of its own
(macros.hpp:86-89). -/
def visit (type : Text) (f : String × List Text) : Text :=
  [.word "vis", .paren (ws ["factory", ".", "template", "field", "<", "&"] ++ type ++ ws ["::", f.1, ">"] ++
    [.paren (.quoted f.1 :: f.2.flatMap fun a =>
      [.comma, .word "[", .word "]", .word "{", .word "return"] ++ a ++ [.word ";", .word "}"])]), .word ";"]

/-- reflect_struct.hpp:66: the visit of a base. -/
def visitBase (b : Text) : Text :=
  [.word "reflect_struct_fields", .paren (.word "factory" :: .comma :: .word "vis" :: .comma ::
    .word "::kl::ctti::record" :: .word "<" :: (b ++ [.word ">"])), .word ";"]

/-- reflect_struct.hpp:73: the number of fields of a base, to be added. -/
def countBase (b : Text) : Text :=
  [.word "reflect_num_fields", .paren (.word "::kl::ctti::record" :: .word "<" :: (b ++ [.word ">"])),
    .word "+"]

/-- reflect_struct.hpp:48-74: both functions, as members (`friend`) or in the namespace. -/
def structText (isFriend : Bool) (type body count : Text) : Text :=
  let decl := if isFriend then "friend" else "[[maybe_unused]]"
  ws ["template", "<", "typename", "Factory"] ++ [.comma] ++
    ws ["typename", "Visitor", ">", decl, "constexpr", "void", "reflect_struct_fields"] ++
    [.paren (ws ["Factory", "&&", "factory"] ++ [.comma] ++ ws ["Visitor", "&&", "vis"] ++ [.comma] ++
      ws ["::kl::ctti::record_class", "<"] ++ type ++ ws [">"])] ++
    ws ["{"] ++ body ++ ws ["}"] ++
  ws [decl, "constexpr", "std::size_t", "reflect_num_fields"] ++
    [.paren (ws ["::kl::ctti::record_class", "<"] ++ type ++ ws [">"])] ++
    ws ["noexcept", "{", "return"] ++ count ++ ws [";", "}"]

end Verif.Macros.Spec
