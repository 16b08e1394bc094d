import Verif.Model.TextParser
import Verif.Spec.LineForms
import Verif.Spec.Blocks

/-!
# Specification: texts whose parsing ends, and texts without foreign errors

A text is parsed by parsing the texts inside the arguments of its macros. Apart from these, the macro `ifeval` and aliases bring in the values of
variables. A text is tame if following such mentions of variables from text to text comes to an end.
-/

namespace Mau.Spec

/-- `x` occurs in `t`: as a contiguous piece or, in a text with backslashes (which may be removed) or with several lines (which are joined), at least with
its characters in order. -/
def MayOccur (x t : Str) : Prop := x.Sublist t ∧ ('\\' ∉ t → '\n' ∉ t → x <:+: t)

/-- The text has an opening bracket and an opening parenthesis, as every macro has. -/
def Brackets (t : Str) : Prop := '[' ∈ t ∧ '(' ∈ t

/-- The text does not lead to itself: if it contains the macro `ifeval`, the values of the variables it names are tame; if it contains an alias, the values of
aliases are. (A value without an opening bracket or without an opening parenthesis has no macros.) -/
inductive Tame (env : Env) : Str → Prop where
  | mk {t : Str}
      (eval : MayOccur c%"[ifeval:" t → ∀ k v, (k, .str v) ∈ env → (MayOccur k t ∨ '@' ∈ t) → Brackets v → Tame env v)
      (alias : '@' ∈ t → ∀ k v, (c%"mau.parser.aliases." ++ k, .str v) ∈ env → Brackets v → Tame env v) : Tame env t

/-- The variable is not a text: it is the name of a namespace (`a` if there are variables `a.b`), or its value is a list, a dictionary, a number etc. -/
def NotText (env : Env) (k : Str) : Prop := (∃ e, Env.get env k = .namespace e) ∨ ∃ v, Env.get env k = .value v ∧ ∀ t, v ≠ .str t

/-- The text has no aliases, no macros with an empty condition, and does not evaluate variables that are not texts. -/
structure Careful (env : Env) (t : Str) : Prop where
  alias : '@' ∉ t
  condition : ¬ (MayOccur c%"[if" t ∧ MayOccur c%":](" t)
  eval : MayOccur c%"[ifeval:" t → ∀ k, NotText env k → ¬ MayOccur k t

/-! ## Documents -/

/-- No variable contains an opening parenthesis (so no macro is in a variable). -/
def PlainVariables (env : Env) : Prop := ∀ k v, (k, v) ∈ env → '(' ∉ v.pyStr

/-- If the line defines a variable, its value is on the same line (or it sets a flag, `:+name:` or `:-name:`), and contains no opening parenthesis. -/
def PlainDefinition (l : Str) : Prop :=
  ∀ name value, l = ':' :: (name ++ ':' :: value) → (∀ c ∈ name, isVarChar c = true) →
    name.head? = some '+' ∨ name.head? = some '-' ∨ value ≠ [] ∧ '(' ∉ value

/-- The line includes a Mau file: `<< mau`, with or without arguments. -/
def IncludesMau (l : Str) : Prop := ∃ sp r, l = '<' :: '<' :: (sp ++ c%"mau" ++ r) ∧ Spaces sp ∧ NoHead isIncludeChar r

/-- The line does not hand a text with an opening parenthesis to an included file: neither as arguments after `<< mau:` nor as an argument line before. -/
structure PlainCall (l : Str) : Prop where
  boxed : ∀ a, l = '[' :: (a ++ [']']) → '(' ∉ a
  inline : IncludesMau l → '(' ∉ l ∧ ∀ r, l ≠ r ++ [':']

/-- No Mau file is included by a line inside a block. -/
inductive IncludesOutside : List Str → Prop where
  | nil : IncludesOutside []
  /-- a comment -/
  | comment {cs rest : List Str} (h : c%"////" ∉ cs) (hr : IncludesOutside rest) : IncludesOutside (c%"////" :: (cs ++ c%"////" :: rest))
  /-- a block -/
  | block {ch : Char} {cs rest : List Str} (h : Delimits ch cs) (hc : ∀ l ∈ cs, ¬ IncludesMau l) (hr : IncludesOutside rest) :
      IncludesOutside (blockLines ch cs ++ rest)
  /-- another line -/
  | line {l : Str} {rest : List Str} (h : ∀ ch, l ≠ [ch, ch, ch, ch]) (hr : IncludesOutside rest) : IncludesOutside (l :: rest)
  /-- four spaces are an empty line -/
  | spaces {rest : List Str} (hr : IncludesOutside rest) : IncludesOutside ([' ', ' ', ' ', ' '] :: rest)
  /-- a comment or block without end (which is an error) -/
  | unclosed {ch : Char} {rest : List Str} (h1 : ch ≠ ' ') (h2 : [ch, ch, ch, ch] ∉ rest) : IncludesOutside ([ch, ch, ch, ch] :: rest)

/-- A document, given as lines, without loops: no macros in variables, and no files included by blocks. -/
structure Loopless (ls : List Str) : Prop where
  definitions : ∀ l ∈ ls, PlainDefinition l
  includes : (∀ l ∈ ls, ¬ IncludesMau l) ∨ IncludesOutside ls ∧ ∀ l ∈ ls, PlainCall l

end Mau.Spec
