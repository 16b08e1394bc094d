import Verif.Spec.Lists
import Verif.Spec.Termination
import Verif.Spec.Arguments
import Verif.Spec.Environment

/-!
# Specification: well-formed documents

`Sound` is a grammar of documents. Every construct of the language is in it; what is left out are the lines which make the parser fail with
an exception of Python instead of a Mau error: headers and list items that may show nothing, conditions that may be empty, starts of lists that are
not numbers, half-written definitions and includes, and variables that change the settings of the parser.
-/

namespace Mau.Spec

/-- The text has no macros (even after the values of variables without parentheses are filled in), or it has no references to variables, no control
macros with an empty condition and no macro `ifeval`. -/
def SafeText (t : Str) : Prop :=
  '(' ∉ t ∨ ('{' ∉ t ∧ ¬ (MayOccur c%"[if" t ∧ MayOccur c%":](" t) ∧ ¬ MayOccur c%"[ifeval:" t)

/-- The text starts with something that can be seen: not with a space, a backslash, a reference to a variable or a macro. -/
def Visible (t : Str) : Prop := ∃ c r, t = c :: r ∧ c ≠ ' ' ∧ c ≠ '\\' ∧ c ≠ '{' ∧ c ≠ '['

/-- The names of the variables (not the settings of the parser) and of the Mau files of a project. -/
structure Project where
  names : Str → Prop
  user : ∀ k, names k → ¬ c%"mau.parser." <+: k
  files : Str → Prop

/-- No variable is a namespace of another one, or of the settings of the parser. -/
structure Project.Apart (V : Project) : Prop where
  free : ∀ a b, V.names a → V.names b → ¬ DottedPrefix a b
  dot : ∀ a, V.names a → ∃ c r, a = c :: r ∧ c ≠ '.'
  mau : ¬ V.names c%"mau"
  parser : ¬ V.names c%"mau.parser"

/-- The variable that is defined by a definition with this name: `x`, `+x` and `-x` define `x`. -/
def declared : Str → Str
  | '+' :: r => r
  | '-' :: r => r
  | name => name

/-- Arguments written out in the line, without the arguments that must have a certain form. -/
structure SafeArgs (a : Str) : Prop where
  written : '{' ∉ a
  start : ¬ MayOccur c%"start" a
  delimiter : ¬ MayOccur c%"marker_delimiter" a

/-- The text is read as it is: no references to variables, escapes and backticks. -/
def Literal (t : Str) : Prop := ∀ c ∈ t, c ≠ '{' ∧ c ≠ '}' ∧ c ≠ '\\' ∧ c ≠ '`'

/-- A start of lists: `auto`, or some digits. -/
def IsStart (v : Str) : Prop := v = c%"auto" ∨ v ≠ [] ∧ ∀ c ∈ v, '0' ≤ c ∧ c ≤ '9'

/-- The arguments `as`, among which the start of lists and the delimiter of markers have the form they must have. -/
structure GoodArgs (as : List Arg) : Prop where
  start : ∀ v, (c%"start", v) ∈ keyed as → IsStart v
  delimiter : (c%"marker_delimiter", []) ∉ keyed as

/-- Arguments of a block that is not made of Mau text: `engine=...`, or the alias `@source`. -/
inductive CodeArgs : Str → Prop where
  | engine {a v : Str} {as : List Arg} (h : PlainArgs a as) (hl : Literal a) (hg : GoodArgs as) (he : (c%"engine", v) ∈ keyed as) (hv : v ≠ c%"default") :
      CodeArgs a
  | source {a : Str} {as : List Arg} (hw : WritesAll (.pos c%"@source" :: as) a) (hf : PositionalFirst as) (hk : ((keyed as).map (·.1)).Nodup)
      (hp : ∀ v ∈ positional as, v.head? ≠ some '#' ∧ v.head? ≠ some '*' ∧ v.head? ≠ some '@') (hl : Literal a) (hg : GoodArgs as)
      (he : ∀ v, (c%"engine", v) ∉ keyed as) : CodeArgs a

/-- Arguments of an include of a Mau file of the project; those for the file (`call:name=value`) set variables of the document, without macros. -/
structure CallArgs (V : Project) (a : Str) (as : List Arg) : Prop where
  plain : PlainArgs a as
  literal : Literal a
  file : ∀ u, (positional as).head? = some u ∨ (c%"uri", u) ∈ keyed as → V.files u
  call : ∀ x v, (c%"call:" ++ x, v) ∈ keyed as → V.names x ∧ '(' ∉ v

/-- Arguments of an include of a block group: the group is given. -/
structure GroupArgs (a : Str) (as : List Arg) : Prop where
  plain : PlainArgs a as
  literal : Literal a
  group : positional as ≠ [] ∨ ∃ v, (c%"group", v) ∈ keyed as

/-- Well-formed documents with variables of the project `V`. -/
inductive Sound (V : Project) : List Str → Prop where
  | nil : Sound V []
  /-- an empty line -/
  | blank {l : Str} {rest : List Str} (h : Spaces l) (hr : Sound V rest) : Sound V (l :: rest)
  /-- a line with a comment -/
  | comment {l : Str} {rest : List Str} (h : SpecialLine l []) (hr : Sound V rest) : Sound V (l :: rest)
  /-- a comment of several lines, with any content -/
  | comments {cs rest : List Str} (h : c%"////" ∉ cs) (hr : Sound V rest) : Sound V (c%"////" :: (cs ++ c%"////" :: rest))
  /-- a horizontal rule -/
  | rule {rest : List Str} (hr : Sound V rest) : Sound V (c%"---" :: rest)
  /-- a label -/
  | label {l role sp t : Str} {rest : List Str} (h : SpecialLine l [.tok .LABEL ('.' :: role), .skip sp, .tok .TEXT t]) (ht : SafeText t)
      (hr : Sound V rest) : Sound V (l :: rest)
  /-- a definition `:name:value` -/
  | define {l name v : Str} {rest : List Str} (h : SpecialLine l [.tok .VARIABLE [':'], .tok .TEXT name, .tok .LITERAL [':'], .tok .TEXT v])
      (hu : V.names (declared name)) (hv : '(' ∉ v) (hr : Sound V rest) : Sound V (l :: rest)
  /-- a definition without a value, `:+name:` or `:-name:`; a text must not follow -/
  | flag {l name : Str} {rest : List Str} (h : SpecialLine l [.tok .VARIABLE [':'], .tok .TEXT name, .tok .LITERAL [':']]) (hu : V.names (declared name))
      (hn : NoText rest) (hr : Sound V rest) : Sound V (l :: rest)
  /-- a control `@if condition`, the condition being written out -/
  | control {l op sp t : Str} {rest : List Str} (h : SpecialLine l [.tok .CONTROL ['@'], .tok .TEXT op, .skip sp, .tok .TEXT t])
      (ht : t ≠ []) (hp : Literal t) (hr : Sound V rest) : Sound V (l :: rest)
  /-- arguments, none of which is one that must have a certain form -/
  | arguments {a : Str} {rest : List Str} (h : SafeArgs a) (hr : Sound V rest) : Sound V (('[' :: (a ++ [']'])) :: rest)
  /-- arguments in a form known to be read correctly (C22) -/
  | plainArguments {a : Str} {as : List Arg} {rest : List Str} (h : PlainArgs a as) (hl : Literal a) (hg : GoodArgs as) (hr : Sound V rest) :
      Sound V (('[' :: (a ++ [']'])) :: rest)
  /-- a raw block or a source block, with any content -/
  | code {a : Str} {ch : Char} {cs rest : List Str} (ha : CodeArgs a) (h : Delimits ch cs) (hr : Sound V rest) :
      Sound V (('[' :: (a ++ [']'])) :: (blockLines ch cs ++ rest))
  /-- a header -/
  | header {l signs sp t : Str} {rest : List Str} (h : SpecialLine l [.tok .HEADER signs, .skip sp, .tok .TEXT t]) (ht : SafeText t)
      (hv : Visible t) (hr : Sound V rest) : Sound V (l :: rest)
  /-- a paragraph -/
  | paragraph {ls rest : List Str} (h : ∀ l ∈ ls, TextLine l ∧ SafeText l) (hne : ls ≠ []) (hn : NoText rest) (hr : Sound V rest) : Sound V (ls ++ rest)
  /-- a list -/
  | list {i : ItemLine} {is : List ItemLine} {rest : List Str} (h : ∀ j ∈ i :: is, j.Ok ∧ i.mark.length ≤ j.mark.length)
      (ht : ∀ j ∈ i :: is, SafeText j.text ∧ Visible j.text) (ha : AfterList i.mark.length rest) (hr : Sound V rest) :
      Sound V ((i :: is).map (·.line) ++ rest)
  /-- a block -/
  | block {ch : Char} {cs rest : List Str} (h : Delimits ch cs) (hc : Sound V cs) (hr : Sound V rest) : Sound V (blockLines ch cs ++ rest)
  /-- a comment or block without end -/
  | unclosed {ch : Char} {rest : List Str} (h1 : ch ≠ ' ') (h2 : [ch, ch, ch, ch] ∉ rest) : Sound V ([ch, ch, ch, ch] :: rest)
  /-- an include of something that is not a Mau file, with the arguments of the lines before (or none) -/
  | include {l sp ty : Str} {rest : List Str} (h : SpecialLine l [.tok .INCLUDE c%"<<", .skip sp, .tok .TEXT ty]) (h1 : ty ≠ c%"mau")
      (h2 : ty ≠ c%"blockgroup") (hr : Sound V rest) : Sound V (l :: rest)
  /-- the same, with any arguments after a colon -/
  | includeArgs {l sp ty a : Str} {rest : List Str}
      (h : SpecialLine l [.tok .INCLUDE c%"<<", .skip sp, .tok .TEXT ty, .tok .LITERAL [':'], .tok .TEXT a]) (h1 : ty ≠ c%"mau")
      (h2 : ty ≠ c%"blockgroup") (hr : Sound V rest) : Sound V (l :: rest)
  /-- an include of a Mau file -/
  | includeMau {l sp a : Str} {as : List Arg} {rest : List Str}
      (h : SpecialLine l [.tok .INCLUDE c%"<<", .skip sp, .tok .TEXT c%"mau", .tok .LITERAL [':'], .tok .TEXT a]) (hv : V.Apart) (ha : CallArgs V a as)
      (hr : Sound V rest) : Sound V (l :: rest)
  /-- the same, with the arguments on the line before -/
  | includeMauArgs {l sp a : Str} {as : List Arg} {rest : List Str} (h : SpecialLine l [.tok .INCLUDE c%"<<", .skip sp, .tok .TEXT c%"mau"]) (hv : V.Apart)
      (ha : CallArgs V a as) (hr : Sound V rest) : Sound V (('[' :: (a ++ [']'])) :: l :: rest)
  /-- an include of a block group -/
  | includeGroup {l sp a : Str} {as : List Arg} {rest : List Str}
      (h : SpecialLine l [.tok .INCLUDE c%"<<", .skip sp, .tok .TEXT c%"blockgroup", .tok .LITERAL [':'], .tok .TEXT a]) (ha : GroupArgs a as)
      (hr : Sound V rest) : Sound V (l :: rest)
  /-- the same, with the arguments on the line before -/
  | includeGroupArgs {l sp a : Str} {as : List Arg} {rest : List Str} (h : SpecialLine l [.tok .INCLUDE c%"<<", .skip sp, .tok .TEXT c%"blockgroup"])
      (ha : GroupArgs a as) (hr : Sound V rest) : Sound V (('[' :: (a ++ [']'])) :: l :: rest)

end Mau.Spec
