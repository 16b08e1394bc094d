import Verif.Spec.Nodes
import Verif.Spec.Environment

/-!
# Specification of includes of Mau files

Which arguments of the include line name the file, which variables the file gets, and which chains of
includes are allowed.
-/

namespace Mau.Spec

/-- The line includes a Mau file, in the state `s`, with the arguments `a`: either `<< mau` with the pending arguments, or
`<< mau:arguments` with no pending arguments. -/
inductive MauLine (P : Parser) (s : DocSt) (ln col : Nat) : Str → NodeArgs → Prop where
  | pending {l sp : Str} (hl : SpecialLine l [.tok .INCLUDE c%"<<", .skip sp, .tok .TEXT c%"mau"]) : MauLine P s ln col l (args s)
  | own {l sp v : Str} {p : ParsedArgs} (hl : SpecialLine l [.tok .INCLUDE c%"<<", .skip sp, .tok .TEXT c%"mau", .tok .LITERAL [':'], .tok .TEXT v])
      (hb : s.argsBuf = none) (ha : processArgumentsWithVariables s.env (tokAt .TEXT v ln (col + 2 + sp.length + 3 + 1) P.src) = .ok p) :
      MauLine P s ln col l p.arguments

/-- The file the arguments name: the argument `uri`, or else the first positional value. -/
def Names (a : NodeArgs) (u : Str) : Prop :=
  Dict.get? a.named c%"uri" = some u ∨ (Dict.get? a.named c%"uri" = none ∧ a.unnamed.head? = some u)

/-- The include passes the variable `k` with the value `v`: there is an argument `call:k=v`. -/
def Passes (a : NodeArgs) (k v : Str) : Prop := Dict.get? a.named (c%"call:" ++ k) = some v

/-- The variables of the includer are passed on: there is no argument `pass_environment`, or it is `true`. -/
def HandsOver (a : NodeArgs) : Prop :=
  ∀ v, Dict.get? a.named c%"pass_environment" = some v → v = c%"true"

/-- The variables the parser defines itself, unless they are configured. -/
def builtin (k : Str) : Option Val :=
  if k = c%"mau.parser.source_highlight_style_aliases.+" then some (.str c%"add")
  else if k = c%"mau.parser.source_highlight_style_aliases.-" then some (.str c%"remove")
  else if k = c%"mau.parser.source_highlight_style_aliases.!" then some (.str c%"important")
  else if k = c%"mau.parser.source_highlight_style_aliases.x" then some (.str c%"error")
  else if k = c%"mau.parser.aliases.source.args.engine" then some (.str c%"source")
  else if k = c%"mau.parser.aliases.source.names" then some (.list [c%"language"] c%"['language']")
  else none

/-- The variables an included file starts with: those passed by the include, then those of the includer (if handed over), then those the
parser defines. -/
structure Sees (outer : Env) (a : NodeArgs) (inner : Env) : Prop where
  passed : ∀ k v, Passes a k v → Dict.get? inner k = some (.str v)
  handed : HandsOver a → ∀ k, (∀ v, ¬ Passes a k v) → Dict.get? inner k = (Dict.get? outer k).or (builtin k)
  fresh : ¬ HandsOver a → ∀ k, (∀ v, ¬ Passes a k v) → Dict.get? inner k = builtin k

/-- Names of variables that can be handed over: none starts with a dot and none is, followed by a dot, the beginning of another one. -/
def Separate (env : Env) : Prop :=
  (∀ k ∈ env.keys, k.head? ≠ some '.') ∧ ∀ p ∈ env.keys, ∀ q ∈ env.keys, ¬ DottedPrefix p q

/-- `Once seen calls`: a sequence of include calls in which no file is included that was `seen` before; the files seen are those given, and the
callers and callees of all earlier calls. -/
inductive Once : List (Option Str) → List IncludeCall → Prop where
  | nil {seen : List (Option Str)} : Once seen []
  | cons {seen : List (Option Str)} {c : IncludeCall} {cs : List IncludeCall} (h1 : some c.callee ≠ c.caller) (h2 : some c.callee ∉ seen)
      (h : Once (c.caller :: some c.callee :: seen) cs) : Once seen (c :: cs)

/-- `From known calls`: every include line stands in one of the files `known`, or in a file included by an earlier call. -/
inductive From : List (Option Str) → List IncludeCall → Prop where
  | nil {known : List (Option Str)} : From known []
  | cons {known : List (Option Str)} {c : IncludeCall} {cs : List IncludeCall} (h1 : c.caller ∈ known) (h : From (some c.callee :: known) cs) : From known (c :: cs)

/-! ## Other includes -/

/-- The line includes something of the type `ty`, in the state `s`, with the arguments `a`: either `<< ty` with the pending arguments, or
`<< ty:arguments` with no pending arguments. -/
inductive IncludeLine (P : Parser) (s : DocSt) (ln col : Nat) (ty : Str) : Str → NodeArgs → Prop where
  | pending {l sp : Str} (hl : SpecialLine l [.tok .INCLUDE c%"<<", .skip sp, .tok .TEXT ty]) : IncludeLine P s ln col ty l (args s)
  | own {l sp v : Str} {p : ParsedArgs} (hl : SpecialLine l [.tok .INCLUDE c%"<<", .skip sp, .tok .TEXT ty, .tok .LITERAL [':'], .tok .TEXT v])
      (hb : s.argsBuf = none) (ha : processArgumentsWithVariables s.env (tokAt .TEXT v ln (col + 2 + sp.length + ty.length + 1) P.src) = .ok p) :
      IncludeLine P s ln col ty l p.arguments

/-- The position of something that begins at this place, on one line. -/
def PointsAt (src : Option Str) (ln col : Nat) (c : Context) : Prop :=
  c.source = src ∧ c.startLine = ln ∧ c.endLine = ln ∧ c.startColumn = col

/-- The value of the parameter `n`, one of `names`: the argument of that name or else, as the positional values are given in order to the names that are not
used, the positional value in its place. -/
def given (a : NodeArgs) (names : List Str) (n : Str) : Option Str :=
  match Dict.get? a.named n with
  | some v => some v
  | none => a.unnamed[(names.filter fun m => (Dict.get? a.named m).isNone).idxOf n]?

/-- The arguments `b` are what is left of the arguments `a` once the parameters `names` are taken from them: the named values with other names,
the positional values that were not needed for a parameter, and all tags. -/
structure Unused (a : NodeArgs) (names : List Str) (b : NodeArgs) : Prop where
  unnamed : b.unnamed = a.unnamed.drop (names.filter fun m => (Dict.get? a.named m).isNone).length
  named : ∀ k, Dict.get? b.named k = if k ∈ names then none else Dict.get? a.named k
  tags : b.tags = a.tags
  internalTags : b.internalTags = a.internalTags
  subtype : b.subtype = a.subtype

end Mau.Spec
