import Verif.Spec.Environment
import Verif.Spec.Arguments

/-!
# Specification of aliases

An alias is defined by configuration variables: `mau.parser.aliases.NAME.args.KEY` are the values of named arguments,
`mau.parser.aliases.NAME.names` is the list of names of positional arguments, `mau.parser.aliases.NAME.subtype` the subtype.
-/

namespace Mau.Spec

/-- The variable `mau.parser.aliases.NAME.REST`. -/
def aliasSetting (env : Env) (name rest : Str) : Option Val :=
  Dict.get? env (c%"mau.parser.aliases." ++ name ++ c%"." ++ rest)

/-- The settings of aliases can be seen as a nested configuration: `mau.parser.aliases` is not a variable itself, and no
setting of an alias is a dotted prefix of another one (as `x.args` is of `x.args.k`). -/
structure AliasSettings (env : Env) : Prop where
  distinct : Dict.Distinct env
  free : Dict.get? env c%"mau.parser.aliases" = none
  apart : ∀ a b, c%"mau.parser.aliases." ++ a ∈ Dict.keys env → c%"mau.parser.aliases." ++ b ∈ Dict.keys env → ¬ DottedPrefix a b

/-- The variables define the alias `name` with these arguments, names and subtype. -/
structure DefinesAlias (env : Env) (name : Str) (args : Dict Str) (names : List Str) (subtype : Option Str) : Prop
    extends AliasSettings env where
  plain : '.' ∉ name
  found : ∃ rest, aliasSetting env name rest ≠ none
  /-- the arguments are the settings below `args`, all of them texts -/
  values : ∀ k, aliasSetting env name (c%"args." ++ k) = (Dict.get? args k).map .str
  flat : ∀ k, aliasSetting env name (c%"args." ++ k) ≠ none → '.' ∉ k
  noArgs : aliasSetting env name c%"args" = none
  /-- the names are a list, or not defined -/
  order : (aliasSetting env name c%"names" = none ∧ names = []) ∨ ∃ r, aliasSetting env name c%"names" = some (.list names r)
  noNames : ∀ k, aliasSetting env name (c%"names." ++ k) = none
  /-- the subtype is a text that is not empty, or not defined -/
  kind : aliasSetting env name c%"subtype" = subtype.map .str
  nonempty : subtype ≠ some []
  noSubtype : ∀ k, aliasSetting env name (c%"subtype." ++ k) = none

/-- There is no alias `name`: no setting belongs to it. -/
structure NoAlias (env : Env) (name : Str) : Prop extends AliasSettings env where
  absent : Dict.get? env (c%"mau.parser.aliases." ++ name) = none
  plain : '.' ∉ name
  none : ∀ rest, aliasSetting env name rest = .none

/-- The positional values without a mark. -/
def unmarked (vs : List Str) : List Str := vs.filter fun v => v.head? ≠ some '#' && v.head? ≠ some '*' && v.head? ≠ some '@'

/-- The names of an alias that are free for positional values: given neither by key nor by the alias. -/
def freeNames (as : List Arg) (args : Dict Str) (names : List Str) : List Str :=
  names.filter fun n => ((keyed as).lookup n).isNone && (Dict.get? args n).isNone

/-- The value of the named argument `k` with the alias: as given by key; otherwise the alias's; otherwise by position. -/
def aliasedArgument (as : List Arg) (args : Dict Str) (names : List Str) (k : Str) : Option Str :=
  match (keyed as).lookup k with
  | some v => some v
  | none =>
    match Dict.get? args k with
    | some v => some v
    | none => ((freeNames as args names).zip (unmarked (positional as))).lookup k

end Mau.Spec
