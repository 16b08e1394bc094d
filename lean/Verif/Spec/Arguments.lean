import Verif.Lemmas.Scan
import Verif.Model.Arguments

/-!
# Specification of arguments

`ArgsRun` says what a single-line arguments text means, character by character. `Writes` and
`WritesAll` say how a list of arguments can be written.
-/

namespace Mau.Spec

/-- An argument: a positional value or a key with a value. -/
inductive Arg where
  | pos (value : Str)
  | key (name value : Str)
  deriving DecidableEq, Repr

/-- Characters of keys and bare words: neither special nor a space. -/
def argChar (c : Char) : Bool := !(c == '\\' || c == '=' || c == ',' || c == '"' || c == ' ')

/-! ## Meaning of a text -/

/-- The value at the start of a text, and the text after it: quoted text up to the closing quotes
(`none` if there are no closing quotes), or everything up to a comma. -/
def valueAt (s : Str) : Option (Str × Str) :=
  if s.head? = some '"' then (closing '"' s.tail).map fun x => (unescape '"' x.1, x.2)
  else some (unescape ',' (upto (· == ',') escChar s).1, (upto (· == ',') escChar s).2)

/-- The text after a value: a comma and then spaces are skipped. -/
def afterValue (s : Str) : Str := (if s.head? = some ',' then s.tail else s).dropWhile (· == ' ')

/-- A key and a value at the start of a text. -/
def KeyAt (s k v rest : Str) : Prop :=
  ∃ r, s = k ++ '=' :: r ∧ k ≠ [] ∧ (∀ c ∈ k, argChar c = true) ∧ valueAt r = some (v, rest)

/-- "Unnamed arguments after named arguments are forbidden." -/
def unnamedAfterNamed : Err := .parser (.text c%"Unnamed arguments after named arguments are forbidden.") none

/-- The arguments of a text; `on` says if an argument with a key was met before. -/
inductive ArgsRun : (on : Bool) → Str → Except Err (List Arg) → Prop where
  | done (on : Bool) : ArgsRun on [] (.ok [])
  | key {on : Bool} {s k v rest : Str} {res : Except Err (List Arg)} (h : KeyAt s k v rest)
      (hr : ArgsRun true (afterValue rest) res) : ArgsRun on s (res.map (.key k (strip v) :: ·))
  | pos {s v rest : Str} {res : Except Err (List Arg)} (hne : s ≠ []) (hk : ¬ ∃ k v rest, KeyAt s k v rest)
      (hv : valueAt s = some (v, rest)) (hr : ArgsRun false (afterValue rest) res) :
      ArgsRun false s (res.map (.pos v :: ·))
  | forbidden {s : Str} (hne : s ≠ []) (hk : ¬ ∃ k v rest, KeyAt s k v rest) :
      ArgsRun true s (.error unnamedAfterNamed)
  | unclosed {s : Str} (hne : s ≠ []) (hk : ¬ ∃ k v rest, KeyAt s k v rest) (hv : valueAt s = none) :
      ArgsRun false s (.error (.parser .cannotParse none))

/-! ## Writing arguments -/

/-- Values that can be written in quotes: reading from the left, each backslash is followed by
a character other than a double quote. Every value without backslashes qualifies. -/
inductive Quotable : Str → Prop where
  | nil : Quotable []
  | plain (c : Char) (r : Str) (hc : c ≠ '\\') (h : Quotable r) : Quotable (c :: r)
  | pair (c : Char) (r : Str) (hc : c ≠ '"') (h : Quotable r) : Quotable ('\\' :: c :: r)

/-- Put a backslash in front of double quotes. -/
def escapeQuotes (v : Str) : Str := v.flatMap fun c => if c = '"' then ['\\', '"'] else [c]

/-- A value in quotes. -/
def quoted (v : Str) : Str := c%"\"" ++ escapeQuotes v ++ c%"\""

/-- Values that can be written without quotes. -/
def Bare (v : Str) : Prop :=
  ',' ∉ v ∧ '\\' ∉ v ∧ '\n' ∉ v ∧ v.head? ≠ some '"' ∧ v.getLast? ≠ some ' '

/-- How an argument can be written. Values of arguments with a key are stripped. -/
inductive Writes : Arg → Str → Prop where
  | posQuoted {v : Str} (h : Quotable v) (hn : '\n' ∉ v) : Writes (.pos v) (quoted v)
  | posBare {v : Str} (h : Bare v) (hne : v ≠ []) (he : '=' ∉ v) (hs : v.head? ≠ some ' ') : Writes (.pos v) v
  | keyQuoted {k v : Str} (hk : k ≠ []) (hc : ∀ c ∈ k, argChar c = true) (hkn : '\n' ∉ k) (h : Quotable v)
      (hn : '\n' ∉ v) (hs : strip v = v) : Writes (.key k v) (k ++ c%"=" ++ quoted v)
  | keyBare {k v : Str} (hk : k ≠ []) (hc : ∀ c ∈ k, argChar c = true) (hkn : '\n' ∉ k) (h : Bare v)
      (hs : strip v = v) : Writes (.key k v) (k ++ c%"=" ++ v)

/-- How a list of arguments can be written: separated by commas, each followed by any number of
spaces. -/
inductive WritesAll : List Arg → Str → Prop where
  | nil : WritesAll [] []
  | one {a : Arg} {s : Str} (h : Writes a s) : WritesAll [a] s
  | cons {a b : Arg} {as : List Arg} {s sp r : Str} (h : Writes a s) (hsp : ∀ c ∈ sp, c = ' ')
      (hr : WritesAll (b :: as) r) : WritesAll (a :: b :: as) (s ++ c%"," ++ sp ++ r)

/-- The positional values. -/
def positional (as : List Arg) : List Str := as.filterMap fun | .pos v => some v | .key .. => none

/-- The values with keys. -/
def keyed (as : List Arg) : List (Str × Str) := as.filterMap fun | .pos _ => none | .key k v => some (k, v)

/-- Positional arguments come before those with keys. -/
def PositionalFirst (as : List Arg) : Prop :=
  ∃ (ps : List Str) (ks : List (Str × Str)), as = ps.map Arg.pos ++ ks.map fun kv => Arg.key kv.1 kv.2

/-- `text` is one way of writing the arguments `as`, and no tag, subtype or alias is among them. -/
structure PlainArgs (text : Str) (as : List Arg) : Prop where
  writes : WritesAll as text
  first : PositionalFirst as
  keys : ((keyed as).map (·.1)).Nodup
  plain : ∀ v ∈ positional as, v.head? ≠ some '#' ∧ v.head? ≠ some '*' ∧ v.head? ≠ some '@'

/-- The names that are not given by key. -/
def unkeyed (names : List Str) (as : List Arg) : List Str := names.filter fun n => ((keyed as).lookup n).isNone

/-- The value of the argument `n` of a macro, whose parameters are `names`: given by key, or by position among
the names that are not given by key. -/
def argument (names : List Str) (as : List Arg) (n : Str) : Option Str :=
  match (keyed as).lookup n with
  | some v => some v
  | none => (positional as)[(unkeyed names as).idxOf n]?

/-- The positional values left over for no parameter. -/
def leftover (names : List Str) (as : List Arg) : List Str := (positional as).drop (unkeyed names as).length

end Mau.Spec
