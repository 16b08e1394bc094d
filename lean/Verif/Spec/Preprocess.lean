import Verif.Lemmas.Scan
import Verif.Model.Environment

/-!
# Specification of variable preprocessing, on characters

`preText` says what the preprocessor makes of a single-line text, character by character,
without tokens, managers or contexts. `PreUnit` lists the self-contained pieces of a text.
-/

namespace Mau.Spec

/-- The characters with a meaning for the preprocessor. -/
def preSpecial (c : Char) : Prop := c = '\\' ∨ c = '`' ∨ c = '{' ∨ c = '}'

/-- The self-contained pieces of a text and what they become. -/
inductive PreUnit (env : Env) : Str → Str → Prop where
  /-- an ordinary character is kept -/
  | plain (c : Char) (h : ¬ preSpecial c) : PreUnit env [c] [c]
  /-- a closing brace on its own is kept -/
  | brace : PreUnit env ['}'] ['}']
  /-- an escaped brace loses the backslash -/
  | escBrace (c : Char) (h : c = '{' ∨ c = '}') : PreUnit env ['\\', c] [c]
  /-- any other escaped character is kept with its backslash -/
  | escOther (c : Char) (h : c ≠ '{' ∧ c ≠ '}') : PreUnit env ['\\', c] ['\\', c]
  /-- a closed backtick span is kept -/
  | span (raw : Str) (h : Span '`' raw) : PreUnit env ('`' :: raw ++ ['`']) ('`' :: raw ++ ['`'])
  /-- a reference to a variable is replaced by the value -/
  | ref (raw : Str) (v : Val) (h : Span '}' raw) (hd : raw.head? ≠ some '{')
      (hv : Dict.get? env (unescape '}' raw) = some v) : PreUnit env ('{' :: raw ++ ['}']) v.pyStr
  /-- text in double braces loses one pair -/
  | double (raw : Str) (h : Span '}' raw) (hd : raw.head? = some '{') :
      PreUnit env ('{' :: raw ++ ['}', '}']) (unescape '}' raw ++ ['}'])

/-- A text made of self-contained pieces, and what it becomes. -/
inductive PreUnits (env : Env) : Str → Str → Prop where
  | nil : PreUnits env [] []
  | cons {s o ss os : Str} (h : PreUnit env s o) (hs : PreUnits env ss os) : PreUnits env (s ++ ss) (o ++ os)

/-- The pieces of an arbitrary text that is preprocessed without an error: self-contained pieces,
and marks on their own, which are kept. -/
inductive PreItem (env : Env) : Str → Str → Prop where
  | unit {s o : Str} (h : PreUnit env s o) : PreItem env s o
  | mark (c : Char) (h : c = '`' ∨ c = '{') : PreItem env [c] [c]

/-- The text ends with spaces directly after a special character: these are ignored. -/
def SpacesAfterSpecial (text : Str) : Prop :=
  ∃ s c sp, text = s ++ c :: sp ∧ preSpecial c ∧ sp ≠ [] ∧ ∀ d ∈ sp, d = ' '

/-- Put text in front of a result. -/
def before (v : Str) (r : Except Err Str) : Except Err Str := r.map (v ++ ·)

/-- "Incomplete variable declaration ..." -/
def incompleteVariable (name : Str) : Err :=
  .parser (.text (c%"Incomplete variable declaration '" ++ name ++ c%"'. Variable names cannot contain curly braces.")) none

/-- What the preprocessor makes of a single-line text; errors without the place. -/
def preText (env : Env) : Str → Except Err Str
  | [] => .ok []
  | c :: r =>
    if c = '\\' then
      match r with
      | [] => .ok []
      | d :: r => before (if d = '{' ∨ d = '}' then [d] else ['\\', d]) (preText env r)
    else if c = '`' then
      match h : closing '`' r with
      | none => before ['`'] (preText env r)
      | some x => before ('`' :: x.1 ++ ['`']) (preText env x.2)
    else if c = '{' then
      match h : closing '}' r with
      | none => before ['{'] (preText env r)
      | some x =>
        if x.1.head? = some '{' then
          match h2 : x.2 with
          | '}' :: rest => before (unescape '}' x.1 ++ ['}']) (preText env rest)
          | _ => .error (incompleteVariable (unescape '}' x.1))
        else
          match Dict.get? env (unescape '}' x.1) with
          | none => .error (.parser (.undefinedVariable (unescape '}' x.1)) none)
          | some v => before v.pyStr (preText env x.2)
    else before [c] (preText env r)
termination_by s => s.length
decreasing_by
  all_goals simp_wf
  all_goals first
    | omega
    | (have := closing_length (raw := x.1) (rest := x.2) h; omega)
    | (have := closing_length (raw := x.1) (rest := x.2) h; rw [h2] at this; simp at this; omega)

end Mau.Spec
