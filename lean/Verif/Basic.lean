/-!
# Basic vocabulary of the model: strings, errors

Python `str` values are modelled by lists of characters (`Str`).
Nothing in this file is specific to Mau; it models the Python built-ins the
code uses.
-/

namespace Mau

/-- A Python `str`: the list of its code points. -/
abbrev Str := List Char

open Lean in
/-- `c%"abc"` is the list literal `['a', 'b', 'c']`. -/
macro:max "c%" s:str : term => do
  let cs := s.getString.toList.map fun c => Syntax.mkCharLit c
  `(([$cs.toArray,*] : List Char))

/-- `str.split(sep)` for a one-character separator: always at least one piece. -/
def splitChar (sep : Char) : Str → List Str
  | [] => [[]]
  | c :: cs =>
    if c = sep then [] :: splitChar sep cs
    else match splitChar sep cs with
      | [] => [[c]]           -- not reachable, `splitChar` is never empty
      | l :: ls => (c :: l) :: ls

/-- `sep.join(pieces)`. -/
def joinWith (sep : Str) : List Str → Str
  | [] => []
  | [l] => l
  | l :: ls => l ++ sep ++ joinWith sep ls

/-- `str.split(sep)` for a non-empty separator: cut at the leftmost occurrence, continue
after it. `cur` is the current piece, reversed. -/
def splitStrAux (sep : Str) : (fuel : Nat) → (cur s : Str) → List Str
  | 0, cur, _ => [cur.reverse]
  | _ + 1, cur, [] => [cur.reverse]
  | n + 1, cur, c :: cs =>
    if sep.isPrefixOf (c :: cs) then cur.reverse :: splitStrAux sep n [] ((c :: cs).drop sep.length)
    else splitStrAux sep n (c :: cur) cs

/-- `str.split(sep)` for a non-empty separator. -/
def splitStr (sep s : Str) : List Str := splitStrAux sep (s.length + 1) [] s

/-- `s.startswith(p)`. -/
def startsWith (s p : Str) : Bool := p.isPrefixOf s

/-- `s.endswith(p)`. -/
def endsWith (s p : Str) : Bool := p.isSuffixOf s

/-- The characters removed by `str.strip()` (Unicode `White_Space` as known to CPython's
`str.isspace`, i.e. bidirectional type WS/B/S or category Zs). -/
def isPySpace (c : Char) : Bool :=
  let n := c.toNat
  (0x09 ≤ n && n ≤ 0x0d) || (0x1c ≤ n && n ≤ 0x20) || n == 0x85 || n == 0xa0 ||
  n == 0x1680 || (0x2000 ≤ n && n ≤ 0x200a) || n == 0x2028 || n == 0x2029 ||
  n == 0x202f || n == 0x205f || n == 0x3000

/-- `s.lstrip()`. -/
def lstrip (s : Str) : Str := s.dropWhile isPySpace

/-- `s.rstrip()`. -/
def rstrip (s : Str) : Str := (s.reverse.dropWhile isPySpace).reverse

/-- `s.strip()`. -/
def strip (s : Str) : Str := rstrip (lstrip s)

/-- ASCII lowercase letter, `[a-z]`. -/
def isLowerAscii (c : Char) : Bool := 'a' ≤ c && c ≤ 'z'

/-- ASCII uppercase letter, `[A-Z]`. -/
def isUpperAscii (c : Char) : Bool := 'A' ≤ c && c ≤ 'Z'

/-- ASCII digit, `[0-9]`. -/
def isDigitAscii (c : Char) : Bool := '0' ≤ c && c ≤ '9'

/-- A run of spaces only (possibly empty): the regular expression ` *$` matches the whole. -/
def isBlank (s : Str) : Bool := s.all (· == ' ')

deriving instance DecidableEq for Except

/-! ## Places in a text -/

/-- mau/text_buffer.py:44-55 — dataclass `Context`. Line and column numbers are
natural numbers (the code never produces negative ones). -/
structure Context where
  startLine : Nat
  startColumn : Nat
  endLine : Nat
  endColumn : Nat
  source : Option Str := none
  deriving DecidableEq, Repr

/-! ## Messages and errors -/

/-- The Mau error messages, one constructor per message text in the code.
The text is given in the comment of each constructor. -/
inductive Msg where
  /-- "Loop detected, cannot process context" (lexers/base_lexer.py:179-184) -/
  | lexLoop
  /-- "Cannot process token." (lexers/base_lexer.py:204-209) -/
  | lexCannotProcess
  /-- "Unclosed multiline comment." (lexers/document_lexer.py:50-55) -/
  | unclosedComment
  /-- "Unclosed block." (lexers/document_lexer.py:149-154) -/
  | unclosedBlock
  /-- "Loop detected, cannot parse token" (parsers/base_parser.py) -/
  | parseLoop
  /-- "Cannot parse token." (parsers/base_parser.py) -/
  | cannotParse
  /-- "Variable '{name}' has not been defined." (parsers/preprocess_variables_parser.py:156-159,
  parsers/buffers/control_buffer.py:47-50, parsers/text_parser.py:914-917) -/
  | undefinedVariable (name : Str)
  /-- "Alias '{name}' cannot be found in 'mau.parser.aliases': {replacements}.", the last part is not modelled
  (parsers/arguments_parser.py:216-220) -/
  | unknownAlias (name : Str)
  /-- "To avoid recursion, you cannot include the following files: {files}."
  (parsers/document_processors/include.py:193-196) -/
  | includeLoop (files : List (Option Str))
  /-- a message identified by its text; used for the many single-use messages -/
  | text (t : Str)
  deriving DecidableEq, Repr

/-- Python exceptions which are not Mau exceptions. -/
inductive PyErr where
  | indexError | attributeError | typeError | valueError | keyError
  | osError
  /-- an exception of another kind, raised by Jinja -/
  | foreign
  deriving DecidableEq, Repr

/-- How a computation can fail. -/
inductive Err where
  /-- the internal exception `TokenError` of the tokens manager -/
  | token
  /-- `MauException` with a lexer message: its text, position and source (message.py:22-26) -/
  | lexer (m : Msg) (line column : Nat) (source : Option Str)
  /-- `MauException` with a parser message: its text and context (message.py:29-33; the help text is not modelled) -/
  | parser (m : Msg) (ctx : Option Context)
  /-- `MauException` with a visitor message: its text, and the type and the context of the node it is about (message.py:36-43; the
  data and the environment are not modelled). The context is the one shown to the user, with lines counted from 1. -/
  | visitor (m : Msg) (node : Option (Str × Context))
  /-- any other Python exception -/
  | py (e : PyErr)
  /-- the code would go on, but with a value outside the model (documented where raised) -/
  | unmodelled
  /-- the model ran out of its recursion budget; never a result of the code -/
  | fuel
  deriving DecidableEq, Repr

/-- The exceptions a user is promised: Mau exceptions. -/
def Err.isMau : Err → Bool
  | .lexer .. | .parser .. | .visitor .. => true
  | _ => false

/-- Give a parser error without a context this one (`context=self.context` of the arguments parser,
parsers/arguments_parser.py:29-33, 119-122, 175-178, 217-220: the functions of the model that do not know the parser object
raise the error without a context). -/
def Err.locate (c : Context) : Err → Err
  | .parser m none => .parser m (some c)
  | e => e

/-- What the error says, without the place. -/
def Err.bare : Err → Err
  | .parser m _ => .parser m none
  | e => e

/-- A result whose error is reduced to what it says. -/
def unplaced {α : Type} : Except Err α → Except Err α
  | .ok a => .ok a
  | .error e => .error e.bare

@[simp] theorem unplaced_ok {α : Type} (a : α) : unplaced (.ok a) = .ok a := rfl
@[simp] theorem unplaced_error {α : Type} (e : Err) : unplaced (.error e : Except Err α) = .error e.bare := rfl
@[simp] theorem Err.bare_parser (m : Msg) (c : Option Context) : (Err.parser m c).bare = .parser m none := rfl
@[simp] theorem Err.bare_bare (e : Err) : e.bare.bare = e.bare := by cases e <;> rfl
@[simp] theorem Err.bare_isMau (e : Err) : e.bare.isMau = e.isMau := by cases e <;> rfl
@[simp] theorem Err.locate_bare (c : Context) (e : Err) : (e.locate c).bare = e.bare := by
  cases e with
  | parser m o => cases o <;> rfl
  | _ => rfl
@[simp] theorem Err.locate_isMau (c : Context) (e : Err) : (e.locate c).isMau = e.isMau := by
  cases e with
  | parser m o => cases o <;> rfl
  | _ => rfl

theorem Err.bare_eq_parser {e : Err} {m : Msg} {c : Option Context} (h : e.bare = .parser m c) : ∃ c', e = .parser m c' := by
  cases e with
  | parser m' c' => cases h; exact ⟨_, rfl⟩
  | _ => cases h

theorem unplaced_map {α β : Type} (f : α → β) (x : Except Err α) : unplaced (x.map f) = (unplaced x).map f := by
  cases x <;> rfl

theorem unplaced_eq_ok {α : Type} {x : Except Err α} {a : α} : unplaced x = .ok a ↔ x = .ok a := by
  cases x <;> simp

theorem unplaced_eq_error {α : Type} {x : Except Err α} {e : Err} : unplaced x = .error e ↔ ∃ e', x = .error e' ∧ e'.bare = e := by
  cases x <;> simp

end Mau
