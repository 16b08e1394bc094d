import Verif.Model.Lexer
import Verif.Model.TokensManager
import Verif.Model.Environment

/-!
# Variable preprocessing

Models `mau/parsers/preprocess_variables_parser.py` and the main loop of
`mau/parsers/base_parser.py` for this parser.
-/

namespace Mau

/-- A processing function of a parser that produces one value and moves the tokens
manager. In the parsers of this model written with this type a failing function has
no side effect besides the index. -/
abbrev TokFn (α : Type) := TM → Except Err (α × TM)

/-- parsers/base_parser.py:85-113 — try the processing functions in order, each wrapped in
`with self.tm:`; the first that succeeds wins; if none does, "Cannot parse token." at the next token, which is `next` again as
the index was restored. -/
def tryFns {α : Type} (next : Token) : List (TokFn α) → TokFn α
  | [], _ => .error (.parser .cannotParse (some next.ctx))
  | f :: fs, tm =>
    match f tm with
    | .ok r => .ok r
    | .error .token => tryFns next fs tm
    | .error e => .error e

/-- parsers/base_parser.py:60-113 — the loop of `parse`: stop at EOF; detect a token equal
(type, value, context) to the last processed one; run the functions. Collects the
values in order; the functions may depend on what was collected so far.
`fuel` bounds the number of rounds. -/
def parseLoop {α : Type} (fs : List α → List (TokFn α)) :
    (fuel : Nat) → (last : Token) → TM → List α → Except Err (List α)
  | 0, _, _, _ => .error .fuel
  | n + 1, last, tm, acc => do
    if ← tm.peekIs .EOF then return acc
    let nextTok ← tm.peek
    if nextTok = last then throw (.parser .parseLoop (some nextTok.ctx))
    let (a, tm) ← tryFns nextTok (fs acc) tm
    parseLoop fs n nextTok tm (acc ++ [a])

/-- parsers/base_parser.py:38 — the initial `last_processed_token`. -/
def initialLast : Token := Token.generate .EOF

/-- A text with its context: a `TextNode` of the preprocessor. -/
structure CtxText where
  value : Str
  ctx : Context
  deriving DecidableEq, Repr

/-- preprocess_variables_parser.py:16-45 — `_process_escaped_char`. -/
def preEscapedChar : TokFn CtxText := fun tm => do
  let (backslash, tm) ← tm.get (some .LITERAL) (some ['\\'])
  let (char, tm) ← tm.get
  -- `char.value not in "{}"`: substring test
  let v := if char.value = [] ∨ char.value = ['{'] ∨ char.value = ['}'] ∨ char.value = ['{', '}']
    then char.value else '\\' :: char.value
  return (⟨v, backslash.ctx.merge char.ctx⟩, tm)

/-- preprocess_variables_parser.py:47-81 — `_process_verbatim`. -/
def preVerbatim : TokFn CtxText := fun tm => do
  let (opening, tm) ← tm.get (some .LITERAL) (some ['`'])
  let (text, tm) ← tm.collectJoin [Token.generate .LITERAL ['`']] (preserve := true)
  let (closing, tm) ← tm.get (some .LITERAL) (some ['`'])
  return (⟨['`'] ++ text.value ++ ['`'], opening.ctx.merge closing.ctx⟩, tm)

/-- preprocess_variables_parser.py:118-121. -/
def msgIncompleteVariable (name : Str) : Msg :=
  .text (c%"Incomplete variable declaration '" ++ name ++ c%"'. Variable names cannot contain curly braces.")

/-- preprocess_variables_parser.py:83-168 — `_process_curly`. -/
def preCurly (env : Env) : TokFn CtxText := fun tm => do
  let (opening, tm) ← tm.get (some .LITERAL) (some ['{'])
  let (name, tm) ← tm.collectJoin [Token.generate .LITERAL ['}']]
  let (closing, tm) ← tm.get (some .LITERAL) (some ['}'])
  if startsWith name.value ['{'] then
    if !(← tm.peekIs .LITERAL (some ['}'])) then throw (.parser (msgIncompleteVariable name.value) (some name.ctx))
    let (closing2, tm) ← tm.get (some .LITERAL) (some ['}'])
    return (⟨name.value ++ ['}'], opening.ctx.merge closing2.ctx⟩, tm)
  match Env.getitem env name.value with
  | .error _ => throw (.parser (.undefinedVariable name.value) (some (opening.ctx.merge closing.ctx)))
  | .ok v => return (⟨v.pyStr, opening.ctx.merge closing.ctx⟩, tm)

/-- preprocess_variables_parser.py:170-184 — `_process_pass`. -/
def prePass : TokFn CtxText := fun tm => do
  let (t, tm) ← tm.get
  return (⟨t.value, t.ctx⟩, tm)

/-- preprocess_variables_parser.py:186-192 — the processing functions. -/
def preFns (env : Env) : List (TokFn CtxText) :=
  [preEscapedChar, preVerbatim, preCurly env, prePass]

/-- preprocess_variables_parser.py:194-212 — `get_processed_text`. -/
def processedText (nodes : List CtxText) : Token :=
  Token.fromTokenList (nodes.map fun n => ⟨.TEXT, n.value, n.ctx⟩)

/-- `PreprocessVariablesParser.lex_and_parse(text, ...)`, the property `nodes`. -/
def preprocessNodes (env : Env) (text : Str) (startLine startColumn : Nat := 0)
    (source : Option Str := none) : Except Err (List CtxText) := do
  let ts ← lexPre (TextBuffer.ofText text startLine startColumn source)
  parseLoop (fun _ => preFns env) (ts.length + 2) initialLast { tokens := ts } []

/-- `PreprocessVariablesParser.lex_and_parse(text, ...)` followed by `get_processed_text()`. -/
def preprocess (env : Env) (text : Str) (startLine startColumn : Nat := 0)
    (source : Option Str := none) : Except Err Token := do
  let nodes ← preprocessNodes env text startLine startColumn source
  return processedText nodes

end Mau
