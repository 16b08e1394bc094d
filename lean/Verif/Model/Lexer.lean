import Verif.Model.TextBuffer

/-!
# The base lexer and the three inline lexers

Models `mau/lexers/base_lexer.py`, `text_lexer.py`, `arguments_lexer.py`,
`preprocess_variables_lexer.py` and `condition_lexer.py`.
The document lexer is in `Verif.Model.DocumentLexer`.
-/

namespace Mau

/-- The result of one processing function: `none` is Python's `None` ("not my
token"); otherwise the buffer after the call and the produced tokens. All processing
functions return `None` before they touch the buffer. -/
abbrev ProcFn := TextBuffer → Except Err (Option (TextBuffer × List Token))

/-- lexers/base_lexer.py:93-124 — `_create_token_and_skip`. -/
def createTokenAndSkip (ty : TokenType) (v : Str) (b : TextBuffer) : TextBuffer × Token :=
  let b' := b.skip v.length
  (b', ⟨ty, v, ⟨b.position.1, b.position.2, b'.position.1, b'.position.2, b.source⟩⟩)

/-- lexers/base_lexer.py:211-220 — `_process_eof`. -/
def processEof : ProcFn := fun b =>
  if !b.eof then .ok none
  else
    let (b', t) := createTokenAndSkip .EOF [] b
    .ok (some (b', [t]))

/-- lexers/base_lexer.py:222-239 — `_process_empty_line` (`^\ *$` on the current line). -/
def processEmptyLine : ProcFn := fun b =>
  if !isBlank b.currentLine then .ok none
  else
    let (b', t) := createTokenAndSkip .EOL b.currentLine b
    .ok (some (b'.nextline, [t]))

/-- lexers/base_lexer.py:241-259 — `_process_trailing_spaces` (`\ *$` on the tail). -/
def processTrailingSpaces : ProcFn := fun b =>
  if !isBlank b.tail then .ok none
  else .ok (some ((b.skip b.tail.length).nextline, []))

/-- lexers/base_lexer.py:204-209 — `_process_error`. -/
def processError : ProcFn := fun b =>
  .error (.lexer .lexCannotProcess b.position.1 b.position.2 b.source)

/-- lexers/base_lexer.py:261-271 — the default `_process_text`: the whole tail. -/
def processTailText : ProcFn := fun b =>
  let (b', t) := createTokenAndSkip .TEXT b.tail b
  .ok (some (b'.nextline, [t]))

/-- lexers/base_lexer.py:188-197 — the loop over the processing functions. -/
def firstMatch : List ProcFn → TextBuffer → Except Err (TextBuffer × List Token)
  | [], b => .ok (b, [])      -- not reachable: the last function is `_process_error`
  | f :: fs, b =>
    match f b with
    | .error e => .error e
    | .ok none => firstMatch fs b
    | .ok (some r) => .ok r

/-- lexers/base_lexer.py:142-197 — one call of `_process` with the lexer's own functions
`fs`, the buffer and `_last_position`. -/
def lexStep (fs : List ProcFn) (last : Option (Nat × Nat)) (b : TextBuffer) :
    Except Err (TextBuffer × List Token) :=
  if last = some b.position then .error (.lexer .lexLoop b.position.1 b.position.2 b.source)
  else firstMatch ([processEof, processEmptyLine, processTrailingSpaces] ++ fs ++ [processError]) b

/-- lexers/base_lexer.py:126-140 — the loop of `process`: repeat `_process` until the last
token is EOF. `fuel` bounds the number of steps; `lex_total` shows it never runs out. -/
def lexLoop (fs : List ProcFn) :
    (fuel : Nat) → (last : Option (Nat × Nat)) → TextBuffer → List Token → Except Err (List Token)
  | 0, _, _, _ => .error .fuel
  | fuel + 1, last, b, acc =>
    match lexStep fs last b with
    | .error e => .error e
    | .ok (b', ts) =>
      let acc' := acc ++ ts
      if (acc'.getLast?.map (·.type)) = some .EOF then .ok acc'
      else lexLoop fs fuel (some b.position) b' acc'

/-- An upper bound for the number of lexer steps: two per line plus one per character. -/
def lexFuel (lines : List Str) : Nat := (lines.map (fun l => l.length + 2)).sum + 3

/-- lexers/base_lexer.py:126-140 — run a lexer on a text buffer. -/
def runLexer (fs : List ProcFn) (b : TextBuffer) : Except Err (List Token) :=
  lexLoop fs (lexFuel b.lines) none b []

/-! ## Text lexer -/

/-- lexers/text_lexer.py:37 — the literals of the text lexer. -/
def textLiterals : Str := c%"~^_*`()[]\\\"$%"

/-- lexers/text_lexer.py:20-27 — `_process_whitespace`: a text token with ONE space. -/
def textWhitespace : ProcFn := fun b =>
  match b.tail with
  | ' ' :: _ =>
    let (b', t) := createTokenAndSkip .TEXT [' '] b
    .ok (some (b', [t]))
  | _ => .ok none

/-- `if self._current_char not in LITERALS: return None` followed by a one-character
LITERAL token (lexers/text_lexer.py:29-40, arguments_lexer.py:47-54,
preprocess_variables_lexer.py:14-25). At the end of the line `_current_char` is the
empty string, which is `in` every string. -/
def literalFn (lits : Str) : ProcFn := fun b =>
  match b.currentChar with
  | none =>
    let (b', t) := createTokenAndSkip .LITERAL [] b
    .ok (some (b', [t]))
  | some c =>
    if lits.contains c then
      let (b', t) := createTokenAndSkip .LITERAL [c] b
      .ok (some (b', [t]))
    else .ok none

/-- A text token made of the longest non-empty run of characters satisfying `p`
(the regular expressions `[^...]+` of the three inline lexers:
lexers/text_lexer.py:42-58, arguments_lexer.py:56-64, preprocess_variables_lexer.py:27-36). -/
def runFn (ty : TokenType) (p : Char → Bool) : ProcFn := fun b =>
  match b.tail.takeWhile p with
  | [] => .ok none
  | v =>
    let (b', t) := createTokenAndSkip ty v b
    .ok (some (b', [t]))

/-- lexers/text_lexer.py:60-65 — the processing functions of `TextLexer`. -/
def textLexerFns : List ProcFn :=
  [textWhitespace, literalFn textLiterals,
   runFn .TEXT (fun c => !(textLiterals.contains c || c == ' '))]

/-! ## Arguments lexer -/

/-- lexers/arguments_lexer.py:51 — the literals of the arguments lexer. -/
def argsLiterals : Str := c%"\\=,\""

/-- lexers/arguments_lexer.py:31-64 — the processing functions of `ArgumentsLexer`. -/
def argsLexerFns : List ProcFn :=
  [runFn .WHITESPACE (· == ' '), literalFn argsLiterals,
   runFn .TEXT (fun c => !(argsLiterals.contains c || c == ' '))]

/-! ## Preprocess variables lexer -/

/-- lexers/preprocess_variables_lexer.py:22 — the literals. -/
def preLiterals : Str := c%"\\`{}"

/-- lexers/preprocess_variables_lexer.py:38-42 — the processing functions. -/
def preLexerFns : List ProcFn :=
  [literalFn preLiterals, runFn .TEXT (fun c => !preLiterals.contains c)]

/-! ## Condition lexer -/

/-- The character class `[a-zA-Z0-9_\.\+\-]` of variable names
(lexers/condition_lexer.py:29, document_lexer.py:310). -/
def isVarChar (c : Char) : Bool :=
  isLowerAscii c || isUpperAscii c || isDigitAscii c || c == '_' || c == '.' || c == '+' || c == '-'

/-- lexers/condition_lexer.py:26-33 — the regular expression, as the tuple
(variable, whitespace1, comparison, whitespace2, value). The greedy match needs no
backtracking because the character classes are disjoint. -/
def matchCondition (l : Str) : Option (Str × Str × Str × Str × Str) :=
  let var := l.takeWhile isVarChar
  let r1 := l.dropWhile isVarChar
  let ws1 := r1.takeWhile (· == ' ')
  let r2 := r1.dropWhile (· == ' ')
  if var.isEmpty then none
  else
    match r2 with
    | a :: '=' :: r3 =>
      if a == '=' || a == '!' then
        some (var, ws1, [a, '='], r3.takeWhile (· == ' '), r3.dropWhile (· == ' '))
      else none
    | _ => none

/-- lexers/condition_lexer.py:16-59 — `_process_condition`. -/
def conditionFn : ProcFn := fun b =>
  match matchCondition b.currentLine with
  | none => .ok none
  | some (var, ws1, cmp, ws2, val) =>
    let (b1, t1) := createTokenAndSkip .TEXT var b
    let (b2, t2) := createTokenAndSkip .TEXT cmp (b1.skip ws1.length)
    let (b3, t3) := createTokenAndSkip .TEXT val (b2.skip ws2.length)
    .ok (some (b3, [t1, t2, t3]))

/-- lexers/condition_lexer.py:11-14 — the processing functions. -/
def conditionLexerFns : List ProcFn := [conditionFn]

/-! ## Entry points -/

/-- `TextLexer(buffer).process()`. -/
def lexText (b : TextBuffer) : Except Err (List Token) := runLexer textLexerFns b
/-- `ArgumentsLexer(buffer).process()`. -/
def lexArgs (b : TextBuffer) : Except Err (List Token) := runLexer argsLexerFns b
/-- `PreprocessVariablesLexer(buffer).process()`. -/
def lexPre (b : TextBuffer) : Except Err (List Token) := runLexer preLexerFns b
/-- `ConditionLexer(buffer).process()`. -/
def lexCondition (b : TextBuffer) : Except Err (List Token) := runLexer conditionLexerFns b

end Mau
