import Verif.Model.Lexer

/-!
# The document lexer

Models `mau/lexers/document_lexer.py`.
-/

namespace Mau

/-- Emit a token (lexers/base_lexer.py:93-124), or skip characters
(lexers/base_lexer.py:86-91): the two elementary actions of the line functions. -/
inductive Piece where
  | tok (ty : TokenType) (v : Str)
  | skip (v : Str)
  deriving DecidableEq, Repr

/-- Run a sequence of `_create_token_and_skip` / `_skip` calls. -/
def emitPieces : List Piece → TextBuffer → TextBuffer × List Token
  | [], b => (b, [])
  | .tok ty v :: ps, b =>
    let (b', t) := createTokenAndSkip ty v b
    let (b'', ts) := emitPieces ps b'
    (b'', t :: ts)
  | .skip v :: ps, b => emitPieces ps (b.skip v.length)

/-- The common shape of the single line functions: match the current line, emit the
pieces, go to the next line. -/
def lineFn (m : Str → Option (List Piece)) : ProcFn := fun b =>
  match m b.currentLine with
  | none => .ok none
  | some ps =>
    let (b', ts) := emitPieces ps b
    .ok (some (b'.nextline, ts))

/-- The loop `while True` of lines 48-66 and 147-167: collect lines until one equals
`delim`; `none` if EOF is met first. Returns the collected lines and the buffer at the
closing line. `fuel` bounds the number of lines. -/
def collectUntil (delim : Str) : Nat → TextBuffer → Option (List Str × TextBuffer)
  | 0, _ => none
  | n + 1, b =>
    if b.eof then none
    else if b.currentLine = delim then some ([], b)
    else
      match collectUntil delim n b.nextline with
      | none => none
      | some (ls, b') => some (b.currentLine :: ls, b')

/-- lexers/document_lexer.py:29-72 — `_process_multiline_comment`. -/
def docMultilineComment : ProcFn := fun b =>
  if b.currentLine ≠ c%"////" then .ok none
  else
    match collectUntil c%"////" (b.lines.length + 1) b.nextline with
    | none => .error (.lexer .unclosedComment b.position.1 b.position.2 b.source)
    | some (_, b') => .ok (some (b'.nextline, []))

/-- lexers/document_lexer.py:74-88 — `_process_comment` (`^//.*`). -/
def matchComment (l : Str) : Option (List Piece) :=
  if startsWith l c%"//" then some [] else none

/-- lexers/document_lexer.py:90-109 — `_process_horizontal_rule` (`^---$`). -/
def matchHorizontalRule (l : Str) : Option (List Piece) :=
  if l = c%"---" then some [.tok .HORIZONTAL_RULE l] else none

/-- lexers/document_lexer.py:118-128 — the test for a block delimiter: four identical
characters. -/
def isBlockDelimiter (l : Str) : Bool :=
  match l with
  | [a, b, c, d] => a == b && b == c && c == d
  | _ => false

/-- lexers/document_lexer.py:111-205 — `_process_block`. -/
def docBlock : ProcFn := fun b =>
  if !isBlockDelimiter b.currentLine then .ok none
  else
    let delim := b.currentLine
    let (b1, opening) := createTokenAndSkip .BLOCK delim b
    let b2 := b1.nextline
    let initial := b2.position
    match collectUntil delim (b.lines.length + 1) b2 with
    | none => .error (.lexer .unclosedBlock opening.ctx.startLine opening.ctx.startColumn b.source)
    | some (ls, b3) =>
      let content : List Token :=
        match ls.getLast? with
        | none => []
        | some lastLine =>
          [⟨.TEXT, joinWith ['\n'] ls,
            ⟨initial.1, initial.2, initial.1 + ls.length - 1, initial.2 + lastLine.length,
             b.source⟩⟩]
      let (b4, closing) := createTokenAndSkip .BLOCK b3.currentLine b3
      .ok (some (b4.nextline, opening :: content ++ [⟨.BLOCK, b3.currentLine, closing.ctx⟩]))

/-- lexers/document_lexer.py:207-247 — `_process_control`
(`^@[a-z]+ *.*$`). -/
def matchControl (l : Str) : Option (List Piece) :=
  match l with
  | '@' :: r =>
    let op := r.takeWhile isLowerAscii
    let r1 := r.dropWhile isLowerAscii
    if op.isEmpty then none
    else some [.tok .CONTROL ['@'], .tok .TEXT op, .skip (r1.takeWhile (· == ' ')),
               .tok .TEXT (r1.dropWhile (· == ' '))]
  | _ => none

/-- The class `[a-z0-9_#\.]` of the include type (lexers/document_lexer.py:262). -/
def isIncludeChar (c : Char) : Bool :=
  isLowerAscii c || isDigitAscii c || c == '_' || c == '#' || c == '.'

/-- The optional separator and rest of include and variable lines
(lexers/document_lexer.py:262, 310: `(:)?(.*)?`): an absent or empty part gives no token. -/
def sepPieces (r : Str) : List Piece :=
  match r with
  | ':' :: v => .tok .LITERAL [':'] :: (if v.isEmpty then [] else [.tok .TEXT v])
  | v => if v.isEmpty then [] else [.tok .TEXT v]

/-- lexers/document_lexer.py:249-297 — `_process_include`. The tokens for an absent
separator/arguments are created with an empty value, which moves nothing, and not added. -/
def matchInclude (l : Str) : Option (List Piece) :=
  match l with
  | '<' :: '<' :: r =>
    let ws := r.takeWhile (· == ' ')
    let r1 := r.dropWhile (· == ' ')
    let ty := r1.takeWhile isIncludeChar
    let r2 := r1.dropWhile isIncludeChar
    if ty.isEmpty then none
    else some ([.tok .INCLUDE c%"<<", .skip ws, .tok .TEXT ty] ++ sepPieces r2)
  | _ => none

/-- lexers/document_lexer.py:299-343 — `_process_variable`. -/
def matchVariable (l : Str) : Option (List Piece) :=
  match l with
  | ':' :: r =>
    let name := r.takeWhile isVarChar
    let r1 := r.dropWhile isVarChar
    if name.isEmpty then none
    else some ([.tok .VARIABLE [':'], .tok .TEXT name] ++ sepPieces r1)
  | _ => none

/-- lexers/document_lexer.py:345-379 — `_process_arguments` (`^\[.*\]$`). -/
def matchArguments (l : Str) : Option (List Piece) :=
  match l with
  | '[' :: r =>
    match r.getLast? with
    | some ']' => some [.tok .ARGUMENTS ['['], .tok .TEXT r.dropLast, .tok .LITERAL [']']]
    | _ => none
  | _ => none

/-- The class `[a-z0-9-_]` of label roles (lexers/document_lexer.py:390). -/
def isRoleChar (c : Char) : Bool :=
  isLowerAscii c || isDigitAscii c || c == '-' || c == '_'

/-- lexers/document_lexer.py:381-416 — `_process_label` (`^(\.[a-z0-9-_]*)( *)(.*)`). -/
def matchLabel (l : Str) : Option (List Piece) :=
  match l with
  | '.' :: r =>
    let role := r.takeWhile isRoleChar
    let r1 := r.dropWhile isRoleChar
    some [.tok .LABEL ('.' :: role), .skip (r1.takeWhile (· == ' ')),
          .tok .TEXT (r1.dropWhile (· == ' '))]
  | _ => none

/-- The class `[\*#]` of list markers (lexers/document_lexer.py:433). -/
def isListChar (c : Char) : Bool := c == '*' || c == '#'

/-- lexers/document_lexer.py:418-461 — `_process_list` (`^( *)([\*#]+)( +)(.*)`). -/
def matchList (l : Str) : Option (List Piece) :=
  let ws1 := l.takeWhile (· == ' ')
  let r1 := l.dropWhile (· == ' ')
  let pre := r1.takeWhile isListChar
  let r2 := r1.dropWhile isListChar
  let ws2 := r2.takeWhile (· == ' ')
  let r3 := r2.dropWhile (· == ' ')
  if pre.isEmpty || ws2.isEmpty then none
  else some [.skip ws1, .tok .LIST pre, .skip ws2, .tok .TEXT r3]

/-- lexers/document_lexer.py:463-499 — `_process_header` (`^(=+)( *)(.+)`). The last
group needs one character: if only spaces follow the signs the group of spaces gives
its last one back; if nothing follows, the group of signs does (when it has two or more). -/
def matchHeader (l : Str) : Option (List Piece) :=
  let pre := l.takeWhile (· == '=')
  let r := l.dropWhile (· == '=')
  let ws := r.takeWhile (· == ' ')
  let h := r.dropWhile (· == ' ')
  if pre.isEmpty then none
  else if !h.isEmpty then some [.tok .HEADER pre, .skip ws, .tok .TEXT h]
  else if !ws.isEmpty then some [.tok .HEADER pre, .skip ws.dropLast, .tok .TEXT [' ']]
  else if pre.length ≥ 2 then some [.tok .HEADER pre.dropLast, .skip [], .tok .TEXT ['=']]
  else none

/-- lexers/document_lexer.py:12-27 — the processing functions of `DocumentLexer`. -/
def documentLexerFns : List ProcFn :=
  [docMultilineComment, lineFn matchComment, lineFn matchHorizontalRule, docBlock,
   lineFn matchControl, lineFn matchInclude, lineFn matchVariable, lineFn matchArguments,
   lineFn matchLabel, lineFn matchList, lineFn matchHeader, processTailText]

/-- `DocumentLexer(buffer).process()`. -/
def lexDocument (b : TextBuffer) : Except Err (List Token) := runLexer documentLexerFns b

end Mau
