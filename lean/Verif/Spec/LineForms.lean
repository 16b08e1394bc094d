import Verif.Spec.Lexing

/-!
# The documented forms of a document line, and source regions

Independent of the lexer: which lines are comments, rules, controls, ... and which characters of a
text a position range denotes.
-/

namespace Mau.Spec

/-- Only spaces. -/
def Spaces (s : Str) : Prop := ∀ c ∈ s, c = ' '

/-- `s` does not start with a character satisfying `p`. -/
def NoHead (p : Char → Bool) (s : Str) : Prop := ∀ c r, s = c :: r → p c = false

/-- What may follow the type of an include or the name of a variable: nothing, a colon and nothing,
a colon and a text, or (directly) a text. -/
inductive Tail : Str → List Piece → Prop where
  | none : Tail [] []
  | colon : Tail [':'] [.tok .LITERAL [':']]
  | colonText {v : Str} (h : v ≠ []) : Tail (':' :: v) [.tok .LITERAL [':'], .tok .TEXT v]
  | text {v : Str} (h : v ≠ []) (h' : NoHead (· == ':') v) : Tail v [.tok .TEXT v]

/-- The documented forms of a single line and the pieces they are cut into. The forms are told
apart by their first characters. -/
inductive LineForm : Str → List Piece → Prop where
  /-- `// anything` -/
  | comment (r : Str) : LineForm ('/' :: '/' :: r) []
  /-- `---` -/
  | rule : LineForm c%"---" [.tok .HORIZONTAL_RULE c%"---"]
  /-- `@operator value` -/
  | control (op sp v : Str) (h1 : op ≠ []) (h2 : ∀ c ∈ op, isLowerAscii c = true) (h3 : Spaces sp)
      (h4 : NoHead (· == ' ') v) (h5 : NoHead isLowerAscii (sp ++ v)) :
      LineForm ('@' :: (op ++ sp ++ v)) [.tok .CONTROL ['@'], .tok .TEXT op, .skip sp, .tok .TEXT v]
  /-- `<< type:arguments` -/
  | incl (sp ty t : Str) (ps : List Piece) (h1 : Spaces sp) (h2 : ty ≠ [])
      (h3 : ∀ c ∈ ty, isIncludeChar c = true) (h4 : NoHead isIncludeChar t) (h5 : Tail t ps) :
      LineForm ('<' :: '<' :: (sp ++ ty ++ t)) ([.tok .INCLUDE c%"<<", .skip sp, .tok .TEXT ty] ++ ps)
  /-- `:name:value` -/
  | variable_ (name t : Str) (ps : List Piece) (h1 : name ≠ []) (h2 : ∀ c ∈ name, isVarChar c = true)
      (h3 : NoHead isVarChar t) (h4 : Tail t ps) :
      LineForm (':' :: (name ++ t)) ([.tok .VARIABLE [':'], .tok .TEXT name] ++ ps)
  /-- `[arguments]` -/
  | arguments (a : Str) :
      LineForm ('[' :: (a ++ [']'])) [.tok .ARGUMENTS ['['], .tok .TEXT a, .tok .LITERAL [']']]
  /-- `.role text` -/
  | label (role sp v : Str) (h1 : ∀ c ∈ role, isRoleChar c = true) (h2 : Spaces sp)
      (h3 : NoHead (· == ' ') v) (h4 : NoHead isRoleChar (sp ++ v)) :
      LineForm ('.' :: (role ++ sp ++ v)) [.tok .LABEL ('.' :: role), .skip sp, .tok .TEXT v]
  /-- `*** item`, indented at will -/
  | list (ind mark sp v : Str) (h1 : Spaces ind) (h2 : mark ≠ []) (h3 : ∀ c ∈ mark, isListChar c = true)
      (h4 : sp ≠ []) (h5 : Spaces sp) (h6 : NoHead (· == ' ') v) :
      LineForm (ind ++ mark ++ sp ++ v) [.skip ind, .tok .LIST mark, .skip sp, .tok .TEXT v]
  /-- `=== title` (`n` further signs) -/
  | header (n : Nat) (sp v : Str) (h1 : Spaces sp) (h2 : v ≠ []) (h3 : NoHead (· == ' ') v)
      (h4 : NoHead (· == '=') (sp ++ v)) :
      LineForm (List.replicate (n + 1) '=' ++ sp ++ v)
        [.tok .HEADER (List.replicate (n + 1) '='), .skip sp, .tok .TEXT v]
  /-- `=== ` and spaces only: the last space is the title -/
  | headerSpace (n : Nat) (sp : Str) (h1 : Spaces sp) :
      LineForm (List.replicate (n + 1) '=' ++ sp ++ [' '])
        [.tok .HEADER (List.replicate (n + 1) '='), .skip sp, .tok .TEXT [' ']]
  /-- `===` alone (two or more signs): the last sign is the title -/
  | headerSign (n : Nat) :
      LineForm (List.replicate (n + 1) '=' ++ ['='])
        [.tok .HEADER (List.replicate (n + 1) '='), .skip [], .tok .TEXT ['=']]

/-- The characters of the source text (given as lines) between two positions: start inclusive, end
exclusive. `sl`, `sc` is the position of the first character: line numbers are shifted by `sl`,
and columns by `sc` on the first line only. -/
def region (ls : List Str) (sl sc : Nat) (c : Context) : Str :=
  let off := fun l => if l = sl then sc else 0
  let seg := (ls.drop (c.startLine - sl)).take (c.endLine + 1 - c.startLine)
  match seg.reverse with
  | [] => []
  | last :: before =>
    match (before.reverse ++ [last.take (c.endColumn - off c.endLine)]) with
    | [] => []
    | first :: more => joinWith ['\n'] (first.drop (c.startColumn - off c.startLine) :: more)

/-- Only the kind and the text of each token; of an error only its message. -/
def shape (r : Except Err (List Token)) : Except Msg (List (TokenType × Str)) :=
  match r with
  | .ok ts => .ok (ts.map fun t => (t.type, t.value))
  | .error (.lexer m _ _ _) => .error m
  | .error _ => .error .lexLoop

/-- Move a context down by `sl` lines and, on the first line, right by `sc` columns. -/
def shiftCtx (sl sc : Nat) (c : Context) : Context :=
  ⟨c.startLine + sl, c.startColumn + (if c.startLine = 0 then sc else 0),
   c.endLine + sl, c.endColumn + (if c.endLine = 0 then sc else 0), c.source⟩

/-- The spaces at the end of a line taken off. -/
def dropTrailing (s : Str) : Str := (s.reverse.dropWhile (· == ' ')).reverse

end Mau.Spec
