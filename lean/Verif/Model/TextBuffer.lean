import Verif.Model.Token

/-!
# The text buffer

Models `mau/text_buffer.py`, class `TextBuffer` (lines 159-283).
-/

namespace Mau

/-- mau/text_buffer.py:159-174 — the fields of `TextBuffer`. -/
structure TextBuffer where
  lines : List Str
  line : Nat := 0
  column : Nat := 0
  startLine : Nat := 0
  startColumn : Nat := 0
  source : Option Str := none
  deriving DecidableEq, Repr

namespace TextBuffer

/-- mau/text_buffer.py:160-174 — the constructor. -/
def ofText (text : Str) (startLine startColumn : Nat := 0) (source : Option Str := none) :
    TextBuffer where
  lines := if text ≠ [] then splitChar '\n' text else []
  startLine := startLine
  startColumn := startColumn
  source := source

/-- mau/text_buffer.py:205-216 — `current_line`. -/
def currentLine (b : TextBuffer) : Str := b.lines.getD b.line []

/-- mau/text_buffer.py:176-196 — `eof`. -/
def eof (b : TextBuffer) : Bool :=
  if b.lines.isEmpty then true
  else if b.line + 1 == b.lines.length && b.column ≥ b.currentLine.length then true
  else b.line ≥ b.lines.length

/-- mau/text_buffer.py:198-203 — `eol`. -/
def eol (b : TextBuffer) : Bool := b.column ≥ b.currentLine.length

/-- mau/text_buffer.py:218-230 — `current_char` (the empty string past the end: `none`). -/
def currentChar (b : TextBuffer) : Option Char := b.currentLine[b.column]?

/-- mau/text_buffer.py:232-245 — `peek_char`. -/
def peekChar (b : TextBuffer) : Option Char := b.currentLine[b.column + 1]?

/-- mau/text_buffer.py:247-255 — `tail`. -/
def tail (b : TextBuffer) : Str := b.currentLine.drop b.column

/-- mau/text_buffer.py:257-262 — `position`. -/
def position (b : TextBuffer) : Nat × Nat :=
  (b.line + b.startLine, b.column + b.startColumn)

/-- mau/text_buffer.py:264-276 — `nextline`. -/
def nextline (b : TextBuffer) : TextBuffer :=
  { b with
    line := if b.line ≤ b.lines.length then b.line + 1 else b.line
    startColumn := 0
    column := 0 }

/-- mau/text_buffer.py:278-283 — `skip`. -/
def skip (b : TextBuffer) (chars : Nat := 1) : TextBuffer :=
  { b with column := b.column + chars }

end TextBuffer

end Mau
