import Verif.Basic

/-!
# Contexts and tokens

Models `mau/text_buffer.py` (class `Context`) and `mau/token.py`.
-/

namespace Mau

namespace Context

/-- mau/text_buffer.py:57-59 — `Context.empty`. -/
def empty : Context := ⟨0, 0, 0, 0, none⟩

/-- mau/text_buffer.py:61-75 — `Context.merge_contexts`. -/
def merge (c1 c2 : Context) : Context where
  startLine := min c1.startLine c2.startLine
  startColumn := min c1.startColumn c2.startColumn
  endLine := max c1.endLine c2.endLine
  endColumn := max c1.endColumn c2.endColumn
  source := c1.source

/-- mau/text_buffer.py:85-92 — `move_to`, which mutates and returns `self`; here the
moved context is returned (callers use `clone().move_to(..)` or discard the original). -/
def moveTo (c : Context) (line column : Nat) : Context :=
  { c with
    startLine := c.startLine + line
    endLine := c.endLine + line
    startColumn := c.startColumn + column
    endColumn := c.endColumn + column }

/-- mau/text_buffer.py:8-17 — `adjust_context` (clone, then move one line down). -/
def adjust (c : Context) : Context := c.moveTo 1 0

end Context

/-- mau/token.py:8-30 — `TokenType`; the unused members COMMENT, EMPTY,
MULTILINE_COMMENT are left out. -/
inductive TokenType where
  | ARGUMENTS | BLOCK | CONTROL | EOF | EOL | HEADER | HORIZONTAL_RULE | INCLUDE
  | LIST | LITERAL | TEXT | LABEL | VARIABLE | WHITESPACE
  deriving DecidableEq, Repr

/-- mau/token.py:33-47 — class `Token`. -/
structure Token where
  type : TokenType
  value : Str
  ctx : Context
  deriving DecidableEq, Repr

namespace Token

/-- mau/token.py:122-129 — `Token.__eq__` compares type and value only. -/
def eqv (a b : Token) : Bool := a.type == b.type && a.value == b.value

/-- mau/token.py:49-52 — `Token.generate`. -/
def generate (t : TokenType) (v : Str := []) : Token := ⟨t, v, Context.empty⟩

/-- mau/token.py:54-80 — `Token.from_token_list`. -/
def fromTokenList (tokens : List Token) (joinStr : Str := []) : Token :=
  match tokens.head?, tokens.getLast? with
  | some t0, some t1 =>
    ⟨.TEXT, joinWith joinStr (tokens.map (·.value)), t0.ctx.merge t1.ctx⟩
  | _, _ => ⟨.TEXT, [], Context.empty⟩

/-- mau/token.py:94-108 — the loop body of `to_token_list` for line number `i`. -/
def lineToken (c : Context) (i : Nat) (line : Str) : Token :=
  let m := c.moveTo i 0
  ⟨.TEXT, line, { m with endColumn := m.startColumn + line.length, endLine := m.startLine }⟩

/-- mau/token.py:82-110 — `Token.to_token_list`. -/
def toTokenList (t : Token) : List Token :=
  (splitChar '\n' t.value).mapIdx fun i l => lineToken t.ctx i l

end Token

end Mau
