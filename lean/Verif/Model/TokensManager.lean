import Verif.Model.Token

/-!
# The tokens manager

Models `mau/parsers/managers/tokens_manager.py`.
-/

namespace Mau

/-- tokens_manager.py:29-42 — the fields of `TokensManager`. The Python `index` starts
at -1 and is at most `len(tokens)`; the model stores `next = index + 1`. The stack of
saved indices is represented by the nesting of `TM.attempt`. -/
structure TM where
  tokens : List Token
  next : Nat := 0
  deriving DecidableEq, Repr

namespace TM

/-- tokens_manager.py:44-63 — `current_token` (`index < 0` is `next = 0`). -/
def currentToken (tm : TM) : Except Err Token :=
  match tm.tokens.getLast? with
  | none => .error .token
  | some l =>
    match tm.next with
    | 0 => .ok l
    | i + 1 => .ok (tm.tokens.getD i l)

/-- tokens_manager.py:65-67 — `_advance`. -/
def advance (tm : TM) : TM :=
  if tm.next < tm.tokens.length + 1 then { tm with next := tm.next + 1 } else tm

/-- tokens_manager.py:112-141 — `_check_token`. -/
def checkToken (t : Token) (ty : Option TokenType) (v : Option Str)
    (f : Option (Str → Bool)) : Except Err Token :=
  if ty.getD t.type ≠ t.type then .error .token
  else if v.isSome && v ≠ some t.value then .error .token
  else if (f.map (· t.value)) = some false then .error .token
  else .ok t

/-- tokens_manager.py:143-164 — `peek_token`. With no tokens at all Python raises
IndexError (`self.tokens[-1]`). -/
def peek (tm : TM) (ty : Option TokenType := none) (v : Option Str := none)
    (f : Option (Str → Bool) := none) : Except Err Token :=
  match tm.tokens[tm.next]? with
  | some t => checkToken t ty v f
  | none =>
    match tm.tokens.getLast? with
    | none => .error (.py .indexError)
    | some t => checkToken t ty v f

/-- tokens_manager.py:166-183 — `get_token`. -/
def get (tm : TM) (ty : Option TokenType := none) (v : Option Str := none)
    (f : Option (Str → Bool) := none) : Except Err (Token × TM) :=
  match tm.peek ty v f with
  | .error e => .error e
  | .ok _ =>
    let tm' := tm.advance
    match tm'.currentToken with
    | .error e => .error e
    | .ok t => .ok (t, tm')

/-- tokens_manager.py:185-201 — `peek_token_is`: only the token error is caught. -/
def peekIs (tm : TM) (ty : TokenType) (v : Option Str := none)
    (f : Option (Str → Bool) := none) : Except Err Bool :=
  match tm.peek (some ty) v f with
  | .ok _ => .ok true
  | .error .token => .ok false
  | .error e => .error e

/-- tokens_manager.py:69-110 — `with self.tm: result = f()`. The attempt `f` moves the
manager and either returns or raises. On a token error the index is restored and the
error swallowed (`none`); on another error the index is restored and the error
propagates; otherwise the attempt's index is kept. -/
def attempt {α : Type} (f : TM → Except Err α × TM) (tm : TM) : Except Err (Option α) × TM :=
  match f tm with
  | (.ok a, tm') => (.ok (some a), tm')
  | (.error .token, tm') => (.ok none, { tm' with next := tm.next })
  | (.error e, tm') => (.error e, { tm' with next := tm.next })

/-- The escape token compared with in `collect` (tokens_manager.py:230). -/
def escapeToken : Token := Token.generate .LITERAL ['\\']

/-- `token in stop_tokens` with `Token.__eq__`. -/
def isStop (stops : List Token) (t : Token) : Bool := stops.any (·.eqv t)

/-- tokens_manager.py:203-244 — the loop of `collect`; `stops` already contains EOF.
`fuel` bounds the number of rounds. -/
def collectLoop (stops : List Token) (preserve : Bool) :
    Nat → TM → List Token → Except Err (List Token × TM)
  | 0, _, _ => .error .fuel
  | n + 1, tm, acc => do
    let t ← tm.peek
    if isStop stops t then return (acc, tm)
    else if t.eqv escapeToken then
      let (escape, tm) ← tm.get
      let t2 ← tm.peek
      let acc := if !isStop stops t2 || preserve then acc ++ [escape] else acc
      let (t3, tm) ← tm.get
      collectLoop stops preserve n tm (acc ++ [t3])
    else
      let (t2, tm) ← tm.get
      collectLoop stops preserve n tm (acc ++ [t2])

/-- tokens_manager.py:203-244 — `collect`. -/
def collect (tm : TM) (stops : List Token) (preserve : Bool := false) :
    Except Err (List Token × TM) :=
  collectLoop (stops ++ [Token.generate .EOF]) preserve (tm.tokens.length + 2) tm []

/-- tokens_manager.py:246-274 — `collect_join`. -/
def collectJoin (tm : TM) (stops : List Token) (joinStr : Str := []) (preserve : Bool := false) :
    Except Err (Token × TM) := do
  let (ts, tm) ← tm.collect stops preserve
  match ts.head?, ts.getLast? with
  | some t0, some t1 =>
    let values := (ts.map (·.value)).filter (fun v => !v.isEmpty)
    return (⟨.TEXT, joinWith joinStr values, t0.ctx.merge t1.ctx⟩, tm)
  | _, _ => return (⟨.TEXT, [], Context.empty⟩, tm)

end TM

end Mau
