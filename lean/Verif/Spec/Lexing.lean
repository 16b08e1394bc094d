import Verif.Model.DocumentLexer

/-!
# Specification of lexing

Line-wise descriptions of what the lexers produce, independent of the lexers' loop,
buffer and position bookkeeping. `Verif.Props.Lexing` proves that the model of the
code agrees with them for every text.
-/

namespace Mau.Spec

/-- A token with value `v` starting at line `ln`, column `col` and ending after `v`. -/
def tokAt (ty : TokenType) (v : Str) (ln col : Nat) (src : Option Str) : Token :=
  ⟨ty, v, ⟨ln, col, ln, col + v.length, src⟩⟩

/-- Consecutive pieces of one line, starting at `col`: tokens, or skipped characters. -/
def place (ln : Nat) (src : Option Str) : Nat → List Piece → List Token
  | _, [] => []
  | col, .tok ty v :: ps => tokAt ty v ln col src :: place ln src (col + v.length) ps
  | col, .skip v :: ps => place ln src (col + v.length) ps

/-- The characters of a piece. -/
def pieceText : Piece → Str
  | .tok _ v => v
  | .skip v => v

/-- The characters of consecutive pieces. -/
def piecesText (ps : List Piece) : Str := (ps.map pieceText).flatten

/-! ## Inline lexers -/

/-- How an inline lexer cuts the next token off a non-blank rest of a line: its kind and the
number of characters (at least one). -/
abbrev Cutter := Str → TokenType × Nat

/-- Cut a line into tokens until only spaces are left. -/
def cutLine (cut : Cutter) : (fuel : Nat) → Str → List Piece
  | 0, _ => []
  | n + 1, s =>
    if isBlank s then []
    else .tok (cut s).1 (s.take (cut s).2) :: cutLine cut n (s.drop (cut s).2)

/-- The tokens of a text given as lines, the first of which starts at `ln`, `col`:
* a blank line gives one EOL token with its spaces (an empty last line gives nothing);
* any other line gives its pieces; spaces at its end give nothing;
* EOF stands at the end of the last line, or on the next line if spaces were left out at the end
  of the last line or the last line was blank. -/
def inlineTokens (cut : Cutter) (src : Option Str) (ln : Nat) : (col : Nat) → List Str → List Token
  | col, [] => [tokAt .EOF [] ln col src]
  | col, l :: rest =>
    if isBlank l then
      if l = [] ∧ rest = [] then [tokAt .EOF [] ln col src]
      else tokAt .EOL l ln col src :: inlineTokens cut src (ln + 1) 0 rest
    else
      let ps := cutLine cut l.length l
      place ln src col ps ++
        (if rest = [] ∧ (piecesText ps).length = l.length then
          [tokAt .EOF [] ln (col + l.length) src]
         else inlineTokens cut src (ln + 1) 0 rest)

/-- The text lexer: a space alone, a special character alone, or a run of other characters. -/
def textCut : Cutter
  | ' ' :: _ => (.TEXT, 1)
  | c :: r =>
    if textLiterals.contains c then (.LITERAL, 1)
    else (.TEXT, ((c :: r).takeWhile fun c => !(textLiterals.contains c || c == ' ')).length)
  | [] => (.TEXT, 1)

/-- The arguments lexer: a run of spaces, a special character alone, or a run of others. -/
def argsCut : Cutter
  | c :: r =>
    if c == ' ' then (.WHITESPACE, ((c :: r).takeWhile (· == ' ')).length)
    else if argsLiterals.contains c then (.LITERAL, 1)
    else (.TEXT, ((c :: r).takeWhile fun c => !(argsLiterals.contains c || c == ' ')).length)
  | [] => (.TEXT, 1)

/-- The preprocessing lexer: a special character alone or a run of others (including spaces). -/
def preCut : Cutter
  | c :: r =>
    if preLiterals.contains c then (.LITERAL, 1)
    else (.TEXT, ((c :: r).takeWhile fun c => !preLiterals.contains c).length)
  | [] => (.TEXT, 1)

/-- The lines of a text; the empty text has none. -/
def lines (text : Str) : List Str := if text = [] then [] else splitChar '\n' text

/-! ## Document lexer -/

/-- The lines up to the first one equal to `delim`, and those after it. -/
def untilLine (delim : Str) : List Str → Option (List Str × List Str)
  | [] => none
  | l :: ls =>
    if l = delim then some ([], ls)
    else (untilLine delim ls).map fun r => (l :: r.1, r.2)

/-- The forms of a single document line, in order of precedence, as pieces. A line that matches
none is text. -/
def linePieces (l : Str) : List Piece :=
  ((((((((matchComment l).orElse fun _ => matchHorizontalRule l).orElse
    fun _ => matchControl l).orElse fun _ => matchInclude l).orElse
    fun _ => matchVariable l).orElse fun _ => matchArguments l).orElse
    fun _ => matchLabel l).orElse fun _ => (matchList l).orElse
    fun _ => matchHeader l).getD [.tok .TEXT l]

theorem untilLine_length {delim : Str} {ls cs rest : List Str}
    (h : untilLine delim ls = some (cs, rest)) : rest.length < ls.length := by
  induction ls generalizing cs rest with
  | nil => simp [untilLine] at h
  | cons l ls ih =>
    simp only [untilLine] at h
    split at h
    · simp at h; simp [h.2.symm]
    · cases hu : untilLine delim ls with
      | none => simp [hu] at h
      | some r =>
        simp [hu] at h
        have := ih (cs := r.1) (rest := r.2) (by simp [hu])
        simp [← h.2]; omega

/-- The content token of a block whose content lines are `cs`, the first on line `ln`: one text
token with the lines joined by newlines, or none if there are no lines. -/
def contentToken (src : Option Str) (ln : Nat) (cs : List Str) : List Token :=
  if cs = [] then []
  else [⟨.TEXT, joinWith ['\n'] cs, ⟨ln, 0, ln + cs.length - 1, (cs.getLastD []).length, src⟩⟩]

/-- The tokens of a document given as lines, the first of which starts at `ln`, `col`. -/
def docTokens (src : Option Str) (ln col : Nat) : List Str → Except Err (List Token)
  | [] => .ok [tokAt .EOF [] ln col src]
  | l :: rest =>
    if l = [] ∧ rest = [] then .ok [tokAt .EOF [] ln col src]
    else if isBlank l then
      (docTokens src (ln + 1) 0 rest).map fun ts => tokAt .EOL l ln col src :: ts
    else if l = c%"////" then
      match h : untilLine l rest with
      | none => .error (.lexer .unclosedComment ln col src)
      | some r => docTokens src (ln + r.1.length + 2) 0 r.2
    else if isBlockDelimiter l then
      match h : untilLine l rest with
      | none => .error (.lexer .unclosedBlock ln col src)
      | some r =>
        (docTokens src (ln + r.1.length + 2) 0 r.2).map fun ts =>
          tokAt .BLOCK l ln col src :: contentToken src (ln + 1) r.1 ++
            tokAt .BLOCK l (ln + r.1.length + 1) 0 src :: ts
    else
      (docTokens src (ln + 1) 0 rest).map fun ts => place ln src col (linePieces l) ++ ts
termination_by ls => ls.length
decreasing_by
  all_goals first
    | simp; done
    | (have := untilLine_length (cs := r.1) (rest := r.2) (by simpa using h); simp; omega)

end Mau.Spec
