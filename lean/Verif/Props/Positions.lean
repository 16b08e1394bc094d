import Verif.Model.TextBuffer
import Verif.Lemmas.Str

/-! # C01, C02, C03: contexts, line tokens, the text buffer -/

namespace Mau

/-! ## C01 — merging source positions -/

/-- Specification: `c` covers `d`: the line range and the column range of `d` lie inside those
of `c`. -/
def Context.Covers (c d : Context) : Prop :=
  c.startLine ≤ d.startLine ∧ d.endLine ≤ c.endLine ∧
  c.startColumn ≤ d.startColumn ∧ d.endColumn ≤ c.endColumn

/-- C01: the merged context covers both parts and keeps the first source. -/
theorem C01_merge_covers (a b : Context) :
    (a.merge b).Covers a ∧ (a.merge b).Covers b ∧ (a.merge b).source = a.source := by
  simp only [Context.Covers, Context.merge, and_true]
  omega

/-- C01: every context that covers both parts covers the merged one (it is the smallest). -/
theorem C01_merge_least (a b c : Context) (ha : c.Covers a) (hb : c.Covers b) :
    c.Covers (a.merge b) := by
  simp only [Context.Covers, Context.merge] at *
  omega

/-- C01: merging is idempotent. -/
theorem C01_merge_idem (a : Context) : a.merge a = a := by
  cases a; simp [Context.merge]

/-- C01: merging is associative. -/
theorem C01_merge_assoc (a b c : Context) : (a.merge b).merge c = a.merge (b.merge c) := by
  simp only [Context.merge, Context.mk.injEq, and_true]; omega

/-- C01: merging is commutative up to the source. -/
theorem C01_merge_comm (a b : Context) :
    { a.merge b with source := none } = { b.merge a with source := none } := by
  simp only [Context.merge, Context.mk.injEq, and_true]; omega

/-- C01: shifting for display moves the lines by one and nothing else. -/
theorem C01_adjust (a : Context) :
    a.adjust = { a with startLine := a.startLine + 1, endLine := a.endLine + 1 } := by
  simp [Context.adjust, Context.moveTo]

example : (⟨3, 0, 3, 9, none⟩ : Context).Covers ⟨3, 2, 3, 5, none⟩ ∧
    (⟨1, 4, 1, 9, none⟩ : Context).merge ⟨3, 2, 3, 5, some c%"f"⟩ = ⟨1, 2, 3, 9, none⟩ := by
  simp [Context.Covers, Context.merge]

/-! ## C02 — splitting a token into lines -/

/-- C02: joining the line tokens with newlines gives the value back. -/
theorem C02_join (t : Token) :
    joinWith ['\n'] (t.toTokenList.map (·.value)) = t.value := by
  have : t.toTokenList.map (·.value) = splitChar '\n' t.value := by
    apply List.ext_getElem
    · simp [Token.toTokenList]
    · intro i h1 h2; simp [Token.toTokenList, Token.lineToken]
  rw [this, join_split]

/-- C02: the token made of a list of tokens is a text token with their values joined, from the start of the first to the end of the last: its
context is the smallest that covers both. -/
theorem C02_joined (first last : Token) (between : List Token) (sep : Str) :
    let joined := Token.fromTokenList (first :: (between ++ [last])) sep
    joined.type = .TEXT ∧ joined.value = joinWith sep ((first :: (between ++ [last])).map (·.value)) ∧
    joined.ctx.Covers first.ctx ∧ joined.ctx.Covers last.ctx ∧ (∀ c : Context, c.Covers first.ctx → c.Covers last.ctx → c.Covers joined.ctx) ∧
    joined.ctx.source = first.ctx.source := by
  have h : Token.fromTokenList (first :: (between ++ [last])) sep =
      ⟨.TEXT, joinWith sep ((first :: (between ++ [last])).map (·.value)), first.ctx.merge last.ctx⟩ := by
    unfold Token.fromTokenList
    have : (first :: (between ++ [last])).getLast? = some last := by
      rw [show first :: (between ++ [last]) = (first :: between) ++ [last] from rfl, List.getLast?_append]
      rfl
    rw [this]
    rfl
  obtain ⟨h1, h2, h3⟩ := C01_merge_covers first.ctx last.ctx
  dsimp only
  rw [h]
  exact ⟨rfl, rfl, h1, h2, fun c => C01_merge_least _ _ c, h3⟩

/-- C02: a single token keeps its context. -/
theorem C02_single (t : Token) (sep : Str) : Token.fromTokenList [t] sep = ⟨.TEXT, t.value, t.ctx⟩ := by
  simp [Token.fromTokenList, C01_merge_idem, joinWith]

example : (Token.fromTokenList [⟨.TEXT, c%"a", ⟨1, 4, 1, 5, none⟩⟩, ⟨.LITERAL, c%"b", ⟨2, 0, 2, 1, none⟩⟩] c%"-") =
    ⟨.TEXT, c%"a-b", ⟨1, 0, 2, 5, none⟩⟩ := by decide

/-- C02: there is one text token per line (newlines plus one), and the `i`-th line token has no
newline, sits `i` lines below the start, on one line, with a column span equal to its length. -/
theorem C02_position (t : Token) :
    t.toTokenList.length = t.value.count '\n' + 1 ∧
    ∀ i l, t.toTokenList[i]? = some l →
      '\n' ∉ l.value ∧ l.type = .TEXT ∧ l.ctx.startLine = t.ctx.startLine + i ∧
      l.ctx.endLine = l.ctx.startLine ∧ l.ctx.startColumn = t.ctx.startColumn ∧
      l.ctx.endColumn = l.ctx.startColumn + l.value.length ∧ l.ctx.source = t.ctx.source := by
  constructor
  · simp only [Token.toTokenList, List.length_mapIdx]
    generalize t.value = s
    induction s with
    | nil => simp
    | cons c cs ih =>
      by_cases h : c = '\n'
      · subst h; simp [ih]
      · obtain ⟨l, ls, h1, h2⟩ := splitChar_cons_ne h cs
        rw [h2]; rw [h1] at ih; simp [h] at ih ⊢; exact ih
  · intro i l h
    simp only [Token.toTokenList, List.getElem?_mapIdx, Option.map_eq_some_iff] at h
    obtain ⟨s, hs, rfl⟩ := h
    refine ⟨sep_not_mem_of_mem_split (List.mem_of_getElem? hs), ?_⟩
    simp [Token.lineToken, Context.moveTo]

example : (⟨.TEXT, c%"ab\n\nc", ⟨2, 5, 4, 1, none⟩⟩ : Token).toTokenList.map (·.value)
    = [c%"ab", [], c%"c"] := by decide

/-! ## C03 — the text buffer -/

/-- The operations a user of the buffer can apply. -/
inductive BufOp where
  | nextline
  | skip (n : Nat)

/-- Apply one operation. -/
def BufOp.run (b : TextBuffer) : BufOp → TextBuffer
  | .nextline => b.nextline
  | .skip n => b.skip n

/-- The buffer after a history of operations on a loaded text. -/
def bufAfter (text : Str) (ops : List BufOp) : TextBuffer :=
  ops.foldl BufOp.run (TextBuffer.ofText text)

/-- The lines of a text (none for the empty text). -/
def textLines (text : Str) : List Str := if text = [] then [] else splitChar '\n' text

/-- Specification: where a history of operations leads — the number of line changes (the
buffer stops counting one past the last line plus one) and the columns skipped since. -/
def specPosition (nlines : Nat) : List BufOp → Nat × Nat → Nat × Nat
  | [], p => p
  | .nextline :: ops, (l, _) => specPosition nlines ops (min (l + 1) (nlines + 1), 0)
  | .skip n :: ops, (l, c) => specPosition nlines ops (l, c + n)

theorem ofText_lines (text : Str) (sl sc : Nat) (src : Option Str) :
    (TextBuffer.ofText text sl sc src).lines = textLines text := by
  simp only [TextBuffer.ofText, textLines]; split <;> simp_all

theorem bufAfter_spec (text : Str) (ops : List BufOp) :
    (bufAfter text ops).lines = textLines text ∧
    ((bufAfter text ops).line, (bufAfter text ops).column)
      = specPosition (textLines text).length ops (0, 0) := by
  have key : ∀ (ops : List BufOp) (b : TextBuffer), b.line ≤ b.lines.length + 1 →
      (ops.foldl BufOp.run b).lines = b.lines ∧
      ((ops.foldl BufOp.run b).line, (ops.foldl BufOp.run b).column)
        = specPosition b.lines.length ops (b.line, b.column) := by
    intro ops
    induction ops with
    | nil => intro b _; simp [specPosition]
    | cons o ops ih =>
      intro b hb
      cases o with
      | nextline =>
        have := ih b.nextline (by simp only [TextBuffer.nextline]; split <;> omega)
        simp only [List.foldl_cons, BufOp.run, specPosition]
        have e : b.nextline.line = min (b.line + 1) (b.lines.length + 1) := by
          simp only [TextBuffer.nextline]; split <;> omega
        rw [this.1, this.2]
        simp only [TextBuffer.nextline] at e ⊢
        simp [e]
      | skip n =>
        have := ih (b.skip n) (by simpa [TextBuffer.skip] using hb)
        simp only [List.foldl_cons, BufOp.run, specPosition]
        rw [this.1, this.2]
        simp [TextBuffer.skip]
  have := key ops (TextBuffer.ofText text) (by simp [TextBuffer.ofText])
  rw [ofText_lines] at this
  simpa [bufAfter, TextBuffer.ofText] using this

/-- C03: after any history of `nextline`/`skip` calls the current line is the line of the text
the history leads to, and the empty string beyond the last one. -/
theorem C03_current_line (text : Str) (ops : List BufOp) :
    (bufAfter text ops).currentLine =
      ((textLines text)[(specPosition (textLines text).length ops (0, 0)).1]?).getD [] := by
  obtain ⟨h1, h2⟩ := bufAfter_spec text ops
  have := congrArg Prod.fst h2
  simp only [TextBuffer.currentLine, h1, List.getD_eq_getElem?_getD]
  rw [← this]

/-- C03: walking line by line visits the lines in order. -/
theorem C03_walk (text : Str) (k : Nat) (h : k < (textLines text).length) :
    (bufAfter text (List.replicate k .nextline)).currentLine = (textLines text)[k] := by
  rw [C03_current_line]
  have : ∀ (k m : Nat), m + k < (textLines text).length →
      specPosition (textLines text).length (List.replicate k .nextline) (m, 0) = (m + k, 0) := by
    intro k
    induction k with
    | zero => intro m _; simp [specPosition]
    | succ k ih =>
      intro m hm
      simp only [List.replicate_succ, specPosition]
      rw [Nat.min_eq_left (by omega), ih (m + 1) (by omega)]
      simp; omega
  rw [this k 0 (by omega)]
  simp [h]

/-- C03: the buffer is at EOF exactly when it is past the last line, or on the last line with
no character left. -/
theorem C03_eof (text : Str) (ops : List BufOp) :
    (bufAfter text ops).eof = true ↔
      (textLines text).length ≤ (bufAfter text ops).line ∨
      ((bufAfter text ops).line + 1 = (textLines text).length ∧
        (bufAfter text ops).tail = []) := by
  obtain ⟨h1, -⟩ := bufAfter_spec text ops
  simp only [TextBuffer.eof, h1, TextBuffer.tail]
  generalize (bufAfter text ops) = b at *
  cases hl : textLines text with
  | nil => simp
  | cons l ls => simp; omega

/-- C03: `tail` is the current character (if any) followed by the tail after skipping it. -/
theorem C03_tail (b : TextBuffer) :
    b.tail = b.currentChar.toList ++ (b.skip 1).tail := by
  simp only [TextBuffer.tail, TextBuffer.currentChar, TextBuffer.skip, TextBuffer.currentLine]
  generalize b.lines.getD b.line [] = l
  by_cases h : b.column < l.length
  · rw [List.drop_eq_getElem_cons h]; simp [h]
  · simp [Nat.le_of_not_lt h]; omega

/-- C03: at EOF or at the end of a line the current character is absent (the empty string). -/
theorem C03_eol (b : TextBuffer) : b.eol = true ↔ b.currentChar = none := by
  simp [TextBuffer.eol, TextBuffer.currentChar]

/-- C03: the next character is the current one after one step on the line. -/
theorem C03_peek (b : TextBuffer) : b.peekChar = (b.skip 1).currentChar := rfl

example : textLines c%"a\n\nbc" = [c%"a", [], c%"bc"] ∧
    (bufAfter c%"a\n\nbc" [.nextline, .nextline, .skip 2]).eof = true ∧
    (bufAfter c%"a\n\nbc" [.nextline, .nextline, .skip 1]).eof = false := by decide

end Mau
