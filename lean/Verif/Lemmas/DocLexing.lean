import Verif.Lemmas.Lexing

/-! # The document lexer meets its line-wise specification -/

set_option linter.unusedSimpArgs false

namespace Mau
open Spec

/-- The buffer moved to the start of a line `k` lines further down. -/
def TextBuffer.down (b : TextBuffer) (k : Nat) : TextBuffer :=
  { b with line := b.line + k, column := 0, startColumn := 0 }

theorem nextline_eq_down {b : TextBuffer} (h : b.line ≤ b.lines.length) :
    b.nextline = b.down 1 := by
  simp [TextBuffer.nextline, TextBuffer.down, h]

theorem down_down (b : TextBuffer) (j k : Nat) : (b.down j).down k = b.down (j + k) := by
  simp [TextBuffer.down, Nat.add_assoc]

theorem skip_down (b : TextBuffer) (j k : Nat) : (b.skip j).down k = b.down k := by
  simp [TextBuffer.skip, TextBuffer.down]

theorem emitPieces_eq (ps : List Piece) (b : TextBuffer) :
    emitPieces ps b = (b.skip (piecesText ps).length, place b.position.1 b.source b.position.2 ps) := by
  induction ps generalizing b with
  | nil => simp [emitPieces, place, piecesText, TextBuffer.skip]
  | cons p ps ih =>
    cases p with
    | tok ty v =>
      simp only [emitPieces, createTokenAndSkip_eq, ih, place]
      simp [TextBuffer.skip, TextBuffer.position, piecesText, pieceText, Nat.add_assoc, Nat.add_comm,
        Nat.add_left_comm]
    | skip v =>
      simp only [emitPieces, ih, place]
      simp [TextBuffer.skip, TextBuffer.position, piecesText, pieceText, Nat.add_assoc, Nat.add_comm,
        Nat.add_left_comm]

theorem collectUntil_eq {delim : Str} (hd : delim ≠ []) :
    ∀ (ls : List Str) (n : Nat) (b : TextBuffer), b.lines.drop b.line = ls → b.column = 0 →
      b.startColumn = 0 → ls.length < n →
      collectUntil delim n b = (untilLine delim ls).map fun r => (r.1, b.down r.1.length) := by
  intro ls
  induction ls with
  | nil =>
    intro n b h hc hsc hn
    obtain ⟨n, rfl⟩ : ∃ k, n = k + 1 := ⟨n - 1, by simp at hn; omega⟩
    have : b.eof = true := eof_of_ge (by simpa using h)
    simp [collectUntil, untilLine, this]
  | cons l ls ih =>
    intro n b h hc hsc hn
    have hon : OnLine b l ls := ⟨h⟩
    obtain ⟨n, rfl⟩ : ∃ k, n = k + 1 := ⟨n - 1, by simp at hn; omega⟩
    have hb0 : b.down 0 = b := by cases b; simp_all [TextBuffer.down]
    simp only [collectUntil, hon.cur, untilLine]
    by_cases he : b.eof = true
    · have := hon.eof.1 he
      have hl : l = [] := by
        have h2 := this.2; rw [hc] at h2; exact List.eq_nil_of_length_eq_zero (by omega)
      rw [if_pos he, this.1, hl, if_neg (by intro e; exact hd e.symm)]
      simp [untilLine]
    · rw [if_neg he]
      by_cases hl : l = delim
      · simp [hl, hb0]
      · rw [if_neg hl, if_neg hl]
        have hlt := hon.lt
        have hnd : b.nextline = b.down 1 := nextline_eq_down (by omega)
        have := ih n b.nextline (by rw [hon.nextline_line]; exact hon.rest_eq)
          (by simp [TextBuffer.nextline]) (by simp [TextBuffer.nextline]) (by simp at hn; omega)
        rw [this, hnd]
        cases hu : untilLine delim ls with
        | none => simp
        | some r => simp [down_down, Nat.add_comm]

theorem lineFn_none {m : Str → Option (List Piece)} {b : TextBuffer} (h : m b.currentLine = none) :
    lineFn m b = .ok none := by simp [lineFn, h]

theorem lineFn_some {m : Str → Option (List Piece)} {b : TextBuffer} {ps} (h : m b.currentLine = some ps) :
    lineFn m b = .ok (some (b.nextline, place b.position.1 b.source b.position.2 ps)) := by
  simp [lineFn, h, emitPieces_eq, nextline_skip]

theorem firstMatch_lineFn {m : Str → Option (List Piece)} {fs : List ProcFn} {b : TextBuffer} :
    firstMatch (lineFn m :: fs) b =
      match m b.currentLine with
      | some ps => .ok (b.nextline, place b.position.1 b.source b.position.2 ps)
      | none => firstMatch fs b := by
  cases h : m b.currentLine with
  | none => simp [firstMatch, lineFn_none h]
  | some ps => simp [firstMatch, lineFn_some h]

theorem docFirstMatch_line {b : TextBuffer} (hc : b.column = 0)
    (h1 : b.currentLine ≠ c%"////") (h2 : isBlockDelimiter b.currentLine = false) :
    firstMatch (documentLexerFns ++ [processError]) b =
      .ok (b.nextline, place b.position.1 b.source b.position.2 (linePieces b.currentLine)) := by
  have ht : b.tail = b.currentLine := by simp [TextBuffer.tail, hc]
  simp only [documentLexerFns, List.cons_append, List.nil_append]
  rw [firstMatch_cons_none (by simp [docMultilineComment]; intro e; exact absurd e h1)]
  simp only [firstMatch_lineFn]
  rw [firstMatch_cons_none (f := docBlock) (by simp [docBlock, h2])]
  simp only [firstMatch_lineFn, linePieces]
  cases matchComment b.currentLine <;> simp only [Option.orElse_some, Option.orElse_none, Option.getD_some]
  cases matchHorizontalRule b.currentLine <;> simp only [Option.orElse_some, Option.orElse_none, Option.getD_some]
  cases matchControl b.currentLine <;> simp only [Option.orElse_some, Option.orElse_none, Option.getD_some]
  cases matchInclude b.currentLine <;> simp only [Option.orElse_some, Option.orElse_none, Option.getD_some]
  cases matchVariable b.currentLine <;> simp only [Option.orElse_some, Option.orElse_none, Option.getD_some]
  cases matchArguments b.currentLine <;> simp only [Option.orElse_some, Option.orElse_none, Option.getD_some]
  cases matchLabel b.currentLine <;> simp only [Option.orElse_some, Option.orElse_none, Option.getD_some]
  cases matchList b.currentLine <;> simp only [Option.orElse_some, Option.orElse_none, Option.getD_some]
  cases matchHeader b.currentLine <;> simp only [Option.orElse_some, Option.orElse_none, Option.getD_some]
  simp [firstMatch, processTailText, createTokenAndSkip_eq, ht, nextline_skip, place]

/-- The content line found by `untilLine` and the lines after it, as positions in the list. -/
theorem untilLine_append {delim : Str} {ls : List Str} {r : List Str × List Str}
    (h : untilLine delim ls = some r) : ls = r.1 ++ delim :: r.2 := by
  induction ls generalizing r with
  | nil => simp [untilLine] at h
  | cons l ls ih =>
    simp only [untilLine] at h
    split at h
    · rename_i e; simp at h; subst h; simp [e]
    · cases hu : untilLine delim ls with
      | none => simp [hu] at h
      | some q => simp [hu] at h; subst h; simp; exact ih hu

theorem untilLine_not_mem {delim : Str} {ls : List Str} {r : List Str × List Str}
    (h : untilLine delim ls = some r) : delim ∉ r.1 := by
  induction ls generalizing r with
  | nil => simp [untilLine] at h
  | cons l ls ih =>
    simp only [untilLine] at h
    split at h
    · simp at h; simp [← h]
    · rename_i e
      cases hu : untilLine delim ls with
      | none => simp [hu] at h
      | some q => simp [hu] at h; subst h; simp; exact ⟨fun e' => e e'.symm, ih hu⟩

theorem untilLine_none {delim : Str} {ls : List Str} : untilLine delim ls = none ↔ delim ∉ ls := by
  induction ls with
  | nil => simp [untilLine]
  | cons l ls ih =>
    simp only [untilLine]
    split
    · rename_i e; simp [e]
    · rename_i e
      simp [ih]
      intro _ e'; exact e e'.symm

theorem untilLine_eq_some {delim : Str} {cs rest : List Str} (h : delim ∉ cs) :
    untilLine delim (cs ++ delim :: rest) = some (cs, rest) := by
  induction cs with
  | nil => simp [untilLine]
  | cons c cs ih =>
    simp at h
    simp [untilLine, ih (by simpa using h.2), Ne.symm h.1]

theorem lexStep_doc {b : TextBuffer} {l : Str} {rest : List Str} {last}
    (hlast : last ≠ some b.position) (hon : OnLine b l rest) (hc : b.column = 0)
    (hb : isBlank l = false) :
    lexStep documentLexerFns last b = firstMatch (documentLexerFns ++ [processError]) b := by
  have hne : b.eof = false := by
    cases he : b.eof with
    | false => rfl
    | true =>
      have := (hon.eof.1 he).2
      rw [hc] at this
      have : l = [] := List.eq_nil_of_length_eq_zero (by omega)
      simp [this, isBlank] at hb
  simp only [lexStep, if_neg hlast, List.append_assoc, List.cons_append, List.nil_append]
  rw [firstMatch_cons_none (by simp [processEof, hne]),
    firstMatch_cons_none (by simp [processEmptyLine, hon.cur, hb]),
    firstMatch_cons_none (by simp [processTrailingSpaces, TextBuffer.tail, hc, hon.cur, hb])]

theorem OnLine.nextline_drop {b : TextBuffer} {l : Str} {rest : List Str} (h : OnLine b l rest) :
    b.nextline.lines.drop b.nextline.line = rest := by
  rw [h.nextline_line]; exact h.rest_eq

theorem OnLine.nextline_position {b : TextBuffer} {l : Str} {rest : List Str} (h : OnLine b l rest) :
    b.nextline.position = (b.position.1 + 1, 0) := by
  simp only [TextBuffer.position, h.nextline_line]
  simp [TextBuffer.nextline]; omega

theorem linePieces_notEof (l : Str) : ∀ ty v, Piece.tok ty v ∈ linePieces l → ty ≠ .EOF := by
  intro ty v h
  unfold linePieces at h
  cases h1 : matchComment l with
  | some ps =>
    simp only [h1, Option.orElse_some, Option.getD_some] at h
    unfold matchComment at h1; split at h1 <;> simp at h1; subst h1; simp at h
  | none =>
  cases h2 : matchHorizontalRule l with
  | some ps =>
    simp only [h1, h2, Option.orElse_none, Option.orElse_some, Option.getD_some] at h
    unfold matchHorizontalRule at h2; split at h2 <;> simp at h2; subst h2; simp at h; simp [h.1]
  | none =>
  cases h3 : matchControl l with
  | some ps =>
    simp only [h1, h2, h3, Option.orElse_none, Option.orElse_some, Option.getD_some] at h
    unfold matchControl at h3; split at h3
    · simp at h3; rw [← h3.2] at h; simp at h; rcases h with h | h | h <;> simp [h.1]
    · simp at h3
  | none =>
  have sp : ∀ r, Piece.tok ty v ∈ sepPieces r → ty ≠ .EOF := by
    intro r hr
    unfold sepPieces at hr
    split at hr
    · simp at hr; rcases hr with hr | hr
      · simp [hr.1]
      · simp [hr.2.1]
    · simp at hr; simp [hr.2.1]
  cases h4 : matchInclude l with
  | some ps =>
    simp only [h1, h2, h3, h4, Option.orElse_none, Option.orElse_some, Option.getD_some] at h
    unfold matchInclude at h4; split at h4
    · simp at h4; rw [← h4.2] at h; simp at h; rcases h with h | h | h
      · simp [h.1]
      · simp [h.1]
      · exact sp _ h
    · simp at h4
  | none =>
  cases h5 : matchVariable l with
  | some ps =>
    simp only [h1, h2, h3, h4, h5, Option.orElse_none, Option.orElse_some, Option.getD_some] at h
    unfold matchVariable at h5; split at h5
    · simp at h5; rw [← h5.2] at h; simp at h; rcases h with h | h | h
      · simp [h.1]
      · simp [h.1]
      · exact sp _ h
    · simp at h5
  | none =>
  cases h6 : matchArguments l with
  | some ps =>
    simp only [h1, h2, h3, h4, h5, h6, Option.orElse_none, Option.orElse_some, Option.getD_some] at h
    unfold matchArguments at h6; split at h6
    · split at h6
      · simp at h6; rw [← h6] at h; simp at h; rcases h with h | h | h <;> simp [h.1]
      · simp at h6
    · simp at h6
  | none =>
  cases h7 : matchLabel l with
  | some ps =>
    simp only [h1, h2, h3, h4, h5, h6, h7, Option.orElse_none, Option.orElse_some, Option.getD_some] at h
    unfold matchLabel at h7; split at h7
    · simp at h7; rw [← h7] at h; simp at h; rcases h with h | h <;> simp [h.1]
    · simp at h7
  | none =>
  cases h8 : matchList l with
  | some ps =>
    simp only [h1, h2, h3, h4, h5, h6, h7, h8, Option.orElse_none, Option.orElse_some, Option.getD_some] at h
    unfold matchList at h8; simp at h8
    rw [← h8.2] at h; simp at h; rcases h with h | h <;> simp [h.1]
  | none =>
  cases h9 : matchHeader l with
  | some ps =>
    simp only [h1, h2, h3, h4, h5, h6, h7, h8, h9, Option.orElse_none, Option.orElse_some, Option.getD_some] at h
    simp only [matchHeader] at h9
    split at h9
    · simp at h9
    · split at h9
      · simp at h9; rw [← h9] at h; simp at h; rcases h with h | h <;> simp [h.1]
      · split at h9
        · simp at h9; rw [← h9] at h; simp at h; rcases h with h | h <;> simp [h.1]
        · split at h9
          · simp at h9; rw [← h9] at h; simp at h; rcases h with h | h <;> simp [h.1]
          · simp at h9
  | none =>
    simp only [h1, h2, h3, h4, h5, h6, h7, h8, h9, Option.orElse_none, Option.getD_none] at h
    simp at h; simp [h.1]

theorem place_types {ln : Nat} {src : Option Str} {col : Nat} {ps : List Piece} {t : Token}
    (h : t ∈ place ln src col ps) : ∃ v, Piece.tok t.type v ∈ ps := by
  induction ps generalizing col with
  | nil => simp [place] at h
  | cons p ps ih =>
    cases p with
    | tok ty v =>
      simp [place] at h
      rcases h with h | h
      · subst h; exact ⟨v, by simp [tokAt]⟩
      · obtain ⟨w, hw⟩ := ih h; exact ⟨w, by simp [hw]⟩
    | skip v =>
      simp [place] at h
      obtain ⟨w, hw⟩ := ih h; exact ⟨w, by simp [hw]⟩

theorem place_notEof {ln : Nat} {src : Option Str} {col : Nat} {l : Str} {t : Token}
    (h : t ∈ place ln src col (linePieces l)) : t.type ≠ .EOF := by
  obtain ⟨v, hv⟩ := place_types h
  exact linePieces_notEof l _ _ hv

theorem lexLoop_error {fs : List ProcFn} {n : Nat} {last : Option (Nat × Nat)} {b : TextBuffer}
    {acc : List Token} {e} (h : lexStep fs last b = .error e) :
    lexLoop fs (n + 1) last b acc = .error e := by
  simp [lexLoop, h]

theorem docBlock_first {l : Str} (h : isBlockDelimiter l = true) (h1 : l ≠ c%"////") :
    matchComment l = none ∧ matchHorizontalRule l = none := by
  unfold isBlockDelimiter at h
  split at h
  · rename_i a b c d
    simp at h
    obtain ⟨⟨rfl, rfl⟩, rfl⟩ := h
    constructor
    · simp [matchComment, startsWith, List.isPrefixOf]
      intro e; subst e; simp at h1
    · simp [matchHorizontalRule]
  · simp at h

theorem docBlock_ne {l : Str} (h : isBlockDelimiter l = true) : l ≠ [] := by
  intro e; subst e; simp [isBlockDelimiter] at h

theorem lexFuel_append (as bs : List Str) : lexFuel bs ≤ lexFuel (as ++ bs) := by
  simp [lexFuel]

/-- The document lexer produces the specified tokens or error, from any line on. -/
theorem lexLoop_doc (src : Option Str) :
    ∀ (m : Nat) (ls : List Str) (n : Nat) (last : Option (Nat × Nat)) (b : TextBuffer)
      (acc : List Token), ls.length ≤ m →
      b.lines.drop b.line = ls → b.column = 0 → b.source = src → last ≠ some b.position →
      (∀ t ∈ acc, t.type ≠ .EOF) → lexFuel ls ≤ n →
      lexLoop documentLexerFns n last b acc =
        (docTokens src b.position.1 b.position.2 ls).map (acc ++ ·) := by
  intro m
  induction m with
  | zero =>
    intro ls n last b acc hm hd hcol hsrc hlast hacc hn
    have : ls = [] := List.eq_nil_of_length_eq_zero (by omega)
    subst this
    obtain ⟨n, rfl⟩ : ∃ k, n = k + 1 := ⟨n - 1, by simp [lexFuel] at hn; omega⟩
    rw [lexLoop_eof (eof_of_ge (by simpa using hd)) hlast]
    simp [docTokens, hsrc, Except.map]
  | succ m ih =>
    intro ls n last b acc hm hd hcol hsrc hlast hacc hn
    cases ls with
    | nil =>
      obtain ⟨n, rfl⟩ : ∃ k, n = k + 1 := ⟨n - 1, by simp [lexFuel] at hn; omega⟩
      rw [lexLoop_eof (eof_of_ge (by simpa using hd)) hlast]
      simp [docTokens, hsrc, Except.map]
    | cons l rest =>
      have hon : OnLine b l rest := ⟨hd⟩
      rw [lexFuel_cons] at hn
      obtain ⟨n, rfl⟩ : ∃ k, n = k + 1 := ⟨n - 1, by omega⟩
      have hlen : rest.length ≤ m := by simp at hm; omega
      rw [docTokens]
      by_cases hz : l = [] ∧ rest = []
      · rw [if_pos hz, lexLoop_eof (hon.eof.2 ⟨hz.2, by simp [hz.1]⟩) hlast, hsrc]
        simp [Except.map]
      rw [if_neg hz]
      have hne : b.eof = false := by
        cases he : b.eof with
        | false => rfl
        | true =>
          have := hon.eof.1 he
          exact absurd ⟨by simpa [hcol] using this.2, this.1⟩ hz
      have hlast' : ∀ k, (b.position.1 + (k+1), 0) ≠ b.position := by
        intro k e; have := congrArg Prod.fst e; simp at this
      by_cases hb : isBlank l = true
      · rw [if_pos hb]
        rw [lexLoop_step (lexStep_blank hon hlast hb hne) hacc (by simp [tokAt]), nextline_skip]
        rw [ih rest n _ b.nextline _ hlen hon.nextline_drop (by simp [TextBuffer.nextline])
          (by simpa [TextBuffer.nextline] using hsrc)
          (by rw [hon.nextline_position]; intro e; exact hlast' 0 (by simpa using e.symm))
          (by
            intro t ht
            simp at ht
            rcases ht with ht | rfl
            · exact hacc t ht
            · simp [tokAt]) (by omega), hon.nextline_position]
        cases docTokens src (b.position.1 + 1) 0 rest <;> simp [Except.map, hsrc]
      have hb' : isBlank l = false := by simpa using hb
      rw [if_neg hb]
      have hstep := lexStep_doc hlast hon hcol hb'
      have hlt := hon.lt
      have hnd : b.nextline = b.down 1 := nextline_eq_down (by omega)
      have hrest : ∀ d : Str, d ≠ [] → collectUntil d (b.lines.length + 1) b.nextline =
          (untilLine d rest).map fun r => (r.1, b.down (r.1.length + 1)) := by
        intro d hdne
        rw [collectUntil_eq hdne rest _ b.nextline hon.nextline_drop (by simp [TextBuffer.nextline])
          (by simp [TextBuffer.nextline])
          (by have := congrArg List.length hd; simp at this; omega), hnd]
        simp only [down_down, Nat.add_comm]
      have hdrop : ∀ (d : Str) (r : List Str × List Str), untilLine d rest = some r →
          (b.down (r.1.length + 1)).line < (b.down (r.1.length + 1)).lines.length ∧
          (b.down (r.1.length + 1)).currentLine = d ∧
          (b.down (r.1.length + 2)).lines.drop (b.down (r.1.length + 2)).line = r.2 := by
        intro d r hr
        have happ := untilLine_append hr
        have h1 : (b.down (r.1.length + 1)).lines.drop (b.down (r.1.length + 1)).line = d :: r.2 := by
          have : b.lines.drop (b.line + 1) = rest := hon.rest_eq
          simp only [TextBuffer.down]
          rw [show b.line + (r.1.length + 1) = b.line + 1 + r.1.length by omega, ← List.drop_drop, this,
            happ]
          simp
        have hon' : OnLine (b.down (r.1.length + 1)) d r.2 := ⟨h1⟩
        exact ⟨hon'.lt, hon'.cur, by simpa [TextBuffer.down, Nat.add_assoc] using hon'.rest_eq⟩
      by_cases hc : l = c%"////"
      · rw [if_pos hc]
        have hmc : docMultilineComment b =
            match untilLine l rest with
            | none => .error (.lexer .unclosedComment b.position.1 b.position.2 b.source)
            | some r => .ok (some (b.down (r.1.length + 2), [])) := by
          have hcur : b.currentLine = c%"////" := by rw [hon.cur, hc]
          simp only [docMultilineComment, hcur, ne_eq, not_true_eq_false, if_false]
          rw [hrest _ (by simp), hc]
          cases hu : untilLine c%"////" rest with
          | none => simp
          | some r =>
            simp only [Option.map_some]
            rw [nextline_eq_down (by have := (hdrop _ r hu).1; omega), down_down]
        simp only [documentLexerFns, List.cons_append] at hstep
        split
        · rename_i hu
          rw [lexLoop_error (e := .lexer .unclosedComment b.position.1 b.position.2 b.source)]
          · simp [Except.map, hsrc]
          · rw [documentLexerFns, hstep]; simp [firstMatch, hmc, hu]
        · rename_i r hu
          have hs : lexStep documentLexerFns last b = .ok (b.down (r.1.length + 2), []) := by
            rw [documentLexerFns, hstep]; simp [firstMatch, hmc, hu]
          have hp : (b.down (r.1.length + 2)).position = (b.position.1 + (r.1.length + 2), 0) := by
            simp [TextBuffer.position, TextBuffer.down]; omega
          have hll := untilLine_length (cs := r.1) (rest := r.2) hu
          rw [lexLoop_step hs hacc (by simp),
            ih r.2 n _ _ _ (by omega) (hdrop _ r hu).2.2 (by simp [TextBuffer.down])
              (by simpa [TextBuffer.down] using hsrc)
              (by rw [hp]; intro e; exact hlast' (r.1.length + 1) (by simpa using e.symm))
              (by simpa using hacc)
              (by
                have := untilLine_append hu
                have h2 := lexFuel_append (r.1 ++ [l]) r.2
                rw [List.append_assoc, List.singleton_append, ← this] at h2
                omega), hp]
          simp [Nat.add_assoc]
      rw [if_neg hc]
      have hcur1 : b.currentLine ≠ c%"////" := by rw [hon.cur]; exact hc
      by_cases hbd : isBlockDelimiter l = true
      · rw [if_pos hbd]
        have hdb : docBlock b =
            match untilLine l rest with
            | none => .error (.lexer .unclosedBlock b.position.1 b.position.2 b.source)
            | some r => .ok (some (b.down (r.1.length + 2),
                tokAt .BLOCK l b.position.1 b.position.2 b.source ::
                contentToken b.source (b.position.1 + 1) r.1 ++
                [tokAt .BLOCK l (b.position.1 + r.1.length + 1) 0 b.source])) := by
          simp only [docBlock, hon.cur, hbd, Bool.not_true, Bool.false_eq_true, if_false]
          simp only [createTokenAndSkip_eq, nextline_skip]
          rw [hrest _ (docBlock_ne hbd)]
          cases hu : untilLine l rest with
          | none => simp [tokAt]
          | some r =>
            have hd1 := hdrop _ r hu
            simp only [Option.map_some, hd1.2.1]
            rw [nextline_eq_down (by
              have := hd1.1; simp [TextBuffer.skip] at this ⊢; omega), down_down]
            have hp1 : b.nextline.position = (b.position.1 + 1, 0) := hon.nextline_position
            have hp2 : (b.down (r.1.length + 1)).position = (b.position.1 + r.1.length + 1, 0) := by
              simp [TextBuffer.position, TextBuffer.down]; omega
            rw [hp1, hp2]
            congr 2
            congr 1
            cases hl : r.1.getLast? with
            | none =>
              have : r.1 = [] := by simpa using hl
              simp [contentToken, this, tokAt, TextBuffer.down]
            | some x =>
              have : r.1 ≠ [] := by intro e; simp [e] at hl
              simp [contentToken, this, tokAt, TextBuffer.down, List.getLastD_eq_getLast?, hl]
        have hfm : firstMatch (documentLexerFns ++ [processError]) b =
            firstMatch (docBlock :: (documentLexerFns.drop 4 ++ [processError])) b := by
          have := docBlock_first hbd hc
          simp only [documentLexerFns, List.cons_append, List.nil_append, List.drop]
          rw [firstMatch_cons_none (by simp [docMultilineComment]; intro e; exact absurd e hcur1),
            firstMatch_lineFn, firstMatch_lineFn, hon.cur, this.1, this.2]
        rw [hfm] at hstep
        split
        · rename_i hu
          rw [lexLoop_error (e := .lexer .unclosedBlock b.position.1 b.position.2 b.source)]
          · simp [Except.map, hsrc]
          · rw [hstep]; simp [firstMatch, hdb, hu]
        · rename_i r hu
          have hs := hstep
          simp only [firstMatch, hdb, hu] at hs
          have hp : (b.down (r.1.length + 2)).position = (b.position.1 + (r.1.length + 2), 0) := by
            simp [TextBuffer.position, TextBuffer.down]; omega
          have hll := untilLine_length (cs := r.1) (rest := r.2) hu
          have hnot : ∀ t ∈ (tokAt .BLOCK l b.position.1 b.position.2 b.source ::
                contentToken b.source (b.position.1 + 1) r.1 ++
                [tokAt .BLOCK l (b.position.1 + r.1.length + 1) 0 b.source]), t.type ≠ .EOF := by
            intro t ht
            simp only [contentToken, List.cons_append, List.mem_cons, List.mem_append] at ht
            rcases ht with rfl | ht | rfl | ht
            · simp [tokAt]
            · split at ht
              · simp at ht
              · simp at ht; simp [ht]
            · simp [tokAt]
            · simp at ht
          rw [lexLoop_step hs hacc hnot,
            ih r.2 n _ _ _ (by omega) (hdrop _ r hu).2.2 (by simp [TextBuffer.down])
              (by simpa [TextBuffer.down] using hsrc)
              (by rw [hp]; intro e; exact hlast' (r.1.length + 1) (by simpa using e.symm))
              (by
                intro t ht
                rcases List.mem_append.1 ht with ht | ht
                · exact hacc t ht
                · exact hnot t ht)
              (by
                have := untilLine_append hu
                have h2 := lexFuel_append (r.1 ++ [l]) r.2
                rw [List.append_assoc, List.singleton_append, ← this] at h2
                omega), hp, hsrc, show b.position.1 + r.1.length + 2 = b.position.1 + (r.1.length + 2) by omega]
          cases docTokens src (b.position.1 + (r.1.length + 2)) 0 r.2 <;> simp [Except.map]
      · rw [if_neg hbd]
        rw [docFirstMatch_line hcol hcur1 (by rw [hon.cur]; simpa using hbd), hon.cur] at hstep
        rw [lexLoop_step hstep hacc (fun t ht => place_notEof ht),
          ih rest n _ b.nextline _ hlen hon.nextline_drop (by simp [TextBuffer.nextline])
          (by simpa [TextBuffer.nextline] using hsrc)
          (by rw [hon.nextline_position]; intro e; exact hlast' 0 (by simpa using e.symm))
          (by
            intro t ht
            rcases List.mem_append.1 ht with ht | ht
            · exact hacc t ht
            · exact place_notEof ht) (by omega), hon.nextline_position]
        cases docTokens src (b.position.1 + 1) 0 rest <;> simp [Except.map, hsrc]

/-- `DocumentLexer` gives the specified tokens or error. -/
theorem lexDocument_eq (text : Str) (sl sc : Nat) (src : Option Str) :
    lexDocument (TextBuffer.ofText text sl sc src) = docTokens src sl sc (Spec.lines text) := by
  have hl : (TextBuffer.ofText text sl sc src).lines = Spec.lines text := by
    simp only [TextBuffer.ofText, Spec.lines]; split <;> simp_all
  have := lexLoop_doc src _ (Spec.lines text) (lexFuel (Spec.lines text)) none
    (TextBuffer.ofText text sl sc src) [] (Nat.le_refl _) (by rw [hl]; simp [TextBuffer.ofText])
    (by simp [TextBuffer.ofText]) (by simp [TextBuffer.ofText]) (by simp) (by simp) (Nat.le_refl _)
  simp only [lexDocument, runLexer, hl, this]
  simp only [TextBuffer.position, TextBuffer.ofText, Nat.zero_add]
  cases docTokens src sl sc (Spec.lines text) <;> simp [Except.map]

end Mau
