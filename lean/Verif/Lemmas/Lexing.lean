import Verif.Spec.Lexing
import Verif.Lemmas.Str

/-! # The inline lexers meet their line-wise specification -/

set_option linter.unusedSimpArgs false

namespace Mau
open Spec

/-- The buffer stands on a line `l`, with `rest` the lines after it. -/
structure OnLine (b : TextBuffer) (l : Str) (rest : List Str) : Prop where
  drop : b.lines.drop b.line = l :: rest

namespace OnLine
variable {b : TextBuffer} {l : Str} {rest : List Str}

theorem lt (h : OnLine b l rest) : b.line < b.lines.length := by
  have := congrArg List.length h.drop
  simp at this; omega

theorem cur (h : OnLine b l rest) : b.currentLine = l := by
  have hlt := h.lt
  have := h.drop
  rw [List.drop_eq_getElem_cons hlt] at this
  simp only [List.cons.injEq] at this
  simp [TextBuffer.currentLine, List.getD_eq_getElem?_getD, hlt, this.1]

theorem rest_eq (h : OnLine b l rest) : b.lines.drop (b.line + 1) = rest := by
  have hlt := h.lt
  have := h.drop
  rw [List.drop_eq_getElem_cons hlt] at this
  simp only [List.cons.injEq] at this
  exact this.2

theorem next (h : OnLine b l rest) {l' rest'} (hr : rest = l' :: rest') :
    OnLine b.nextline l' rest' := by
  constructor
  have := h.lt
  simp only [TextBuffer.nextline]
  rw [if_pos (by omega), h.rest_eq, hr]

theorem isLast (h : OnLine b l rest) : rest = [] ↔ b.line + 1 = b.lines.length := by
  have := congrArg List.length h.drop
  simp at this
  have := h.lt
  constructor
  · intro e; subst e; simp at *; omega
  · intro e; apply List.eq_nil_of_length_eq_zero; omega

theorem eof (h : OnLine b l rest) : b.eof = true ↔ rest = [] ∧ l.length ≤ b.column := by
  have hlt := h.lt
  have : b.lines ≠ [] := by intro e; simp [e] at hlt
  simp only [TextBuffer.eof, h.cur, h.isLast]
  simp [this]; omega

theorem nextline_line (h : OnLine b l rest) : b.nextline.line = b.line + 1 := by
  have := h.lt
  simp only [TextBuffer.nextline]; rw [if_pos (by omega)]

end OnLine

theorem eof_of_ge {b : TextBuffer} (h : b.lines.length ≤ b.line) : b.eof = true := by
  simp only [TextBuffer.eof]
  split
  · rfl
  · split
    · rfl
    · simpa using h

theorem createTokenAndSkip_eq (ty : TokenType) (v : Str) (b : TextBuffer) :
    createTokenAndSkip ty v b = (b.skip v.length, tokAt ty v b.position.1 b.position.2 b.source) := by
  simp [createTokenAndSkip, tokAt, TextBuffer.position, TextBuffer.skip]; omega

theorem firstMatch_cons_none {f : ProcFn} {fs : List ProcFn} {b : TextBuffer}
    (h : f b = .ok none) : firstMatch (f :: fs) b = firstMatch fs b := by
  simp [firstMatch, h]

theorem firstMatch_cons_some {f : ProcFn} {fs : List ProcFn} {b : TextBuffer} {r}
    (h : f b = .ok (some r)) : firstMatch (f :: fs) b = .ok r := by
  simp [firstMatch, h]

theorem lexLoop_eof {fs : List ProcFn} {n : Nat} {last : Option (Nat × Nat)} {b : TextBuffer}
    {acc : List Token} (he : b.eof = true) (hl : last ≠ some b.position) :
    lexLoop fs (n + 1) last b acc =
      .ok (acc ++ [tokAt .EOF [] b.position.1 b.position.2 b.source]) := by
  simp only [lexLoop, lexStep, if_neg hl, List.append_assoc, List.cons_append, List.nil_append]
  rw [firstMatch_cons_some (r := (b.skip 0, [tokAt .EOF [] b.position.1 b.position.2 b.source]))
    (by simp [processEof, he, createTokenAndSkip_eq])]
  simp [tokAt]

theorem lexLoop_step {fs : List ProcFn} {n : Nat} {last : Option (Nat × Nat)} {b b' : TextBuffer}
    {acc ts : List Token} (h : lexStep fs last b = .ok (b', ts))
    (hacc : ∀ t ∈ acc, t.type ≠ .EOF) (hts : ∀ t ∈ ts, t.type ≠ .EOF) :
    lexLoop fs (n + 1) last b acc = lexLoop fs n (some b.position) b' (acc ++ ts) := by
  have : ¬ (((acc ++ ts).getLast?.map (·.type)) = some .EOF) := by
    cases hg : (acc ++ ts).getLast? with
    | none => simp
    | some t =>
      have hm := List.mem_of_getLast? hg
      simp at hm ⊢
      rcases hm with hm | hm
      · exact hacc t hm
      · exact hts t hm
  simp only [lexLoop, h, if_neg this]

/-- An empty-line step. -/
theorem lexStep_blank {fs : List ProcFn} {last : Option (Nat × Nat)} {b : TextBuffer} {l : Str}
    {rest : List Str} (h : OnLine b l rest) (hl : last ≠ some b.position)
    (hb : isBlank l = true) (hne : b.eof = false) :
    lexStep fs last b = .ok ((b.skip l.length).nextline,
      [tokAt .EOL l b.position.1 b.position.2 b.source]) := by
  simp only [lexStep, if_neg hl, List.append_assoc, List.cons_append, List.nil_append]
  rw [firstMatch_cons_none (by simp [processEof, hne]),
    firstMatch_cons_some (by simp [processEmptyLine, h.cur, hb, createTokenAndSkip_eq]; rfl)]

theorem nextline_skip (b : TextBuffer) (n : Nat) : (b.skip n).nextline = b.nextline := by
  rfl

/-- The processing functions of an inline lexer cut tokens according to `cut`. -/
structure CutsBy (fs : List ProcFn) (cut : Cutter) : Prop where
  pos : ∀ s, isBlank s = false → 0 < (cut s).2
  le : ∀ s, isBlank s = false → (cut s).2 ≤ s.length
  notEof : ∀ s, (cut s).1 ≠ .EOF
  run : ∀ b : TextBuffer, isBlank b.tail = false →
    firstMatch (fs ++ [processError]) b =
      .ok (b.skip (cut b.tail).2,
        [tokAt (cut b.tail).1 (b.tail.take (cut b.tail).2) b.position.1 b.position.2 b.source])

theorem isBlank_drop {s : Str} (n : Nat) (h : isBlank s = true) : isBlank (s.drop n) = true := by
  rw [isBlank_iff] at *
  exact fun c hc => h c (List.mem_of_mem_drop hc)

/-- The number of steps left for a rest of a line and the following lines. -/
def stepBound (tail : Str) (rest : List Str) : Nat := tail.length + 2 + lexFuel rest

theorem lexFuel_cons (l : Str) (rest : List Str) : lexFuel (l :: rest) = l.length + 2 + lexFuel rest := by
  simp [lexFuel]; omega

theorem place_append (ln : Nat) (src : Option Str) (col : Nat) (ps qs : List Piece) :
    place ln src col (ps ++ qs) = place ln src col ps ++ place ln src (col + (piecesText ps).length) qs := by
  induction ps generalizing col with
  | nil => simp [place, piecesText]
  | cons p ps ih =>
    cases p <;> simp [place, ih, piecesText, pieceText, Nat.add_assoc]

theorem cutLine_fuel {fs : List ProcFn} {cut : Cutter} (hc : CutsBy fs cut) :
    ∀ (n m : Nat) (s : Str), s.length ≤ n → s.length ≤ m → cutLine cut n s = cutLine cut m s := by
  intro n
  induction n with
  | zero =>
    intro m s hs _
    have : s = [] := List.eq_nil_of_length_eq_zero (by omega)
    subst this
    cases m <;> simp [cutLine, isBlank]
  | succ n ih =>
    intro m s hs hm
    cases m with
    | zero =>
      have : s = [] := List.eq_nil_of_length_eq_zero (by omega)
      subst this
      simp [cutLine, isBlank]
    | succ m =>
      simp only [cutLine]
      split
      · rfl
      · rename_i hb
        have := hc.pos s (by simpa using hb)
        rw [ih m (s.drop (cut s).2) (by simp; omega) (by simp; omega)]

theorem cutLine_length {cut : Cutter} (n : Nat) (s : Str) :
    (piecesText (cutLine cut n s)).length ≤ s.length := by
  induction n generalizing s with
  | zero => simp [cutLine, piecesText]
  | succ n ih =>
    simp only [cutLine]
    split
    · simp [piecesText]
    · have := ih (s.drop (cut s).2)
      simp [piecesText, pieceText] at this ⊢
      omega

/-- The rest of a line (not blank as a whole): after the pieces, EOF or the next line. -/
theorem lexLoop_mid {fs : List ProcFn} {cut : Cutter} (hc : CutsBy fs cut) (K : List Token)
    (src : Option Str) (l : Str) (rest : List Str) (hnb : isBlank l = false) :
    ∀ (m : Nat) (n : Nat) (last : Option (Nat × Nat)) (b : TextBuffer) (acc : List Token),
      b.tail.length ≤ m → OnLine b l rest → b.source = src → last ≠ some b.position →
      (∀ t ∈ acc, t.type ≠ .EOF) → stepBound b.tail rest ≤ n →
      (∀ (n' : Nat) (last' : Option (Nat × Nat)) (b' : TextBuffer) (acc' : List Token),
        b' = b.nextline → lexFuel rest ≤ n' → last' ≠ some b'.position →
        (∀ t ∈ acc', t.type ≠ .EOF) → lexLoop fs n' last' b' acc' = .ok (acc' ++ K)) →
      lexLoop fs n last b acc = .ok (acc ++
        (place b.position.1 src b.position.2 (cutLine cut b.tail.length b.tail) ++
          (if rest = [] ∧ (piecesText (cutLine cut b.tail.length b.tail)).length = b.tail.length then
            [tokAt .EOF [] b.position.1 (b.position.2 + b.tail.length) src]
           else K))) := by
  intro m
  induction m with
  | zero =>
    intro n last b acc hm hon hsrc hlast hacc hn hK
    have ht : b.tail = [] := List.eq_nil_of_length_eq_zero (by omega)
    obtain ⟨n, rfl⟩ : ∃ k, n = k + 1 := ⟨n - 1, by simp [stepBound] at hn; omega⟩
    have hcol : l.length ≤ b.column := by
      have := ht; simp [TextBuffer.tail, hon.cur] at this; exact this
    simp only [ht, List.length_nil, cutLine, place, piecesText, List.map_nil, List.flatten_nil,
      and_true, Nat.add_zero, List.nil_append]
    by_cases hr : rest = []
    · rw [lexLoop_eof (hon.eof.2 ⟨hr, hcol⟩) hlast]; simp [hr, hsrc]
    · have hne : b.eof = false := by
        cases he : b.eof with
        | false => rfl
        | true => exact absurd (hon.eof.1 he).1 hr
      have hbt : isBlank b.tail = true := by rw [ht]; rfl
      have hs : lexStep fs last b = .ok (b.nextline, []) := by
        simp only [lexStep, if_neg hlast, List.append_assoc, List.cons_append, List.nil_append]
        rw [firstMatch_cons_none (by simp [processEof, hne]),
          firstMatch_cons_none (by simp [processEmptyLine, hon.cur, hnb]),
          firstMatch_cons_some (by simp [processTrailingSpaces, hbt, nextline_skip]; rfl)]
      rw [lexLoop_step hs hacc (by simp), if_neg hr]
      rw [hK _ _ _ _ rfl]
      · simp
      · simp [stepBound] at hn; omega
      · simp only [TextBuffer.position, hon.nextline_line]
        intro e; simp [TextBuffer.nextline] at e
      · simpa using hacc
  | succ m ih =>
    intro n last b acc hm hon hsrc hlast hacc hn hK
    obtain ⟨n, rfl⟩ : ∃ k, n = k + 1 := ⟨n - 1, by simp [stepBound] at hn; omega⟩
    by_cases hbt : isBlank b.tail = true
    · -- only spaces left
      have hcut : cutLine cut b.tail.length b.tail = [] := by
        cases b.tail.length <;> simp [cutLine, hbt]
      by_cases hz : rest = [] ∧ b.tail = []
      · have hcol : l.length ≤ b.column := by
          have := hz.2; simp [TextBuffer.tail, hon.cur] at this; exact this
        rw [lexLoop_eof (hon.eof.2 ⟨hz.1, hcol⟩) hlast]
        simp [hz.1, hz.2, hsrc, cutLine, place, piecesText]
      · have hne : b.eof = false := by
          cases he : b.eof with
          | false => rfl
          | true =>
            have := hon.eof.1 he
            exact absurd ⟨this.1, by simp [TextBuffer.tail, hon.cur, this.2]⟩ hz
        have hs : lexStep fs last b = .ok (b.nextline, []) := by
          simp only [lexStep, if_neg hlast, List.append_assoc, List.cons_append, List.nil_append]
          rw [firstMatch_cons_none (by simp [processEof, hne]),
            firstMatch_cons_none (by simp [processEmptyLine, hon.cur, hnb]),
            firstMatch_cons_some (by simp [processTrailingSpaces, hbt, nextline_skip]; rfl)]
        rw [lexLoop_step hs hacc (by simp), hcut]
        have hif : ¬ (rest = [] ∧ (piecesText ([] : List Piece)).length = b.tail.length) := by
          intro h; apply hz; refine ⟨h.1, ?_⟩
          have := h.2; simp [piecesText] at this
          exact List.eq_nil_of_length_eq_zero this.symm
        rw [if_neg hif, hK _ _ _ _ rfl]
        · simp [place]
        · simp [stepBound] at hn; omega
        · simp only [TextBuffer.position, hon.nextline_line]
          intro e; simp [TextBuffer.nextline] at e
        · simpa using hacc
    · -- one more token
      have hbt' : isBlank b.tail = false := by simpa using hbt
      have hpos := hc.pos _ hbt'
      have hle := hc.le _ hbt'
      have hne : b.eof = false := by
        cases he : b.eof with
        | false => rfl
        | true =>
          have := hon.eof.1 he
          exfalso; apply hbt
          have : b.tail = [] := by simp [TextBuffer.tail, hon.cur, this.2]
          simp [this, isBlank]
      have hs : lexStep fs last b = .ok (b.skip (cut b.tail).2,
          [tokAt (cut b.tail).1 (b.tail.take (cut b.tail).2) b.position.1 b.position.2 b.source]) := by
        simp only [lexStep, hlast, if_false, List.append_assoc, List.cons_append, List.nil_append]
        rw [firstMatch_cons_none (by simp [processEof, hne]),
          firstMatch_cons_none (by simp [processEmptyLine, hon.cur, hnb]),
          firstMatch_cons_none (by simp [processTrailingSpaces, hbt'])]
        exact hc.run b hbt'
      rw [lexLoop_step hs hacc (by simp [tokAt, hc.notEof])]
      have htail : (b.skip (cut b.tail).2).tail = b.tail.drop (cut b.tail).2 := by
        simp [TextBuffer.tail, TextBuffer.skip, TextBuffer.currentLine]
      have hpos2 : (b.skip (cut b.tail).2).position =
          (b.position.1, b.position.2 + (cut b.tail).2) := by
        simp [TextBuffer.position, TextBuffer.skip]; omega
      have hlen : ∃ k, b.tail.length = k + 1 := ⟨b.tail.length - 1, by omega⟩
      obtain ⟨k, hk⟩ := hlen
      rw [ih n _ (b.skip (cut b.tail).2) _ (by rw [htail]; simp; omega)
        ⟨hon.drop⟩ (by simp [TextBuffer.skip, hsrc])
        (by rw [hpos2]; intro e; simp [Prod.ext_iff] at e; omega)
        (by
          intro t ht
          simp at ht
          rcases ht with ht | rfl
          · exact hacc t ht
          · simp [tokAt, hc.notEof])
        (by rw [htail]; simp [stepBound] at hn ⊢; omega)
        (by
          intro n' last' b' acc' hb'
          exact hK n' last' b' acc' (by rw [hb', nextline_skip]))]
      rw [htail, hpos2]
      have hcl : cutLine cut b.tail.length b.tail =
          .tok (cut b.tail).1 (b.tail.take (cut b.tail).2) ::
            cutLine cut (b.tail.drop (cut b.tail).2).length (b.tail.drop (cut b.tail).2) := by
        rw [hk]
        simp only [cutLine, hbt', Bool.false_eq_true, if_false]
        rw [cutLine_fuel hc k _ _ (by simp; omega) (Nat.le_refl _)]
      rw [hcl]
      have e1 : (b.tail.take (cut b.tail).2).length = (cut b.tail).2 := by simp; omega
      have e2 : b.position.2 + (cut b.tail).2 + (b.tail.drop (cut b.tail).2).length
          = b.position.2 + b.tail.length := by simp; omega
      have e3 : ((piecesText (cutLine cut (b.tail.drop (cut b.tail).2).length
            (b.tail.drop (cut b.tail).2))).length = (b.tail.drop (cut b.tail).2).length)
          ↔ ((piecesText (.tok (cut b.tail).1 (b.tail.take (cut b.tail).2) ::
            cutLine cut (b.tail.drop (cut b.tail).2).length (b.tail.drop (cut b.tail).2))).length
              = b.tail.length) := by
        simp only [piecesText, List.map_cons, List.flatten_cons, pieceText, List.length_append, e1]
        simp only [List.length_drop]; omega
      simp only [place, e1, e2, e3, hsrc]
      simp

/-- An inline lexer produces the specified tokens, from any line on. -/
theorem lexLoop_inline {fs : List ProcFn} {cut : Cutter} (hc : CutsBy fs cut) (src : Option Str) :
    ∀ (ls : List Str) (n : Nat) (last : Option (Nat × Nat)) (b : TextBuffer) (acc : List Token),
      b.lines.drop b.line = ls → b.column = 0 → b.source = src → last ≠ some b.position →
      (∀ t ∈ acc, t.type ≠ .EOF) → lexFuel ls ≤ n →
      lexLoop fs n last b acc =
        .ok (acc ++ inlineTokens cut src b.position.1 b.position.2 ls) := by
  intro ls
  induction ls with
  | nil =>
    intro n last b acc hd hcol hsrc hlast hacc hn
    obtain ⟨n, rfl⟩ : ∃ k, n = k + 1 := ⟨n - 1, by simp [lexFuel] at hn; omega⟩
    have : b.lines.length ≤ b.line := by simpa using hd
    rw [lexLoop_eof (eof_of_ge this) hlast]
    simp [inlineTokens, hsrc]
  | cons l rest ih =>
    intro n last b acc hd hcol hsrc hlast hacc hn
    have hon : OnLine b l rest := ⟨hd⟩
    rw [lexFuel_cons] at hn
    obtain ⟨n, rfl⟩ : ∃ k, n = k + 1 := ⟨n - 1, by omega⟩
    have hnext : ∀ (n' : Nat) (last' : Option (Nat × Nat)) (b' : TextBuffer) (acc' : List Token),
        b' = b.nextline → lexFuel rest ≤ n' → last' ≠ some b'.position →
        (∀ t ∈ acc', t.type ≠ .EOF) → lexLoop fs n' last' b' acc' =
          .ok (acc' ++ inlineTokens cut src (b.position.1 + 1) 0 rest) := by
      intro n' last' b' acc' hb' hn' hl' ha'
      have hp : b'.position = (b.position.1 + 1, 0) := by
        subst hb'
        simp only [TextBuffer.position, hon.nextline_line]
        simp [TextBuffer.nextline]; omega
      have := ih n' last' b' acc' (by
          subst hb'; rw [hon.nextline_line]; simpa [TextBuffer.nextline] using hon.rest_eq)
        (by subst hb'; simp [TextBuffer.nextline]) (by subst hb'; simpa [TextBuffer.nextline] using hsrc)
        hl' ha' hn'
      rw [hp] at this
      exact this
    have htail : b.tail = l := by simp [TextBuffer.tail, hcol, hon.cur]
    have hposne : b.nextline.position ≠ b.position := by
      simp only [TextBuffer.position, hon.nextline_line]
      intro e; simp [TextBuffer.nextline] at e
    simp only [inlineTokens]
    by_cases hb : isBlank l = true
    · rw [if_pos hb]
      by_cases hz : l = [] ∧ rest = []
      · rw [if_pos hz, lexLoop_eof (hon.eof.2 ⟨hz.2, by simp [hz.1]⟩) hlast, hsrc]
      · rw [if_neg hz]
        have hne : b.eof = false := by
          cases he : b.eof with
          | false => rfl
          | true =>
            have := hon.eof.1 he
            exact absurd ⟨by simpa [hcol] using this.2, this.1⟩ hz
        rw [lexLoop_step (lexStep_blank hon hlast hb hne) hacc (by simp [tokAt]), nextline_skip,
          hnext _ _ _ _ rfl (by omega) (by intro e; exact hposne (by simpa using e.symm))]
        · simp [hsrc]
        · intro t ht
          simp at ht
          rcases ht with ht | rfl
          · exact hacc t ht
          · simp [tokAt]
    · rw [if_neg hb]
      have := lexLoop_mid hc (inlineTokens cut src (b.position.1 + 1) 0 rest) src l rest
        (by simpa using hb) b.tail.length (n + 1) last b acc (Nat.le_refl _) hon hsrc hlast hacc
        (by rw [htail]; simp [stepBound]; omega) hnext
      rw [this, htail]

/-- Running an inline lexer gives the specified tokens. -/
theorem runLexer_inline {fs : List ProcFn} {cut : Cutter} (hc : CutsBy fs cut) (text : Str)
    (sl sc : Nat) (src : Option Str) :
    runLexer fs (TextBuffer.ofText text sl sc src) =
      .ok (inlineTokens cut src sl sc (Spec.lines text)) := by
  have hl : (TextBuffer.ofText text sl sc src).lines = Spec.lines text := by
    simp only [TextBuffer.ofText, Spec.lines]; split <;> simp_all
  have := lexLoop_inline hc src (Spec.lines text) (lexFuel (Spec.lines text)) none
    (TextBuffer.ofText text sl sc src) [] (by rw [hl]; simp [TextBuffer.ofText])
    (by simp [TextBuffer.ofText]) (by simp [TextBuffer.ofText]) (by simp) (by simp) (Nat.le_refl _)
  simp only [runLexer, hl, this]
  simp [TextBuffer.position, TextBuffer.ofText]

/-! ## The three inline lexers cut as specified -/

theorem takeWhile_take_length (p : Char → Bool) (s : Str) :
    s.take (s.takeWhile p).length = s.takeWhile p := by
  induction s with
  | nil => simp
  | cons c cs ih =>
    by_cases h : p c = true
    · simp [List.takeWhile_cons, h, ih]
    · simp [List.takeWhile_cons, h]

theorem takeWhile_length_le (p : Char → Bool) (s : Str) : (s.takeWhile p).length ≤ s.length :=
  (List.takeWhile_prefix p).length_le

theorem currentChar_of_tail {b : TextBuffer} {c : Char} {r : Str} (h : b.tail = c :: r) :
    b.currentChar = some c := by
  simp only [TextBuffer.tail] at h
  have hlt : b.column < b.currentLine.length := by
    rcases Nat.lt_or_ge b.column b.currentLine.length with h' | h'
    · exact h'
    · simp [List.drop_eq_nil_of_le h'] at h
  rw [List.drop_eq_getElem_cons hlt] at h
  simp only [List.cons.injEq] at h
  simp [TextBuffer.currentChar, hlt, h.1]

theorem literalFn_of_mem {lits : Str} {b : TextBuffer} {c : Char} {r : Str} (h : b.tail = c :: r)
    (hm : lits.contains c = true) :
    literalFn lits b = .ok (some (b.skip 1, [tokAt .LITERAL [c] b.position.1 b.position.2 b.source])) := by
  simp [literalFn, currentChar_of_tail h, createTokenAndSkip_eq]
  simpa using hm

theorem literalFn_of_not_mem {lits : Str} {b : TextBuffer} {c : Char} {r : Str} (h : b.tail = c :: r)
    (hm : lits.contains c = false) : literalFn lits b = .ok none := by
  simp [literalFn, currentChar_of_tail h]
  simpa using hm

theorem runFn_of_head {ty : TokenType} {p : Char → Bool} {b : TextBuffer} {c : Char} {r : Str}
    (h : b.tail = c :: r) (hp : p c = true) :
    runFn ty p b = .ok (some (b.skip (b.tail.takeWhile p).length,
      [tokAt ty (b.tail.takeWhile p) b.position.1 b.position.2 b.source])) := by
  have : b.tail.takeWhile p = c :: r.takeWhile p := by rw [h]; simp [hp]
  simp only [runFn]
  rw [this]
  simp [createTokenAndSkip_eq]

theorem runFn_of_not_head {ty : TokenType} {p : Char → Bool} {b : TextBuffer} {c : Char} {r : Str}
    (h : b.tail = c :: r) (hp : p c = false) : runFn ty p b = .ok none := by
  have : b.tail.takeWhile p = [] := by rw [h]; simp [hp]
  simp [runFn, this]

theorem cons_of_not_blank {s : Str} (h : isBlank s = false) : ∃ c r, s = c :: r := by
  cases s with
  | nil => simp [isBlank] at h
  | cons c r => exact ⟨c, r, rfl⟩

theorem textCuts : CutsBy textLexerFns textCut where
  pos := by
    intro s hs
    obtain ⟨c, r, rfl⟩ := cons_of_not_blank hs
    by_cases h1 : c = ' '
    · subst h1; simp [textCut]
    · by_cases h2 : textLiterals.contains c = true
      · simp at h2; simp [textCut, h2]
      · simp at h2
        simp [textCut, h1, h2]
  le := by
    intro s hs
    obtain ⟨c, r, rfl⟩ := cons_of_not_blank hs
    by_cases h1 : c = ' '
    · subst h1; simp [textCut]
    · by_cases h2 : textLiterals.contains c = true
      · simp at h2; simp [textCut, h1, h2]
      · simp at h2
        simp only [textCut]
        simp only [List.contains_eq_mem, h2, decide_false, Bool.false_eq_true, if_false]
        exact takeWhile_length_le _ _
  notEof := by
    intro s; unfold textCut; split
    · simp
    · split <;> simp
    · simp
  run := by
    intro b hb
    obtain ⟨c, r, h⟩ := cons_of_not_blank hb
    by_cases h1 : c = ' '
    · subst h1
      simp [textLexerFns, firstMatch, textWhitespace, h, textCut, createTokenAndSkip_eq]
    · have hw : textWhitespace b = .ok none := by
        simp only [textWhitespace, h]
        split
        · rename_i e; simp at e; exact absurd e.1 h1
        · rfl
      simp only [textLexerFns, List.cons_append, List.nil_append]
      rw [firstMatch_cons_none hw]
      by_cases h2 : textLiterals.contains c = true
      · rw [firstMatch_cons_some (literalFn_of_mem h h2)]
        simp at h2; simp [h, textCut, h1, h2]
      · have h2' : textLiterals.contains c = false := by simpa using h2
        rw [firstMatch_cons_none (literalFn_of_not_mem h h2'),
          firstMatch_cons_some (runFn_of_head h (by simp [h1]; simpa using h2))]
        have : textCut b.tail = (.TEXT, (b.tail.takeWhile
            fun c => !(textLiterals.contains c || c == ' ')).length) := by
          rw [h]; simp at h2; simp only [textCut]; simp [h2]
        rw [this]
        simp [takeWhile_take_length]

theorem argsCuts : CutsBy argsLexerFns argsCut where
  pos := by
    intro s hs
    obtain ⟨c, r, rfl⟩ := cons_of_not_blank hs
    simp only [argsCut]
    split
    · simp_all
    · split
      · simp
      · simp_all
  le := by
    intro s hs
    obtain ⟨c, r, rfl⟩ := cons_of_not_blank hs
    simp only [argsCut]
    split
    · exact takeWhile_length_le _ _
    · split
      · simp
      · exact takeWhile_length_le _ _
  notEof := by
    intro s; unfold argsCut; split
    · split
      · simp
      · split <;> simp
    · simp
  run := by
    intro b hb
    obtain ⟨c, r, h⟩ := cons_of_not_blank hb
    simp only [argsLexerFns, List.cons_append, List.nil_append]
    by_cases h1 : (c == ' ') = true
    · rw [firstMatch_cons_some (runFn_of_head h h1)]
      have : argsCut b.tail = (.WHITESPACE, (b.tail.takeWhile (· == ' ')).length) := by
        rw [h]; simp only [argsCut, h1, if_true]
      rw [this]; simp [takeWhile_take_length]
    · have h1' : (c == ' ') = false := by simpa using h1
      rw [firstMatch_cons_none (runFn_of_not_head h h1')]
      by_cases h2 : argsLiterals.contains c = true
      · rw [firstMatch_cons_some (literalFn_of_mem h h2)]
        have : argsCut b.tail = (.LITERAL, 1) := by
          rw [h]; simp only [argsCut, h1', h2, if_true, Bool.false_eq_true, if_false]
        rw [this, h]; simp
      · have h2' : argsLiterals.contains c = false := by simpa using h2
        rw [firstMatch_cons_none (literalFn_of_not_mem h h2'),
          firstMatch_cons_some (runFn_of_head h (by simp only [h1', h2']; rfl))]
        have : argsCut b.tail = (.TEXT, (b.tail.takeWhile
            fun c => !(argsLiterals.contains c || c == ' ')).length) := by
          rw [h]; simp only [argsCut, h1', h2', Bool.false_eq_true, if_false]
        rw [this]; simp [takeWhile_take_length]

theorem preCuts : CutsBy preLexerFns preCut where
  pos := by
    intro s hs
    obtain ⟨c, r, rfl⟩ := cons_of_not_blank hs
    simp only [preCut]
    split
    · simp
    · simp_all
  le := by
    intro s hs
    obtain ⟨c, r, rfl⟩ := cons_of_not_blank hs
    simp only [preCut]
    split
    · simp
    · exact takeWhile_length_le _ _
  notEof := by
    intro s; unfold preCut; split
    · split <;> simp
    · simp
  run := by
    intro b hb
    obtain ⟨c, r, h⟩ := cons_of_not_blank hb
    simp only [preLexerFns, List.cons_append, List.nil_append]
    by_cases h2 : preLiterals.contains c = true
    · rw [firstMatch_cons_some (literalFn_of_mem h h2)]
      have : preCut b.tail = (.LITERAL, 1) := by
        rw [h]; simp only [preCut, h2, if_true]
      rw [this, h]; simp
    · have h2' : preLiterals.contains c = false := by simpa using h2
      rw [firstMatch_cons_none (literalFn_of_not_mem h h2'),
        firstMatch_cons_some (runFn_of_head h (by simp only [h2']; rfl))]
      have : preCut b.tail = (.TEXT, (b.tail.takeWhile
          fun c => !preLiterals.contains c).length) := by
        rw [h]; simp only [preCut, h2', Bool.false_eq_true, if_false]
      rw [this]; simp [takeWhile_take_length]

/-- `TextLexer` gives the specified tokens. -/
theorem lexText_eq (text : Str) (sl sc : Nat) (src : Option Str) :
    lexText (TextBuffer.ofText text sl sc src) = .ok (inlineTokens textCut src sl sc (Spec.lines text)) :=
  runLexer_inline textCuts text sl sc src

/-- `ArgumentsLexer` gives the specified tokens. -/
theorem lexArgs_eq (text : Str) (sl sc : Nat) (src : Option Str) :
    lexArgs (TextBuffer.ofText text sl sc src) = .ok (inlineTokens argsCut src sl sc (Spec.lines text)) :=
  runLexer_inline argsCuts text sl sc src

/-- `PreprocessVariablesLexer` gives the specified tokens. -/
theorem lexPre_eq (text : Str) (sl sc : Nat) (src : Option Str) :
    lexPre (TextBuffer.ofText text sl sc src) = .ok (inlineTokens preCut src sl sc (Spec.lines text)) :=
  runLexer_inline preCuts text sl sc src

end Mau
