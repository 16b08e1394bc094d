import Verif.Lemmas.DocTokens

/-! # C04–C11: the lexers -/

set_option linter.unusedSimpArgs false

namespace Mau
open Spec

/-! ## C04 — inline lexers are total -/

/-- C04: the text lexer accepts every text and ends with exactly one EOF token. -/
theorem C04_text_total (text : Str) (sl sc : Nat) (src : Option Str) :
    ∃ init e, lexText (TextBuffer.ofText text sl sc src) = .ok (init ++ [e]) ∧
      e.type = .EOF ∧ ∀ t ∈ init, t.type ≠ .EOF := by
  obtain ⟨i, e, h, h1, _, h3⟩ := inlineTokens_ends textCuts src (Spec.lines text) sl sc
  exact ⟨i, e, by rw [lexText_eq, h], h1, h3⟩

/-- C04: the arguments lexer accepts every text and ends with exactly one EOF token. -/
theorem C04_arguments_total (text : Str) (sl sc : Nat) (src : Option Str) :
    ∃ init e, lexArgs (TextBuffer.ofText text sl sc src) = .ok (init ++ [e]) ∧
      e.type = .EOF ∧ ∀ t ∈ init, t.type ≠ .EOF := by
  obtain ⟨i, e, h, h1, _, h3⟩ := inlineTokens_ends argsCuts src (Spec.lines text) sl sc
  exact ⟨i, e, by rw [lexArgs_eq, h], h1, h3⟩

/-- C04: the variables lexer accepts every text and ends with exactly one EOF token. -/
theorem C04_preprocess_total (text : Str) (sl sc : Nat) (src : Option Str) :
    ∃ init e, lexPre (TextBuffer.ofText text sl sc src) = .ok (init ++ [e]) ∧
      e.type = .EOF ∧ ∀ t ∈ init, t.type ≠ .EOF := by
  obtain ⟨i, e, h, h1, _, h3⟩ := inlineTokens_ends preCuts src (Spec.lines text) sl sc
  exact ⟨i, e, by rw [lexPre_eq, h], h1, h3⟩

example : (lexText (TextBuffer.ofText c%"a *b*\n \n(c")).map (·.map fun t => (t.type, t.value)) =
    .ok [(.TEXT, c%"a"), (.TEXT, c%" "), (.LITERAL, c%"*"), (.TEXT, c%"b"), (.LITERAL, c%"*"),
      (.EOL, c%" "), (.LITERAL, c%"("), (.TEXT, c%"c"), (.EOF, [])] := by decide

/-! ## C05 — the document lexer is total up to two errors -/

/-- Where a lexer error can come from: line number `i` of the document is a fence or delimiter and
no later line is equal to it. -/
def UnclosedAt (ls : List Str) (i : Nat) (m : Msg) : Prop :=
  ∃ d, ls[i]? = some d ∧ d ∉ ls.drop (i + 1) ∧
    ((m = .unclosedComment ∧ d = c%"////") ∨ (m = .unclosedBlock ∧ ∃ ch, d = [ch, ch, ch, ch] ∧ ch ≠ ' ' ∧ ch ≠ '/'))

theorem UnclosedAt.down {ls : List Str} {i : Nat} {m : Msg} (pre : List Str) (h : UnclosedAt ls i m) :
    UnclosedAt (pre ++ ls) (pre.length + i) m := by
  obtain ⟨d, h1, h2, h3⟩ := h
  refine ⟨d, ?_, ?_, h3⟩
  · rw [List.getElem?_append_right (by omega)]; simpa using h1
  · rw [show pre.length + i + 1 = pre.length + (i + 1) by omega, ← List.drop_drop, List.drop_left]; exact h2

theorem docTokens_errors (src : Option Str) (ls : List Str) (ln col : Nat) (e : Err)
    (h : docTokens src ln col ls = .error e) :
    ∃ m i, e = .lexer m (ln + i) (if i = 0 then col else 0) src ∧ UnclosedAt ls i m := by
  revert e
  refine docTokens_rec (src := src) (P := fun ln col ls r => ∀ e, r = .error e →
    ∃ m i, e = .lexer m (ln + i) (if i = 0 then col else 0) src ∧ UnclosedAt ls i m) ?_ ?_ ?_ ?_ ?_ ?_ ?_ ?_ ls ln col
  · intro ln col e h; simp at h
  · intro ln col e h; simp at h
  · intro ln col l rest _ _ ih e h
    obtain ⟨m, i, rfl, hu⟩ := ih e (map_error h)
    exact ⟨m, 1 + i, by simp [Nat.add_assoc], hu.down [l]⟩
  · intro ln col rest hn e h
    simp at h
    exact ⟨.unclosedComment, 0, h.symm, c%"////", rfl, by simpa using hn, .inl ⟨rfl, rfl⟩⟩
  · intro ln col cs rest _ ih e h
    obtain ⟨m, i, rfl, hu⟩ := ih e h
    refine ⟨m, cs.length + 2 + i, by simp [Nat.add_assoc], ?_⟩
    have := hu.down (c%"////" :: (cs ++ [c%"////"]))
    simp at this
    exact this
  · intro ln col l rest hd hn e h
    simp at h
    exact ⟨.unclosedBlock, 0, h.symm, l, rfl, by simpa using hn, .inr ⟨rfl, delim_chars hd⟩⟩
  · intro ln col l cs rest _ _ ih e h
    obtain ⟨m, i, rfl, hu⟩ := ih e (map_error h)
    refine ⟨m, cs.length + 2 + i, by simp [Nat.add_assoc], ?_⟩
    have := hu.down (l :: (cs ++ [l]))
    simp at this
    exact this
  · intro ln col l rest _ ih e h
    obtain ⟨m, i, rfl, hu⟩ := ih e (map_error h)
    exact ⟨m, 1 + i, by simp [Nat.add_assoc], hu.down [l]⟩

/-- C05: lexing any document gives tokens with exactly one EOF at the end, or one of the two errors,
located at a delimiter line which no later line closes. -/
theorem C05_total (text : Str) (sl sc : Nat) (src : Option Str) :
    (∃ init e, lexDocument (TextBuffer.ofText text sl sc src) = .ok (init ++ [e]) ∧
      e.type = .EOF ∧ ∀ t ∈ init, t.type ≠ .EOF) ∨
    (∃ m i, lexDocument (TextBuffer.ofText text sl sc src) =
        .error (.lexer m (sl + i) (if i = 0 then sc else 0) src) ∧
      (m = .unclosedBlock ∨ m = .unclosedComment) ∧ UnclosedAt (Spec.lines text) i m) := by
  cases h : lexDocument (TextBuffer.ofText text sl sc src) with
  | ok ts =>
    left
    rw [lexDocument_eq] at h
    obtain ⟨i, e, rfl, h1, _, h3⟩ := docTokens_ends _ _ _ _ _ h
    exact ⟨i, e, rfl, h1, h3⟩
  | error e =>
    right
    rw [lexDocument_eq] at h
    obtain ⟨m, i, rfl, hu⟩ := docTokens_errors _ _ _ _ _ h
    refine ⟨m, i, rfl, ?_, hu⟩
    obtain ⟨d, _, _, h3⟩ := hu
    rcases h3 with h3 | h3
    · exact .inr h3.1
    · exact .inl h3.1

/-- Both errors occur. -/
example : lexDocument (TextBuffer.ofText c%"a\n----\nb") = .error (.lexer .unclosedBlock 1 0 none) ∧
    lexDocument (TextBuffer.ofText c%"////\nb\n") = .error (.lexer .unclosedComment 0 0 none) := by decide

/-! ## C06 — inline lexing is lossless -/

theorem dropTrailing_nonblank_right {a b : Str} (h : isBlank b = false) :
    dropTrailing (a ++ b) = a ++ dropTrailing b := by
  unfold dropTrailing
  have : b.reverse.dropWhile (· == ' ') ≠ [] := by
    intro e
    suffices isBlank b = true by rw [this] at h; cases h
    rw [isBlank_iff]
    intro c hc
    have h2 := List.takeWhile_append_dropWhile (p := (· == ' ')) (l := b.reverse)
    rw [e, List.append_nil] at h2
    have := mem_takeWhile (p := (· == ' ')) (s := b.reverse) c (by rw [h2]; simpa using hc)
    simpa using this
  rw [List.reverse_append, List.dropWhile_append]
  simp [this]

theorem dropWhile_blank {b : Str} (h : isBlank b = true) : b.reverse.dropWhile (· == ' ') = [] := by
  rw [isBlank_iff] at h
  have := span_append (p := (· == ' ')) (a := b.reverse) (b := [])
    (by intro c hc; simpa using h c (by simpa using hc)) (by intro c r he; simp at he)
  rw [List.append_nil] at this
  exact this.2

theorem dropTrailing_blank {b : Str} (h : isBlank b = true) : dropTrailing b = [] := by
  unfold dropTrailing
  rw [dropWhile_blank h]; rfl

theorem dropTrailing_append_blank {a b : Str} (h : isBlank b = true) :
    dropTrailing (a ++ b) = dropTrailing a := by
  unfold dropTrailing
  rw [List.reverse_append, List.dropWhile_append, dropWhile_blank h]
  simp

theorem dropTrailing_noSpace {a : Str} (h : a.getLast? ≠ some ' ') : dropTrailing a = a := by
  unfold dropTrailing
  cases ha : a.reverse with
  | nil => simp at ha; simp [ha]
  | cons c r =>
    have : a.getLast? = some c := by
      have := congrArg List.head? ha; simpa using this
    have hc : c ≠ ' ' := by rintro rfl; exact h this
    simp [List.dropWhile_cons, hc]
    have := congrArg List.reverse ha; simpa using this.symm

theorem dropTrailing_split (s : Str) : ∃ sp, isBlank sp = true ∧ s = dropTrailing s ++ sp := by
  refine ⟨(s.reverse.takeWhile (· == ' ')).reverse, ?_, ?_⟩
  · rw [isBlank_iff]; intro c hc
    have := mem_takeWhile (p := (· == ' ')) c (List.mem_reverse.1 hc)
    simpa using this
  · unfold dropTrailing
    rw [← List.reverse_append, List.takeWhile_append_dropWhile, List.reverse_reverse]

/-- A cutter that never ends a token with a space of the trailing run. -/
def KeepsTrailing (cut : Cutter) : Prop :=
  ∀ s, isBlank s = false → isBlank (s.drop (cut s).2) = false ∨
    (s.take (cut s).2).getLast? ≠ some ' '

theorem cutLine_text {fs : List ProcFn} {cut : Cutter} (hc : CutsBy fs cut) (hk : KeepsTrailing cut) :
    ∀ (n : Nat) (s : Str), s.length ≤ n → piecesText (cutLine cut n s) = dropTrailing s := by
  intro n
  induction n with
  | zero =>
    intro s hs
    have : s = [] := List.eq_nil_of_length_eq_zero (by omega)
    subst this; rfl
  | succ n ih =>
    intro s hs
    simp only [cutLine]
    split
    · rename_i hb; rw [dropTrailing_blank hb]; rfl
    · rename_i hb
      have hb' : isBlank s = false := by simpa using hb
      have hpos := hc.pos s hb'
      have := ih (s.drop (cut s).2) (by simp; omega)
      have e : piecesText (.tok (cut s).1 (s.take (cut s).2) :: cutLine cut n (s.drop (cut s).2)) =
          s.take (cut s).2 ++ dropTrailing (s.drop (cut s).2) := by
        rw [← this]; simp [piecesText, pieceText]
      rw [e]
      conv => rhs; rw [← List.take_append_drop (cut s).2 s]
      by_cases hd : isBlank (s.drop (cut s).2) = false
      · rw [dropTrailing_nonblank_right hd]
      · have hd' : isBlank (s.drop (cut s).2) = true := by simpa using hd
        rcases hk s hb' with h | h
        · exact absurd h hd
        · rw [dropTrailing_append_blank hd', dropTrailing_blank hd', dropTrailing_noSpace h, List.append_nil]

theorem getLast_takeWhile_ne {p : Char → Bool} {s : Str} (hp : p ' ' = false) :
    (s.takeWhile p).getLast? ≠ some ' ' := by
  intro e
  have := mem_takeWhile ' ' (List.mem_of_getLast? e)
  rw [hp] at this; cases this

theorem drop_takeWhile_length (p : Char → Bool) (s : Str) :
    s.drop (s.takeWhile p).length = s.dropWhile p := by
  induction s with
  | nil => rfl
  | cons c s ih =>
    by_cases h : p c = true
    · simp [List.takeWhile_cons, List.dropWhile_cons, h, ih]
    · simp [List.takeWhile_cons, List.dropWhile_cons, h]

theorem textKeeps : KeepsTrailing textCut := by
  intro s hs
  obtain ⟨c, r, rfl⟩ := cons_of_not_blank hs
  by_cases h1 : c = ' '
  · subst h1
    left; simpa [textCut, isBlank] using hs
  · right
    by_cases h2 : textLiterals.contains c = true
    · simp at h2
      simp [textCut, h2, h1]
    · have : textCut (c :: r) = (.TEXT, ((c :: r).takeWhile
          fun c => !(textLiterals.contains c || c == ' ')).length) := by
        simp at h2; simp only [textCut]; simp [h2]
      rw [this]
      simp only [takeWhile_take_length]
      exact getLast_takeWhile_ne (by decide)

theorem argsKeeps : KeepsTrailing argsCut := by
  intro s hs
  obtain ⟨c, r, rfl⟩ := cons_of_not_blank hs
  by_cases h1 : (c == ' ') = true
  · left
    have : argsCut (c :: r) = (.WHITESPACE, ((c :: r).takeWhile (· == ' ')).length) := by
      simp only [argsCut, h1, if_true]
    rw [this]
    have e : (c :: r).drop ((c :: r).takeWhile (· == ' ')).length = (c :: r).dropWhile (· == ' ') := by
      exact drop_takeWhile_length _ _
    simp only [e]
    cases hb : isBlank ((c :: r).dropWhile (· == ' ')) with
    | false => rfl
    | true =>
      exfalso
      have h3 := isBlank_iff.1 hb
      have : isBlank (c :: r) = true := by
        rw [isBlank_iff]
        intro d hd
        rw [← List.takeWhile_append_dropWhile (p := (· == ' ')) (l := c :: r)] at hd
        rcases List.mem_append.1 hd with hd | hd
        · simpa using mem_takeWhile d hd
        · exact h3 d hd
      rw [this] at hs; cases hs
  · right
    have h1' : (c == ' ') = false := by simpa using h1
    by_cases h2 : argsLiterals.contains c = true
    · have : argsCut (c :: r) = (.LITERAL, 1) := by
        simp only [argsCut, h1', h2, if_true, Bool.false_eq_true, if_false]
      rw [this]; simp; simpa using h1
    · have h2' : argsLiterals.contains c = false := by simpa using h2
      have : argsCut (c :: r) = (.TEXT, ((c :: r).takeWhile
          fun c => !(argsLiterals.contains c || c == ' ')).length) := by
        simp only [argsCut, h1', h2', Bool.false_eq_true, if_false]
      rw [this]
      simp only [takeWhile_take_length]
      exact getLast_takeWhile_ne (by decide)

/-- What is left of a line: a blank line is kept whole, any other loses the spaces at its end. -/
def keptLine (l : Str) : Str := if isBlank l then l else dropTrailing l

theorem place_values {ln src col ps} :
    ((place ln src col ps).map (·.value)).flatten =
      (ps.filterMap fun p => match p with | .tok _ v => some v | .skip _ => none).flatten := by
  induction ps generalizing col with
  | nil => rfl
  | cons p ps ih => cases p <;> simp [place, ih, tokAt]

theorem cutLine_toks {cut : Cutter} {n : Nat} {s : Str} :
    ((cutLine cut n s).filterMap fun p => match p with | .tok _ v => some v | .skip _ => none).flatten =
      piecesText (cutLine cut n s) := by
  induction n generalizing s with
  | zero => rfl
  | succ n ih =>
    simp only [cutLine]
    split
    · rfl
    · simp [piecesText, pieceText, ih]

theorem inline_values {fs : List ProcFn} {cut : Cutter} (hc : CutsBy fs cut) (hk : KeepsTrailing cut)
    (src : Option Str) (ls : List Str) (ln col : Nat) :
    ((inlineTokens cut src ln col ls).map (·.value)).flatten = (ls.map keptLine).flatten := by
  induction ls generalizing ln col with
  | nil => simp [inlineTokens, tokAt]
  | cons l rest ih =>
    simp only [inlineTokens]
    split
    · rename_i hb
      split
      · rename_i hz; simp [hz, tokAt, keptLine, dropTrailing, isBlank]
      · simp [tokAt, ih, keptLine, hb]
    · rename_i hb
      have := cutLine_text hc hk l.length l (Nat.le_refl _)
      rw [List.map_append, List.flatten_append, place_values, cutLine_toks, this]
      split
      · rename_i hz; simp [hz.1, tokAt, keptLine, hb]
      · simp [ih, keptLine, hb]

/-- C06: the token values of the text lexer, concatenated, give every line of the text back, a
non-blank line without the spaces at its end. -/
theorem C06_text_lossless (text : Str) (sl sc : Nat) (src : Option Str) :
    ∃ ts, lexText (TextBuffer.ofText text sl sc src) = .ok ts ∧
      (ts.map (·.value)).flatten = ((Spec.lines text).map keptLine).flatten :=
  ⟨_, lexText_eq .., inline_values textCuts textKeeps ..⟩

/-- C06: the same for the arguments lexer. -/
theorem C06_arguments_lossless (text : Str) (sl sc : Nat) (src : Option Str) :
    ∃ ts, lexArgs (TextBuffer.ofText text sl sc src) = .ok ts ∧
      (ts.map (·.value)).flatten = ((Spec.lines text).map keptLine).flatten :=
  ⟨_, lexArgs_eq .., inline_values argsCuts argsKeeps ..⟩

/-- C06, single line: a text without newlines comes back up to spaces at its end. -/
theorem C06_text_single_line (text : Str) (h : '\n' ∉ text) (sl sc : Nat) (src : Option Str) :
    ∃ ts sp, lexText (TextBuffer.ofText text sl sc src) = .ok ts ∧ Spaces sp ∧
      (ts.map (·.value)).flatten ++ sp = text := by
  obtain ⟨ts, h1, h2⟩ := C06_text_lossless text sl sc src
  by_cases he : text = []
  · exact ⟨ts, [], h1, by intro c hc; simp at hc, by rw [h2]; simp [he, Spec.lines]⟩
  · have hl : Spec.lines text = [text] := by simp [Spec.lines, he, splitChar_of_not_mem h]
    by_cases hb : isBlank text = true
    · exact ⟨ts, [], h1, by intro c hc; simp at hc, by rw [h2]; simp [hl, keptLine, hb]⟩
    · obtain ⟨sp, hs, e⟩ := dropTrailing_split text
      exact ⟨ts, sp, h1, isBlank_iff.1 hs, by rw [h2]; simp [hl, keptLine, hb]; exact e.symm⟩

theorem preCut_line (n : Nat) (s : Str) (hn : s.length ≤ n) :
    ∃ sp, Spaces sp ∧ piecesText (cutLine preCut n s) ++ sp = s ∧
      (sp ≠ [] → (∃ v, (cutLine preCut n s).getLast? = some (.tok .LITERAL v)) ∨ cutLine preCut n s = []) := by
  induction n generalizing s with
  | zero =>
    have : s = [] := List.eq_nil_of_length_eq_zero (by omega)
    subst this; exact ⟨[], by intro c hc; simp at hc, rfl, by simp⟩
  | succ n ih =>
    simp only [cutLine]
    split
    · rename_i hb
      exact ⟨s, isBlank_iff.1 hb, by simp [piecesText], fun _ => .inr rfl⟩
    · rename_i hb
      have hb' : isBlank s = false := by simpa using hb
      have hpos := preCuts.pos s hb'
      obtain ⟨sp, h1, h2, h3⟩ := ih (s.drop (preCut s).2) (by simp; omega)
      refine ⟨sp, h1, ?_, ?_⟩
      · have : piecesText (.tok (preCut s).1 (s.take (preCut s).2) ::
            cutLine preCut n (s.drop (preCut s).2)) =
          s.take (preCut s).2 ++ piecesText (cutLine preCut n (s.drop (preCut s).2)) := by
          simp [piecesText, pieceText]
        rw [this, List.append_assoc, h2, List.take_append_drop]
      · intro hsp
        left
        rcases h3 hsp with ⟨v, hv⟩ | h
        · refine ⟨v, ?_⟩
          rw [List.getLast?_cons, hv]; rfl
        · rw [h]
          obtain ⟨c, r, rfl⟩ := cons_of_not_blank hb'
          by_cases hc : preLiterals.contains c = true
          · refine ⟨[c], ?_⟩
            simp only [preCut, hc, if_true]
            rfl
          · -- a run of ordinary characters stops at a special one, so the rest is not blank
            exfalso
            have hc' : preLiterals.contains c = false := by simpa using hc
            have e : preCut (c :: r) = (.TEXT, ((c :: r).takeWhile fun c => !preLiterals.contains c).length) := by
              simp only [preCut, hc', Bool.false_eq_true, if_false]
            rw [h] at h2
            simp [piecesText] at h2
            rw [e] at h2
            have e2 : (c :: r).drop ((c :: r).takeWhile fun c => !preLiterals.contains c).length =
                (c :: r).dropWhile fun c => !preLiterals.contains c := by
              exact drop_takeWhile_length _ _
            rw [e2] at h2
            cases hd : (c :: r).dropWhile fun c => !preLiterals.contains c with
            | nil => rw [hd] at h2; exact hsp h2
            | cons d t =>
              have := noHead_dropWhile (p := fun c => !preLiterals.contains c) (s := c :: r) d t hd
              rw [hd] at h2
              have hd' := h1 d (by rw [h2]; simp)
              subst hd'
              exact absurd this (by decide)

/-- C06: the preprocessing lexer gives a single-line text back up to spaces at its end, and it
drops spaces only if the text is not blank and the token before them is a special character. -/
theorem C06_preprocess_lossless (text : Str) (h : '\n' ∉ text) (sl sc : Nat) (src : Option Str) :
    ∃ init e sp, lexPre (TextBuffer.ofText text sl sc src) = .ok (init ++ [e]) ∧ e.value = [] ∧
      Spaces sp ∧ (init.map (·.value)).flatten ++ sp = text ∧
      (sp ≠ [] → ∃ t, init.getLast? = some t ∧ t.type = .LITERAL) := by
  rw [lexPre_eq]
  by_cases he : text = []
  · refine ⟨[], tokAt .EOF [] sl sc src, [], ?_, rfl, by intro c hc; simp at hc, by simp [he], by simp⟩
    simp [Spec.lines, he, inlineTokens]
  · have hl : Spec.lines text = [text] := by simp [Spec.lines, he, splitChar_of_not_mem h]
    rw [hl]
    by_cases hb : isBlank text = true
    · refine ⟨[tokAt .EOL text sl sc src], tokAt .EOF [] (sl + 1) 0 src, [], ?_, rfl,
        by intro c hc; simp at hc, by simp [tokAt], by simp⟩
      simp [inlineTokens, hb, he]
    · obtain ⟨sp, h1, h2, h3⟩ := preCut_line text.length text (Nat.le_refl _)
      have hv : ((place sl src sc (cutLine preCut text.length text)).map (·.value)).flatten ++ sp = text := by
        rw [place_values, cutLine_toks, h2]
      have hlast : sp ≠ [] → ∃ t, (place sl src sc (cutLine preCut text.length text)).getLast? = some t ∧
          t.type = .LITERAL := by
        intro hsp
        rcases h3 hsp with ⟨v, hv⟩ | h0
        · rw [List.getLast?_eq_some_iff] at hv
          obtain ⟨q, hq⟩ := hv
          rw [hq, place_append]
          refine ⟨_, by simp only [place]; rw [List.getLast?_append]; rfl, rfl⟩
        · rw [h0] at h2
          simp [piecesText] at h2
          exfalso; apply hb; rw [← h2]; exact isBlank_iff.2 h1
      simp only [inlineTokens, if_neg hb]
      split
      · exact ⟨_, _, sp, rfl, rfl, h1, hv, hlast⟩
      · exact ⟨_, _, sp, rfl, rfl, h1, hv, hlast⟩

example : (lexPre (TextBuffer.ofText c%"a {b}  ")).map (·.map (·.value)) =
      .ok [c%"a ", c%"{", c%"b", c%"}", []] ∧
    (lexPre (TextBuffer.ofText c%"{b} c  ")).map (·.map (·.value)) =
      .ok [c%"{", c%"b", c%"}", c%" c  ", []] := by decide

/-! ## C07 — token positions -/

theorem region_zero {ls : List Str} {sl sc ln col : Nat} {src : Option Str} :
    region ls sl sc (tokAt .EOF [] ln col src).ctx = [] := by
  simp only [region, tokAt]
  rw [show ln + 1 - ln = 1 by omega]
  cases h : ls.drop (ln - sl) with
  | nil => simp
  | cons a b => simp only [List.take_succ_cons, List.take_zero, List.reverse_cons, List.reverse_nil,
      List.nil_append, joinWith, List.length_nil, Nat.add_zero]
                exact List.drop_eq_nil_of_le (by rw [List.length_take]; exact Nat.min_le_left _ _)

theorem region_tokAt {all pre post : List Str} {a v b : Str} {sl sc ln col : Nat} {ty : TokenType}
    {src : Option Str} (hall : all = pre ++ (a ++ v ++ b) :: post) (hln : ln = sl + pre.length)
    (hcol : col = (if pre = [] then sc else 0) + a.length) :
    region all sl sc (tokAt ty v ln col src).ctx = v := by
  simp only [region, tokAt]
  rw [show ln + 1 - ln = 1 by omega, show ln - sl = pre.length by omega]
  have : (ln = sl) ↔ (pre = []) := by
    constructor
    · intro h; exact List.eq_nil_of_length_eq_zero (by omega)
    · intro h; simp [h] at hln; exact hln
  simp only [this]
  rw [hall, List.drop_left]
  simp only [List.take_succ_cons, List.take_zero, List.reverse_cons, List.reverse_nil, List.nil_append,
    joinWith]
  rw [hcol]
  by_cases hp : pre = []
  · simp only [hp, if_true]
    rw [show sc + a.length + v.length - sc = (a ++ v).length by simp; omega,
      show sc + a.length - sc = a.length by omega, List.take_left, List.drop_left]
  · simp only [hp, if_false, Nat.zero_add, Nat.sub_zero]
    rw [← List.length_append, List.take_left, List.drop_left]

theorem region_place {all pre post : List Str} {sl sc ln : Nat} {src : Option Str} {l : Str}
    (hall : all = pre ++ l :: post) (hln : ln = sl + pre.length) :
    ∀ (ps : List Piece) (a b : Str) (col : Nat), l = a ++ piecesText ps ++ b →
      col = (if pre = [] then sc else 0) + a.length →
      ∀ t ∈ place ln src col ps, region all sl sc t.ctx = t.value := by
  intro ps
  induction ps with
  | nil => intro a b col _ _ t ht; simp [place] at ht
  | cons p ps ih =>
    intro a b col hl hcol t ht
    cases p with
    | tok ty v =>
      simp only [place, List.mem_cons] at ht
      rcases ht with rfl | ht
      · exact region_tokAt (a := a) (v := v) (b := piecesText ps ++ b) (post := post)
          (by rw [hall, hl]; simp [piecesText, pieceText]) hln hcol
      · exact ih (a ++ v) b _ (by rw [hl]; simp [piecesText, pieceText])
          (by rw [hcol]; simp; omega) t ht
    | skip v =>
      simp only [place] at ht
      exact ih (a ++ v) b _ (by rw [hl]; simp [piecesText, pieceText])
        (by rw [hcol]; simp; omega) t ht

theorem region_content {all pre post cs : List Str} {d : Str} {sl sc ln : Nat} {src : Option Str}
    (hall : all = pre ++ d :: (cs ++ post)) (hln : ln = sl + pre.length) :
    ∀ t ∈ contentToken src (ln + 1) cs, region all sl sc t.ctx = t.value := by
  intro t ht
  unfold contentToken at ht
  split at ht
  · simp at ht
  · rename_i hne
    rw [List.mem_singleton] at ht
    subst ht
    have hl : cs.length ≠ 0 := by simpa using hne
    simp only [region]
    have e1 : (all.drop (ln + 1 - sl)).take (ln + 1 + cs.length - 1 + 1 - (ln + 1)) = cs := by
      rw [show ln + 1 - sl = (pre ++ [d]).length by simp; omega,
        show ln + 1 + cs.length - 1 + 1 - (ln + 1) = cs.length by omega, hall,
        show pre ++ d :: (cs ++ post) = (pre ++ [d]) ++ (cs ++ post) by simp, List.drop_left,
        List.take_left]
    rw [e1, if_neg (by omega), if_neg (by omega)]
    obtain ⟨c', z, rfl⟩ : ∃ c' z, cs = c' ++ [z] := ⟨_, _, (List.dropLast_concat_getLast hne).symm⟩
    simp [List.getLastD_eq_getLast?]
    cases c' with
    | nil => simp
    | cons x y => simp

theorem linePieces_text (l : Str) : linePieces l = [] ∨ piecesText (linePieces l) = l := by
  rcases (linePieces_iff (l := l) (ps := linePieces l)).1 rfl with h | h
  · exact lineForm_text h
  · right; rw [h.2]; simp [piecesText, pieceText]

/-- C07: the position of every token of a document delimits exactly its value in the source. -/
theorem C07_document (text : Str) (sl sc : Nat) (src : Option Str) (ts : List Token)
    (h : lexDocument (TextBuffer.ofText text sl sc src) = .ok ts) :
    ∀ t ∈ ts, region (splitChar '\n' text) sl sc t.ctx = t.value := by
  rw [lexDocument_split] at h
  generalize hall : splitChar '\n' text = all at h ⊢
  clear hall
  have main := docTokens_rec (src := src) (P := fun ln col ls r => ∀ pre, all = pre ++ ls →
    ln = sl + pre.length → col = (if pre = [] then sc else 0) → ∀ ts, r = .ok ts →
    ∀ t ∈ ts, region all sl sc t.ctx = t.value) ?_ ?_ ?_ ?_ ?_ ?_ ?_ ?_ all sl sc
  · exact main [] rfl rfl (by simp) ts h
  · intro ln col pre _ _ _ ts h t ht; simp at h; subst h; simp at ht; subst ht; exact region_zero
  · intro ln col pre _ _ _ ts h t ht; simp at h; subst h; simp at ht; subst ht; exact region_zero
  · intro ln col l rest _ _ ih pre hall hln hcol ts h t ht
    obtain ⟨x, hx, rfl⟩ := map_ok h
    simp only [List.mem_cons] at ht
    rcases ht with rfl | ht
    · exact region_tokAt (a := []) (b := []) (post := rest) (by simpa using hall) hln (by simpa using hcol)
    · exact ih (pre ++ [l]) (by simp [hall]) (by simp; omega) (by simp) x hx t ht
  · intro ln col rest _ pre _ _ _ ts h; simp at h
  · intro ln col cs rest _ ih pre hall hln hcol ts h t ht
    exact ih (pre ++ c%"////" :: (cs ++ [c%"////"])) (by simp [hall]) (by simp; omega) (by simp) ts h t ht
  · intro ln col l rest _ _ pre _ _ _ ts h; simp at h
  · intro ln col l cs rest _ _ ih pre hall hln hcol ts h t ht
    obtain ⟨x, hx, rfl⟩ := map_ok h
    simp only [List.cons_append, List.mem_cons, List.mem_append] at ht
    rcases ht with rfl | ht | rfl | ht
    · exact region_tokAt (a := []) (b := []) (post := cs ++ l :: rest) (by simpa using hall) hln
        (by simpa using hcol)
    · exact region_content hall hln t ht
    · exact region_tokAt (a := []) (b := []) (post := rest) (pre := pre ++ l :: cs)
        (by simpa using hall) (by simp; omega) (by simp)
    · exact ih (pre ++ l :: (cs ++ [l])) (by simp [hall]) (by simp; omega) (by simp) x hx t ht
  · intro ln col l rest _ ih pre hall hln hcol ts h t ht
    obtain ⟨x, hx, rfl⟩ := map_ok h
    rcases List.mem_append.1 ht with ht | ht
    · rcases linePieces_text l with e | e
      · rw [e] at ht; simp [place] at ht
      · exact region_place hall hln (linePieces l) [] [] col (by simp [e]) (by simpa using hcol) t ht
    · exact ih (pre ++ [l]) (by simp [hall]) (by simp; omega) (by simp) x hx t ht

theorem cutLine_prefix {cut : Cutter} (n : Nat) (s : Str) : ∃ b, s = piecesText (cutLine cut n s) ++ b := by
  induction n generalizing s with
  | zero => exact ⟨s, rfl⟩
  | succ n ih =>
    simp only [cutLine]
    split
    · exact ⟨s, rfl⟩
    · obtain ⟨b, hb⟩ := ih (s.drop (cut s).2)
      refine ⟨b, ?_⟩
      simp [piecesText, pieceText] at hb ⊢
      rw [← hb, List.take_append_drop]

theorem inline_regions (cut : Cutter) (src : Option Str) (all : List Str) (sl sc : Nat) :
    ∀ (ls : List Str) (ln col : Nat) (pre : List Str), all = pre ++ ls → ln = sl + pre.length →
      col = (if pre = [] then sc else 0) →
      ∀ t ∈ inlineTokens cut src ln col ls, region all sl sc t.ctx = t.value := by
  intro ls
  induction ls with
  | nil =>
    intro ln col pre _ _ _ t ht
    simp [inlineTokens] at ht; subst ht; exact region_zero
  | cons l rest ih =>
    intro ln col pre hall hln hcol t ht
    simp only [inlineTokens] at ht
    have hrec := ih (ln + 1) 0 (pre ++ [l]) (by simp [hall]) (by simp; omega) (by simp)
    split at ht
    · split at ht
      · simp at ht; subst ht; exact region_zero
      · simp only [List.mem_cons] at ht
        rcases ht with rfl | ht
        · exact region_tokAt (a := []) (b := []) (post := rest) (by simpa using hall) hln
            (by simpa using hcol)
        · exact hrec t ht
    · rcases List.mem_append.1 ht with ht | ht
      · obtain ⟨b, hb⟩ := cutLine_prefix (cut := cut) l.length l
        exact region_place hall hln _ [] b col (by simpa using hb) (by simpa using hcol) t ht
      · split at ht
        · simp at ht; subst ht; exact region_zero
        · exact hrec t ht

/-- C07: the same for the text lexer. -/
theorem C07_text (text : Str) (sl sc : Nat) (src : Option Str) (ts : List Token)
    (h : lexText (TextBuffer.ofText text sl sc src) = .ok ts) :
    ∀ t ∈ ts, region (Spec.lines text) sl sc t.ctx = t.value := by
  rw [lexText_eq] at h; simp at h; rw [← h]
  exact inline_regions _ _ _ _ _ _ _ _ [] rfl rfl (by simp)

/-- C07: the same for the arguments lexer. -/
theorem C07_arguments (text : Str) (sl sc : Nat) (src : Option Str) (ts : List Token)
    (h : lexArgs (TextBuffer.ofText text sl sc src) = .ok ts) :
    ∀ t ∈ ts, region (Spec.lines text) sl sc t.ctx = t.value := by
  rw [lexArgs_eq] at h; simp at h; rw [← h]
  exact inline_regions _ _ _ _ _ _ _ _ [] rfl rfl (by simp)

/-- C07: the same for the preprocessing lexer. -/
theorem C07_preprocess (text : Str) (sl sc : Nat) (src : Option Str) (ts : List Token)
    (h : lexPre (TextBuffer.ofText text sl sc src) = .ok ts) :
    ∀ t ∈ ts, region (Spec.lines text) sl sc t.ctx = t.value := by
  rw [lexPre_eq] at h; simp at h; rw [← h]
  exact inline_regions _ _ _ _ _ _ _ _ [] rfl rfl (by simp)

/-- A concrete case with an offset and a block: the content token spans lines 6 and 7. -/
example : (lexDocument (TextBuffer.ofText c%"x\n++++\nab\nc\n++++" 4 2)).map
      (·.map fun t => (t.value, t.ctx)) =
    .ok [(c%"x", ⟨4, 2, 4, 3, none⟩), (c%"++++", ⟨5, 0, 5, 4, none⟩), (c%"ab\nc", ⟨6, 0, 7, 1, none⟩),
      (c%"++++", ⟨8, 0, 8, 4, none⟩), ([], ⟨9, 0, 9, 0, none⟩)] ∧
    region [c%"x", c%"++++", c%"ab", c%"c", c%"++++"] 4 2 ⟨6, 0, 7, 1, none⟩ = c%"ab\nc" := by decide

/-! ## C08 — comments leave no trace -/

theorem shape_after {p : Str} {sl sc : Nat} {src : Option Str} {ts : List Token}
    (hp : p = [] ∨ p.getLast? = some '\n')
    (hc : lexDocument (TextBuffer.ofText p sl sc src) = .ok ts) :
    ∃ init, shape (.ok ts) = .ok (init ++ [(.EOF, [])]) ∧
      ∀ s, shape (lexDocument (TextBuffer.ofText (p ++ s) sl sc src)) =
        (shape (lexDocument (TextBuffer.ofText s sl sc src))).map fun us => init ++ us := by
  obtain ⟨init, e, ln, col, rfl, h1, h2, h3⟩ := lex_after hp hc
  refine ⟨init.map fun t => (t.type, t.value), by simp [shape, h1, h2], ?_⟩
  intro s
  rw [h3 s, shape_map, lexDocument_split, shape_docTokens src src (splitChar '\n' s) ln col sl sc]

/-- C08: a comment line (after text `p` that leaves no block or comment open) leaves no trace. -/
theorem C08_line_comment (p r s : Str) (sl sc : Nat) (src : Option Str) (ts : List Token)
    (hp : p = [] ∨ p.getLast? = some '\n')
    (hclosed : lexDocument (TextBuffer.ofText p sl sc src) = .ok ts)
    (hn : '\n' ∉ r) (hc : r ≠ c%"//") :
    shape (lexDocument (TextBuffer.ofText (p ++ c%"//" ++ r ++ '\n' :: s) sl sc src)) =
      shape (lexDocument (TextBuffer.ofText (p ++ s) sl sc src)) := by
  obtain ⟨init, _, h⟩ := shape_after hp hclosed
  rw [List.append_assoc, List.append_assoc, h, h]
  congr 1
  have hl : splitChar '\n' (c%"//" ++ (r ++ '\n' :: s)) = (c%"//" ++ r) :: splitChar '\n' s := by
    rw [← List.append_assoc]
    exact splitChar_append_sep (by simp; exact hn) s
  rw [lexDocument_split, hl]
  have hform : linePieces (c%"//" ++ r) = [] :=
    linePieces_iff.2 (.inl (by simpa using LineForm.comment r))
  by_cases hd : isBlockDelimiter (c%"//" ++ r) = true
  · exfalso
    have : c%"//" ++ r = c%"////" := by
      unfold isBlockDelimiter at hd
      split at hd
      · rename_i a b c d e
        simp at e hd
        obtain ⟨h1, h2, h3⟩ := e
        subst h1
        obtain ⟨⟨rfl, rfl⟩, rfl⟩ := hd
        simp [h3]
      · simp at hd
    simp at this; exact hc this
  · have hpl : IsPlainLine (c%"//" ++ r) :=
      ⟨by simp [isBlank], by simpa using hc, by simpa using hd⟩
    rw [docTokens_line hpl, hform, shape_map, lexDocument_split,
      shape_docTokens src src _ (sl + 1) 0 sl sc]
    cases shape (docTokens src sl sc (splitChar '\n' s)) <;> simp [Except.map, place]

/-- C08: the same for a comment on the last line. -/
theorem C08_last_comment (p r : Str) (sl sc : Nat) (src : Option Str) (ts : List Token)
    (hp : p = [] ∨ p.getLast? = some '\n')
    (hclosed : lexDocument (TextBuffer.ofText p sl sc src) = .ok ts)
    (hn : '\n' ∉ r) (hc : r ≠ c%"//") :
    shape (lexDocument (TextBuffer.ofText (p ++ c%"//" ++ r) sl sc src)) =
      shape (lexDocument (TextBuffer.ofText p sl sc src)) := by
  have h := C08_line_comment p r [] sl sc src ts hp hclosed hn hc
  simp only [List.append_nil] at h
  rw [← h]
  obtain ⟨init, _, h'⟩ := shape_after hp hclosed
  rw [List.append_assoc, List.append_assoc, List.append_assoc, h', h']
  congr 1
  have hl : splitChar '\n' (c%"//" ++ (r ++ ['\n'])) = [c%"//" ++ r, []] := by
    rw [← List.append_assoc, splitChar_append_sep (by simp; exact hn) []]; rfl
  have hl2 : splitChar '\n' (c%"//" ++ r) = [c%"//" ++ r] := splitChar_of_not_mem (by simp; exact hn)
  rw [lexDocument_split, lexDocument_split, hl, hl2]
  have hpl : IsPlainLine (c%"//" ++ r) := by
    refine ⟨by simp [isBlank], by simpa using hc, ?_⟩
    cases hd : isBlockDelimiter (c%"//" ++ r) with
    | false => rfl
    | true =>
      exfalso
      have : c%"//" ++ r = c%"////" := by
        unfold isBlockDelimiter at hd
        split at hd
        · rename_i a b c d e
          simp at e hd
          obtain ⟨h1, h2, h3⟩ := e
          subst h1
          obtain ⟨⟨rfl, rfl⟩, rfl⟩ := hd
          simp [h3]
        · simp at hd
      simp at this; exact hc this
  rw [docTokens_line hpl, docTokens_line hpl, docTokens_single_empty]

/-- C08: a closed multi-line comment leaves no trace, whatever its lines are. -/
theorem C08_multiline_comment (p body s : Str) (sl sc : Nat) (src : Option Str) (ts : List Token)
    (hp : p = [] ∨ p.getLast? = some '\n')
    (hclosed : lexDocument (TextBuffer.ofText p sl sc src) = .ok ts)
    (hb : body = [] ∨ body.getLast? = some '\n')
    (hn : c%"////" ∉ splitChar '\n' body) :
    shape (lexDocument (TextBuffer.ofText (p ++ c%"////\n" ++ body ++ c%"////\n" ++ s) sl sc src)) =
      shape (lexDocument (TextBuffer.ofText (p ++ s) sl sc src)) := by
  obtain ⟨init, _, h⟩ := shape_after hp hclosed
  rw [show p ++ c%"////\n" ++ body ++ c%"////\n" ++ s = p ++ (c%"////" ++ '\n' :: (body ++ (c%"////" ++ '\n' :: s)))
    by simp, h, h]
  congr 1
  obtain ⟨B, hB⟩ := splitChar_append_nl hb
  rw [lexDocument_split, splitChar_append_sep (by simp), hB, splitChar_append_sep (by simp)]
  rw [docTokens_comment, lexDocument_split]
  · exact shape_docTokens ..
  · have := hB []
    simp at this
    rw [this] at hn
    intro hm; exact hn (by simp [hm])

example : lexDocument (TextBuffer.ofText c%"== T\n" 0 0) =
      .ok [⟨.HEADER, c%"==", ⟨0, 0, 0, 2, none⟩⟩, ⟨.TEXT, c%"T", ⟨0, 3, 0, 4, none⟩⟩,
        ⟨.EOF, [], ⟨1, 0, 1, 0, none⟩⟩] ∧
    shape (lexDocument (TextBuffer.ofText c%"== T\n////\n---\n\n////\nabc" 0 0)) =
      shape (lexDocument (TextBuffer.ofText c%"== T\nabc" 0 0)) := by decide

/-- Inside a block the same line is content: the hypothesis that `p` is closed is needed. -/
example : (shape (lexDocument (TextBuffer.ofText c%"----\n// x\n----" 0 0)) =
    .ok [(.BLOCK, c%"----"), (.TEXT, c%"// x"), (.BLOCK, c%"----"), (.EOF, [])]) := by decide

/-! ## C09 — block content is captured verbatim -/

/-- C09: the lines between a delimiter and the next equal line become one text token with these
lines joined by newlines (none if there are no lines), whatever they contain. -/
theorem C09_block_verbatim (p d s : Str) (cs : List Str) (sl sc : Nat) (src : Option Str) (ts : List Token)
    (hp : p = [] ∨ p.getLast? = some '\n')
    (hclosed : lexDocument (TextBuffer.ofText p sl sc src) = .ok ts)
    (ch : Char) (hd : d = [ch, ch, ch, ch]) (hch : ch ≠ ' ' ∧ ch ≠ '/' ∧ ch ≠ '\n')
    (hcs : ∀ l ∈ cs, '\n' ∉ l) (hn : d ∉ cs) :
    ∃ before, shape (.ok ts) = .ok (before ++ [(.EOF, [])]) ∧
      shape (lexDocument (TextBuffer.ofText
          (p ++ (d ++ ['\n']) ++ (cs.map (· ++ ['\n'])).flatten ++ (d ++ ['\n']) ++ s) sl sc src)) =
        (shape (lexDocument (TextBuffer.ofText s sl sc src))).map fun after =>
          before ++ [(.BLOCK, d)] ++ (if cs = [] then [] else [(.TEXT, joinWith ['\n'] cs)]) ++
            [(.BLOCK, d)] ++ after := by
  obtain ⟨init, h0, h⟩ := shape_after hp hclosed
  refine ⟨init, h0, ?_⟩
  have hsplit : ∀ (cs : List Str), (∀ l ∈ cs, '\n' ∉ l) → ∀ t,
      splitChar '\n' ((cs.map (· ++ ['\n'])).flatten ++ t) = cs ++ splitChar '\n' t := by
    intro cs
    induction cs with
    | nil => simp
    | cons c cs ih =>
      intro hcs t
      simp only [List.map_cons, List.flatten_cons, List.append_assoc, List.singleton_append, List.cons_append, List.nil_append]
      rw [splitChar_append_sep (hcs c (by simp)), ih (fun l hl => hcs l (by simp [hl]))]
  have hdn : '\n' ∉ d := by rw [hd]; simp; exact fun e => hch.2.2 e.symm
  have hdel : IsDelim d := by
    refine ⟨by simp [hd, isBlockDelimiter], by simp [hd, isBlank, hch.1], ?_⟩
    rw [hd]; simp; exact hch.2.1
  rw [show p ++ (d ++ ['\n']) ++ (cs.map (· ++ ['\n'])).flatten ++ (d ++ ['\n']) ++ s =
    p ++ (d ++ '\n' :: ((cs.map (· ++ ['\n'])).flatten ++ (d ++ '\n' :: s))) by simp, h]
  rw [lexDocument_split, splitChar_append_sep hdn, hsplit cs hcs, splitChar_append_sep hdn,
    docTokens_block hdel hn, lexDocument_split]
  have := shape_map (as := tokAt .BLOCK d sl sc src :: (contentToken src (sl + 1) cs ++
          [tokAt .BLOCK d (sl + cs.length + 1) 0 src]))
          (r := docTokens src (sl + cs.length + 2) 0 (splitChar '\n' s))
  simp only [List.cons_append, List.append_assoc, List.nil_append] at this ⊢
  rw [this, shape_docTokens src src _ (sl + cs.length + 2) 0 sl sc]
  have e : (contentToken src (sl + 1) cs).map (fun t => (t.type, t.value)) =
      if cs = [] then [] else [(.TEXT, joinWith ['\n'] cs)] := by
    unfold contentToken; split <;> simp
  cases shape (docTokens src sl sc (splitChar '\n' s)) with
  | error m => simp [Except.map]
  | ok us => simp [Except.map, e, tokAt]

example : (shape (lexDocument (TextBuffer.ofText c%"++++\n== a\n////\n\n[b]\n++++\nx" 0 0)) =
    .ok [(.BLOCK, c%"++++"), (.TEXT, c%"== a\n////\n\n[b]"), (.BLOCK, c%"++++"), (.TEXT, c%"x"),
      (.EOF, [])]) := by decide

/-! ## C10 — line classification -/

/-- The tokens among some pieces. -/
def pieceToks (ps : List Piece) : List (TokenType × Str) :=
  ps.filterMap fun p => match p with | .tok ty v => some (ty, v) | .skip _ => none

/-- C10: a line is cut by its documented form, and a line of no documented form is text. -/
theorem C10_line_classified (p l s : Str) (ps : List Piece) (sl sc : Nat) (src : Option Str)
    (ts : List Token) (hp : p = [] ∨ p.getLast? = some '\n')
    (hclosed : lexDocument (TextBuffer.ofText p sl sc src) = .ok ts)
    (hn : '\n' ∉ l) (hb : ¬ Spaces l)
    (hd : ∀ ch, l ≠ [ch, ch, ch, ch])
    (hform : LineForm l ps ∨ ((∀ qs, ¬ LineForm l qs) ∧ ps = [.tok .TEXT l])) :
    ∃ before, shape (.ok ts) = .ok (before ++ [(.EOF, [])]) ∧
      shape (lexDocument (TextBuffer.ofText (p ++ l ++ '\n' :: s) sl sc src)) =
        (shape (lexDocument (TextBuffer.ofText s sl sc src))).map fun after =>
          before ++ pieceToks ps ++ after := by
  obtain ⟨init, h0, h⟩ := shape_after hp hclosed
  refine ⟨init, h0, ?_⟩
  have hpl : IsPlainLine l := by
    refine ⟨?_, hd '/', ?_⟩
    · cases hbl : isBlank l with
      | false => rfl
      | true => exact absurd (isBlank_iff.1 hbl) hb
    · cases hbd : isBlockDelimiter l with
      | false => rfl
      | true =>
        unfold isBlockDelimiter at hbd
        split at hbd
        · rename_i a b c d
          simp at hbd
          obtain ⟨⟨rfl, rfl⟩, rfl⟩ := hbd
          exact absurd rfl (hd a)
        · simp at hbd
  rw [List.append_assoc, h, lexDocument_split, splitChar_append_sep hn, docTokens_line hpl,
    linePieces_iff.2 hform, shape_map, lexDocument_split, shape_docTokens src src _ (sl + 1) 0 sl sc]
  have e : ∀ (ps : List Piece) (col : Nat),
      (place sl src col ps).map (fun t => (t.type, t.value)) = pieceToks ps := by
    intro ps
    induction ps with
    | nil => intro col; rfl
    | cons q qs ih => intro col; cases q <;> simp [place, tokAt, ih, pieceToks]
  rw [e]
  cases shape (docTokens src sl sc (splitChar '\n' s)) <;> simp [Except.map]

/-- C10: a line has at most one documented form (no precedence question arises among them), and
the pieces of a non-comment line give the line back. -/
theorem C10_forms_exclusive {l : Str} {ps qs : List Piece} (h1 : LineForm l ps) (h2 : LineForm l qs) :
    ps = qs := by
  rw [← linePieces_iff.2 (.inl h1), ← linePieces_iff.2 (.inl h2)]

/-- C10: the pieces of a line give the line back, unless it is a comment. -/
theorem C10_pieces_give_line {l : Str} {ps : List Piece} (h : LineForm l ps) :
    (∃ r, l = '/' :: '/' :: r) ∨ piecesText ps = l := by
  rcases lineForm_text h with e | e
  · left
    cases h with
    | comment r => exact ⟨r, rfl⟩
    | _ => simp at e
  · exact .inr e

/-- Concrete lines: a nested list item with indentation, an include, and a text line. -/
example : LineForm c%"  ** a b" [.skip c%"  ", .tok .LIST c%"**", .skip c%" ", .tok .TEXT c%"a b"] ∧
    LineForm c%"<< image:x.png" [.tok .INCLUDE c%"<<", .skip c%" ", .tok .TEXT c%"image",
      .tok .LITERAL c%":", .tok .TEXT c%"x.png"] ∧ (∀ qs, ¬ LineForm c%"plain *text" qs) := by
  refine ⟨?_, ?_, ?_⟩
  · exact lineForm_iff.2 (by decide)
  · exact lineForm_iff.2 (by decide)
  · intro qs h
    have h1 := linePieces_iff.2 (.inl h)
    rw [lineForm_iff] at h
    have e : linePieces c%"plain *text" = [.tok .TEXT c%"plain *text"] := by decide
    rw [e] at h1; subst h1; revert h; decide

/-! ## C11 — independence of the origin -/

/-- C11: lexing a document at an offset gives the tokens (or the error) of lexing it at the origin,
moved down by the start line and, on the first line only, right by the start column. -/
theorem C11_document (text : Str) (sl sc : Nat) (src : Option Str) :
    lexDocument (TextBuffer.ofText text sl sc src) =
      match lexDocument (TextBuffer.ofText text 0 0 src) with
      | .ok ts => .ok (ts.map fun t => { t with ctx := shiftCtx sl sc t.ctx })
      | .error (.lexer m l c s) => .error (.lexer m (l + sl) (c + if l = 0 then sc else 0) s)
      | .error e => .error e := by
  have := docTokens_shift src sl sc (Spec.lines text) 0 0
  simp only [Nat.zero_add, if_true] at this
  rw [lexDocument_eq, lexDocument_eq, this]
  cases docTokens src 0 0 (Spec.lines text) with
  | ok ts => rfl
  | error e => cases e <;> rfl

/-- C11 for the text lexer. -/
theorem C11_text (text : Str) (sl sc : Nat) (src : Option Str) :
    lexText (TextBuffer.ofText text sl sc src) =
      (lexText (TextBuffer.ofText text 0 0 src)).map fun ts =>
        ts.map fun t => { t with ctx := shiftCtx sl sc t.ctx } := by
  have := inlineTokens_shift textCut src sl sc (Spec.lines text) 0 0
  simp only [Nat.zero_add, if_true] at this
  rw [lexText_eq, lexText_eq, this]; rfl

/-- C11 for the arguments lexer. -/
theorem C11_arguments (text : Str) (sl sc : Nat) (src : Option Str) :
    lexArgs (TextBuffer.ofText text sl sc src) =
      (lexArgs (TextBuffer.ofText text 0 0 src)).map fun ts =>
        ts.map fun t => { t with ctx := shiftCtx sl sc t.ctx } := by
  have := inlineTokens_shift argsCut src sl sc (Spec.lines text) 0 0
  simp only [Nat.zero_add, if_true] at this
  rw [lexArgs_eq, lexArgs_eq, this]; rfl

/-- C11 for the preprocessing lexer. -/
theorem C11_preprocess (text : Str) (sl sc : Nat) (src : Option Str) :
    lexPre (TextBuffer.ofText text sl sc src) =
      (lexPre (TextBuffer.ofText text 0 0 src)).map fun ts =>
        ts.map fun t => { t with ctx := shiftCtx sl sc t.ctx } := by
  have := inlineTokens_shift preCut src sl sc (Spec.lines text) 0 0
  simp only [Nat.zero_add, if_true] at this
  rw [lexPre_eq, lexPre_eq, this]; rfl

example : (lexText (TextBuffer.ofText c%"a\nb" 7 3)).map (·.map (·.ctx)) =
    .ok [⟨7, 3, 7, 4, none⟩, ⟨8, 0, 8, 1, none⟩, ⟨8, 1, 8, 1, none⟩] := by decide

end Mau
