import Verif.Spec.Conditions
import Verif.Lemmas.Inline
import Verif.Model.Arguments

set_option linter.unusedSimpArgs false

/-!
# Conditions (C27)
-/

namespace Mau
open Spec

theorem isVarChar_iff (c : Char) :
    isVarChar c = true ↔ (c.isAlphanum ∨ c = '_' ∨ c = '.' ∨ c = '+' ∨ c = '-') := by
  simp only [isVarChar, Char.isAlphanum, Char.isAlpha, Char.isUpper, Char.isLower, Char.isDigit, isLowerAscii,
    isUpperAscii, isDigitAscii, Bool.or_eq_true, Bool.and_eq_true, beq_iff_eq, decide_eq_true_eq, Char.le_def, ge_iff_le]
  constructor
  · rintro ((((((h | h) | h) | h) | h) | h) | h)
    · exact .inl (.inl (.inr h))
    · exact .inl (.inl (.inl h))
    · exact .inl (.inr h)
    all_goals simp [h]
  · rintro (((h | h) | h) | h | h | h | h)
    · exact .inl (.inl (.inl (.inl (.inl (.inr h)))))
    · exact .inl (.inl (.inl (.inl (.inl (.inl h)))))
    · exact .inl (.inl (.inl (.inl (.inr h))))
    all_goals simp [h]

/-- C10: the characters of operators, include types, variable names, roles and list marks in the forms of lines. -/
theorem C10_alphabets (c : Char) :
    (isLowerAscii c = true ↔ c.isLower) ∧
    (isIncludeChar c = true ↔ c.isLower ∨ c.isDigit ∨ c = '_' ∨ c = '#' ∨ c = '.') ∧
    (isVarChar c = true ↔ c.isAlphanum ∨ c = '_' ∨ c = '.' ∨ c = '+' ∨ c = '-') ∧
    (isRoleChar c = true ↔ c.isLower ∨ c.isDigit ∨ c = '-' ∨ c = '_') ∧
    (isListChar c = true ↔ c = '*' ∨ c = '#') := by
  refine ⟨?_, ?_, isVarChar_iff c, ?_, ?_⟩
  all_goals simp only [isIncludeChar, isRoleChar, isListChar, Char.isLower, Char.isDigit, isLowerAscii,
    isDigitAscii, Bool.or_eq_true, Bool.and_eq_true, beq_iff_eq, decide_eq_true_eq, Char.le_def, ge_iff_le, or_assoc]
  all_goals exact Iff.rfl

theorem takeWhile_append_stop {p : Char → Bool} {a b : Str} (ha : ∀ c ∈ a, p c = true) (hb : ∀ c, b.head? = some c → p c = false) :
    (a ++ b).takeWhile p = a ∧ (a ++ b).dropWhile p = b := by
  induction a with
  | nil =>
    cases b with
    | nil => simp
    | cons c b => simp [hb c rfl]
  | cons c a ih =>
    have := ih (fun x hx => ha x (by simp [hx]))
    simp [ha c (by simp), this]

theorem matchCondition_text {l var value : Str} {neg : Bool} (h : ConditionText l var neg value) :
    ∃ sp1 sp2, l = var ++ sp1 ++ (if neg then c%"!=" else c%"==") ++ sp2 ++ value ∧ var ≠ [] ∧
      matchCondition l = some (var, sp1, (if neg then c%"!=" else c%"=="), sp2, value) := by
  cases h with
  | mk neg hne hvar h1 h2 hv =>
    rename_i sp1 sp2
    refine ⟨sp1, sp2, rfl, hne, ?_⟩
    have hs1 : ∀ c ∈ sp1, (c == ' ') = true := by intro c hc; simpa using h1 c hc
    have hs2 : ∀ c ∈ sp2, (c == ' ') = true := by intro c hc; simpa using h2 c hc
    have hcmp : ∃ a, (if neg then c%"!=" else c%"==") = [a, '='] ∧ (a = '=' ∨ a = '!') := by cases neg <;> simp
    obtain ⟨a, hcmp, ha⟩ := hcmp
    rw [hcmp]
    obtain ⟨e1, e2⟩ := takeWhile_append_stop (p := isVarChar) (a := var) (b := sp1 ++ a :: '=' :: (sp2 ++ value))
      (fun c hc => (isVarChar_iff c).2 (hvar c hc)) (by
        intro c hc
        cases sp1 with
        | nil => simp at hc; subst hc; rcases ha with rfl | rfl <;> decide
        | cons x xs => simp at hc; subst hc; rw [h1 x (by simp)]; decide)
    obtain ⟨e3, e4⟩ := takeWhile_append_stop (p := (· == ' ')) (a := sp1) (b := a :: '=' :: (sp2 ++ value)) hs1 (by
        intro c hc; simp at hc; subst hc; rcases ha with rfl | rfl <;> decide)
    obtain ⟨e5, e6⟩ := takeWhile_append_stop (p := (· == ' ')) (a := sp2) (b := value) hs2 (by
        intro c hc; rw [hc] at hv; simpa using hv)
    have e : var ++ sp1 ++ [a, '='] ++ sp2 ++ value = var ++ (sp1 ++ a :: '=' :: (sp2 ++ value)) := by simp
    rw [e]
    simp only [matchCondition, e1, e2, e3, e4, e5, e6]
    rw [if_neg (by simpa using hne), if_pos (by rcases ha with rfl | rfl <;> rfl)]

theorem condition_of_match {l var sp1 cmp sp2 value : Str} (h : matchCondition l = some (var, sp1, cmp, sp2, value)) :
    ∃ neg, ConditionText l var neg value ∧ cmp = (if neg then c%"!=" else c%"==") := by
  simp only [matchCondition] at h
  split at h
  · cases h
  · rename_i hne
    split at h
    · rename_i a r3 hr
      split at h
      · rename_i ha
        simp only [Option.some.injEq, Prod.mk.injEq] at h
        obtain ⟨h1, h2, h3, h4, h5⟩ := h
        have hl : l = var ++ sp1 ++ [a, '='] ++ sp2 ++ value := by
          rw [← h1, ← h2, ← h4, ← h5]
          have q1 := List.takeWhile_append_dropWhile (p := isVarChar) (l := l)
          have q2 := List.takeWhile_append_dropWhile (p := (· == ' ')) (l := l.dropWhile isVarChar)
          have q3 := List.takeWhile_append_dropWhile (p := (· == ' ')) (l := r3)
          rw [hr] at q2
          simp only [List.append_assoc, List.cons_append, List.nil_append]
          rw [q3, q2, q1]
        have hsp : ∀ (x : Str) (c : Char), c ∈ x.takeWhile (· == ' ') → c = ' ' := by
          intro x c hc; simpa using mem_takeWhile _ hc
        refine ⟨a == '!', ?_, ?_⟩
        · have hcmp : (if (a == '!') = true then c%"!=" else c%"==") = [a, '='] := by
            rcases (by simpa using ha : a = '=' ∨ a = '!') with rfl | rfl <;> rfl
          rw [hl, ← hcmp]
          refine .mk _ (by rw [← h1]; simpa using hne) ?_ ?_ ?_ ?_
          · intro c hc
            rw [← h1] at hc
            exact (isVarChar_iff c).1 (mem_takeWhile _ hc)
          · intro c hc; rw [← h2] at hc; exact hsp _ c hc
          · intro c hc; rw [← h4] at hc; exact hsp _ c hc
          · rw [← h5]
            have := List.head?_dropWhile_not (· == ' ') r3
            intro he
            rw [he] at this
            simp at this
        · rw [← h3]
          rcases (by simpa using ha : a = '=' ∨ a = '!') with rfl | rfl <;> rfl
      · cases h
    · cases h

theorem lexCondition_text {text var value : Str} {neg : Bool} (h : ConditionText text var neg value) (hn : '\n' ∉ text)
    (sl sc : Nat) (src : Option Str) :
    ∃ c1 c2 c3 c4, lexCondition (TextBuffer.ofText text sl sc src) =
      .ok [⟨.TEXT, var, c1⟩, ⟨.TEXT, if neg then c%"!=" else c%"==", c2⟩, ⟨.TEXT, value, c3⟩, ⟨.EOF, [], c4⟩] := by
  obtain ⟨sp1, sp2, hl, hne, hm⟩ := matchCondition_text h
  have htne : text ≠ [] := by rw [hl]; simp [hne]
  have hbl : isBlank text = false := by
    rw [← Bool.not_eq_true]
    intro hb
    have hb := isBlank_iff.1 hb
    have : '=' ∈ text := by rw [hl]; cases neg <;> simp
    have := hb _ this
    simp at this
  have hlines : (TextBuffer.ofText text sl sc src).lines = [text] := by
    simp [TextBuffer.ofText, htne, splitChar_of_not_mem hn]
  have hlen : 0 < text.length := List.length_pos_iff.2 htne
  let b := TextBuffer.ofText text sl sc src
  have hcur : b.currentLine = text := by simp [TextBuffer.currentLine, b, hlines, show (TextBuffer.ofText text sl sc src).line = 0 from rfl]
  have htail : b.tail = text := by simp [TextBuffer.tail, hcur, b, show (TextBuffer.ofText text sl sc src).column = 0 from rfl]
  have heof : b.eof = false := by
    have : b.column = 0 := rfl
    have hbl : b.line = 0 := rfl
    simp only [TextBuffer.eof, hcur, b, hlines]
    simp only [b] at this hbl hcur
    simp [hcur, this, hbl]; omega
  let t1 := (createTokenAndSkip .TEXT var b)
  let t2 := (createTokenAndSkip .TEXT (if neg then c%"!=" else c%"==") (t1.1.skip sp1.length))
  let t3 := (createTokenAndSkip .TEXT value (t2.1.skip sp2.length))
  have hstep : lexStep conditionLexerFns none b = .ok (t3.1, [t1.2, t2.2, t3.2]) := by
    simp only [lexStep, conditionLexerFns, List.cons_append, List.nil_append]
    rw [if_neg (by simp), firstMatch_cons_none (by simp [processEof, heof]),
      firstMatch_cons_none (by simp [processEmptyLine, hcur, hbl]),
      firstMatch_cons_none (by simp [processTrailingSpaces, htail, hbl]),
      firstMatch_cons_some (by simp only [conditionFn, hcur, hm]; rfl)]
  have hcol : t3.1.column = text.length := by
    simp only [t3, t2, t1, createTokenAndSkip, TextBuffer.skip]
    have hb0 : b.column = 0 := rfl
    rw [hb0]
    conv => rhs; rw [hl]
    simp only [List.length_append]; omega
  have hpos : some b.position ≠ some t3.1.position := by
    intro he
    simp only [Option.some.injEq, TextBuffer.position, Prod.mk.injEq] at he
    have := he.2
    rw [hcol] at this
    have h1 : b.column = 0 := rfl
    have h2 : t3.1.startColumn = b.startColumn := rfl
    omega
  have heof3 : t3.1.eof = true := by
    have h1 : t3.1.lines = b.lines := rfl
    have h2 : t3.1.line = b.line := rfl
    have h3 : t3.1.currentLine = text := by simp only [TextBuffer.currentLine, h1, h2]; exact hcur
    simp only [TextBuffer.eof, h3, hcol, h1, h2]
    simp only [b, hlines]
    simp [show (TextBuffer.ofText text sl sc src).line = 0 from rfl]
  refine ⟨t1.2.ctx, t2.2.ctx, t3.2.ctx, ?_⟩
  have hfuel : ∃ k, lexFuel b.lines = k + 2 := ⟨lexFuel b.lines - 2, by simp only [b, hlines, lexFuel_cons]; simp [lexFuel]⟩
  obtain ⟨k, hk⟩ := hfuel
  refine ⟨(tokAt .EOF [] t3.1.position.1 t3.1.position.2 t3.1.source).ctx, ?_⟩
  · simp only [lexCondition, runLexer]
    have : lexFuel (TextBuffer.ofText text sl sc src).lines = (k + 1) + 1 := hk
    rw [this]
    rw [lexLoop_step hstep (by simp) (by
      intro t ht
      simp only [List.mem_cons, List.not_mem_nil, or_false] at ht
      rcases ht with rfl | rfl | rfl <;> simp [t1, t2, t3, createTokenAndSkip])]
    rw [lexLoop_eof heof3 hpos]
    rfl

/-- C27: the text of a condition is read as its variable, comparison and value. -/
theorem C27_reads {text var value : Str} {neg : Bool} (h : ConditionText text var neg value) (hn : '\n' ∉ text)
    (sl sc : Nat) (src : Option Str) :
    ∃ ctx, parseCondition text sl sc src = .ok (some ⟨var, if neg then c%"!=" else c%"==", value, ctx⟩) := by
  obtain ⟨c1, c2, c3, c4, hlex⟩ := lexCondition_text h hn sl sc src
  refine ⟨c1.merge c3, ?_⟩
  unfold parseCondition
  rw [hlex]
  simp [Bind.bind, Except.bind, parseLoop, TM.peekIs, TM.peek, TM.checkToken, initialLast, Token.generate, tryFns,
    conditionParserFn, TM.get, TM.advance, TM.currentToken, pure, Except.pure]

/-- C27: a single-line text which is not a condition is an error. -/
theorem C27_malformed {text : Str} (h : ¬ ∃ var neg value, ConditionText text var neg value) (hn : '\n' ∉ text)
    (hb : isBlank text = false) (sl sc : Nat) (src : Option Str) :
    parseCondition text sl sc src = .error (.lexer .lexCannotProcess sl sc src) := by
  have htne : text ≠ [] := by rintro rfl; simp [isBlank] at hb
  have hlines : (TextBuffer.ofText text sl sc src).lines = [text] := by
    simp [TextBuffer.ofText, htne, splitChar_of_not_mem hn]
  have hlen : 0 < text.length := List.length_pos_iff.2 htne
  let b := TextBuffer.ofText text sl sc src
  have hcur : b.currentLine = text := by simp [TextBuffer.currentLine, b, hlines, show (TextBuffer.ofText text sl sc src).line = 0 from rfl]
  have htail : b.tail = text := by simp [TextBuffer.tail, hcur, b, show (TextBuffer.ofText text sl sc src).column = 0 from rfl]
  have heof : b.eof = false := by
    have : b.column = 0 := rfl
    have hbl : b.line = 0 := rfl
    simp only [TextBuffer.eof, hcur, b, hlines]
    simp only [b] at this hbl hcur
    simp [hcur, this, hbl]; omega
  have hm : matchCondition text = none := by
    cases hm : matchCondition text with
    | none => rfl
    | some x =>
      obtain ⟨var, s1, c, s2, v⟩ := x
      obtain ⟨neg, hc, _⟩ := condition_of_match hm
      exact (h ⟨var, neg, v, hc⟩).elim
  have hstep : lexStep conditionLexerFns none b = .error (.lexer .lexCannotProcess sl sc src) := by
    simp only [lexStep, conditionLexerFns, List.cons_append, List.nil_append]
    rw [if_neg (by simp), firstMatch_cons_none (by simp [processEof, heof]),
      firstMatch_cons_none (by simp [processEmptyLine, hcur, hb]),
      firstMatch_cons_none (by simp [processTrailingSpaces, htail, hb]),
      firstMatch_cons_none (by simp only [conditionFn, hcur, hm])]
    simp [firstMatch, processError, b, TextBuffer.position, TextBuffer.ofText]
  unfold parseCondition lexCondition runLexer
  have hfuel : ∃ k, lexFuel (TextBuffer.ofText text sl sc src).lines = k + 1 :=
    ⟨_, by rw [hlines, lexFuel_cons]; simp only [lexFuel]; exact (Nat.succ_pred (by simp)).symm⟩
  obtain ⟨k, hk⟩ := hfuel
  rw [hk]
  simp only [lexLoop]
  have : lexStep conditionLexerFns none (TextBuffer.ofText text sl sc src) = _ := hstep
  rw [this]
  rfl

/-- C27: a control built from the text of a condition has exactly the value of the condition: `==`
holds if the variable has this string value, `!=` is its negation, an undefined variable is an error. -/
theorem C27_value {text var value : Str} {neg : Bool} (h : ConditionText text var neg value) (hn : '\n' ∉ text)
    (env : Env) (sl sc : Nat) (src : Option Str) (place : Context) :
    ∃ c control, parseCondition text sl sc src = .ok (some c) ∧
      mkControl c%"if" c.var c.comparison c.value place = .ok control ∧
      control.process env = conditionValue env var neg value (some place) := by
  obtain ⟨ctx, hp⟩ := C27_reads h hn sl sc src
  refine ⟨_, ⟨var, neg, value, place⟩, hp, ?_, ?_⟩
  · cases neg <;> simp [mkControl]
  · simp only [Control.process, conditionValue]
    cases Dict.get? env var with
    | none => rfl
    | some v => cases neg <;> simp

/-- A blank text gives no condition. -/
theorem parseCondition_blank {text : Str} (hb : isBlank text = true) (hn : '\n' ∉ text) (sl sc : Nat) (src : Option Str) :
    parseCondition text sl sc src = if text = [] then .ok none else
      .error (.parser .cannotParse (some ⟨sl, sc, sl, sc + text.length, src⟩)) := by
  by_cases ht : text = []
  · subst ht
    rfl
  · rw [if_neg ht]
    have hlines : (TextBuffer.ofText text sl sc src).lines = [text] := by
      simp [TextBuffer.ofText, ht, splitChar_of_not_mem hn]
    have hon : OnLine (TextBuffer.ofText text sl sc src) text [] := by
      constructor
      rw [hlines]; rfl
    have hlen : 0 < text.length := List.length_pos_iff.2 ht
    have heof : (TextBuffer.ofText text sl sc src).eof = false := by
      rw [← Bool.not_eq_true, hon.eof]
      have : (TextBuffer.ofText text sl sc src).column = 0 := rfl
      rw [this]; simp [ht]
    have hstep := lexStep_blank (fs := conditionLexerFns) (last := none) hon (by simp) hb heof
    have hfuel : ∃ k, lexFuel (TextBuffer.ofText text sl sc src).lines = (k + 1) + 1 :=
      ⟨lexFuel (TextBuffer.ofText text sl sc src).lines - 2, by rw [hlines, lexFuel_cons]; simp only [lexFuel]; omega⟩
    obtain ⟨k, hk⟩ := hfuel
    have hlex : ∃ c2, lexCondition (TextBuffer.ofText text sl sc src) =
        .ok [⟨.EOL, text, ⟨sl, sc, sl, sc + text.length, src⟩⟩, ⟨.EOF, [], c2⟩] := by
      unfold lexCondition runLexer
      rw [hk, lexLoop_step hstep (by simp) (by simp [tokAt])]
      rw [lexLoop_eof (eof_of_ge (by
          rw [nextline_skip, hon.nextline_line]
          simp [TextBuffer.nextline, hlines])) (by
          simp [TextBuffer.position, TextBuffer.nextline, TextBuffer.skip, hlines, TextBuffer.ofText, splitChar_of_not_mem hn, ht])]
      exact ⟨_, by simp [tokAt, TextBuffer.position, TextBuffer.ofText]; rfl⟩
    obtain ⟨c2, hlex⟩ := hlex
    unfold parseCondition
    rw [hlex]
    simp [Bind.bind, Except.bind, parseLoop, TM.peekIs, TM.peek, TM.checkToken, initialLast, Token.generate, tryFns,
      conditionParserFn, TM.get, TM.advance, TM.currentToken, pure, Except.pure]

/-- C27: a condition that is read was written as one. -/
theorem C27_only {text : Str} {sl sc : Nat} {src : Option Str} {c : ConditionNode} (hn : '\n' ∉ text)
    (h : parseCondition text sl sc src = .ok (some c)) :
    ∃ neg, ConditionText text c.var neg c.value ∧ c.comparison = (if neg then c%"!=" else c%"==") := by
  by_cases hc : ∃ var neg value, ConditionText text var neg value
  · obtain ⟨var, neg, value, hc⟩ := hc
    obtain ⟨ctx, hp⟩ := C27_reads hc hn sl sc src
    rw [hp] at h
    simp only [Except.ok.injEq, Option.some.injEq] at h
    subst h
    exact ⟨neg, hc, rfl⟩
  · by_cases hb : isBlank text = true
    · -- a blank text gives no condition
      exfalso
      rw [parseCondition_blank hb hn] at h
      split at h <;> cases h
    · rw [C27_malformed hc hn (by simpa using hb)] at h
      cases h

/-- The tokens of the conditions `cs`, one per line from line `ln` on. -/
def CondToks : Nat → List (Str × Bool × Str) → List Token → Prop
  | _, [], ts => ts = []
  | ln, (var, neg, value) :: cs, ts => ∃ c1 c2 c3 ts', c1.startLine = ln ∧
      ts = ⟨.TEXT, var, c1⟩ :: ⟨.TEXT, if neg then c%"!=" else c%"==", c2⟩ :: ⟨.TEXT, value, c3⟩ :: ts' ∧ CondToks (ln + 1) cs ts'

theorem condLex_lines : ∀ (cs : List (Str × Bool × Str)) (rest : List Str) (n : Nat) (last : Option (Nat × Nat)) (b : TextBuffer) (acc : List Token)
    (l : Str), OnLine b l rest → b.column = 0 → (∀ p, last = some p → p.1 < b.line + b.startLine) → (∀ t ∈ acc, t.type ≠ .EOF) →
    2 * (l :: rest).length < n + 1 →
    (l :: rest).length = cs.length → (∀ x ∈ List.zip (l :: rest) cs, ConditionText x.1 x.2.1 x.2.2.1 x.2.2.2) →
    ∃ ts e, lexLoop conditionLexerFns n last b acc = .ok (acc ++ ts ++ [e]) ∧ CondToks (b.line + b.startLine) cs ts ∧ e.type = .EOF ∧ e.value = [] := by
  intro cs
  induction cs with
  | nil => intro rest n last b acc l _ _ _ _ _ h; simp at h
  | cons x cs ih =>
    intro rest n last b acc l hon hcol hlast hacc hn hlen hall
    obtain ⟨var, neg, value⟩ := x
    have htext : ConditionText l var neg value := hall (l, var, neg, value) (by simp)
    obtain ⟨sp1, sp2, hl, hne, hm⟩ := matchCondition_text htext
    have hlne : l ≠ [] := by rw [hl]; simp [hne]
    have hlpos : 0 < l.length := List.length_pos_iff.2 hlne
    have hbl : isBlank l = false := by
      rw [← Bool.not_eq_true]
      intro hb
      have hb := isBlank_iff.1 hb
      have : '=' ∈ l := by rw [hl]; cases neg <;> simp
      have := hb _ this
      simp at this
    have hcur := hon.cur
    have htail : b.tail = l := by simp [TextBuffer.tail, hcur, hcol]
    have heof : b.eof = false := by
      rw [← Bool.not_eq_true, hon.eof, hcol]; simp [hlne]
    let t1 := (createTokenAndSkip .TEXT var b)
    let t2 := (createTokenAndSkip .TEXT (if neg then c%"!=" else c%"==") (t1.1.skip sp1.length))
    let t3 := (createTokenAndSkip .TEXT value (t2.1.skip sp2.length))
    have hnl : last ≠ some b.position := by
      intro h; have := hlast _ h; simp [TextBuffer.position] at this
    have hstep : lexStep conditionLexerFns last b = .ok (t3.1, [t1.2, t2.2, t3.2]) := by
      simp only [lexStep, conditionLexerFns, List.cons_append, List.nil_append]
      rw [if_neg hnl, firstMatch_cons_none (by simp [processEof, heof]),
        firstMatch_cons_none (by simp [processEmptyLine, hcur, hbl]),
        firstMatch_cons_none (by simp [processTrailingSpaces, htail, hbl]),
        firstMatch_cons_some (by simp only [conditionFn, hcur, hm]; rfl)]
    have hcol3 : t3.1.column = l.length := by
      simp only [t3, t2, t1, createTokenAndSkip, TextBuffer.skip]
      rw [hcol]
      conv => rhs; rw [hl]
      simp only [List.length_append]; omega
    have hon3 : OnLine t3.1 l rest := ⟨hon.drop⟩
    have hpos : some b.position ≠ some t3.1.position := by
      intro he
      simp only [Option.some.injEq, TextBuffer.position, Prod.mk.injEq] at he
      have := he.2
      rw [hcol3, hcol] at this
      have h2 : t3.1.startColumn = b.startColumn := rfl
      omega
    have hacc' : ∀ t ∈ acc ++ [t1.2, t2.2, t3.2], t.type ≠ .EOF := by
      intro t ht
      simp only [List.mem_append, List.mem_cons, List.not_mem_nil, or_false] at ht
      rcases ht with ht | rfl | rfl | rfl
      · exact hacc t ht
      all_goals simp [t1, t2, t3, createTokenAndSkip]
    obtain ⟨k, rfl⟩ : ∃ k, n = (k + 1) + 1 := ⟨n - 2, by simp only [List.length_cons] at hn; omega⟩
    rw [lexLoop_step hstep hacc (fun t ht => hacc' t (by simp [ht]))]
    cases rest with
    | nil =>
      rw [lexLoop_eof (hon3.eof.2 ⟨rfl, by omega⟩) hpos]
      cases cs with
      | cons _ _ => simp at hlen
      | nil =>
        exact ⟨[t1.2, t2.2, t3.2], _, rfl, ⟨t1.2.ctx, t2.2.ctx, t3.2.ctx, [], rfl, rfl, rfl⟩, rfl, rfl⟩
    | cons l' rest =>
      have heof3 : t3.1.eof = false := by rw [← Bool.not_eq_true, hon3.eof]; simp
      have htail3 : t3.1.tail = [] := by simp [TextBuffer.tail, hon3.cur, hcol3]
      have hstep3 : lexStep conditionLexerFns (some b.position) t3.1 = .ok (t3.1.nextline, []) := by
        simp only [lexStep, conditionLexerFns, List.cons_append, List.nil_append]
        rw [if_neg hpos, firstMatch_cons_none (by simp [processEof, heof3]),
          firstMatch_cons_none (by simp [processEmptyLine, hon3.cur, hbl]),
          firstMatch_cons_some (by simp only [processTrailingSpaces, htail3]; rfl)]
        rfl
      rw [lexLoop_step hstep3 hacc' (fun t ht => nomatch ht), List.append_nil]
      have hline : t3.1.nextline.line = b.line + 1 := hon3.nextline_line
      obtain ⟨ts, e, h1, h2, h3⟩ := ih rest k (some t3.1.position) t3.1.nextline (acc ++ [t1.2, t2.2, t3.2]) l' (hon3.next rfl) rfl (by
          intro p hp
          cases hp
          rw [hline]
          show b.line + b.startLine < b.line + 1 + b.startLine
          omega) hacc' (by simp only [List.length_cons] at hn ⊢; omega) (by simpa using hlen)
          (fun x hx => hall x (by rw [List.zip_cons_cons]; exact List.mem_cons_of_mem _ hx))
      refine ⟨t1.2 :: t2.2 :: t3.2 :: ts, e, by rw [h1]; simp, ⟨t1.2.ctx, t2.2.ctx, t3.2.ctx, ts, rfl, rfl, ?_⟩, h3⟩
      have : t3.1.nextline.line + t3.1.nextline.startLine = b.line + b.startLine + 1 := by
        rw [hline]; show b.line + 1 + b.startLine = _; omega
      rw [← this]; exact h2

theorem condParse_lines : ∀ (cs : List (Str × Bool × Str)) (ln : Nat) (ts : List Token) (e : Token) (n : Nat) (last : Token) (tm : TM)
    (acc : List ConditionNode), CondToks ln cs ts → At tm ts e → (last.type = .EOF ∨ last.ctx.startLine < ln) → cs.length < n →
    ∃ ns : List ConditionNode, parseLoop (fun _ => [conditionParserFn]) n last tm acc = .ok (acc ++ ns) ∧
      ns.map (fun c => (c.var, c.comparison, c.value)) = cs.map fun x => (x.1, if x.2.1 then c%"!=" else c%"==", x.2.2) := by
  intro cs
  induction cs with
  | nil =>
    intro ln ts e n last tm acc h hat _ hn
    simp only [CondToks] at h; subst h
    obtain ⟨k, rfl⟩ : ∃ k, n = k + 1 := ⟨n - 1, by simp at hn; omega⟩
    refine ⟨[], ?_, rfl⟩
    simp [parseLoop, TM.peekIs, hat.peek_nil, TM.checkToken, hat.eof, Bind.bind, Except.bind, pure, Except.pure]
  | cons x cs ih =>
    obtain ⟨var, neg, value⟩ := x
    intro ln ts e n last tm acc h hat hlast hn
    obtain ⟨c1, c2, c3, ts', h1, rfl, h2⟩ := h
    obtain ⟨k, rfl⟩ : ∃ k, n = k + 1 := ⟨n - 1, by omega⟩
    have hne : (⟨.TEXT, var, c1⟩ : Token) ≠ last := by
      rintro rfl
      rcases hlast with h | h
      · cases h
      · simp only at h; omega
    obtain ⟨ns, h3, h4⟩ := ih (ln + 1) ts' e k ⟨.TEXT, var, c1⟩ { tm with next := tm.next + 1 + 1 + 1 }
      (acc ++ [⟨var, if neg then c%"!=" else c%"==", value, c1.merge c3⟩]) h2 hat.nextAt.nextAt.nextAt (.inr (by simp only; omega))
      (by simp only [List.length_cons] at hn; omega)
    refine ⟨⟨var, if neg then c%"!=" else c%"==", value, c1.merge c3⟩ :: ns, ?_, by simp [h4]⟩
    have hf : conditionParserFn tm = .ok (⟨var, if neg then c%"!=" else c%"==", value, c1.merge c3⟩, { tm with next := tm.next + 1 + 1 + 1 }) := by
      unfold conditionParserFn
      rw [hat.get_cons (by simp [TM.checkToken])]
      simp only [Bind.bind, Except.bind]
      rw [hat.nextAt.get_cons (by simp [TM.checkToken])]
      simp only
      rw [hat.nextAt.nextAt.get_cons (by simp [TM.checkToken])]
      rfl
    unfold parseLoop
    have e1 : tm.peekIs .EOF = .ok false := by
      unfold TM.peekIs
      rw [hat.peek_cons]
      simp [TM.checkToken]
    have e2 : tm.peek = .ok ⟨.TEXT, var, c1⟩ := by rw [hat.peek_cons]; simp [TM.checkToken]
    simp only [e1, e2, Bind.bind, Except.bind, Bool.false_eq_true, if_false, if_neg hne, tryFns, hf]
    rw [h3]
    simp

/-- C27: a condition that spans several lines (a variable may hold a text with newlines) is the condition
on its last line. -/
theorem C27_last_line {ls : List Str} {cs : List (Str × Bool × Str)} (hlen : ls.length = cs.length)
    (h : ∀ x ∈ List.zip ls cs, ConditionText x.1 x.2.1 x.2.2.1 x.2.2.2) (hn : ∀ l ∈ ls, '\n' ∉ l)
    {var value : Str} {neg : Bool} (hlast : cs.getLast? = some (var, neg, value)) (sl sc : Nat) (src : Option Str) :
    ∃ ctx, parseCondition (joinWith c%"\n" ls) sl sc src = .ok (some ⟨var, if neg then c%"!=" else c%"==", value, ctx⟩) := by
  cases ls with
  | nil =>
    cases cs with
    | nil => cases hlast
    | cons _ _ => simp at hlen
  | cons l rest =>
    have hl : l ≠ [] := by
      cases cs with
      | nil => simp at hlen
      | cons x cs =>
        obtain ⟨_, _, e, hne, _⟩ := matchCondition_text (h (l, x) (by simp))
        intro hl
        rw [show l = _ from e] at hl
        simp only [List.append_eq_nil_iff] at hl
        exact hne hl.1.1.1.1
    have hne : joinWith c%"\n" (l :: rest) ≠ [] := by
      cases rest with
      | nil => simpa [joinWith] using hl
      | cons a r => simp [joinWith, hl]
    have hlines : (TextBuffer.ofText (joinWith c%"\n" (l :: rest)) sl sc src).lines = l :: rest := by
      simp only [TextBuffer.ofText, if_pos hne]
      exact split_join (by simp) hn
    obtain ⟨ts, e, h1, h2, h3⟩ := condLex_lines cs rest (lexFuel (l :: rest)) none (TextBuffer.ofText (joinWith c%"\n" (l :: rest)) sl sc src) []
      l ⟨by rw [hlines]; rfl⟩ rfl (fun _ h => nomatch h) (fun _ h => nomatch h) (by
        have : ∀ ls : List Str, 2 * ls.length + 3 ≤ lexFuel ls := by
          intro ls
          induction ls with
          | nil => simp [lexFuel]
          | cons l ls ih => rw [lexFuel_cons]; simp only [List.length_cons]; omega
        have := this (l :: rest)
        omega) hlen h
    obtain ⟨ns, h4, h5⟩ := condParse_lines cs _ ts e ((ts ++ [e]).length + 2) initialLast { tokens := ts ++ [e] } [] h2
      (At.start ts e h3) (.inl rfl) (by
        have : ∀ cs ln ts, CondToks ln cs ts → cs.length ≤ ts.length := by
          intro cs
          induction cs with
          | nil => intro ln ts _; simp
          | cons x cs ih =>
            obtain ⟨a, b, c⟩ := x
            intro ln ts h
            obtain ⟨_, _, _, ts', _, rfl, h⟩ := h
            have := ih _ _ h
            simp only [List.length_cons]; omega
        have := this _ _ _ h2
        simp only [List.length_append]; omega)
    have h6 : lexCondition (TextBuffer.ofText (joinWith c%"\n" (l :: rest)) sl sc src) = .ok (ts ++ [e]) := by
      unfold lexCondition runLexer
      rw [hlines, h1, List.nil_append]
    have h7 := congrArg List.getLast? h5
    rw [List.getLast?_map, List.getLast?_map, hlast] at h7
    unfold parseCondition
    simp only [h6, h4, Bind.bind, Except.bind, List.nil_append]
    cases hg : ns.getLast? with
    | none => rw [hg] at h7; cases h7
    | some c =>
      rw [hg] at h7
      simp only [Option.map_some, Option.some.injEq, Prod.mk.injEq] at h7
      obtain ⟨a, b, d, ctx⟩ := c
      obtain ⟨e1, e2, e3⟩ := h7
      simp only at e1 e2 e3
      rw [e1, e2, e3]
      exact ⟨ctx, rfl⟩

example : parseCondition c%"a==1\nb != 2" = .ok (some ⟨c%"b", c%"!=", c%"2", ⟨1, 0, 1, 6, none⟩⟩) := by decide

example : ConditionText c%"user.name  != John Smith" c%"user.name" true c%"John Smith" :=
  .mk (var := c%"user.name") (sp1 := c%"  ") (sp2 := c%" ") (value := c%"John Smith") true (by decide) (by decide) (by unfold Spaces; decide) (by unfold Spaces; decide) (by decide)

example : conditionValue [(c%"n", .other c%"1")] c%"n" false c%"1" = .ok false := by decide

end Mau
