import Verif.Lemmas.TextErrs

set_option linter.unusedSimpArgs false

/-!
# Conditions of any text

The lexer and the parser of conditions end for every text, also for one with several lines.
-/

namespace Mau

/-- The number of steps that are left. -/
def condSteps (b : TextBuffer) : Nat := 2 * (b.lines.length - b.line) + (if b.column ≥ b.currentLine.length then 0 else 1)

theorem condition_length {l var ws1 cmp ws2 val : Str} (h : matchCondition l = some (var, ws1, cmp, ws2, val)) :
    l.length = var.length + ws1.length + cmp.length + ws2.length + val.length := by
  unfold matchCondition at h
  dsimp only at h
  split at h
  · cases h
  · split at h
    · rename_i a r3 hr
      split at h
      · have e1 : l = l.takeWhile isVarChar ++ l.dropWhile isVarChar := (List.takeWhile_append_dropWhile ..).symm
        have e2 : l.dropWhile isVarChar = (l.dropWhile isVarChar).takeWhile (· == ' ') ++ (l.dropWhile isVarChar).dropWhile (· == ' ') :=
          (List.takeWhile_append_dropWhile ..).symm
        have e3 : r3 = r3.takeWhile (· == ' ') ++ r3.dropWhile (· == ' ') := (List.takeWhile_append_dropWhile ..).symm
        have l1 := congrArg List.length e1
        have l2 := congrArg List.length e2
        have l3 := congrArg List.length e3
        have l4 := congrArg List.length hr
        simp only [List.length_append, List.length_cons] at l1 l2 l3 l4
        simp only [Option.some.injEq, Prod.mk.injEq] at h
        obtain ⟨rfl, rfl, rfl, rfl, rfl⟩ := h
        simp only [List.length_cons, List.length_nil]
        omega
      · cases h
    · cases h

theorem condLex_step (last : Option (Nat × Nat)) (b : TextBuffer) :
    (∃ x, lexStep conditionLexerFns last b = .error x ∧ x.isMau = true) ∨
    (∃ b' t, lexStep conditionLexerFns last b = .ok (b', [t]) ∧ t.type = .EOF ∧ t.value = []) ∨
    ∃ b' ts, lexStep conditionLexerFns last b = .ok (b', ts) ∧ condSteps b' < condSteps b ∧ ∀ t ∈ ts, t.type ≠ .EOF := by
  unfold lexStep
  split
  · exact .inl ⟨_, rfl, rfl⟩
  by_cases he : b.eof = true
  · exact .inr (.inl ⟨(createTokenAndSkip .EOF [] b).1, (createTokenAndSkip .EOF [] b).2, by simp [firstMatch, processEof, he], rfl, rfl⟩)
  have he' : b.eof = false := by simpa using he
  have hline : b.line < b.lines.length := by
    unfold TextBuffer.eof at he'
    split at he'
    · cases he'
    · split at he'
      · cases he'
      · simpa using he'
  have hnx : ∀ k, condSteps ((b.skip k).nextline) < condSteps b := by
    intro k
    unfold condSteps TextBuffer.nextline TextBuffer.skip
    simp only [show b.line ≤ b.lines.length from Nat.le_of_lt hline, if_true]
    split <;> split <;> omega
  by_cases hb : isBlank b.currentLine = true
  · refine .inr (.inr ⟨_, [(createTokenAndSkip .EOL b.currentLine b).2], ?_, hnx b.currentLine.length, ?_⟩)
    · simp [firstMatch, processEof, processEmptyLine, he', hb, createTokenAndSkip]
    · intro t ht
      simp only [List.mem_singleton] at ht
      subst ht
      simp [createTokenAndSkip]
  by_cases ht : isBlank b.tail = true
  · refine .inr (.inr ⟨_, [], ?_, hnx b.tail.length, fun _ h => nomatch h⟩)
    simp [firstMatch, processEof, processEmptyLine, processTrailingSpaces, he', hb, ht, createTokenAndSkip]
  · cases hm : matchCondition b.currentLine with
    | none =>
      refine .inl ⟨.lexer .lexCannotProcess b.position.1 b.position.2 b.source, ?_, rfl⟩
      simp [firstMatch, processEof, processEmptyLine, processTrailingSpaces, he', hb, ht, conditionLexerFns, conditionFn, hm, processError]
    | some x =>
      obtain ⟨var, ws1, cmp, ws2, val⟩ := x
      have hl := condition_length hm
      have hcol : b.column < b.currentLine.length := by
        rcases Nat.lt_or_ge b.column b.currentLine.length with h | h
        · exact h
        · exfalso
          apply ht
          unfold TextBuffer.tail
          rw [List.drop_eq_nil_of_le h]
          rfl
      let b1 := createTokenAndSkip .TEXT var b
      let b2 := createTokenAndSkip .TEXT cmp (b1.1.skip ws1.length)
      let b3 := createTokenAndSkip .TEXT val (b2.1.skip ws2.length)
      refine .inr (.inr ⟨b3.1, [b1.2, b2.2, b3.2], ?_, ?_, ?_⟩)
      · simp [firstMatch, processEof, processEmptyLine, processTrailingSpaces, he', hb, ht, conditionLexerFns, conditionFn, hm, b1, b2, b3]
      · simp only [b1, b2, b3]
        unfold condSteps createTokenAndSkip TextBuffer.skip TextBuffer.currentLine
        unfold TextBuffer.currentLine at hcol hl
        simp only
        rw [if_neg (c := b.column ≥ _) (by omega), if_pos (by omega)]
        omega
      · intro t ht
        simp only [createTokenAndSkip, List.mem_cons, List.not_mem_nil, or_false, b1, b2, b3] at ht
        rcases ht with rfl | rfl | rfl <;> simp

theorem condLex_loop (n : Nat) : ∀ (last : Option (Nat × Nat)) (b : TextBuffer) (acc : List Token), condSteps b < n → (∀ t ∈ acc, t.type ≠ .EOF) →
    (∃ x, lexLoop conditionLexerFns n last b acc = .error x ∧ x.isMau = true) ∨
    ∃ init e, lexLoop conditionLexerFns n last b acc = .ok (init ++ [e]) ∧ (e.type = .EOF ∧ e.value = []) ∧ ∀ t ∈ init, t.type ≠ .EOF := by
  induction n with
  | zero => intro last b acc h; omega
  | succ n ih =>
    intro last b acc h hacc
    unfold lexLoop
    rcases condLex_step last b with ⟨x, h1, h2⟩ | ⟨b', t, h1, h2⟩ | ⟨b', ts, h1, h2, h3⟩
    · rw [h1]; exact .inl ⟨x, rfl, h2⟩
    · rw [h1]
      dsimp only
      rw [if_pos (by simp [h2.1])]
      exact .inr ⟨acc, t, rfl, h2, hacc⟩
    · rw [h1]
      dsimp only
      have hall : ∀ t ∈ acc ++ ts, t.type ≠ .EOF := by
        intro t ht
        rcases List.mem_append.1 ht with ht | ht
        · exact hacc t ht
        · exact h3 t ht
      rw [if_neg ?_]
      · exact ih _ _ _ (by omega) hall
      · intro hx
        cases hg : (acc ++ ts).getLast? with
        | none => rw [hg] at hx; cases hx
        | some t =>
          rw [hg] at hx
          exact hall t (List.mem_of_getLast? hg) (by simpa using hx)

theorem two_le_lexFuel (ls : List Str) : 2 * ls.length + 3 ≤ lexFuel ls := by
  induction ls with
  | nil => simp [lexFuel]
  | cons l ls ih =>
    rw [lexFuel_cons]
    simp only [List.length_cons]
    omega

/-- The condition lexer ends for every text: with tokens, the last of which is EOF, or with a Mau error. -/
theorem lexCondition_total (text : Str) (sl sc : Nat) (src : Option Str) :
    (∃ x, lexCondition (TextBuffer.ofText text sl sc src) = .error x ∧ x.isMau = true) ∨
    ∃ init e, lexCondition (TextBuffer.ofText text sl sc src) = .ok (init ++ [e]) ∧ (e.type = .EOF ∧ e.value = []) ∧ ∀ t ∈ init, t.type ≠ .EOF := by
  unfold lexCondition runLexer
  refine condLex_loop _ _ _ _ ?_ (fun _ h => nomatch h)
  have := two_le_lexFuel (TextBuffer.ofText text sl sc src).lines
  unfold condSteps
  have h0 : (TextBuffer.ofText text sl sc src).line = 0 := rfl
  rw [h0]
  split <;> omega

theorem safe_condition : TokSafe conditionParserFn fun _ _ => True := by
  unfold conditionParserFn
  refine .bind safe_text fun p1 k h1 => ?_
  refine .bind safe_text fun p2 k h2 => ?_
  refine .bind safe_text fun p3 k h3 => ?_
  exact (TokSafe.pure _).mono fun _ _ _ => trivial

/-- Parsing a condition ends, with a condition, nothing, or a Mau error. -/
theorem parseCondition_mau {text : Str} {sl sc : Nat} {src : Option Str} {x : Err} (h : parseCondition text sl sc src = .error x) : x.isMau = true := by
  unfold parseCondition at h
  rcases lexCondition_total text sl sc src with ⟨y, h1, h2⟩ | ⟨init, e, h1, h2, _⟩
  · rw [h1] at h; cases h; exact h2
  · rw [h1] at h
    simp only [Bind.bind, Except.bind] at h
    have := (parseLoop_safe (fs := fun _ => [conditionParserFn]) (R := fun _ _ => True) (by
      intro acc f hf
      simp only [List.mem_singleton] at hf
      subst hf
      exact safe_condition) ((init ++ [e]).length + 2) { tokens := init ++ [e] } init e initialLast [] (At.start init e h2) (.inl (by simp))).1
    split at h
    · rename_i y hy
      cases h
      exact this _ hy
    · cases h

end Mau
