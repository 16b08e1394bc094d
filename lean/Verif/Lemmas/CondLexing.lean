import Verif.Lemmas.CondTotal
import Verif.Lemmas.DocTokens

set_option linter.unusedSimpArgs false

/-!
# The tokens of a condition, line by line
-/

namespace Mau
open Spec

/-- The pieces of a line that is a condition: variable, comparison, value. -/
def condPieces (l : Str) : Option (List Piece) :=
  (matchCondition l).map fun x =>
    [.tok .TEXT x.1, .skip x.2.1, .tok .TEXT x.2.2.1, .skip x.2.2.2.1, .tok .TEXT x.2.2.2.2]

/-- The tokens of the lines of a condition. -/
def condTokens (src : Option Str) (ln : Nat) : (col : Nat) → List Str → Except Err (List Token)
  | col, [] => .ok [tokAt .EOF [] ln col src]
  | col, l :: rest =>
    if isBlank l then
      if l = [] ∧ rest = [] then .ok [tokAt .EOF [] ln col src]
      else (condTokens src (ln + 1) 0 rest).map (tokAt .EOL l ln col src :: ·)
    else
      match condPieces l with
      | none => .error (.lexer .lexCannotProcess ln col src)
      | some ps =>
        if rest = [] then .ok (place ln src col ps ++ [tokAt .EOF [] ln (col + l.length) src])
        else (condTokens src (ln + 1) 0 rest).map (place ln src col ps ++ ·)

theorem condition_text {l var ws1 cmp ws2 val : Str} (h : matchCondition l = some (var, ws1, cmp, ws2, val)) :
    l = var ++ ws1 ++ cmp ++ ws2 ++ val ∧ var ≠ [] := by
  unfold matchCondition at h
  dsimp only at h
  split at h
  · cases h
  · rename_i hv
    split at h
    · rename_i a r3 hr
      split at h
      · have e1 : l = l.takeWhile isVarChar ++ l.dropWhile isVarChar := (List.takeWhile_append_dropWhile ..).symm
        have e2 : l.dropWhile isVarChar = (l.dropWhile isVarChar).takeWhile (· == ' ') ++ (l.dropWhile isVarChar).dropWhile (· == ' ') :=
          (List.takeWhile_append_dropWhile ..).symm
        have e3 : r3 = r3.takeWhile (· == ' ') ++ r3.dropWhile (· == ' ') := (List.takeWhile_append_dropWhile ..).symm
        simp only [Option.some.injEq, Prod.mk.injEq] at h
        obtain ⟨rfl, rfl, rfl, rfl, rfl⟩ := h
        refine ⟨?_, by simpa using hv⟩
        conv => lhs; rw [e1, e2, hr, e3]
        simp
      · cases h
    · cases h

theorem condPieces_text {l : Str} {ps : List Piece} (h : condPieces l = some ps) : piecesText ps = l := by
  unfold condPieces at h
  cases hm : matchCondition l with
  | none => rw [hm] at h; cases h
  | some x =>
    obtain ⟨var, ws1, cmp, ws2, val⟩ := x
    rw [hm] at h
    simp only [Option.map_some, Option.some.injEq] at h
    subst h
    obtain ⟨e, _⟩ := condition_text hm
    rw [e]
    simp [piecesText, pieceText]

theorem condTokens_loop (src : Option Str) :
    ∀ (ls : List Str) (n : Nat) (last : Option (Nat × Nat)) (b : TextBuffer) (acc : List Token),
      b.lines.drop b.line = ls → b.column = 0 → b.source = src → last ≠ some b.position →
      (∀ t ∈ acc, t.type ≠ .EOF) → lexFuel ls ≤ n →
      lexLoop conditionLexerFns n last b acc =
        (condTokens src b.position.1 b.position.2 ls).map (acc ++ ·) := by
  intro ls
  induction ls with
  | nil =>
    intro n last b acc hd hcol hsrc hlast hacc hn
    obtain ⟨n, rfl⟩ : ∃ k, n = k + 1 := ⟨n - 1, by simp [lexFuel] at hn; omega⟩
    have : b.lines.length ≤ b.line := by simpa using hd
    rw [lexLoop_eof (eof_of_ge this) hlast]
    simp [condTokens, hsrc, Except.map]
  | cons l rest ih =>
    intro n last b acc hd hcol hsrc hlast hacc hn
    have hon : OnLine b l rest := ⟨hd⟩
    rw [lexFuel_cons] at hn
    obtain ⟨n, rfl⟩ : ∃ k, n = k + 1 := ⟨n - 1, by omega⟩
    have hnext : ∀ (n' : Nat) (last' : Option (Nat × Nat)) (b' : TextBuffer) (acc' : List Token),
        b' = b.nextline → lexFuel rest ≤ n' → last' ≠ some b'.position →
        (∀ t ∈ acc', t.type ≠ .EOF) → lexLoop conditionLexerFns n' last' b' acc' =
          (condTokens src (b.position.1 + 1) 0 rest).map (acc' ++ ·) := by
      intro n' last' b' acc' hb' hn' hl' ha'
      have hp : b'.position = (b.position.1 + 1, 0) := by
        subst hb'
        simp only [TextBuffer.position, hon.nextline_line]
        simp [TextBuffer.nextline]; omega
      have := ih n' last' b' acc' (by
          subst hb'; rw [hon.nextline_line]; simpa [TextBuffer.nextline] using hon.rest_eq)
        (by subst hb'; simp [TextBuffer.nextline]) (by subst hb'; simpa [TextBuffer.nextline] using hsrc)
        hl' ha' hn'
      rw [hp] at this
      exact this
    have htail : b.tail = l := by simp [TextBuffer.tail, hcol, hon.cur]
    have hposne : b.nextline.position ≠ b.position := by
      simp only [TextBuffer.position, hon.nextline_line]
      intro e; simp [TextBuffer.nextline] at e
    simp only [condTokens]
    by_cases hb : isBlank l = true
    · rw [if_pos hb]
      by_cases hz : l = [] ∧ rest = []
      · rw [if_pos hz, lexLoop_eof (hon.eof.2 ⟨hz.2, by simp [hz.1]⟩) hlast, hsrc]
        rfl
      · rw [if_neg hz]
        have hne : b.eof = false := by
          cases he : b.eof with
          | false => rfl
          | true =>
            have := hon.eof.1 he
            exact absurd ⟨by simpa [hcol] using this.2, this.1⟩ hz
        rw [lexLoop_step (lexStep_blank hon hlast hb hne) hacc (by simp [tokAt]), nextline_skip,
          hnext _ _ _ _ rfl (by omega) (by intro e; exact hposne (by simpa using e.symm))]
        · cases condTokens src (b.position.1 + 1) 0 rest <;> simp [hsrc, Except.map]
        · intro t ht
          simp at ht
          rcases ht with ht | rfl
          · exact hacc t ht
          · simp [tokAt]
    · rw [if_neg hb]
      have hb' : isBlank l = false := by simpa using hb
      have hlne : l ≠ [] := by rintro rfl; simp [isBlank] at hb'
      have hlen : 0 < l.length := List.length_pos_iff.2 hlne
      have hne : b.eof = false := by
        cases he : b.eof with
        | false => rfl
        | true => have := (hon.eof.1 he).2; omega
      have hfirst : lexStep conditionLexerFns last b = firstMatch (conditionLexerFns ++ [processError]) b := by
        simp only [lexStep, if_neg hlast, List.append_assoc, List.cons_append, List.nil_append]
        rw [firstMatch_cons_none (by simp [processEof, hne]),
          firstMatch_cons_none (by simp [processEmptyLine, hon.cur, hb']),
          firstMatch_cons_none (by simp [processTrailingSpaces, htail, hb'])]
      cases hm : matchCondition l with
      | none =>
        have : lexStep conditionLexerFns last b = .error (.lexer .lexCannotProcess b.position.1 b.position.2 b.source) := by
          rw [hfirst]
          simp [conditionLexerFns, firstMatch, conditionFn, hon.cur, hm, processError]
        simp only [lexLoop, this, condPieces, hm, Option.map_none, hsrc]
        rfl
      | some x =>
        obtain ⟨var, ws1, cmp, ws2, val⟩ := x
        obtain ⟨htext, hvar⟩ := condition_text hm
        have hll := condition_length hm
        let ts := place b.position.1 src b.position.2
          [.tok .TEXT var, .skip ws1, .tok .TEXT cmp, .skip ws2, .tok .TEXT val]
        have hps : condPieces l = some [.tok .TEXT var, .skip ws1, .tok .TEXT cmp, .skip ws2, .tok .TEXT val] := by
          simp [condPieces, hm]
        have hstep : lexStep conditionLexerFns last b = .ok (b.skip l.length, ts) := by
          rw [hfirst]
          simp only [conditionLexerFns, List.cons_append, List.nil_append]
          rw [firstMatch_cons_some (r := (b.skip l.length, ts))]
          simp only [conditionFn, hon.cur, hm, createTokenAndSkip_eq]
          simp only [ts, place, TextBuffer.skip, TextBuffer.position, hsrc, hll]
          simp only [Except.ok.injEq, Option.some.injEq, Prod.mk.injEq, TextBuffer.mk.injEq, true_and, and_true,
            List.cons.injEq]
          refine ⟨by omega, ?_, ?_⟩ <;> congr 1 <;> omega
        have hts : ∀ t ∈ ts, t.type ≠ .EOF := by
          intro t ht
          simp only [ts, place, List.mem_cons, List.not_mem_nil, or_false] at ht
          rcases ht with rfl | rfl | rfl <;> simp [tokAt]
        have hpos' : some b.position ≠ some (b.skip l.length).position := by
          intro e
          simp only [Option.some.injEq, TextBuffer.position, TextBuffer.skip, Prod.mk.injEq] at e
          have := e.2
          omega
        have hcolskip : (b.skip l.length).column = l.length := by simp [TextBuffer.skip, hcol]
        have hon' : OnLine (b.skip l.length) l rest := ⟨hd⟩
        have hacc' : ∀ t ∈ acc ++ ts, t.type ≠ .EOF := by
          intro t ht
          rcases List.mem_append.1 ht with h | h
          · exact hacc t h
          · exact hts t h
        rw [lexLoop_step hstep hacc hts, hps]
        simp only
        obtain ⟨n, rfl⟩ : ∃ k, n = k + 1 := ⟨n - 1, by omega⟩
        by_cases hr : rest = []
        · rw [if_pos hr, lexLoop_eof (hon'.eof.2 ⟨hr, by omega⟩) hpos']
          have e1 : (b.skip l.length).position = (b.position.1, b.position.2 + l.length) := by
            simp only [TextBuffer.position, TextBuffer.skip, Prod.mk.injEq, true_and]
            omega
          simp [Except.map, ts, e1, hsrc, show (b.skip l.length).source = b.source from rfl]
        · rw [if_neg hr]
          have hne' : (b.skip l.length).eof = false := by
            cases he : (b.skip l.length).eof with
            | false => rfl
            | true => exact absurd (hon'.eof.1 he).1 hr
          have htl : (b.skip l.length).tail = [] := by
            simp [TextBuffer.tail, hon'.cur, hcolskip]
          have hstep2 : lexStep conditionLexerFns (some b.position) (b.skip l.length) =
              .ok (b.nextline, []) := by
            simp only [lexStep, if_neg hpos', List.append_assoc, List.cons_append, List.nil_append]
            rw [firstMatch_cons_none (by simp [processEof, hne']),
              firstMatch_cons_none (by simp [processEmptyLine, hon'.cur, hb']),
              firstMatch_cons_some (r := (b.nextline, []))]
            simp [processTrailingSpaces, htl, isBlank, nextline_skip]
          have hln : some (b.skip l.length).position ≠ some b.nextline.position := by
            intro e
            simp only [Option.some.injEq, TextBuffer.position, TextBuffer.skip, Prod.mk.injEq, hon.nextline_line,
              show b.nextline.startLine = b.startLine from rfl] at e
            omega
          rw [lexLoop_step hstep2 hacc' (fun _ h => nomatch h), hnext _ _ _ _ rfl (by omega) hln (by simpa using hacc')]
          cases condTokens src (b.position.1 + 1) 0 rest <;> simp [Except.map, ts]

/-- The condition lexer gives the specified tokens. -/
theorem lexCondition_eq (text : Str) (sl sc : Nat) (src : Option Str) :
    lexCondition (TextBuffer.ofText text sl sc src) = condTokens src sl sc (Spec.lines text) := by
  have hl : (TextBuffer.ofText text sl sc src).lines = Spec.lines text := by
    simp only [TextBuffer.ofText, Spec.lines]; split <;> simp_all
  have := condTokens_loop src (Spec.lines text) (lexFuel (Spec.lines text)) none
    (TextBuffer.ofText text sl sc src) [] (by rw [hl]; simp [TextBuffer.ofText])
    (by simp [TextBuffer.ofText]) (by simp [TextBuffer.ofText]) (by simp) (by simp) (Nat.le_refl _)
  simp only [lexCondition, runLexer, hl, this]
  have e : (TextBuffer.ofText text sl sc src).position = (sl, sc) := by simp [TextBuffer.position, TextBuffer.ofText]
  rw [e]
  cases condTokens src sl sc (Spec.lines text) <;> simp [Except.map]

theorem condTokens_shift (src : Option Str) (sl sc : Nat) (ls : List Str) (ln col : Nat) :
    condTokens src (ln + sl) (col + (if ln = 0 then sc else 0)) ls =
      shiftResult sl sc (condTokens src ln col ls) := by
  induction ls generalizing ln col with
  | nil => simp [condTokens, shiftResult, shiftTok_tokAt]
  | cons l rest ih =>
    have hrec := ih (ln + 1) 0
    simp only [Nat.succ_ne_zero, if_false, Nat.add_zero] at hrec
    rw [show ln + 1 + sl = ln + sl + 1 by omega] at hrec
    simp only [condTokens]
    split
    · split
      · simp [shiftResult, shiftTok_tokAt]
      · rw [hrec]
        have := shiftResult_map (sl := sl) (sc := sc) (as := [tokAt .EOL l ln col src]) (r := condTokens src (ln + 1) 0 rest)
        simp only [List.map_cons, shiftTok_tokAt, List.map_nil, List.cons_append, List.nil_append] at this
        exact this.symm
    · cases condPieces l with
      | none => simp [shiftResult]
      | some ps =>
        simp only
        split
        · simp only [shiftResult, List.map_append, List.map_cons, List.map_nil, shiftTok_tokAt, place_shift]
          congr 4
          omega
        · rw [hrec, place_shift]
          exact shiftResult_map.symm

end Mau
