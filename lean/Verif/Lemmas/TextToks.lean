import Verif.Lemmas.Arguments
import Verif.Spec.Inline

set_option linter.unusedSimpArgs false

/-! # The tokens of a line of inline text -/

namespace Mau
open Spec

/-- Ordinary characters of inline text other than spaces. -/
def wordChar (c : Char) : Bool := !(inlineSpecial.contains c || c == ' ')

theorem wordChar_iff {c : Char} : wordChar c = true ↔ c ∉ textLiterals ∧ c ≠ ' ' := by
  simp [wordChar, inlineSpecial, textLiterals, and_assoc]

/-- The tokens of inline text: special characters, single spaces, maximal runs of other characters. -/
inductive TextToks : Str → List Token → Prop where
  | nil : TextToks [] []
  | lit (c : Char) (t : Token) (r : Str) (ts : List Token) (hc : c ∈ textLiterals) (ht : t.type = .LITERAL)
      (hv : t.value = [c]) (h : TextToks r ts) : TextToks (c :: r) (t :: ts)
  | space (t : Token) (r : Str) (ts : List Token) (hv : t.value = [' ']) (ht : t.type = .TEXT) (h : TextToks r ts) :
      TextToks (' ' :: r) (t :: ts)
  | txt (v : Str) (t : Token) (r : Str) (ts : List Token) (hv : t.value = v) (hne : v ≠ [])
      (hc : ∀ c ∈ v, wordChar c = true) (hr : ∀ c, r.head? = some c → wordChar c = false) (ht : t.type = .TEXT)
      (h : TextToks r ts) : TextToks (v ++ r) (t :: ts)

/-- The types of runs of the text lexer. -/
def textKind : Str → TokenType := fun _ => .TEXT

theorem textKind_good : GoodKind textKind := by intro v; simp [textKind]

theorem TextToks.toks {s : Str} {ts : List Token} (h : TextToks s ts) : Toks textLiterals textKind s ts := by
  induction h with
  | nil => exact .nil
  | lit c t r ts hc ht hv h ih => exact .lit c t r ts hc ht hv ih
  | space t r ts hv ht h ih => exact .run [' '] t r ts hv (by simp) (by intro c hc; simp at hc; subst hc; decide) ht ih
  | txt v t r ts hv hne hc hr ht h ih =>
    exact .run v t r ts hv hne (fun c hcv => (wordChar_iff.1 (hc c hcv)).1) ht ih

theorem TextToks.text {s : Str} {ts : List Token} (h : TextToks s ts) : toksText ts = s := h.toks.text

theorem TextToks.suffix {s : Str} {ts ts' : List Token} (h : TextToks s ts) (hs : ts' <:+ ts) :
    TextToks (toksText ts') ts' := by
  induction h with
  | nil => have := List.eq_nil_of_suffix_nil hs; subst this; exact .nil
  | lit c t r ts hc ht hv h ih =>
    rcases List.suffix_cons_iff.1 hs with rfl | hs
    · have : toksText (t :: ts) = c :: r := by simp [hv, h.text]
      rw [this]; exact .lit c t r ts hc ht hv h
    · exact ih hs
  | space t r ts hv ht h ih =>
    rcases List.suffix_cons_iff.1 hs with rfl | hs
    · have : toksText (t :: ts) = ' ' :: r := by simp [hv, h.text]
      rw [this]; exact .space t r ts hv ht h
    · exact ih hs
  | txt v t r ts hv hne hc hr ht h ih =>
    rcases List.suffix_cons_iff.1 hs with rfl | hs
    · have : toksText (t :: ts) = v ++ r := by simp [hv, h.text]
      rw [this]; exact .txt v t r ts hv hne hc hr ht h
    · exact ih hs

theorem TextToks.of_toks {s : Str} {ts ts0 : List Token} {s0 : Str} (h0 : TextToks s0 ts0)
    (h : Toks textLiterals textKind s ts) (hs : ts <:+ ts0) : TextToks s ts := by
  have := h0.suffix hs
  rwa [h.text] at this

theorem textToks_cutLine (ln : Nat) (src : Option Str) (n : Nat) : ∀ (col : Nat) (s : Str), s.length ≤ n →
    TextToks (piecesText (cutLine textCut n s)) (place ln src col (cutLine textCut n s)) := by
  induction n with
  | zero => intro col s _; exact .nil
  | succ n ih =>
    intro col s hs
    by_cases hb : isBlank s = true
    · simp only [cutLine, hb, if_true]; exact .nil
    · have hb' : isBlank s = false := by simpa using hb
      have hpos := textCuts.pos s hb'
      simp only [cutLine, if_neg hb, place, piecesText, List.map_cons, List.flatten_cons, pieceText]
      have hlen : (s.drop (textCut s).2).length ≤ n := by simp; omega
      have ih' := ih (col + (s.take (textCut s).2).length) (s.drop (textCut s).2) hlen
      have hh := cutLine_head textCuts n (s.drop (textCut s).2) hlen
      obtain ⟨c, r, rfl⟩ := cons_of_not_blank hb'
      by_cases hsp : c = ' '
      · subst hsp
        have e : textCut (' ' :: r) = (.TEXT, 1) := by simp [textCut]
        rw [e] at ih' hh ⊢
        exact .space _ _ _ rfl rfl ih'
      · by_cases hc : c ∈ textLiterals
        · have e : textCut (c :: r) = (.LITERAL, 1) := by
            rw [textCut]
            · simp [hc]
            · intro h; exact hsp h
          rw [e] at ih' ⊢
          exact .lit c _ _ _ hc rfl rfl ih'
        · have e : textCut (c :: r) = (.TEXT, ((c :: r).takeWhile fun c => !(textLiterals.contains c || c == ' ')).length) := by
            rw [textCut]
            · simp [hc]
            · intro h; exact hsp h
          rw [e] at ih' hh ⊢
          simp only [takeWhile_take_length, drop_takeWhile_length] at ih' hh ⊢
          refine .txt _ _ _ _ rfl (by simp [List.takeWhile_cons, hc, hsp]) ?_ ?_ rfl ih'
          · intro d hd
            have := mem_takeWhile _ hd
            simp at this
            exact wordChar_iff.2 this
          · intro d hx
            change (piecesText _).head? = _ at hx
            rcases hh with hh | hh
            · rw [hh] at hx; cases hx
            · rw [hh] at hx
              obtain ⟨t, ht⟩ : ∃ t, ((c :: r).dropWhile fun c => !(textLiterals.contains c || c == ' ')) = d :: t := by
                cases hd : (c :: r).dropWhile fun c => !(textLiterals.contains c || c == ' ') with
                | nil => rw [hd] at hx; cases hx
                | cons a b => rw [hd] at hx; simp at hx; exact ⟨b, by rw [hx]⟩
              have := noHead_dropWhile (p := fun c => !(textLiterals.contains c || c == ' ')) (s := c :: r) d t ht
              rw [Bool.eq_false_iff]
              intro hd
              have hd := wordChar_iff.1 hd
              simp [hd.1, hd.2] at this

theorem cutLine_last (n : Nat) : ∀ (s : Str), s.length ≤ n → (piecesText (cutLine textCut n s)).getLast? ≠ some ' ' := by
  induction n with
  | zero => intro s _; simp [cutLine, piecesText]
  | succ n ih =>
    intro s hs
    by_cases hb : isBlank s = true
    · simp [cutLine, hb, piecesText]
    · have hb' : isBlank s = false := by simpa using hb
      have hpos := textCuts.pos s hb'
      have hlen : (s.drop (textCut s).2).length ≤ n := by simp; omega
      have e : piecesText (cutLine textCut (n + 1) s) = s.take (textCut s).2 ++ piecesText (cutLine textCut n (s.drop (textCut s).2)) := by
        simp [cutLine, if_neg hb, piecesText, pieceText]
      rw [e]
      cases hr : piecesText (cutLine textCut n (s.drop (textCut s).2)) with
      | cons a b =>
        have := ih _ hlen
        rw [hr] at this
        rw [List.getLast?_append]
        simpa [List.getLast?_cons] using this
      | nil =>
        rw [List.append_nil]
        have hbl : isBlank (s.drop (textCut s).2) = true := by
          cases hbl : isBlank (s.drop (textCut s).2) with
          | true => rfl
          | false =>
            exfalso
            obtain ⟨m, rfl⟩ : ∃ m, n = m + 1 := ⟨n - 1, by
              have : (s.drop (textCut s).2) ≠ [] := by rintro h; rw [h] at hbl; simp [isBlank] at hbl
              have := List.length_pos_iff.2 this
              omega⟩
            have hp2 := textCuts.pos _ hbl
            obtain ⟨c, r, hcr⟩ := cons_of_not_blank hbl
            rw [hcr] at hr hbl hp2
            obtain ⟨k, hk⟩ : ∃ k, (textCut (c :: r)).2 = k + 1 := ⟨(textCut (c :: r)).2 - 1, by omega⟩
            simp only [cutLine, hbl, Bool.false_eq_true, if_false, piecesText, List.map_cons, List.flatten_cons, pieceText, hk,
              List.take_succ_cons, List.cons_append] at hr
            cases hr
        have hall : ∀ d ∈ s.take (textCut s).2, d ≠ ' ' := by
          obtain ⟨c, r, rfl⟩ := cons_of_not_blank hb'
          by_cases hsp : c = ' '
          · subst hsp
            exfalso
            have e : textCut (' ' :: r) = (.TEXT, 1) := by simp [textCut]
            rw [e] at hbl
            simp [isBlank] at hb' hbl
            obtain ⟨x, h1, h2⟩ := hb'
            exact h2 (hbl x h1)
          · by_cases hc : c ∈ textLiterals
            · have e : textCut (c :: r) = (.LITERAL, 1) := by
                rw [textCut]
                · simp [hc]
                · intro h; exact hsp h
              rw [e]; simpa using hsp
            · have e : textCut (c :: r) = (.TEXT, ((c :: r).takeWhile fun c => !(textLiterals.contains c || c == ' ')).length) := by
                rw [textCut]
                · simp [hc]
                · intro h; exact hsp h
              rw [e]
              intro d hd
              simp only at hd
              rw [takeWhile_take_length] at hd
              have := mem_takeWhile _ hd
              simp at this
              exact this.2
        intro hx
        exact hall _ (List.mem_of_getLast? hx) rfl

theorem trimEnd_eq {s sp : Str} (hsp : Spaces sp) (hs : s.getLast? ≠ some ' ') : trimEnd (s ++ sp) = s := by
  unfold trimEnd
  rw [List.reverse_append]
  have : ∀ (a b : Str), (∀ c ∈ a, c = ' ') → b.head? ≠ some ' ' → (a ++ b).dropWhile (· == ' ') = b := by
    intro a b ha hb
    induction a with
    | nil =>
      cases b with
      | nil => rfl
      | cons c b => simp at hb; simp [hb]
    | cons c a ih =>
      rw [ha c (by simp)]
      simp
      exact ih fun d hd => ha d (by simp [hd])
  rw [this _ _ (by intro c hc; exact hsp c (by simpa using hc)) (by rw [List.head?_reverse]; exact hs)]
  simp

/-- The tokens of a non-blank (or empty) line of inline text. -/
theorem text_single (text : Str) (hnl : '\n' ∉ text) (hb : text = [] ∨ isBlank text = false) (sl sc : Nat)
    (src : Option Str) :
    ∃ ts e, lexText (TextBuffer.ofText text sl sc src) = .ok (ts ++ [e]) ∧ e.type = .EOF ∧ e.value = [] ∧
      TextToks (trimEnd text) ts ∧ Increasing (ts ++ [e]) := by
  obtain ⟨ts, e, s, sp, h1, h2, h3, h4, h5, h6, h7, h8⟩ := inline_single textCuts text_classifies text hnl hb sl sc src
  rw [lexText_eq]
  have hs : s.getLast? ≠ some ' ' := by rw [h5]; exact cutLine_last _ _ (Nat.le_refl _)
  have htr : trimEnd text = s := by rw [h6]; exact trimEnd_eq h7 hs
  refine ⟨ts, e, by rw [h1], h2, h3, ?_, h8⟩
  rw [htr]
  rcases hb with rfl | hb
  · have : s = [] := by rw [h5]; rfl
    subst this
    rw [h4.nil_inv]; exact .nil
  · have he : text ≠ [] := by rintro rfl; simp [isBlank] at hb
    have hl : Spec.lines text = [text] := by simp [Spec.lines, he, splitChar_of_not_mem hnl]
    rw [hl] at h1
    have key := textToks_cutLine sl src text.length sc text (Nat.le_refl _)
    rw [← h5] at key
    simp only [inlineTokens, hb, Bool.false_eq_true, if_false] at h1
    have : ts = place sl src sc (cutLine textCut text.length text) := by
      split at h1
      · exact (List.append_inj' h1 rfl).1.symm
      · exact (List.append_inj' h1 rfl).1.symm
    rw [this]; exact key

/-- The tokens of a blank line: its spaces as EOL token. -/
theorem text_blank (text : Str) (hnl : '\n' ∉ text) (hne : text ≠ []) (hb : isBlank text = true) (sl sc : Nat)
    (src : Option Str) :
    ∃ t e, lexText (TextBuffer.ofText text sl sc src) = .ok [t, e] ∧ e.type = .EOF ∧ e.value = [] ∧
      t.type = .EOL ∧ t.value = text := by
  have hl : Spec.lines text = [text] := by simp [Spec.lines, hne, splitChar_of_not_mem hnl]
  rw [lexText_eq, hl]
  simp only [inlineTokens, hb, if_true]
  refine ⟨tokAt .EOL text sl sc src, tokAt .EOF [] (sl + 1) 0 src, ?_, rfl, rfl, rfl, rfl⟩
  simp [hne]

end Mau
