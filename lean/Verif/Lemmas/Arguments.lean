import Verif.Lemmas.Inline
import Verif.Spec.Arguments

set_option linter.unusedSimpArgs false

/-! # The arguments parser computes `Spec.ArgsRun` -/

namespace Mau
open Spec

/-- The tokens of an arguments text: special characters, maximal runs of spaces, maximal runs of
other characters. -/
inductive ArgToks : Str → List Token → Prop where
  | nil : ArgToks [] []
  | lit (c : Char) (t : Token) (r : Str) (ts : List Token) (hc : c ∈ argsLiterals) (ht : t.type = .LITERAL)
      (hv : t.value = [c]) (h : ArgToks r ts) : ArgToks (c :: r) (t :: ts)
  | ws (v : Str) (t : Token) (r : Str) (ts : List Token) (hv : t.value = v) (hne : v ≠ [])
      (hc : ∀ c ∈ v, c = ' ') (hr : r.head? ≠ some ' ') (ht : t.type = .WHITESPACE) (h : ArgToks r ts) :
      ArgToks (v ++ r) (t :: ts)
  | txt (v : Str) (t : Token) (r : Str) (ts : List Token) (hv : t.value = v) (hne : v ≠ [])
      (hc : ∀ c ∈ v, argChar c = true) (hr : ∀ c, r.head? = some c → argChar c = false) (ht : t.type = .TEXT)
      (h : ArgToks r ts) : ArgToks (v ++ r) (t :: ts)

theorem argChar_iff {c : Char} : argChar c = true ↔ c ∉ argsLiterals ∧ c ≠ ' ' := by
  simp [argChar, argsLiterals, and_assoc]

theorem argsKind_good : GoodKind argsKind := by
  intro v; unfold argsKind; split <;> simp

theorem ArgToks.toks {s : Str} {ts : List Token} (h : ArgToks s ts) : Toks argsLiterals argsKind s ts := by
  induction h with
  | nil => exact .nil
  | lit c t r ts hc ht hv h ih => exact .lit c t r ts hc ht hv ih
  | ws v t r ts hv hne hc hr ht h ih =>
    refine .run v t r ts hv hne ?_ ?_ ih
    · intro c hcv; rw [hc c hcv]; decide
    · rw [ht, argsKind, if_pos (isBlank_iff.2 hc)]
  | txt v t r ts hv hne hc hr ht h ih =>
    refine .run v t r ts hv hne ?_ ?_ ih
    · intro c hcv; exact (argChar_iff.1 (hc c hcv)).1
    · rw [ht, argsKind, if_neg]
      intro hb
      obtain ⟨c, v', rfl⟩ := List.exists_cons_of_ne_nil hne
      exact (argChar_iff.1 (hc c (by simp))).2 (isBlank_iff.1 hb c (by simp))

theorem ArgToks.suffix {s : Str} {ts ts' : List Token} (h : ArgToks s ts) (hs : ts' <:+ ts) :
    ArgToks (toksText ts') ts' := by
  induction h with
  | nil => have := List.eq_nil_of_suffix_nil hs; subst this; exact .nil
  | lit c t r ts hc ht hv h ih =>
    rcases List.suffix_cons_iff.1 hs with rfl | hs
    · have : toksText (t :: ts) = c :: r := by simp [hv, h.toks.text]
      rw [this]; exact .lit c t r ts hc ht hv h
    · exact ih hs
  | ws v t r ts hv hne hc hr ht h ih =>
    rcases List.suffix_cons_iff.1 hs with rfl | hs
    · have : toksText (t :: ts) = v ++ r := by simp [hv, h.toks.text]
      rw [this]; exact .ws v t r ts hv hne hc hr ht h
    · exact ih hs
  | txt v t r ts hv hne hc hr ht h ih =>
    rcases List.suffix_cons_iff.1 hs with rfl | hs
    · have : toksText (t :: ts) = v ++ r := by simp [hv, h.toks.text]
      rw [this]; exact .txt v t r ts hv hne hc hr ht h
    · exact ih hs

/-! ## Lexing -/

theorem cutLine_head {cut : Cutter} {fs : List ProcFn} (hcb : CutsBy fs cut) (n : Nat) (s : Str) (hn : s.length ≤ n) :
    (piecesText (cutLine cut n s)).head? = none ∨ (piecesText (cutLine cut n s)).head? = s.head? := by
  cases n with
  | zero => left; rfl
  | succ n =>
    simp only [cutLine]
    split
    · left; rfl
    · rename_i hb
      right
      have hpos := hcb.pos s (by simpa using hb)
      obtain ⟨c, r, rfl⟩ := cons_of_not_blank (by simpa using hb)
      obtain ⟨k, hk⟩ : ∃ k, (cut (c :: r)).2 = k + 1 := ⟨(cut (c :: r)).2 - 1, by omega⟩
      simp [piecesText, pieceText, hk]

theorem argToks_cutLine (ln : Nat) (src : Option Str) (n : Nat) : ∀ (col : Nat) (s : Str), s.length ≤ n →
    ArgToks (piecesText (cutLine argsCut n s)) (place ln src col (cutLine argsCut n s)) := by
  induction n with
  | zero => intro col s _; exact .nil
  | succ n ih =>
    intro col s hs
    by_cases hb : isBlank s = true
    · simp only [cutLine, hb, if_true]; exact .nil
    · have hb' : isBlank s = false := by simpa using hb
      have hpos := argsCuts.pos s hb'
      simp only [cutLine, if_neg hb, place, piecesText, List.map_cons, List.flatten_cons, pieceText]
      have hlen : (s.drop (argsCut s).2).length ≤ n := by simp; omega
      have ih' := ih (col + (s.take (argsCut s).2).length) (s.drop (argsCut s).2) hlen
      have hh := cutLine_head argsCuts n (s.drop (argsCut s).2) hlen
      obtain ⟨c, r, rfl⟩ := cons_of_not_blank hb'
      by_cases hsp : c = ' '
      · subst hsp
        have e : argsCut (' ' :: r) = (.WHITESPACE, ((' ' :: r).takeWhile (· == ' ')).length) := by simp [argsCut]
        rw [e] at ih' hh ⊢
        simp only [takeWhile_take_length, drop_takeWhile_length] at ih' hh ⊢
        refine .ws _ _ _ _ rfl (by simp) ?_ ?_ rfl ih'
        · intro d hd; simpa using mem_takeWhile _ hd
        · intro hx
          change (piecesText _).head? = _ at hx
          rcases hh with hh | hh
          · rw [hh] at hx; cases hx
          · rw [hh] at hx
            obtain ⟨t, ht⟩ : ∃ t, (' ' :: r).dropWhile (· == ' ') = ' ' :: t := by
              cases hd : (' ' :: r).dropWhile (· == ' ') with
              | nil => rw [hd] at hx; cases hx
              | cons a b => rw [hd] at hx; simp at hx; exact ⟨b, by rw [hx]⟩
            have := noHead_dropWhile (p := (· == ' ')) (s := ' ' :: r) ' ' t ht
            simp at this
      · by_cases hc : c ∈ argsLiterals
        · have e : argsCut (c :: r) = (.LITERAL, 1) := by simp [argsCut, hsp, hc]
          rw [e] at ih' ⊢
          exact .lit c _ _ _ hc rfl rfl ih'
        · have e : argsCut (c :: r) = (.TEXT, ((c :: r).takeWhile fun c => !(argsLiterals.contains c || c == ' ')).length) := by
            simp [argsCut, hsp, hc]
          rw [e] at ih' hh ⊢
          simp only [takeWhile_take_length, drop_takeWhile_length] at ih' hh ⊢
          refine .txt _ _ _ _ rfl (by simp [List.takeWhile_cons, hc, hsp]) ?_ ?_ rfl ih'
          · intro d hd
            have := mem_takeWhile _ hd
            simp at this
            exact argChar_iff.2 this
          · intro d hx
            change (piecesText _).head? = _ at hx
            rcases hh with hh | hh
            · rw [hh] at hx; cases hx
            · rw [hh] at hx
              obtain ⟨t, ht⟩ : ∃ t, ((c :: r).dropWhile fun c => !(argsLiterals.contains c || c == ' ')) = d :: t := by
                cases hd : (c :: r).dropWhile fun c => !(argsLiterals.contains c || c == ' ') with
                | nil => rw [hd] at hx; cases hx
                | cons a b => rw [hd] at hx; simp at hx; exact ⟨b, by rw [hx]⟩
              have := noHead_dropWhile (p := fun c => !(argsLiterals.contains c || c == ' ')) (s := c :: r) d t ht
              rw [Bool.eq_false_iff]
              intro hd
              have hd := argChar_iff.1 hd
              simp [hd.1, hd.2] at this

/-- The tokens of a non-blank (or empty) arguments text. -/
theorem args_single (text : Str) (hnl : '\n' ∉ text) (hb : text = [] ∨ isBlank text = false) (sl sc : Nat)
    (src : Option Str) :
    ∃ ts e s sp, lexArgs (TextBuffer.ofText text sl sc src) = .ok (ts ++ [e]) ∧ e.type = .EOF ∧ e.value = [] ∧
      ArgToks s ts ∧ text = s ++ sp ∧ Spaces sp ∧ Increasing (ts ++ [e]) := by
  obtain ⟨ts, e, s, sp, h1, h2, h3, h4, h5, h6, h7, h8⟩ := inline_single argsCuts args_classifies text hnl hb sl sc src
  rw [lexArgs_eq]
  refine ⟨ts, e, s, sp, by rw [h1], h2, h3, ?_, h6, h7, h8⟩
  rcases hb with rfl | hb
  · have : s = [] := by rw [h5]; rfl
    subst this
    rw [h4.nil_inv]; exact .nil
  · have he : text ≠ [] := by rintro rfl; simp [isBlank] at hb
    have hl : Spec.lines text = [text] := by simp [Spec.lines, he, splitChar_of_not_mem hnl]
    rw [hl] at h1
    have key := argToks_cutLine sl src text.length sc text (Nat.le_refl _)
    rw [← h5] at key
    simp only [inlineTokens, hb, Bool.false_eq_true, if_false] at h1
    have : ts = place sl src sc (cutLine argsCut text.length text) := by
      split at h1
      · exact (List.append_inj' h1 rfl).1.symm
      · exact (List.append_inj' h1 rfl).1.symm
    rw [this]; exact key

/-! ## Steps -/

section steps
variable {tm : TM} {s : Str} {e : Token} {ts : List Token}

theorem ArgToks.of_toks {s : Str} {ts ts0 : List Token} {s0 : Str} (h0 : ArgToks s0 ts0)
    (h : Toks argsLiterals argsKind s ts) (hs : ts <:+ ts0) : ArgToks s ts := by
  have := h0.suffix hs
  rwa [h.text] at this

theorem upto_suffix {stops : List Token} (ts : List Token) : (upto (stopTok stops) escTok ts).2 <:+ ts :=
  ⟨_, upto_append ts⟩

theorem ArgToks.nil_inv {ts : List Token} (h : ArgToks [] ts) : ts = [] := h.toks.nil_inv

/-- Tokens of a text starting with a special character. -/
theorem ArgToks.lit_inv {c : Char} {r : Str} (hc : c ∈ argsLiterals) (h : ArgToks (c :: r) ts) :
    ∃ t ts', ts = t :: ts' ∧ t.type = .LITERAL ∧ t.value = [c] ∧ ArgToks r ts' := by
  generalize hq : c :: r = q at h
  cases h with
  | nil => cases hq
  | lit d t r ts hd ht hv h => cases hq; exact ⟨t, ts, rfl, ht, hv, h⟩
  | ws v t r' ts hv hne hcv hr ht h =>
    obtain ⟨d, v', rfl⟩ := List.exists_cons_of_ne_nil hne
    simp at hq
    have := hcv d (by simp)
    rw [← hq.1] at this
    subst this
    exact absurd hc (by decide)
  | txt v t r' ts hv hne hcv hr ht h =>
    obtain ⟨d, v', rfl⟩ := List.exists_cons_of_ne_nil hne
    simp at hq
    have := (argChar_iff.1 (hcv d (by simp))).1
    rw [← hq.1] at this
    exact absurd hc this

/-- Tokens of a text not starting with the special character `c`: the first token is not `c`. -/
theorem ArgToks.not_lit {c : Char} (hc : c ∈ argsLiterals) (h : ArgToks s ts) (hs : s.head? ≠ some c) (hat : At tm ts e) :
    tm.peekIs .LITERAL (some [c]) = .ok false ∧ tm.get (some .LITERAL) (some [c]) = .error .token := by
  have hcheck : ∀ t : Token, ¬ (t.type = .LITERAL ∧ t.value = [c]) →
      TM.checkToken t (some .LITERAL) (some [c]) none = .error .token := by
    intro t ht; rw [check_value, if_neg ht]
  cases h with
  | nil =>
    have hn : ¬ (e.type = .LITERAL ∧ e.value = [c]) := by rw [hat.eof.1]; simp
    exact ⟨by simp only [TM.peekIs, hat.peek_nil, hcheck e hn], hat.get_nil_mismatch (hcheck e hn)⟩
  | lit d t r ts hd ht hv h =>
    have hn : ¬ (t.type = .LITERAL ∧ t.value = [c]) := by
      rw [hv]; simp at hs ⊢; intro _; exact hs
    exact ⟨by simp only [TM.peekIs, hat.peek_cons, hcheck t hn], hat.get_mismatch (hcheck t hn)⟩
  | ws v t r ts hv hne hcv hr ht h =>
    have hn : ¬ (t.type = .LITERAL ∧ t.value = [c]) := by rw [ht]; simp
    exact ⟨by simp only [TM.peekIs, hat.peek_cons, hcheck t hn], hat.get_mismatch (hcheck t hn)⟩
  | txt v t r ts hv hne hcv hr ht h =>
    have hn : ¬ (t.type = .LITERAL ∧ t.value = [c]) := by rw [ht]; simp
    exact ⟨by simp only [TM.peekIs, hat.peek_cons, hcheck t hn], hat.get_mismatch (hcheck t hn)⟩

/-- The value at a position. -/
theorem argValue_spec (h : ArgToks s ts) (hat : At tm ts e) :
    match valueAt s with
    | none => argValue tm = .error .token
    | some (v, rest) => ∃ tok tm' ts', argValue tm = .ok (tok, tm') ∧ tok.value = v ∧ At tm' ts' e ∧
        ArgToks rest ts' ∧ ts' <:+ ts ∧
        (s ≠ [] → ts'.length < ts.length ∨ (s.head? = some ',' ∧ rest = s ∧ ts' = ts)) := by
  have hbl : ('\\' : Char) ∈ argsLiterals := by decide
  by_cases hq : s.head? = some '"'
  · obtain ⟨r, rfl⟩ : ∃ r, s = '"' :: r := by
      cases s with
      | nil => simp at hq
      | cons a b => simp at hq; exact ⟨b, by rw [hq]⟩
    obtain ⟨t, ts', rfl, ht, hv, hr⟩ := h.lit_inv (c := '"') (by decide)
    have hch : TM.checkToken t (some .LITERAL) (some ['"']) none = .ok t := by rw [check_value, if_pos ⟨ht, hv⟩]
    have p1 : tm.peekIs .LITERAL (some ['"']) = .ok true := by simp only [TM.peekIs, hat.peek_cons, hch]
    have g1 := hat.get_cons hch
    obtain ⟨cx, tm2, g2, _, g3⟩ := hat.nextAt.collectJoin [Token.generate .LITERAL ['"']] false
    change At tm2 (upto (stopTok (litToks ['"'])) escTok ts').2 e at g3
    simp only [valueAt, List.head?_cons, if_true, List.tail_cons]
    rcases toks_closing argsKind_good hbl (stop := '"') (by decide) (by decide) hr.toks with
      ⟨x, hx, u, us, h1, h2, h3, h4, h5, h6⟩ | ⟨h1, h2⟩
    · rw [hx]
      rw [h1] at g3
      have g4 : tm2.get (some .LITERAL) (some ['"']) = .ok (u, { tm2 with next := tm2.next + 1 }) :=
        g3.get_cons (by rw [check_value, if_pos ⟨h2, h3⟩])
      have hsuf := closing_tok_suffix h1
      refine ⟨⟨.TEXT, toksText (unesc (stopTok (litToks ['"'])) escTok false
        (upto (stopTok (litToks ['"'])) escTok ts').1), cx⟩, { tm2 with next := tm2.next + 1 }, us, ?_, h6 false, g3.nextAt,
        hr.of_toks h4 hsuf, hsuf.trans (by simp), ?_⟩
      rotate_left
      · intro _; left; have := hsuf.length_le; simp; omega
      simp only [argValue, p1, g1, Bind.bind, Except.bind, pure, Except.pure, if_true]
      rw [g2]
      simp only [g4]
      rfl
    · rw [h1]
      rw [h2] at g3
      have g4 : tm2.get (some .LITERAL) (some ['"']) = .error .token :=
        g3.get_nil_mismatch (by rw [check_value, if_neg]; rw [g3.eof.1]; simp)
      simp only [Option.map_none, argValue, p1, g1, g2, g4, Bind.bind, Except.bind, pure, Except.pure, if_true]
  · have p1 := (h.not_lit (c := '"') (by decide) hq hat).1
    simp only [valueAt, if_neg hq]
    obtain ⟨cx, tm2, g2, _, g3⟩ := hat.collectJoin [Token.generate .LITERAL [',']] false
    have key := h.toks.upto argsKind_good hbl (cs := [',']) (by decide) (by decide) false
    rw [contains_singleton] at key
    refine ⟨⟨.TEXT, toksText (unesc (stopTok (litToks [','])) escTok false
        (upto (stopTok (litToks [','])) escTok ts).1), cx⟩, tm2, _, ?_, ?_, g3, h.of_toks key.2.2 (upto_suffix ts),
        upto_suffix ts, ?_⟩
    rotate_left 2
    · intro hne
      by_cases hc : s.head? = some ','
      · right
        obtain ⟨r, rfl⟩ : ∃ r, s = ',' :: r := by
          cases s with
          | nil => simp at hc
          | cons a b => simp at hc; exact ⟨b, by rw [hc]⟩
        obtain ⟨t, ts', rfl, ht, hv, hr⟩ := h.lit_inv (c := ',') (by decide)
        refine ⟨rfl, ?_, ?_⟩
        · rw [upto_stop (by rfl)]
        · change (upto (stopTok (litToks [','])) escTok (t :: ts')).2 = _
          rw [upto_stop (by rw [stopTok_lit ht hv]; rfl)]
      · left
        have hap := upto_append (stop := stopTok [Token.generate .LITERAL [',']]) (esc := escTok) ts
        have hl := congrArg List.length hap
        have hap2 := key.2.1
        have hne1 : (upto (· == ',') escChar s).1 ≠ [] := by
          obtain ⟨c, r, rfl⟩ := List.exists_cons_of_ne_nil hne
          have hcc : (c == ',') = false := by simpa using hc
          cases r with
          | nil => simp only [upto, hcc, Bool.false_eq_true, if_false]; split <;> simp
          | cons d r => simp only [upto, hcc, Bool.false_eq_true, if_false]; split <;> simp
        have : 0 < (upto (stopTok [Token.generate .LITERAL [',']]) escTok ts).1.length := by
          apply List.length_pos_iff.2
          intro h0
          change (upto (stopTok (litToks [','])) escTok ts).1 = [] at h0
          rw [h0] at hap2
          exact hne1 hap2.symm
        simp at hl; omega
    · simp only [argValue, p1, Bind.bind, Except.bind, pure, Except.pure, Bool.false_eq_true, if_false]
      exact g2
    · exact key.1

/-- Skipping the comma and the spaces after a value. -/
theorem afterValue_spec (h : ArgToks s ts) (hat : At tm ts e) :
    ∃ tm1 tm2 ts', optToken .LITERAL (some [',']) tm = .ok tm1 ∧ optToken .WHITESPACE none tm1 = .ok tm2 ∧
      At tm2 ts' e ∧ ArgToks (afterValue s) ts' ∧ ts' <:+ ts ∧ (s.head? = some ',' → ts'.length < ts.length) := by
  have hws : ∀ (s : Str) (ts : List Token) (tm : TM), ArgToks s ts → At tm ts e →
      ∃ tm2 ts', optToken .WHITESPACE none tm = .ok tm2 ∧ At tm2 ts' e ∧
        ArgToks (s.dropWhile (· == ' ')) ts' ∧ ts' <:+ ts := by
    intro s ts tm h hat
    have hno : ∀ t : Token, t.type ≠ .WHITESPACE → TM.checkToken t (some .WHITESPACE) none none = .error .token := by
      intro t ht; rw [check_type, if_neg ht]
    cases h with
    | nil =>
      refine ⟨tm, [], ?_, hat, .nil, List.suffix_refl _⟩
      simp only [optToken, hat.get_nil_mismatch (hno e (by rw [hat.eof.1]; simp))]
    | lit c t r ts hc ht hv h =>
      refine ⟨tm, t :: ts, ?_, hat, ?_, List.suffix_refl _⟩
      · simp only [optToken, hat.get_mismatch (hno t (by rw [ht]; simp))]
      · have : c ≠ ' ' := by rintro rfl; exact absurd hc (by decide)
        simp only [List.dropWhile_cons, beq_iff_eq, this, if_false]
        exact .lit c t r ts hc ht hv h
    | ws v t r ts hv hne hcv hr ht h =>
      refine ⟨{ tm with next := tm.next + 1 }, ts, ?_, hat.nextAt, ?_, by simp⟩
      · simp only [optToken, hat.get_cons (by rw [check_type, if_pos ht])]
      · have e1 : (v ++ r).dropWhile (· == ' ') = r := by
          clear hv hne ht h
          induction v with
          | nil =>
            cases r with
            | nil => rfl
            | cons a b => simp at hr; simp [List.dropWhile_cons, hr]
          | cons a v ih =>
            rw [List.cons_append, List.dropWhile_cons, if_pos (by simp [hcv a (by simp)])]
            exact ih fun c hc => hcv c (by simp [hc])
        rw [e1]; exact h
    | txt v t r ts hv hne hcv hr ht h =>
      refine ⟨tm, t :: ts, ?_, hat, ?_, List.suffix_refl _⟩
      · simp only [optToken, hat.get_mismatch (hno t (by rw [ht]; simp))]
      · obtain ⟨c, v', rfl⟩ := List.exists_cons_of_ne_nil hne
        have : c ≠ ' ' := (argChar_iff.1 (hcv c (by simp))).2
        have e1 : (c :: v' ++ r).dropWhile (· == ' ') = c :: v' ++ r := by
          simp [List.dropWhile_cons, this]
        rw [e1]
        exact .txt _ t r ts hv hne hcv hr ht h
  by_cases hc : s.head? = some ','
  · obtain ⟨r, rfl⟩ : ∃ r, s = ',' :: r := by
      cases s with
      | nil => simp at hc
      | cons a b => simp at hc; exact ⟨b, by rw [hc]⟩
    obtain ⟨t, ts', rfl, ht, hv, hr⟩ := h.lit_inv (c := ',') (by decide)
    obtain ⟨tm2, ts2, h1, h2, h3, h4⟩ := hws r ts' _ hr hat.nextAt
    refine ⟨_, tm2, ts2, ?_, h1, h2, ?_, h4.trans (by simp), ?_⟩
    · simp only [optToken, hat.get_cons (by rw [check_value, if_pos ⟨ht, hv⟩])]
    · simpa [afterValue] using h3
    · intro _; have := h4.length_le; simp; omega
  · obtain ⟨tm2, ts2, h1, h2, h3, h4⟩ := hws s ts tm h hat
    refine ⟨tm, tm2, ts2, ?_, h1, h2, ?_, h4, fun h => absurd h hc⟩
    · simp only [optToken, (h.not_lit (c := ',') (by decide) hc hat).2]
    · simpa [afterValue, hc] using h3

theorem takeWhile_run {p : Char → Bool} {k r : Str} (hk : ∀ c ∈ k, p c = true) (hr : ∀ c, r.head? = some c → p c = false) :
    (k ++ r).takeWhile p = k := by
  induction k with
  | nil =>
    cases r with
    | nil => rfl
    | cons c r => simp [hr c rfl]
  | cons c k ih => simp [hk c (by simp), ih fun d hd => hk d (by simp [hd])]

theorem run_unique {p : Char → Bool} {k k' r r' : Str} (hk : ∀ c ∈ k, p c = true) (hr : ∀ c, r.head? = some c → p c = false)
    (hk' : ∀ c ∈ k', p c = true) (hr' : ∀ c, r'.head? = some c → p c = false) (h : k ++ r = k' ++ r') :
    k = k' ∧ r = r' := by
  have h1 := takeWhile_run hk hr
  have h2 := takeWhile_run hk' hr'
  rw [h, h2] at h1
  subst h1
  exact ⟨rfl, List.append_cancel_left h⟩

/-- A named argument at a position. -/
theorem namedArgument_spec (h : ArgToks s ts) (hat : At tm ts e) :
    (∀ k v rest, KeyAt s k v rest → ∃ cx tm' ts', namedArgument tm = .ok (.named k ⟨strip v, cx⟩, tm') ∧ At tm' ts' e ∧
      ArgToks (afterValue rest) ts' ∧ ts' <:+ ts ∧ ts'.length < ts.length) ∧
    ((¬ ∃ k v rest, KeyAt s k v rest) → namedArgument tm = .error .token) := by
  have hno : ∀ t : Token, t.type ≠ .TEXT → TM.checkToken t (some .TEXT) none none = .error .token := by
    intro t ht; rw [check_type, if_neg ht]
  have heq : ∀ c r, ('=' :: r : Str).head? = some c → argChar c = false := by
    intro c r hc; simp at hc; subst hc; rfl
  have nokey : ∀ s : Str, (∀ c, s.head? = some c → argChar c = false) → ¬ ∃ k v rest, KeyAt s k v rest := by
    rintro s hs ⟨k, v, rest, r, rfl, hk, hc, _⟩
    obtain ⟨d, k', rfl⟩ := List.exists_cons_of_ne_nil hk
    have := hs d rfl
    rw [hc d (by simp)] at this; cases this
  cases h with
  | nil =>
    refine ⟨fun k v rest hk => absurd ⟨k, v, rest, hk⟩ (nokey [] (by simp)), fun _ => ?_⟩
    simp only [namedArgument, hat.get_nil_mismatch (hno e (by rw [hat.eof.1]; simp)), Bind.bind, Except.bind]
  | lit c t r ts hc ht hv h =>
    have hn := nokey (c :: r) (by
      intro d hd; simp at hd; subst hd; rw [Bool.eq_false_iff]; intro hh; exact (argChar_iff.1 hh).1 hc)
    refine ⟨fun k v rest hk => absurd ⟨k, v, rest, hk⟩ hn, fun _ => ?_⟩
    simp only [namedArgument, hat.get_mismatch (hno t (by rw [ht]; simp)), Bind.bind, Except.bind]
  | ws v t r ts hv hne hcv hr ht h =>
    have hn := nokey (v ++ r) (by
      intro d hd
      obtain ⟨c, v', rfl⟩ := List.exists_cons_of_ne_nil hne
      simp at hd; subst hd; rw [hcv c (by simp)]; rfl)
    refine ⟨fun k v rest hk => absurd ⟨k, v, rest, hk⟩ hn, fun _ => ?_⟩
    simp only [namedArgument, hat.get_mismatch (hno t (by rw [ht]; simp)), Bind.bind, Except.bind]
  | txt w t r ts hv hne hcv hr ht h =>
    have g1 := hat.get_cons (ty := some .TEXT) (v := none) (f := none) (by rw [check_type, if_pos ht])
    by_cases hq : r.head? = some '='
    · obtain ⟨r, rfl⟩ : ∃ r', r = '=' :: r' := by
        cases r with
        | nil => simp at hq
        | cons a b => simp at hq; exact ⟨b, by rw [hq]⟩
      obtain ⟨u, us, rfl, hu, huv, hrr⟩ := h.lit_inv (c := '=') (by decide)
      have g2 := hat.nextAt.get_cons (ty := some .LITERAL) (v := some ['=']) (f := none) (by rw [check_value, if_pos ⟨hu, huv⟩])
      have hval := argValue_spec hrr hat.nextAt.nextAt
      have huniq : ∀ k v rest, KeyAt (w ++ '=' :: r) k v rest → k = w ∧ valueAt r = some (v, rest) := by
        rintro k v rest ⟨r', h1, h2, h3, h4⟩
        obtain ⟨rfl, h5⟩ := run_unique hcv hr h3 (fun c hc => heq c r' hc) h1
        cases h5
        exact ⟨rfl, h4⟩
      cases hva : valueAt r with
      | none =>
        rw [hva] at hval
        refine ⟨?_, fun _ => ?_⟩
        · intro k v rest hk
          have := (huniq k v rest hk).2
          rw [hva] at this; cases this
        · simp only [namedArgument, g1, g2, hval, Bind.bind, Except.bind]
      | some x =>
        obtain ⟨v, rest⟩ := x
        rw [hva] at hval
        obtain ⟨tok, tm3, ts3, a1, a2, a3, a4, a5, a6⟩ := hval
        obtain ⟨tm4, tm5, ts5, b1, b2, b3, b4, b5, b6⟩ := afterValue_spec a4 a3
        refine ⟨?_, fun hno => absurd ⟨w, v, rest, r, rfl, hne, hcv, hva⟩ hno⟩
        intro k v' rest' hk
        obtain ⟨rfl, h2⟩ := huniq k v' rest' hk
        rw [hva] at h2; cases h2
        refine ⟨tok.ctx, tm5, ts5, ?_, b3, b4, b5.trans (a5.trans ((List.suffix_cons _ _).trans (List.suffix_cons _ _))), ?_⟩
        · simp only [namedArgument, g1, g2, a1, b1, b2, Bind.bind, Except.bind, pure, Except.pure, hv, a2]
        · have := b5.length_le; have := a5.length_le; simp; omega
    · have g2 := (h.not_lit (c := '=') (by decide) hq hat.nextAt).2
      refine ⟨?_, fun _ => ?_⟩
      · rintro k v rest ⟨r', h1, h2, h3, h4⟩
        obtain ⟨rfl, h5⟩ := run_unique hcv hr h3 (fun c hc => heq c r' hc) h1
        rw [h5] at hq; simp at hq
      · simp only [namedArgument, g1, g2, Bind.bind, Except.bind]

/-- An argument without its position. -/
def eraseArg : ArgItem → Arg
  | .named k n => .key k n.value
  | .unnamed n => .pos n.value

theorem argLoop_spec {on : Bool} {s : Str} {res : Except Err (List Arg)} (hrun : ArgsRun on s res) :
    ∀ (n : Nat) (ts : List Token) (e : Token) (tm : TM) (last : Token) (acc : List ArgItem), ts.length < n →
      At tm ts e → ArgToks s ts → ts.Nodup → last ∉ ts → acc.any (·.isNamed) = on →
      unplaced ((parseLoop argFns n last tm acc).map (·.map eraseArg)) = res.map (acc.map eraseArg ++ ·) := by
  have peeks : ∀ (t : Token) (ts : List Token) (e : Token) (tm : TM) (s : Str), At tm (t :: ts) e → ArgToks s (t :: ts) →
      tm.peekIs .EOF = .ok false ∧ tm.peek = .ok t := by
    intro t ts e tm s hat hts
    have hne := hts.toks.noEof argsKind_good t (by simp)
    exact ⟨by simp [TM.peekIs, hat.peek_cons, check_type, hne], by rw [hat.peek_cons, check_any]⟩
  have toksne : ∀ (s : Str) (ts : List Token), s ≠ [] → ArgToks s ts → ∃ t ts', ts = t :: ts' := by
    intro s ts hs h
    cases ts with
    | nil => have := h.toks.text; exact absurd this.symm hs
    | cons t ts => exact ⟨t, ts, rfl⟩
  induction hrun with
  | done on =>
    intro n ts e tm last acc hn hat hts _ _ _
    obtain ⟨n, rfl⟩ : ∃ m, n = m + 1 := ⟨n - 1, by omega⟩
    have := hts.nil_inv
    subst this
    have hp : tm.peekIs .EOF = .ok true := by simp [TM.peekIs, hat.peek_nil, check_type, hat.eof.1]
    simp [parseLoop, hp, Bind.bind, Except.bind, pure, Except.pure, Except.map]
  | @key on s k v rest res hk hr ih =>
    intro n ts e tm last acc hn hat hts hnd hl _
    obtain ⟨n, rfl⟩ : ∃ m, n = m + 1 := ⟨n - 1, by omega⟩
    have hne : s ≠ [] := by rintro rfl; obtain ⟨r, h1, _⟩ := hk; simp at h1
    obtain ⟨t, ts, rfl⟩ := toksne s ts hne hts
    obtain ⟨p1, p2⟩ := peeks t ts e tm s hat hts
    obtain ⟨cx, tm', ts', h1, h2, h3, h4, h5⟩ := (namedArgument_spec hts hat).1 k v rest hk
    have hl' : ¬ t = last := by rintro rfl; exact hl (by simp)
    have hsub : ts'.Sublist ts := by
      rcases List.suffix_cons_iff.1 h4 with rfl | h4
      · simp at h5
      · exact h4.sublist
    rw [List.nodup_cons] at hnd
    have := ih n ts' e tm' t (acc ++ [.named k ⟨strip v, cx⟩]) (by simp at hn h5; omega) h2 h3
      (hnd.2.sublist hsub) (fun hm => hnd.1 (hsub.subset hm)) (by simp [ArgItem.isNamed])
    simp only [parseLoop, p1, p2, hl', argFns, tryFns, h1, Bind.bind, Except.bind, if_false, Bool.false_eq_true]
    change unplaced ((parseLoop argFns n t tm' (acc ++ [.named k ⟨strip v, cx⟩])).map _) = _
    rw [this]
    cases res <;> simp [Except.map, eraseArg]
  | @pos s v rest res hne hk hv hr ih =>
    intro n ts e tm last acc hn hat hts hnd hl hon
    obtain ⟨n, rfl⟩ : ∃ m, n = m + 1 := ⟨n - 1, by omega⟩
    obtain ⟨t, ts, rfl⟩ := toksne s ts hne hts
    obtain ⟨p1, p2⟩ := peeks t ts e tm s hat hts
    have h1 := (namedArgument_spec hts hat).2 hk
    have hval := argValue_spec hts hat
    rw [hv] at hval
    obtain ⟨tok, tm3, ts3, a1, a2, a3, a4, a5, a6⟩ := hval
    obtain ⟨tm4, tm5, ts5, b1, b2, b3, b4, b5, b6⟩ := afterValue_spec a4 a3
    have hlt : ts5.length < (t :: ts).length := by
      rcases a6 hne with a6 | ⟨a6, a7, a8⟩
      · have := b5.length_le; omega
      · rw [← a8]; exact b6 (by rw [a7]; exact a6)
    have h4 : ts5 <:+ t :: ts := b5.trans a5
    have hl' : ¬ t = last := by rintro rfl; exact hl (by simp)
    have hsub : ts5.Sublist ts := by
      rcases List.suffix_cons_iff.1 h4 with rfl | h4
      · simp at hlt
      · exact h4.sublist
    rw [List.nodup_cons] at hnd
    have := ih n ts5 e tm5 t (acc ++ [.unnamed ⟨tok.value, tok.ctx⟩]) (by simp at hn hlt; omega) b3 b4
      (hnd.2.sublist hsub) (fun hm => hnd.1 (hsub.subset hm)) (by rw [List.any_append, hon]; rfl)
    have hun : unnamedArgument (acc.any (·.isNamed)) tm = .ok (.unnamed ⟨tok.value, tok.ctx⟩, tm5) := by
      simp only [hon, unnamedArgument, a1, b1, b2, Bind.bind, Except.bind, pure, Except.pure, Bool.false_eq_true, if_false]
    simp only [parseLoop, p1, p2, hl', argFns, tryFns, h1, hun, Bind.bind, Except.bind, if_false, Bool.false_eq_true]
    change unplaced ((parseLoop argFns n t tm5 (acc ++ [.unnamed ⟨tok.value, tok.ctx⟩])).map _) = _
    rw [this]
    cases res <;> simp [Except.map, eraseArg, a2]
  | @forbidden s hne hk =>
    intro n ts e tm last acc hn hat hts hnd hl hon
    obtain ⟨n, rfl⟩ : ∃ m, n = m + 1 := ⟨n - 1, by omega⟩
    obtain ⟨t, ts, rfl⟩ := toksne s ts hne hts
    obtain ⟨p1, p2⟩ := peeks t ts e tm s hat hts
    have h1 := (namedArgument_spec hts hat).2 hk
    have hl' : ¬ t = last := by rintro rfl; exact hl (by simp)
    have hun : unnamedArgument (acc.any (·.isNamed)) tm = .error unnamedAfterNamed := by
      simp only [hon, unnamedArgument, Bind.bind, Except.bind, if_true]; rfl
    simp only [parseLoop, p1, p2, hl', argFns, tryFns, h1, hun, Bind.bind, Except.bind, if_false, Bool.false_eq_true]
    rfl
  | @unclosed s hne hk hv =>
    intro n ts e tm last acc hn hat hts hnd hl hon
    obtain ⟨n, rfl⟩ : ∃ m, n = m + 1 := ⟨n - 1, by omega⟩
    obtain ⟨t, ts, rfl⟩ := toksne s ts hne hts
    obtain ⟨p1, p2⟩ := peeks t ts e tm s hat hts
    have h1 := (namedArgument_spec hts hat).2 hk
    have hval := argValue_spec hts hat
    rw [hv] at hval
    have hl' : ¬ t = last := by rintro rfl; exact hl (by simp)
    have hun : unnamedArgument (acc.any (·.isNamed)) tm = .error .token := by
      simp only [hon, unnamedArgument, hval, Bind.bind, Except.bind, Bool.false_eq_true, if_false, pure, Except.pure]
    simp only [parseLoop, p1, p2, hl', argFns, tryFns, h1, hun, Bind.bind, Except.bind, if_false, Bool.false_eq_true]
    rfl

end steps

end Mau
