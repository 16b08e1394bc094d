import Verif.Lemmas.Inline
import Verif.Spec.Preprocess
import Verif.Model.Preprocess

set_option linter.unusedSimpArgs false

/-! # The preprocessor computes `Spec.preText` -/

namespace Mau
open Spec

theorem before_before (a b : Str) (r : Except Err Str) : before a (before b r) = before (a ++ b) r := by
  cases r <;> simp [before, Except.map]

theorem before_nil (r : Except Err Str) : before [] r = r := by
  cases r <;> simp [before, Except.map]

section
variable {env : Env}

theorem preText_nil : preText env [] = .ok [] := by rw [preText]

theorem preText_dangling : preText env ['\\'] = .ok [] := by rw [preText]; simp

theorem preText_esc (d : Char) (r : Str) :
    preText env ('\\' :: d :: r) = before (if d = '{' ∨ d = '}' then [d] else ['\\', d]) (preText env r) := by
  rw [preText]; simp

theorem preText_plain {c : Char} (h : ¬ preSpecial c) (r : Str) :
    preText env (c :: r) = before [c] (preText env r) := by
  simp only [preSpecial, not_or] at h
  rw [preText.eq_def]; simp [h.1, h.2.1, h.2.2.1]

theorem preText_close (r : Str) : preText env ('}' :: r) = before ['}'] (preText env r) := by
  rw [preText.eq_def]; simp

theorem preText_tick_open {r : Str} (h : closing '`' r = none) :
    preText env ('`' :: r) = before ['`'] (preText env r) := by
  rw [preText.eq_def]
  simp only [show ¬ ('`' = '\\') by decide, if_false, if_true]
  split
  · rfl
  · rename_i h2; rw [h] at h2; cases h2

theorem preText_tick {r raw rest : Str} (h : closing '`' r = some (raw, rest)) :
    preText env ('`' :: r) = before ('`' :: raw ++ ['`']) (preText env rest) := by
  rw [preText.eq_def]
  simp only [show ¬ ('`' = '\\') by decide, if_false, if_true]
  split
  · rename_i h2; rw [h] at h2; cases h2
  · rename_i h2; rw [h] at h2; cases h2; rfl

theorem preText_brace_open {r : Str} (h : closing '}' r = none) :
    preText env ('{' :: r) = before ['{'] (preText env r) := by
  rw [preText.eq_def]
  simp only [show ¬ ('{' = '\\') by decide, show ¬ ('{' = '`') by decide, if_false, if_true]
  split
  · rfl
  · rename_i h2; rw [h] at h2; cases h2

theorem preText_double {r raw rest : Str} (h : closing '}' r = some (raw, '}' :: rest)) (hd : raw.head? = some '{') :
    preText env ('{' :: r) = before (unescape '}' raw ++ ['}']) (preText env rest) := by
  rw [preText.eq_def]
  simp only [show ¬ ('{' = '\\') by decide, show ¬ ('{' = '`') by decide, if_false, if_true]
  split
  · rename_i h2; rw [h] at h2; cases h2
  · rename_i x h2; rw [h] at h2; cases h2
    simp only [hd, if_true]

theorem preText_incomplete {r raw rest : Str} (h : closing '}' r = some (raw, rest)) (hd : raw.head? = some '{')
    (hr : rest.head? ≠ some '}') : preText env ('{' :: r) = .error (incompleteVariable (unescape '}' raw)) := by
  rw [preText.eq_def]
  simp only [show ¬ ('{' = '\\') by decide, show ¬ ('{' = '`') by decide, if_false, if_true]
  split
  · rename_i h2; rw [h] at h2; cases h2
  · rename_i x h2; rw [h] at h2; cases h2
    simp only [hd, if_true]
    split
    · simp_all
    · rfl

theorem preText_ref {r raw rest : Str} {v : Val} (h : closing '}' r = some (raw, rest)) (hd : raw.head? ≠ some '{')
    (hv : Dict.get? env (unescape '}' raw) = some v) :
    preText env ('{' :: r) = before v.pyStr (preText env rest) := by
  rw [preText.eq_def]
  simp only [show ¬ ('{' = '\\') by decide, show ¬ ('{' = '`') by decide, if_false, if_true]
  split
  · rename_i h2; rw [h] at h2; cases h2
  · rename_i x h2; rw [h] at h2; cases h2
    simp only [hd, if_false, hv]

theorem preText_undefined {r raw rest : Str} (h : closing '}' r = some (raw, rest)) (hd : raw.head? ≠ some '{')
    (hv : Dict.get? env (unescape '}' raw) = none) :
    preText env ('{' :: r) = .error (.parser (.undefinedVariable (unescape '}' raw)) none) := by
  rw [preText.eq_def]
  simp only [show ¬ ('{' = '\\') by decide, show ¬ ('{' = '`') by decide, if_false, if_true]
  split
  · rename_i h2; rw [h] at h2; cases h2
  · rename_i x h2; rw [h] at h2; cases h2
    simp only [hd, if_false, hv]

theorem preText_plains {v : Str} (h : ∀ c ∈ v, ¬ preSpecial c) (r : Str) :
    preText env (v ++ r) = before v (preText env r) := by
  induction v with
  | nil => simp [before_nil]
  | cons c v ih =>
    rw [List.cons_append, preText_plain (h c (by simp)), ih (fun c hc => h c (by simp [hc])), before_before]
    rfl
end

theorem mem_preLiterals {c : Char} : c ∈ preLiterals ↔ preSpecial c := by
  simp [preLiterals, preSpecial]

abbrev PreToks := Toks preLiterals (fun _ => .TEXT)

theorem preKind : GoodKind (fun _ => .TEXT) := by intro v; simp

/-- The outcome of one round of the preprocessor. -/
def StepOk (env : Env) (tm : TM) (s : Str) (ts : List Token) (e : Token) : Prop :=
  ∀ next, (∃ node tm' s' ts', tryFns next (preFns env) tm = .ok (node, tm') ∧ At tm' ts' e ∧ PreToks s' ts' ∧ ts' <:+ ts ∧
    preText env s = before node.value (preText env s')) ∨
  (∃ err, tryFns next (preFns env) tm = .error err ∧ preText env s = .error err.bare)

/-- The text of an escaped token. -/
def escVal (v : Str) : Str :=
  if v = [] ∨ v = ['{'] ∨ v = ['}'] ∨ v = ['{', '}'] then v else '\\' :: v

section steps
variable {env : Env} {tm : TM} {s : Str} {t e : Token} {ts : List Token}

theorem prePass_step (h : At tm (t :: ts) e) (hts : PreToks s ts) {c : Str} (hv : t.value = c)
    (h1 : preEscapedChar tm = .error .token) (h2 : preVerbatim tm = .error .token)
    (h3 : preCurly env tm = .error .token) {s0 : Str} (hp : preText env s0 = before c (preText env s)) :
    StepOk env tm s0 ts e := by
  intro next
  left
  refine ⟨⟨t.value, t.ctx⟩, { tm with next := tm.next + 1 }, s, ts, ?_, h.nextAt, hts, List.suffix_refl _, ?_⟩
  · simp only [preFns, tryFns, h1, h2, h3, prePass, h.get_cons (check_any t), Bind.bind, Except.bind, pure, Except.pure]
  · rw [hp, hv]

theorem preEscaped_no (h : At tm (t :: ts) e) (hn : ¬ (t.type = .LITERAL ∧ t.value = ['\\'])) :
    preEscapedChar tm = .error .token := by
  have := h.get_mismatch (ty := some .LITERAL) (v := some ['\\']) (f := none) (by rw [check_value, if_neg hn])
  simp [preEscapedChar, this, Bind.bind, Except.bind]

theorem preVerbatim_no (h : At tm (t :: ts) e) (hn : ¬ (t.type = .LITERAL ∧ t.value = ['`'])) :
    preVerbatim tm = .error .token := by
  have := h.get_mismatch (ty := some .LITERAL) (v := some ['`']) (f := none) (by rw [check_value, if_neg hn])
  simp [preVerbatim, this, Bind.bind, Except.bind]

theorem preCurly_no (h : At tm (t :: ts) e) (hn : ¬ (t.type = .LITERAL ∧ t.value = ['{'])) :
    preCurly env tm = .error .token := by
  have := h.get_mismatch (ty := some .LITERAL) (v := some ['{']) (f := none) (by rw [check_value, if_neg hn])
  simp [preCurly, this, Bind.bind, Except.bind]

theorem unesc_head {raw : Str} : (startsWith (unescape '}' raw) ['{'] = true) ↔ raw.head? = some '{' := by
  unfold startsWith unescape
  cases raw with
  | nil => simp [unesc]
  | cons c r =>
    by_cases hc : c = '\\'
    · subst hc
      cases r with
      | nil => simp [unesc, escChar]
      | cons d r =>
        by_cases hd : d = '}'
        · subst hd; simp [unesc, escChar, List.isPrefixOf]
        · simp [unesc, escChar, hd, List.isPrefixOf]
    · rw [unesc_plain (by simpa [escChar] using hc)]
      simp only [List.isPrefixOf, Bool.and_true, beq_iff_eq, List.head?_cons, Option.some.injEq]
      exact eq_comm

theorem At.eof_mismatch (h : At tm [] e) (v : Str) : tm.get (some .LITERAL) (some v) = .error .token :=
  h.get_nil_mismatch (by rw [check_value, if_neg]; rintro ⟨h1, _⟩; rw [h.eof.1] at h1; cases h1)

theorem pre_step (h : At tm (t :: ts) e) (hts : PreToks s (t :: ts)) : StepOk env tm s ts e := by
  intro next
  cases hts with
  | run v t r ts hv hne hc ht hr =>
    have hl : t.type ≠ .LITERAL := by rw [ht]; simp
    exact prePass_step h hr hv (preEscaped_no h fun x => hl x.1) (preVerbatim_no h fun x => hl x.1)
      (preCurly_no h fun x => hl x.1) (preText_plains (fun c hcv hs => hc c hcv (mem_preLiterals.2 hs)) r) next
  | lit c t r ts hc ht hv hr =>
    rcases mem_preLiterals.1 hc with rfl | rfl | rfl | rfl
    · -- backslash
      have g1 : tm.get (some .LITERAL) (some ['\\']) = .ok (t, { tm with next := tm.next + 1 }) :=
        h.get_cons (by rw [check_value, if_pos ⟨ht, hv⟩])
      left
      cases hr with
      | nil =>
        obtain ⟨tm', g2, _, g3⟩ := h.nextAt.get_nil
        refine ⟨⟨escVal e.value, t.ctx.merge e.ctx⟩, tm', [], [], ?_, g3, .nil, by simp, ?_⟩
        · simp only [preFns, tryFns, preEscapedChar, g1, g2, Bind.bind, Except.bind, pure, Except.pure]
          rfl
        · simp [escVal, h.eof.2, preText_dangling, preText_nil, before_nil]
      | lit d u r ts hd hu huv hr =>
        have g2 := h.nextAt.get_cons (check_any u)
        refine ⟨⟨escVal u.value, t.ctx.merge u.ctx⟩, _, r, ts, ?_, h.nextAt.nextAt, hr, by simp, ?_⟩
        · simp only [preFns, tryFns, preEscapedChar, g1, g2, Bind.bind, Except.bind, pure, Except.pure]
          rfl
        · rw [preText_esc]
          by_cases hd2 : d = '{' ∨ d = '}'
          · rcases hd2 with rfl | rfl <;> simp [huv, escVal]
          · simp only [not_or] at hd2
            simp [huv, hd2, escVal]
      | run v u r ts huv hne hcv hu hr =>
        have g2 := h.nextAt.get_cons (check_any u)
        refine ⟨⟨escVal u.value, t.ctx.merge u.ctx⟩, _, r, ts, ?_, h.nextAt.nextAt, hr, by simp, ?_⟩
        · simp only [preFns, tryFns, preEscapedChar, g1, g2, Bind.bind, Except.bind, pure, Except.pure]
          rfl
        · cases v with
          | nil => exact absurd rfl hne
          | cons d v =>
            have hd := fun hs => hcv d (by simp) (mem_preLiterals.2 hs)
            have hd' : ¬ (d = '{' ∨ d = '}') := by
              rintro (rfl | rfl) <;> exact hd (by simp [preSpecial])
            rw [List.cons_append, preText_esc, if_neg hd',
              preText_plains (fun c hcv2 hs => hcv c (by simp [hcv2]) (mem_preLiterals.2 hs)), before_before]
            simp only [not_or] at hd'
            simp [huv, hd', escVal]
    · -- backtick
      have e1 := preEscaped_no h (by rw [hv]; simp)
      have e3 : preCurly env tm = .error .token := preCurly_no h (by rw [hv]; simp)
      have g1 : tm.get (some .LITERAL) (some ['`']) = .ok (t, { tm with next := tm.next + 1 }) :=
        h.get_cons (by rw [check_value, if_pos ⟨ht, hv⟩])
      obtain ⟨cx, tm2, g2, _, g3⟩ := h.nextAt.collectJoin [Token.generate .LITERAL ['`']] true
      change At tm2 (upto (stopTok (litToks ['`'])) escTok ts).2 e at g3
      rcases toks_closing preKind (by decide) (stop := '`') (by decide) (by decide) hr with ⟨x, hx, u, us, h1, h2, h3, h4, h5, h6⟩ | ⟨h1, h2⟩
      · left
        rw [h1] at g3
        have : toksText (unesc (stopTok [Token.generate .LITERAL ['`']]) escTok true
            (upto (stopTok [Token.generate .LITERAL ['`']]) escTok ts).1) = x.1 := by
          have hh := h6 true
          have hun : ∀ l : Str, unesc (· == '`') escChar true l = l := by
            intro l
            induction l using upto_induct (stop := fun _ => false) (esc := escChar) with
            | nil => rfl
            | stopc t ts h => cases h
            | dangling t h1 h2 => simp [unesc, h2]
            | esced t u us h1 h2 ih => simp [unesc, h2, ih]
            | plain t ts h1 h2 ih => rw [unesc_plain h2, ih]
          rw [hun] at hh
          exact hh
        rw [this] at g2
        have g4 : tm2.get (some .LITERAL) (some ['`']) = .ok (u, { tm2 with next := tm2.next + 1 }) :=
          g3.get_cons (by rw [check_value, if_pos ⟨h2, h3⟩])
        refine ⟨⟨['`'] ++ x.1 ++ ['`'], t.ctx.merge u.ctx⟩, _, x.2, us, ?_, g3.nextAt, h4, closing_tok_suffix h1, ?_⟩
        · simp only [preFns, tryFns, e1, preVerbatim, g1, g2, g4, Bind.bind, Except.bind, pure, Except.pure]
        · rw [preText_tick (raw := x.1) (rest := x.2) hx]
          rfl
      · rw [h2] at g3
        have g4 := g3.eof_mismatch ['`']
        have e2 : preVerbatim tm = .error .token := by
          simp only [preVerbatim, g1, g2, g4, Bind.bind, Except.bind]
        exact prePass_step h hr hv e1 e2 e3 (preText_tick_open h1) next
    · -- opening brace
      have e1 := preEscaped_no h (by rw [hv]; simp)
      have e2 := preVerbatim_no h (by rw [hv]; simp)
      have g1 : tm.get (some .LITERAL) (some ['{']) = .ok (t, { tm with next := tm.next + 1 }) :=
        h.get_cons (by rw [check_value, if_pos ⟨ht, hv⟩])
      obtain ⟨cx, tm2, g2, _, g3⟩ := h.nextAt.collectJoin [Token.generate .LITERAL ['}']] false
      change At tm2 (upto (stopTok (litToks ['}'])) escTok ts).2 e at g3
      rcases toks_closing preKind (by decide) (stop := '}') (by decide) (by decide) hr with ⟨x, hx, u, us, h1, h2, h3, h4, h5, h6⟩ | ⟨h1, h2⟩
      · rw [h1] at g3
        have g4 : tm2.get (some .LITERAL) (some ['}']) = .ok (u, { tm2 with next := tm2.next + 1 }) :=
          g3.get_cons (by rw [check_value, if_pos ⟨h2, h3⟩])
        have hname : toksText (unesc (stopTok [Token.generate .LITERAL ['}']]) escTok false
              (upto (stopTok [Token.generate .LITERAL ['}']]) escTok ts).1) = unescape '}' x.1 := h6 false
        rw [hname] at g2
        by_cases hd : x.1.head? = some '{'
        · have hsw := unesc_head.2 hd
          rcases hx2 : x.2 with _ | ⟨d, rest⟩
          · right
            refine ⟨.parser _ (some cx), ?_, preText_incomplete (raw := x.1) (rest := x.2) hx hd (by rw [hx2]; simp)⟩
            rw [hx2] at h4
            have := h4.nil_inv
            subst this
            have g5 : TM.peekIs { tm2 with next := tm2.next + 1 } .LITERAL (some ['}']) = .ok false := by
              simp only [TM.peekIs, g3.nextAt.peek_nil, check_value, if_neg (show ¬ (e.type = .LITERAL ∧ e.value = ['}']) by
                rw [g3.eof.1]; simp)]
            simp only [preFns, tryFns, e1, e2, preCurly, g1, g2, g4, g5, hsw, Bind.bind, Except.bind, pure, Except.pure,
              if_true, Bool.not_false]
            rfl
          · rw [hx2] at h4
            by_cases hdd : d = '}'
            · subst hdd
              left
              obtain ⟨w, ws, rfl, hw1, hw2, hw3⟩ : ∃ w ws, us = w :: ws ∧ w.type = .LITERAL ∧ w.value = ['}'] ∧ PreToks rest ws := by
                generalize hq : '}' :: rest = q at h4
                cases h4 with
                | nil => cases hq
                | lit d w r ws hd ht hv h => cases hq; exact ⟨w, ws, rfl, ht, hv, h⟩
                | run v w r ws hv hne hcv ht h =>
                  cases v with
                  | nil => exact absurd rfl hne
                  | cons d v =>
                    simp at hq
                    exact absurd (show '}' ∈ preLiterals by decide) (hcv '}' (by rw [hq.1]; simp))
              have g5 : TM.peekIs { tm2 with next := tm2.next + 1 } .LITERAL (some ['}']) = .ok true := by
                simp only [TM.peekIs, g3.nextAt.peek_cons, check_value, if_pos (And.intro hw1 hw2)]
              have g6 := g3.nextAt.get_cons (ty := some .LITERAL) (v := some ['}']) (f := none)
                (by rw [check_value, if_pos ⟨hw1, hw2⟩])
              refine ⟨⟨unescape '}' x.1 ++ ['}'], t.ctx.merge w.ctx⟩, _, rest, ws, ?_, g3.nextAt.nextAt, hw3, ?_, ?_⟩
              · simp only [preFns, tryFns, e1, e2, preCurly, g1, g2, g4, g5, g6, hsw, Bind.bind, Except.bind, pure,
                  Except.pure, if_true, Bool.not_true, Bool.false_eq_true, if_false]
              · have := closing_tok_suffix h1
                exact List.IsSuffix.trans (by simp) this
              · exact preText_double (raw := x.1) (rest := rest) (by rw [hx, ← hx2]) hd
            · right
              refine ⟨.parser _ (some cx), ?_, preText_incomplete (raw := x.1) (rest := x.2) hx hd (by rw [hx2]; simpa using hdd)⟩
              have g5 : TM.peekIs { tm2 with next := tm2.next + 1 } .LITERAL (some ['}']) = .ok false := by
                generalize hq : d :: rest = q at h4
                cases h4 with
                | nil => cases hq
                | lit d' w r ws hd ht hv h =>
                  cases hq
                  simp only [TM.peekIs, g3.nextAt.peek_cons, check_value]
                  rw [if_neg (by rw [hv]; simpa using fun _ => hdd)]
                | run v w r ws hv hne hcv ht h =>
                  simp only [TM.peekIs, g3.nextAt.peek_cons, check_value]
                  rw [if_neg (by rw [ht]; simp)]
              simp only [preFns, tryFns, e1, e2, preCurly, g1, g2, g4, g5, hsw, Bind.bind, Except.bind, pure, Except.pure,
                if_true, Bool.not_false]
              rfl
        · have hsw : startsWith (unescape '}' x.1) ['{'] = false := by
            rw [Bool.eq_false_iff]; intro hh; exact hd (unesc_head.1 hh)
          cases hget : Dict.get? env (unescape '}' x.1) with
          | none =>
            right
            refine ⟨.parser _ (some (t.ctx.merge u.ctx)), ?_, preText_undefined (raw := x.1) (rest := x.2) hx hd hget⟩
            simp only [preFns, tryFns, e1, e2, preCurly, g1, g2, g4, hsw, Env.getitem, hget, Bind.bind, Except.bind, pure,
              Except.pure, Bool.false_eq_true, if_false]
            rfl
          | some v =>
            left
            refine ⟨⟨v.pyStr, t.ctx.merge u.ctx⟩, _, x.2, us, ?_, g3.nextAt, h4, closing_tok_suffix h1, ?_⟩
            · simp only [preFns, tryFns, e1, e2, preCurly, g1, g2, g4, hsw, Env.getitem, hget, Bind.bind, Except.bind, pure,
                Except.pure, Bool.false_eq_true, if_false]
            · exact preText_ref (raw := x.1) (rest := x.2) hx hd hget
      · rw [h2] at g3
        have g4 := g3.eof_mismatch ['}']
        have e3 : preCurly env tm = .error .token := by
          simp only [preCurly, g1, g2, g4, Bind.bind, Except.bind]
        exact prePass_step h hr hv e1 e2 e3 (preText_brace_open h1) next
    · -- closing brace
      exact prePass_step h hr hv (preEscaped_no h (by rw [hv]; simp)) (preVerbatim_no h (by rw [hv]; simp))
        (preCurly_no h (by rw [hv]; simp)) (preText_close r) next

end steps

/-- The values of the nodes, joined. -/
def nodesText (ns : List CtxText) : Str := (ns.map (·.value)).flatten

theorem preLoop_spec (env : Env) (n : Nat) : ∀ (s : Str) (ts : List Token) (e : Token) (tm : TM) (last : Token)
    (acc : List CtxText), ts.length < n → At tm ts e → PreToks s ts → ts.Nodup → last ∉ ts →
    unplaced ((parseLoop (fun _ => preFns env) n last tm acc).map nodesText) = before (nodesText acc) (preText env s) := by
  induction n with
  | zero => intro s ts e tm last acc h; omega
  | succ n ih =>
    intro s ts e tm last acc hn hat hts hnd hl
    cases ts with
    | nil =>
      cases hts with
      | nil =>
        have hp : tm.peekIs .EOF = .ok true := by
          simp [TM.peekIs, hat.peek_nil, check_type, hat.eof.1]
        simp [parseLoop, hp, Bind.bind, Except.bind, pure, Except.pure, Except.map, preText_nil, before]
    | cons t ts =>
      have hne := hts.noEof preKind t (by simp)
      have hp : tm.peekIs .EOF = .ok false := by
        simp [TM.peekIs, hat.peek_cons, check_type, hne]
      have hpk : tm.peek = .ok t := by rw [hat.peek_cons, check_any]
      have hl' : ¬ t = last := by rintro rfl; exact hl (by simp)
      rw [List.nodup_cons] at hnd
      simp only [parseLoop, hp, hpk, Bind.bind, Except.bind, hl', if_false, Bool.false_eq_true, pure, Except.pure]
      rcases pre_step (env := env) hat hts t with ⟨node, tm', s', ts', h1, h2, h3, h4, h5⟩ | ⟨err, h1, h2⟩
      · rw [h1]
        have hsub : ts'.Sublist ts := h4.sublist
        have := ih s' ts' e tm' t (acc ++ [node]) (by have := h4.length_le; simp at hn; omega) h2 h3
          (hnd.2.sublist hsub) (fun hm => hnd.1 (hsub.subset hm))
        rw [h5, before_before]
        simpa [nodesText] using this
      · rw [h1, h2]
        rfl

theorem fromTokenList_value (ts : List Token) : (Token.fromTokenList ts).value = toksText ts := by
  cases ts with
  | nil => rfl
  | cons a as =>
    obtain ⟨z, hz⟩ : ∃ z, (a :: as).getLast? = some z := by
      cases hl : (a :: as).getLast? with
      | none => simp at hl
      | some z => exact ⟨z, rfl⟩
    simp only [Token.fromTokenList, List.head?_cons, hz, joinWith_nil]
    rfl

/-- The text of which the preprocessor takes notice: spaces at the end of a non-blank text are
left out if they follow a special character. -/
def preTrim (text : Str) : Str := if isBlank text then text else piecesText (cutLine preCut text.length text)

theorem preprocess_eq (env : Env) (text : Str) (h : '\n' ∉ text) (sl sc : Nat) (src : Option Str) :
    unplaced ((preprocess env text sl sc src).map (·.value)) = preText env (preTrim text) := by
  have key : ∀ ns, ((processedText ns).value) = nodesText ns := by
    intro ns
    rw [processedText, fromTokenList_value]
    simp [toksText, nodesText, List.map_map, Function.comp_def]
  unfold preprocess preprocessNodes
  rw [lexPre_eq]
  simp only [Bind.bind, Except.bind, pure, Except.pure]
  by_cases hb : text ≠ [] ∧ isBlank text = true
  · -- a blank text
    have hl : Spec.lines text = [text] := by simp [Spec.lines, hb.1, splitChar_of_not_mem h]
    have hi : inlineTokens preCut src sl sc (Spec.lines text) = [tokAt .EOL text sl sc src] ++ [tokAt .EOF [] (sl + 1) 0 src] := by
      rw [hl]; simp [inlineTokens, hb.2, hb.1]
    rw [hi]
    have hat : At { tokens := [tokAt .EOL text sl sc src] ++ [tokAt .EOF [] (sl + 1) 0 src] } [tokAt .EOL text sl sc src]
      (tokAt .EOF [] (sl + 1) 0 src) := At.start _ _ ⟨rfl, rfl⟩
    have e1 := preEscaped_no hat (by simp [tokAt])
    have e2 := preVerbatim_no hat (by simp [tokAt])
    have e3 : preCurly env _ = .error .token := preCurly_no hat (by simp [tokAt])
    have e4 := hat.get_cons (check_any _)
    have p1 : TM.peekIs { tokens := [tokAt .EOL text sl sc src] ++ [tokAt .EOF [] (sl + 1) 0 src] } .EOF = .ok false := by
      simp only [TM.peekIs, hat.peek_cons, check_type]; rfl
    have p2 : TM.peek { tokens := [tokAt .EOL text sl sc src] ++ [tokAt .EOF [] (sl + 1) 0 src] } = .ok (tokAt .EOL text sl sc src) := by
      rw [hat.peek_cons, check_any]
    have p3 := hat.nextAt
    have p4 : ∀ tm, At tm [] (tokAt .EOF [] (sl + 1) 0 src) → tm.peekIs .EOF = .ok true := by
      intro tm ht; simp [TM.peekIs, ht.peek_nil, check_type, tokAt]
    simp only [List.length_append, List.length_cons, List.length_nil, parseLoop, p1, p2, preFns, tryFns, e1, e2, e3,
      prePass, e4, Bind.bind, Except.bind, pure, Except.pure, Bool.false_eq_true, if_false, p4 _ p3, if_true]
    have hne : ¬ tokAt .EOL text sl sc src = initialLast := by
      intro hh; have := congrArg Token.type hh; cases this
    simp only [hne, if_false]
    have : preText env text = .ok text := by
      have := preText_plains (env := env) (v := text) (by
        intro c hc
        have := isBlank_iff.1 hb.2 c hc
        subst this; simp [preSpecial]) []
      rw [List.append_nil, preText_nil] at this
      rw [this]; simp [before, Except.map]
    simp only [preTrim, hb.2, if_true, this, Except.map, List.nil_append]
    rw [key]; simp [nodesText, tokAt]
  · have hb' : text = [] ∨ isBlank text = false := by
      by_cases he : text = []
      · exact .inl he
      · right; rw [Bool.eq_false_iff]; intro hh; exact hb ⟨he, hh⟩
    obtain ⟨ts, e, s, sp, h1, h2, h3, h4, h5, h6, h7, h8⟩ := inline_single preCuts pre_classifies text h hb' sl sc src
    rw [h1]
    have hnd := h8.nodup
    have := preLoop_spec env ((ts ++ [e]).length + 2) s ts e { tokens := ts ++ [e] } initialLast []
      (by simp; omega) (At.start ts e ⟨h2, h3⟩) h4 (by rw [List.nodup_append] at hnd; exact hnd.1)
      (fun hm => h4.noEof preKind _ hm rfl)
    have hs : s = preTrim text := by
      rcases hb' with rfl | hb'
      · rw [h5]; rfl
      · rw [h5]; simp [preTrim, hb']
    rw [← hs]
    have hbn : before (nodesText []) (preText env s) = preText env s := before_nil _
    rw [hbn] at this
    rw [← this]
    cases parseLoop (fun _ => preFns env) ((ts ++ [e]).length + 2) initialLast { tokens := ts ++ [e] } [] with
    | error e => rfl
    | ok ns => simp [Except.map, key]

end Mau
