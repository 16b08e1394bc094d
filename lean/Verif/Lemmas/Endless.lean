import Verif.Lemmas.Macros
import Verif.Lemmas.NoToken

set_option linter.unusedSimpArgs false

/-!
# Texts whose parsing does not end
-/

namespace Mau
open Spec

/-- A text that starts with a macro whose function needs more recursion than there is. -/
theorem parseStr_macro {env : Env} {n : Nat} {r name args rest : Str} (hn : '\n' ∉ r) (hl : ('[' :: r).getLast? ≠ some ' ')
    (hm : macroAt r = some (name, args, rest))
    (hbody : ∀ nameTok argsTok cx st, nameTok.value = name → argsTok.value = args →
      (PM.lift (processArguments env argsTok) >>= fun p => macroDispatch env (parseStr env n) nameTok p cx) st = .err .fuel) (c : Context) (s : TextSt) :
    parseStr env (n + 5) ('[' :: r) c s = .err .fuel := by
  obtain ⟨ts, e, h1, h2, h3, h4, h5⟩ := text_single ('[' :: r) (by simp [hn]) (.inr (isBlank_last (by simp) hl)) c.startLine c.startColumn c.source
  rw [trimEnd_last hl] at h4
  obtain ⟨t, ts', rfl, hh⟩ := h4.head
  have ht : t.type = .LITERAL ∧ t.value = ['['] ∧ TextToks r ts' := by
    rcases hh with ⟨_, a, b, d⟩ | ⟨h, _⟩ | ⟨h, _⟩
    · exact ⟨a, b, d⟩
    · exact absurd h (by decide)
    · exact absurd (by decide) h
  obtain ⟨ht1, ht2, ht3⟩ := ht
  generalize hst : ({ uid := s.uid } : TextSt) = st
  have hp : Pos (t :: ts' ++ [e]) st (t :: ts') e := by rw [← hst]; exact At.start (t :: ts') e ⟨h2, h3⟩
  obtain ⟨k1, _⟩ := macroHead_spec env (r := r) hp ⟨ht1, ht2⟩ ht3 ((List.sublist_cons_self _ _).trans (List.sublist_append_left _ _))
  obtain ⟨nameTok, argsTok, k, cx, ts2, b1, b2, b3, _⟩ := k1 _ _ _ hm
  have hmac : parseMacro env (t :: ts' ++ [e]) (n + 1) st = .err .fuel := by
    simp only [parseMacro]
    have hb := hbody nameTok argsTok cx { st with next := k } b1 b2
    cases hl : PM.lift (processArguments env argsTok) { st with next := k } with
    | err x =>
      rw [pm_bind_err hl] at hb b3
      cases hb
      rw [pm_bind_err b3]
    | fail s' => rw [pm_bind_fail hl] at hb; cases hb
    | ok a s' =>
      rw [pm_bind_ok hl] at hb b3
      rw [pm_bind_ok b3]
      exact hb
  have hpk : TM.peek ⟨t :: ts' ++ [e], st.next⟩ = .ok t := by rw [At.peek_cons hp]; exact check_any t
  have hstop : sentenceStop none t = false := by simp [sentenceStop, ht1]
  have hitem : parseItem env (t :: ts' ++ [e]) (n + 2) none st = .err .fuel := by
    simp only [parseItem]
    change PM.bind _ _ st = _
    unfold PM.bind PM.peek
    simp only [hpk, hstop, Bool.false_eq_true, if_false]
    unfold PM.orElse
    rw [backslash_fail hp (by rw [ht2]; simp)]
    dsimp only
    have : ({ st with next := st.next } : TextSt) = st := rfl
    rw [this, hmac]
  have hsent : sentenceLoop env (t :: ts' ++ [e]) (n + 3) none st = .err .fuel := by
    simp only [sentenceLoop]
    change PM.bind _ _ st = _
    unfold PM.bind
    rw [hitem]
  have hmain : textMain env (t :: ts' ++ [e]) (n + 4) initialLast st [] = .error .fuel := by
    unfold textMain
    rw [At.peekIs_cons' hp, ht1]
    have hne : t ≠ initialLast := by rintro rfl; simp [initialLast, Token.generate] at ht1
    simp only [reduceCtorEq, decide_false, hpk, if_neg hne, hsent]
  unfold parseStr
  rw [h1]
  dsimp only
  rw [hst, hmain]

/-- If a text leads to itself, parsing it does not end. -/
theorem endless {env : Env} {text : Str}
    (step : ∀ n, (∀ c s, parseStr env n text c s = .err .fuel) → ∀ c s, parseStr env (n + 5) text c s = .err .fuel) (n : Nat) (sl sc : Nat) (src : Option Str) (uid : Nat) :
    parseText n env text sl sc src uid = .error .fuel := by
  have down : ∀ n c s, parseStr env (n + 1) text c s = .err .fuel → parseStr env n text c s = .err .fuel := by
    intro n c s h
    rcases (text_mono env n).2.2.2.2.1 text c s with h1 | h1
    · exact h1
    · rw [h1, h]
  have all : ∀ n c s, parseStr env n text c s = .err .fuel := by
    intro n
    induction n with
    | zero => intro c s; rfl
    | succ n ih =>
      intro c s
      exact down _ _ _ (down _ _ _ (down _ _ _ (down _ _ _ (step n ih c s))))
  have h := all (n + 1) ⟨sl, sc, sl, sc, src⟩ { uid := uid }
  unfold parseText
  unfold parseStr at h
  dsimp only at h
  split at h
  · rename_i e he
    cases h
    rfl
  · split at h
    · rename_i e he
      cases h
      rfl
    · cases h

end Mau
