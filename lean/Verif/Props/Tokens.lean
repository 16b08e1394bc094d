import Verif.Model.TokensManager

/-! # C12, C13: the tokens manager -/

set_option linter.unusedSimpArgs false

namespace Mau

/-! ## C12 — attempts, peeking, getting -/

/-- C12: an attempt that fails with the token error leaves the position as it was and raises
nothing. -/
theorem C12_failed_attempt {α : Type} (f : TM → Except Err α × TM) (tm : TM)
    (h : (f tm).1 = .error .token) :
    (TM.attempt f tm).1 = .ok none ∧ (TM.attempt f tm).2.next = tm.next := by
  unfold TM.attempt
  cases hf : f tm with
  | mk r tm' => rw [hf] at h; simp at h; subst h; exact ⟨rfl, rfl⟩

/-- C12: any other error propagates, again with the position restored. -/
theorem C12_other_error {α : Type} (f : TM → Except Err α × TM) (tm : TM) (e : Err)
    (h : (f tm).1 = .error e) (he : e ≠ .token) :
    (TM.attempt f tm).1 = .error e ∧ (TM.attempt f tm).2.next = tm.next := by
  unfold TM.attempt
  cases hf : f tm with
  | mk r tm' =>
    rw [hf] at h; simp at h; subst h
    cases e <;> simp_all

/-- C12: a successful attempt keeps its result and its position. -/
theorem C12_successful_attempt {α : Type} (f : TM → Except Err α × TM) (tm : TM) (a : α)
    (h : (f tm).1 = .ok a) :
    (TM.attempt f tm).1 = .ok (some a) ∧ (TM.attempt f tm).2 = (f tm).2 := by
  unfold TM.attempt
  cases hf : f tm with
  | mk r tm' => rw [hf] at h; simp at h; subst h; exact ⟨rfl, rfl⟩

theorem checkToken_ok {t t' : Token} {ty v f} (h : TM.checkToken t ty v f = .ok t') : t' = t := by
  unfold TM.checkToken at h
  split at h
  · cases h
  · split at h
    · cases h
    · split at h
      · cases h
      · simpa using h.symm

/-- The token at the current position (the last one when the position is past the end). -/
def TM.here (tm : TM) (t : Token) : Prop :=
  tm.tokens[tm.next]? = some t ∨ (tm.tokens.length ≤ tm.next ∧ tm.tokens.getLast? = some t)

/-- C12: peeking shows the token at the current position, if it passes the checks. (Peeking is a
function of the manager and returns no new manager: it cannot move.) -/
theorem C12_peek (tm : TM) (ty : Option TokenType) (v : Option Str) (f : Option (Str → Bool)) (t : Token)
    (h : tm.peek ty v f = .ok t) : tm.here t ∧ (∀ x, ty = some x → t.type = x) ∧
      (∀ x, v = some x → t.value = x) ∧ (∀ p, f = some p → p t.value = true) := by
  have key : ∀ t0, TM.checkToken t0 ty v f = .ok t → t0 = t ∧ (∀ x, ty = some x → t.type = x) ∧
      (∀ x, v = some x → t.value = x) ∧ (∀ p, f = some p → p t.value = true) := by
    intro t0 h0
    have := checkToken_ok h0
    subst this
    unfold TM.checkToken at h0
    split at h0
    · cases h0
    · rename_i h1
      split at h0
      · cases h0
      · rename_i h2
        split at h0
        · cases h0
        · rename_i h3
          refine ⟨rfl, ?_, ?_, ?_⟩
          · rintro x rfl; simp at h1; exact h1.symm
          · rintro x rfl; simp at h2; exact h2.symm
          · rintro p rfl; simpa using h3
  unfold TM.peek at h
  split at h
  · rename_i t0 h0
    obtain ⟨rfl, r⟩ := key t0 h
    exact ⟨.inl h0, r⟩
  · rename_i h0
    split at h
    · cases h
    · rename_i t0 h1
      obtain ⟨rfl, r⟩ := key t0 h
      exact ⟨.inr ⟨by simpa using h0, h1⟩, r⟩

/-- C12: getting a token returns exactly what peeking would have returned (or fails as it would
have), and moves by one position (not beyond one past the end). -/
theorem C12_get (tm : TM) (ty : Option TokenType) (v : Option Str) (f : Option (Str → Bool)) :
    (∀ e, tm.peek ty v f = .error e → tm.get ty v f = .error e) ∧
    (∀ t, tm.peek ty v f = .ok t → ∃ tm', tm.get ty v f = .ok (t, tm') ∧ tm'.tokens = tm.tokens ∧
      tm'.next = min (tm.next + 1) (max tm.next (tm.tokens.length + 1))) := by
  constructor
  · intro e h; simp [TM.get, h]
  · intro t h
    have hh := (C12_peek tm ty v f t h).1
    refine ⟨tm.advance, ?_, ?_, ?_⟩
    · simp only [TM.get, h]
      have hc : tm.advance.currentToken = .ok t := by
        rcases hh with h1 | ⟨h1, h2⟩
        · have hlt : tm.next < tm.tokens.length := by
            rw [List.getElem?_eq_some_iff] at h1; exact h1.1
          unfold TM.currentToken TM.advance
          rw [if_pos (by omega)]
          cases hl : tm.tokens.getLast? with
          | none => simp at hl; simp [hl] at hlt
          | some l => simp [List.getD_eq_getElem?_getD, h1]
        · by_cases hlt : tm.next < tm.tokens.length + 1
          · rw [show tm.advance = { tm with next := tm.next + 1 } from if_pos hlt]
            simp [TM.currentToken, h2, List.getD_eq_getElem?_getD, List.getElem?_eq_none h1]
          · rw [show tm.advance = tm from if_neg hlt]
            simp only [TM.currentToken, h2]
            cases hn : tm.next with
            | zero => rfl
            | succ n =>
              have : tm.tokens.length ≤ n := by omega
              simp [List.getD_eq_getElem?_getD, List.getElem?_eq_none this]
      simp [hc]
    · unfold TM.advance; split <;> rfl
    · unfold TM.advance
      split
      · show tm.next + 1 = _; omega
      · omega

/-- A manager in the middle of its tokens, a failing and a succeeding attempt. -/
example :
    let tm : TM := ⟨[Token.generate .TEXT c%"a", Token.generate .LITERAL c%"*", Token.generate .EOF], 0⟩
    let two : TM → Except Err Token × TM := fun tm =>
      match tm.get (some .TEXT) with
      | .error e => (.error e, tm)
      | .ok (_, tm) =>
        match tm.get (some .TEXT) with
        | .error e => (.error e, tm)
        | .ok (t, tm) => (.ok t, tm)
    (two tm).1 = .error .token ∧ (two tm).2.next = 1 ∧ (TM.attempt two tm).2.next = 0 ∧
      tm.get (some .TEXT) = .ok (Token.generate .TEXT c%"a", { tm with next := 1 }) := by decide

/-! ## C13 — collecting -/

namespace Spec

/-- A backslash token. -/
def IsEscape (t : Token) : Prop := t.type = .LITERAL ∧ t.value = ['\\']

/-- `t` is a stop token: equal in type and value to one of `stops`, or EOF. -/
def IsStop (stops : List Token) (t : Token) : Prop :=
  (∃ s ∈ stops, s.type = t.type ∧ s.value = t.value) ∨ (t.type = .EOF ∧ t.value = [])

/-- Specification of collecting: the tokens read and the tokens kept.
* an ordinary token is kept;
* a backslash and an ordinary token after it are both kept;
* a backslash and a stop token after it: the stop token is kept; the backslash only if asked. -/
inductive Collected (stops : List Token) (preserve : Bool) : List Token → List Token → Prop where
  | done : Collected stops preserve [] []
  | plain {t ts out} (h1 : ¬ IsStop stops t) (h2 : ¬ IsEscape t) (h : Collected stops preserve ts out) :
      Collected stops preserve (t :: ts) (t :: out)
  | kept {b t ts out} (h1 : IsEscape b) (h2 : ¬ IsStop stops b) (h3 : ¬ IsStop stops t ∨ preserve = true)
      (h : Collected stops preserve ts out) : Collected stops preserve (b :: t :: ts) (b :: t :: out)
  | dropped {b t ts out} (h1 : IsEscape b) (h2 : ¬ IsStop stops b) (h3 : IsStop stops t)
      (h4 : preserve = false) (h : Collected stops preserve ts out) :
      Collected stops preserve (b :: t :: ts) (t :: out)

end Spec

open Spec

theorem eqv_iff {a b : Token} : a.eqv b = true ↔ a.type = b.type ∧ a.value = b.value := by
  simp [Token.eqv]

theorem isStop_iff {stops : List Token} {t : Token} :
    TM.isStop (stops ++ [Token.generate .EOF]) t = true ↔ IsStop stops t := by
  simp only [TM.isStop, List.any_append, List.any_cons, List.any_nil, Bool.or_false, Bool.or_eq_true,
    List.any_eq_true, eqv_iff, IsStop]
  constructor
  · rintro (h | h)
    · exact .inl h
    · exact .inr ⟨h.1.symm, h.2.symm⟩
  · rintro (h | h)
    · exact .inl h
    · exact .inr ⟨h.1.symm, h.2.symm⟩

theorem isEscape_iff {t : Token} : t.eqv TM.escapeToken = true ↔ IsEscape t := by
  rw [eqv_iff]; rfl

theorem peek_any {tm : TM} {t : Token} (h : tm.tokens[tm.next]? = some t) : tm.peek = .ok t := by
  simp [TM.peek, h, TM.checkToken]

theorem peek_end {tm : TM} {t : Token} (h : tm.tokens[tm.next]? = none) (hl : tm.tokens.getLast? = some t) :
    tm.peek = .ok t := by
  simp [TM.peek, h, hl, TM.checkToken]

theorem get_any {tm : TM} {t : Token} (h : tm.tokens[tm.next]? = some t) :
    tm.get = .ok (t, { tm with next := tm.next + 1 }) := by
  obtain ⟨tm', h1, h2, h3⟩ := (C12_get tm none none none).2 t (peek_any h)
  rw [h1]
  have hlt : tm.next < tm.tokens.length := by
    rw [List.getElem?_eq_some_iff] at h; exact h.1
  have : tm' = { tm with next := tm.next + 1 } := by
    cases tm'; simp at h2 h3 ⊢; exact ⟨h2, by omega⟩
  rw [this]

theorem drop_cons {α : Type} {l : List α} {n : Nat} {a : α} {r : List α} (h : l.drop n = a :: r) :
    l[n]? = some a ∧ l.drop (n + 1) = r := by
  have hlt : n < l.length := by
    rcases Nat.lt_or_ge n l.length with h' | h'
    · exact h'
    · rw [List.drop_eq_nil_of_le h'] at h; cases h
  rw [List.drop_eq_getElem_cons hlt] at h
  simp only [List.cons.injEq] at h
  exact ⟨by rw [List.getElem?_eq_getElem hlt, h.1], h.2⟩

/-- What the position holds after reading: a stop token, or (past the end) EOF as last token. -/
def StopsHere (stops : List Token) (tm : TM) : Prop :=
  ∃ t, tm.peek = .ok t ∧ IsStop stops t

theorem collectLoop_spec {stops : List Token} {preserve : Bool} {read out : List Token}
    (h : Collected stops preserve read out) :
    ∀ (n : Nat) (tm : TM) (acc : List Token), read.length < n →
      read <+: tm.tokens.drop tm.next →
      StopsHere stops { tm with next := tm.next + read.length } →
      TM.collectLoop (stops ++ [Token.generate .EOF]) preserve n tm acc =
        .ok (acc ++ out, { tm with next := tm.next + read.length }) := by
  induction h with
  | done =>
    intro n tm acc hn _ hs
    obtain ⟨n, rfl⟩ : ∃ k, n = k + 1 := ⟨n - 1, by simp at hn; omega⟩
    obtain ⟨t, ht, hst⟩ := hs
    have ht' : tm.peek = .ok t := by simpa using ht
    have := isStop_iff.2 hst
    simp only [TM.collectLoop, ht', Bind.bind, Except.bind, this, if_true]
    simp [pure, Except.pure]
  | plain h1 h2 h ih =>
    rename_i t ts out
    intro n tm acc hn hp hs
    obtain ⟨n, rfl⟩ : ∃ k, n = k + 1 := ⟨n - 1, by simp at hn; omega⟩
    obtain ⟨r, hr⟩ := hp
    have hd := drop_cons hr.symm
    have e1 : TM.isStop (stops ++ [Token.generate .EOF]) t = false := by
      rw [Bool.eq_false_iff, ne_eq, isStop_iff]; exact h1
    have e2 : t.eqv TM.escapeToken = false := by
      rw [Bool.eq_false_iff, ne_eq, isEscape_iff]; exact h2
    simp only [TM.collectLoop, peek_any hd.1, get_any hd.1, Bind.bind, Except.bind, e1, e2,
      Bool.false_eq_true, if_false]
    rw [ih n _ _ (by simp at hn; omega) (by simp [hd.2]) (by
      simpa [Nat.add_assoc, Nat.add_comm, Nat.add_left_comm] using hs)]
    simp [Nat.add_assoc, Nat.add_comm, Nat.add_left_comm]
  | kept h1 h2 h3 h ih =>
    rename_i b t ts out
    intro n tm acc hn hp hs
    obtain ⟨n, rfl⟩ : ∃ k, n = k + 1 := ⟨n - 1, by simp at hn; omega⟩
    obtain ⟨r, hr⟩ := hp
    have hd := drop_cons hr.symm
    have hd2 := drop_cons hd.2
    have hp2 : TM.peek { tm with next := tm.next + 1 } = .ok t := peek_any hd2.1
    have hg2 : TM.get { tm with next := tm.next + 1 } = .ok (t, { tm with next := tm.next + 1 + 1 }) :=
      get_any (tm := { tm with next := tm.next + 1 }) hd2.1
    have e1 : TM.isStop (stops ++ [Token.generate .EOF]) b = false := by
      rw [Bool.eq_false_iff, ne_eq, isStop_iff]; exact h2
    have e2 : b.eqv TM.escapeToken = true := isEscape_iff.2 h1
    have e3 : (!TM.isStop (stops ++ [Token.generate .EOF]) t || preserve) = true := by
      rcases h3 with h3 | h3
      · have : TM.isStop (stops ++ [Token.generate .EOF]) t = false := by
          rw [Bool.eq_false_iff, ne_eq, isStop_iff]; exact h3
        simp [this]
      · simp [h3]
    simp only [TM.collectLoop, peek_any hd.1, get_any hd.1, Bind.bind, Except.bind, e1, e2, hp2, hg2, e3,
      Bool.false_eq_true, if_false, if_true]
    rw [ih n _ _ (by simp at hn; omega) (by simp [hd2.2]) (by
      simpa [Nat.add_assoc, Nat.add_comm, Nat.add_left_comm] using hs)]
    simp [Nat.add_assoc, Nat.add_comm, Nat.add_left_comm]
  | dropped h1 h2 h3 h4 h ih =>
    rename_i b t ts out
    intro n tm acc hn hp hs
    obtain ⟨n, rfl⟩ : ∃ k, n = k + 1 := ⟨n - 1, by simp at hn; omega⟩
    obtain ⟨r, hr⟩ := hp
    have hd := drop_cons hr.symm
    have hd2 := drop_cons hd.2
    have hp2 : TM.peek { tm with next := tm.next + 1 } = .ok t := peek_any hd2.1
    have hg2 : TM.get { tm with next := tm.next + 1 } = .ok (t, { tm with next := tm.next + 1 + 1 }) :=
      get_any (tm := { tm with next := tm.next + 1 }) hd2.1
    have e1 : TM.isStop (stops ++ [Token.generate .EOF]) b = false := by
      rw [Bool.eq_false_iff, ne_eq, isStop_iff]; exact h2
    have e2 : b.eqv TM.escapeToken = true := isEscape_iff.2 h1
    have e3 : (!TM.isStop (stops ++ [Token.generate .EOF]) t || preserve) = false := by
      rw [isStop_iff.2 h3, h4]; rfl
    simp only [TM.collectLoop, peek_any hd.1, get_any hd.1, Bind.bind, Except.bind, e1, e2, hp2, hg2, e3,
      Bool.false_eq_true, if_false, if_true]
    rw [ih n _ _ (by simp at hn; omega) (by simp [hd2.2]) (by
      simpa [Nat.add_assoc, Nat.add_comm, Nat.add_left_comm] using hs)]
    simp [Nat.add_assoc, Nat.add_comm, Nat.add_left_comm]

/-- C13: collecting returns exactly the tokens before the first stop token that is not escaped,
with the backslashes treated as specified, and stands at that stop token. -/
theorem C13_collect (tm : TM) (stops : List Token) (preserve : Bool) (read out rest : List Token) (s : Token)
    (hrest : tm.tokens.drop tm.next = read ++ s :: rest)
    (hread : Collected stops preserve read out) (hstop : IsStop stops s) :
    tm.collect stops preserve = .ok (out, { tm with next := tm.next + read.length }) := by
  have hlen := congrArg List.length hrest
  simp at hlen
  have := collectLoop_spec hread (tm.tokens.length + 2) tm [] (by omega)
    ⟨s :: rest, hrest.symm⟩
    ⟨s, by
      apply peek_any
      have : tm.tokens.drop (tm.next + read.length) = s :: rest := by
        rw [← List.drop_drop, hrest]; simp
      exact (drop_cons this).1, hstop⟩
  simpa [TM.collect] using this

/-- C13: an unescaped stop token is always found: any tokens that end with EOF can be split this
way, except when a backslash stands directly before that EOF; then the EOF token is collected. -/
theorem C13_collect_total (stops : List Token) (preserve : Bool) (ts : List Token) (eof : Token)
    (heof : eof.type = .EOF ∧ eof.value = []) :
    (∃ read out s rest, ts ++ [eof] = read ++ s :: rest ∧ Collected stops preserve read out ∧
      IsStop stops s) ∨
    (∃ out b, ts.getLast? = some b ∧ IsEscape b ∧ Collected stops preserve (ts ++ [eof]) out) := by
  have main : ∀ (n : Nat) (ts : List Token), ts.length ≤ n →
      ((∃ read out s rest, ts ++ [eof] = read ++ s :: rest ∧ Collected stops preserve read out ∧
        IsStop stops s) ∨
      (∃ out b, ts.getLast? = some b ∧ IsEscape b ∧ Collected stops preserve (ts ++ [eof]) out)) := by
    intro n
    induction n with
    | zero =>
      intro ts h
      have : ts = [] := List.eq_nil_of_length_eq_zero (by omega)
      subst this
      exact .inl ⟨[], [], eof, [], rfl, .done, .inr heof⟩
    | succ n ih =>
      intro ts h
      cases ts with
      | nil => exact .inl ⟨[], [], eof, [], rfl, .done, .inr heof⟩
      | cons t ts =>
        simp at h
        rcases Classical.em (IsStop stops t) with hs | hs
        · exact .inl ⟨[], [], t, ts ++ [eof], rfl, .done, hs⟩
        rcases Classical.em (IsEscape t) with he | he
        · cases ts with
          | nil =>
            right
            cases preserve with
            | true => exact ⟨_, t, rfl, he, .kept he hs (.inr rfl) .done⟩
            | false => exact ⟨_, t, rfl, he, .dropped he hs (.inr heof) rfl .done⟩
          | cons u us =>
            simp at h
            have hu : ∀ ts' out, Collected stops preserve ts' out →
                ∃ out', Collected stops preserve (t :: u :: ts') out' := by
              intro ts' out hc
              rcases Classical.em (IsStop stops u) with hsu | hsu
              · cases preserve with
                | true => exact ⟨_, .kept he hs (.inr rfl) hc⟩
                | false => exact ⟨_, .dropped he hs hsu rfl hc⟩
              · exact ⟨_, .kept he hs (.inl hsu) hc⟩
            rcases ih us (by omega) with ⟨read, out, s, rest, h1, h2, h3⟩ | ⟨out, b, h1, h2, h3⟩
            · obtain ⟨out', ho⟩ := hu _ _ h2
              exact .inl ⟨t :: u :: read, out', s, rest, by simp [h1], ho, h3⟩
            · obtain ⟨out', ho⟩ := hu _ _ h3
              refine .inr ⟨out', b, ?_, h2, ho⟩
              cases us with
              | nil => simp at h1
              | cons x y => simpa using h1
        · rcases ih ts h with ⟨read, out, s, rest, h1, h2, h3⟩ | ⟨out, b, h1, h2, h3⟩
          · exact .inl ⟨t :: read, t :: out, s, rest, by simp [h1], .plain hs he h2, h3⟩
          · refine .inr ⟨t :: out, b, ?_, h2, .plain hs he h3⟩
            cases ts with
            | nil => simp at h1
            | cons x y => simpa using h1
  exact main _ ts (Nat.le_refl _)

/-- C13: in the exceptional case (a backslash before EOF) everything is collected. -/
theorem C13_collect_trailing (tm : TM) (stops : List Token) (preserve : Bool) (ts out : List Token)
    (eof : Token) (heof : eof.type = .EOF ∧ eof.value = [])
    (hrest : tm.tokens.drop tm.next = ts ++ [eof]) (hread : Collected stops preserve (ts ++ [eof]) out) :
    tm.collect stops preserve = .ok (out, { tm with next := tm.next + ts.length + 1 }) := by
  have hlen := congrArg List.length hrest
  simp at hlen
  have hne : tm.tokens.getLast? = some eof := by
    have h2 := congrArg List.getLast? hrest
    rw [List.getLast?_drop] at h2
    rw [if_neg (by omega)] at h2
    simpa using h2
  have := collectLoop_spec hread (tm.tokens.length + 2) tm [] (by simp; omega)
    ⟨[], by simpa using hrest.symm⟩
    ⟨eof, peek_end (by simp; omega) hne, .inr heof⟩
  simpa [TM.collect, Nat.add_assoc] using this

example :
    let t : Str → Token := fun s => Token.generate .TEXT s
    let l : Str → Token := fun s => Token.generate .LITERAL s
    let tm : TM := ⟨[t c%"a", l c%"\\", l c%")", l c%"\\", t c%"b", l c%")", t c%"z", Token.generate .EOF], 0⟩
    tm.collect [l c%")"] = .ok ([t c%"a", l c%")", l c%"\\", t c%"b"], { tm with next := 5 }) ∧
    tm.collect [l c%")"] true =
      .ok ([t c%"a", l c%"\\", l c%")", l c%"\\", t c%"b"], { tm with next := 5 }) := by decide

end Mau
