import Verif.Props.Lexing
import Verif.Props.Conditions
import Verif.Lemmas.CondLexing

set_option linter.unusedSimpArgs false

/-!
# The condition lexer (C04, C07, C11)

The lexer of conditions is the only inline lexer that can refuse a text.
-/

namespace Mau
open Spec

theorem condPieces_iff {l : Str} : (∃ ps, condPieces l = some ps) ↔ ∃ var neg value, ConditionText l var neg value := by
  unfold condPieces
  constructor
  · rintro ⟨ps, h⟩
    cases hm : matchCondition l with
    | none => rw [hm] at h; cases h
    | some x =>
      obtain ⟨a, b, c, d, e⟩ := x
      obtain ⟨neg, h, _⟩ := condition_of_match hm
      exact ⟨_, _, _, h⟩
  · rintro ⟨var, neg, value, h⟩
    obtain ⟨_, _, _, _, hm⟩ := matchCondition_text h
    exact ⟨_, by rw [hm]; rfl⟩

/-- C04: the condition lexer ends for every text. It gives tokens, with exactly one EOF token at the end, if every
line that is not blank is a condition; otherwise it reports the first line that is not, at its beginning. -/
theorem C04_condition (text : Str) (sl sc : Nat) (src : Option Str) :
    ((∀ l ∈ Spec.lines text, Spaces l ∨ ∃ var neg value, ConditionText l var neg value) ∧
      ∃ init e, lexCondition (TextBuffer.ofText text sl sc src) = .ok (init ++ [e]) ∧
        e.type = .EOF ∧ ∀ t ∈ init, t.type ≠ .EOF) ∨
    (∃ before l after, Spec.lines text = before ++ l :: after ∧
      (∀ b ∈ before, Spaces b ∨ ∃ var neg value, ConditionText b var neg value) ∧
      ¬ Spaces l ∧ (¬ ∃ var neg value, ConditionText l var neg value) ∧
      lexCondition (TextBuffer.ofText text sl sc src) =
        .error (.lexer .lexCannotProcess (sl + before.length) (if before = [] then sc else 0) src)) := by
  rw [lexCondition_eq]
  generalize Spec.lines text = ls
  have main : ∀ (ls : List Str) (ln col : Nat),
      ((∀ l ∈ ls, Spaces l ∨ ∃ var neg value, ConditionText l var neg value) ∧
        ∃ init e, condTokens src ln col ls = .ok (init ++ [e]) ∧ e.type = .EOF ∧ ∀ t ∈ init, t.type ≠ .EOF) ∨
      (∃ before l after, ls = before ++ l :: after ∧
        (∀ b ∈ before, Spaces b ∨ ∃ var neg value, ConditionText b var neg value) ∧
        ¬ Spaces l ∧ (¬ ∃ var neg value, ConditionText l var neg value) ∧
        condTokens src ln col ls = .error (.lexer .lexCannotProcess (ln + before.length) (if before = [] then col else 0) src)) := by
    intro ls
    induction ls with
    | nil => intro ln col; exact .inl ⟨fun _ h => (nomatch h), [], _, rfl, rfl, fun _ h => (nomatch h)⟩
    | cons l rest ih =>
      intro ln col
      have step : ∀ (as : List Token), (∀ t ∈ as, t.type ≠ .EOF) → (Spaces l ∨ ∃ var neg value, ConditionText l var neg value) →
          condTokens src ln col (l :: rest) = (condTokens src (ln + 1) 0 rest).map (as ++ ·) →
          ((∀ x ∈ l :: rest, Spaces x ∨ ∃ var neg value, ConditionText x var neg value) ∧
            ∃ init e, condTokens src ln col (l :: rest) = .ok (init ++ [e]) ∧ e.type = .EOF ∧ ∀ t ∈ init, t.type ≠ .EOF) ∨
          (∃ before x after, l :: rest = before ++ x :: after ∧
            (∀ b ∈ before, Spaces b ∨ ∃ var neg value, ConditionText b var neg value) ∧
            ¬ Spaces x ∧ (¬ ∃ var neg value, ConditionText x var neg value) ∧
            condTokens src ln col (l :: rest) =
              .error (.lexer .lexCannotProcess (ln + before.length) (if before = [] then col else 0) src)) := by
        intro as has hl heq
        rw [heq]
        rcases ih (ln + 1) 0 with ⟨h1, init, e, h2, h3, h4⟩ | ⟨before, x, after, h1, h2, h3, h4, h5⟩
        · refine .inl ⟨?_, as ++ init, e, by rw [h2]; simp [Except.map], h3, ?_⟩
          · intro y hy
            rcases List.mem_cons.1 hy with rfl | hy
            · exact hl
            · exact h1 y hy
          · intro t ht
            rcases List.mem_append.1 ht with h | h
            · exact has t h
            · exact h4 t h
        · refine .inr ⟨l :: before, x, after, by rw [h1]; rfl, ?_, h3, h4, ?_⟩
          · intro y hy
            rcases List.mem_cons.1 hy with rfl | hy
            · exact hl
            · exact h2 y hy
          · rw [h5]
            simp only [Except.map, List.length_cons, List.cons_ne_nil, if_false, ite_self]
            congr 2
            omega
      by_cases hb : isBlank l = true
      · have hs : Spaces l := isBlank_iff.1 hb
        by_cases hz : l = [] ∧ rest = []
        · refine .inl ⟨?_, [], tokAt .EOF [] ln col src, by simp only [condTokens, if_pos hb, if_pos hz]; rfl, rfl, fun _ h => (nomatch h)⟩
          intro y hy
          rw [hz.2] at hy
          rw [List.mem_singleton.1 hy]
          exact .inl hs
        · exact step [tokAt .EOL l ln col src] (by simp [tokAt]) (.inl hs) (by simp only [condTokens, if_pos hb, if_neg hz]; rfl)
      · have hs : ¬ Spaces l := fun h => hb (isBlank_iff.2 h)
        cases hp : condPieces l with
        | none =>
          refine .inr ⟨[], l, rest, rfl, fun _ h => (nomatch h), hs, ?_, by simp [condTokens, hb, hp]⟩
          intro hc
          obtain ⟨ps, h⟩ := condPieces_iff.2 hc
          rw [hp] at h
          cases h
        | some ps =>
          have hc := condPieces_iff.1 ⟨ps, hp⟩
          have hts : ∀ t ∈ place ln src col ps, t.type ≠ .EOF := by
            unfold condPieces at hp
            cases hm : matchCondition l with
            | none => rw [hm] at hp; cases hp
            | some x =>
              rw [hm] at hp
              simp only [Option.map_some, Option.some.injEq] at hp
              subst hp
              simp [place, tokAt]
          by_cases hr : rest = []
          · subst hr
            refine .inl ⟨?_, place ln src col ps, tokAt .EOF [] ln (col + l.length) src, by simp [condTokens, hb, hp], rfl, hts⟩
            intro y hy
            rw [List.mem_singleton.1 hy]
            exact .inr hc
          · exact step (place ln src col ps) hts (.inr hc) (by simp [condTokens, hb, hp, hr])
  exact main ls sl sc

/-- Both cases occur; the second line of the text is not a condition. -/
example : (lexCondition (TextBuffer.ofText c%"a == b\n \nc!=d" 3 5)).map (·.map fun t => (t.type, t.value)) =
      .ok [(.TEXT, c%"a"), (.TEXT, c%"=="), (.TEXT, c%"b"), (.EOL, c%" "), (.TEXT, c%"c"), (.TEXT, c%"!="), (.TEXT, c%"d"), (.EOF, [])] ∧
    lexCondition (TextBuffer.ofText c%"a == b\nc = d" 3 5) = .error (.lexer .lexCannotProcess 4 0 none) := by decide

/-- C07: the position of every token of a condition delimits exactly its value. -/
theorem C07_condition (text : Str) (sl sc : Nat) (src : Option Str) (ts : List Token)
    (h : lexCondition (TextBuffer.ofText text sl sc src) = .ok ts) :
    ∀ t ∈ ts, region (Spec.lines text) sl sc t.ctx = t.value := by
  rw [lexCondition_eq] at h
  generalize hall : Spec.lines text = all at h ⊢
  clear hall
  have main : ∀ (ls : List Str) (ln col : Nat) (pre : List Str) (ts : List Token), all = pre ++ ls → ln = sl + pre.length →
      col = (if pre = [] then sc else 0) → condTokens src ln col ls = .ok ts →
      ∀ t ∈ ts, region all sl sc t.ctx = t.value := by
    intro ls
    induction ls with
    | nil =>
      intro ln col pre ts _ _ _ h t ht
      simp [condTokens] at h
      subst h
      simp at ht; subst ht; exact region_zero
    | cons l rest ih =>
      intro ln col pre ts hall hln hcol h t ht
      have hrec := fun x => ih (ln + 1) 0 (pre ++ [l]) x (by simp [hall]) (by simp; omega) (by simp)
      simp only [condTokens] at h
      split at h
      · split at h
        · simp at h; subst h; simp at ht; subst ht; exact region_zero
        · obtain ⟨x, hx, rfl⟩ := map_ok h
          simp only [List.mem_cons] at ht
          rcases ht with rfl | ht
          · exact region_tokAt (a := []) (b := []) (post := rest) (by simpa using hall) hln (by simpa using hcol)
          · exact hrec x hx t ht
      · cases hp : condPieces l with
        | none => rw [hp] at h; cases h
        | some ps =>
          rw [hp] at h
          have e := condPieces_text hp
          have hpl : ∀ t ∈ place ln src col ps, region all sl sc t.ctx = t.value :=
            region_place hall hln ps [] [] col (by simp [e]) (by simpa using hcol)
          simp only at h
          split at h
          · simp only [Except.ok.injEq] at h
            subst h
            rcases List.mem_append.1 ht with ht | ht
            · exact hpl t ht
            · simp at ht; subst ht; exact region_zero
          · obtain ⟨x, hx, rfl⟩ := map_ok h
            rcases List.mem_append.1 ht with ht | ht
            · exact hpl t ht
            · exact hrec x hx t ht
  exact main all sl sc [] ts rfl rfl (by simp) h

/-- Each token of a condition at line 3, column 5. -/
example : (lexCondition (TextBuffer.ofText c%"a  == b" 3 5)).map (·.map fun t => (t.value, t.ctx)) =
    .ok [(c%"a", ⟨3, 5, 3, 6, none⟩), (c%"==", ⟨3, 8, 3, 10, none⟩), (c%"b", ⟨3, 11, 3, 12, none⟩), ([], ⟨3, 12, 3, 12, none⟩)] ∧
    region [c%"a  == b"] 3 5 ⟨3, 8, 3, 10, none⟩ = c%"==" := by decide

/-- C11 for the condition lexer. -/
theorem C11_condition (text : Str) (sl sc : Nat) (src : Option Str) :
    lexCondition (TextBuffer.ofText text sl sc src) =
      match lexCondition (TextBuffer.ofText text 0 0 src) with
      | .ok ts => .ok (ts.map fun t => { t with ctx := shiftCtx sl sc t.ctx })
      | .error (.lexer m l c p) => .error (.lexer m (l + sl) (c + if l = 0 then sc else 0) p)
      | .error e => .error e := by
  have := condTokens_shift src sl sc (Spec.lines text) 0 0
  simp only [Nat.zero_add, if_true] at this
  rw [lexCondition_eq, lexCondition_eq, this]
  cases condTokens src 0 0 (Spec.lines text) with
  | ok ts => rfl
  | error e => cases e <;> rfl

end Mau
