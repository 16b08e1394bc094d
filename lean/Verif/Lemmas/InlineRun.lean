import Verif.Lemmas.Text

/-!
# Composition of inline text
-/

set_option linter.unusedSimpArgs false

namespace Mau

open Spec

/-! ## The recursion budget does not matter -/

theorem closing_len {c : Char} {s raw rest : Str} (h : closing c s = some (raw, rest)) : rest.length < s.length :=
  Spec.closing_length h

theorem inlineRun_fuel (M : Macros) : ∀ (n : Nat) (m : Option Char) (s : Str), s.length < n →
    inlineRun M (n + 1) m s = inlineRun M n m s := by
  intro n
  induction n with
  | zero => intro m s h; omega
  | succ n ih =>
    intro m s hlt
    cases s with
    | nil => simp [inlineRun]
    | cons c r =>
      have hr : r.length < n := by simp at hlt; omega
      have e1 : ∀ m, inlineRun M (n + 1) m r = inlineRun M n m r := fun m => ih m r hr
      have e2 : ∀ r', r' <:+ r → inlineRun M (n + 1) m r' = inlineRun M n m r' := by
        intro r' hr'
        have := hr'.length_le
        exact ih m r' (by omega)
      rw [inlineRun.eq_def M (n + 1 + 1), inlineRun.eq_def M (n + 1)]
      simp only
      by_cases h1 : m = some c
      · simp [h1]
      · simp only [h1, if_false]
        by_cases h2 : c = '\\'
        · subst h2
          cases r with
          | nil => simp
          | cons d r' => simp [e2 r' (List.suffix_cons _ _)]
        · simp only [h2, if_false]
          by_cases h3 : c = '['
          · simp only [h3, if_true]
            cases hma : macroAt r with
            | none => simp [e1]
            | some x =>
              obtain ⟨name, args, r'⟩ := x
              simp only [e2 r' (macroAt_suffix hma)]
          · simp only [h3, if_false]
            by_cases h4 : c = '`'
            · simp only [h4, if_true]
              cases hc : closing '`' r with
              | none => simp [e1]
              | some x => simp only [e2 x.2 (closing_suffix (raw := x.1) hc)]
            · simp only [h4, if_false]
              by_cases h5 : c = '$' ∨ c = '%'
              · simp only [h5, if_true]
                cases hc : closing c r with
                | none => simp [e1]
                | some x => simp only [e2 x.2 (closing_suffix (raw := x.1) hc)]
              · simp only [h5, if_false]
                cases hst : styleOf c with
                | none => simp [e1]
                | some k =>
                  simp only [e1]
                  cases hin : inlineRun M n (some c) r with
                  | none => rfl
                  | some x =>
                    cases x with
                    | error er => rfl
                    | ok x =>
                      obtain ⟨content, rest⟩ := x
                      cases rest with
                      | nil => rfl
                      | cons d r' =>
                        have := (inlineRun_suffix M _ _ _ _ _ hin).1
                        simp only [e2 r' ((List.suffix_cons _ _).trans this)]

theorem inlineRun_enough (M : Macros) (m : Option Char) (s : Str) (n : Nat) (h : s.length < n) :
    inlineRun M n m s = inlineRun M (s.length + 1) m s := by
  obtain ⟨d, rfl⟩ : ∃ d, n = s.length + 1 + d := ⟨n - (s.length + 1), by omega⟩
  induction d with
  | zero => rfl
  | succ d ih => rw [← Nat.add_assoc, inlineRun_fuel M _ m s (by omega)]; exact ih (by omega)

/-- The nodes of a text up to a marker. -/
def run (M : Macros) (m : Option Char) (s : Str) : Option (Except Err (List Node × Str)) :=
  inlineRun M (s.length + 1) m s

theorem run_def (M : Macros) (m : Option Char) (s : Str) (n : Nat) (h : s.length < n) : inlineRun M n m s = run M m s :=
  inlineRun_enough M m s n h

theorem run_nil (M : Macros) (m : Option Char) : run M m [] = some (.ok ([], [])) := by simp [run, inlineRun]

theorem run_stop (M : Macros) {m : Option Char} {c : Char} (r : Str) (h : m = some c) :
    run M m (c :: r) = some (.ok ([], c :: r)) := by simp [run, inlineRun, h]

/-- The unfolded form of `run`. -/
theorem run_cons (M : Macros) {m : Option Char} {c : Char} (r : Str) (hm : m ≠ some c) : run M m (c :: r) =
    (if c = '\\' then
      match r with
      | [] => some (.ok ([node (.word [])], []))
      | d :: r' => prepend [node (.word [d])] (run M m r')
    else if c = '[' then
      match macroAt r with
      | none => prepend [node (.word [c])] (run M m r)
      | some (name, args, r') =>
        match M name args with
        | none => none
        | some (.error e) => some (.error e)
        | some (.ok []) => some (.ok ([], r'))
        | some (.ok (x :: xs)) => prepend (x :: xs) (run M m r')
    else if c = '`' then
      match closing '`' r with
      | none => prepend [node (.word [c])] (run M m r)
      | some (raw, r') => prepend [node (.verbatim (unescape '`' raw))] (run M m r')
    else if c = '$' ∨ c = '%' then
      match closing c r with
      | none => prepend [node (.word [c])] (run M m r)
      | some (raw, r') => prepend [node (.text (unescape c raw))] (run M m r')
    else
      match styleOf c with
      | none => prepend [node (.word [c])] (run M m r)
      | some k =>
        match run M (some c) r with
        | none => none
        | some (.error e) => some (.error e)
        | some (.ok (content, rest)) =>
          match rest with
          | [] => prepend [node (.word [c])] (run M m r)
          | d :: r' =>
            if d = c then prepend [node (.style k) (joinWords none content)] (run M m r')
            else prepend [node (.word [c])] (run M m r)) := by
  have e2 : ∀ r', r' <:+ r → inlineRun M (r.length + 1) m r' = run M m r' := by
    intro r' hr'
    have := hr'.length_le
    exact run_def M m r' _ (by omega)
  have e1 : ∀ m, inlineRun M (r.length + 1) m r = run M m r := fun m => rfl
  unfold run
  rw [List.length_cons, inlineRun.eq_def]
  simp only
  simp only [hm, if_false]
  by_cases h2 : c = '\\'
  · subst h2
    cases r with
    | nil => simp
    | cons d r' => simp only [if_true]; rw [e2 r' (List.suffix_cons _ _)]; rfl
  · simp only [h2, if_false]
    by_cases h3 : c = '['
    · simp only [h3, if_true]
      cases hma : macroAt r with
      | none => rfl
      | some x =>
        obtain ⟨name, args, r'⟩ := x
        simp only [e2 r' (macroAt_suffix hma)]
        rfl
    · simp only [h3, if_false]
      by_cases h4 : c = '`'
      · simp only [h4, if_true]
        cases hc : closing '`' r with
        | none => rfl
        | some x => simp only [e2 x.2 (closing_suffix (raw := x.1) hc)]; rfl
      · simp only [h4, if_false]
        by_cases h5 : c = '$' ∨ c = '%'
        · simp only [h5, if_true]
          cases hc : closing c r with
          | none => rfl
          | some x => simp only [e2 x.2 (closing_suffix (raw := x.1) hc)]; rfl
        · simp only [h5, if_false]
          cases hst : styleOf c with
          | none => rfl
          | some k =>
            simp only
            cases hin : inlineRun M (r.length + 1) (some c) r with
            | none => rfl
            | some x =>
              cases x with
              | error er => rfl
              | ok x =>
                obtain ⟨content, rest⟩ := x
                cases rest with
                | nil => rfl
                | cons d r' =>
                  have := (inlineRun_suffix M _ _ _ _ _ hin).1
                  simp only [e2 r' ((List.suffix_cons _ _).trans this)]
                  rfl

/-! ## Macros -/

theorem macroArgs_form {raw args : Str} (h : MacroArgsForm raw args) (s : Str) : ∀ n, raw.length < n →
    macroArgs n (raw ++ ')' :: s) = some (args, s) := by
  induction h with
  | nil => intro n hn; cases n with
    | zero => omega
    | succ n => simp [macroArgs]
  | @quoted q raw args hq h ih =>
    intro n hn
    cases n with
    | zero => omega
    | succ n =>
      have e : c%"\"" ++ q ++ c%"\"" ++ raw ++ ')' :: s = '"' :: (q ++ '"' :: (raw ++ ')' :: s)) := by simp
      rw [e]
      simp only [macroArgs]
      rw [if_neg (by decide), if_pos trivial, closing_span (by decide) hq]
      simp only
      rw [ih n (by simp at hn; omega)]
      rfl
  | @bare raw h hne hq =>
    intro n hn
    cases n with
    | zero => omega
    | succ n =>
      cases raw with
      | nil => exact absurd rfl hne
      | cons c r =>
        have h1 : c ≠ ')' := by
          cases h with
          | plain c r h1 h2 h => exact h1
          | esc c r h => decide
        have h2 : c ≠ '"' := by simpa using hq
        rw [List.cons_append]
        simp only [macroArgs, h1, h2, if_false]
        rw [← List.cons_append, closing_span (by decide) h]

theorem nameChar_wordChar {c : Char} (h : nameChar c) : wordChar c = true := by
  simp only [wordChar, Bool.not_eq_true', Bool.or_eq_false_iff, List.contains_eq_mem, decide_eq_false_iff_not, beq_eq_false_iff_ne]
  exact ⟨h.1, h.2⟩

theorem macroAt_form {name raw args : Str} (hn : name ≠ []) (hc : ∀ c ∈ name, nameChar c) (ha : MacroArgsForm raw args) (s : Str) :
    macroAt (name ++ c%"](" ++ raw ++ c%")" ++ s) = some (name, args, s) := by
  have e : name ++ c%"](" ++ raw ++ c%")" ++ s = name ++ ']' :: '(' :: (raw ++ ')' :: s) := by simp
  rw [e, macroAt_word hn (fun c h => nameChar_wordChar (hc c h)) (by intro d hd; cases hd; decide)]
  simp only [macroTail]
  rw [macroArgs_form ha s _ (by simp; omega)]
  rfl

/-- The meaning of macros agrees with the relation `R`. -/
def Agrees (R : Str → Str → List Node → Prop) (M : Macros) : Prop := ∀ name args ns, R name args ns → M name args = some (.ok ns)

variable {R : Str → Str → List Node → Prop} {M : Macros}

theorem prepend_nil (x : Option (Except Err (List Node × Str))) : prepend [] x = x := by
  cases x with
  | none => rfl
  | some x => cases x <;> rfl

theorem prepend_prepend (a b : List Node) (x : Option (Except Err (List Node × Str))) :
    prepend a (prepend b x) = prepend (a ++ b) x := by
  cases x with
  | none => rfl
  | some x => cases x <;> simp [prepend, Except.map]

theorem prepend_ok (a b : List Node) (r : Str) : prepend a (some (.ok (b, r))) = some (.ok (a ++ b, r)) := rfl

theorem styleOf_cases {c : Char} {k : Str} (h : styleOf c = some k) : c = '_' ∨ c = '*' ∨ c = '^' ∨ c = '~' := by
  unfold styleOf at h
  split at h
  · exact .inl ‹_›
  · split at h
    · exact .inr (.inl ‹_›)
    · split at h
      · exact .inr (.inr (.inl ‹_›))
      · split at h
        · exact .inr (.inr (.inr ‹_›))
        · cases h

/-- Markers of styles only. -/
def GoodMark (m : Option Char) : Prop := ∀ k, m = some k → (styleOf k).isSome = true

theorem GoodMark.ne {m : Option Char} (hm : GoodMark m) {c : Char} (hc : styleOf c = none) : m ≠ some c := by
  intro h; have := hm c h; simp [hc] at this

theorem styleOf_none {c : Char} (h : c ∉ c%"~^_*") : styleOf c = none := by
  simp at h
  simp [styleOf, h]

/-- Complete pieces are read independently of what follows. -/
theorem run_inline (hR : Agrees R M) {m : Option Char} {s : Str} {ns : List Node} (h : Inline R m s ns) (hm : GoodMark m) (rest : Str) :
    run M m (s ++ rest) = prepend ns (run M m rest) := by
  induction h generalizing rest with
  | nil => rw [List.nil_append, prepend_nil]
  | @char m s ns c hc h ih =>
    have hst : styleOf c = none := styleOf_none (by simp at hc ⊢; simp [hc])
    simp only [List.mem_cons, List.not_mem_nil, or_false, not_or] at hc
    rw [List.cons_append, run_cons M _ (hm.ne hst)]
    simp only [hc, hst, if_false, or_self]
    rw [ih hm, prepend_prepend]; rfl
  | @esc m s ns c h ih =>
    rw [List.cons_append, List.cons_append, run_cons M _ (hm.ne (by decide))]
    simp only [if_true]
    rw [ih hm, prepend_prepend]; rfl
  | @verbatim m raw s ns hr h ih =>
    have e : c%"`" ++ raw ++ c%"`" ++ s ++ rest = '`' :: (raw ++ '`' :: (s ++ rest)) := by simp
    rw [e, run_cons M _ (hm.ne (by decide)), closing_span (by decide) hr]
    simp only [reduceCtorEq, Char.reduceEq, if_false, if_true]
    rw [ih hm, prepend_prepend]; rfl
  | @literal m raw s ns c hc hr h ih =>
    have e : [c] ++ raw ++ [c] ++ s ++ rest = c :: (raw ++ c :: (s ++ rest)) := by simp
    have hst : styleOf c = none := by rcases hc with rfl | rfl <;> decide
    have hb : c ≠ '\\' := by rcases hc with rfl | rfl <;> decide
    have h1 : c ≠ '[' := by rcases hc with rfl | rfl <;> decide
    have h2 : c ≠ '`' := by rcases hc with rfl | rfl <;> decide
    rw [e, run_cons M _ (hm.ne hst), closing_span hb hr]
    simp only [hb, h1, h2, hc, if_false, if_true]
    rw [ih hm, prepend_prepend]; rfl
  | @style m t s ts ns c k hc hmc ht h iht ih =>
    have e : [c] ++ t ++ [c] ++ s ++ rest = c :: (t ++ c :: (s ++ rest)) := by simp
    have hcc := styleOf_cases hc
    have hb : c ≠ '\\' := by rintro rfl; revert hcc; decide
    have h1 : c ≠ '[' := by rintro rfl; revert hcc; decide
    have h2 : c ≠ '`' := by rintro rfl; revert hcc; decide
    have h3 : ¬ (c = '$' ∨ c = '%') := by rintro (rfl | rfl) <;> revert hcc <;> decide
    rw [e, run_cons M _ hmc]
    simp only [hb, h1, h2, h3, hc, if_false]
    rw [iht (by intro k hk; cases hk; simp [hc]), run_stop M _ rfl, prepend_ok]
    simp only [if_true, List.append_nil]
    rw [ih hm, prepend_prepend]; rfl
  | @call m name raw args s xs ns hn hc ha hx hne h ih =>
    have e : macroText name raw ++ s ++ rest = '[' :: (name ++ c%"](" ++ raw ++ c%")" ++ (s ++ rest)) := by simp [macroText]
    rw [e, run_cons M _ (hm.ne (by decide)), macroAt_form hn hc ha]
    simp only [Char.reduceEq, if_false, if_true]
    rw [hR _ _ _ hx]
    cases xs with
    | nil => exact absurd rfl hne
    | cons y ys =>
      simp only
      rw [ih hm, prepend_prepend]

theorem run_suffix {m : Option Char} {s : Str} {items : List Node} {rest : Str} (h : run M m s = some (.ok (items, rest))) :
    rest <:+ s := (inlineRun_suffix M _ _ _ _ _ h).1

/-- A marker that does not occur has no influence. -/
theorem run_absent (M : Macros) {c : Char} : ∀ (n : Nat) (s : Str), s.length ≤ n → c ∉ s → run M (some c) s = run M none s := by
  intro n
  induction n with
  | zero => intro s h _; cases s with
    | nil => rw [run_nil, run_nil]
    | cons _ _ => simp at h
  | succ n ih =>
    intro s h hc
    cases s with
    | nil => rw [run_nil, run_nil]
    | cons d r =>
      have hd : c ≠ d := by rintro rfl; exact hc (by simp)
      have hr : c ∉ r := fun h => hc (by simp [h])
      have e2 : ∀ r', r' <:+ r → run M (some c) r' = run M none r' := by
        intro r' hr'
        have := hr'.length_le
        exact ih r' (by simp at h; omega) (fun hx => hr (hr'.subset hx))
      have e1 := e2 r (List.suffix_refl _)
      rw [run_cons M r (m := some c) (by simpa using hd), run_cons M r (m := none) (by simp)]
      by_cases h2 : d = '\\'
      · subst h2
        cases r with
        | nil => simp
        | cons x r' => simp only [if_true]; rw [e2 r' (List.suffix_cons _ _)]
      · simp only [h2, if_false]
        by_cases h3 : d = '['
        · simp only [h3, if_true]
          cases hma : macroAt r with
          | none => simp only [e1]
          | some x =>
            obtain ⟨name, args, r'⟩ := x
            simp only [e2 r' (macroAt_suffix hma)]
        · simp only [h3, if_false]
          by_cases h4 : d = '`'
          · simp only [h4, if_true]
            cases hc : closing '`' r with
            | none => simp only [e1]
            | some x => simp only [e2 x.2 (closing_suffix (raw := x.1) hc)]
          · simp only [h4, if_false]
            by_cases h5 : d = '$' ∨ d = '%'
            · simp only [h5, if_true]
              cases hc : closing d r with
              | none => simp only [e1]
              | some x => simp only [e2 x.2 (closing_suffix (raw := x.1) hc)]
            · simp only [h5, if_false]
              cases hst : styleOf d with
              | none => simp only [e1]
              | some k =>
                simp only [e1]
                cases hin : run M (some d) r with
                | none => rfl
                | some x =>
                  cases x with
                  | error er => rfl
                  | ok x =>
                    obtain ⟨content, rest⟩ := x
                    cases rest with
                    | nil => rfl
                    | cons x r' =>
                      simp only [e2 r' ((List.suffix_cons _ _).trans (run_suffix hin))]

theorem closing_none {c : Char} {s : Str} (h : c ∉ s) : closing c s = none := by
  cases hc : closing c s with
  | none => rfl
  | some x =>
    have := (span_of_closing (raw := x.1) (rest := x.2) hc).2
    exact absurd (by rw [this]; simp) h

theorem macroAt_none {s : Str} (h : ¬ c%"](" <:+: s) : macroAt s = none := by
  cases hc : macroAt s with
  | none => rfl
  | some x =>
    exfalso
    unfold macroAt at hc
    simp only at hc
    generalize (if s.head? = some ' ' then [' '] else s.takeWhile fun c => !(inlineSpecial.contains c || c == ' ')) = w at hc
    by_cases hw : w = []
    · simp [hw] at hc
    · rw [if_neg hw] at hc
      cases he : List.drop w.length s with
      | nil => rw [he] at hc; cases hc
      | cons c r1 =>
        cases r1 with
        | nil => rw [he] at hc; cases hc
        | cons d r2 =>
          rw [he] at hc
          simp only at hc
          by_cases hcd : c = ']' ∧ d = '('
          · obtain ⟨rfl, rfl⟩ := hcd
            have h2 := List.drop_suffix w.length s
            rw [he] at h2
            exact h (List.IsInfix.trans ⟨[], r2, rfl⟩ h2.isInfix)
          · rw [if_neg hcd] at hc; cases hc

/-- A whole line is read as a whole. -/
theorem run_line (hR : Agrees R M) {s : Str} {ns : List Node} (h : Line R s ns) : run M none s = some (.ok (ns, [])) := by
  induction h with
  | nil => exact run_nil _ _
  | pieces ha hb ih => rw [run_inline hR ha (by intro k hk; cases hk), ih]; rfl
  | @unpaired s ns c hc hs h ih =>
    rw [run_cons M s (m := none) (by simp)]
    have hb : c ≠ '\\' := by rintro rfl; exact absurd hc (by decide)
    have h1 : c ≠ '[' := by rintro rfl; exact absurd hc (by decide)
    simp only [hb, h1, if_false]
    rw [closing_none hs]
    by_cases h4 : c = '`'
    · subst h4
      simp only [if_true]
      rw [closing_none hs]
      simp only [ih]; rfl
    · simp only [h4, if_false]
      by_cases h5 : c = '$' ∨ c = '%'
      · simp only [h5, if_true, ih]; rfl
      · simp only [h5, if_false]
        cases hst : styleOf c with
        | none => simp only [ih]; rfl
        | some k =>
          rw [run_absent M _ s (Nat.le_refl _) hs, ih]
          rfl
  | @bracket s ns hs h ih =>
    rw [run_cons M s (m := none) (by simp)]
    simp only [Char.reduceEq, if_false, if_true]
    rw [macroAt_none hs]
    simp only [ih]; rfl

/-! ## Whole texts -/

/-- The nodes of a text, sentence after sentence. -/
def loop (M : Macros) (s : Str) : Option (Except Err (List Node)) := inlineLoop M (s.length + 1) s

theorem inlineLoop_enough (M : Macros) : ∀ (n n' : Nat) (s : Str), s.length < n → s.length < n' → inlineLoop M n s = inlineLoop M n' s := by
  intro n
  induction n with
  | zero => intro n' s h; omega
  | succ n ih =>
    intro n' s h h'
    cases n' with
    | zero => omega
    | succ n' =>
      cases s with
      | nil => rfl
      | cons c s =>
        simp only [inlineLoop]
        cases hr : inlineRun M (s.length + 2) none (c :: s) with
        | none => rfl
        | some x =>
          cases x with
          | error er => rfl
          | ok x =>
            have hs := (inlineRun_suffix M _ _ _ x.1 x.2 hr).2 c s rfl (by simp)
            have := hs.length_le
            simp only [List.length_cons] at h h'
            simp only [ih n' x.2 (by omega) (by omega)]

theorem loop_nil (M : Macros) : loop M [] = some (.ok []) := rfl

theorem loop_ne (M : Macros) {s : Str} (h : s ≠ []) : loop M s = (match run M none s with
    | none => none
    | some (.error e) => some (.error e)
    | some (.ok (items, rest)) => (loop M rest).map fun r => r.map (joinWords none items ++ ·)) := by
  cases s with
  | nil => exact absurd rfl h
  | cons c s =>
    unfold loop run
    simp only [inlineLoop, List.length_cons]
    cases hr : inlineRun M (s.length + 2) none (c :: s) with
    | none => rfl
    | some x =>
      cases x with
      | error er => rfl
      | ok x =>
        have hs := (inlineRun_suffix M _ _ _ x.1 x.2 hr).2 c s rfl (by simp)
        have := hs.length_le
        simp only [inlineLoop_enough M (s.length + 1) (x.2.length + 1) x.2 (by omega) (by omega)]

theorem loop_line (hR : Agrees R M) {s : Str} {ns : List Node} (h : LineNodes R s ns) : loop M s = some (.ok ns) := by
  induction h with
  | @line s ns h =>
    by_cases hs : s = []
    · subst hs
      have := run_line hR h
      rw [run_nil] at this
      cases this
      rfl
    · rw [loop_ne M hs, run_line hR h]
      simp [loop_nil, Except.map]
  | @gap a name raw args s na ns ha hn hc hf hx h ih =>
    have e : a ++ macroText name raw ++ s = a ++ ('[' :: (name ++ c%"](" ++ raw ++ c%")" ++ s)) := by simp [macroText]
    have hr : run M none (a ++ macroText name raw ++ s) = some (.ok (na, s)) := by
      rw [e, run_inline hR ha (by intro k hk; cases hk), run_cons M _ (by simp), macroAt_form hn hc hf]
      simp only [Char.reduceEq, if_false, if_true]
      rw [hR _ _ _ hx]
      simp [prepend, Except.map]
    rw [loop_ne M (by rw [e]; simp), hr]
    simp only [ih]; rfl

theorem trimEnd_last {s : Str} (h : s.getLast? ≠ some ' ') : trimEnd s = s := by
  have := trimEnd_eq (s := s) (sp := []) (by intro c hc; simp at hc) h
  simpa using this

theorem isBlank_last {s : Str} (hne : s ≠ []) (h : s.getLast? ≠ some ' ') : isBlank s = false := by
  cases hb : isBlank s with
  | false => rfl
  | true =>
    exfalso
    rw [isBlank_iff] at hb
    have := List.getLast?_eq_some_getLast hne
    exact h (by rw [this, hb _ (List.getLast_mem hne)])

theorem inlineText_loop (M : Macros) {s : Str} (h : s.getLast? ≠ some ' ') : inlineText M s = loop M s := by
  unfold inlineText
  rw [if_neg, trimEnd_last h]
  · rfl
  · rintro ⟨h1, h2⟩
    rw [isBlank_last h1 h] at h2
    cases h2

/-! ## The meaning of macros -/

theorem MacroMeans.unique {env : Env} {name args : Str} {a b : Except Err (List Node)} (h1 : MacroMeans env name args a)
    (h2 : MacroMeans env name args b) : a = b := by
  let nt : Token := ⟨.TEXT, name, Context.empty⟩
  let at' : Token := ⟨.TEXT, args, Context.empty⟩
  cases a with
  | error ea =>
    obtain ⟨x1, k1, e1⟩ := h1 nt at' Context.empty {} rfl rfl
    cases b with
    | error eb => obtain ⟨x2, k2, e2⟩ := h2 nt at' Context.empty {} rfl rfl; rw [k1] at k2; cases k2; rw [← e1, ← e2]
    | ok b => obtain ⟨_, _, k2, _⟩ := h2 nt at' Context.empty {} rfl rfl; rw [k1] at k2; cases k2
  | ok a =>
    obtain ⟨n1, s1, k1, _, e1⟩ := h1 nt at' Context.empty {} rfl rfl
    cases b with
    | error eb => obtain ⟨_, k2, _⟩ := h2 nt at' Context.empty {} rfl rfl; rw [k1] at k2; cases k2
    | ok b =>
      obtain ⟨n2, s2, k2, _, e2⟩ := h2 nt at' Context.empty {} rfl rfl
      rw [k1] at k2
      cases k2
      rw [← e1, ← e2]

open Classical in
/-- What macros mean in an environment, as far as they mean anything. -/
noncomputable def meaning (env : Env) : Macros := fun name args =>
  if h : ∃ r, MacroMeans env name args r then some h.choose else none

theorem meaning_right (env : Env) : MacrosRight env (meaning env) := by
  intro name args r h
  unfold meaning at h
  split at h
  · rename_i hx
    cases h
    exact hx.choose_spec
  · cases h

theorem meaning_eq {env : Env} {name args : Str} {r : Except Err (List Node)} (h : MacroMeans env name args r) :
    meaning env name args = some r := by
  have hx : ∃ r, MacroMeans env name args r := ⟨r, h⟩
  unfold meaning
  rw [dif_pos hx, MacroMeans.unique hx.choose_spec h]

/-- The nodes of a line are as its composition says. -/
theorem parses_line {env : Env} (hR : ∀ name args ns, R name args ns → MacroMeans env name args (.ok ns)) {s : Str} {ns : List Node}
    (h : LineNodes R s ns) (hn : '\n' ∉ s) (hl : s.getLast? ≠ some ' ') : ParsesTo env s ns := by
  have hA : Agrees R (meaning env) := fun name args ns h => meaning_eq (hR _ _ _ h)
  have : inlineText (meaning env) s = some (.ok ns) := by rw [inlineText_loop _ hl, loop_line hA h]
  exact TextDenotes.parsesTo (text_sound (meaning_right env) hn this)

end Mau
