import Verif.Lemmas.DocEndsNested
import Verif.Props.Includes

set_option linter.unusedSimpArgs false

/-!
# C65 — processing a document ends
-/

namespace Mau
open Spec

theorem lines_newline {text l : Str} (h : l ∈ Spec.lines text) : '\n' ∉ l := by
  unfold Spec.lines at h
  split at h
  · cases h
  · exact sep_not_mem_of_mem_split h

theorem finalise_fuel (cfg : Config) (s : DocSt) : finalise cfg s ≠ .error .fuel := by
  have h := finalise_outcome cfg s
  split at h
  · rw [h]; simp
  · split at h
    · rw [h]; simp
    · split at h
      · rw [h]; simp
      · obtain ⟨s', h⟩ := h; rw [h]; simp

theorem docTokens_fuel (src : Option Str) (ls : List Str) (ln col : Nat) : docTokens src ln col ls ≠ .error .fuel := by
  refine docTokens_rec (src := src) (P := fun _ _ _ r => r ≠ .error .fuel) ?_ ?_ ?_ ?_ ?_ ?_ ?_ ?_ ls ln col
  · intro ln col h; cases h
  · intro ln col h; cases h
  · intro ln col l rest _ _ ih h
    exact ih (map_error h)
  · intro ln col rest _ h; cases h
  · intro ln col cs rest _ ih; exact ih
  · intro ln col l rest _ _ h; cases h
  · intro ln col l cs rest _ _ ih h
    exact ih (map_error h)
  · intro ln col l rest _ ih h
    exact ih (map_error h)

/-- A document ends if its blocks and the files it includes do. -/
theorem document_ends {M : Prop} {N : Nat} {cfg : Config} {req : NestedReq} (hl : LinesOk M N (Spec.lines req.text)) (he : EnvAll NoParen req.env)
    (hB : ∀ r, Inner N r.text → EnvAll NoParen r.env → NEnds cfg r)
    (hI : M → ∀ uri r, cfg.files uri = .ok r.text → some uri ∉ req.forbidden → (∀ x ∈ req.forbidden, x ∈ r.forbidden) → some uri ∈ r.forbidden → EnvAll NoParen r.env → NEnds cfg r) :
    NEnds cfg req := by
  cases hx : lexDocument (TextBuffer.ofText req.text req.startLine req.startColumn req.source) with
  | error e =>
    refine ⟨.error e, Ev.shift.1 ⟨0, fun n _ => by simp only [parseDocument, hx]⟩, ?_, fun _ h => nomatch h⟩
    rintro h
    cases h
    rw [lexDocument_eq] at hx
    exact absurd hx (docTokens_fuel _ _ _ _)
  | ok toks =>
    have hx' := hx
    rw [lexDocument_eq] at hx'
    have hE := docTokens_ends _ _ _ _ _ hx'
    have hT := tokOk_of_lines hl hx'
    have hs : Calm M req.forbidden { env := initEnv req.env, uid := req.uid, objs := req.objs, forbidden := req.forbidden } :=
      ⟨EnvAll.initEnv plain_empty base_plain he, (fun _ a ha => nomatch ha), fun x hx => hx⟩
    cases hk : parserObjects (initEnv req.env) with
    | error e =>
      exact ⟨.error e, Ev.shift.1 ⟨0, fun n _ => by simp only [parseDocument, hx, hk]⟩, (fun h => (parserObjects_error hk).2.1 (by injection h)), fun _ h => nomatch h⟩
    | ok u =>
    obtain ⟨r, ⟨K, hK⟩, h1, h2⟩ := docLoop_ends hE hT hB hI (toks.length + 2) initialLast _ hs (by show toks.length - 0 < _; omega)
    cases r with
    | error e =>
      refine ⟨.error e, Ev.shift.1 ⟨K, fun n hn => ?_⟩, h1, fun _ h => nomatch h⟩
      have := hK n hn
      dsimp only at this
      simp only [parseDocument, hx, hk, this]
    | ok s =>
      refine ⟨finalise cfg s, Ev.shift.1 ⟨K, fun n hn => ?_⟩, finalise_fuel cfg s, fun st hst => ?_⟩
      · have := hK n hn
        dsimp only at this
        simp only [parseDocument, hx, hk, this]
      · have hr := rest_finalise hst
        have hc := h2 s rfl
        exact ⟨by rw [hr.env]; exact hc.env, by rw [hr.forbidden]; exact hc.base⟩

/-- Documents without includes of Mau files. -/
theorem plain_ends {cfg : Config} (N : Nat) : ∀ req : NestedReq, (Spec.lines req.text).length ≤ N → (∀ l ∈ Spec.lines req.text, PlainDefinition l ∧ ¬ IncludesMau l) →
    EnvAll NoParen req.env → NEnds cfg req := by
  induction N with
  | zero =>
    intro req h1 h2 h3
    refine document_ends (M := False) (N := 0) ⟨fun _ h => lines_newline h, fun l h => (h2 l h).1, fun h => h.elim, fun _ l h => (h2 l h).2, fun h => h.elim, h1⟩ h3
      (fun r hr _ => absurd hr.2 (by omega)) fun h => h.elim
  | succ N ih =>
    intro req h1 h2 h3
    refine document_ends (M := False) (N := N + 1) ⟨fun _ h => lines_newline h, fun l h => (h2 l h).1, fun h => h.elim, fun _ l h => (h2 l h).2, fun h => h.elim, h1⟩ h3
      (fun r hr hr' => ih r (by have := hr.2; omega) hr.1 hr') fun h => h.elim

theorem filter_less {α : Type} {p q : α → Bool} (hpq : ∀ a, p a = true → q a = true) {x : α} : ∀ {l : List α}, x ∈ l → p x = false → q x = true →
    (l.filter p).length < (l.filter q).length := by
  intro l hx hp hq
  have hle : ∀ l : List α, (l.filter p).length ≤ (l.filter q).length := by
    intro l
    rw [← List.countP_eq_length_filter, ← List.countP_eq_length_filter]
    exact List.countP_mono_left fun x _ => hpq x
  induction l with
  | nil => cases hx
  | cons a l ih =>
    rcases List.mem_cons.1 hx with rfl | hx
    · have := hle l
      simp only [List.filter_cons, hp, hq, if_true, List.length_cons, Bool.false_eq_true, if_false]
      omega
    · have := ih hx
      cases hc : p a with
      | true => simp only [List.filter_cons, hc, hpq a hc, if_true, List.length_cons]; omega
      | false =>
        cases hd : q a with
        | true => simp only [List.filter_cons, hc, hd, if_true, List.length_cons, Bool.false_eq_true, if_false]; omega
        | false => simpa only [List.filter_cons, hc, hd, Bool.false_eq_true, if_false] using this

theorem loopless_ends {cfg : Config} {F : List Str} (hF : ∀ uri text, cfg.files uri = .ok text → uri ∈ F ∧ Loopless (Spec.lines text)) (k : Nat) :
    ∀ req : NestedReq, (F.filter fun f => !req.forbidden.contains (some f)).length ≤ k → Loopless (Spec.lines req.text) → EnvAll NoParen req.env → NEnds cfg req := by
  induction k with
  | zero =>
    intro req hk hl he
    rcases hl.includes with h | ⟨h1, h2⟩
    · exact plain_ends _ req (Nat.le_refl _) (fun l hl' => ⟨hl.definitions l hl', h l hl'⟩) he
    · refine document_ends (M := True) (N := (Spec.lines req.text).length) ⟨fun _ h => lines_newline h, hl.definitions, fun _ => h2, fun h => absurd trivial h, fun _ => h1, Nat.le_refl _⟩ he
        (fun r hr hr' => plain_ends _ r (Nat.le_refl _) hr.1 hr') fun _ uri r hr hn _ _ _ => ?_
      exfalso
      have : uri ∈ F.filter fun f => !req.forbidden.contains (some f) := List.mem_filter.2 ⟨(hF uri _ hr).1, by simpa using hn⟩
      have := List.length_pos_of_mem this
      omega
  | succ k ih =>
    intro req hk hl he
    rcases hl.includes with h | ⟨h1, h2⟩
    · exact plain_ends _ req (Nat.le_refl _) (fun l hl' => ⟨hl.definitions l hl', h l hl'⟩) he
    · refine document_ends (M := True) (N := (Spec.lines req.text).length) ⟨fun _ h => lines_newline h, hl.definitions, fun _ => h2, fun h => absurd trivial h, fun _ => h1, Nat.le_refl _⟩ he
        (fun r hr hr' => plain_ends _ r (Nat.le_refl _) hr.1 hr') fun _ uri r hr hn hsub hin hre => ?_
      refine ih r ?_ (hF uri _ hr).2 hre
      have hlt := filter_less (l := F) (p := fun f => !r.forbidden.contains (some f)) (q := fun f => !req.forbidden.contains (some f)) (x := uri)
        (fun f hf => by
          simp only [Bool.not_eq_true', List.contains_eq_mem, decide_eq_false_iff_not] at hf ⊢
          exact fun h => hf (hsub _ h)) (hF uri _ hr).1 (by simpa using hin) (by simpa using hn)
      omega

/-- C65 (partial): processing ends if no document has macros in variables, no file is included from inside a block, and only finitely many files can be read. -/
theorem C65_loopless_partial {cfg : Config} {F : List Str} (hF : ∀ uri text, cfg.files uri = .ok text → uri ∈ F ∧ Loopless (Spec.lines text))
    {text : Str} (hd : Loopless (Spec.lines text)) {env : Env} (he : PlainVariables env) (source : Option Str) :
    ∃ N r, r ≠ .error .fuel ∧ ∀ n ≥ N, parseDoc cfg n text env source = r := by
  obtain ⟨r, ⟨N, hN⟩, h1, _⟩ := loopless_ends hF _ ⟨text, env, 0, 0, source, [], 1, []⟩ (Nat.le_refl _) hd he
  exact ⟨N, r, h1, hN⟩

/-- C65 (partial): a document that includes no Mau files can be processed to its end, whatever its blocks contain, if no variable has a parenthesis. -/
theorem C65_no_includes_partial (cfg : Config) {text : Str} (hd : ∀ l ∈ Spec.lines text, PlainDefinition l) (hm : ∀ l ∈ Spec.lines text, ¬ IncludesMau l)
    {env : Env} (he : PlainVariables env) (source : Option Str) :
    ∃ N r, r ≠ .error .fuel ∧ ∀ n ≥ N, parseDoc cfg n text env source = r := by
  obtain ⟨r, ⟨N, hN⟩, h1, _⟩ := plain_ends (cfg := cfg) _ ⟨text, env, 0, 0, source, [], 1, []⟩ (Nat.le_refl _) (fun l hl => ⟨hd l hl, hm l hl⟩) he
  exact ⟨N, r, h1, hN⟩

/-- C65 is violated: two files that include each other inside blocks are processed without end. -/
theorem C65_endless : ∃ (cfg : Config) (text : Str) (source : Option Str), ¬ ∃ N r, r ≠ .error .fuel ∧ ∀ n ≥ N, parseDoc cfg n text [] source = r := by
  refine ⟨loopFiles, c%"----\n<< mau:b\n----\n", some c%"a", ?_⟩
  rintro ⟨N, r, h1, h2⟩
  exact h1 ((h2 N (Nat.le_refl _)).symm.trans (C49_blocks_recurse N))

/-! ### The hypotheses are met -/

theorem plain_line {l : Str} (h1 : '(' ∉ l) (h2 : ∀ r, l ≠ r ++ [':']) : PlainDefinition l ∧ PlainCall l := by
  refine ⟨fun name value hl _ => .inr (.inr ⟨?_, fun h => h1 (by simp [hl, h])⟩), ⟨fun a hl h => h1 (by simp [hl, h]), fun _ => ⟨h1, h2⟩⟩⟩
  rintro rfl
  exact h2 (':' :: name) (by simp [hl])

theorem no_colon {l : Str} {c : Char} (h : l.getLast? = some c) (hc : c ≠ ':') : ∀ r, l ≠ r ++ [':'] := by
  rintro r rfl
  simp at h
  exact hc h.symm

theorem text_line {l : Str} (h1 : l.head? ≠ some ':') (h2 : l.head? ≠ some '[') (h3 : l.head? ≠ some '<') : PlainDefinition l ∧ PlainCall l ∧ ¬ IncludesMau l := by
  refine ⟨?_, ⟨?_, ?_⟩, ?_⟩
  · rintro name value rfl; exact absurd rfl h1
  · rintro a rfl; exact absurd rfl h2
  · rintro ⟨sp, r, rfl, _⟩; exact absurd rfl h3
  · rintro ⟨sp, r, rfl, _⟩; exact absurd rfl h3

/-- A document with a variable, a header, an included file and a block, and a file with a macro and a list: both have no loops. -/
example : Loopless (Spec.lines c%":x:1\n\n= Title {x}\n\n<< mau:f,call:y=2\n\n----\n[class](inside, {x})\n----\n") ∧
    Loopless (Spec.lines c%"a [class](b, c)\n\n* {y}\n") := by
  have e1 : Spec.lines c%":x:1\n\n= Title {x}\n\n<< mau:f,call:y=2\n\n----\n[class](inside, {x})\n----\n" =
      [c%":x:1", [], c%"= Title {x}", [], c%"<< mau:f,call:y=2", [], c%"----", c%"[class](inside, {x})", c%"----", []] := by decide
  have e2 : Spec.lines c%"a [class](b, c)\n\n* {y}\n" = [c%"a [class](b, c)", [], c%"* {y}", []] := by decide
  rw [e1, e2]
  have h0 := text_line (l := []) (by decide) (by decide) (by decide)
  have h1 := plain_line (l := c%":x:1") (by decide) (no_colon (c := '1') (by decide) (by decide))
  have h2 := text_line (l := c%"= Title {x}") (by decide) (by decide) (by decide)
  have h3 := plain_line (l := c%"<< mau:f,call:y=2") (by decide) (no_colon (c := '2') (by decide) (by decide))
  have h4 := text_line (l := c%"----") (by decide) (by decide) (by decide)
  have h5 : PlainDefinition c%"[class](inside, {x})" ∧ PlainCall c%"[class](inside, {x})" ∧ ¬ IncludesMau c%"[class](inside, {x})" := by
    refine ⟨?_, ⟨?_, ?_⟩, ?_⟩
    · intro name value h; cases h
    · intro a h
      have := congrArg List.getLast? h
      rw [show '[' :: (a ++ [']']) = ('[' :: a) ++ [']'] from rfl, List.getLast?_concat] at this
      exact absurd this (by decide)
    · rintro ⟨sp, r, h, _⟩; cases h
    · rintro ⟨sp, r, h, _⟩; cases h
  have h6 := text_line (l := c%"a [class](b, c)") (by decide) (by decide) (by decide)
  have h7 := text_line (l := c%"* {y}") (by decide) (by decide) (by decide)
  refine ⟨⟨?_, .inr ⟨?_, ?_⟩⟩, ⟨?_, .inl ?_⟩⟩
  · intro l hl
    simp only [List.mem_cons, List.not_mem_nil, or_false] at hl
    rcases hl with rfl | rfl | rfl | rfl | rfl | rfl | rfl | rfl | rfl | rfl
    · exact h1.1
    · exact h0.1
    · exact h2.1
    · exact h0.1
    · exact h3.1
    · exact h0.1
    · exact h4.1
    · exact h5.1
    · exact h4.1
    · exact h0.1
  · refine .line (by intro ch h; cases h) (.line (by intro ch h; cases h) (.line (by intro ch h; cases h) (.line (by intro ch h; cases h)
      (.line (by intro ch h; cases h) (.line (by intro ch h; cases h) ?_)))))
    refine .block (ch := '-') (cs := [c%"[class](inside, {x})"]) (rest := [[]]) ⟨by decide, by decide, by decide⟩ ?_ (.line (by intro ch h; cases h) .nil)
    intro l hl
    simp only [List.mem_singleton] at hl
    rw [hl]; exact h5.2.2
  · intro l hl
    simp only [List.mem_cons, List.not_mem_nil, or_false] at hl
    rcases hl with rfl | rfl | rfl | rfl | rfl | rfl | rfl | rfl | rfl | rfl
    · exact h1.2
    · exact h0.2.1
    · exact h2.2.1
    · exact h0.2.1
    · exact h3.2
    · exact h0.2.1
    · exact h4.2.1
    · exact h5.2.1
    · exact h4.2.1
    · exact h0.2.1
  · intro l hl
    simp only [List.mem_cons, List.not_mem_nil, or_false] at hl
    rcases hl with rfl | rfl | rfl | rfl
    · exact h6.1
    · exact h0.1
    · exact h7.1
    · exact h0.1
  · intro l hl
    simp only [List.mem_cons, List.not_mem_nil, or_false] at hl
    rcases hl with rfl | rfl | rfl | rfl
    · exact h6.2.2
    · exact h0.2.2
    · exact h7.2.2
    · exact h0.2.2

/-- The result of that document: everything is processed. -/
example : readTexts (parseDoc (exampleFiles [(c%"f", c%"a [class](b, c)\n\n* {y}\n")]) 20
    c%":x:1\n\n= Title {x}\n\n<< mau:f,call:y=2\n\n----\n[class](inside, {x})\n----\n") = some [c%"Title 1", c%"include f", c%"a b", c%"2", c%"inside"] := by
  decide +kernel

end Mau
