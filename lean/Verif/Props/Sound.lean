import Verif.Lemmas.SoundDoc
import Verif.Props.Plain

set_option linter.unusedSimpArgs false

/-!
# Well-formed documents fail only with Mau errors (C51)
-/

namespace Mau
open Spec

theorem sound_lines {V : Project} {text : Str} (h : Sound V (Spec.lines text)) : Sound V (splitChar '\n' text) := by
  unfold Spec.lines at h
  split at h
  · rename_i he
    subst he
    exact .blank (by intro c hc; cases hc) .nil
  · exact h

/-- C51 (partial: for well-formed documents, `Sound`, whose variables have no macros): an error of processing the document is a Mau error. All Mau files it
includes must be well-formed, and every file must be readable or missing. -/
theorem C51_document_partial {V : Project} {cfg : Config} (hf : ∀ f, cfg.files f ≠ .error false)
    (hF : ∀ f t, V.files f → cfg.files f = .ok t → Sound V (Spec.lines t)) {text : Str} (hd : Sound V (Spec.lines text))
    {env : Env} (he : PlainVariables env) (hv : ∀ k v, (k, v) ∈ env → V.names k) (source : Option Str) {n : Nat} {e : Err}
    (h : parseDoc cfg n text env source = .error e) (hn : e ≠ .fuel) : e.isMau = true := by
  have hs : Starts V env := .inr ⟨he, fun k hk => by obtain ⟨kv, hm, rfl⟩ := List.mem_map.1 hk; exact hv _ _ hm⟩
  rcases (sound_document hf (fun f t h1 h2 => sound_lines (hF f t h1 h2)) n ⟨text, env, 0, 0, source, [], 1, []⟩ hs (sound_lines hd)).1 e h with h' | h'
  · exact h'
  · exact absurd h' hn

/-- C51 and C65 together (partial: for the same documents, if they have no loops): the document is processed to its end, and the result is a document or a
Mau error. -/
theorem C51_result_partial {V : Project} {cfg : Config} (hf : ∀ f, cfg.files f ≠ .error false)
    (hF : ∀ f t, V.files f → cfg.files f = .ok t → Sound V (Spec.lines t)) {F : List Str} (hl : ∀ f t, cfg.files f = .ok t → f ∈ F ∧ Loopless (Spec.lines t))
    {text : Str} (hd : Sound V (Spec.lines text)) (hp : Loopless (Spec.lines text))
    {env : Env} (he : PlainVariables env) (hv : ∀ k v, (k, v) ∈ env → V.names k) (source : Option Str) :
    ∃ N, (∃ d, ∀ n ≥ N, parseDoc cfg n text env source = .ok d) ∨ ∃ e, e.isMau = true ∧ ∀ n ≥ N, parseDoc cfg n text env source = .error e := by
  obtain ⟨N, r, h1, h2⟩ := C65_loopless_partial hl hp he source
  refine ⟨N, ?_⟩
  cases r with
  | ok d => exact .inl ⟨d, h2⟩
  | error e => exact .inr ⟨e, C51_document_partial hf hF hd he hv source (h2 N (Nat.le_refl _)) (fun h => h1 (by rw [h])), h2⟩

/-! ### The hypotheses are met -/

theorem special_line {l : Str} {ps : List Piece} (h : linePieces l = ps) (h1 : ps ≠ [.tok .TEXT l]) (h2 : ∃ c ∈ l, c ≠ ' ') (h3 : l.length ≠ 4) : SpecialLine l ps := by
  refine ⟨(linePieces_iff.1 h).elim id (fun h' => absurd h'.2 h1), fun hs => ?_, fun ch he => h3 (by rw [he]; rfl)⟩
  obtain ⟨c, hc, hne⟩ := h2
  exact hne (hs c hc)

/-- A project with the variables `x` and `y` and the file `f`. -/
def exampleProject : Project := ⟨(· ∈ [c%"x", c%"y"]), by decide, (· = c%"f")⟩

theorem example_apart : exampleProject.Apart := by
  refine ⟨?_, ?_, by unfold exampleProject; decide, by unfold exampleProject; decide⟩
  · intro a b ha hb ⟨r, e⟩
    change a ∈ [c%"x", c%"y"] at ha
    change b ∈ [c%"x", c%"y"] at hb
    simp at ha hb
    rcases ha with rfl | rfl <;> rcases hb with rfl | rfl <;> simp at e
  · intro a ha
    change a ∈ [c%"x", c%"y"] at ha
    simp at ha
    rcases ha with rfl | rfl
    · exact ⟨_, _, rfl, by decide⟩
    · exact ⟨_, _, rfl, by decide⟩

/-- A document with a variable, a header, a list, a text with a macro, a source block, a block with a condition, and an included file. -/
example : Sound exampleProject (Spec.lines c%":x:12\n\n= Title {x}\n\n* item\n** inner\n\nA [link](u, v) in\na text\n\n[@source, python]\n----\n:y\n----\n\n@if x==1\n++++\ninside\n++++\n\n<< mau:f, call:y=2\n") := by
  have e : Spec.lines c%":x:12\n\n= Title {x}\n\n* item\n** inner\n\nA [link](u, v) in\na text\n\n[@source, python]\n----\n:y\n----\n\n@if x==1\n++++\ninside\n++++\n\n<< mau:f, call:y=2\n" =
    [c%":x:12", [], c%"= Title {x}", [], c%"* item", c%"** inner", [], c%"A [link](u, v) in", c%"a text", [], c%"[@source, python]", c%"----", c%":y", c%"----", [],
      c%"@if x==1", c%"++++", c%"inside", c%"++++", [], c%"<< mau:f, call:y=2", []] := by decide
  rw [e]
  have hb : Spaces [] := by intro c hc; cases hc
  refine .define (l := c%":x:12") (name := c%"x") (v := c%"12") (special_line (by decide) (by decide) (by decide) (by decide)) (by unfold exampleProject; decide) (by decide) ?_
  refine .blank hb ?_
  refine .header (l := c%"= Title {x}") (signs := c%"=") (sp := c%" ") (t := c%"Title {x}") (special_line (by decide) (by decide) (by decide) (by decide)) (.inl (by decide)) ⟨_, _, rfl, by decide⟩ ?_
  refine .blank hb ?_
  refine .list (i := ⟨[], c%"*", c%" ", c%"item"⟩) (is := [⟨[], c%"**", c%" ", c%"inner"⟩]) (rest := _) ?_ ?_ (.empty _) ?_
  · intro j hj
    simp at hj
    rcases hj with rfl | rfl
    · exact ⟨special_line (by decide) (by decide) (by decide) (by decide), by decide⟩
    · exact ⟨special_line (by decide) (by decide) (by decide) (by decide), by decide⟩
  · intro j hj
    simp at hj
    rcases hj with rfl | rfl
    · exact ⟨.inl (by decide), _, _, rfl, by decide⟩
    · exact ⟨.inl (by decide), _, _, rfl, by decide⟩
  refine .blank hb ?_
  refine .paragraph (ls := [c%"A [link](u, v) in", c%"a text"]) ?_ (by simp) (.blank hb) ?_
  · intro l hl
    simp at hl
    rcases hl with rfl | rfl
    · refine ⟨textLine_of_head (by decide) (by intro ch h; cases h), .inr ⟨by decide, fun h => absurd h.1.1 (by decide), fun h => absurd h.1 (by decide)⟩⟩
    · exact ⟨textLine_of_head (by decide) (by intro ch h; cases h), .inl (by decide)⟩
  refine .blank hb ?_
  refine .code (a := c%"@source, python") (ch := '-') (cs := [c%":y"]) (.source (as := [.pos c%"python"]) ?_ ⟨[c%"python"], [], rfl⟩ (by decide) (by decide) (by unfold Literal; decide) ⟨(by intro v hv; cases hv), by decide⟩ (by intro v hv; cases hv)) ⟨by decide, by decide, by decide⟩ ?_
  · exact .cons (s := c%"@source") (sp := c%" ") (.posBare (by unfold Bare; decide) (by decide) (by decide) (by decide)) (by simp) (.one (.posBare (by unfold Bare; decide) (by decide) (by decide) (by decide)))
  refine .blank hb ?_
  refine .control (l := c%"@if x==1") (op := c%"if") (sp := c%" ") (t := c%"x==1") (special_line (by decide) (by decide) (by decide) (by decide)) (by decide) (by unfold Literal; decide) ?_
  refine .block (ch := '+') (cs := [c%"inside"]) ⟨by decide, by decide, by decide⟩ ?_ ?_
  · refine .paragraph (ls := [c%"inside"]) ?_ (by simp) .nil .nil
    intro l hl
    simp at hl
    subst hl
    exact ⟨textLine_of_head (by decide) (by intro ch h; cases h), .inl (by decide)⟩
  refine .blank hb ?_
  refine .includeMau (l := c%"<< mau:f, call:y=2") (sp := c%" ") (a := c%"f, call:y=2") (as := [.pos c%"f", .key c%"call:y" c%"2"]) (special_line (by decide) (by decide) (by decide) (by decide)) example_apart ?_ ?_
  · refine ⟨⟨?_, ⟨[c%"f"], [(c%"call:y", c%"2")], rfl⟩, by decide, by decide⟩, by unfold Literal; decide, ?_, ?_⟩
    · exact .cons (s := c%"f") (sp := c%" ") (.posBare (by unfold Bare; decide) (by decide) (by decide) (by decide)) (by simp) (.one (.keyBare (k := c%"call:y") (by decide) (by decide) (by decide) (by unfold Bare; decide) (by decide)))
    · intro u hu
      simp [positional, keyed] at hu
      exact hu.symm
    · intro x v hm
      simp [keyed] at hm
      obtain ⟨rfl, rfl⟩ := hm
      exact ⟨by unfold exampleProject; decide, by decide⟩
  exact .blank hb .nil

end Mau
