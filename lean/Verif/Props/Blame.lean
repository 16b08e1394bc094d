import Verif.Props.Places

set_option linter.unusedSimpArgs false

/-!
# C73: errors point at the place they come from

The position of an error is a line of the text that is processed.
-/

namespace Mau
open Spec

/-- C73: whenever the text of a document, of an included file or of a block cannot be processed, the error points at one of its lines, or at one of a file that is included,
or it is the error about a footnote that is defined twice, or it is not an error of Mau. -/
theorem C73_blames {cfg : Config} {n : Nat} {req : NestedReq} {e : Err} (hq : Fresh req) (hv : Undisturbed req.env) (hl : ∀ l ∈ lines req.text, ¬ LineDefines l [])
    (h : parseDocument cfg n req = .error e) : Blames cfg req.source req.startLine (req.startLine + lastLine req.text) e := by
  have := (parseDocument_places cfg n true req hq (fun _ => hv) (fun l h _ => lines_named hl l h)).2 e h rfl
  cases this with
  | here h => exact .here h
  | alien h =>
    obtain ⟨uri, text, r, m, h1, h2, h3, h4, h5, h6⟩ := h
    exact .included h1 h2 h3 h4 h5 h6
  | footnote name => exact .footnote name
  | other h => exact .other h

/-- C73: the same for a whole document. -/
theorem C73_document {cfg : Config} {fuel : Nat} {text : Str} {env : Env} {source : Option Str} {e : Err} (hv : Undisturbed env) (hl : ∀ l ∈ lines text, ¬ LineDefines l [])
    (h : parseDoc cfg fuel text env source = .error e) : Blames cfg source 0 (lastLine text) e := by
  have := C73_blames (req := ⟨text, env, 0, 0, source, [], 1, []⟩) ⟨by show 0 < 1; omega, by rintro n ⟨m, hm, _⟩; cases hm⟩ hv hl h
  simpa only [Nat.zero_add] using this

/-- C73: if the document includes nothing that can be read, every error of Mau, except that about a footnote that is defined twice, points at a line of the document. -/
theorem C73_alone {cfg : Config} {fuel : Nat} {text : Str} {env : Env} {source : Option Str} {e : Err} (hf : ∀ uri t, cfg.files uri ≠ .ok t) (hv : Undisturbed env)
    (hl : ∀ l ∈ lines text, ¬ LineDefines l []) (h : parseDoc cfg fuel text env source = .error e) (hm : e.isMau = true) :
    Points source 0 (lastLine text) e ∨ ∃ name, e = .parser (msgDuplicateFootnote name) (some Context.empty) := by
  cases C73_document hv hl h with
  | here h => exact .inl h
  | included h1 => exact absurd h1 (hf _ _)
  | footnote name => exact .inr ⟨name, rfl⟩
  | other h => rw [h] at hm; cases hm

/-- C73: an error in a line of text points at that line. -/
theorem C73_line {fuel : Nat} {env : Env} {text : Str} {line column uid : Nat} {source : Option Str} {e : Err} (hv : Undisturbed env) (hn : '\n' ∉ text)
    (h : parseText fuel env text line column source uid = .error e) (hm : e.isMau = true) : Points source line line e := by
  cases parseText_fails hv hn h with
  | lexer m col => exact .lexer (Nat.le_refl _) (Nat.le_refl _)
  | parser hp =>
    obtain ⟨h1, h2, h3⟩ := hp rfl
    exact .parser h1 (by omega) (by omega)
  | other h => rw [h] at hm; cases hm

/-! ## Examples -/

/-- Where an error points. -/
def blamed (x : Except Err DocSt) : Option (Option Str × Nat) :=
  match x with
  | .error (.lexer _ line _ src) => some (src, line)
  | .error (.parser _ (some c)) => some (c.source, c.startLine)
  | _ => none

/-- The hypotheses of `C73_document` are met by a document whose fifth line uses a variable that is not defined. -/
example :
    Undisturbed [(c%"x", .str c%"1")] ∧ (∀ l ∈ lines c%"= Title\n\n----\nin\na {y}\n----", ¬ LineDefines l []) ∧ lastLine c%"= Title\n\n----\nin\na {y}\n----" = 5 ∧
    blamed (parseDoc {} 30 c%"= Title\n\n----\nin\na {y}\n----" [(c%"x", .str c%"1")] (some c%"m")) = some (some c%"m", 4) := by
  refine ⟨⟨?_, by decide⟩, ?_, by decide, by decide +kernel⟩
  · intro k v h
    simp only [List.mem_singleton, Prod.mk.injEq] at h
    obtain ⟨rfl, rfl⟩ := h
    decide
  · have e : lines c%"= Title\n\n----\nin\na {y}\n----" = [c%"= Title", c%"", c%"----", c%"in", c%"a {y}", c%"----"] := by decide
    rw [e]
    intro l hl
    simp only [List.mem_cons, List.not_mem_nil, or_false] at hl
    rcases hl with rfl | rfl | rfl | rfl | rfl | rfl <;> rintro ⟨v, h | h | h⟩ <;> simp at h

/-- Errors found in the middle of a document, by its lexer, and when it is completed. -/
example :
    blamed (parseDoc {} 30 c%"a\n\n****\nb" [] (some c%"m")) = some (some c%"m", 2) ∧
    blamed (parseDoc {} 30 c%"\n\na [footnote](b)\n\nc" [] (some c%"m")) = some (some c%"m", 2) ∧
    blamed (parseDoc {} 30 c%"a\nb [header](c)\nd" [] (some c%"m")) = some (some c%"m", 1) ∧
    blamed (parseDoc {} 30 c%"a\n\n<< blockgroup:g\n" [] (some c%"m")) = some (some c%"m", 2) ∧
    blamed (parseDoc {} 30 c%"[name=a]\n= A\n\n[name=a]\n= B" [] (some c%"m")) = some (some c%"m", 4) ∧
    blamed (parseDoc {} 30 c%"a\n\n<< mau:none" [] (some c%"m")) = some (some c%"m", 2) := by
  refine ⟨by decide +kernel, by decide +kernel, by decide +kernel, by decide +kernel, by decide +kernel, by decide +kernel⟩

/-- An error of an included file points at that file. -/
example : blamed (parseDoc (exampleFiles [(c%"a.mau", c%"a\n{x}")]) 30 c%"\n\n\n<< mau:a.mau" [] (some c%"m")) = some (some c%"a.mau", 1) := by decide +kernel

/-- The error about a footnote that is defined twice points nowhere: not at line 6, where the second definition is. -/
theorem C73_footnote :
    failure (parseDoc {} 30 c%"[footnote=a]\n----\nb\n----\n\n[footnote=a]\n----\nc\n----\n" [] (some c%"m")) =
      some (.parser (msgDuplicateFootnote c%"a") (some Context.empty)) ∧
    Context.empty.source = none := by
  decide +kernel

/-- For a source block it points at the content. -/
example : failure (parseDoc {} 30 c%"[footnote=a]\n----\nb\n----\n\n[footnote=a, engine=source]\n----\nc\n----\n" [] (some c%"m")) =
    some (.parser (msgDuplicateFootnote c%"a") (some ⟨7, 0, 7, 1, some c%"m"⟩)) := by
  decide +kernel

end Mau
