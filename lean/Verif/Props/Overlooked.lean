import Verif.Lemmas.SownWhole

/-!
# C64 for whole documents: no mention in the texts of a document is overlooked
-/

namespace Mau
open Spec

/-- C64 (for documents without control macros): after a document is parsed, every mention of a footnote and every link to a header
that stands in its texts — in paragraphs, headers, lists, labels, blocks, groups of blocks and styles, nested in any way — has its footnote or header,
and this is the one with its name.

Proved for documents in which no opening bracket can begin a control macro `[if…`, neither on the lines of the document nor
in the value of a variable given from outside. Missing (and false, see `C64_lost`): mentions in the text of another macro and in the
cases of control macros; and the mentions in an included file, when that file is parsed by itself. -/
theorem C64_document_partial {cfg : Config} {n : Nat} {req : NestedReq} {s : DocSt} (hf : Fresh req)
    (henv : ∀ k v, (k, v) ∈ req.env → Harmless v) (htext : ∀ l ∈ splitChar '\n' req.text, Uncontrolled l)
    (h : parseDocument cfg n req = .ok s) {x : Node} (hx : Reached x s.nodes) :
    (∀ i name f, x.data = .macroFootnote i name f →
      ∃ j, f = some j ∧ ∃ o ∈ s.objs, ∃ pub int, o.data = .footnote j name pub int) ∧
    (∀ i target f, x.data = .macroHeader i target f →
      ∃ j, f = some j ∧ ∃ o ∈ s.objs, ∃ level int, o.data = .header j level int (some target)) := by
  have hm := (parseDocument_sown cfg n req s hf henv htext h).1 x hx
  have ho : Occ x (ownTrees req s) := by
    obtain ⟨y, hy, hs⟩ := hx.occ
    exact ⟨y, by unfold ownTrees; simp [hy], hs⟩
  have hr := C62_resolves hf h ho
  constructor
  · intro i name f e
    cases f with
    | none => exact absurd e (hm.1 i name)
    | some j => rw [e] at hr; exact ⟨j, rfl, hr⟩
  · intro i name f e
    cases f with
    | none => exact absurd e (hm.2 i name)
    | some j => rw [e] at hr; exact ⟨j, rfl, hr⟩

/-- The same for a document parsed from its text. -/
theorem C64_text_partial {cfg : Config} {n : Nat} {text : Str} {env : Env} {source : Option Str} {s : DocSt}
    (henv : ∀ k v, (k, v) ∈ env → Harmless v) (htext : ∀ l ∈ splitChar '\n' text, Uncontrolled l)
    (h : parseDoc cfg n text env source = .ok s) {x : Node} (hx : Reached x s.nodes) :
    (∀ i name f, x.data = .macroFootnote i name f →
      ∃ j, f = some j ∧ ∃ o ∈ s.objs, ∃ pub int, o.data = .footnote j name pub int) ∧
    (∀ i target f, x.data = .macroHeader i target f →
      ∃ j, f = some j ∧ ∃ o ∈ s.objs, ∃ level int, o.data = .header j level int (some target)) :=
  C64_document_partial ⟨Nat.zero_lt_one, fun n ⟨_, h, _⟩ => by cases h⟩ henv htext h hx

/-- A document with mentions in styles, lists, labels, headers and a group of blocks, in which no bracket begins a control macro. -/
def mentioning : Str :=
  c%"x *[footnote](a)* [footnote](a)\n\n* [footnote](a)\n** _[header](top)_\n\n[footnote=a]\n----\ntext\n----\n\n. label [footnote](a)\n[name=top]\n= T [footnote](a)\n\n[group=g, position=p]\n. of a member [footnote](a)\n----\nmember [footnote](b)\n\n[footnote=b]\n++++\ntext\n++++\n----\n<< blockgroup:g\n"

/-- The hypotheses of `C64_text_partial` hold for it, and its mentions have their footnote. -/
example : (∀ l ∈ splitChar '\n' mentioning, Uncontrolled l) ∧
    docMentions (parseDoc {} 20 mentioning) = some [(c%"a", some 12), (c%"a", some 12), (c%"a", some 12), (c%"a", some 12), (c%"a", some 12), (c%"b", some 10)] := by
  decide +kernel

/-- The second document of `C64_lost`, and the first, where the lost mention is in the text of a macro and so not in the texts of the
document, show that the hypotheses are needed. -/
example : ¬ Uncontrolled c%"[if:x==1](\"[footnote](a)\")" ∧ Uncontrolled c%"[class](\"[footnote](a)\", c)" := by
  decide

end Mau
