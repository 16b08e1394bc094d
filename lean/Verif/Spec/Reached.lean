import Verif.Model.Environment
import Verif.Model.Node

/-!
# Specification: the texts of a document

`Reached x ns`: the node `x` stands in the text of `ns` itself: in a paragraph, a header, a list, a block, a group of blocks or a style, or in a
label of a node — but not in the text of a macro, in an included file, or in a footnote or a table of contents.

`Uncontrolled s`: no opening bracket of `s` can begin a control macro `[if…`.
-/

namespace Mau.Spec

/-- Nodes with texts of the document inside. -/
def Opens : NodeData → Prop
  | .paragraph | .paragraphLine | .header .. | .list .. | .listItem _ | .block _ | .style _ | .label _ | .blockgroup .. | .blockgroupItem .. => True
  | _ => False

/-- The node `x` stands in the text of `ns`. -/
inductive Reached (x : Node) : List Node → Prop where
  | here {ns : List Node} (h : x ∈ ns) : Reached x ns
  | content {ns : List Node} {n : Node} (hn : n ∈ ns) (ho : Opens n.data) (h : Reached x n.content) : Reached x ns
  | label {ns : List Node} {n : Node} {e : Str × Node} (hn : n ∈ ns) (he : e ∈ n.labels) (h : Reached x [e.2]) : Reached x ns

/-- What may follow an opening bracket: not the end of the text, a reference or a backslash; and after `[i` not the end, an `f`, a reference or a backslash.
So the bracket does not begin `[if`, not even after references to variables are replaced. -/
def Follows : Str → Prop
  | [] => False
  | c :: r => c ≠ '{' ∧ c ≠ '\\' ∧ (c = 'i' → match r with | [] => False | d :: _ => d ≠ 'f' ∧ d ≠ '{' ∧ d ≠ '\\')

instance : DecidablePred Follows := fun s => by
  cases s with
  | nil => exact .isFalse id
  | cons c r =>
    cases r with
    | nil => unfold Follows; dsimp only; infer_instance
    | cons d r => unfold Follows; dsimp only; infer_instance

/-- No opening bracket in the text begins a control macro. -/
def Uncontrolled (s : Str) : Prop := ∀ a b, s = a ++ '[' :: b → Follows b

/-- No value begins a control macro, or has several lines. -/
def Harmless (v : Val) : Prop := Uncontrolled v.pyStr ∧ '\n' ∉ v.pyStr

end Mau.Spec
