import Verif.Spec.Tree

/-!
# Specification: references between nodes

A footnote mention refers to a footnote, a header link to a header, an entry of a list of footnotes to a footnote, an entry of a table
of contents to a header. A reference is the identity of the node it refers to; the nodes that can be referred to are the objects of
the document (`DocSt.objs`).
-/

namespace Mau.Spec

/-- The references of a node of this class and fields point to objects of the right kind, and by their name. -/
def Resolves (objs : List Node) (d : NodeData) : Prop :=
  match d with
  | .macroFootnote _ name (some f) => ∃ o ∈ objs, ∃ pub int, o.data = .footnote f name pub int
  | .macroHeader _ target (some h) => ∃ o ∈ objs, ∃ level int, o.data = .header h level int (some target)
  | .footnotesItem f => ∃ o ∈ objs, ∃ name pub int, o.data = .footnote f name pub int
  | .tocItem h => ∃ o ∈ objs, ∃ level int name, o.data = .header h level int name
  | _ => True

end Mau.Spec
