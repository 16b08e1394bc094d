import Verif.Spec.Visitor
import Verif.Model.Visitor

/-!
# Specification: nodes that are the same to a reader of the output

Nodes have hidden parts: identity numbers, attributes of classes which no document uses (the content of a word, the labels of a list item), the name in a mention of a
footnote (the footnote it refers to is shown), and the name of the group in its items (the group is shown). All the rest can be seen in the output.
-/

namespace Mau.Spec

/-- The children of a node that its class has: a line of source code has at most one (the marker), the item of a group has one (the block). -/
def shownChildren (n : Node) : List Node :=
  match n.data with
  | .sourceLine .. | .blockgroupItem .. => n.content.take 1
  | .blockgroup .. => n.content
  | d => if childrenKey d = none then [] else n.content

/-- The labels of a node, if its class has labels. -/
def shownLabels (n : Node) : List (Str × Node) := if hasLabels n.data then n.labels else []

/-- The second list of children, which a table of contents has (the entries without nesting). -/
def shownExtra (n : Node) : List Node :=
  match n.data with
  | .toc _ => n.extra
  | _ => []

/-- The header or footnote that a node refers to, in a table of the headers and footnotes. -/
def target (objs : List Node) (n : Node) : Option Node :=
  match reference n.data with
  | some (_, some id) => objs.find? fun m => m.data.id == id
  | _ => none

/-- The nodes of two documents (with the headers and footnotes `objs` and `objs'`) are the same except for hidden parts: class, fields, arguments, tags, subtype and
position are equal, children, labels and what they refer to are the same, one by one. -/
inductive SameNode (objs objs' : List Node) : Node → Node → Prop
  | intro {n n' : Node}
      (kind : className n.data = className n'.data)
      (values : fields n.data = fields n'.data)
      (args : n.args = n'.args)
      (place : n.ctx = n'.ctx)
      (children : (shownChildren n).length = (shownChildren n').length)
      (child : ∀ (i : Nat) (m m' : Node), (shownChildren n)[i]? = some m → (shownChildren n')[i]? = some m' → SameNode objs objs' m m')
      (plain : (shownExtra n).length = (shownExtra n').length)
      (entry : ∀ (i : Nat) (m m' : Node), (shownExtra n)[i]? = some m → (shownExtra n')[i]? = some m' → SameNode objs objs' m m')
      (labels : (shownLabels n).map (·.1) = (shownLabels n').map (·.1))
      (label : ∀ (i : Nat) (r r' : Str) (m m' : Node), (shownLabels n)[i]? = some (r, m) → (shownLabels n')[i]? = some (r', m') → SameNode objs objs' m m')
      (refers : (target objs n).isSome = (target objs' n').isSome)
      (referred : ∀ m m' : Node, target objs n = some m → target objs' n' = some m' → SameNode objs objs' m m') :
      SameNode objs objs' n n'

/-- Two documents (or their absence) are the same. -/
def SameDocument (o o' : DocOutput) : Prop :=
  (o.document = none ∧ o'.document = none) ∨ ∃ d d', o.document = some d ∧ o'.document = some d' ∧ SameNode o.objs o'.objs d d'

end Mau.Spec
