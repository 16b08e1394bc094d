import Verif.Model.DeepCopy
import Verif.Spec.Visitor

/-!
# Specification: what a copy of a node is
-/

namespace Mau
namespace Spec

/-- Nodes of the class of `d` have children. -/
def hasChildren (d : NodeData) : Bool :=
  (childrenKey d).isSome || (childKey d).isSome ||
  (match d with | .blockgroup .. => true | _ => false)

/-- Nodes of the class of `d` have plain entries. -/
def hasEntries (d : NodeData) : Bool := className d == c%"toc"

/-- A node that has the attributes of its class only: children only if the class has children, labels
only if the class has labels, and so on below. -/
inductive Proper : PNode → Prop where
  | mk (oid : Nat) (parent : Option Nat) (data : NodeData) (args : NodeArgs) (ctx : Context)
      (content : List PNode) (labels : List (Str × PNode)) (extra : List PNode)
      (hc : hasChildren data = false → content = []) (hl : hasLabels data = false → labels = [])
      (he : hasEntries data = false → extra = [])
      (pc : ∀ n ∈ content, Proper n) (pl : ∀ kn ∈ labels, Proper kn.2) (pe : ∀ n ∈ extra, Proper n) :
      Proper (.mk oid parent data args ctx content labels extra)

/-- `CopyOf n c`: the node `c` has the class, the fields, the arguments and the position of `n`; its children, plain
entries and labels are copies of those of `n`, in order and under the same keys, and `c` is their parent. -/
inductive CopyOf : PNode → PNode → Prop where
  | mk (n c : PNode)
      (type_ : className c.data = className n.data)
      (fields_ : fields c.data = fields n.data)
      (reference_ : reference c.data = reference n.data)
      (args_ : c.args = n.args)
      (ctx_ : c.ctx = n.ctx)
      (contentLength : c.content.length = n.content.length)
      (extraLength : c.extra.length = n.extra.length)
      (labelKeys : c.labels.map (·.1) = n.labels.map (·.1))
      (content_ : ∀ (i : Nat) (x y : PNode), n.content[i]? = some x → c.content[i]? = some y → CopyOf x y)
      (contentParent : ∀ y ∈ c.content, y.parent = some c.oid)
      (extra_ : ∀ (i : Nat) (x y : PNode), n.extra[i]? = some x → c.extra[i]? = some y → CopyOf x y)
      (extraParent : ∀ y ∈ c.extra, y.parent = some c.oid)
      (labels_ : ∀ (i : Nat) (x y : Str × PNode), n.labels[i]? = some x → c.labels[i]? = some y →
        CopyOf x.2 y.2)
      (labelsParent : ∀ y ∈ c.labels, y.2.parent = some c.oid) :
      CopyOf n c

end Spec

mutual
/-- The identities of all objects of a tree, one entry per place in the tree. -/
def PNode.ids : PNode → List Nat
  | .mk o _ _ _ _ content labels extra => o :: (idsList extra ++ idsList content ++ idsLabels labels)
/-- The same for lists of trees. -/
def idsList : List PNode → List Nat
  | [] => []
  | n :: ns => n.ids ++ idsList ns
/-- The same for labels. -/
def idsLabels : List (Str × PNode) → List Nat
  | [] => []
  | (_, n) :: ns => n.ids ++ idsLabels ns
end

end Mau
