import Verif.Model.Managers

/-!
# Specification: nodes in a tree

`Occ n l`: the node `n` occurs somewhere in the trees `l` — in the content, in the labels or among the plain entries of a table of
contents.
-/

namespace Mau.Spec

/-- The children of a node: content, labels, plain entries. -/
def kids (n : Node) : List Node := n.content ++ n.labels.map (·.2) ++ n.extra

/-- `Sub n m`: the node `n` is `m` or occurs below it. -/
inductive Sub (n : Node) : Node → Prop where
  | refl : Sub n n
  | kid {c m : Node} (h : c ∈ kids m) (hs : Sub n c) : Sub n m

/-- The node `n` occurs in the trees `l`. -/
def Occ (n : Node) (l : List Node) : Prop := ∃ m ∈ l, Sub n m

end Mau.Spec
