import Verif.Spec.Visitor
import Verif.Spec.Cli

/-!
# Specification of the errors of the Jinja visitor

Which nodes are rendered with a node, and for which reasons a node cannot be rendered.
-/

namespace Mau
namespace Spec

/-- `Inside at_ n p m`: the node `m` at place `p` is one of the parts of the node `n` at `at_` that are rendered with it: its children,
its labels, the flat list of entries of a table of contents. -/
inductive Inside (at_ : Place) (n : Node) : Place → Node → Prop where
  | child {i : Nat} {m : Node} (h : childrenKey n.data ≠ none ∨ ∃ id name, n.data = .blockgroup id name)
      (hm : n.content[i]? = some m) : Inside at_ n ((0, i) :: at_) m
  | only {m : Node} (h : childKey n.data ≠ none) (hm : n.content[0]? = some m) : Inside at_ n ((0, 0) :: at_) m
  | plain {i : Nat} {m : Node} {id : Nat} (h : n.data = .toc id) (hm : n.extra[i]? = some m) : Inside at_ n ((2, i) :: at_) m
  | label {i : Nat} {key : Str} {m : Node} (h : hasLabels n.data = true) (hm : n.labels[i]? = some (key, m)) :
      Inside at_ n ((1, i) :: at_) m

/-- `Shown objs at_ n p m`: to render the node `n` at `at_`, the node `m` at `p` has to be rendered. A node that is referred to is not
rendered itself, but what is inside it is. -/
inductive Shown (objs : List Node) : Place → Node → Place → Node → Prop where
  | inside {at_ p : Place} {n m : Node} (h : Inside at_ n p m) : Shown objs at_ n p m
  | deeper {at_ q p : Place} {n x m : Node} (h : Inside at_ n q x) (h' : Shown objs q x p m) : Shown objs at_ n p m
  | referred {at_ p : Place} {n r m : Node} {key : Str} {id : Nat} (h : reference n.data = some (key, some id))
      (hr : objs.find? (fun x => x.data.id == id) = some r) (h' : Shown objs [(3, id)] r p m) : Shown objs at_ n p m

/-- The reasons why a visitor with the templates `defs` cannot render the node `m` at `p`, and what it says: no template fits, under any
of the configured prefixes or without prefix, or the best template uses something that is not defined. -/
inductive Unrendered (defs : List Template) (j : JinjaVisitor) (e : VisitEnv) (p : Place) (m : Node) : Msg → Prop where
  | noTemplate (h : ∀ u ∈ defs, Fits u m (e.parents p) → ∃ q, u.pref = some q ∧ q ∉ j.prefixes) :
      Unrendered defs j e p m (.text c%"Cannot find a suitable template.")
  | undefined {t : Template} {config : List (Str × Nested)} {data : List (Str × VData)} {text : Str}
      (ht : Best defs j.prefixes m.facts ((e.parents p).map Node.facts) t) (hc : Env.asdict j.env = .ok config)
      (hcommon : ∀ kv ∈ common m ++ fields m.data, (VData.obj data).get? kv.1 = some kv.2)
      (hr : j.render t.name config data = .error (.undefined text)) :
      Unrendered defs j e p m (.text (c%"Error rendering node with template " ++ t.name ++ c%": " ++ text))

end Spec
end Mau
