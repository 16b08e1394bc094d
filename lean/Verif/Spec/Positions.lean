import Verif.Spec.Tree
import Verif.Spec.Variables

/-!
# Specification: where nodes come from

A node records the file it was read from and the line on which it starts (its context). `Located files exact src last lo hi n`: the node `n` starts on
one of the lines `lo` to `hi` of the file `src`, whose last line is `last`, and everything in it starts where it should. Lines are counted from 0.

`exact` is the full claim. Without it nothing is said about the nodes of inline text, and, since the context of a header or a list
item includes those of its inline nodes, there are no lower bounds.
-/

namespace Mau.Spec

/-- The number of the last line of a text. -/
def lastLine (text : Str) : Nat := (splitChar '\n' text).length - 1

/-- The classes of inline text. -/
def InlineClass (d : NodeData) : Prop :=
  match d with
  | .word _ | .text _ | .verbatim _ | .style _ | .macro _ | .macroClass _ | .macroLink _ | .macroImage .. | .macroHeader .. | .macroFootnote ..
  | .macroUnicode _ | .macroRaw _ => True
  | _ => False

/-- Nodes whose content is put together when the document is finished: a table of contents, a list of footnotes, a group of blocks, and the
link to a header (which takes the text of the header if it has none). -/
def Gathers (d : NodeData) : Prop :=
  match d with
  | .toc _ | .footnotes _ | .blockgroup .. | .macroHeader .. => True
  | _ => False

/-- The context is in the file `src`, whose last line is `last`, and starts on one of the lines `lo` to `hi`. -/
structure Begins (exact : Bool) (src : Option Str) (last lo hi : Nat) (c : Context) : Prop where
  source : c.source = src
  lower : exact = true → lo ≤ c.startLine
  upper : c.startLine ≤ hi
  inside : c.startLine ≤ last
  ends : c.startLine ≤ c.endLine

/-- The nodes start one after the other, or on the same line. (The text of an empty argument of a macro has no position.) -/
def InOrder (ns : List Node) : Prop := ns.Pairwise fun a b => a.data = .text [] ∨ b.data = .text [] ∨ a.ctx.startLine ≤ b.ctx.startLine

/-- The node starts on one of the lines `lo` to `hi` of the file `src`, and
* what an included document contains starts on the lines of the included file;
* the content of other nodes starts on the lines of the node, in order, unless it is gathered from elsewhere;
* labels start in the same file, before the end of the node. (The node of a label has no position, only its content.) -/
inductive Located (files : Str → Except Bool Str) : Bool → Option Str → Nat → Nat → Nat → Node → Prop where
  | empty {exact : Bool} {src : Option Str} {last lo hi : Nat} {n : Node} (hd : n.data = .text []) (hk : kids n = []) : Located files exact src last lo hi n
  | vague {src : Option Str} {last lo hi : Nat} {n : Node} (hd : InlineClass n.data) : Located files false src last lo hi n
  | label {exact : Bool} {src : Option Str} {last lo hi : Nat} {n : Node} {role : Str} (hd : n.data = .label role) (hc : n.ctx = Context.empty)
      (hk : ∀ c ∈ kids n, Located files exact src last lo hi c) : Located files exact src last lo hi n
  | included {exact : Bool} {src : Option Str} {last lo hi : Nat} {n : Node} {uri text : Str} (hd : n.data = .includeMau uri) (hb : Begins exact src last lo hi n.ctx)
      (hf : files uri = .ok text) (hc : ∀ c ∈ n.content, Located files false (some uri) (lastLine text) 0 (lastLine text) c)
      (hl : ∀ e ∈ n.labels, Located files exact src last 0 n.ctx.endLine e.2) (he : n.extra = []) : Located files exact src last lo hi n
  | gathered {exact : Bool} {src : Option Str} {last lo hi : Nat} {n : Node} (hd : Gathers n.data) (hb : Begins exact src last lo hi n.ctx)
      (hl : ∀ e ∈ n.labels, Located files exact src last 0 n.ctx.endLine e.2) : Located files exact src last lo hi n
  | read {exact : Bool} {src : Option Str} {last lo hi : Nat} {n : Node} (hd : ∀ uri, n.data ≠ .includeMau uri) (hb : Begins exact src last lo hi n.ctx)
      (ho : exact = true → InOrder n.content) (hc : ∀ c ∈ n.content, Located files exact src last n.ctx.startLine n.ctx.endLine c)
      (hl : ∀ e ∈ n.labels, Located files exact src last 0 n.ctx.endLine e.2) (he : n.extra = []) : Located files exact src last lo hi n

/-- Variables that do not disturb positions: no value has a newline, and no variable has an empty name. -/
structure Undisturbed (env : Env) : Prop where
  values : ∀ k v, (k, v) ∈ env → '\n' ∉ v.pyStr
  names : Dict.get? env [] = none

end Mau.Spec
