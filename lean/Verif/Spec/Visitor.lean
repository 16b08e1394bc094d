import Verif.Spec.Templates

/-!
# Specification of the output of visitors

Which parts of a node appear under which key of the data a visitor returns for it.
-/

namespace Mau
namespace Spec

/-- The key under which the children of a node appear, as a list. -/
def childrenKey : NodeData → Option Str
  | .footnotes _ => some c%"footnotes"
  | .tocItem _ => some c%"entries"
  | .toc _ => some c%"nested_entries"
  | .label _ | .style _ | .header .. | .macroClass _ | .macroLink _ | .macroHeader .. | .footnote ..
  | .block _ | .document | .includeMau _ | .includeRaw _ | .listItem _ | .list .. | .paragraph
  | .paragraphLine | .source .. | .raw _ => some c%"content"
  | _ => none

/-- The key under which the only child of a node appears. -/
def childKey : NodeData → Option Str
  | .sourceLine .. => some c%"marker"
  | .blockgroupItem .. => some c%"block"
  | _ => none

/-- The nodes that can have labels. -/
def hasLabels : NodeData → Bool
  | .header .. | .footnotes _ | .toc _ | .blockgroup .. | .block _ | .horizontalRule | .include _
  | .includeImage .. | .includeMau _ | .includeRaw _ | .list .. | .paragraph | .paragraphLine
  | .source .. | .raw _ => true
  | _ => false

/-- The fields of the node classes and the keys they appear under. -/
def fields : NodeData → List (Str × VData)
  | .word s | .text s | .verbatim s | .macroUnicode s | .macroRaw s | .rawLine s | .sourceMarker s =>
    [(c%"value", .str s)]
  | .label role => [(c%"role", .str role)]
  | .style st => [(c%"style", .str st)]
  | .header _ level iid name =>
    [(c%"level", .int level), (c%"internal_id", VData.opt iid), (c%"name", VData.opt name)]
  | .macro name => [(c%"name", .str name)]
  | .macroClass cls => [(c%"classes", VData.strs cls)]
  | .macroLink target => [(c%"target", .str target)]
  | .macroImage uri alt w h =>
    [(c%"uri", .str uri), (c%"alt_text", VData.opt alt), (c%"width", VData.opt w),
     (c%"height", VData.opt h)]
  | .macroHeader _ target _ => [(c%"target_name", .str target)]
  | .footnote _ name pub iid =>
    [(c%"name", .str name), (c%"public_id", VData.opt pub), (c%"internal_id", VData.opt iid)]
  | .blockgroup _ name => [(c%"name", .str name)]
  | .blockgroupItem _ pos => [(c%"position", .str pos)]
  | .block cls | .raw cls => [(c%"classes", VData.strs cls)]
  | .source lang cls => [(c%"language", VData.opt lang), (c%"classes", VData.strs cls)]
  | .sourceLine num content hl =>
    [(c%"line_number", .str (natStr num)), (c%"line_content", .str content),
     (c%"highlight_style", VData.opt hl)]
  | .include ctype => [(c%"ctype", .str ctype)]
  | .includeImage uri alt cls =>
    [(c%"uri", .str uri), (c%"alt_text", VData.opt alt), (c%"classes", VData.strs cls)]
  | .includeMau uri | .includeRaw uri => [(c%"uri", .str uri)]
  | .listItem level => [(c%"level", .int level)]
  | .list ord main start =>
    [(c%"ordered", .bool ord), (c%"main_node", .bool main), (c%"start", .int start)]
  | .macroFootnote .. | .footnotesItem _ | .footnotes _ | .tocItem _ | .toc _ | .horizontalRule | .document
  | .paragraph | .paragraphLine => []

/-- The node a node refers to, and the key it appears under. -/
def reference : NodeData → Option (Str × Option Nat)
  | .macroHeader _ _ h => some (c%"header", h)
  | .macroFootnote _ _ f => some (c%"footnote", f)
  | .footnotesItem f => some (c%"footnote", some f)
  | .tocItem h => some (c%"header", some h)
  | _ => none

/-- The data every node has: class, arguments, tags, subtype and position. -/
def common (n : Node) : List (Str × VData) :=
  [(c%"_type", .str (className n.data)),
   (c%"args", .list (n.args.unnamed.map .str)),
   (c%"kwargs", .obj (n.args.named.map fun kv => (kv.1, .str kv.2))),
   (c%"tags", .list (n.args.tags.map .str)),
   (c%"internal_tags", .list (n.args.internalTags.map .str)),
   (c%"subtype", VData.opt n.args.subtype)]

/-- The place of a node, as data. -/
def placeData (c : Context) : VData :=
  .obj [(c%"start_line", .int c.startLine), (c%"start_column", .int c.startColumn), (c%"end_line", .int c.endLine),
        (c%"end_column", .int c.endColumn), (c%"source", match c.source with | none => .null | some s => .str s)]

/-- What is shown about a parent: nothing if there is none, otherwise its class, arguments, tags, subtype and, on request, its place. -/
def ShowsParent (place : Bool) : Option Node → VData → Prop
  | none, x => x = .obj []
  | some p, x => x = .obj (common p ++ if place then [(c%"_context", placeData p.ctx)] else [])

/-- `xs` are the results of `f` on the nodes `ns`, at the places given by attribute `k`, in order. -/
def Each {α} (f : Place → Node → Except Err α) (at_ : Place) (k : Nat) (ns : List Node) (xs : List α) : Prop :=
  xs.length = ns.length ∧
  ∀ (i : Nat) (n : Node), ns[i]? = some n → ∃ x, xs[i]? = some x ∧ f ((k, i) :: at_) n = .ok x

/-- `kvs` has the keys of `ns`, in order, with the results of `f`. -/
def EachEntry {α} (f : Place → Node → Except Err α) (at_ : Place) (k : Nat) (ns : List (Str × Node))
    (kvs : List (Str × α)) : Prop :=
  kvs.length = ns.length ∧
  ∀ (i : Nat) (key : Str) (n : Node), ns[i]? = some (key, n) →
    ∃ x, kvs[i]? = some (key, x) ∧ f ((k, i) :: at_) n = .ok x

end Spec
end Mau
