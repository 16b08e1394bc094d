import Verif.Model.DocumentParser

/-!
# The base visitor

Models `mau/visitors/base_visitor.py`: the transformation of a node tree into plain data.

Parent pointers are not part of the tree model. What the visitor reads from them (the entry
`parent`, base_visitor.py:240-241, and the template claims on the parent) is taken from a table
`parents` that assigns to every place of the tree the parent the node there has, so that
results hold for every assignment of parents. The option `transformer` and debugging output are
left out. References to headers and footnotes (visited through `visit_data`) are resolved in a
table. Visiting can recurse for ever (a header that links to itself), so the model has a
recursion budget; `Err.fuel` means that it is exhausted.
-/

namespace Mau

/-- Plain data: what the visitor returns. -/
inductive VData where
  | null
  | str (s : Str)
  | int (i : Int)
  | bool (b : Bool)
  | list (xs : List VData)
  | obj (kvs : List (Str × VData))
  deriving Repr

namespace VData

/-- `None` or a string. -/
def opt : Option Str → VData
  | none => .null
  | some s => .str s

/-- A list of strings. -/
def strs (xs : List Str) : VData := .list (xs.map .str)

/-- A dictionary of strings. -/
def dict (d : Dict Str) : VData := .obj (d.map fun kv => (kv.1, .str kv.2))

/-- A key of a dictionary. -/
def get? : VData → Str → Option VData
  | .obj kvs, k => Dict.get? kvs k
  | _, _ => none

end VData

/-- The class attribute `type` of the nodes (nodes/*.py). -/
def NodeData.typeName : NodeData → Str
  | .word _ => c%"word"
  | .text _ => c%"text"
  | .verbatim _ => c%"verbatim"
  | .style _ => c%"style"
  | .macro _ => c%"macro"
  | .macroClass _ => c%"macro-class"
  | .macroLink _ => c%"macro-link"
  | .macroImage .. => c%"macro-image"
  | .macroHeader .. => c%"macro-header"
  | .macroFootnote .. => c%"macro-footnote"
  | .macroUnicode _ => c%"macro-unicode"
  | .macroRaw _ => c%"macro-raw"
  | .paragraph => c%"paragraph"
  | .paragraphLine => c%"paragraph-line"
  | .header .. => c%"header"
  | .horizontalRule => c%"horizontal-rule"
  | .document => c%"document"
  | .list .. => c%"list"
  | .listItem _ => c%"list-item"
  | .block _ => c%"block"
  | .raw _ => c%"raw"
  | .rawLine _ => c%"raw-line"
  | .source .. => c%"source"
  | .sourceLine .. => c%"source-line"
  | .sourceMarker _ => c%"source-marker"
  | .footnote .. => c%"footnote"
  | .footnotes _ => c%"footnotes"
  | .footnotesItem _ => c%"footnotes-item"
  | .include _ => c%"include"
  | .includeImage .. => c%"include-image"
  | .includeMau _ => c%"include-mau"
  | .includeRaw _ => c%"include-raw"
  | .toc _ => c%"toc"
  | .tocItem _ => c%"toc-item"
  | .blockgroup .. => c%"blockgroup"
  | .blockgroupItem .. => c%"blockgroup-item"
  | .label _ => c%"label"

/-- mau/text_buffer.py:94-101 — `Context.asdict`. -/
def contextData (c : Context) : VData :=
  .obj [(c%"start_line", .int c.startLine), (c%"start_column", .int c.startColumn),
        (c%"end_line", .int c.endLine), (c%"end_column", .int c.endColumn),
        (c%"source", VData.opt c.source)]

/-- A place in the tree: the way from a node down to one of its descendants, innermost step first.
A step is the attribute that holds the child (0 content, 1 labels, 2 the second list of
children, 3 a referenced node, by identity) and the index of the child in it. -/
abbrev Place := List (Nat × Nat)

/-- What a visit needs to know: the nodes that can be referred to, the parent of the node at
each place, and the options `add_context` and `add_parent`. -/
structure VisitEnv where
  objs : List Node
  parents : Place → Option Node := fun _ => none
  addContext : Bool := true
  addParent : Bool := true

/-- base_visitor.py:217-233 — `_get_node_data`. -/
def baseData (e : VisitEnv) (n : Node) : List (Str × VData) :=
  [(c%"_type", .str n.data.typeName),
   (c%"args", VData.strs n.args.unnamed),
   (c%"kwargs", VData.dict n.args.named),
   (c%"tags", VData.strs n.args.tags),
   (c%"internal_tags", VData.strs n.args.internalTags),
   (c%"subtype", VData.opt n.args.subtype)] ++
  if e.addContext then [(c%"_context", contextData n.ctx)] else []

/-- base_visitor.py:235-243 — `_visit_default`. -/
def defaultData (e : VisitEnv) (at_ : Place) (n : Node) : List (Str × VData) :=
  baseData e n ++
  if e.addParent then
    [(c%"parent", .obj (match e.parents at_ with | none => [] | some p => baseData e p))]
  else []

/-- The three ways a visitor visits other nodes: `visit`, `visit_data` and `visitlist`
(which gets the current node, the place and the attribute the nodes are in); and the result
of visiting `None`. -/
structure VisitOps where
  one : Place → Node → Except Err VData
  data : Place → Node → Except Err VData
  list : Node → Place → Nat → List Node → Except Err VData
  absent : VData

/-- Visit the nodes of a list, the first of which has the index `i` (base_visitor.py:183-185). -/
def visitAll (v : Place → Node → Except Err VData) (at_ : Place) (k : Nat) : Nat → List Node →
    Except Err (List VData)
  | _, [] => .ok []
  | i, n :: ns => do
    let x ← v ((k, i) :: at_) n
    let xs ← visitAll v at_ k (i + 1) ns
    return x :: xs

/-- Visit a dictionary of nodes (base_visitor.py:187-189). -/
def visitDict (v : Place → Node → Except Err VData) (at_ : Place) (k : Nat) : Nat → List (Str × Node) →
    Except Err (List (Str × VData))
  | _, [] => .ok []
  | i, (key, n) :: ns => do
    let x ← v ((k, i) :: at_) n
    let xs ← visitDict v at_ k (i + 1) ns
    return (key, x) :: xs

/-- `visit_data(node.header)`: an absent reference gives `{}` (base_visitor.py:173-181). -/
def visitRef (e : VisitEnv) (o : VisitOps) (r : Option Nat) : Except Err VData :=
  match r with
  | none => .ok (.obj [])
  | some id =>
    match e.objs.find? (fun n => n.data.id == id) with
    | none => .ok (.obj [])
    | some n => o.data [(3, id)] n

/-- base_visitor.py:203-208 — the key `content`. -/
def contentData (o : VisitOps) (at_ : Place) (n : Node) : Except Err (List (Str × VData)) := do
  return [(c%"content", ← o.list n at_ 0 n.content)]

/-- base_visitor.py:210-215 — the key `labels`. -/
def labelsData (o : VisitOps) (at_ : Place) (n : Node) : Except Err (List (Str × VData)) := do
  return [(c%"labels", .obj (← visitDict o.one at_ 1 0 n.labels))]

/-- The keys a `_visit_...` method adds to the default ones (base_visitor.py:245-692). -/
def nodeFields (e : VisitEnv) (o : VisitOps) (at_ : Place) (n : Node) :
    Except Err (List (Str × VData)) :=
  match n.data with
  | .word s | .text s | .verbatim s | .macroUnicode s | .macroRaw s | .rawLine s
  | .sourceMarker s => .ok [(c%"value", .str s)]
  | .label role => do
    return [(c%"role", .str role)] ++ (← contentData o at_ n)
  | .style st => do
    return [(c%"style", .str st)] ++ (← contentData o at_ n)
  | .header _ level iid name => do
    return [(c%"level", .int level), (c%"internal_id", VData.opt iid), (c%"name", VData.opt name)] ++
      (← contentData o at_ n) ++ (← labelsData o at_ n)
  | .macro name => .ok [(c%"name", .str name)]
  | .macroClass cls => do
    return [(c%"classes", VData.strs cls)] ++ (← contentData o at_ n)
  | .macroLink target => do
    return [(c%"target", .str target)] ++ (← contentData o at_ n)
  | .macroImage uri alt w h =>
    .ok [(c%"uri", .str uri), (c%"alt_text", VData.opt alt), (c%"width", VData.opt w),
          (c%"height", VData.opt h)]
  | .macroHeader _ target h => do
    return [(c%"target_name", .str target), (c%"header", ← visitRef e o h)] ++ (← contentData o at_ n)
  | .footnote _ name pub iid => do
    return [(c%"name", .str name), (c%"public_id", VData.opt pub), (c%"internal_id", VData.opt iid)] ++
      (← contentData o at_ n)
  | .macroFootnote _ _ f => do
    return [(c%"footnote", ← visitRef e o f)]
  | .footnotesItem f => do
    return [(c%"footnote", ← visitRef e o (some f))]
  | .footnotes _ => do
    return [(c%"footnotes", ← o.list n at_ 0 n.content)] ++ (← labelsData o at_ n)
  | .tocItem h => do
    return [(c%"header", ← visitRef e o (some h)), (c%"entries", ← o.list n at_ 0 n.content)]
  | .toc _ => do
    return [(c%"plain_entries", ← o.list n at_ 2 n.extra),
            (c%"nested_entries", ← o.list n at_ 0 n.content)] ++ (← labelsData o at_ n)
  | .blockgroupItem _ pos => do
    match n.content with
    | b :: _ => return [(c%"position", .str pos), (c%"block_data", ← o.data ((0, 0) :: at_) b),
        (c%"block", ← o.one ((0, 0) :: at_) b)]
    | [] => return [(c%"position", .str pos), (c%"block_data", .obj []), (c%"block", o.absent)]
  | .blockgroup _ name => do
    let items := n.content.map fun i =>
      (match i.data with | .blockgroupItem _ pos => pos | _ => [], i)
    return [(c%"name", .str name), (c%"items", .obj (← visitDict o.one at_ 0 0 items))] ++
      (← labelsData o at_ n)
  | .block cls => do
    return [(c%"classes", VData.strs cls)] ++ (← contentData o at_ n) ++ (← labelsData o at_ n)
  | .horizontalRule => labelsData o at_ n
  | .document => contentData o at_ n
  | .include ctype => do
    return [(c%"ctype", .str ctype)] ++ (← labelsData o at_ n)
  | .includeImage uri alt cls => do
    return [(c%"uri", .str uri), (c%"alt_text", VData.opt alt), (c%"classes", VData.strs cls)] ++
      (← labelsData o at_ n)
  | .includeMau uri | .includeRaw uri => do
    return [(c%"uri", .str uri)] ++ (← contentData o at_ n) ++ (← labelsData o at_ n)
  | .listItem level => do
    return [(c%"level", .int level)] ++ (← contentData o at_ n)
  | .list ord main start => do
    return [(c%"ordered", .bool ord), (c%"main_node", .bool main), (c%"start", .int start)] ++
      (← contentData o at_ n) ++ (← labelsData o at_ n)
  | .paragraph | .paragraphLine => do
    return (← contentData o at_ n) ++ (← labelsData o at_ n)
  | .sourceLine num content hl => do
    match n.content with
    | m :: _ => return [(c%"line_number", .str (natStr num)), (c%"line_content", .str content),
        (c%"highlight_style", VData.opt hl), (c%"marker", ← o.one ((0, 0) :: at_) m)]
    | [] => return [(c%"line_number", .str (natStr num)), (c%"line_content", .str content),
        (c%"highlight_style", VData.opt hl), (c%"marker", o.absent)]
  | .source lang cls => do
    return [(c%"language", VData.opt lang), (c%"classes", VData.strs cls)] ++
      (← contentData o at_ n) ++ (← labelsData o at_ n)
  | .raw cls => do
    return [(c%"classes", VData.strs cls)] ++ (← contentData o at_ n) ++ (← labelsData o at_ n)

/-- nodes/node.py:82-100 — `accept`: the method for the node class, applied to the node. -/
def acceptNode (e : VisitEnv) (o : VisitOps) (at_ : Place) (n : Node) : Except Err VData := do
  return .obj (defaultData e at_ n ++ (← nodeFields e o at_ n))

/-- The operations of the base visitor: `visit` and `visit_data` (base_visitor.py:145-181) both
return the data of the node, `visitlist` the list of the results. -/
def baseOps (v : Place → Node → Except Err VData) : VisitOps where
  one := v
  data := v
  list := fun _ at_ k ns => do return .list (← visitAll v at_ k 0 ns)
  absent := .obj []

/-- base_visitor.py:145-171 — `visit`, with recursion budget `fuel`. -/
def visit (e : VisitEnv) : (fuel : Nat) → Place → Node → Except Err VData
  | 0, _, _ => .error .fuel
  | k + 1, at_, n => acceptNode e (baseOps (visit e k)) at_ n

/-- base_visitor.py:95-111 — `process`; an absent document gives `{}`. -/
def visitDocument (fuel : Nat) (o : DocOutput) (parents : Place → Option Node := fun _ => none) :
    Except Err VData :=
  match o.document with
  | none => .ok (.obj [])
  | some d => visit { objs := o.objs, parents } fuel [] d

/-- visitors/yaml_visitor.py:6-18 — `YamlVisitor.process`: the data of the base visitor, dumped. `dump` is `yaml.dump` with `NoAliasDumper`, a parameter. -/
def yamlProcess (dump : VData → Str) (parents : Place → Option Node) (fuel : Nat) (_env : Env) (o : DocOutput) : Except Err Str := do
  let d ← visitDocument fuel o parents
  return dump d

end Mau
