import Verif.Model.TextParser

/-!
# Finalisation: footnotes, table of contents, header links, block groups

Models `mau/parsers/managers/{footnotes,toc,header_links,blockgroup}_manager.py`
and the state of `DocumentParser`.

Python completes nodes after parsing by mutating objects that are already part of the
tree. In the model a node that can be completed carries an identity number, and the
completion rewrites every occurrence of the node with that number in the state
(`DocSt.updateNode`). A deep copy (`Node.detach`) has no identity (number 0; real
identity numbers are positive), so it is never completed later, like a Python copy.
-/

namespace Mau

/-! ## Identity, completion, copies -/

/-- The identity number of a node; 0 if it has none. -/
def NodeData.id : NodeData → Nat
  | .macroHeader id .. | .macroFootnote id .. | .header id .. | .footnote id ..
  | .footnotes id | .toc id | .blockgroup id _ => id
  | _ => 0

/-- Remove the identity number. -/
def NodeData.detach : NodeData → NodeData
  | .macroHeader _ t h => .macroHeader 0 t h
  | .macroFootnote _ n f => .macroFootnote 0 n f
  | .header _ l i n => .header 0 l i n
  | .footnote _ n p i => .footnote 0 n p i
  | .footnotes _ => .footnotes 0
  | .toc _ => .toc 0
  | .blockgroup _ n => .blockgroup 0 n
  | d => d

mutual
/-- The `deepcopy` of the nodes (nodes/node.py:71-80 and the `deepcopy` methods of all
node classes): the same tree without identities. -/
def Node.detach : Node → Node
  | .mk d a c cs ls ex => .mk d.detach a c (detachList cs) (detachLabels ls) (detachList ex)
/-- `[child.deepcopy(..) for child in ..]`. -/
def detachList : List Node → List Node
  | [] => []
  | n :: ns => n.detach :: detachList ns
/-- `{key: label.deepcopy(..) ..}`. -/
def detachLabels : List (Str × Node) → List (Str × Node)
  | [] => []
  | (k, n) :: ns => (k, n.detach) :: detachLabels ns
end

mutual
/-- Complete the node with identity `id` by `f`, wherever it occurs in a tree. -/
def Node.mapId (id : Nat) (f : Node → Node) : Node → Node
  | .mk d a c cs ls ex =>
    let n := .mk d a c (mapIdList id f cs) (mapIdLabels id f ls) (mapIdList id f ex)
    if d.id = id then f n else n
/-- `Node.mapId` on a list. -/
def mapIdList (id : Nat) (f : Node → Node) : List Node → List Node
  | [] => []
  | n :: ns => n.mapId id f :: mapIdList id f ns
/-- `Node.mapId` on labels. -/
def mapIdLabels (id : Nat) (f : Node → Node) : List (Str × Node) → List (Str × Node)
  | [] => []
  | (k, n) :: ns => (k, n.mapId id f) :: mapIdLabels id f ns
end

/-- The value of the classes derived from `ValueNode`. -/
def NodeData.value? : NodeData → Option Str
  | .word v | .text v | .verbatim v | .macroUnicode v | .macroRaw v | .rawLine v
  | .sourceMarker v => some v
  | _ => none

/-- The classes derived from `NodeContentMixin`. -/
def NodeData.hasContent : NodeData → Bool
  | .style _ | .macroClass _ | .macroLink _ | .macroHeader .. | .paragraph | .paragraphLine
  | .header .. | .document | .list .. | .listItem _ | .block _ | .footnote .. | .includeMau _
  | .includeRaw _ | .label _ => true
  | _ => false

mutual
/-- managers/toc_manager.py:14-22 — `extract_text`, one node. -/
def extractNode : Node → Str
  | .mk d _ _ cs _ _ =>
    match d.value? with
    | some v => v
    | none => if d.hasContent then extractText cs else []
/-- managers/toc_manager.py:14-22 — `extract_text`. -/
def extractText : List Node → Str
  | [] => []
  | n :: ns => extractNode n ++ extractText ns
end

/-- managers/toc_manager.py:38-39 — the characters kept by `[a-z0-9-\. ]+`. -/
def isIdChar (c : Char) : Bool :=
  isLowerAscii c || isDigitAscii c || c == '-' || c == '.' || c == ' '

/-- managers/toc_manager.py:41-42 — `re.sub(r"[\ _]+", "-", text)`; `prev` tells whether the
previous character belonged to a run. -/
def dashRuns (prev : Bool) : Str → Str
  | [] => []
  | c :: cs =>
    if c == ' ' || c == '_' then (if prev then dashRuns true cs else '-' :: dashRuns true cs)
    else c :: dashRuns false cs

/-- `str(n)` for a natural number. -/
def natStr (n : Nat) : Str := (Nat.toDigits 10 n)

/-- managers/toc_manager.py:25-61 — `default_header_internal_id` on level and text.
`lower` is `str.lower`, `md5` the hexadecimal MD5 digest of the UTF-8 encoding: both are
parameters of the model. -/
def defaultIdOf (lower md5 : Str → Str) (level : Nat) (text : Str) : Str :=
  dashRuns false ((lower text).filter isIdChar) ++ ['-'] ++
    (md5 (natStr level ++ [' '] ++ text)).take 4

/-- managers/toc_manager.py:25-61 — `default_header_internal_id`. -/
def defaultHeaderId (lower md5 : Str → Str) (n : Node) : Str :=
  match n.data with
  | .header _ level _ _ => defaultIdOf lower md5 level (extractText n.content)
  | _ => []

/-! ## Table of contents -/

/-- An outline entry: a header (identity) and its entries. `TocItemNode`. -/
inductive Outline where
  | mk (header : Nat) (entries : List Outline)
  deriving Repr

/-- managers/toc_manager.py:64-101 — `add_nodes_under_level` on a list of
(identity, level); returns the produced entries and the headers not consumed. `fuel`
bounds the number of headers. -/
def nestHeaders : (fuel : Nat) → (level : Nat) → List (Nat × Nat) → List Outline × List (Nat × Nat)
  | 0, _, hs => ([], hs)
  | _ + 1, _, [] => ([], [])
  | n + 1, level, (id, l) :: hs =>
    if l ≤ level then ([], (id, l) :: hs)
    else
      let (children, rest) := nestHeaders n l hs
      let (siblings, rest') := nestHeaders n level rest
      (.mk id children :: siblings, rest')

/-- managers/toc_manager.py:163-177 — the hierarchy of all headers. -/
def outline (hs : List (Nat × Nat)) : List Outline := (nestHeaders (hs.length + 1) 0 hs).1

mutual
/-- A `TocItemNode` for an outline entry (its info is empty). -/
def Outline.toNode : Outline → Node
  | .mk id es => Node.new (.tocItem id) Context.empty (outlineNodes es)
/-- The `TocItemNode`s of a list of entries. -/
def outlineNodes : List Outline → List Node
  | [] => []
  | o :: os => o.toNode :: outlineNodes os
end

/-! ## The state of a document parser -/

/-- document_processors/include.py:36-53 — `IncludeCall`. -/
structure IncludeCall where
  caller : Option Str
  callee : Str
  args : Dict Str
  ctx : Context
  deriving DecidableEq, Repr

/-- The mutable state of a `DocumentParser` and its managers
(document_parser.py:69-133; managers: `__init__`). -/
structure DocSt where
  /-- index of the tokens manager plus one -/
  next : Nat := 0
  /-- next identity number -/
  uid : Nat := 1
  env : Env := []
  nodes : List Node := []
  argsBuf : Option NodeArgs := none
  labelBuf : Dict Node := []
  controlBuf : Option Control := none
  /-- `latest_ordered_list_index` -/
  latest : Int := 0
  forbidden : List (Option Str) := []
  includeCalls : List IncludeCall := []
  /-- footnotes manager -/
  footnoteMacros : List (Nat × Str) := []
  bodies : Dict Node := []
  footnoteLists : List Nat := []
  /-- toc manager: headers as (identity, level) -/
  tocHeaders : List (Nat × Nat) := []
  tocNodes : List Nat := []
  /-- header links manager -/
  linkMacros : List (Nat × Str) := []
  linkHeaders : Dict Nat := []
  /-- block group manager -/
  groups : Dict (Dict Node) := []
  groupNodes : List (Nat × Str) := []
  /-- the contexts (`node.info.context`) of the registered macros and group nodes, by identity -/
  places : List (Nat × Context) := []
  /-- all headers and footnotes that references can point to, also those of the parsers of
  blocks and included files -/
  objs : List Node := []
  deriving Repr

/-- The parts of the world outside the parser: files, `str.lower`/MD5-based or custom
identity functions (the latter are read from the environment by document_parser.py:94-102;
in the model they are fixed for a run, see `parserObjects`). -/
structure Config where
  /-- `open(uri).read()`: text, or a missing file (`FileNotFoundError`), or another error -/
  files : Str → Except Bool Str := fun _ => .error true
  headerId : Node → Str := fun _ => []
  footnoteId : Node → Str := fun n =>
    match n.data with | .footnote _ name _ _ => name | _ => []

namespace DocSt

/-- Complete the node with identity `id` wherever the parser (or the tree it will return) holds it. -/
def updateNode (s : DocSt) (id : Nat) (f : Node → Node) : DocSt :=
  { s with
    nodes := mapIdList id f s.nodes
    bodies := mapIdLabels id f s.bodies
    groups := s.groups.map fun g => (g.1, mapIdLabels id f g.2)
    objs := mapIdList id f s.objs }

/-- The referable object with identity `id`. -/
def obj? (s : DocSt) (id : Nat) : Option Node := s.objs.find? (fun n => n.data.id == id)

end DocSt

/-- The context of a registered macro or group node (`node.info.context`; never changed after its creation). -/
def DocSt.placeOf (s : DocSt) (id : Nat) : Option Context := (s.places.find? (fun p => p.1 == id)).map (·.2)

/-- Change the class fields of a node. -/
def Node.setData (n : Node) (d : NodeData) : Node := .mk d n.args n.ctx n.content n.labels n.extra
/-- Change the children of a node. -/
def Node.setContent (n : Node) (cs : List Node) : Node := .mk n.data n.args n.ctx cs n.labels n.extra
/-- Change the second children list of a node. -/
def Node.setExtra (n : Node) (ex : List Node) : Node := .mk n.data n.args n.ctx n.content n.labels ex

/-! ### Footnotes manager -/

/-- managers/footnotes_manager.py:90-108 — create the footnotes from the bodies, numbered
from `number`. Returns the footnotes and the next identity number. -/
def makeFootnotes (cfg : Config) : (number uid : Nat) → Dict Node → Dict Node × Nat
  | _, uid, [] => ([], uid)
  | number, uid, (name, body) :: rest =>
    let fn := Node.new (.footnote uid name (some (natStr number)) none) Context.empty
      (detachList body.content)
    let fn := fn.setData (.footnote uid name (some (natStr number)) (some (cfg.footnoteId fn)))
    let (fns, uid') := makeFootnotes cfg (number + 1) (uid + 1) rest
    ((name, fn) :: fns, uid')

/-- managers/footnotes_manager.py:117-120 — message for an unknown footnote. -/
def msgUnknownFootnote (name : Str) : Msg := .text (c%"Footnote '" ++ name ++ c%"' has not been defined.")

/-- managers/footnotes_manager.py:110-120 — link the mentions. -/
def linkFootnotes (fns : Dict Node) : List (Nat × Str) → DocSt → Except Err DocSt
  | [], s => .ok s
  | (id, name) :: rest, s =>
    match Dict.get? fns name with
    | none => .error (.parser (msgUnknownFootnote name) (s.placeOf id))
    | some fn =>
      linkFootnotes fns rest
        (s.updateNode id fun n => n.setData (.macroFootnote id name (some fn.data.id)))

/-- managers/footnotes_manager.py:81-130 — `process`. -/
def processFootnotes (cfg : Config) (s : DocSt) : Except Err DocSt :=
  let (fns, uid) := makeFootnotes cfg 1 s.uid s.bodies
  let s := { s with uid := uid, objs := s.objs ++ fns.map (·.2) }
  match linkFootnotes fns s.footnoteMacros s with
  | .error e => .error e
  | .ok s =>
    let items := fns.map fun kv => Node.new (.footnotesItem kv.2.data.id) Context.empty
    .ok (s.footnoteLists.foldl (fun s id => s.updateNode id (·.setContent items)) s)

/-! ### Toc manager -/

/-- managers/toc_manager.py:153-161 — give a header its internal id if it has none. -/
def setHeaderId (cfg : Config) (s : DocSt) (id : Nat) : DocSt :=
  match s.obj? id with
  | none => s                   -- not reachable: headers of the manager are objects
  | some h =>
    match h.data with
    | .header _ l none nm =>
      let internal := cfg.headerId h
      s.updateNode id fun n => n.setData (.header id l (some internal) nm)
    | _ => s

/-- managers/toc_manager.py:147-199 — `process`. -/
def processToc (cfg : Config) (s : DocSt) : DocSt :=
  if s.tocHeaders.isEmpty then s
  else
    let s := s.tocHeaders.foldl (fun s h => setHeaderId cfg s h.1) s
    let nested := outlineNodes (outline s.tocHeaders)
    s.tocNodes.foldl (fun s id =>
      let plain := s.tocHeaders.filterMap fun h => (s.obj? h.1).map Node.detach
      s.updateNode id fun n => (n.setContent nested).setExtra plain) s

/-! ### Header links manager -/

/-- managers/header_links_manager.py:26-30. -/
def msgDuplicateHeader (name : Str) : Msg := .text (c%"Duplicate header id detected: " ++ name)
/-- managers/header_links_manager.py:61-65. -/
def msgUnknownHeader (name : Str) : Msg := .text (c%"Cannot find header with id " ++ name)

/-- managers/header_links_manager.py:48-65 — `process`, one macro after the other: refer to the
header, and copy its content into the macro if that is empty. -/
def linkHeaders : List (Nat × Str) → DocSt → Except Err DocSt
  | [], s => .ok s
  | (id, target) :: rest, s =>
    match Dict.get? s.linkHeaders target with
    | none => .error (.parser (msgUnknownHeader target) (s.placeOf id))
    | some hid =>
      let s := s.updateNode id fun n => n.setData (.macroHeader id target (some hid))
      let copy := ((s.obj? hid).map fun h => detachList h.content).getD []
      linkHeaders rest
        (s.updateNode id fun n => if n.content.isEmpty then n.setContent copy else n)

/-! ### Block group manager -/

/-- managers/blockgroup_manager.py:28-32. -/
def msgPositionTaken (group position : Str) : Msg :=
  .text (c%"Position '" ++ position ++ c%"' is already taken in group '" ++ group ++ c%"'.")
/-- managers/blockgroup_manager.py:61-65. -/
def msgUnknownGroup (group : Str) : Msg := .text (c%"The group '" ++ group ++ c%"' does not exist.")

/-- managers/blockgroup_manager.py:22-43 — `add_block`. -/
def addBlock (groups : Dict (Dict Node)) (group position : Str) (node : Node) :
    Except Err (Dict (Dict Node)) :=
  let items := (Dict.get? groups group).getD []
  if Dict.has items position then .error (.parser (msgPositionTaken group position) (some node.ctx))
  else
    let item := Node.new (.blockgroupItem group position) Context.empty [node]
    .ok (Dict.set groups group (Dict.set items position item))

/-- managers/blockgroup_manager.py:50-76 — `process`. -/
def processGroups : List (Nat × Str) → DocSt → Except Err DocSt
  | [], s => .ok s
  | (id, name) :: rest, s =>
    match Dict.get? s.groups name with
    | none => .error (.parser (msgUnknownGroup name) (s.placeOf id))
    | some items => processGroups rest (s.updateNode id (·.setContent (items.map (·.2))))

/-- document_parser.py:231-253 — the first part of `finalise`. -/
def finalise (cfg : Config) (s : DocSt) : Except Err DocSt := do
  let s ← processFootnotes cfg s
  let s := processToc cfg s
  let s ← linkHeaders s.linkMacros s
  processGroups s.groupNodes s

end Mau
