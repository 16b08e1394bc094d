import Verif.Model.Node

/-!
# Node objects with parents, and deep copies

Models `Node.deepcopy` and its overrides in `mau/nodes/*.py`. Here a node is an object: it has an identity
and refers to its parent by the identity of the parent. Copying creates new objects; the next free
identity is threaded through.

Simplification: `copy(self.arguments)` and `copy(self.info)` (nodes/node.py:77-78) are modelled by
their values; that the copy shares the inner lists of the arguments with the original is not
modelled.
-/

namespace Mau

/-- A node object: identity, parent, class and fields, arguments, context, children, labels, and the plain
entries of a table of contents. -/
inductive PNode where
  | mk (oid : Nat) (parent : Option Nat) (data : NodeData) (args : NodeArgs) (ctx : Context)
      (content : List PNode) (labels : List (Str × PNode)) (extra : List PNode)

namespace PNode

def oid : PNode → Nat | mk o _ _ _ _ _ _ _ => o
def parent : PNode → Option Nat | mk _ p _ _ _ _ _ _ => p
def data : PNode → NodeData | mk _ _ d _ _ _ _ _ => d
def args : PNode → NodeArgs | mk _ _ _ a _ _ _ _ => a
def ctx : PNode → Context | mk _ _ _ _ c _ _ _ => c
def content : PNode → List PNode | mk _ _ _ _ _ c _ _ => c
def labels : PNode → List (Str × PNode) | mk _ _ _ _ _ _ l _ => l
def extra : PNode → List PNode | mk _ _ _ _ _ _ _ e => e

end PNode

/-- The fields a `deepcopy` method copies, class by class. The registration number of the model (not an
attribute of the Python objects) is cleared: a copy is not registered anywhere. -/
def copyFields : NodeData → NodeData
  | .word v => .word v                                         -- nodes/node.py:141-144
  | .text v => .text v                                         -- nodes/node.py:141-144
  | .verbatim v => .verbatim v                                 -- nodes/node.py:141-144
  | .style st => .style st                                     -- nodes/inline.py:48-58
  | .macro name => .macro name                                 -- nodes/macro.py:76-82
  | .macroClass cls => .macroClass cls                         -- nodes/macro.py:108-118
  | .macroLink t => .macroLink t                               -- nodes/macro.py:139-149
  | .macroImage u a w h => .macroImage u a w h                 -- nodes/macro.py:174-183
  | .macroHeader _ t h => .macroHeader 0 t h                   -- nodes/macro.py:211-222
  | .macroFootnote _ n f => .macroFootnote 0 n f               -- nodes/macro.py:243-250
  | .macroUnicode v => .macroUnicode v                         -- nodes/node.py:141-144
  | .macroRaw v => .macroRaw v                                 -- nodes/node.py:141-144
  | .paragraph => .paragraph                                   -- nodes/paragraph.py:62-70
  | .paragraphLine => .paragraphLine                           -- nodes/paragraph.py:31-38
  | .header _ l i n => .header 0 l i n                         -- nodes/header.py:61-74
  | .horizontalRule => .horizontalRule                         -- nodes/document.py:32-39
  | .document => .document                                     -- nodes/node.py:160-163
  | .list o m s => .list o m s                                 -- nodes/list.py:91-104
  | .listItem l => .listItem l                                 -- nodes/list.py:58-64
  | .block cls => .block cls                                   -- nodes/block.py:40-51
  | .raw cls => .raw cls                                       -- nodes/raw.py:37-48
  | .rawLine v => .rawLine v                                   -- nodes/node.py:141-144
  | .source l cls => .source l cls                             -- nodes/source.py:74-86
  | .sourceLine n c h => .sourceLine n c h                     -- nodes/source.py:35-45
  | .sourceMarker v => .sourceMarker v                         -- nodes/node.py:141-144
  | .footnote _ n p i => .footnote 0 n p i                     -- nodes/footnote.py:40-52
  | .footnotes _ => .footnotes 0                               -- nodes/include.py:260-272
  | .footnotesItem f => .footnotesItem f                       -- nodes/include.py:232-239
  | .include t => .include t                                   -- nodes/include.py:86-96
  | .includeImage u a c => .includeImage u a c                 -- nodes/include.py:127-139
  | .includeMau u => .includeMau u                             -- nodes/include.py:166-177
  | .includeRaw u => .includeRaw u                             -- nodes/include.py:204-215
  | .toc _ => .toc 0                                           -- nodes/include.py:327-342
  | .tocItem h => .tocItem h                                   -- nodes/include.py:296-304
  | .blockgroup _ n => .blockgroup 0 n                         -- nodes/include.py:399-411
  | .blockgroupItem g p => .blockgroupItem g p                 -- nodes/include.py:363-372
  | .label r => .label r                                       -- nodes/label.py:30-33

/-- The classes whose `deepcopy` copies the children (`_deepcopy_content`, or the class's own list:
`footnotes`, `entries`, `nested_entries`, `items`, `block`, `marker`). Same places as `copyFields`. -/
def copiesContent : NodeData → Bool
  | .style _ | .macroClass _ | .macroLink _ | .macroHeader .. | .paragraph | .paragraphLine | .header ..
  | .document | .list .. | .listItem _ | .block _ | .raw _ | .source .. | .sourceLine .. | .footnote ..
  | .footnotes _ | .includeMau _ | .includeRaw _ | .toc _ | .tocItem _ | .blockgroup .. | .blockgroupItem ..
  | .label _ => true
  | _ => false

/-- The classes whose `deepcopy` copies the labels (`_deepcopy_labels`). Same places as `copyFields`. -/
def copiesLabels : NodeData → Bool
  | .paragraph | .paragraphLine | .header .. | .horizontalRule | .list .. | .block _ | .raw _ | .source ..
  | .footnotes _ | .include _ | .includeImage .. | .includeMau _ | .includeRaw _ | .toc _ | .blockgroup ..
      => true
  | _ => false

/-- The only class with a second list of children copied is the table of contents (nodes/include.py:327-342). -/
def copiesExtra : NodeData → Bool
  | .toc _ => true
  | _ => false

mutual
/-- nodes/node.py:71-81 and the overrides — `deepcopy(parent)`; `next` is the next free identity. -/
def PNode.deepcopy (parent : Option Nat) : PNode → (next : Nat) → PNode × Nat
  | .mk _ _ data args ctx content labels extra, next =>
    let self := next
    -- plain entries are copied before the children (nodes/include.py:327-342), labels last
    let (es, n1) := if copiesExtra data then deepcopyList (some self) extra (next + 1) else ([], next + 1)
    let (cs, n2) := if copiesContent data then deepcopyList (some self) content n1 else ([], n1)
    let (ls, n3) := if copiesLabels data then deepcopyLabels (some self) labels n2 else ([], n2)
    (.mk self parent (copyFields data) args ctx cs ls es, n3)
/-- nodes/node.py:110-111 — `_deepcopy_content`. -/
def deepcopyList (parent : Option Nat) : List PNode → (next : Nat) → List PNode × Nat
  | [], next => ([], next)
  | n :: ns, next =>
    let (c, n1) := n.deepcopy parent next
    let (cs, n2) := deepcopyList parent ns n1
    (c :: cs, n2)
/-- nodes/node.py:121-124 — `_deepcopy_labels`. -/
def deepcopyLabels (parent : Option Nat) : List (Str × PNode) → (next : Nat) → List (Str × PNode) × Nat
  | [], next => ([], next)
  | (k, n) :: ns, next =>
    let (c, n1) := n.deepcopy parent next
    let (cs, n2) := deepcopyLabels parent ns n1
    ((k, c) :: cs, n2)
end

end Mau
