import Verif.Model.Arguments

/-!
# Nodes

Models the classes in `mau/nodes/*.py` as one tree type.

* `NodeData` gives the node class and its scalar fields.
* A reference to another node that is not owned (the header of a header link, the
  footnote of a footnote mention, ...) is the identity number of that node; the
  nodes that can be referred to or that are completed after parsing carry their
  identity number.
* Parent pointers are not part of the tree (see `Verif.Model.DeepCopy` for a model of
  parents and copying).
-/

namespace Mau

/-- The node classes with their own fields. -/
inductive NodeData where
  /-- nodes/inline.py:7-13 -/
  | word (value : Str)
  /-- nodes/inline.py:16-21 -/
  | text (value : Str)
  /-- nodes/inline.py:24-27 -/
  | verbatim (value : Str)
  /-- nodes/inline.py:30-64 -/
  | style (style : Str)
  /-- nodes/macro.py:61-88 -/
  | macro (name : Str)
  /-- nodes/macro.py:91-118 -/
  | macroClass (classes : List Str)
  /-- nodes/macro.py:121-149 -/
  | macroLink (target : Str)
  /-- nodes/macro.py:152-183 -/
  | macroImage (uri : Str) (altText width height : Option Str)
  /-- nodes/macro.py:186-222; `header` refers to a header node -/
  | macroHeader (id : Nat) (targetName : Str) (header : Option Nat)
  /-- nodes/macro.py:225-250; `footnote` refers to a footnote node -/
  | macroFootnote (id : Nat) (name : Str) (footnote : Option Nat)
  /-- nodes/macro.py:253-256 -/
  | macroUnicode (value : Str)
  /-- nodes/macro.py:259-262 -/
  | macroRaw (value : Str)
  /-- nodes/paragraph.py:41-70 -/
  | paragraph
  /-- nodes/paragraph.py:12-38 -/
  | paragraphLine
  /-- nodes/header.py:23-74 -/
  | header (id level : Nat) (internalId name : Option Str)
  /-- nodes/document.py:17-39 -/
  | horizontalRule
  /-- nodes/document.py:42-51 -/
  | document
  /-- nodes/list.py:67-104 -/
  | list (ordered mainNode : Bool) (start : Int)
  /-- nodes/list.py:41-64 -/
  | listItem (level : Nat)
  /-- nodes/block.py:12-51 -/
  | block (classes : List Str)
  /-- nodes/raw.py:17-48 -/
  | raw (classes : List Str)
  /-- nodes/raw.py:7-14 -/
  | rawLine (value : Str)
  /-- nodes/source.py:48-86 -/
  | source (language : Option Str) (classes : List Str)
  /-- nodes/source.py:13-45; the marker, if any, is the only child -/
  | sourceLine (number : Nat) (content : Str) (highlight : Option Str)
  /-- nodes/source.py:7-10 -/
  | sourceMarker (value : Str)
  /-- nodes/footnote.py:7-52 -/
  | footnote (id : Nat) (name : Str) (publicId internalId : Option Str)
  /-- nodes/include.py — `FootnotesNode`; the items are the children -/
  | footnotes (id : Nat)
  /-- nodes/include.py — `FootnotesItemNode`, referring to a footnote -/
  | footnotesItem (footnote : Nat)
  /-- nodes/include.py — `IncludeNode` -/
  | include (ctype : Str)
  /-- nodes/include.py — `IncludeImageNode` -/
  | includeImage (uri : Str) (altText : Option Str) (classes : List Str)
  /-- nodes/include.py — `IncludeMauNode` -/
  | includeMau (uri : Str)
  /-- nodes/include.py — `IncludeRawNode` -/
  | includeRaw (uri : Str)
  /-- nodes/include.py — `TocNode`; nested entries are the children, the plain entries
  the extra children -/
  | toc (id : Nat)
  /-- nodes/include.py — `TocItemNode`, referring to a header; entries are the children -/
  | tocItem (header : Nat)
  /-- nodes/include.py — `BlockGroupNode`; the items are the children -/
  | blockgroup (id : Nat) (name : Str)
  /-- nodes/include.py — `BlockGroupItemNode`; the block is the only child -/
  | blockgroupItem (group position : Str)
  /-- nodes/label.py:9-39 -/
  | label (role : Str)
  deriving DecidableEq, Repr

/-- nodes/node.py:44-163 — a node: class and fields, arguments, context, content, labels
(in insertion order) and, for tables of contents, a second list of children. -/
inductive Node where
  | mk (data : NodeData) (args : NodeArgs) (ctx : Context) (content : List Node)
      (labels : List (Str × Node)) (extra : List Node)
  deriving Repr

namespace Node

/-- The class and fields. -/
def data : Node → NodeData | mk d _ _ _ _ _ => d
/-- The arguments. -/
def args : Node → NodeArgs | mk _ a _ _ _ _ => a
/-- The context. -/
def ctx : Node → Context | mk _ _ c _ _ _ => c
/-- The children. -/
def content : Node → List Node | mk _ _ _ c _ _ => c
/-- The labels by role. -/
def labels : Node → List (Str × Node) | mk _ _ _ _ l _ => l
/-- The second list of children. -/
def extra : Node → List Node | mk _ _ _ _ _ e => e

/-- Node constructor with the defaults of `Node.__init__` (nodes/node.py:47-57). -/
def new (d : NodeData) (ctx : Context) (content : List Node := []) (args : NodeArgs := {})
    (labels : List (Str × Node) := []) : Node := mk d args ctx content labels []

end Node

end Mau
