import Verif.Spec.Document
import Verif.Spec.Tree

/-!
# Specification: what is done after the last line

The nodes of a document, the state after its last line, and the outline of its headers, in terms of the nodes of the output.
-/

namespace Mau.Spec

/-- The request for a new parser counts identities from a number larger than all identities in use (`0` is no identity). The request
for a whole document starts with `1`. -/
def Fresh (req : NestedReq) : Prop := 0 < req.uid ∧ ∀ n, Occ n req.objs → n.data.id < req.uid

/-- The document parser with the fuel `n`, asked for `req`, is in the state `s0` after the last line, before footnotes, tables of
contents, links and groups are completed. -/
def ReadsTo (cfg : Config) (n : Nat) (req : NestedReq) (s0 : DocSt) : Prop :=
  Usual (initEnv req.env) ∧ ∃ m, n = m + 1 ∧ Parser.run ⟨cfg, parseDocument cfg m, m, req.source⟩ req.startLine req.startColumn (splitChar '\n' req.text) (initial req) = .ok s0

/-- The trees of a document: its nodes, the texts of its footnotes, the blocks of its groups, and the headers and footnotes references
can point to (without those which were there before). -/
def ownTrees (req : NestedReq) (s : DocSt) : List Node :=
  s.nodes ++ (s.bodies.map (·.2) ++ s.groups.flatMap (fun g => g.2.map (·.2)) ++ s.objs.drop req.objs.length)

/-- Identity and level of a header. -/
def headerEntry (n : Node) : Option (Nat × Nat) :=
  match n.data with
  | .header i l _ _ => some (i, l)
  | _ => none

/-- The identities of everything that is collected to be completed at the end: mentions, links, headers, tables of contents, lists of
footnotes, groups. -/
def collected (s : DocSt) : List Nat :=
  s.footnoteMacros.map (·.1) ++ s.linkMacros.map (·.1) ++ s.tocHeaders.map (·.1) ++ s.tocNodes ++ s.footnoteLists ++ s.groupNodes.map (·.1)

/-- A completion of trees: identities, arguments and positions remain, and nodes without identity (all except headers, mentions, links,
tables of contents, lists of footnotes and groups) keep their class, and contain the completed nodes. -/
structure _root_.Mau.Completion (F : Node → Node) : Prop where
  id : ∀ n, (F n).data.id = n.data.id
  args : ∀ n, (F n).args = n.args
  ctx : ∀ n, (F n).ctx = n.ctx
  plain : ∀ n, n.data.id = 0 → F n = .mk n.data n.args n.ctx (n.content.map F) (n.labels.map fun e => (e.1, F e.2)) (n.extra.map F)

/-- The first of the names which is not defined, with the identity of the node that uses it. -/
def firstMissing {α : Type} (uses : List (Nat × Str)) (defined : Dict α) : Option (Nat × Str) :=
  uses.find? fun e => (Dict.get? defined e.2).isNone

/-! ## The text of nodes -/

/-- Nodes that show a text: words, plain text, verbatim text, characters given by number, raw text, and the values in raw and source blocks. -/
inductive Shows : NodeData → Str → Prop where
  | word {v : Str} : Shows (.word v) v
  | text {v : Str} : Shows (.text v) v
  | verbatim {v : Str} : Shows (.verbatim v) v
  | unicode {v : Str} : Shows (.macroUnicode v) v
  | raw {v : Str} : Shows (.macroRaw v) v
  | rawLine {v : Str} : Shows (.rawLine v) v
  | marker {v : Str} : Shows (.sourceMarker v) v

/-- Nodes that have a content which is a part of the text. -/
inductive Wraps : NodeData → Prop where
  | style {v : Str} : Wraps (.style v)
  | class_ {v : List Str} : Wraps (.macroClass v)
  | link {v : Str} : Wraps (.macroLink v)
  | headerLink {i : Nat} {t : Str} {h : Option Nat} : Wraps (.macroHeader i t h)
  | paragraph : Wraps .paragraph
  | line : Wraps .paragraphLine
  | header {i l : Nat} {a b : Option Str} : Wraps (.header i l a b)
  | document : Wraps .document
  | list {o m : Bool} {st : Int} : Wraps (.list o m st)
  | item {l : Nat} : Wraps (.listItem l)
  | block {v : List Str} : Wraps (.block v)
  | footnote {i : Nat} {nm : Str} {p q : Option Str} : Wraps (.footnote i nm p q)
  | includeMau {v : Str} : Wraps (.includeMau v)
  | includeRaw {v : Str} : Wraps (.includeRaw v)
  | label {v : Str} : Wraps (.label v)

/-- `Wording ns t`: the text of the nodes `ns`, without formatting, is `t`. -/
inductive Wording : List Node → Str → Prop where
  | nil : Wording [] []
  | shows {n : Node} {ns : List Node} {v t : Str} (h : Shows n.data v) (hs : Wording ns t) : Wording (n :: ns) (v ++ t)
  | wraps {n : Node} {ns : List Node} {v t : Str} (h : Wraps n.data) (hc : Wording n.content v) (hs : Wording ns t) : Wording (n :: ns) (v ++ t)
  | silent {n : Node} {ns : List Node} {t : Str} (h : ∀ v, ¬ Shows n.data v) (hw : ¬ Wraps n.data) (hs : Wording ns t) : Wording (n :: ns) t

/-! ## Outline -/

/-- The nearest of the headers `before` with a level smaller than `l`. Headers are given as (identity, level). -/
def parentOf (before : List (Nat × Nat)) (l : Nat) : Option Nat :=
  (before.reverse.find? fun h => decide (h.2 < l)).map (·.1)

/-- All headers of the list in order, each with its parent: the nearest header before it with a smaller level, if there is one. -/
def withParents (before : List (Nat × Nat)) : List (Nat × Nat) → List (Nat × Option Nat)
  | [] => []
  | h :: hs => (h.1, parentOf before h.2) :: withParents (before ++ [h]) hs

mutual
/-- The entries of a table of contents from top to bottom, each with the entry it is placed under. -/
def entryList (parent : Option Nat) : Node → List (Nat × Option Nat)
  | .mk (.tocItem h) _ _ cs _ _ => (h, parent) :: entriesList (some h) cs
  | _ => []
/-- The same for a list of entries. -/
def entriesList (parent : Option Nat) : List Node → List (Nat × Option Nat)
  | [] => []
  | n :: ns => entryList parent n ++ entriesList parent ns
end

end Mau.Spec
