import Verif.Model.Jinja

/-!
# Specification of templates

What it means that a template fits a node, which template is the best one, and what the name of a
template says.
-/

namespace Mau
namespace Spec

/-- An optional claim is met: there is none (an empty value counts as none), or it is the value. -/
def Claims (claim : Option Str) (value : Option Str) : Prop :=
  ∀ s, claim = some s → s ≠ [] → value = some s

/-- The names by which templates refer to the classes of nodes, as documented. -/
def className : NodeData → Str
  | .word _ => c%"word" | .text _ => c%"text" | .verbatim _ => c%"verbatim"
  | .style _ => c%"style" | .macro _ => c%"macro" | .macroClass _ => c%"macro-class"
  | .macroLink _ => c%"macro-link" | .macroImage .. => c%"macro-image" | .macroHeader .. => c%"macro-header"
  | .macroFootnote .. => c%"macro-footnote" | .macroUnicode _ => c%"macro-unicode" | .macroRaw _ => c%"macro-raw"
  | .paragraph => c%"paragraph" | .paragraphLine => c%"paragraph-line" | .header .. => c%"header"
  | .horizontalRule => c%"horizontal-rule" | .document => c%"document" | .list .. => c%"list"
  | .listItem _ => c%"list-item" | .block _ => c%"block" | .raw _ => c%"raw"
  | .rawLine _ => c%"raw-line" | .source .. => c%"source" | .sourceLine .. => c%"source-line"
  | .sourceMarker _ => c%"source-marker" | .footnote .. => c%"footnote" | .footnotes _ => c%"footnotes"
  | .footnotesItem _ => c%"footnotes-item" | .include _ => c%"include" | .includeImage .. => c%"include-image"
  | .includeMau _ => c%"include-mau" | .includeRaw _ => c%"include-raw" | .toc _ => c%"toc"
  | .tocItem _ => c%"toc-item" | .blockgroup .. => c%"blockgroup" | .blockgroupItem .. => c%"blockgroup-item"
  | .label _ => c%"label"

/-- `Field d key value`: what templates can ask about the node beside its class, subtype and tags: the style of styled text, the name of a
macro, of a group, the role of a label, the content type of an include, the position of a block in a group. -/
inductive Field : NodeData → Str → Str → Prop where
  | style {v : Str} : Field (.style v) c%"style" v
  | macro {v : Str} : Field (.macro v) c%"name" v
  | label {v : Str} : Field (.label v) c%"role" v
  | include {v : Str} : Field (.include v) c%"ctype" v
  | position {g v : Str} : Field (.blockgroupItem g v) c%"position" v
  | group {i : Nat} {v : Str} : Field (.blockgroup i v) c%"name" v

/-- Every claim of the template, except the one on the prefix, is true of the node `n`, which is a child of `parent`. -/
structure Fits (t : Template) (n : Node) (parent : Option Node) : Prop where
  type : t.type = className n.data
  subtype : Claims t.subtype n.args.subtype
  tags : ∀ tag ∈ t.tags, tag ∈ n.args.tags
  custom : ∀ kv ∈ t.custom, Field n.data kv.1 kv.2
  parentType : Claims t.parentType (parent.map (className ·.data))
  parentSubtype : Claims t.parentSubtype (parent.bind (·.args.subtype))
  parentCustom : ∀ kv ∈ t.parentCustom, ∃ p, parent = some p ∧ Field p.data kv.1 kv.2

/-- Every claim of the template, except the one on the prefix, is true of the node. -/
structure FitsNode (t : Template) (n : NodeFacts) (parent : Option NodeFacts) : Prop where
  type : t.type = n.type
  subtype : Claims t.subtype n.subtype
  tags : ∀ tag ∈ t.tags, tag ∈ n.tags
  custom : ∀ kv ∈ t.custom, Dict.get? n.custom kv.1 = some kv.2
  parentType : Claims t.parentType (parent.map (·.type))
  parentSubtype : Claims t.parentSubtype (parent.bind (·.subtype))
  parentCustom : ∀ kv ∈ t.parentCustom, ∃ p, parent = some p ∧ Dict.get? p.custom kv.1 = some kv.2

/-- A single claim counts as one, an absent or empty one as none. -/
def countOne : Option Str → Nat
  | none | some [] => 0
  | some _ => 1

/-- How specific a template is: the numbers of its claims, the most important kind first; two
templates are compared kind by kind. -/
def rank (t : Template) : List Nat :=
  [t.custom.length, countOne t.subtype, countOne t.pref, countOne t.parentType,
   t.parentCustom.length, countOne t.parentSubtype, t.tags.length]

/-- `t` is the template a user expects for the node: it fits; its prefix is the first one in the list
of the configured prefixes, followed by "no prefix", under which a template fits; it is more
specific than the fitting templates with this prefix that are defined before it, and not less
specific than those defined after it. -/
def Best (defs : List Template) (prefixes : List Str) (n : NodeFacts) (parent : Option NodeFacts)
    (t : Template) : Prop :=
  FitsNode t n parent ∧
  (∃ before after, prefixes.map some ++ [none] = before ++ t.pref :: after ∧
    ∀ u ∈ defs, FitsNode u n parent → u.pref ∉ before) ∧
  ∃ earlier later, defs = earlier ++ t :: later ∧
    (∀ u ∈ earlier, FitsNode u n parent → u.pref = t.pref → rank u < rank t) ∧
    (∀ u ∈ later, FitsNode u n parent → u.pref = t.pref → rank u ≤ rank t)

/-- A claim in the name of a template. -/
inductive Claim where
  | subtype (s : Str)
  | pref (s : Str)
  | parentType (s : Str)
  | parentSubtype (s : Str)
  | tag (s : Str)
  | custom (key value : Str)
  | parentCustom (key value : Str)
  deriving DecidableEq, Repr

/-- How a claim is written. -/
def Claim.text : Claim → Str
  | .subtype s => s
  | .pref s => c%"pf_" ++ s
  | .parentType s => c%"pt_" ++ s
  | .parentSubtype s => c%"pts_" ++ s
  | .tag s => c%"tg_" ++ s
  | .custom k v => k ++ c%"__" ++ v
  | .parentCustom k v => c%"pts_" ++ k ++ c%"__" ++ v

/-- The string contains two underscores in a row. -/
def DoubleUnderscore (s : Str) : Prop := ∃ a b, s = a ++ c%"__" ++ b

/-- The string begins like a tag, prefix or parent claim. -/
def Reserved (s : Str) : Prop :=
  ∃ r, s = c%"pf_" ++ r ∨ s = c%"pt_" ++ r ∨ s = c%"pts_" ++ r ∨ s = c%"tg_" ++ r

/-- The claims that can be written: no dots; a name or value has no double underscore, the name of a
custom field does not end with an underscore, and subtypes and custom fields do not look
like other claims. -/
def Claim.Writable (c : Claim) : Prop :=
  '.' ∉ c.text ∧
  match c with
  | .subtype s => ¬ DoubleUnderscore s ∧ ¬ Reserved s
  | .parentSubtype s => ¬ DoubleUnderscore s
  | .custom k v => ¬ DoubleUnderscore (k ++ c%"_") ∧ ¬ DoubleUnderscore v ∧ ¬ Reserved (k ++ c%"__")
  | .parentCustom k v => ¬ DoubleUnderscore (k ++ c%"_") ∧ ¬ DoubleUnderscore v
  | _ => True

/-- The name of a template: the type and the claims, separated by dots. -/
def templateName (type : Str) (claims : List Claim) : Str :=
  joinWith c%"." (type :: claims.map Claim.text)

/-- The claim is among the claims of the template. -/
def Says (t : Template) : Claim → Prop
  | .subtype s => t.subtype = some s
  | .pref s => t.pref = some s
  | .parentType s => t.parentType = some s
  | .parentSubtype s => t.parentSubtype = some s
  | .tag s => s ∈ t.tags
  | .custom k v => Dict.get? t.custom k = some v
  | .parentCustom k v => Dict.get? t.parentCustom k = some v

/-- Two claims contradict each other: only one subtype, prefix, parent type and parent subtype can be
claimed, and only one value for a custom field. -/
def Contradict : Claim → Claim → Prop
  | .subtype a, .subtype b => a ≠ b
  | .pref a, .pref b => a ≠ b
  | .parentType a, .parentType b => a ≠ b
  | .parentSubtype a, .parentSubtype b => a ≠ b
  | .custom k a, .custom l b => k = l ∧ a ≠ b
  | .parentCustom k a, .parentCustom l b => k = l ∧ a ≠ b
  | _, _ => False

end Spec
end Mau
