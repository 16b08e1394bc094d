import Verif.Spec.Lists
import Verif.Spec.Inline
import Verif.Spec.Conditions

/-!
# Specification: the nodes of a document

What the properties of documents say about nodes and states, without the steps of the parser.
-/

namespace Mau.Spec

/-- In the environment `env` the text, with the references to variables replaced, parses to the nodes `ns` (up to positions and
identity numbers). -/
def Inlines (env : Env) (text : Str) (ns : List Node) : Prop :=
  ∀ (line column : Nat) (source : Option Str), ∃ tok, preprocess env text line column source = .ok tok ∧ ParsesTo env tok.value ns

/-- The state `s'` differs from `s` only by mentions of footnotes and headers that were collected (and by the next identity
number). -/
structure OnlyMentions (s s' : DocSt) : Prop where
  rest : s' = { s with uid := s'.uid, footnoteMacros := s'.footnoteMacros, linkMacros := s'.linkMacros, places := s'.places }
  footnotes : s.footnoteMacros <+: s'.footnoteMacros
  links : s.linkMacros <+: s'.linkMacros

/-- `n` holds the parse of `text` at the position `ctx`: some state with the variables `env` gives these nodes. -/
def HoldsParse (P : Parser) (env : Env) (text : Str) (ctx : Context) (content : List Node) : Prop :=
  ∃ s s', s.env = env ∧ P.inline s text ctx = .ok (content, s')

/-- The lines of a paragraph: one node per line, in order, at the position of the line, with the parse of the line. -/
inductive ParagraphLines (P : Parser) (env : Env) : (ln col : Nat) → List Str → List Node → Prop where
  | nil {ln col : Nat} : ParagraphLines P env ln col [] []
  | cons {ln col : Nat} {l : Str} {ls : List Str} {content ns : List Node}
      (h : HoldsParse P env l (at_ P.src ln col l.length) content) (hs : ParagraphLines P env (ln + 1) 0 ls ns) :
      ParagraphLines P env ln col (l :: ls) (Node.new .paragraphLine (at_ P.src ln col l.length) content :: ns)

/-- The texts of the lines parse to the nodes `nss`, line by line. -/
inductive InlinesAll (env : Env) : List Str → List (List Node) → Prop where
  | nil : InlinesAll env [] []
  | cons {l : Str} {ls : List Str} {ns : List Node} {nss : List (List Node)} (h : Inlines env l ns) (hs : InlinesAll env ls nss) :
      InlinesAll env (l :: ls) (ns :: nss)

/-- The text with its references replaced is `v`, wherever it stands. -/
def Replaced (env : Env) (text v : Str) : Prop :=
  ∀ (line column : Nat) (source : Option Str), (preprocess env text line column source).map (·.value) = .ok v

/-- The environment `env'` is `env` with exactly one change: `name` has the value `v`. -/
def Defines (env env' : Env) (name v : Str) : Prop :=
  Dict.get? env' name = some (.str v) ∧ ∀ k, k ≠ name → Dict.get? env' k = Dict.get? env k

/-- The line `:name:value`. -/
def definitionLine (name value : Str) : Str := ':' :: (name ++ ':' :: value)

/-- A name of a variable in a definition. -/
def VarName (name : Str) : Prop := name ≠ [] ∧ ∀ c ∈ name, isVarChar c = true

/-- The line `== text` with `n` signs and the spaces `sp`. -/
def headerLine (n : Nat) (sp text : Str) : Str := List.replicate n '=' ++ sp ++ text

/-- The text of a header: not empty, without leading spaces; directly after the signs it does not start with a sign. -/
structure HeaderText (sp text : Str) : Prop where
  spaces : Spaces sp
  nonempty : text ≠ []
  noSpace : text.head? ≠ some ' '
  noSign : sp = [] → text.head? ≠ some '='

/-- The nodes without positions and identity numbers of the lines of a paragraph, if the lines parse to `nss`. -/
def lineNodes (nss : List (List Node)) : List Node := nss.map fun ns => node .paragraphLine ns

/-! ## One construct, one node -/

/-- The kinds of constructs that give a node of the document. -/
inductive Kind where
  | rule | header | paragraph | list | block | incl
  deriving DecidableEq

/-- `Construct P s ln col ls rest k a x`: in the state `s` the lines `ls`, followed by `rest`, are one construct of kind `k` with the
arguments `a`, and reading it is the step `x`. Blocks and includes: the parser for nested documents is `P.nested`. -/
inductive Construct (P : Parser) (s : DocSt) (ln col : Nat) : List Str → List Str → Kind → NodeArgs → Except Err DocSt → Prop where
  /-- `---` -/
  | rule {rest : List Str} : Construct P s ln col [c%"---"] rest .rule (args s) (ruleStep s (at_ P.src ln col 3))
  /-- `== text` -/
  | header {l signs sp v : Str} {rest : List Str} (hl : SpecialLine l [.tok .HEADER signs, .skip sp, .tok .TEXT v]) :
      Construct P s ln col [l] rest .header (args s) (P.headerStep s signs.length v (at_ P.src ln col signs.length)
        (at_ P.src ln (col + signs.length + sp.length) v.length))
  /-- text lines -/
  | paragraph {ls rest : List Str} (hl : ∀ l ∈ ls, TextLine l) (hne : ls ≠ []) (hr : NoText rest) :
      Construct P s ln col ls rest .paragraph (args s) (P.paragraphStep s (textToks P.src ln col ls))
  /-- list lines at least as deep as the first -/
  | list {i : ItemLine} {is : List ItemLine} {rest : List Str} {s1 : DocSt} {es : List Entry} {ns : List Node}
      (hi : ∀ j ∈ i :: is, j.Ok ∧ i.mark.length ≤ j.mark.length) (hr : AfterList i.mark.length rest)
      (hits : P.items s (itemToks P.src ln col (i :: is)) = .ok (es, s1)) (hns : Lists i.mark.length es ns) :
      Construct P s ln col ((i :: is).map (·.line)) rest .list (args s) (listStep s1 (tokAt .LIST i.mark ln (col + i.indent.length) P.src) ns)
  /-- a block between two lines of four equal characters -/
  | block {ch : Char} {cs rest : List Str} (h1 : ch ≠ '/') (h2 : ch ≠ ' ') (hc : [ch, ch, ch, ch] ∉ cs) :
      Construct P s ln col ([ch, ch, ch, ch] :: (cs ++ [[ch, ch, ch, ch]])) rest .block (args s)
        (P.blockStep s (contentTok P.src (ln + 1) cs) ((at_ P.src ln col 4).merge (at_ P.src (ln + cs.length + 1) 0 4)))
  /-- `<< type` -/
  | incl {l sp ty : Str} {rest : List Str} (hl : SpecialLine l [.tok .INCLUDE c%"<<", .skip sp, .tok .TEXT ty]) :
      Construct P s ln col [l] rest .incl (args s)
        (P.includeStep s ty (args s) ((at_ P.src ln col 2).merge (at_ P.src ln (col + 2 + sp.length) ty.length)))
  /-- `<< type:arguments` -/
  | inclArgs {l sp ty v : Str} {rest : List Str} {a : ParsedArgs}
      (hl : SpecialLine l [.tok .INCLUDE c%"<<", .skip sp, .tok .TEXT ty, .tok .LITERAL [':'], .tok .TEXT v])
      (ha : processArgumentsWithVariables s.env (tokAt .TEXT v ln (col + 2 + sp.length + ty.length + 1) P.src) = .ok a) :
      Construct P s ln col [l] rest .incl a.arguments
        (P.includeInline s ty (tokAt .TEXT v ln (col + 2 + sp.length + ty.length + 1) P.src)
          ((at_ P.src ln col 2).merge (at_ P.src ln (col + 2 + sp.length) ty.length)))

/-- The arguments that a construct uses for itself. -/
def Kind.uses : Kind → List Str
  | .rule | .paragraph | .list => []
  | .header => [c%"internal_id", c%"name"]
  | .block => [c%"classes", c%"engine", c%"language", c%"marker_delimiter", c%"highlight_marker", c%"highlight_default_style"]
  | .incl => [c%"uri", c%"alt_text", c%"classes", c%"pass_environment", c%"group"]

/-- The arguments `b` are what is left of the arguments `a` after the construct took its own: tags and subtype are the same, the other
keys have the same values (includes also take the `call:` arguments); the first positional values may have been taken. -/
structure LeftOf (k : Kind) (a b : NodeArgs) : Prop where
  tags : b.tags = a.tags
  internalTags : b.internalTags = a.internalTags
  subtype : b.subtype = a.subtype
  named : ∀ key, key ∉ k.uses → ¬ (k = .incl ∧ c%"call:" <+: key) → Dict.get? b.named key = Dict.get? a.named key
  unnamed : ∃ n, b.unnamed = a.unnamed.drop n
  none : a = {} → b = {}

/-! ## What stands before a construct -/

/-- What a line before a construct attaches to it. -/
inductive Attached where
  | args (a : NodeArgs)
  | label (role : Str) (n : Node)
  | control (c : Control)

/-- The arguments of the last line of arguments, if there is one. -/
def lastArgs (start : Option NodeArgs) : List Attached → Option NodeArgs
  | [] => start
  | .args a :: as => lastArgs (some a) as
  | _ :: as => lastArgs start as

/-- The condition of the last control, if there is one. -/
def lastControl (start : Option Control) : List Attached → Option Control
  | [] => start
  | .control c :: as => lastControl (some c) as
  | _ :: as => lastControl start as

/-- The last label of a role, if there is one. -/
def lastLabel (role : Str) (start : Option Node) : List Attached → Option Node
  | [] => start
  | .label r n :: as => lastLabel role (if r = role then some n else start) as
  | _ :: as => lastLabel role start as

/-- The role of a label: without role it is the title. -/
def roleOf (role : Str) : Str := if role = [] then c%"title" else role

/-- The node of a label. -/
def labelNode (role : Str) (content : List Node) : Node := Node.new (.label (roleOf role)) Context.empty content

/-- `Prelude P ln col ls rest s as s1`: the lines `ls`, followed by `rest`, are argument lines, labels, controls, definitions of
variables, blank lines and comments. Read in the state `s` they attach `as` (in this order) and the state afterwards is `s1`. -/
inductive Prelude (P : Parser) (rest : List Str) : (ln col : Nat) → List Str → DocSt → List Attached → DocSt → Prop where
  | nil {ln col : Nat} {s : DocSt} : Prelude P rest ln col [] s [] s
  | blank {ln col : Nat} {l : Str} {ls : List Str} {s s1 : DocSt} {as : List Attached} (h : Spaces l)
      (hs : Prelude P rest (ln + 1) 0 ls s as s1) : Prelude P rest ln col (l :: ls) s as s1
  | comment {ln col : Nat} {l : Str} {ls : List Str} {s s1 : DocSt} {as : List Attached} (h : SpecialLine l [])
      (hs : Prelude P rest (ln + 1) 0 ls s as s1) : Prelude P rest ln col (l :: ls) s as s1
  | comments {ln col : Nat} {cs ls : List Str} {s s1 : DocSt} {as : List Attached} (h : c%"////" ∉ cs)
      (hs : Prelude P rest (ln + cs.length + 2) 0 ls s as s1) : Prelude P rest ln col (c%"////" :: (cs ++ c%"////" :: ls)) s as s1
  /-- `[text]` -/
  | arguments {ln col : Nat} {a : Str} {p : ParsedArgs} {ls : List Str} {s s1 : DocSt} {as : List Attached}
      (h : processArgumentsWithVariables s.env (tokAt .TEXT a ln (col + 1) P.src) = .ok p)
      (hs : Prelude P rest (ln + 1) 0 ls { s with argsBuf := some p.arguments } as s1) :
      Prelude P rest ln col (('[' :: (a ++ [']'])) :: ls) s (.args p.arguments :: as) s1
  /-- `.role text`; without role it is the title -/
  | label {ln col : Nat} {l role sp v : Str} {ls : List Str} {s s0 s1 : DocSt} {as : List Attached} {content : List Node}
      (hl : SpecialLine l [.tok .LABEL ('.' :: role), .skip sp, .tok .TEXT v])
      (h : P.inline s v (at_ P.src ln (col + 1 + role.length + sp.length) v.length) = .ok (content, s0))
      (hs : Prelude P rest (ln + 1) 0 ls { s0 with labelBuf := Dict.set s.labelBuf (roleOf role) (labelNode role content) } as s1) :
      Prelude P rest ln col (l :: ls) s (.label (roleOf role) (labelNode role content) :: as) s1
  /-- `@if condition` -/
  | control {ln col : Nat} {l sp v text var value : Str} {neg : Bool} {ls : List Str} {s s1 : DocSt} {as : List Attached}
      (hl : SpecialLine l [.tok .CONTROL ['@'], .tok .TEXT c%"if", .skip sp, .tok .TEXT v])
      (hv : Replaced s.env v text) (hn : '\n' ∉ text) (h : ConditionText text var neg value)
      (hs : Prelude P rest (ln + 1) 0 ls { s with controlBuf := some ⟨var, neg, value, at_ P.src ln col (3 + sp.length + v.length)⟩ } as s1) :
      Prelude P rest ln col (l :: ls) s (.control ⟨var, neg, value, at_ P.src ln col (3 + sp.length + v.length)⟩ :: as) s1
  /-- `:name:value` -/
  | define {ln col : Nat} {l name v : Str} {ls : List Str} {s s1 : DocSt} {as : List Attached} {env : Env}
      (hl : SpecialLine l [.tok .VARIABLE [':'], .tok .TEXT name, .tok .LITERAL [':'], .tok .TEXT v])
      (h : defineStep s name v (at_ P.src ln col (name.length + 2 + v.length)) = .ok { s with env := env })
      (hs : Prelude P rest (ln + 1) 0 ls { s with env := env } as s1) : Prelude P rest ln col (l :: ls) s as s1
  /-- `:+name:` -/
  | flag {ln col : Nat} {l name : Str} {ls : List Str} {s s1 : DocSt} {as : List Attached} {env : Env}
      (hl : SpecialLine l [.tok .VARIABLE [':'], .tok .TEXT name, .tok .LITERAL [':']]) (hr : NoText (ls ++ rest))
      (h : defineStep s name [] (at_ P.src ln col (name.length + 2)) = .ok { s with env := env })
      (hs : Prelude P rest (ln + 1) 0 ls { s with env := env } as s1) : Prelude P rest ln col (l :: ls) s as s1

/-- A block with these arguments does not become a node of the document but a footnote or a member of a group. -/
def Diverted (k : Kind) (a : NodeArgs) : Prop :=
  k = .block ∧ ((∃ v, v ≠ [] ∧ Dict.get? a.named c%"footnote" = some v) ∨
    ((∃ v, v ≠ [] ∧ Dict.get? a.named c%"group" = some v) ∧ ∃ v, v ≠ [] ∧ Dict.get? a.named c%"position" = some v))

/-- The classes written as `v`: separated by commas; nothing stands for no classes. -/
def Classes (v : Option Str) (cs : List Str) : Prop :=
  match v with
  | none | some [] => cs = []
  | some v => joinWith [','] cs = v ∧ ∀ c ∈ cs, ',' ∉ c

end Mau.Spec
