import Verif.Model.DocumentParser

/-!
# Specification: nodes and errors without their positions

`Node.adrift`: a node without line and column numbers (the name of the source stays). `Err.said`: an error without the position it points at.
-/

namespace Mau.Spec

/-- A context without line and column numbers. -/
def Context.adrift (c : Context) : Context := ⟨0, 0, 0, 0, c.source⟩

mutual
/-- A node, and everything inside, without line and column numbers. -/
def Node.adrift : Node → Node
  | .mk d a c cs ls ex => .mk d a (Context.adrift c) (adriftList cs) (adriftLabels ls) (adriftList ex)
/-- The same for lists of nodes. -/
def adriftList : List Node → List Node
  | [] => []
  | n :: ns => Node.adrift n :: adriftList ns
/-- The same for labels. -/
def adriftLabels : List (Str × Node) → List (Str × Node)
  | [] => []
  | (k, n) :: ns => (k, Node.adrift n) :: adriftLabels ns
end

/-- An error without the position it points at. -/
def Err.said : Err → Err
  | .lexer m _ _ src => .lexer m 0 0 src
  | .parser m c => .parser m (c.map Context.adrift)
  | .visitor m n => .visitor m (n.map fun x => (x.1, Context.adrift x.2))
  | e => e

/-- An entry of the log of includes without line and column numbers. -/
def IncludeCall.adrift (i : IncludeCall) : IncludeCall := { i with ctx := Context.adrift i.ctx }

/-- What a document parser returns, without line and column numbers. -/
def DocOutput.adrift (o : DocOutput) : DocOutput :=
  { o with
    document := o.document.map Node.adrift
    toc := o.toc.map fun t => (t.1, adriftList t.2)
    includeCalls := o.includeCalls.map IncludeCall.adrift
    objs := adriftList o.objs }

/-- The result of reading a document, without line and column numbers: what the parser returns, or the error. -/
def meaningOf (r : Except Err DocSt) : Except Err DocOutput :=
  match r with
  | .ok s => .ok (DocOutput.adrift s.output)
  | .error e => .error (Err.said e)

/-- The result of reading inline text, without line and column numbers: the nodes, the mentions of footnotes and the links to headers, or the error. -/
def meaningOfText (r : Except Err TextResult) : Except Err (List Node × List (Nat × Str) × List (Nat × Str)) :=
  match r with
  | .ok r => .ok (adriftList r.nodes, r.footnoteMacros, r.headerLinks)
  | .error e => .error (Err.said e)

/-- The result of reading arguments, without line and column numbers. -/
def meaningOfArguments (r : Except Err ParsedArgs) : Except Err NodeArgs :=
  match r with
  | .ok p => .ok p.arguments
  | .error e => .error (Err.said e)

/-- The functions that make the identities of headers and footnotes do not look at line and column numbers. -/
structure Positionless (cfg : Config) : Prop where
  header : ∀ n, cfg.headerId (Node.adrift n) = cfg.headerId n
  footnote : ∀ n, cfg.footnoteId (Node.adrift n) = cfg.footnoteId n

/-- Lines that say nothing: blank lines and comments. -/
inductive SaysNothing : List Str → Prop where
  | nil : SaysNothing []
  | blank {l : Str} {rest : List Str} (h : ∀ c ∈ l, c = ' ') (hr : SaysNothing rest) : SaysNothing (l :: rest)
  | comment {r : Str} {rest : List Str} (h : r ≠ c%"//") (hn : '\n' ∉ r) (hr : SaysNothing rest) : SaysNothing (('/' :: '/' :: r) :: rest)
  | comments {cs rest : List Str} (h : c%"////" ∉ cs) (hn : ∀ l ∈ cs, '\n' ∉ l) (hr : SaysNothing rest) : SaysNothing (c%"////" :: (cs ++ c%"////" :: rest))

/-- Each line followed by a line break. -/
def ended (ls : List Str) : Str := ls.flatMap fun l => l ++ ['\n']

end Mau.Spec
