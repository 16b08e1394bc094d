import Verif.Spec.LineForms
import Verif.Model.DocumentParser

/-!
# Specification: reading a document line by line

A document parser in any state reads some lines (`Parser.run`). What a line does to the parser is given by
functions on the state. The state holds what the parser has produced (`nodes`, headers, footnotes, ...), the
variables (`env`), and what waits for the next node: arguments (`argsBuf`), labels (`labelBuf`) and a control
(`controlBuf`).
-/

namespace Mau.Spec

/-- A document parser: the world outside, the parser for blocks and included files, the recursion budget of
inline text, and the file that is read. -/
structure Parser where
  cfg : Config
  nested : NestedParser
  fuel : Nat
  src : Option Str

/-- A state with the token index at the start (the index is not part of what is observed). -/
def start (s : DocSt) : DocSt := { s with next := 0 }

/-- The parser in state `s` reads the lines `ls`, the first of which starts at line `ln` and column `col`:
an error, or the state after the last line. -/
def Parser.run (P : Parser) (ln col : Nat) (ls : List Str) (s : DocSt) : Except Err DocSt :=
  match docTokens P.src ln col ls with
  | .error e => .error e
  | .ok toks =>
    (docLoop (docFns P.cfg P.nested P.fuel toks) toks (toks.length + 2) initialLast (start s)).map start

/-- The objects a parser takes from the variables (the functions for identities and the class of the document) are the built-in ones or objects of Python.
They are not if a document defines one of these variables, or one of which they are the namespace. -/
def Usual (env : Env) : Prop :=
  ∀ k ∈ [c%"mau.parser.document_wrapper", c%"mau.parser.header_internal_id_function", c%"mau.parser.footnote_unique_id_function"],
    Env.get env k = .default ∨ ∃ r, Env.get env k = .value (.other r)

/-- The state of a new parser. -/
def initial (req : NestedReq) : DocSt :=
  { env := initEnv req.env, uid := req.uid, objs := req.objs, forbidden := req.forbidden }

/-- The rest of the document can be lexed. -/
def Lexes (src : Option Str) (ln : Nat) (rest : List Str) : Prop := ∃ ts, docTokens src ln 0 rest = .ok ts

/-- Reading the lines `ls` in the state `s` does the step `x` and then goes on with the lines `rest` in the state after the
step. A failing step is the result of the whole reading, if only the rest can be lexed (the whole document is lexed
before it is parsed); if the rest cannot be lexed, that error is the result. -/
structure Reads (P : Parser) (ln col : Nat) (ls : List Str) (s : DocSt) (x : Except Err DocSt) (ln' : Nat) (rest : List Str) : Prop where
  ok : ∀ s', x = .ok s' → P.run ln col ls s = P.run ln' 0 rest s'
  err : ∀ e, x = .error e → Lexes P.src ln' rest → P.run ln col ls s = .error e
  lex : ∀ e, docTokens P.src ln' 0 rest = .error e → P.run ln col ls s = .error e

/-- Spaces only. -/
def BlankLine (l : Str) : Prop := Spaces l

/-- An ordinary text line: not blank, not four equal characters, of none of the special forms. -/
def TextLine (l : Str) : Prop := ¬ Spaces l ∧ (∀ ch, l ≠ [ch, ch, ch, ch]) ∧ ∀ ps, ¬ LineForm l ps

/-- A line of one of the special forms (and not the delimiter of a block or comment). -/
def SpecialLine (l : Str) (ps : List Piece) : Prop := LineForm l ps ∧ ¬ Spaces l ∧ ∀ ch, l ≠ [ch, ch, ch, ch]

/-- The lines do not start with a text line (comments are skipped). -/
inductive NoText : List Str → Prop where
  | nil : NoText []
  | blank {l : Str} {rest : List Str} (h : Spaces l) : NoText (l :: rest)
  | special {l : Str} {ps : List Piece} {rest : List Str} (h : SpecialLine l ps) (hp : ps ≠ []) : NoText (l :: rest)
  | block {ch : Char} {rest : List Str} (h : ch ≠ '/') : NoText ([ch, ch, ch, ch] :: rest)
  | comment {l : Str} {rest : List Str} (h : SpecialLine l []) (hr : NoText rest) : NoText (l :: rest)
  | comments {cs rest : List Str} (h : c%"////" ∉ cs) (hr : NoText rest) : NoText (c%"////" :: (cs ++ c%"////" :: rest))

/-! ## What is pending -/

/-- The pending arguments; none waiting is the same as empty ones. -/
def args (s : DocSt) : NodeArgs := s.argsBuf.getD {}

/-- Nothing is pending any more. -/
def used (s : DocSt) : DocSt := { s with argsBuf := none, labelBuf := [], controlBuf := none }

/-- Does the pending control (if any) let the next node through? -/
def allowed (s : DocSt) : Except Err Bool :=
  match s.controlBuf with
  | none => .ok true
  | some c => c.process s.env

/-- A node is finished: it is added at the end of the document if it is allowed; in any case nothing is
pending any more. -/
def put (s : DocSt) (keep : Bool) (n : Node) : DocSt :=
  if keep then { used s with nodes := s.nodes ++ [n] } else used s

/-- Parse inline text at a position: references to variables are substituted, then the text is parsed; footnote mentions
and header links are collected in the state. -/
def Parser.inline (P : Parser) (s : DocSt) (text : Str) (ctx : Context) : Except Err (List Node × DocSt) :=
  match docText P.fuel text ctx s with
  | .ok ns s' => .ok (ns, s')
  | .fail _ => .error .token
  | .err e => .error e

/-- The context of a text of length `len` at a position. -/
def at_ (src : Option Str) (ln col len : Nat) : Context := ⟨ln, col, ln, col + len, src⟩

/-! ## What the constructs do to the state -/

/-- A horizontal rule. -/
def ruleStep (s : DocSt) (ctx : Context) : Except Err DocSt := do
  let keep ← allowed s
  return put s keep (Node.new .horizontalRule ctx [] (args s) s.labelBuf)

/-- A variable definition: name, text after the second colon (empty if there is none) and its position. -/
def defineStep (s : DocSt) (name value : Str) (ctx : Context) : Except Err DocSt := do
  let d ← definition s.env name value ctx
  return { s with env := Env.setitem s.env d.1 (.leaf (.str d.2)) }

/-- A label line: role (title if empty) and text. -/
def Parser.labelStep (P : Parser) (s : DocSt) (role text : Str) (ctx : Context) : Except Err DocSt := do
  let r ← P.inline s text ctx
  let role := if role = [] then c%"title" else role
  return { r.2 with labelBuf := Dict.set s.labelBuf role (Node.new (.label role) Context.empty r.1) }

/-- A control line: operator and condition, and the place of the line. -/
def controlStep (s : DocSt) (op : Str) (condition : Token) (ctx : Context) : Except Err DocSt := do
  match ← processConditionWithVariables s.env condition with
  | none => throw (.py .attributeError)
  | some c =>
    let control ← mkControl op c.var c.comparison c.value ctx
    return { s with controlBuf := some control }

/-- A line of arguments. -/
def argumentsStep (s : DocSt) (text : Token) : Except Err DocSt := do
  let p ← processArgumentsWithVariables s.env text
  return { s with argsBuf := some p.arguments }

/-- Register a name (if any) for the header `id` which stands at `ctx`. -/
def nameHeader (s : DocSt) (name : Option Str) (id : Nat) (ctx : Context) : Except Err DocSt :=
  match truthy name with
  | none => .ok s
  | some nm =>
    if Dict.has s.linkHeaders nm then
      .error (.parser (.text (c%"Duplicate header id detected: " ++ nm)) (some ctx))
    else .ok { s with linkHeaders := Dict.set s.linkHeaders nm id }

/-- A header: level, text, and the positions of its signs and its text. Its internal id and its name are taken from the
arguments. A header that is kept is registered in the table of contents and, if it has a name (which no other header of
the document may have), as the target of links. -/
def Parser.headerStep (P : Parser) (s : DocSt) (level : Nat) (text : Str) (signs ctx : Context) : Except Err DocSt := do
  let r ← P.inline { s with uid := s.uid + 1 } text ctx
  let tctx ← spanOf r.1
  let s1 := r.2
  let internalId := Dict.get? (args s).named c%"internal_id"
  let name := Dict.get? (Dict.erase (args s).named c%"internal_id") c%"name"
  let rest := { args s with named := Dict.erase (Dict.erase (args s).named c%"internal_id") c%"name" }
  let node := Node.new (.header s.uid level internalId name) (signs.merge tctx) r.1 rest s.labelBuf
  let keep ← allowed s1
  if keep then do
    let s2 ← nameHeader s1 name s.uid (signs.merge tctx)
    return { put s2 true node with tocHeaders := s2.tocHeaders ++ [(s.uid, level)], objs := s2.objs ++ [node] }
  else return used s1

/-- The tokens of text lines. -/
def textToks (src : Option Str) : (ln col : Nat) → List Str → List Token
  | _, _, [] => []
  | ln, col, l :: ls => tokAt .TEXT l ln col src :: textToks src (ln + 1) 0 ls

/-- The paragraph lines for some text lines. -/
def Parser.inlineLines (P : Parser) : DocSt → List Token → Except Err (List Node × DocSt)
  | s, [] => .ok ([], s)
  | s, t :: ts => do
    let r ← P.inline s t.value t.ctx
    let rs ← P.inlineLines r.2 ts
    return (Node.new .paragraphLine t.ctx r.1 :: rs.1, rs.2)

/-- A paragraph of some text lines. -/
def Parser.paragraphStep (P : Parser) (s : DocSt) (lines : List Token) : Except Err DocSt := do
  let r ← P.inlineLines s lines
  let ctx ← spanOf r.1
  let keep ← allowed r.2
  return put r.2 keep (Node.new .paragraph ctx r.1 (args s) s.labelBuf)

/-! ### Blocks -/

/-- The content of a default block, read by a new parser with the same variables. The headers and footnotes found inside are
added to the ones of this parser only if the block has the argument `isolate=false`. -/
def Parser.contentStep (P : Parser) (s : DocSt) (content : Token) (a : NodeArgs) : Except Err (List Node × DocSt) := do
  let inner ← P.nested ⟨content.value, s.env, content.ctx.startLine, content.ctx.startColumn, content.ctx.source, [], s.uid, s.objs⟩
  let s1 := { s with env := inner.env, uid := inner.uid, objs := inner.objs }
  return (inner.nodes, if Dict.get? a.named c%"isolate" = some c%"false" then mergeManagers s1 inner else s1)

/-- What an engine makes of a block: class and fields, children, remaining arguments, and the new state. -/
def Parser.engineStep (P : Parser) (s : DocSt) (engine : Str) (classes : List Str) (content : Option Token) (a : NodeArgs)
    (ctx : Context) : Except Err ((NodeData × List Node × NodeArgs) × DocSt) :=
  if engine = c%"default" then
    match content with
    | none => .ok ((.block classes, [], a), s)
    | some t => do
      let r ← P.contentStep s t a
      return ((.block classes, r.1, a), r.2)
  else if engine = c%"raw" then
    match content with
    | none => .ok ((.raw classes, [], a), s)
    | some t => .ok ((.raw classes, rawLines t, a), s)
  else if engine = c%"source" then
    match content with
    | none => .ok ((.source none classes, [], a), s)
    | some t => do
      let r ← sourceEngine s.env t a
      return ((.source r.1 classes, r.2.1, r.2.2), s)
  else .error (.parser (.text (c%"Engine '" ++ engine ++ c%"' is not available.")) (some ctx))

/-- A finished block is the text of a footnote, the member of a group, or a node of the document. -/
def placeStep (s : DocSt) (data : NodeData) (ns : List Node) (a : NodeArgs) (labels : Dict Node) (ctx own : Context) : Except Err DocSt :=
  match truthy (Dict.get? a.named c%"footnote") with
  | some name =>
    if Dict.has s.bodies name then
      .error (.parser (.text (c%"Footnote '" ++ name ++ c%"' has been already defined.")) (some own))
    else .ok { s with bodies := Dict.set s.bodies name (Node.new data own ns {} labels) }
  | none =>
    match truthy (Dict.get? a.named c%"group"), truthy (Dict.get? a.named c%"position") with
    | some g, some p => do
      let groups ← addBlock s.groups g p (Node.new data ctx ns a labels)
      return { s with groups := groups }
    | _, _ => do
      let keep ← allowed s
      return put s keep (Node.new data ctx ns a labels)

/-- The content token of a block whose content starts on line `ln`: the lines with line breaks between them. -/
def contentTok (src : Option Str) (ln : Nat) (cs : List Str) : Option Token :=
  if cs = [] then none
  else some ⟨.TEXT, joinWith ['\n'] cs, ⟨ln, 0, ln + cs.length - 1, (cs.getLastD []).length, src⟩⟩

/-- The position that the text of a footnote has: that of the content for a source block with content, none for the other blocks. -/
def ownPlace (engine : Str) (content : Option Token) : Context :=
  match content with
  | some t => if engine = c%"source" && !t.value.isEmpty then t.ctx else Context.empty
  | none => Context.empty

/-- A block with the content token (none for an empty content). -/
def Parser.blockStep (P : Parser) (s : DocSt) (content : Option Token) (ctx : Context) : Except Err DocSt := do
  let classes := classesOf (Dict.get? (args s).named c%"classes")
  let a1 := { args s with named := Dict.erase (args s).named c%"classes" }
  let engine := (Dict.get? a1.named c%"engine").getD c%"default"
  let a2 := { a1 with named := Dict.erase a1.named c%"engine" }
  let r ← P.engineStep { s with argsBuf := none } engine classes (content.filter fun t => !t.value.isEmpty) a2 ctx
  placeStep { r.2 with labelBuf := [] } r.1.1 r.1.2.1 r.1.2.2 s.labelBuf ctx (ownPlace engine content)

/-! ### Includes -/

/-- Include a Mau file. -/
def Parser.includeMauStep (P : Parser) (s : DocSt) (a : NodeArgs) (ctx : Context) :
    Except Err ((NodeData × List Node × NodeArgs) × DocSt) :=
  let a := a.setNames [c%"uri"]
  let uri := Dict.get? a.named c%"uri"
  let a := { a with named := Dict.erase a.named c%"uri" }
  let passEnv := Dict.get? a.named c%"pass_environment"
  let a := { a with named := Dict.erase a.named c%"pass_environment" }
  match truthy uri with
  | none => .error (.parser (.text c%"Syntax error. You need to specify a URI.") (some ctx))
  | some uri =>
    let forbidden := addForbidden s.forbidden ctx.source
    if forbidden.contains (some uri) then .error (.parser (.includeLoop forbidden) (some ctx))
    else do
      let text ← readFile P.cfg uri ctx
      let env ← includeEnv passEnv s.env
      let env := Env.dupdate env ((callArguments a).1.map fun kv => (kv.1, .leaf (.str kv.2)))
      let inner ← P.nested ⟨text, env, 0, 0, some uri, addForbidden forbidden (some uri), s.uid, s.objs⟩
      return ((.includeMau uri, inner.nodes, (callArguments a).2), { s with
        uid := inner.uid
        objs := inner.objs
        forbidden := inner.forbidden
        includeCalls := s.includeCalls ++ [⟨ctx.source, uri, (callArguments a).1, ctx⟩] ++ inner.includeCalls })

/-- The types of includes. -/
def Parser.includeNodeStep (P : Parser) (s : DocSt) (ctype : Str) (a : NodeArgs) (ctx : Context) :
    Except Err ((NodeData × List Node × NodeArgs) × DocSt) :=
  if ctype = c%"image" then do
    let r ← includeImage a ctx
    return ((r.1, [], r.2), s)
  else if ctype = c%"mau" then P.includeMauStep s a ctx
  else if ctype = c%"raw" then do
    let r ← includeRaw P.cfg a ctx
    return (r, s)
  else if ctype = c%"toc" then .ok ((.toc s.uid, [], a), { s with uid := s.uid + 1, tocNodes := s.tocNodes ++ [s.uid] })
  else if ctype = c%"footnotes" then
    .ok ((.footnotes s.uid, [], a), { s with uid := s.uid + 1, footnoteLists := s.footnoteLists ++ [s.uid] })
  else if ctype = c%"blockgroup" then
    let a := a.setNames [c%"group"]
    match Dict.get? a.named c%"group" with
    | none => .error (.py .keyError)
    | some g => .ok ((.blockgroup s.uid g, [], { a with named := Dict.erase a.named c%"group" }),
        { s with uid := s.uid + 1, groupNodes := s.groupNodes ++ [(s.uid, g)], places := s.places ++ [(s.uid, ctx)] })
  else .ok ((.include ctype, [], a), s)

/-- An include with the given arguments. -/
def Parser.includeStep (P : Parser) (s : DocSt) (ctype : Str) (a : NodeArgs) (ctx : Context) : Except Err DocSt := do
  let r ← P.includeNodeStep { s with argsBuf := none } ctype a ctx
  let keep ← allowed r.2
  return put r.2 keep (Node.new r.1.1 ctx r.1.2.1 r.1.2.2 s.labelBuf)

/-- An include with arguments after the colon: it is an error if arguments are pending too. -/
def Parser.includeInline (P : Parser) (s : DocSt) (ty : Str) (a : Token) (ctx : Context) : Except Err DocSt :=
  match s.argsBuf with
  | some _ =>
    .error (.parser (.text c%"Syntax error. You cannot specify both boxed and inline arguments.") (some ctx))
  | none => do
    let p ← processArgumentsWithVariables s.env a
    P.includeStep s ty p.arguments ctx

end Mau.Spec
