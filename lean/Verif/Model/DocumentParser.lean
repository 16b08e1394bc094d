import Verif.Model.DocumentLexer
import Verif.Model.Managers

/-!
# The document parser

Models `mau/parsers/document_parser.py` and `mau/parsers/document_processors/*`.

A processing function is a state transformer that returns, raises the internal token error
(`PRes.fail`, after which only the token index is rolled back), or raises another
exception. The recursion (blocks and included files are parsed by a new `DocumentParser`)
is tied by `parseDocument`, whose `fuel` bounds the nesting; the processing functions get the
nested parser as a parameter.
-/

namespace Mau

/-! ## Defaults -/

/-- document_parser.py:39-51 and 80-87 — the base environment. -/
def baseEnvItems : List (Str × Nested) :=
  [(c%"source_highlight_style_aliases", .dict
      [(c%"+", .leaf (.str c%"add")), (c%"-", .leaf (.str c%"remove")),
       (c%"!", .leaf (.str c%"important")), (c%"x", .leaf (.str c%"error"))]),
   (c%"aliases", .dict
      [(c%"source", .dict
        [(c%"args", .dict [(c%"engine", .leaf (.str c%"source"))]),
         (c%"names", .leaf (.list [c%"language"] c%"['language']"))])])]

/-- document_parser.py:79-92 — the environment of a new document parser. -/
def initEnv (env : Env) : Env :=
  Env.update env (Env.fromDict baseEnvItems c%"mau.parser") [] (overwrite := false)

/-- A setting that is absent, or an object such as a function or a class. -/
def absentOrObject : Env.GetResult → Bool
  | .default => true
  | .value (.other _) => true
  | _ => false

/-- document_parser.py:94-102 and 126-131 — the objects the constructor of the parser takes from the environment: the two functions for identities and the
class of the document. Functions and classes are `Val.other`, and `Config` says what they do (also where a file is included without the environment and so
without custom functions). A class of the document that is something else, as after the line `:mau.parser.document_wrapper:x`, cannot be called, which is a
`TypeError`. Functions for identities of another kind are not modelled: they fail when they are called, if they are. -/
def parserObjects (env : Env) : Except Err Unit :=
  if absentOrObject (Env.get env c%"mau.parser.document_wrapper") then
    if absentOrObject (Env.get env c%"mau.parser.header_internal_id_function") && absentOrObject (Env.get env c%"mau.parser.footnote_unique_id_function")
    then .ok () else .error .unmodelled
  else .error (.py .typeError)

/-! ## The parsing monad -/

/-- A processing function. -/
abbrev DM (α : Type) := DocSt → PRes DocSt α

/-- Sequencing. -/
def DM.bind {α β : Type} (x : DM α) (f : α → DM β) : DM β := fun s =>
  match x s with
  | .ok a s' => f a s'
  | .fail s' => .fail s'
  | .err e => .err e

instance : Monad DM where
  pure a := fun s => .ok a s
  bind := DM.bind

/-- A computation without state. -/
def DM.lift {α : Type} (x : Except Err α) : DM α := fun s =>
  match x with
  | .ok a => .ok a s
  | .error .token => .fail s
  | .error e => .err e

/-- Raise an exception. -/
def DM.raise {α : Type} (e : Err) : DM α := DM.lift (.error e)

/-- Run a function of the tokens manager. -/
def DM.tm {α : Type} (toks : List Token) (f : TM → Except Err (α × TM)) : DM α := fun s =>
  match f ⟨toks, s.next⟩ with
  | .ok (a, tm) => .ok a { s with next := tm.next }
  | .error .token => .fail s
  | .error e => .err e

/-- Run a function of the tokens manager which does not move. -/
def DM.peek {α : Type} (toks : List Token) (f : TM → Except Err α) : DM α := fun s =>
  DM.lift (f ⟨toks, s.next⟩) s

/-- Read the state. -/
def DM.get : DM DocSt := fun s => .ok s s
/-- Change the state. -/
def DM.modify (f : DocSt → DocSt) : DM Unit := fun s => .ok () (f s)
/-- A fresh identity number. -/
def DM.fresh : DM Nat := fun s => .ok s.uid { s with uid := s.uid + 1 }

/-! ## Common parts -/

/-- document_parser.py:152-204 — `_parse_text`. -/
def docText (fuel : Nat) (text : Str) (ctx : Context) : DM (List Node) := fun s =>
  match preprocessNodes s.env text ctx.startLine ctx.startColumn ctx.source with
  | .error .token => .fail s
  | .error e => .err e
  | .ok [] => .ok [] s
  | .ok ns =>
    match parseText fuel s.env (processedText ns).value ctx.startLine ctx.startColumn ctx.source
        s.uid with
    | .error .token => .fail s
    | .error e => .err e
    | .ok r => .ok r.nodes { s with
        uid := r.uid
        footnoteMacros := s.footnoteMacros ++ r.footnoteMacros
        linkMacros := s.linkMacros ++ r.headerLinks
        places := s.places ++ r.places }

/-- buffers/arguments_buffer.py:19-32 — `pop` and `pop_or_default`. -/
def popArgs : DM NodeArgs := fun s => .ok (s.argsBuf.getD {}) { s with argsBuf := none }

/-- document_parser.py:206-222 — `pop_labels`. -/
def popLabels : DM (Dict Node) := fun s => .ok s.labelBuf { s with labelBuf := [] }

/-- The last lines of most processing functions (e.g. document_processors/header.py:81-89):
pop the stored control and evaluate it; `true` if there is none. -/
def popControl : DM Bool := fun s =>
  match s.controlBuf with
  | none => .ok true s
  | some c => DM.lift (c.process s.env) { s with controlBuf := none }

/-- base_parser.py:50-54 — `_save`. -/
def save (n : Node) : DM Unit := DM.modify fun s => { s with nodes := s.nodes ++ [n] }

/-- Save the node unless the stored control says no. -/
def saveIfControl (n : Node) : DM Unit := do
  if ← popControl then save n

/-- Remove a named argument: `arguments.named_args.pop(key, None)`. -/
def NodeArgs.pop (a : NodeArgs) (key : Str) : Option Str × NodeArgs :=
  (Dict.get? a.named key, { a with named := Dict.erase a.named key })

/-- `Context.merge_contexts(nodes[0].info.context, nodes[-1].info.context)`; IndexError for an
empty list. -/
def spanOf (ns : List Node) : Except Err Context :=
  match ns.head?, ns.getLast? with
  | some a, some b => .ok (a.ctx.merge b.ctx)
  | _, _ => .error (.py .indexError)

/-- `x.split(",") if x else []`. -/
def classesOf (s : Option Str) : List Str :=
  match s with
  | some (c :: cs) => splitChar ',' (c :: cs)
  | _ => []

/-- A truthy string. -/
def truthy (s : Option Str) : Option Str :=
  match s with
  | some [] => none
  | s => s

/-! ## Processing functions -/

/-- document_parser.py:224-229 — `_process_eol`. -/
def eolProc (toks : List Token) : DM Unit := do
  let _ ← DM.tm toks (·.get (some .EOL))
  return ()

/-- document_processors/horizontal_rule.py:15-50. -/
def ruleProc (toks : List Token) : DM Unit := do
  let rule ← DM.tm toks (·.get (some .HORIZONTAL_RULE))
  let args ← popArgs
  let labels ← popLabels
  saveIfControl (Node.new .horizontalRule rule.ctx [] args labels)

/-- variable_definition.py:80-84. -/
def msgNoValue (name : Str) : Msg :=
  .text (c%"Error in variable definition. Variable '" ++ name ++ c%"' has no value.")

/-- variable_definition.py:40-45 — the text token that follows the definition, if any: its value,
and the context extended by it. -/
def variableText (toks : List Token) (ctx : Context) : DM (Str × Context) := do
  let t ← DM.peek toks (·.peek)
  if t.type = .TEXT then
    let v ← DM.tm toks (·.get)
    return (v.value, ctx.merge v.ctx)
  else return ([], ctx)

/-- variable_definition.py:47-84 — the name and the value that are defined. -/
def definition (env : Env) (name value : Str) (ctx : Context) : Except Err (Str × Str) :=
  if startsWith name ['+'] then .ok (name.drop 1, c%"true")
  else if startsWith name ['-'] then .ok (name.drop 1, c%"false")
  else if value.isEmpty then .error (.parser (msgNoValue name) (some ctx))
  else
    match preprocess env value ctx.startLine ctx.startColumn ctx.source with
    | .error e => .error e
    | .ok p => if p.value.isEmpty then .error (.parser (msgNoValue name) (some ctx)) else .ok (name, p.value)

/-- document_processors/variable_definition.py:15-91. -/
def variableProc (toks : List Token) : DM Unit := do
  let o ← DM.tm toks (·.get (some .VARIABLE) (some [':']))
  let nameTok ← DM.tm toks (·.get (some .TEXT))
  let c ← DM.tm toks (·.get (some .LITERAL) (some [':']))
  let v ← variableText toks (o.ctx.merge c.ctx)
  let s ← DM.get
  let d ← DM.lift (definition s.env nameTok.value v.1 v.2)
  DM.modify fun s => { s with env := Env.setitem s.env d.1 (.leaf (.str d.2)) }

/-- document_processors/label.py:13-45. -/
def labelProc (fuel : Nat) (toks : List Token) : DM Unit := do
  let pre ← DM.tm toks (·.get (some .LABEL))
  let role := match pre.value.drop 1 with | [] => c%"title" | r => r
  let t ← DM.tm toks (·.get (some .TEXT))
  let ns ← docText fuel t.value t.ctx
  let node := Node.new (.label role) Context.empty ns
  DM.modify fun s => { s with labelBuf := Dict.set s.labelBuf role node }

/-- document_processors/control.py:17-51. -/
def controlProc (toks : List Token) : DM Unit := do
  let pre ← DM.tm toks (·.get (some .CONTROL) (some ['@']))
  let op ← DM.tm toks (·.get (some .TEXT))
  let cond ← DM.tm toks (·.get (some .TEXT))
  let s ← DM.get
  match ← DM.lift (processConditionWithVariables s.env cond) with
  | none => DM.raise (.py .attributeError)     -- `None.variable`
  | some c =>
    let control ← DM.lift (mkControl op.value c.var c.comparison c.value (pre.ctx.merge cond.ctx))
    DM.modify fun s => { s with controlBuf := some control }

/-- document_processors/arguments.py:15-35. -/
def argumentsProc (toks : List Token) : DM Unit := do
  let _ ← DM.tm toks (·.get (some .ARGUMENTS) (some ['[']))
  let t ← DM.tm toks (·.get (some .TEXT))
  let _ ← DM.tm toks (·.get (some .LITERAL) (some [']']))
  let s ← DM.get
  let p ← DM.lift (processArgumentsWithVariables s.env t)
  DM.modify fun s => { s with argsBuf := some p.arguments }

/-- managers/header_links_manager.py:22-32 (`add_header`, for a named header,
document_processors/header.py:89-92). -/
def registerName (id : Nat) (name : Option Str) (ctx : Context) : DM Unit :=
  match truthy name with
  | none => pure ()
  | some nm => do
    let s ← DM.get
    if Dict.has s.linkHeaders nm then DM.raise (.parser (msgDuplicateHeader nm) (some ctx))
    else DM.modify fun s => { s with linkHeaders := Dict.set s.linkHeaders nm id }

/-- Register a header with the header links manager and the toc manager (toc_manager.py
`add_header`). -/
def registerHeader (id level : Nat) (name : Option Str) (node : Node) : DM Unit := do
  registerName id name node.ctx
  DM.modify fun s => { s with
    tocHeaders := s.tocHeaders ++ [(id, level)]
    objs := s.objs ++ [node] }

/-- document_processors/header.py:16-99. -/
def headerProc (fuel : Nat) (toks : List Token) : DM Unit := do
  let h ← DM.tm toks (·.get (some .HEADER))
  let t ← DM.tm toks (·.get (some .TEXT))
  let level := h.value.length
  let id ← DM.fresh
  let ns ← docText fuel t.value t.ctx
  let args ← popArgs
  let (internalId, args) := args.pop c%"internal_id"
  let (name, args) := args.pop c%"name"
  let tctx ← DM.lift (spanOf ns)
  let labels ← popLabels
  let node := Node.new (.header id level internalId name) (h.ctx.merge tctx) ns args labels
  if ← popControl then
    registerHeader id level name node
    save node

/-- document_processors/paragraph.py:26-28 — the loop collecting the lines. -/
def collectLines (toks : List Token) : Nat → DM (List Token)
  | 0 => DM.raise .fuel
  | n + 1 => do
    let t ← DM.peek toks (·.peek)
    if t.type = .TEXT then
      let t ← DM.tm toks (·.get (some .TEXT))
      let rest ← collectLines toks n
      return t :: rest
    else return []

/-- document_processors/paragraph.py:32-52 — the lines of the paragraph. -/
def paragraphLines (fuel : Nat) : List Token → DM (List Node)
  | [] => pure []
  | t :: ts => do
    let ns ← docText fuel t.value t.ctx
    let rest ← paragraphLines fuel ts
    return Node.new .paragraphLine t.ctx ns :: rest

/-- document_processors/paragraph.py:15-79. -/
def paragraphProc (fuel : Nat) (toks : List Token) : DM Unit := do
  let lines ← collectLines toks (toks.length + 2)
  let content ← paragraphLines fuel lines
  let args ← popArgs
  let ctx ← DM.lift (spanOf content)
  let labels ← popLabels
  saveIfControl (Node.new .paragraph ctx content args labels)

/-! ### Lists -/

/-- document_processors/list.py:46-54. -/
def msgListSyntax : Msg := .text c%"Wrong syntax encountered while processing the list."

/-- document_processors/list.py:21-40 and 56-83 — one item, after its LIST token. -/
def listItem (fuel : Nat) (toks : List Token) (h : Token) : DM Node := do
  let t ← DM.tm toks (·.get (some .TEXT))
  let content ← docText fuel t.value t.ctx
  match content.getLast? with
  | none => DM.raise (.py .indexError)
  | some l => return Node.new (.listItem h.value.length) (h.ctx.merge l.ctx) content

/-- `header.value[0] == "#"`. The LIST token always has a character; an empty value is an
IndexError. -/
def isOrdered (h : Token) : Except Err Bool :=
  match h.value with
  | [] => .error (.py .indexError)
  | c :: _ => .ok (c == '#')

mutual
/-- document_processors/list.py:17-109 — `_process_list_nodes`. `n` bounds the number of
items. -/
def listNodes (fuel : Nat) (toks : List Token) : (n : Nat) → DM (List Node)
  | 0 => DM.raise .fuel
  | n + 1 => do
    let h ← DM.tm toks (·.get (some .LIST))
    let item ← listItem fuel toks h
    let rest ← listLoop fuel toks n h.value.length
    return item :: rest
/-- document_processors/list.py:42-109 — the loop of `_process_list_nodes`. -/
def listLoop (fuel : Nat) (toks : List Token) : (n : Nat) → (level : Nat) → DM (List Node)
  | 0, _ => DM.raise .fuel
  | n + 1, level => do
    let t ← DM.peek toks (·.peek)
    if (t.type = .EOF ∨ t.type = .EOL) ∧ t.value = [] then return []
    else if t.type ≠ .LIST then DM.raise (.parser msgListSyntax (some t.ctx))
    else if t.value.length = level then
      let h ← DM.tm toks (·.get)
      let item ← listItem fuel toks h
      let rest ← listLoop fuel toks n level
      return item :: rest
    else if t.value.length > level then
      let ordered ← DM.lift (isOrdered t)
      let subs ← listNodes fuel toks n
      match subs.getLast? with
      | none => DM.raise (.py .indexError)
      | some l =>
        let rest ← listLoop fuel toks n level
        return Node.new (.list ordered false 1) (t.ctx.merge l.ctx) subs :: rest
    else return []
end

/-- The digits of `int(s)`: ASCII digits, single underscores allowed between digits.
`prevDigit` tells whether the previous character was a digit. -/
def intDigits (prevDigit : Bool) (acc : Nat) : Str → Option Nat
  | [] => if prevDigit then some acc else none
  | c :: cs =>
    if isDigitAscii c then intDigits true (acc * 10 + (c.toNat - 48)) cs
    else if c == '_' && prevDigit then intDigits false acc cs
    else none

/-- Python's `int(s)` for strings; a string with non-ASCII characters (which may be digits
to Python) is outside the model. -/
def pyInt (s : Str) : Except Err Int :=
  if s.any (fun c => c.toNat ≥ 128) then .error .unmodelled
  else
    let (neg, ds) := match strip s with
      | '-' :: r => (true, r)
      | '+' :: r => (false, r)
      | r => (false, r)
    match intDigits false 0 ds with
    | none => .error (.py .valueError)
    | some n => .ok (if neg then -(n : Int) else n)

/-- document_processors/list.py:160-166 — the start of a list and the new
`latest_ordered_list_index`, from the argument `start`, the previous index and the number of
nodes. -/
def listStart (start : Option Str) (latest : Int) (len : Nat) : Except Err (Int × Int) :=
  match start with
  | none => .ok (1, len + 1)
  | some v =>
    if v = c%"auto" then .ok (latest, latest + len)
    else match pyInt v with
      | .error e => .error e
      | .ok i => .ok (i, len + i)

/-- document_processors/list.py:112-190. -/
def listProc (fuel : Nat) (toks : List Token) : DM Unit := do
  let h ← DM.peek toks (·.peek (some .LIST))
  let ordered ← DM.lift (isOrdered h)
  let nodes ← listNodes fuel toks (toks.length + 2)
  let args ← popArgs
  let s ← DM.get
  let (start, latest) ← DM.lift (listStart (Dict.get? args.named c%"start") s.latest nodes.length)
  DM.modify fun s => { s with latest := latest }
  let ctx ← DM.lift (spanOf nodes)
  let labels ← popLabels
  saveIfControl (Node.new (.list ordered true start) ctx nodes args labels)

/-! ### Blocks -/

/-- A request to parse a text with a new document parser. -/
structure NestedReq where
  text : Str
  env : Env
  startLine : Nat
  startColumn : Nat
  source : Option Str
  forbidden : List (Option Str)
  uid : Nat
  objs : List Node

/-- A nested parser: the final state of the new parser. -/
abbrev NestedParser := NestedReq → Except Err DocSt

/-- The contexts of the lines of raw and source blocks (block_engines/raw.py:34-37,
block_engines/source.py:97-100). -/
def blockLineCtx (c : Context) (i : Nat) (line : Str) : Context :=
  { c with
    startLine := c.startLine + i
    endLine := c.startLine + i
    endColumn := c.startColumn + line.length }

/-- block_engines/raw.py:15-50 — the lines of a raw block. -/
def rawLines (t : Token) : List Node :=
  (splitChar '\n' t.value).mapIdx fun i l => Node.new (.rawLine l) (blockLineCtx t.ctx i l)

/-- block_engines/source.py:137-139 — look a highlight style up among the aliases; an alias
whose value is not a string is outside the model. -/
def styleAlias (aliases : List (Str × Nested)) (style : Str) : Except Err Str :=
  match Dict.get? aliases style with
  | none => .ok style
  | some (.leaf (.str s)) => .ok s
  | some _ => .error .unmodelled

/-- The parameters of a source block (block_engines/source.py:67-80). -/
structure SourceParams where
  delim : Str
  prefix_ : Str
  defaultStyle : Str
  aliases : List (Str × Nested)

/-- The parsed form of one source line: content, marker, highlight style. -/
structure SrcLine where
  content : Str
  marker : Option Str
  highlight : Option Str
  deriving DecidableEq, Repr

/-- block_engines/source.py:102-141 — analyse one line. -/
def sourceLine (p : SourceParams) (line : Str) : Except Err SrcLine :=
  if !endsWith line p.delim then .ok ⟨line, none, none⟩
  else if p.delim.isEmpty then .error (.py .valueError)   -- `split("")`
  else
    let splits := splitStr p.delim line.dropLast
    match splits.getLast? with
    | none => .ok ⟨line, none, none⟩     -- not reachable
    | some marker =>
      if splits.length < 2 then .ok ⟨line, none, none⟩
      else
        let content := joinWith p.delim splits.dropLast
        if startsWith marker p.prefix_ then
          let style := match marker.drop 1 with | [] => p.defaultStyle | m => m
          match styleAlias p.aliases style with
          | .error e => .error e
          | .ok st => .ok ⟨content, none, some st⟩
        else if marker.isEmpty then .ok ⟨content, none, none⟩
        else .ok ⟨content, some marker, none⟩

/-- block_engines/source.py:94-178 — the node of line `i` (0-based). -/
def sourceLineNode (c : Context) (i : Nat) (line : Str) (r : SrcLine) : Node :=
  let lc := blockLineCtx c i line
  match r.marker with
  | none => Node.new (.sourceLine (i + 1) r.content r.highlight) lc
  | some m =>
    let mc := { lc with startColumn := lc.startColumn + r.content.length }
    Node.new (.sourceLine (i + 1) r.content r.highlight)
      { lc with endColumn := lc.endColumn - (m.length + 2) }
      [Node.new (.sourceMarker m) mc]

/-- block_engines/source.py:94-178 — the loop over the lines. -/
def sourceLines (p : SourceParams) (c : Context) : Nat → List Str → Except Err (List Node)
  | _, [] => .ok []
  | i, l :: ls => do
    let r ← sourceLine p l
    let rest ← sourceLines p c (i + 1) ls
    return sourceLineNode c i l r :: rest

/-- block_engines/source.py:64-183 — the node of a source block (class, content) and the
remaining arguments. -/
def sourceEngine (env : Env) (t : Token) (args : NodeArgs) :
    Except Err (Option Str × List Node × NodeArgs) := do
  let (delim, args) := args.pop c%"marker_delimiter"
  let (prefix_, args) := args.pop c%"highlight_marker"
  let (style, args) := args.pop c%"highlight_default_style"
  let aliases ← match Env.get env c%"mau.parser.source_highlight_style_aliases" with
    | .default => pure []
    | .namespace e => Env.asdict e
    | .value _ => throw (.py .attributeError)
  let args := args.setNames [c%"language"]
  let (language, args) := args.pop c%"language"
  let p : SourceParams := ⟨delim.getD c%":", prefix_.getD c%"@", style.getD c%"default", aliases⟩
  let ls ← sourceLines p t.ctx 0 (splitChar '\n' t.value)
  return (some (language.getD c%"text"), ls, args)

/-- managers/footnotes_manager.py:73-79 (`update`) and toc_manager.py:140-145 (`update`):
import the state of the parser of a block with `isolate=false`. -/
def mergeManagers (outer inner : DocSt) : DocSt :=
  { outer with
    footnoteMacros := outer.footnoteMacros ++ inner.footnoteMacros
    places := outer.places ++ inner.places
    bodies := Dict.update outer.bodies inner.bodies
    footnoteLists := outer.footnoteLists ++ inner.footnoteLists
    tocHeaders := outer.tocHeaders ++ inner.tocHeaders
    tocNodes := outer.tocNodes ++ inner.tocNodes }

/-- block_engines/default.py:15-56 — `parse_block_content`: a new parser on the content with
the same environment object; the list of forbidden includes is not handed over. -/
def blockContent (nested : NestedParser) (t : Token) (args : NodeArgs) : DM (List Node) := fun s =>
  match nested ⟨t.value, s.env, t.ctx.startLine, t.ctx.startColumn, t.ctx.source, [], s.uid, s.objs⟩ with
  | .error .token => .fail s
  | .error e => .err e
  | .ok inner =>
    let s := { s with env := inner.env, uid := inner.uid, objs := inner.objs }
    let s := if Dict.get? args.named c%"isolate" = some c%"false" then mergeManagers s inner else s
    .ok inner.nodes s

/-- document_processors/block.py:64-70. -/
def msgEngine (name : Str) : Msg := .text (c%"Engine '" ++ name ++ c%"' is not available.")
/-- managers/footnotes_manager.py:60-64. -/
def msgDuplicateFootnote (name : Str) : Msg := .text (c%"Footnote '" ++ name ++ c%"' has been already defined.")

/-- document_processors/block.py:72-83 — the engines: class fields and content of the node, and
the remaining arguments. A content token with an empty value (one empty line) is falsy
(`Token.__len__`, mau/token.py:134-138) and counts as no content. -/
def blockEngine (nested : NestedParser) (engine : Str) (classes : List Str) (content : Option Token)
    (args : NodeArgs) (ctx : Context) : DM (NodeData × List Node × NodeArgs) :=
  let content := content.filter (fun t => !t.value.isEmpty)
  if engine = c%"default" then do
    match content with
    | none => return (.block classes, [], args)
    | some t =>
      let ns ← blockContent nested t args
      return (.block classes, ns, args)
  else if engine = c%"raw" then
    match content with
    | none => pure (.raw classes, [], args)
    | some t => pure (.raw classes, rawLines t, args)
  else if engine = c%"source" then do
    match content with
    | none => return (.source none classes, [], args)
    | some t =>
      let s ← DM.get
      let (lang, ls, args) ← DM.lift (sourceEngine s.env t args)
      return (.source lang classes, ls, args)
  else
    DM.raise (.parser (msgEngine engine) (some ctx))

/-- document_processors/block.py:40-43 — the content token of the block, if any. -/
def blockText (toks : List Token) : DM (Option Token) := do
  let t ← DM.peek toks (·.peek)
  if t.type = .TEXT then
    let t ← DM.tm toks (·.get (some .TEXT))
    return some t
  else return none

/-- document_processors/block.py:89-117 — what becomes of a block: a footnote, a member of a group, or
a node of the document. `own` is the position that the node has before it receives that of the block. -/
def placeBlock (data : NodeData) (ns : List Node) (args : NodeArgs) (labels : Dict Node) (ctx own : Context) : DM Unit :=
  match truthy (Dict.get? args.named c%"footnote") with
  | some name => do
    let s ← DM.get
    if Dict.has s.bodies name then DM.raise (.parser (msgDuplicateFootnote name) (some own))
    else DM.modify fun s => { s with
      bodies := Dict.set s.bodies name (Node.new data own ns {} labels) }
  | none =>
    let node := Node.new data ctx ns args labels
    match truthy (Dict.get? args.named c%"group"), truthy (Dict.get? args.named c%"position") with
    | some g, some p => do
      let s ← DM.get
      let groups ← DM.lift (addBlock s.groups g p node)
      DM.modify fun s => { s with groups := groups }
    | _, _ => saveIfControl node

/-- block_engines/source.py:179-180 — the node of a source block with content has the position of the content; the nodes that the other engines make
(default.py, raw.py) and that of an empty source block (source.py:64-65) have none (nodes/node.py:26). -/
def blockOwn (engine : Str) (content : Option Token) : Context :=
  match content with
  | some t => if engine = c%"source" && !t.value.isEmpty then t.ctx else Context.empty
  | none => Context.empty

/-- document_processors/block.py:26-117. -/
def blockProc (nested : NestedParser) (toks : List Token) : DM Unit := do
  let o ← DM.tm toks (·.get (some .BLOCK))
  let content ← blockText toks
  let c ← DM.tm toks (·.get (some .BLOCK))
  let ctx := o.ctx.merge c.ctx
  let args ← popArgs
  let (cls, args) := args.pop c%"classes"
  let (eng, args) := args.pop c%"engine"
  let r ← blockEngine nested (eng.getD c%"default") (classesOf cls) content args ctx
  let labels ← popLabels
  placeBlock r.1 r.2.1 r.2.2 labels ctx (blockOwn (eng.getD c%"default") content)

/-! ### Includes -/

/-- document_processors/include.py:77-82. -/
def msgBothArguments : Msg :=
  .text c%"Syntax error. You cannot specify both boxed and inline arguments."
/-- document_processors/include.py:142-147, 173-178, 286-290. -/
def msgNoUri : Msg := .text c%"Syntax error. You need to specify a URI."
/-- document_processors/include.py:223-227, 296-301. -/
def msgCannotRead (uri : Str) : Msg := .text (c%"File '" ++ uri ++ c%"' cannot be read.")

/-- `with open(uri) as f: f.read()` (document_processors/include.py:219-227, 292-301): a missing file is a Mau
error, other operating system errors are not caught. -/
def readFile (cfg : Config) (uri : Str) (ctx : Context) : Except Err Str :=
  match cfg.files uri with
  | .ok t => .ok t
  | .error true => .error (.parser (msgCannotRead uri) (some ctx))
  | .error false => .error (.py .osError)

/-- document_processors/include.py:135-162 — `_parse_image`. -/
def includeImage (args : NodeArgs) (ctx : Context) : Except Err (NodeData × NodeArgs) :=
  let args := args.setNames [c%"uri", c%"alt_text", c%"classes"]
  let (uri, args) := args.pop c%"uri"
  match truthy uri with
  | none => .error (.parser msgNoUri (some ctx))
  | some uri =>
    let (alt, args) := args.pop c%"alt_text"
    let (cls, args) := args.pop c%"classes"
    .ok (.includeImage uri alt (classesOf cls), args)

/-- document_processors/include.py:279-326 — `_parse_raw`. -/
def includeRaw (cfg : Config) (args : NodeArgs) (ctx : Context) :
    Except Err (NodeData × List Node × NodeArgs) :=
  let args := args.setNames [c%"uri"]
  let (uri, args) := args.pop c%"uri"
  match truthy uri with
  | none => .error (.parser msgNoUri (some ctx))
  | some uri =>
    match readFile cfg uri ctx with
    | .error e => .error e
    | .ok text => .ok (.includeRaw uri, (splitChar '\n' text).map fun l => Node.new (.rawLine l) ctx, args)

/-- document_processors/include.py:201-209 — the arguments with the prefix `call:`, without the prefix. -/
def callPrefix : Str := c%"call:"

/-- document_processors/include.py:198-209 — split the call arguments off. -/
def callArguments (args : NodeArgs) : Dict Str × NodeArgs :=
  (Dict.update [] ((args.named.filter fun kv => startsWith kv.1 callPrefix).map
      fun kv => (kv.1.drop callPrefix.length, kv.2)),
   { args with named := args.named.filter fun kv => !startsWith kv.1 callPrefix })

/-- Append to the list of forbidden includes if not there (document_processors/include.py:180-187, 211-217). -/
def addForbidden (l : List (Option Str)) (x : Option Str) : List (Option Str) :=
  if l.contains x then l else l ++ [x]

/-- document_processors/include.py:229-236 — the environment of the included file, without the call arguments. -/
def includeEnv (passEnv : Option Str) (env : Env) : Except Err Env :=
  if passEnv.getD c%"true" = c%"true" then Env.fromEnvironment env else .ok []

/-- document_processors/include.py:165-276 — `_parse_mau`. -/
def includeMau (cfg : Config) (nested : NestedParser) (args : NodeArgs) (ctx : Context) :
    DM (NodeData × List Node × NodeArgs) := do
  let args := args.setNames [c%"uri"]
  let (uri, args) := args.pop c%"uri"
  let (passEnv, args) := args.pop c%"pass_environment"
  match truthy uri with
  | none => DM.raise (.parser msgNoUri (some ctx))
  | some uri =>
    DM.modify fun s => { s with forbidden := addForbidden s.forbidden ctx.source }
    let s ← DM.get
    if s.forbidden.contains (some uri) then DM.raise (.parser (.includeLoop s.forbidden) (some ctx))
    else
      let (call, args) := callArguments args
      DM.modify fun s => { s with forbidden := addForbidden s.forbidden (some uri) }
      let text ← DM.lift (readFile cfg uri ctx)
      let env ← DM.lift (includeEnv passEnv s.env)
      let env := Env.dupdate env (call.map fun kv => (kv.1, .leaf (.str kv.2)))
      let s ← DM.get
      let inner ← DM.lift (nested ⟨text, env, 0, 0, some uri, s.forbidden, s.uid, s.objs⟩)
      DM.modify fun s => { s with
        uid := inner.uid
        objs := inner.objs
        forbidden := inner.forbidden
        includeCalls := s.includeCalls ++ [⟨ctx.source, uri, call, ctx⟩] ++ inner.includeCalls }
      return (.includeMau uri, inner.nodes, args)

/-- document_processors/include.py:98-112 and 329-360 — the content types. -/
def includeNode (cfg : Config) (nested : NestedParser) (ctype : Str) (args : NodeArgs)
    (ctx : Context) : DM (NodeData × List Node × NodeArgs) :=
  if ctype = c%"image" then do
    let (d, args) ← DM.lift (includeImage args ctx)
    return (d, [], args)
  else if ctype = c%"mau" then includeMau cfg nested args ctx
  else if ctype = c%"raw" then DM.lift (includeRaw cfg args ctx)
  else if ctype = c%"toc" then do
    let id ← DM.fresh
    DM.modify fun s => { s with tocNodes := s.tocNodes ++ [id] }
    return (.toc id, [], args)
  else if ctype = c%"footnotes" then do
    let id ← DM.fresh
    DM.modify fun s => { s with footnoteLists := s.footnoteLists ++ [id] }
    return (.footnotes id, [], args)
  else if ctype = c%"blockgroup" then do
    let args := args.setNames [c%"group"]
    let (g, args) := args.pop c%"group"
    match g with
    | none => DM.raise (.py .keyError)
    | some g =>
      let id ← DM.fresh
      DM.modify fun s => { s with groupNodes := s.groupNodes ++ [(id, g)], places := s.places ++ [(id, ctx)] }
      return (.blockgroup id g, [], args)
  else pure (.include ctype, [], args)

/-- document_processors/include.py:70-94 — the arguments of the include: the boxed ones, or those after the colon. -/
def includeArgs (boxed : Option NodeArgs) (toks : List Token) (ctx : Context) : DM NodeArgs := do
  if ← DM.peek toks (·.peekIs .LITERAL (some [':'])) then
    if boxed.isSome then DM.raise (.parser msgBothArguments (some ctx))
    else
      let _ ← DM.tm toks (·.get (some .LITERAL) (some [':']))
      let t ← DM.tm toks (·.get (some .TEXT))
      let s ← DM.get
      let p ← DM.lift (processArgumentsWithVariables s.env t)
      return p.arguments
  else return boxed.getD {}

/-- document_processors/include.py:56-132. -/
def includeProc (cfg : Config) (nested : NestedParser) (toks : List Token) : DM Unit := do
  let pre ← DM.tm toks (·.get (some .INCLUDE))
  let ty ← DM.tm toks (·.get (some .TEXT))
  let ctx := pre.ctx.merge ty.ctx
  let s ← DM.get
  DM.modify fun s => { s with argsBuf := none }
  let args ← includeArgs s.argsBuf toks ctx
  let r ← includeNode cfg nested ty.value args ctx
  let labels ← popLabels
  saveIfControl (Node.new r.1 ctx r.2.1 r.2.2 labels)

/-! ## The parser -/

/-- document_parser.py:135-150 — the processing functions, in order. -/
def docFns (cfg : Config) (nested : NestedParser) (fuel : Nat) (toks : List Token) :
    List (DM Unit) :=
  [eolProc toks, ruleProc toks, variableProc toks, labelProc fuel toks, controlProc toks,
   argumentsProc toks, headerProc fuel toks, blockProc nested toks, includeProc cfg nested toks,
   listProc fuel toks, paragraphProc fuel toks]

/-- base_parser.py:85-113 — the loop over the processing functions, each in `with self.tm`;
`next` is the next token. -/
def tryDocFns (next : Token) : List (DM Unit) → DM Unit
  | [] => DM.raise (.parser .cannotParse (some next.ctx))
  | f :: fs => fun s =>
    match f s with
    | .ok a s' => .ok a s'
    | .fail s' => tryDocFns next fs { s' with next := s.next }
    | .err e => .err e

/-- base_parser.py:60-113 — the loop of `parse`. `n` bounds the number of rounds. -/
def docLoop (fns : List (DM Unit)) (toks : List Token) :
    (n : Nat) → (last : Token) → DocSt → Except Err DocSt
  | 0, _, _ => .error .fuel
  | n + 1, last, s =>
    match TM.peekIs ⟨toks, s.next⟩ .EOF with
    | .error e => .error e
    | .ok true => .ok s
    | .ok false =>
      match TM.peek ⟨toks, s.next⟩ with
      | .error e => .error e
      | .ok nextTok =>
        if nextTok = last then .error (.parser .parseLoop (some nextTok.ctx))
        else
          match tryDocFns nextTok fns s with
          | .ok _ s' => docLoop fns toks n nextTok s'
          | .fail _ => .error .token      -- not reachable
          | .err e => .error e

/-- `DocumentParser.lex_and_parse` (base_parser.py:118-164): lex, parse, finalise. The result is
the final state of the parser. `fuel` bounds the nesting of blocks, includes and inline
constructs. -/
def parseDocument (cfg : Config) : (fuel : Nat) → NestedParser
  | 0, _ => .error .fuel
  | n + 1, req =>
    match lexDocument (TextBuffer.ofText req.text req.startLine req.startColumn req.source) with
    | .error e => .error e
    | .ok toks =>
      let s : DocSt := { env := initEnv req.env, uid := req.uid, objs := req.objs
                         forbidden := req.forbidden }
      match parserObjects s.env with
      | .error e => .error e
      | .ok () =>
        match docLoop (docFns cfg (parseDocument cfg n) n toks) toks (toks.length + 2) initialLast s with
        | .error e => .error e
        | .ok s => finalise cfg s

/-- document_parser.py:55-61 — `DocumentParserOutput`, with the objects references point to and
the environment after parsing. The table of contents refers to the headers. -/
structure DocOutput where
  document : Option Node
  toc : Option (List Nat × List Node)
  includeCalls : List IncludeCall
  objs : List Node
  env : Env

/-- document_parser.py:255-271 — the second part of `finalise`. -/
def DocSt.output (s : DocSt) : DocOutput where
  document :=
    match spanOf s.nodes with
    | .error _ => none
    | .ok ctx => some (Node.new .document ctx s.nodes)
  toc := if s.nodes.isEmpty then none
    else some (s.tocHeaders.map (·.1), outlineNodes (outline s.tocHeaders))
  includeCalls := s.includeCalls
  objs := s.objs
  env := s.env

/-- Parse a whole document, as `Mau` does for the command line (mau/__init__.py, `Mau.process`): empty list of
forbidden includes. -/
def parseDoc (cfg : Config) (fuel : Nat) (text : Str) (env : Env := []) (source : Option Str := none) :
    Except Err DocSt :=
  parseDocument cfg fuel ⟨text, env, 0, 0, source, [], 1, []⟩

end Mau
