import Verif.Model.Node

/-!
# The text parser

Models `mau/parsers/text_parser.py`.
-/

namespace Mau

/-- The mutable state of a `TextParser` (text_parser.py:47-61): the index of the tokens
manager (`next`), the collected footnote mentions and header links (identity and name),
the counter for identity numbers, and the contexts of the mentions (`node.info.context` of the macro nodes, by identity). -/
structure TextSt where
  next : Nat := 0
  uid : Nat := 0
  footnoteMacros : List (Nat × Str) := []
  headerLinks : List (Nat × Str) := []
  places : List (Nat × Context) := []
  deriving DecidableEq, Repr

/-- The outcome of a parsing function: a value; a `TokenError`, with the state at that point
(only the token index will be rolled back); or another exception. -/
inductive PRes (σ α : Type) where
  | ok (a : α) (s : σ)
  | fail (s : σ)
  | err (e : Err)

/-- A parsing function of the text parser. -/
abbrev PM (α : Type) := TextSt → PRes TextSt α

/-- Sequencing. -/
def PM.bind {α β : Type} (x : PM α) (f : α → PM β) : PM β := fun s =>
  match x s with
  | .ok a s' => f a s'
  | .fail s' => .fail s'
  | .err e => .err e

instance : Monad PM where
  pure a := fun s => .ok a s
  bind := PM.bind

/-- Raise an exception. -/
def PM.raise {α : Type} (e : Err) : PM α := fun s =>
  match e with
  | .token => .fail s
  | e => .err e

/-- Run a function of the tokens manager. -/
def PM.tm {α : Type} (toks : List Token) (f : TM → Except Err (α × TM)) : PM α := fun s =>
  match f ⟨toks, s.next⟩ with
  | .ok (a, tm) => .ok a { s with next := tm.next }
  | .error .token => .fail s
  | .error e => .err e

/-- Run a function of the tokens manager which does not move. -/
def PM.peek {α : Type} (toks : List Token) (f : TM → Except Err α) : PM α := fun s =>
  match f ⟨toks, s.next⟩ with
  | .ok a => .ok a s
  | .error .token => .fail s
  | .error e => .err e

/-- A computation without state. -/
def PM.lift {α : Type} (x : Except Err α) : PM α := fun s =>
  match x with
  | .ok a => .ok a s
  | .error .token => .fail s
  | .error e => .err e

/-- `with self.tm: return x()` followed by `y` (text_parser.py:236-251): on a token error the
index is restored, the rest of the state is kept, and `y` runs. -/
def PM.orElse {α : Type} (x y : PM α) : PM α := fun s =>
  match x s with
  | .ok a s' => .ok a s'
  | .fail s' => y { s' with next := s.next }
  | .err e => .err e

/-- text_parser.py:38 — `MAP_STYLES`. -/
def styleName (v : Str) : Option Str :=
  if v = c%"_" then some c%"underscore"
  else if v = c%"*" then some c%"star"
  else if v = c%"^" then some c%"caret"
  else if v = c%"~" then some c%"tilde"
  else none

/-- text_parser.py:161-164 — `token in stop_tokens` for the stop set {EOF, EOL, marker}. -/
def sentenceStop (marker : Option Str) (t : Token) : Bool :=
  (t.type == .EOF && t.value == []) || (t.type == .EOL && t.value == []) ||
  (match marker with | some m => t.type == .LITERAL && t.value == m | none => false)

/-- text_parser.py:182-217 — group consecutive words into text nodes; `cur` is the
current group (its text and first context, last context). -/
def groupWordsAux : Option (Str × Context × Context) → List Node → List Node
  | none, [] => []
  | some (v, c0, c1), [] => [Node.new (.text v) (c0.merge c1)]
  | none, .mk (.word v) _ c _ _ _ :: ns => groupWordsAux (some (v, c, c)) ns
  | some (v, c0, _), .mk (.word v') _ c _ _ _ :: ns => groupWordsAux (some (v ++ v', c0, c)) ns
  | none, n :: ns => n :: groupWordsAux none ns
  | some (v, c0, c1), n :: ns => Node.new (.text v) (c0.merge c1) :: n :: groupWordsAux none ns

/-- text_parser.py:176-219 — the second half of `_parse_sentence`. -/
def groupWords (ns : List Node) : List Node := groupWordsAux none ns

/-- text_parser.py:253-277 — `_parse_backslash_escaped`. -/
def parseBackslash (toks : List Token) : PM (List Node) := do
  let b ← PM.tm toks (·.get (some .LITERAL) (some ['\\']))
  let t ← PM.tm toks (·.get)
  return [Node.new (.word t.value) (b.ctx.merge t.ctx)]

/-- text_parser.py:364-389 — `_parse_verbatim`. -/
def parseVerbatim (toks : List Token) : PM (List Node) := do
  let o ← PM.tm toks (·.get (some .LITERAL) (some ['`']))
  let c ← PM.tm toks (·.collectJoin [Token.generate .LITERAL ['`'], Token.generate .EOL])
  let e ← PM.tm toks (·.get (some .LITERAL) (some ['`']))
  return [Node.new (.verbatim c.value) (o.ctx.merge e.ctx)]

/-- text_parser.py:400 — `x in "$%"` (substring test). -/
def isEscapeMarker (v : Str) : Bool := v == [] || v == ['$'] || v == ['%'] || v == ['$', '%']

/-- text_parser.py:391-421 — `_parse_escaped`. -/
def parseEscaped (toks : List Token) : PM (List Node) := do
  let o ← PM.tm toks (·.get (some .LITERAL) none (some isEscapeMarker))
  let c ← PM.tm toks (·.collectJoin [Token.generate .LITERAL o.value, Token.generate .EOL])
  let e ← PM.tm toks (·.get (some .LITERAL) (some o.value))
  return [Node.new (.text c.value) (o.ctx.merge e.ctx)]

/-- text_parser.py:457-470 — `_parse_word`. -/
def parseWord (toks : List Token) : PM (List Node) := do
  let t ← PM.tm toks (·.get)
  return [Node.new (.word t.value) t.ctx]

/-- text_parser.py:83-118 — one round of the loop of `_collect_macro_args`. -/
def macroArgPiece : TokFn Token := fun tm => do
  if ← tm.peekIs .LITERAL (some ['"']) then
    let (o, tm) ← tm.get (some .LITERAL) (some ['"'])
    let (t, tm) ← tm.collectJoin [Token.generate .LITERAL ['"'], Token.generate .EOF]
    let (c, tm) ← tm.get (some .LITERAL) (some ['"'])
    return (⟨.TEXT, ['"'] ++ t.value ++ ['"'], o.ctx.merge c.ctx⟩, tm)
  else
    tm.collectJoin [Token.generate .LITERAL [','], Token.generate .LITERAL [')'],
      Token.generate .EOF]

/-- text_parser.py:76-122 — the loop of `_collect_macro_args`. -/
def macroArgsLoop : Nat → TM → List Token → Except Err (List Token × TM)
  | 0, _, _ => .error .fuel
  | n + 1, tm, acc => do
    if ← tm.peekIs .LITERAL (some [')']) then return (acc, tm)
    if ← tm.peekIs .EOF then return (acc, tm)
    let (t, tm) ← macroArgPiece tm
    macroArgsLoop n tm (acc ++ [t])

/-- text_parser.py:63-127 — `_collect_macro_args`. -/
def collectMacroArgs : TokFn Token := fun tm => do
  let (ts, tm) ← macroArgsLoop (tm.tokens.length + 2) tm []
  return (Token.fromTokenList ts, tm)

/-- The mandatory argument `key` of a macro, or the macro's error message. -/
def mandatory (p : ParsedArgs) (key : Str) (m : Msg) (ctx : Context) : PM CtxText :=
  match Dict.get? p.named key with
  | some n => pure n
  | none => PM.raise (.parser m (some ctx))

/-- "Missing mandatory ..." messages (text_parser.py:484-487, 543-546, 597-600, 658-661,
700-703, 723-726, 748-751, 786-789). -/
def msgMissing (what : Str) : Msg := .text (c%"Missing mandatory " ++ what)

/-- text_parser.py:820-824. -/
def msgMacroName (name : Str) : Msg := .text (c%"Macro name '" ++ name ++ c%"' must be in the form 'operator:condition'.")
/-- text_parser.py:862-866. -/
def msgWrongCondition (cond : Str) : Msg :=
  .text (c%"Wrong condition syntax: '" ++ cond ++ c%"' (probably missing or incorrect comparison).")
/-- text_parser.py:885-889. -/
def msgNoTrueCase : Msg := .text c%"Control macro is missing the mandatory value for the true case."
/-- text_parser.py:900-905. -/
def msgNoFalseCase : Msg :=
  .text c%"The test result is negative but no value has been defined for that case."

/-- A fresh identity number. -/
def PM.fresh : PM Nat := fun s => .ok s.uid { s with uid := s.uid + 1 }

/-- text_parser.py:839-845 — the context of the condition; the shift is `len("@if:")`, also for `ifeval`. -/
def conditionCtx (nameTok : Token) : Context :=
  { nameTok.ctx with startColumn := nameTok.ctx.startColumn + 4 }

/-- The test and the selected case of a control macro (text_parser.py:815-919): returns the text
to parse and its context; `none` if the selected case is absent. -/
def controlCase (env : Env) (nameTok : Token) (p : ParsedArgs) (ctx : Context) :
    Except Err (Option (Str × Context)) := do
  let name := nameTok.value
  match splitChar ':' name with
  | [operator, condition] =>
    if operator ≠ c%"if" ∧ operator ≠ c%"ifeval" then
      throw (.parser (msgControlOperator operator) (some ctx))
    let evaluate := operator = c%"ifeval"
    let cond ← match parseCondition condition nameTok.ctx.startLine (nameTok.ctx.startColumn + 4)
        nameTok.ctx.source with
      | .ok c => pure c
      | .error e => if e.isMau then throw (.parser (msgWrongCondition condition) (some (conditionCtx nameTok))) else throw e
    match cond with
    | none => throw (.py .attributeError)    -- `None.variable`
    | some c =>
      let control ← mkControl c%"if" c.var c.comparison c.value nameTok.ctx
      let p := p.setNames [c%"true_case", c%"false_case"]
      match Dict.get? p.named c%"true_case" with
      | none => throw (.parser msgNoTrueCase (some ctx))
      | some trueCase =>
        let falseCase := Dict.get? p.named c%"false_case"
        let test ← control.process env
        let result := if test then some trueCase else falseCase
        if evaluate then
          match result with
          | none => throw (.parser msgNoFalseCase (some ctx))
          | some r =>
            match Env.get env r.value with
            | .default => throw (.parser (.undefinedVariable r.value) (some ctx))
            | .value (.str v) => return some (v, r.ctx)
            -- a value without `split`: the text buffer raises AttributeError
            | .value _ => throw (.py .attributeError)
            | .namespace _ => throw (.py .attributeError)
        else
          return result.map fun r => (r.value, r.ctx)
  | _ => throw (.parser (msgMacroName name) (some ctx))

/-! ### The single macros

`sub text ctx` is `self.lex_and_parse(text, ..).nodes`, see `parseStr`. -/

/-- The nodes of an optional text argument: parse it if it was given, otherwise use the default
(text_parser.py:497-513, 557-578, 610-626). -/
def textOr (sub : Str → Context → PM (List Node)) (o : Option CtxText) (default : List Node) : PM (List Node) :=
  match o with
  | some t => sub t.value t.ctx
  | none => pure default

/-- text_parser.py:472-528 — `_parse_macro_link`. -/
def macroLinkFn (sub : Str → Context → PM (List Node)) (p : ParsedArgs) (ctx : Context) : PM (List Node) := do
  let p := p.setNames [c%"target", c%"text"]
  let target ← mandatory p c%"target" (msgMissing c%"TARGET. Syntax: [link](TARGET, text).") ctx
  let nodes ← textOr sub (Dict.get? p.named c%"text") [Node.new (.text target.value) target.ctx]
  return [Node.new (.macroLink target.value) ctx nodes]

/-- text_parser.py:530-582 — `_parse_macro_header`. -/
def macroHeaderFn (sub : Str → Context → PM (List Node)) (p : ParsedArgs) (ctx : Context) : PM (List Node) := do
  let p := p.setNames [c%"header_id", c%"text"]
  let hid ← mandatory p c%"header_id" (msgMissing c%"ID. Syntax: [header](ID, TEXT).") ctx
  let id ← PM.fresh
  let nodes ← textOr sub (Dict.get? p.named c%"text") []
  fun s => .ok [Node.new (.macroHeader id hid.value none) ctx nodes]
    { s with headerLinks := s.headerLinks ++ [(id, hid.value)], places := s.places ++ [(id, ctx)] }

/-- text_parser.py:584-641 — `_parse_macro_mailto`. -/
def macroMailtoFn (sub : Str → Context → PM (List Node)) (p : ParsedArgs) (ctx : Context) : PM (List Node) := do
  let p := p.setNames [c%"email", c%"text"]
  let target ← mandatory p c%"email" (msgMissing c%"EMAIL. Syntax: [mailto](EMAIL, text).") ctx
  let nodes ← textOr sub (Dict.get? p.named c%"text") [Node.new (.text target.value) target.ctx]
  return [Node.new (.macroLink (c%"mailto:" ++ target.value)) ctx nodes]

/-- text_parser.py:736-772 — `_parse_macro_image`. -/
def macroImageFn (p : ParsedArgs) (ctx : Context) : PM (List Node) := do
  let p := p.setNames [c%"uri", c%"alt_text", c%"width", c%"height"]
  let uri ← mandatory p c%"uri" (msgMissing c%"URI. Syntax: [image](URI, alt_text, width, height).") ctx
  let get := fun k => (Dict.get? p.named k).map (·.value)
  return [Node.new (.macroImage uri.value (get c%"alt_text") (get c%"width") (get c%"height")) ctx]

/-- text_parser.py:774-801 — `_parse_macro_footnote`. -/
def macroFootnoteFn (p : ParsedArgs) (ctx : Context) : PM (List Node) := do
  let p := p.setNames [c%"name"]
  let nm ← mandatory p c%"name" (msgMissing c%"NAME. Syntax: [footnote](NAME).") ctx
  let id ← PM.fresh
  fun s => .ok [Node.new (.macroFootnote id nm.value none) ctx]
    { s with footnoteMacros := s.footnoteMacros ++ [(id, nm.value)], places := s.places ++ [(id, ctx)] }

/-- text_parser.py:643-686 — `_parse_macro_class`. -/
def macroClassFn (sub : Str → Context → PM (List Node)) (p : ParsedArgs) (ctx : Context) : PM (List Node) := do
  let p := p.setNames [c%"text"]
  let text ← mandatory p c%"text" (msgMissing c%"TEXT. Syntax: [class](TEXT, class1, class2, ...).") ctx
  let nodes ← sub text.value text.ctx
  return [Node.new (.macroClass (p.unnamed.map (·.value))) ctx nodes]

/-- text_parser.py:688-711 — `_parse_macro_unicode`. -/
def macroUnicodeFn (p : ParsedArgs) (ctx : Context) : PM (List Node) := do
  let p := p.setNames [c%"value"]
  let v ← mandatory p c%"value" (msgMissing c%"VALUE. Syntax: [unicode](VALUE).") ctx
  return [Node.new (.macroUnicode v.value) ctx]

/-- text_parser.py:713-734 — `_parse_macro_raw`. -/
def macroRawFn (p : ParsedArgs) (ctx : Context) : PM (List Node) := do
  let p := p.setNames [c%"value"]
  let v ← mandatory p c%"value" (msgMissing c%"VALUE. Syntax: [raw](VALUE).") ctx
  return [Node.new (.macroRaw v.value) ctx]

/-- text_parser.py:803-932 — `_parse_macro_control`. -/
def macroControlFn (env : Env) (sub : Str → Context → PM (List Node)) (name : Token) (p : ParsedArgs)
    (ctx : Context) : PM (List Node) := do
  match ← PM.lift (controlCase env name p ctx) with
  | none => return []
  | some (v, vc) => sub v vc

/-- text_parser.py:331-362 — the choice of the function for the macro name; other names give a
generic macro node. -/
def macroDispatch (env : Env) (sub : Str → Context → PM (List Node)) (name : Token) (p : ParsedArgs)
    (ctx : Context) : PM (List Node) :=
  if startsWith name.value c%"if" then macroControlFn env sub name p ctx
  else if name.value = c%"link" then macroLinkFn sub p ctx
  else if name.value = c%"header" then macroHeaderFn sub p ctx
  else if name.value = c%"mailto" then macroMailtoFn sub p ctx
  else if name.value = c%"image" then macroImageFn p ctx
  else if name.value = c%"footnote" then macroFootnoteFn p ctx
  else if name.value = c%"class" then macroClassFn sub p ctx
  else if name.value = c%"unicode" then macroUnicodeFn p ctx
  else if name.value = c%"raw" then macroRawFn p ctx
  else pure [Node.new (.macro name.value) ctx [] p.arguments]

/-- text_parser.py:279-330 — the first half of `_parse_macro`: the name, the arguments and the context
of a macro. -/
def macroHead (env : Env) (toks : List Token) : PM (Token × ParsedArgs × Context) := do
  let o ← PM.tm toks (·.get (some .LITERAL) (some ['[']))
  let name ← PM.tm toks (·.get (some .TEXT))
  let _ ← PM.tm toks (·.get (some .LITERAL) (some [']']))
  let _ ← PM.tm toks (·.get (some .LITERAL) (some ['(']))
  let argsTok ← PM.tm toks collectMacroArgs
  let c ← PM.tm toks (·.get (some .LITERAL) (some [')']))
  let p ← PM.lift (processArguments env argsTok)
  return (name, p, o.ctx.merge c.ctx)

mutual
/-- text_parser.py:167-173 — the first half of `_parse_sentence`: collect nodes until
`_parse_text` returns no node. -/
def sentenceLoop (env : Env) (toks : List Token) :
    (fuel : Nat) → (marker : Option Str) → PM (List Node)
  | 0, _ => PM.raise .fuel
  | n + 1, marker => do
    let ns ← parseItem env toks n marker
    if ns.isEmpty then return []
    let rest ← sentenceLoop env toks n marker
    return ns ++ rest

/-- text_parser.py:221-251 — `_parse_text`. -/
def parseItem (env : Env) (toks : List Token) :
    (fuel : Nat) → (marker : Option Str) → PM (List Node)
  | 0, _ => PM.raise .fuel
  | n + 1, marker => do
    let t ← PM.peek toks (·.peek)
    if sentenceStop marker t then return []
    PM.orElse (parseBackslash toks) <|
    PM.orElse (parseMacro env toks n) <|
    PM.orElse (parseVerbatim toks) <|
    PM.orElse (parseEscaped toks) <|
    PM.orElse (parseStyle env toks n) <|
    parseWord toks

/-- text_parser.py:423-455 — `_parse_style`. -/
def parseStyle (env : Env) (toks : List Token) : (fuel : Nat) → PM (List Node)
  | 0 => PM.raise .fuel
  | n + 1 => do
    let o ← PM.tm toks (·.get (some .LITERAL) none (some fun v => (styleName v).isSome))
    let content ← sentenceLoop env toks n (some o.value)
    let c ← PM.tm toks (·.get (some .LITERAL) (some o.value))
    return [Node.new (.style ((styleName o.value).getD [])) (o.ctx.merge c.ctx)
      (groupWords content)]

/-- text_parser.py:279-362 — `_parse_macro`. -/
def parseMacro (env : Env) (toks : List Token) : (fuel : Nat) → PM (List Node)
  | 0 => PM.raise .fuel
  | n + 1 => do
    let (name, p, ctx) ← macroHead env toks
    macroDispatch env (parseStr env n) name p ctx

/-- `self.lex_and_parse(text, ..).nodes` inside a macro (parsers/base_parser.py:118-164): a new
parser on the text, at the position of the given context. Its footnote mentions and
header links are dropped, only identity numbers are shared with the outer parser. -/
def parseStr (env : Env) : (fuel : Nat) → (text : Str) → (ctx : Context) → PM (List Node)
  | 0, _, _ => PM.raise .fuel
  | n + 1, text, ctx => fun s =>
    match lexText (TextBuffer.ofText text ctx.startLine ctx.startColumn ctx.source) with
    | .error e => .err e
    | .ok toks =>
      match textMain env toks n initialLast { uid := s.uid } [] with
      | .error e => .err e
      | .ok (ns, s') => .ok ns { s with uid := s'.uid }

/-- parsers/base_parser.py:60-116 — the loop of `parse` for the text parser, whose only
processing function is `_process_sentence` (text_parser.py:129-144). -/
def textMain (env : Env) (toks : List Token) :
    (fuel : Nat) → (last : Token) → TextSt → List Node → Except Err (List Node × TextSt)
  | 0, _, _, _ => .error .fuel
  | n + 1, last, s, acc =>
    match TM.peekIs ⟨toks, s.next⟩ .EOF with
    | .error e => .error e
    | .ok true => .ok (acc, s)
    | .ok false =>
      match TM.peek ⟨toks, s.next⟩ with
      | .error e => .error e
      | .ok nextTok =>
        if nextTok = last then .error (.parser .parseLoop (some nextTok.ctx))
        else
          match sentenceLoop env toks n none s with
          | .ok ns s' => textMain env toks n nextTok s' (acc ++ groupWords ns)
          | .fail _ => .error (.parser .cannotParse (some nextTok.ctx))
          | .err e => .error e
end

/-- The result of a text parser: nodes, footnote mentions, header links, the next identity number and the contexts of the mentions. -/
structure TextResult where
  nodes : List Node
  footnoteMacros : List (Nat × Str)
  headerLinks : List (Nat × Str)
  uid : Nat
  places : List (Nat × Context)

/-- `TextParser.lex_and_parse(text, ..)` with recursion budget `fuel`. -/
def parseText (fuel : Nat) (env : Env) (text : Str) (startLine startColumn : Nat := 0)
    (source : Option Str := none) (uid : Nat := 0) : Except Err TextResult :=
  match lexText (TextBuffer.ofText text startLine startColumn source) with
  | .error e => .error e
  | .ok toks =>
    match textMain env toks fuel initialLast { uid := uid } [] with
    | .error e => .error e
    | .ok (ns, s) => .ok ⟨ns, s.footnoteMacros, s.headerLinks, s.uid, s.places⟩

end Mau
