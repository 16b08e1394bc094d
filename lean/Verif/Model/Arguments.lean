import Verif.Model.Preprocess

/-!
# Arguments and conditions

Models `mau/parsers/arguments_parser.py`, `mau/nodes/node_arguments.py`,
`mau/parsers/condition_parser.py` and the class `Control` of
`mau/parsers/buffers/control_buffer.py`.
-/

namespace Mau

/-! ## Arguments -/

/-- One parsed argument (a `ValueNode`, with the key if it is named). -/
inductive ArgItem where
  | named (key : Str) (node : CtxText)
  | unnamed (node : CtxText)
  deriving DecidableEq, Repr

/-- The flag `_named_arguments_on` (arguments_parser.py:37, 107). -/
def ArgItem.isNamed : ArgItem → Bool
  | .named .. => true
  | .unnamed .. => false

/-- arguments_parser.py:75-86 and 126-137 — the value of an argument: quoted text, or
everything up to a comma. -/
def argValue : TokFn Token := fun tm => do
  if ← tm.peekIs .LITERAL (some ['"']) then
    let (_, tm) ← tm.get (some .LITERAL) (some ['"'])
    let (token, tm) ← tm.collectJoin [Token.generate .LITERAL ['"']]
    let (_, tm) ← tm.get (some .LITERAL) (some ['"'])
    return (token, tm)
  else
    tm.collectJoin [Token.generate .LITERAL [',']]

/-- arguments_parser.py:90-91, 94-95, 141-142, 145-146 — `with self.tm: self.tm.get_token(..)`:
consume a token if it is there. -/
def optToken (ty : TokenType) (v : Option Str) (tm : TM) : Except Err TM :=
  match tm.get (some ty) v with
  | .ok (_, tm') => .ok tm'
  | .error .token => .ok tm
  | .error e => .error e

/-- arguments_parser.py:60-109 — `_process_named_argument`. -/
def namedArgument : TokFn ArgItem := fun tm => do
  let (key, tm) ← tm.get (some .TEXT)
  let (_, tm) ← tm.get (some .LITERAL) (some ['='])
  let (token, tm) ← argValue tm
  let tm ← optToken .LITERAL (some [',']) tm
  let tm ← optToken .WHITESPACE none tm
  return (.named key.value ⟨strip token.value, token.ctx⟩, tm)

/-- "Unnamed arguments after named arguments are forbidden." (arguments_parser.py:119-122). -/
def msgUnnamedAfterNamed : Msg :=
  .text c%"Unnamed arguments after named arguments are forbidden."

/-- arguments_parser.py:111-157 — `_process_unnamed_argument`; `on` is
`_named_arguments_on`. -/
def unnamedArgument (on : Bool) : TokFn ArgItem := fun tm => do
  if on then throw (.parser msgUnnamedAfterNamed none)
  let (token, tm) ← argValue tm
  let tm ← optToken .LITERAL (some [',']) tm
  let tm ← optToken .WHITESPACE none tm
  return (.unnamed ⟨token.value, token.ctx⟩, tm)

/-- arguments_parser.py:54-58 — the processing functions. -/
def argFns (acc : List ArgItem) : List (TokFn ArgItem) :=
  [namedArgument, unnamedArgument (acc.any (·.isNamed))]

/-- The collected positional arguments, in order (arguments_parser.py:155). -/
def unnamedOf (items : List ArgItem) : List CtxText :=
  items.filterMap fun | .unnamed n => some n | .named .. => none

/-- The collected named arguments as a dictionary (arguments_parser.py:104). -/
def namedOf (items : List ArgItem) : Dict CtxText :=
  items.foldl (fun d i => match i with | .named k n => Dict.set d k n | .unnamed _ => d) []

/-- nodes/node_arguments.py:8-46 — `set_names`. -/
def setNames {α : Type} (unnamed : List α) (named : Dict α) (names : List Str) :
    List α × Dict α :=
  let free := names.filter (fun n => !Dict.has named n)
  let positional := Dict.update [] (free.zip unnamed)
  (unnamed.drop free.length, Dict.update named positional)

/-- The fields of an `ArgumentsParser` after `parse` (arguments_parser.py:37-52). The tag
nodes and subtype are kept with their final values. -/
structure ParsedArgs where
  unnamed : List CtxText := []
  named : Dict CtxText := []
  tagNodes : List Str := []
  subtype : Option CtxText := none
  alias : Option CtxText := none
  deriving DecidableEq, Repr

/-- An unnamed argument during isolation: its current value and the lists it was put in.
`_isolate_by_prefix` changes the value of the node in place, so a later pass sees the
value without the earlier prefix. -/
structure IsoNode where
  node : CtxText
  isTag : Bool := false
  isSubtype : Bool := false
  isAlias : Bool := false
  deriving DecidableEq, Repr

/-- arguments_parser.py:167-171 — one pass of `_isolate_by_prefix` on one node. -/
def isoPass (pre : Char) (mark : IsoNode → IsoNode) (n : IsoNode) : IsoNode :=
  match n.node.value with
  | c :: rest => if c = pre then mark { n with node := { n.node with value := rest } } else n
  | [] => n

/-- arguments_parser.py:174-178. -/
def msgMultiplePrefix (p : Char) : Msg := .text (c%"Multiple nodes with prefix '" ++ [p] ++ c%"' detected.")

/-- arguments_parser.py:182-205 — the first part of `_isolate_tags_and_subtype`. -/
def isolate (unnamed : List CtxText) (named : Dict CtxText) : Except Err ParsedArgs :=
  let l1 := (unnamed.map fun n => ({ node := n } : IsoNode)).map
    (isoPass '#' fun n => { n with isTag := true })
  let l2 := l1.map (isoPass '*' fun n => { n with isSubtype := true })
  if (l2.filter (·.isSubtype)).length > 1 then .error (.parser (msgMultiplePrefix '*') none)
  else
    let l3 := l2.map (isoPass '@' fun n => { n with isAlias := true })
    if (l3.filter (·.isAlias)).length > 1 then .error (.parser (msgMultiplePrefix '@') none)
    else .ok {
      unnamed := (l3.filter fun n => !(n.isTag || n.isSubtype || n.isAlias)).map (·.node)
      named := named
      tagNodes := (l3.filter (·.isTag)).map (·.node.value)
      subtype := ((l3.filter (·.isSubtype)).map (·.node)).head?
      alias := ((l3.filter (·.isAlias)).map (·.node)).head? }

/-- An entry of `mau.parser.aliases`. -/
structure Alias where
  args : Dict Str
  names : List Str
  subtype : Option Str
  deriving DecidableEq, Repr

/-- The `args` of an alias as strings. A nested dictionary or a non-string value is outside
the model. -/
def aliasArgs : List (Str × Nested) → Except Err (Dict Str)
  | [] => .ok []
  | (k, .leaf (.str s)) :: rest => do return (k, s) :: (← aliasArgs rest)
  | _ => .error .unmodelled

/-- arguments_parser.py:209-229 — look an alias up in the environment. An `aliases` or
alias value that is not a dictionary has no `asdict`/`get` (AttributeError); `names`
given as a string is iterated character by character. -/
def lookupAlias (env : Env) (name : Str) : Except Err Alias := do
  let repl ← match Env.get env c%"mau.parser.aliases" with
    | .default => pure []
    | .namespace e => Env.asdict e
    | .value _ => throw (.py .attributeError)
  match Dict.get? repl name with
  | none => throw (.parser (.unknownAlias name) none)
  | some (.leaf _) => throw (.py .attributeError)
  | some (.dict d) =>
    let args ← match Dict.get? d c%"args" with
      | none => pure []
      | some (.dict a) => aliasArgs a
      | some (.leaf _) => throw (.py .attributeError)
    let names ← match Dict.get? d c%"names" with
      | none => pure []
      | some (.leaf (.list xs _)) => pure xs
      | some (.leaf (.str s)) => pure (s.map fun c => [c])
      | some (.dict kvs) => pure (Dict.keys kvs)
      | some (.leaf _) => throw .unmodelled
    let subtype ← match Dict.get? d c%"subtype" with
      | none => pure none
      | some (.leaf (.str s)) => pure (if s.isEmpty then none else some s)
      | some (.dict []) => pure none
      | _ => throw .unmodelled
    return ⟨args, names, subtype⟩

/-- arguments_parser.py:238-259 — apply an alias replacement. `missing` is the set of
missing keys in the (unspecified) order in which Python iterates over it. -/
def applyAlias (p : ParsedArgs) (aliasNode : CtxText) (a : Alias) (missing : List Str) :
    ParsedArgs :=
  let named := missing.foldl (fun d k =>
    match Dict.get? a.args k with
    | some v => Dict.set d k ⟨v, aliasNode.ctx⟩
    | none => d) p.named
  let (unnamed, named) := setNames p.unnamed named a.names
  { p with
    unnamed := unnamed
    named := named
    subtype := match p.subtype, a.subtype with
      | none, some s => some ⟨s, aliasNode.ctx⟩
      | s, _ => s }

/-- arguments_parser.py:238-240 — the missing keys, here in the order of the alias
definition (the code iterates over a set; `applyAlias` is proved independent of it). -/
def missingKeys (a : Alias) (named : Dict CtxText) : List Str :=
  (Dict.keys a.args).filter (fun k => !Dict.has named k)

/-- arguments_parser.py:182-259 — `_isolate_tags_and_subtype`. -/
def isolateTagsAndSubtype (env : Env) (unnamed : List CtxText) (named : Dict CtxText) :
    Except Err ParsedArgs := do
  let p ← isolate unnamed named
  match p.alias with
  | none => return p
  | some al =>
    let a ← lookupAlias env al.value
    return applyAlias p al a (missingKeys a p.named)

/-- arguments_parser.py:291-303 — parse the tokens, then isolate; errors of the arguments parser itself have no
context yet. -/
def parseArgTokens (env : Env) (ts : List Token) : Except Err ParsedArgs := do
  let items ← parseLoop argFns (ts.length + 2) initialLast { tokens := ts } []
  isolateTagsAndSubtype env (unnamedOf items) (namedOf items)

/-- arguments_parser.py:29-33 — `self.context`: the errors of the arguments parser are placed at the first token. -/
def locateArgs (ts : List Token) (x : Except Err ParsedArgs) : Except Err ParsedArgs :=
  match x, ts.head? with
  | .error e, some t => .error (e.locate t.ctx)
  | x, _ => x

/-- `ArgumentsParser.lex_and_parse` (parsers/base_parser.py:118-164). -/
def parseArgs (env : Env) (text : Str) (startLine startColumn : Nat := 0)
    (source : Option Str := none) : Except Err ParsedArgs := do
  let ts ← lexArgs (TextBuffer.ofText text startLine startColumn source)
  locateArgs ts (parseArgTokens env ts)

/-- nodes/node_arguments.py:49-55 — `NodeArguments`. -/
structure NodeArgs where
  unnamed : List Str := []
  named : Dict Str := []
  tags : List Str := []
  internalTags : List Str := []
  subtype : Option Str := none
  deriving DecidableEq, Repr

/-- arguments_parser.py:14 — `INTERNAL_TAG_PREFIX`. -/
def internalTagPrefix : Str := c%"mau:"

/-- arguments_parser.py:266-289 — the property `arguments`. -/
def ParsedArgs.arguments (p : ParsedArgs) : NodeArgs where
  unnamed := p.unnamed.map (·.value)
  named := p.named.map fun kv => (kv.1, kv.2.value)
  tags := p.tagNodes.filter fun t => !startsWith t internalTagPrefix
  internalTags := (p.tagNodes.filter fun t => startsWith t internalTagPrefix).map
    (·.drop internalTagPrefix.length)
  subtype := p.subtype.map (·.value)

/-- arguments_parser.py:261-264 — `ArgumentsParser.set_names`. -/
def ParsedArgs.setNames (p : ParsedArgs) (names : List Str) : ParsedArgs :=
  let (u, n) := Mau.setNames p.unnamed p.named names
  { p with unnamed := u, named := n }

/-- nodes/node_arguments.py:60-65 — `NodeArguments.set_names`. -/
def NodeArgs.setNames (a : NodeArgs) (names : List Str) : NodeArgs :=
  let (u, n) := Mau.setNames a.unnamed a.named names
  { a with unnamed := u, named := n }

/-- arguments_parser.py:306-327 — `process_arguments`. -/
def processArguments (env : Env) (t : Token) : Except Err ParsedArgs :=
  parseArgs env t.value t.ctx.startLine t.ctx.startColumn t.ctx.source

/-- arguments_parser.py:330-364 — `process_arguments_with_variables`. -/
def processArgumentsWithVariables (env : Env) (t : Token) : Except Err ParsedArgs := do
  let text ← preprocess env t.value t.ctx.startLine t.ctx.startColumn t.ctx.source
  parseArgs env text.value t.ctx.startLine t.ctx.startColumn t.ctx.source

/-! ## Conditions -/

/-- nodes/condition.py:5-21 — `ConditionNode`. -/
structure ConditionNode where
  var : Str
  comparison : Str
  value : Str
  ctx : Context
  deriving DecidableEq, Repr

/-- parsers/condition_parser.py:34-62 — `_process_condition`. -/
def conditionParserFn : TokFn ConditionNode := fun tm => do
  let (var, tm) ← tm.get (some .TEXT)
  let (cmp, tm) ← tm.get (some .TEXT)
  let (val, tm) ← tm.get (some .TEXT)
  return (⟨var.value, cmp.value, val.value, var.ctx.merge val.ctx⟩, tm)

/-- `ConditionParser.lex_and_parse(text, ..).condition_node`: the last condition, `none`
(Python `None`) if there was none. -/
def parseCondition (text : Str) (startLine startColumn : Nat := 0) (source : Option Str := none) :
    Except Err (Option ConditionNode) := do
  let ts ← lexCondition (TextBuffer.ofText text startLine startColumn source)
  let conds ← parseLoop (fun _ => [conditionParserFn]) (ts.length + 2) initialLast { tokens := ts } []
  return conds.getLast?

/-- parsers/condition_parser.py:65-99 — `process_condition_with_variables`. -/
def processConditionWithVariables (env : Env) (t : Token) : Except Err (Option ConditionNode) := do
  let text ← preprocess env t.value t.ctx.startLine t.ctx.startColumn t.ctx.source
  parseCondition text.value t.ctx.startLine t.ctx.startColumn t.ctx.source

/-- parsers/buffers/control_buffer.py:17-39 — a `Control`; `negated` is the comparison `!=`. -/
structure Control where
  var : Str
  negated : Bool
  value : Str
  ctx : Context
  deriving DecidableEq, Repr

/-- parsers/buffers/control_buffer.py:29-33, parsers/text_parser.py:827-831. -/
def msgControlOperator (op : Str) : Msg := .text (c%"Control operator '" ++ op ++ c%"' is not supported.")

/-- parsers/buffers/control_buffer.py:21-39 — the constructor. An unknown operator is a Mau
error, an unknown comparison a ValueError (`ControlComparisons(comparison)`). -/
def mkControl (operator var comparison value : Str) (ctx : Context) : Except Err Control :=
  if operator ≠ c%"if" then .error (.parser (msgControlOperator operator) (some ctx))
  else if comparison = c%"==" then .ok ⟨var, false, value, ctx⟩
  else if comparison = c%"!=" then .ok ⟨var, true, value, ctx⟩
  else .error (.py .valueError)

/-- parsers/buffers/control_buffer.py:41-61 — `Control.process`. A value that is not a
string is never equal to the (string) value of the condition. -/
def Control.process (c : Control) (env : Env) : Except Err Bool :=
  match Dict.get? env c.var with
  | none => .error (.parser (.undefinedVariable c.var) (some c.ctx))
  | some v =>
    let same := decide (v = .str c.value)
    .ok (if c.negated then !same else same)

end Mau
