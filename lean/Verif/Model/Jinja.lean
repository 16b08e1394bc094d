import Verif.Model.Visitor

/-!
# Templates and the Jinja visitor

Models `mau/visitors/jinja_visitor.py`: template names, claims, matching and selection of templates,
and the visit of a tree. It starts from the flat dictionary of templates (name ↦ content); how that is made (jinja_visitor.py:357-380)
is in `Model/TemplateSources`. Rendering a template is Jinja's business; it is a parameter.
-/

namespace Mau

/-- jinja_visitor.py:27-52 — a template and its claims. -/
structure Template where
  type : Str
  content : Str
  name : Str
  subtype : Option Str := none
  pref : Option Str := none
  parentType : Option Str := none
  parentSubtype : Option Str := none
  parentCustom : Dict Str := []
  tags : List Str := []
  custom : Dict Str := []
  deriving DecidableEq, Repr

/-- Python's truth value of an optional string. -/
def truthyOpt : Option Str → Bool
  | none => false
  | some s => !s.isEmpty

/-- jinja_visitor.py:54-69 — `specificity`. -/
def Template.specificity (t : Template) : List Nat :=
  [t.custom.length,
   if truthyOpt t.subtype then 1 else 0,
   if truthyOpt t.pref then 1 else 0,
   if truthyOpt t.parentType then 1 else 0,
   t.parentCustom.length,
   if truthyOpt t.parentSubtype then 1 else 0,
   t.tags.length]

/-- `s.removeprefix(p)` when it removes something (jinja_visitor.py:100-119 compare the result
with the string; the prefixes are not empty). -/
def removePrefix? (p s : Str) : Option Str :=
  if startsWith s p then some (s.drop p.length) else none

/-- jinja_visitor.py:100-119 — one part of the name of a template. -/
def Template.addPart (t : Template) (part : Str) : Template :=
  match removePrefix? c%"pt_" part with
  | some v => { t with parentType := some v }
  | none =>
  match removePrefix? c%"pts_" part with
  | some v =>
    match splitStr c%"__" v with
    | [key, value] => { t with parentCustom := t.parentCustom.set key value }
    | _ => { t with parentSubtype := some v }
  | none =>
  match removePrefix? c%"pf_" part with
  | some v => { t with pref := some v }
  | none =>
  match removePrefix? c%"tg_" part with
  | some v => { t with tags := t.tags ++ [v] }
  | none =>
    match splitStr c%"__" part with
    | [key, value] => { t with custom := t.custom.set key value }
    | _ => { t with subtype := some part }

/-- jinja_visitor.py:71-121 — `Template.from_name`. -/
def Template.fromName (name content : Str) : Except Err Template :=
  match splitChar '.' name with
  | [] => .error (.py .valueError)       -- not reachable
  | type :: parts =>
    if type.isEmpty then .error (.py .valueError)
    else .ok (parts.foldl Template.addPart { type, content, name })

/-- What the claims of a template are compared with. -/
structure NodeFacts where
  type : Str
  subtype : Option Str
  tags : List Str
  custom : Dict Str
  deriving DecidableEq, Repr

/-- The properties `custom_template_fields` of the node classes (nodes/inline.py:60-64,
nodes/macro.py:84-88, nodes/label.py:35-39, nodes/include.py:98-102, 374-378, 414-418; all other
classes have the default of nodes/node.py:65-69). -/
def NodeData.customFields : NodeData → Dict Str
  | .style st => [(c%"style", st)]
  | .macro name => [(c%"name", name)]
  | .label role => [(c%"role", role)]
  | .include ctype => [(c%"ctype", ctype)]
  | .blockgroupItem _ pos => [(c%"position", pos)]
  | .blockgroup _ name => [(c%"name", name)]
  | _ => []

/-- The facts about a node. -/
def Node.facts (n : Node) : NodeFacts :=
  { type := n.data.typeName, subtype := n.args.subtype, tags := n.args.tags,
    custom := n.data.customFields }

/-- jinja_visitor.py:129-142 and 159-172 — the custom fields claimed are present with these values. -/
def customMatch (claims fields : Dict Str) : Bool :=
  claims.all fun kv => Dict.get? fields kv.1 == some kv.2

/-- jinja_visitor.py:147-148 — an optional claim. -/
def claimMatch (claim value : Option Str) : Bool :=
  !truthyOpt claim || claim == value

/-- jinja_visitor.py:123-183 — `match`, for a node and its parent, and a prefix. -/
def Template.matches (t : Template) (n : NodeFacts) (parent : Option NodeFacts) (pref : Option Str) :
    Bool :=
  if !t.type.isEmpty && t.type != n.type then false
  else if !customMatch t.custom n.custom then false
  else if t.pref != pref then false
  else if !claimMatch t.subtype n.subtype then false
  else
    (match parent with
     | none => t.parentCustom.isEmpty && !truthyOpt t.parentType && !truthyOpt t.parentSubtype
     | some p => customMatch t.parentCustom p.custom && claimMatch t.parentType (some p.type) &&
        claimMatch t.parentSubtype p.subtype) &&
    t.tags.all (fun tag => n.tags.contains tag)

/-- Insert a template before the first one that is not more specific. -/
def insertTemplate (t : Template) : List Template → List Template
  | [] => [t]
  | u :: us => if t.specificity < u.specificity then u :: insertTemplate t us else t :: u :: us

/-- jinja_visitor.py:410-411 — `templates.sort(key=specificity, reverse=True)`. Python's sort is stable,
also with `reverse`; any stable sort gives the same list. -/
def sortTemplates (ts : List Template) : List Template := ts.foldr insertTemplate []

/-- jinja_visitor.py:395-408 — the templates with the right extension, in the order of the
dictionary. -/
def readTemplates (extension : Str) : Dict Str → Except Err (List Template)
  | [] => .ok []
  | (name, content) :: rest =>
    if endsWith name extension then do
      let t ← Template.fromName (name.take (name.length - extension.length)) content
      let ts ← readTemplates extension rest
      return t :: ts
    else readTemplates extension rest

/-- jinja_visitor.py:482-515 — `_find_matching_template`, in the list of the templates sorted by
specificity. -/
def findTemplate (sorted : List Template) (prefixes : List Str) (n : NodeFacts)
    (parent : Option NodeFacts) : Option Template :=
  -- jinja_visitor.py:413-418: the sorted templates of the type of the node
  let ts := sorted.filter fun t => t.type == n.type
  let found := prefixes.flatMap (fun p => ts.filter fun t => t.matches n parent (some p)) ++
    ts.filter fun t => t.matches n parent none
  found.head?

/-- How Jinja can fail: a template uses something that is not defined (jinja2.exceptions.UndefinedError), or any other exception, like
one for wrong syntax. -/
inductive RenderErr where
  | undefined (text : Str)
  | raised (e : PyErr)
  deriving DecidableEq, Repr

/-- What Jinja does with a set of templates: it renders the template of a name with the value of `config` and the data of a node. -/
abbrev Jinja := (name : Str) → (config : List (Str × Nested)) → (data : List (Str × VData)) → Except RenderErr Str

/-- A Jinja visitor after `__init__` (jinja_visitor.py:343-430): its templates, sorted by specificity,
the configured prefixes, the environment, and Jinja. -/
structure JinjaVisitor where
  templates : List Template
  prefixes : List Str
  env : Env
  render : Jinja

/-- base_visitor.py:15-39 and 59-78 — `create_visitor_exception` for a node and its data, which always have entries: without
`_context` among them (option `add_context`) it raises KeyError instead. -/
def nodeErr (e : VisitEnv) (n : Node) (m : Msg) : Err :=
  if e.addContext then .visitor m (some (n.data.typeName, n.ctx.adjust)) else .py .keyError

/-- jinja_visitor.py:432-457 — `_render`. The name is that of a template, so `get_template` finds it. A mistake in the syntax of a template is
found before `asdict` runs; the model has these two failures, neither of which is a Mau error, in the other order. -/
def JinjaVisitor.renderNode (j : JinjaVisitor) (e : VisitEnv) (n : Node) (name : Str) (data : List (Str × VData)) : Except Err Str := do
  let config ← Env.asdict j.env
  match j.render name config data with
  | .ok s => .ok s
  | .error (.undefined text) =>
    .error (nodeErr e n (.text (c%"Error rendering node with template " ++ name ++ c%": " ++ text)))
  | .error (.raised p) => .error (.py p)

/-- jinja_visitor.py:332-338 — the strings put between the children of a node. -/
def joinSep (type : Str) : Str :=
  if type = c%"document" then c%"\n"
  else if type = c%"raw-content" then c%"\n"
  else if type = c%"source" then c%"\n"
  else if type = c%"paragraph" then c%" "
  else []

/-- jinja_visitor.py:517-537 — the part of `visit` after the data of the node were collected. -/
def JinjaVisitor.finish (j : JinjaVisitor) (e : VisitEnv) (at_ : Place) (n : Node) (data : VData) :
    Except Err Str :=
  match findTemplate j.templates j.prefixes n.facts ((e.parents at_).map Node.facts) with
  | none => .error (nodeErr e n (.text c%"Cannot find a suitable template."))
  | some t =>
  match data with
  | .obj kvs => j.renderNode e n t.name kvs
  | _ => .error (.py .typeError)       -- not reachable: the data of a node are a dictionary

/-- A list of strings out of a list of results (jinja_visitor.py:546-547). -/
def visitStrs (v : Place → Node → Except Err Str) (at_ : Place) (k : Nat) : Nat → List Node →
    Except Err (List Str)
  | _, [] => .ok []
  | i, n :: ns => do
    let x ← v ((k, i) :: at_) n
    let xs ← visitStrs v at_ k (i + 1) ns
    return x :: xs

/-- The operations of the Jinja visitor, given what `visit_data` returns: `visit`
(jinja_visitor.py:517-537) renders the data, `visitlist` (jinja_visitor.py:539-550) joins the results. -/
def JinjaVisitor.ops (j : JinjaVisitor) (e : VisitEnv) (d : Place → Node → Except Err VData) : VisitOps where
  data := d
  one := fun at_ n => do
    let data ← d at_ n
    return .str (← j.finish e at_ n data)
  list := fun cur at_ k ns => do
    let xs ← visitStrs (fun at_ n => do let data ← d at_ n; j.finish e at_ n data) at_ k 0 ns
    return .str (joinWith (joinSep cur.data.typeName) xs)
  absent := .str []

/-- base_visitor.py:173-181 — `visit_data` of the Jinja visitor, with recursion budget `fuel`. -/
def JinjaVisitor.data (j : JinjaVisitor) (e : VisitEnv) : (fuel : Nat) → Place → Node → Except Err VData
  | 0, _, _ => .error .fuel
  | k + 1, at_, n => acceptNode e (j.ops e (j.data e k)) at_ n

/-- jinja_visitor.py:517-537 — `visit`. -/
def JinjaVisitor.visit (j : JinjaVisitor) (e : VisitEnv) (fuel : Nat) (at_ : Place) (n : Node) :
    Except Err Str := do
  let data ← j.data e fuel at_ n
  j.finish e at_ n data

end Mau
