import Verif.Model.Jinja

/-!
# Where templates come from

Models the functions `load_templates_from_providers`, `_load_templates_from_path`,
`load_templates_from_filesystem` and the method `JinjaVisitor.__init__` of `mau/visitors/jinja_visitor.py`.

Outside the model: the discovery of plugins (the available providers are a parameter), the making of
absolute paths (the file system is a function of the path as it is configured), read errors of single files, links that form a
loop of directories, and configured values of other types than lists and strings (`Err.unmodelled`).
-/

namespace Mau

/-- What a directory contains: a text file with its content, or a directory with its entries in the order
of `iterdir`. -/
inductive FsEntry where
  | file (name content : Str)
  | dir (name : Str) (entries : List FsEntry)
  deriving Repr

mutual
/-- jinja_visitor.py:253-281 — one round of the loop of `_load_templates_from_path`. -/
def loadEntry (extension : Str) (preprocess : Str → Str) : FsEntry → List (Str × Nested) → List (Str × Nested)
  | .dir name entries, result =>
    let templates := loadEntries extension preprocess entries []
    if templates.isEmpty then result else Dict.set result name (.dict templates)
  | .file name content, result =>
    if endsWith name extension then Dict.set result name (.leaf (.str (preprocess content))) else result
/-- jinja_visitor.py:253-281 — the loop of `_load_templates_from_path`. -/
def loadEntries (extension : Str) (preprocess : Str → Str) : List FsEntry → List (Str × Nested) → List (Str × Nested)
  | [], result => result
  | e :: es, result => loadEntries extension preprocess es (loadEntry extension preprocess e result)
end

/-- The world of a Jinja visitor class: its extension, `templates_preprocess` (the identity if there is none) and default templates
(jinja_visitor.py:327-342), the installed template providers with their templates (jinja_visitor.py:186-195), and the directories
(`none`: `iterdir` fails). -/
structure TemplateWorld where
  extension : Str := c%".j2"
  preprocess : Str → Str := id
  defaults : Env := []
  providers : Dict (List (Str × Nested)) := []
  directory : Str → Option (List FsEntry) := fun _ => none

/-- `environment.get(key, [])` for a configured list of strings, as far as it is iterated over: a string is a list of characters. -/
def configuredList (env : Env) (key : Str) : Except Err (List Str) :=
  match Env.get env key with
  | .default => .ok []
  | .value (.list xs _) => .ok xs
  | .value (.str s) => .ok (s.map fun c => [c])
  | .value .emptyDict => .ok []
  | .value (.other _) => .error .unmodelled
  | .namespace _ => .error .unmodelled

/-- jinja_visitor.py:217-219. -/
def msgProvider (name : Str) : Msg := .text (c%"Template provider '" ++ name ++ c%"' is not available.")

/-- jinja_visitor.py:213-223 — the loop of `load_templates_from_providers`. -/
def loadProviders (available : Dict (List (Str × Nested))) : List Str → Env → Except Err Env
  | [], templates => .ok templates
  | p :: ps, templates =>
    match Dict.get? available p with
    | none => .error (.visitor (msgProvider p) none)
    | some ts => loadProviders available ps (Env.dupdate templates ts)

/-- jinja_visitor.py:226-251 — `_load_templates_from_path`. -/
def loadPath (w : TemplateWorld) (path : Str) : Except Err (List (Str × Nested)) :=
  if path.isEmpty then .ok []
  else
    match w.directory path with
    | none => .error (.py .osError)
    | some entries => .ok (loadEntries w.extension w.preprocess entries [])

/-- jinja_visitor.py:308-319 — the loop of `load_templates_from_filesystem`. -/
def loadPaths (w : TemplateWorld) : List Str → Env → Except Err Env
  | [], templates => .ok templates
  | p :: ps, templates =>
    match loadPath w p with
    | .error e => .error e
    | .ok ts => loadPaths w ps (Env.dupdate templates ts)

/-- jinja_visitor.py:374-379 — the templates given in the configuration. A value that is not a dictionary with entries has no
`_variables`. -/
def customTemplates (env : Env) : Except Err Env :=
  match Env.get env c%"mau.visitor.templates.custom" with
  | .default => .ok []
  | .namespace e => .ok e
  | .value _ => .error (.py .attributeError)

/-- jinja_visitor.py:355-379 — all templates, as a flat dictionary. -/
def templatesEnv (w : TemplateWorld) (env : Env) : Except Err Env := do
  let t ← Env.fromEnvironment w.defaults
  let requested ← configuredList env c%"mau.visitor.templates.providers"
  let p ← loadProviders w.providers requested []
  let t := Env.update t p
  let paths ← configuredList env c%"mau.visitor.templates.paths"
  let f ← loadPaths w paths []
  let t := Env.update t f
  let c ← customTemplates env
  return Env.update t c

/-- jinja_visitor.py:396-401 — the templates with the right extension. Jinja takes templates that are strings only. -/
def templateTexts (extension : Str) : Env → Except Err (Dict Str)
  | [] => .ok []
  | (name, v) :: rest =>
    if endsWith name extension then
      match v with
      | .str content => do return (name, content) :: (← templateTexts extension rest)
      | _ => .error .unmodelled
    else templateTexts extension rest

/-- jinja_visitor.py:343-430 — `JinjaVisitor.__init__`: the prefixes, the templates, sorted by specificity, and the dictionary of templates Jinja
works with (`jinja`). -/
def jinjaInit (w : TemplateWorld) (env : Env) (jinja : Dict Str → Jinja) :
    Except Err JinjaVisitor := do
  let prefixes ← configuredList env c%"mau.visitor.templates.prefixes"
  let t ← templatesEnv w env
  let texts ← templateTexts w.extension t
  let ts ← readTemplates w.extension texts
  return { templates := sortTemplates ts, prefixes := prefixes, env := env,
           render := jinja (Dict.update [] ((sortTemplates ts).map fun t => (t.name, t.content))) }

/-- base_visitor.py:97-119 and mau/__init__.py:201-212 — the visitor is made and processes the document; an absent document gives the
empty string. -/
def jinjaProcess (w : TemplateWorld) (jinja : Dict Str → Jinja) (parents : Place → Option Node) (fuel : Nat) (env : Env) (o : DocOutput) :
    Except Err Str := do
  let j ← jinjaInit w env jinja
  match o.document with
  | none => return []
  | some d => j.visit { objs := o.objs, parents } fuel [] d

end Mau
