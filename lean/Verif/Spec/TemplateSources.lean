import Verif.Model.TemplateSources
import Verif.Spec.Environment
import Verif.Spec.Templates

/-!
# Specification of the sources of templates

Which templates a visitor has, told from the default templates, the providers, the directories and the
configuration, without the functions that collect them.
-/

namespace Mau
namespace Spec

/-- The name of a file or directory. -/
def entryName : FsEntry → Str
  | .file name _ => name
  | .dir name _ => name

/-- Below a directory with these entries there is a file with this content; its path are the names of the directories on the way,
and its own name. -/
inductive Holds : List FsEntry → List Str → Str → Prop
  | file {es : List FsEntry} {name content : Str} (h : FsEntry.file name content ∈ es) : Holds es [name] content
  | dir {es sub : List FsEntry} {name content : Str} {path : List Str} (h : FsEntry.dir name sub ∈ es) (hs : Holds sub path content) :
      Holds es (name :: path) content

/-- The entries of a directory: in each directory the names are not empty, and no name is used twice. -/
inductive Directory : List FsEntry → Prop
  | mk (es : List FsEntry) (distinct : (es.map entryName).Nodup) (names : ∀ e ∈ es, entryName e ≠ [])
      (subs : ∀ name sub, FsEntry.dir name sub ∈ es → Directory sub) : Directory es

/-- A template file: a file, whose own name has the extension of the templates. -/
def TemplateFile (extension : Str) (es : List FsEntry) (path : List Str) (content : Str) : Prop :=
  Holds es path content ∧ ∃ dirs stem, path = dirs ++ [stem ++ extension]

/-- The name of a path: its parts, separated by dots. -/
def dotted (path : List Str) : Str := joinWith ['.'] path

/-- Where templates come from. -/
inductive Source where
  /-- the default templates of the visitor -/
  | defaults
  /-- the dictionary of templates of a provider -/
  | provider (templates : List (Str × Nested))
  /-- a directory -/
  | directory (entries : List FsEntry)
  /-- the configuration -/
  | custom

/-- The source has the value for the name. -/
def Offers (w : TemplateWorld) (env : Env) : Source → Str → Val → Prop
  | .defaults, name, v => Dict.get? w.defaults name = some v
  | .provider d, name, v => ∃ path, path ≠ [] ∧ at? path (.dict d) = some v ∧ dotted path = name
  | .directory es, name, v => ∃ path content, TemplateFile w.extension es path content ∧ dotted path = name ∧ v = .str (w.preprocess content)
  | .custom, name, v => Dict.get? env (c%"mau.visitor.templates.custom." ++ name) = some v

/-- The last source that has a value for the name has this one. -/
def Decides (w : TemplateWorld) (env : Env) (sources : List Source) (name : Str) (v : Val) : Prop :=
  ∃ before s after, sources = before ++ s :: after ∧ Offers w env s name v ∧ ∀ s' ∈ after, ∀ v', ¬ Offers w env s' name v'

/-- The variable is this list, or it is a text with these characters (Python goes through a text as through a list), or it is not set and the list
is empty. -/
def Configured (env : Env) (key : Str) (xs : List Str) : Prop :=
  (∃ rendered, Dict.get? env key = some (.list xs rendered)) ∨
    (∃ s : Str, Dict.get? env key = some (.str s) ∧ xs = s.map fun c => [c]) ∨
    (xs = [] ∧ Dict.get? env key = none ∧ ∀ k, Dict.get? env (key ++ '.' :: k) = none)

/-- The keys of a dictionary are distinct at every level. -/
inductive Orderly : Nested → Prop
  | leaf (v : Val) : Orderly (.leaf v)
  | dict (d : List (Str × Nested)) (distinct : Dict.Distinct d) (subs : ∀ kv ∈ d, Orderly kv.2) : Orderly (.dict d)

/-- The sources the configuration asks for, from the weakest to the strongest. -/
structure Sources (w : TemplateWorld) (env : Env) (names paths : List Str) (providers : List (List (Str × Nested)))
    (directories : List (List FsEntry)) : Prop where
  requested : Configured env c%"mau.visitor.templates.providers" names
  searched : Configured env c%"mau.visitor.templates.paths" paths
  /-- the requested providers are installed -/
  installed : names.map (Dict.get? w.providers) = providers.map some
  /-- the directories exist; the empty path stands for none -/
  found : paths.map (fun p => if p = [] then some [] else w.directory p) = directories.map some
  /-- the configuration does not say `custom: {}` or `custom: value` -/
  custom : Dict.get? env c%"mau.visitor.templates.custom" = none
  /-- the environment and the defaults are dictionaries -/
  config : Dict.Distinct env
  distinct : Dict.Distinct w.defaults
  /-- no default template has a name that begins with a dot, or a name below the name of another one -/
  defaults : ∀ p ∈ w.defaults.keys, p.head? ≠ some '.' ∧ ∀ q ∈ w.defaults.keys, ¬ DottedPrefix p q
  /-- a provider has no two templates with the same name, and none whose name begins with an empty part -/
  orderly : ∀ d ∈ providers, Orderly (.dict d) ∧ (∀ kv ∈ d, kv.1 ≠ []) ∧
    ∀ p q v v', p ≠ [] → q ≠ [] → at? p (.dict d) = some v → at? q (.dict d) = some v' → dotted p = dotted q → p = q
  /-- a directory has no two templates with the same name -/
  unambiguous : ∀ es ∈ directories, Directory es ∧
    ∀ p q c c', TemplateFile w.extension es p c → TemplateFile w.extension es q c' → dotted p = dotted q → p = q

/-- All sources, from the weakest to the strongest: the defaults, the providers and the directories in the order in which they are configured,
the configuration itself. -/
def allSources (providers : List (List (Str × Nested))) (directories : List (List FsEntry)) : List Source :=
  .defaults :: providers.map .provider ++ directories.map .directory ++ [.custom]

end Spec
end Mau
