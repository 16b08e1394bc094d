import Verif.Spec.Moved
import Verif.Model.TemplateSources

/-!
# Specification: what a visitor makes of a document, without positions
-/

namespace Mau.Spec

/-- The value of the key `_context` without its numbers. -/
def noNumbers : VData → VData
  | .obj kvs => .obj (kvs.map fun kv => (kv.1, match kv.2 with | .int _ => .int 0 | v => v))
  | d => d

mutual
/-- What a visitor returns, without the numbers of the positions it shows (key `_context`). -/
def dataAdrift : VData → VData
  | .list xs => .list (allAdrift xs)
  | .obj kvs => .obj (entriesAdrift kvs)
  | d => d
/-- The same for lists. -/
def allAdrift : List VData → List VData
  | [] => []
  | x :: xs => dataAdrift x :: allAdrift xs
/-- The same for the entries of a dictionary. -/
def entriesAdrift : List (Str × VData) → List (Str × VData)
  | [] => []
  | (k, v) :: kvs => (k, if k = c%"_context" then noNumbers (dataAdrift v) else dataAdrift v) :: entriesAdrift kvs
end

/-- The result of a visit, without positions. -/
def shownAs (r : Except Err VData) : Except Err VData :=
  match r with
  | .ok d => .ok (dataAdrift d)
  | .error e => .error (Err.said e)

/-- The result of rendering: errors are compared without the position they point at. -/
def renderedAs (r : Except Err Str) : Except Err Str :=
  match r with
  | .ok t => .ok t
  | .error e => .error (Err.said e)

/-- Templates that do not show line and column numbers (what they print, or how they fail, does not depend on them). -/
def Placeless (jinja : Jinja) : Prop :=
  ∀ name config data data', entriesAdrift data = entriesAdrift data' → jinja name config data = jinja name config data'

/-- Two tables of parents that differ in positions only. -/
def SameParents (parents parents' : Place → Option Node) : Prop := ∀ p, (parents p).map Node.adrift = (parents' p).map Node.adrift

/-- Read a document and render it with Jinja: the text, or the error. -/
def renderDocument (cfg : Config) (fuel : Nat) (w : TemplateWorld) (jinja : Dict Str → Jinja) (parents : Place → Option Node) (depth : Nat) (req : NestedReq) :
    Except Err Str := do
  let s ← parseDocument cfg fuel req
  jinjaProcess w jinja parents depth s.env s.output

end Mau.Spec
