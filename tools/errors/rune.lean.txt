import Verif.Model.Visitor
open Mau
def q (s : Str) : String := "\"" ++ String.join (s.map fun c => if c == '"' then "\\\"" else if c == '\\' then "\\\\" else if c == '\n' then "\\n" else if c == '\t' then "\\t" else c.toString) ++ "\""
def msgT : Msg → String
  | .text t => String.ofList t
  | .undefinedVariable n => s!"Variable '{String.ofList n}' has not been defined."
  | .unknownAlias n => s!"Alias '{String.ofList n}' cannot be found in 'mau.parser.aliases'"
  | .includeLoop fs => s!"To avoid recursion, you cannot include the following files: {fs.map fun o => "'" ++ String.ofList (o.getD []) ++ "'"}."
  | .cannotParse => "Cannot parse token."
  | .parseLoop => "Loop detected, cannot parse token"
  | .lexLoop => "Loop detected, cannot process context"
  | .unclosedBlock => "Unclosed block."
  | .unclosedComment => "Unclosed multiline comment."
  | .lexCannotProcess => "Cannot process token."
def er : Err → String
  | .parser m c => "{\"text\":" ++ q (msgT m).toList ++ ",\"ctx\":" ++ (match c with | none => "null" | some c => s!"[{c.startLine}, {c.startColumn}, {c.endLine}, {c.endColumn}, \"{String.ofList (c.source.getD [])}\"]") ++ "}"
  | e => "{\"error\": " ++ q (toString (repr e)).toList ++ "}"
partial def js : VData → String
  | .null => "null" | .str s => q s | .int i => toString i | .bool b => toString b
  | .list xs => "[" ++ ",".intercalate (xs.map js) ++ "]"
  | .obj kvs => "{" ++ ",".intercalate (kvs.map fun (k,v) => q k ++ ":" ++ js v) ++ "}"
def main (args : List String) : IO Unit := do
  for a in args do
    let t ← IO.FS.readFile (a ++ ".src")
    let f ← IO.FS.readFile (a ++ ".file")
    let e ← IO.FS.readFile (a ++ ".env")
    let k ← IO.FS.readFile (a ++ ".kind")
    let env : Env := (e.splitOn "\n").foldl (fun env l => match l.splitOn "\t" with
      | [k, v] => Dict.set env k.toList (.str v.toList) | _ => env) []
    let cfg : Config := { headerId := fun _ => "XXXXXY".toList, files := fun _ => if f == "MISSING" then .error true else .ok f.toList }
    let show_ (objs : List Node) (ns : List Node) := "[" ++ ",".intercalate (ns.map fun n => match visit { objs := objs } 300 [] n with
       | .ok v => js v | .error e => q (toString (repr e)).toList) ++ "]"
    let out := if k == "text" then
      match parseText 300 env t.toList 0 0 (some "test.py".toList) with
      | .error e => er e
      | .ok r => show_ [] r.nodes
      else match parseDoc cfg 300 t.toList env (some "test.py".toList) with
      | .error e => er e
      | .ok s => show_ s.output.objs s.nodes
    IO.println out
