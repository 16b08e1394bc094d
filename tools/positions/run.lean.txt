import Verif.Model.Visitor
open Mau
def q (s : Str) : String := "\"" ++ String.join (s.map fun c => if c == '"' then "\\\"" else if c == '\\' then "\\\\" else if c == '\n' then "\\n" else if c == '\t' then "\\t" else c.toString) ++ "\""
partial def js : VData → String
  | .null => "null" | .str s => q s | .int i => toString i | .bool b => toString b
  | .list xs => "[" ++ ",".intercalate (xs.map js) ++ "]"
  | .obj kvs => "{" ++ ",".intercalate (kvs.map fun (k,v) => q k ++ ":" ++ js v) ++ "}"
def main (args : List String) : IO Unit := do
  for a in args do
    let t ← IO.FS.readFile (a ++ ".src")
    let f ← IO.FS.readFile (a ++ ".file")
    let e ← IO.FS.readFile (a ++ ".env")
    let k ← IO.FS.readFile (a ++ ".kind")
    let env : Env := (e.splitOn "\n").foldl (fun env l => match l.splitOn "\t" with
      | [k, v] => Dict.set env k.toList (.str v.toList) | _ => env) []
    let cfg : Config := { headerId := fun _ => "XXXXXY".toList, files := fun _ => .ok f.toList }
    let show_ (objs : List Node) (ns : List Node) := "[" ++ ",".intercalate (ns.map fun n => match visit { objs := objs } 300 [] n with
       | .ok v => js v | .error e => q (toString (repr e)).toList) ++ "]"
    let out := if k == "text" then
      match parseText 300 env t.toList 0 0 (some "test.py".toList) with
      | .error e => "{\"error\": " ++ q (toString (repr e)).toList ++ "}"
      | .ok r => show_ [] r.nodes
      else match parseDoc cfg 300 t.toList env (some "test.py".toList) with
      | .error e => "{\"error\": " ++ q (toString (repr e)).toList ++ "}"
      | .ok s => show_ s.output.objs s.nodes
    IO.println out
