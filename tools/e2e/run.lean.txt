import Verif.Model.Visitor
open Mau
def q (s : Str) : String := "\"" ++ String.join (s.map fun c => if c == '"' then "\\\"" else if c == '\\' then "\\\\" else if c == '\n' then "\\n" else if c == '\t' then "\\t" else c.toString) ++ "\""
partial def js : VData → String
  | .null => "null" | .str s => q s | .int i => toString i | .bool b => toString b
  | .list xs => "[" ++ ",".intercalate (xs.map js) ++ "]"
  | .obj kvs => "{" ++ ",".intercalate (kvs.map fun (k,v) => q k ++ ":" ++ js v) ++ "}"
def hid (n : Node) : Str := match n.data with
  | .header _ l _ _ => let t := extractText n.content
    dashRuns false ((t.map Char.toLower).filter isIdChar) ++ ['-'] ++ "<<".toList ++ natStr l ++ [' '] ++ t ++ ">>".toList
  | _ => []
def main (args : List String) : IO Unit := do
  for f in args do
    let t ← IO.FS.readFile f
    let cfg : Config := { headerId := hid }
    let out := match parseDoc cfg 300 t.toList [] (some f.toList) with
      | .error e => "{\"error\": " ++ q (toString (repr e)).toList ++ "}"
      | .ok s => match visitDocument 300 s.output with | .error _ => "{\"error\":\"fuel\"}" | .ok v => js v
    IO.println out
