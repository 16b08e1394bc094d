import Verif.Spec.Nodes
import Verif.Spec.Text

/-!
# Specification: how documents can be written

`Rich` is formatted text, `Items` the items of a list, `Doc` a document made of paragraphs, headers, rules, lists, blocks and raw blocks, each
with labels and arguments, as an author thinks of them. `Doc.source` is a way to write them down in Mau, and `Doc.tree` are the nodes they stand for. Property C77
says that the parser reads these nodes from that text.
-/

namespace Mau

/-- Without what the parser adds: identity numbers, and the internal identities of headers (which are computed from the text). -/
def NodeData.told : NodeData → NodeData
  | .macroHeader _ t h => .macroHeader 0 t h
  | .macroFootnote _ n f => .macroFootnote 0 n f
  | .header _ level _ name => .header 0 level none name
  | d => d

mutual
/-- A node without what the parser adds, and without its position. -/
def Node.told : Node → Node
  | .mk d a _ content labels extra => .mk d.told a Context.empty (toldList content) (toldLabels labels) extra
/-- The same for lists of nodes. -/
def toldList : List Node → List Node
  | [] => []
  | n :: ns => n.told :: toldList ns
/-- The same for labels. -/
def toldLabels : List (Str × Node) → List (Str × Node)
  | [] => []
  | (role, n) :: ns => (role, n.told) :: toldLabels ns
end

namespace Spec

/-- Macros without text of their own: images, characters, text that is not processed, and macros that are not defined by Mau. -/
inductive Call where
  | image
  | unicode
  | raw
  | custom (name : Str)

/-- The name of the macro. -/
def Call.name : Call → Str
  | .image => c%"image"
  | .unicode => c%"unicode"
  | .raw => c%"raw"
  | .custom name => name

/-- The node of a macro with these arguments. -/
def Call.node : Call → (values : List Str) → Node
  | .image, vs => Spec.node (.macroImage (vs[0]?.getD []) vs[1]? vs[2]? vs[3]?)
  | .unicode, vs => Spec.node (.macroUnicode (vs[0]?.getD []))
  | .raw, vs => Spec.node (.macroRaw (vs[0]?.getD []))
  | .custom name, vs => Spec.node (.macro name) [] { unnamed := vs }

/-- Which macros can be written: an image has up to four arguments (URI, alternative text, width and height), the others of Mau have one; and
the name of a macro that is not defined by Mau has no special characters or spaces, is not the one of a macro of Mau, and does not start with
`if`. There is at least one argument, and the arguments do not contain line breaks, quotes, backslashes, backticks or closing brackets, and do not start with a sign of
tags, subtypes or aliases. -/
structure Call.Ok (call : Call) (vs : List Str) : Prop where
  some : vs ≠ []
  count : match call with
    | .image => vs.length ≤ 4
    | .unicode | .raw => vs.length = 1
    | .custom name => name ≠ [] ∧ (∀ c ∈ name, c ∉ inlineSpecial ++ c%" {}\n") ∧ name ∉ macroNames ∧ Mau.startsWith name c%"if" = false
  plain : ∀ v ∈ vs, (∀ c ∈ v, c ∉ c%"\"\\`)\n") ∧ ∀ c ∈ c%"#*@", v.head? ≠ Option.some c

/-- Formatted text: the first piece, and the rest. -/
inductive Rich where
  | nil
  /-- plain text -/
  | text (t : Str) (rest : Rich)
  /-- verbatim text -/
  | verbatim (t : Str) (rest : Rich)
  /-- text in the style of the marker `mark` -/
  | style (mark : Char) (inner rest : Rich)
  /-- a link to `target` -/
  | link (target : Str) (inner rest : Rich)
  /-- another macro -/
  | call (kind : Call) (values : List Str) (rest : Rich)
  /-- text with classes -/
  | classes (names : List Str) (inner rest : Rich)

/-- Put a backslash in front of the characters `set`. -/
def guarding (set : Str) (t : Str) : Str := t.flatMap fun c => if c ∈ set then ['\\', c] else [c]

/-- The characters of plain text with a meaning in formatted text. -/
def textMarks : Str := c%"~^_*`[\\$%"

/-- Curly braces belong to variables. -/
def braces : Str := c%"{}"

/-- Characters with a meaning in the arguments of a macro. -/
def argMarks : Str := c%"\")"

/-- The first piece of a text is plain text that starts with one of the characters. -/
def Rich.startsWith (set : Str) : Rich → Bool
  | .text (c :: _) _ => set.contains c
  | _ => false

/-- A text on its own: a backslash in front of it if it starts with one of the characters `set`. -/
def Rich.opening (set : Str) (r : Rich) : Str := if r.startsWith set then ['\\'] else []

/-- The text `r`, with backslashes in front of the characters `vars` and `marks`. The text of a link is in quotes, therefore quotes and
closing brackets get a backslash; and `#` and `@` at its start would have a meaning. -/
def Rich.write (vars marks : Str) : Rich → Str
  | .nil => []
  | .text t rest => guarding (textMarks ++ vars ++ marks) t ++ rest.write vars marks
  | .verbatim t rest => c%"`" ++ guarding ('`' :: marks) t ++ c%"`" ++ rest.write vars marks
  | .style mark inner rest => [mark] ++ inner.write vars marks ++ [mark] ++ rest.write vars marks
  | .link target inner rest =>
    c%"[link](\"" ++ guarding vars target ++ c%"\", \"" ++ inner.opening c%"#@" ++ inner.write vars argMarks ++ c%"\")" ++ rest.write vars marks
  | .call kind values rest =>
    c%"[" ++ kind.name ++ c%"](" ++ joinWith c%", " (values.map fun v => c%"\"" ++ guarding vars v ++ c%"\"") ++ c%")" ++ rest.write vars marks
  | .classes names inner rest =>
    c%"[class](" ++ joinWith c%", " (names.map fun v => c%"\"" ++ guarding vars v ++ c%"\"") ++ c%", text=\"" ++ inner.write vars argMarks ++ c%"\")" ++
      rest.write vars marks

/-- The four characters of a block. -/
def fourEqual (s : Str) : Bool :=
  match s with
  | [a, b, c, d] => a == b && b == c && c == d
  | _ => false

/-- The plain text at the start of a line gets a backslash if the line would be something else: if it starts with a character that is special
there, or if it consists of four equal characters. -/
def Rich.protection (r : Rich) : Str :=
  if r.startsWith c%"/-<:.= #@" then ['\\']
  else
    match r with
    | .text (c :: _) _ => if c ∉ textMarks ++ braces ∧ fourEqual (r.write braces []) = true then ['\\'] else []
    | _ => []

/-- The text as a line. -/
def Rich.line (r : Rich) : Str := r.protection ++ r.write braces []

/-- The nodes of the text. -/
def Rich.nodes : Rich → List Node
  | .nil => []
  | .text t rest => node (.text t) :: rest.nodes
  | .verbatim t rest => node (.verbatim t) :: rest.nodes
  | .style mark inner rest => node (.style ((styleOf mark).getD [])) inner.nodes :: rest.nodes
  | .link target inner rest => node (.macroLink target) inner.nodes :: rest.nodes
  | .call kind values rest => kind.node values :: rest.nodes
  | .classes names inner rest => node (.macroClass names) inner.nodes :: rest.nodes

/-- The first piece is plain text. -/
def Rich.isText : Rich → Bool
  | .text .. => true
  | _ => false

/-- The first piece is in the style `*`. -/
def Rich.isStar : Rich → Bool
  | .style mark .. => mark == '*'
  | _ => false

/-- Which texts can be written: there are no line breaks; plain text is not empty, and no two pieces of plain text follow each other (they
would be one); there are no backslashes in verbatim text; the markers of styles are those of Mau, and not the one of the surrounding style `m`;
links, macros and classes do not stand in links or texts with classes; the texts of links are not empty, do not end with a space and do not start with the style `*`; and texts with classes
do not start or end with spaces, and have at least one class, with the characters of the arguments of macros. -/
def Rich.Ok (links : Bool) (m : Option Char) : Rich → Prop
  | .nil => True
  | .text t rest => t ≠ [] ∧ '\n' ∉ t ∧ rest.isText = false ∧ rest.Ok links m
  | .verbatim t rest => '\\' ∉ t ∧ '\n' ∉ t ∧ rest.Ok links m
  | .style mark inner rest => (styleOf mark).isSome ∧ m ≠ some mark ∧ inner.Ok links (some mark) ∧ rest.Ok links m
  | .link target inner rest => links = true ∧ (∀ c ∈ target, c ∉ c%"\"\\`\n") ∧ (∀ c ∈ c%"#*@", target.head? ≠ some c) ∧ inner.Ok false none ∧
      inner ≠ .nil ∧ (inner.write [] []).getLast? ≠ some ' ' ∧ inner.isStar = false ∧ rest.Ok links m
  | .call kind values rest => links = true ∧ kind.Ok values ∧ rest.Ok links m
  | .classes names inner rest => links = true ∧ names ≠ [] ∧ (∀ v ∈ names, (∀ c ∈ v, c ∉ c%"\"\\`)\n") ∧ ∀ c ∈ c%"#*@", v.head? ≠ some c) ∧ inner.Ok false none ∧
      strip (inner.write [] []) = inner.write [] [] ∧ rest.Ok links m

/-- A line of formatted text: it is not empty, does not end with a space, and is not mistaken for something else. -/
structure Rich.LineOk (r : Rich) : Prop where
  ok : r.Ok true none
  nonempty : r ≠ .nil
  last : r.line.getLast? ≠ some ' '
  text : TextLine r.line

/-- The items of a list: an item, or a nested list; and the rest. -/
inductive Items where
  | nil
  | item (content : Rich) (rest : Items)
  | sub (ordered : Bool) (inner rest : Items)

/-- The symbol of lists. -/
def listSign (ordered : Bool) : Char := if ordered then '#' else '*'

/-- The lines of the items of level `level`. -/
def Items.lines (ordered : Bool) : (level : Nat) → Items → List Str
  | _, .nil => []
  | level, .item content rest => (List.replicate level (listSign ordered) ++ c%" " ++ content.line) :: rest.lines ordered level
  | level, .sub o inner rest => inner.lines o (level + 1) ++ rest.lines ordered level

/-- The nodes of the items. -/
def Items.nodes : (level : Nat) → Items → List Node
  | _, .nil => []
  | level, .item content rest => node (.listItem level) content.nodes :: rest.nodes level
  | level, .sub o inner rest => node (.list o false 1) (inner.nodes (level + 1)) :: rest.nodes level

/-- The first element is an item. -/
def Items.isItem : Items → Bool
  | .item .. => true
  | _ => false

/-- The first element is a nested list. -/
def Items.isSub : Items → Bool
  | .sub .. => true
  | _ => false

/-- Which items can be written: a nested list starts with an item, and no other one follows it directly (they would be one). -/
def Items.Ok : Items → Prop
  | .nil => True
  | .item content rest => content.Ok true none ∧ content ≠ .nil ∧ content.line.getLast? ≠ some ' ' ∧ rest.Ok
  | .sub _ inner rest => inner.isItem = true ∧ inner.Ok ∧ rest.isSub = false ∧ rest.Ok

/-- What can stand in front of a part: labels (role and text), arguments without and with a name, tags and a subtype. -/
structure Deco where
  labels : List (Str × Rich) := []
  unnamed : List Str := []
  named : List (Str × Str) := []
  tags : List Str := []
  subtype : Option Str := none

/-- A value in quotes. -/
def writeValue (v : Str) : Str := c%"\"" ++ guarding c%"\"{}" v ++ c%"\""

/-- An argument with a name. -/
def writeNamed (a : Str × Str) : Str := a.1 ++ c%"=" ++ writeValue a.2

/-- The line of the arguments, if there are any. -/
def writeArgs (unnamed : List Str) (named : List (Str × Str)) : List Str :=
  match unnamed.map writeValue ++ named.map writeNamed with
  | [] => []
  | as => ['[' :: (joinWith c%", " as ++ c%"]")]

/-- The line of a label. -/
def writeLabel (l : Str × Rich) : Str := '.' :: (l.1 ++ c%" " ++ l.2.line)

/-- The arguments that are written without a name: there is a `#` before a tag, and a `*` before a subtype. -/
def Deco.positional (d : Deco) : List Str := d.unnamed ++ d.tags.map ('#' :: ·) ++ d.subtype.toList.map ('*' :: ·)

/-- The lines in front of a part that has the further arguments `more`. -/
def Deco.lines (d : Deco) (more : List (Str × Str) := []) : List Str := d.labels.map writeLabel ++ writeArgs d.positional (d.named ++ more)

/-- A node with the arguments and labels. -/
def Deco.node (d : Deco) (data : NodeData) (content : List Node := []) : Node :=
  Node.new data Context.empty content { unnamed := d.unnamed, named := d.named, tags := d.tags, subtype := d.subtype }
    (d.labels.map fun l => (l.1, Spec.node (.label l.1) l.2.nodes))

/-- The names of arguments that Mau uses itself. -/
def reservedNames : List Str :=
  [c%"internal_id", c%"name", c%"start", c%"classes", c%"engine", c%"isolate", c%"footnote", c%"group", c%"position",
    c%"marker_delimiter", c%"highlight_marker", c%"highlight_default_style", c%"language", c%"uri", c%"alt_text"]

/-- Which labels and arguments can be written: the roles are different from each other and consist of the characters of roles (lower case letters, digits, `-` and `_`); the names are different
from each other and from those that Mau uses, and have no special characters; values have no backslashes, backticks and line breaks, those without
name do not start with `#`, `*` or `@`, and those with a name are not surrounded by spaces; tags do not start with `*`, `@` or `mau:`, and
the subtype does not start with `@`. -/
structure Deco.Ok (d : Deco) : Prop where
  roles : (d.labels.map (·.1)).Nodup
  role : ∀ l ∈ d.labels, l.1 ≠ [] ∧ ∀ c ∈ l.1, isRoleChar c = true
  text : ∀ l ∈ d.labels, l.2.Ok true none ∧ l.2 ≠ .nil ∧ l.2.line.getLast? ≠ some ' '
  names : (d.named.map (·.1)).Nodup
  name : ∀ a ∈ d.named, a.1 ≠ [] ∧ a.1 ∉ reservedNames ∧ ∀ c ∈ a.1, c ∉ c%"\\=,\" `{}\n"
  values : ∀ v ∈ d.unnamed ++ d.tags ++ d.subtype.toList ++ d.named.map (·.2), ∀ c ∈ v, c ∉ c%"\\`\n"
  first : ∀ v ∈ d.unnamed, ∀ c ∈ c%"#*@", v.head? ≠ some c
  strip : ∀ a ∈ d.named, strip a.2 = a.2
  tag : ∀ t ∈ d.tags, (∀ c ∈ c%"*@", t.head? ≠ some c) ∧ startsWith t c%"mau:" = false
  sub : ∀ t ∈ d.subtype, t.head? ≠ some '@'

/-- The names of highlight styles that stand for others: every parser knows them, if the variables do not say something else. -/
def usualStyles : List (Str × Str) := [(c%"+", c%"add"), (c%"-", c%"remove"), (c%"!", c%"important"), (c%"x", c%"error")]

/-- The variables do not say something else about the names of highlight styles. -/
structure StylesUsual (env : Env) : Prop where
  absent : Dict.get? env c%"mau.parser.source_highlight_style_aliases" = none
  usual : ∀ s, Dict.get? env (c%"mau.parser.source_highlight_style_aliases." ++ s) = (Dict.get? usualStyles s).map Val.str

/-- A line of source code, with a marker or a highlight style, or without both. -/
structure Code where
  text : Str
  marker : Option Str := none
  style : Option Str := none

/-- How the line is written. -/
def Code.line (c : Code) : Str :=
  match c.marker, c.style with
  | some m, _ => c.text ++ ':' :: m ++ [':']
  | none, some s => c.text ++ ':' :: '@' :: s ++ [':']
  | none, none => if c.text.getLast? = some ':' then c.text ++ c%"::" else c.text

/-- The node of the line with this number. -/
def Code.node (c : Code) (number : Nat) : Node :=
  Spec.node (.sourceLine number c.text c.style) (c.marker.toList.map fun m => Spec.node (.sourceMarker m))

/-- The nodes of lines, the first of which has this number. -/
def codeNodes (number : Nat) : List Code → List Node
  | [] => []
  | c :: cs => c.node number :: codeNodes (number + 1) cs

/-- Which lines of source code can be written: those with a marker or a style, but not both, and no `:` and line break in it; markers do not start
with `@`, and the style is not one of the names that stand for others. -/
structure Code.Ok (c : Code) : Prop where
  one : c.marker = none ∨ c.style = none
  text : '\n' ∉ c.text
  marker : ∀ m ∈ c.marker, m ≠ [] ∧ ':' ∉ m ∧ '\n' ∉ m ∧ m.head? ≠ some '@'
  style : ∀ s ∈ c.style, s ≠ [] ∧ ':' ∉ s ∧ '\n' ∉ s ∧ s ∉ usualStyles.map (·.1)

/-- The arguments of an image: where it is, and a description and classes, if there are any. -/
def imageArgs (uri : Str) (alt : Option Str) (classes : List Str) : List (Str × Str) :=
  (c%"uri", uri) :: (alt.toList.map fun a => (c%"alt_text", a)) ++ (if classes = [] then [] else [(c%"classes", joinWith c%"," classes)])

/-- Documents: the first part (with its labels and arguments), and the rest. -/
inductive Doc where
  | nil
  | paragraph (deco : Deco) (lines : List Rich) (rest : Doc)
  | header (deco : Deco) (level : Nat) (text : Rich) (rest : Doc)
  | rule (deco : Deco) (rest : Doc)
  | list (deco : Deco) (ordered : Bool) (items : Items) (rest : Doc)
  /-- a block in lines of four characters `mark` -/
  | block (deco : Deco) (mark : Char) (inner rest : Doc)
  /-- a block with the engine `raw` -/
  | raw (deco : Deco) (mark : Char) (lines : List Str) (rest : Doc)
  /-- a block of source code in this language -/
  | code (deco : Deco) (mark : Char) (language : Str) (lines : List Code) (rest : Doc)
  | image (deco : Deco) (uri : Str) (alt : Option Str) (classes : List Str) (rest : Doc)
  /-- a comment -/
  | comment (text : Str) (rest : Doc)
  /-- a comment of several lines -/
  | comments (lines : List Str) (rest : Doc)

/-- An empty line between two parts. -/
def parted (a : List Str) : List Str → List Str
  | [] => a
  | b :: bs => a ++ [] :: b :: bs

/-- The lines of a document. -/
def Doc.lines : Doc → List Str
  | .nil => []
  | .paragraph deco ls rest => parted (deco.lines ++ ls.map Rich.line) rest.lines
  | .header deco level t rest => parted (deco.lines ++ [List.replicate level '=' ++ c%" " ++ t.line]) rest.lines
  | .rule deco rest => parted (deco.lines ++ [c%"---"]) rest.lines
  | .list deco ordered items rest => parted (deco.lines ++ items.lines ordered 1) rest.lines
  | .block deco mark inner rest => parted (deco.lines ++ [mark, mark, mark, mark] :: (inner.lines ++ [[mark, mark, mark, mark]])) rest.lines
  | .raw deco mark ls rest =>
    parted (deco.lines [(c%"engine", c%"raw")] ++ [mark, mark, mark, mark] :: (ls ++ [[mark, mark, mark, mark]])) rest.lines
  | .code deco mark language ls rest =>
    parted (deco.lines [(c%"engine", c%"source"), (c%"language", language)] ++
      [mark, mark, mark, mark] :: (ls.map Code.line ++ [[mark, mark, mark, mark]])) rest.lines
  | .image deco uri alt classes rest => parted (deco.lines (imageArgs uri alt classes) ++ [c%"<< image"]) rest.lines
  | .comment text rest => parted [c%"//" ++ text] rest.lines
  | .comments ls rest => parted (c%"////" :: (ls ++ [c%"////"])) rest.lines

/-- The text of a document. -/
def Doc.source (d : Doc) : Str := joinWith ['\n'] d.lines

/-- The nodes of a document. -/
def Doc.tree : Doc → List Node
  | .nil => []
  | .paragraph deco ls rest => deco.node .paragraph (ls.map fun l => node .paragraphLine l.nodes) :: rest.tree
  | .header deco level t rest => deco.node (.header 0 level none none) t.nodes :: rest.tree
  | .rule deco rest => deco.node .horizontalRule :: rest.tree
  | .list deco ordered items rest => deco.node (.list ordered true 1) (items.nodes 1) :: rest.tree
  | .block deco _ inner rest => deco.node (.block []) inner.tree :: rest.tree
  | .raw deco _ ls rest => deco.node (.raw []) (ls.map fun l => node (.rawLine l)) :: rest.tree
  | .code deco _ language ls rest => deco.node (.source (some language) []) (codeNodes 1 ls) :: rest.tree
  | .image deco uri alt classes rest => deco.node (.includeImage uri alt classes) :: rest.tree
  | .comment _ rest | .comments _ rest => rest.tree

/-- There is source code in the document. -/
def Doc.sourced : Doc → Bool
  | .nil => false
  | .paragraph _ _ rest | .header _ _ _ rest | .rule _ rest | .list _ _ _ rest | .raw _ _ _ rest | .image _ _ _ _ rest | .comment _ rest | .comments _ rest => rest.sourced
  | .block _ _ inner rest => inner.sourced || rest.sourced
  | .code .. => true

/-- Which documents can be written: paragraphs and lists are not empty, levels of headers are positive, lists start with an item, the
delimiter of a block does not occur in it, raw blocks and source code do not consist of a single empty line, source code has a line, and its language is not surrounded
by spaces and has no backslash, backtick or line break; the same holds for what is said of an image, which has an uri; classes have no comma; and arguments
without name would be taken for a missing description or missing classes; a comment of one line does not consist of two slashes, and the delimiter does not occur in one of
several lines. -/
def Doc.Ok : Doc → Prop
  | .nil => True
  | .paragraph deco ls rest => deco.Ok ∧ ls ≠ [] ∧ (∀ l ∈ ls, l.LineOk) ∧ rest.Ok
  | .header deco level t rest => deco.Ok ∧ 0 < level ∧ t.Ok true none ∧ t ≠ .nil ∧ t.line.getLast? ≠ some ' ' ∧ rest.Ok
  | .rule deco rest => deco.Ok ∧ rest.Ok
  | .list deco _ items rest => deco.Ok ∧ items.isItem = true ∧ items.Ok ∧ rest.Ok
  | .block deco mark inner rest => deco.Ok ∧ mark ∉ c%"/ \n" ∧ [mark, mark, mark, mark] ∉ inner.lines ∧ inner.Ok ∧ rest.Ok
  | .raw deco mark ls rest => deco.Ok ∧ mark ∉ c%"/ \n" ∧ [mark, mark, mark, mark] ∉ ls ∧ ls ≠ [[]] ∧ (∀ l ∈ ls, '\n' ∉ l) ∧ rest.Ok
  | .code deco mark language ls rest =>
    deco.Ok ∧ mark ∉ c%"/ \n" ∧ (strip language = language ∧ ∀ c ∈ language, c ∉ c%"\\`\n") ∧ [mark, mark, mark, mark] ∉ ls.map Code.line ∧
      (ls ≠ [] ∧ ls.map Code.line ≠ [[]]) ∧ (∀ l ∈ ls, l.Ok) ∧ rest.Ok
  | .image deco uri alt classes rest =>
    deco.Ok ∧ uri ≠ [] ∧ (∀ v ∈ uri :: alt.toList ++ [joinWith c%"," classes], strip v = v ∧ ∀ c ∈ v, c ∉ c%"\\`\n") ∧
      ((∀ c ∈ classes, ',' ∉ c) ∧ classes ≠ [[]]) ∧ (deco.unnamed = [] ∨ alt ≠ none ∧ classes ≠ []) ∧ rest.Ok
  | .comment text rest => (text ≠ c%"//" ∧ '\n' ∉ text) ∧ rest.Ok
  | .comments ls rest => (c%"////" ∉ ls ∧ ∀ l ∈ ls, '\n' ∉ l) ∧ rest.Ok

end Spec

end Mau
