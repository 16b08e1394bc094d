import Verif.Spec.Inline

/-!
# Specification: the columns of inline nodes

The nodes of a line of inline text lie side by side: each one starts where the one before it ends, together they cover the line, and the characters
under a node are the ones that the node was made of.
-/

namespace Mau.Spec

/-- The characters of a line from column `a` up to column `b`. -/
def between (text : Str) (a b : Nat) : Str := (text.drop a).take (b - a)

/-- The position of the columns `a` to `b` of a text that starts at the column `column` of the line `line`. -/
def spanAt (line column : Nat) (source : Option Str) (a b : Nat) : Context := ⟨line, column + a, line, column + b, source⟩

/-- The text without the backslashes that escape a character, and without a backslash at the end. -/
def spelled : Str → Str
  | [] => []
  | c :: r =>
    if c = '\\' then
      match r with
      | [] => []
      | d :: r' => d :: spelled r'
    else c :: spelled r

/-- `MacroNode name d`: the macro `name` makes the node `d`. -/
def MacroNode (name : Str) : NodeData → Prop
  | .macro n => n = name
  | .macroLink _ => name = c%"link" ∨ name = c%"mailto"
  | .macroHeader .. => name = c%"header"
  | .macroImage .. => name = c%"image"
  | .macroFootnote .. => name = c%"footnote"
  | .macroClass _ => name = c%"class"
  | .macroUnicode _ => name = c%"unicode"
  | .macroRaw _ => name = c%"raw"
  | _ => False

/-- The characters `s` are the ones of the node `d`. -/
def Spells (s : Str) (d : NodeData) : Prop :=
  match d with
  | .text v => v = spelled s ∨ ∃ c raw, (c = '$' ∨ c = '%') ∧ s = [c] ++ raw ++ [c] ∧ Span c raw ∧ v = unescape c raw
  | .verbatim v => ∃ raw, s = ['`'] ++ raw ++ ['`'] ∧ Span '`' raw ∧ v = unescape '`' raw
  | .style k => ∃ c inner, styleOf c = some k ∧ s = [c] ++ inner ++ [c]
  | d => ∃ name args, MacroNode name d ∧ s = c%"[" ++ name ++ c%"](" ++ args ++ c%")"

/-- There are no escaped characters, no named arguments and no aliases in the text. -/
def Unadorned (s : Str) : Prop := '\\' ∉ s ∧ '=' ∉ s ∧ '@' ∉ s

/-- The node of the text of a link without text, if its target is empty. -/
def emptyText : Node := Node.new (.text []) Context.empty [] {} []

/-- The nodes cover the columns `a` to `b` of the text: one after the other, each at the place of the characters that it was made of. The nodes in a
style are those of the columns between its two markers. The nodes in a macro cover columns `i` to `j` of the macro, as long as its arguments are
unadorned. In the place of a control macro there are any nodes, or none. -/
inductive Tiles (line column : Nat) (source : Option Str) (text : Str) : Nat → Nat → List Node → Prop where
  | nil {a : Nat} : Tiles line column source text a a []
  | node {a b c i j : Nat} {n : Node} {ns : List Node} (hab : a < b) (hb : b ≤ text.length) (hc : n.ctx = spanAt line column source a b)
      (hs : Spells (between text a b) n.data) (hin : ∀ k, n.data = .style k → Tiles line column source text (a + 1) (b - 1) n.content)
      (hij : a ≤ i ∧ i ≤ j ∧ j ≤ b)
      (hmac : (∀ k, n.data ≠ .style k) → Unadorned (between text a b) → n.content ≠ [emptyText] → Tiles line column source text i j n.content)
      (h : Tiles line column source text b c ns) : Tiles line column source text a c (n :: ns)
  | control {a b c : Nat} {any ns : List Node} (hab : a < b) (hb : b ≤ text.length)
      (hs : ∃ name args, c%"if" <+: name ∧ between text a b = c%"[" ++ name ++ c%"](" ++ args ++ c%")")
      (h : Tiles line column source text b c ns) : Tiles line column source text a c (any ++ ns)

/-- The node is one of these, or one in the content of one of them, at any depth. -/
inductive Within (n : Node) : List Node → Prop where
  | here {ns : List Node} (h : n ∈ ns) : Within n ns
  | inner {ns : List Node} {m : Node} (h : m ∈ ns) (hw : Within n m.content) : Within n ns

end Mau.Spec
