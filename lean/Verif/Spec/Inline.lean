import Verif.Spec.Scan
import Verif.Model.TextParser

/-!
# Specification of inline text

`inlineText` gives the nodes of a single line of text, character by character. Positions and identity
numbers are left out: nodes are compared through `Node.anon`. What macros mean is a parameter.
-/

namespace Mau

/-! ## Nodes without positions and identities -/

/-- Without identity numbers of links to headers and footnotes. -/
def NodeData.anon : NodeData → NodeData
  | .macroHeader _ t h => .macroHeader 0 t h
  | .macroFootnote _ n f => .macroFootnote 0 n f
  | d => d

mutual
/-- A node without its position and the positions of its content. -/
def Node.anon : Node → Node
  | .mk d a _ content labels extra => .mk d.anon a Context.empty (anonList content) labels extra
/-- The same for lists of nodes. -/
def anonList : List Node → List Node
  | [] => []
  | n :: ns => n.anon :: anonList ns
end

namespace Spec

/-- A node at no position. -/
def node (d : NodeData) (content : List Node := []) (args : NodeArgs := {}) : Node :=
  Node.new d Context.empty content args

/-- The special characters of inline text. -/
def inlineSpecial : Str := c%"~^_*`()[]\\\"$%"

/-- The style markers and the names of the styles. -/
def styleOf (c : Char) : Option Str :=
  if c = '_' then some c%"underscore"
  else if c = '*' then some c%"star"
  else if c = '^' then some c%"caret"
  else if c = '~' then some c%"tilde"
  else none

/-- Adjacent words become one text node. `acc` is the text read so far, if any. -/
def joinWords : (acc : Option Str) → List Node → List Node
  | none, [] => []
  | some v, [] => [node (.text v)]
  | acc, n :: ns =>
    match n.data with
    | .word v => joinWords (some (acc.getD [] ++ v)) ns
    | _ =>
      match acc with
      | some v => node (.text v) :: n :: joinWords none ns
      | none => n :: joinWords none ns

/-- The arguments of a macro, from after the opening bracket: the text of the arguments, and the
text after the closing bracket. A quoted argument at the start may contain closing brackets. -/
def macroArgs : (fuel : Nat) → Str → Option (Str × Str)
  | 0, _ => none
  | _ + 1, [] => none
  | n + 1, c :: s =>
    if c = ')' then some ([], s)
    else if c = '"' then
      match closing '"' s with
      | none => none
      | some (raw, s2) => (macroArgs n s2).map fun x => (c%"\"" ++ unescape '"' raw ++ c%"\"" ++ x.1, x.2)
    else
      match closing ')' (c :: s) with
      | none => none
      | some (raw, s2) => some (unescape ')' raw, s2)

/-- A macro, from after the opening square bracket: the name, the text of the arguments, the text
after the macro. -/
def macroAt (r : Str) : Option (Str × Str × Str) :=
  let name := if r.head? = some ' ' then [' '] else r.takeWhile fun c => !(inlineSpecial.contains c || c == ' ')
  if name = [] then none
  else
    match r.drop name.length with
    | c :: d :: r2 =>
      if c = ']' ∧ d = '(' then (macroArgs (r2.length + 1) r2).map fun x => (name, x.1, x.2) else none
    | _ => none

/-- What macros mean: the nodes or the error for a name and a text of arguments (`none`: not known). -/
abbrev Macros := Str → Str → Option (Except Err (List Node))

/-- Put nodes in front. -/
def prepend (ns : List Node) (x : Option (Except Err (List Node × Str))) : Option (Except Err (List Node × Str)) :=
  x.map fun r => r.map fun y => (ns ++ y.1, y.2)

/-- The nodes of a text up to the marker `m` (or its end), and the rest of the text. Each
ordinary character is a word. A macro without nodes ends the sentence. `fuel` bounds the length of the text. -/
def inlineRun (M : Macros) : (fuel : Nat) → (m : Option Char) → Str → Option (Except Err (List Node × Str))
  | 0, _, _ => none
  | _ + 1, _, [] => some (.ok ([], []))
  | n + 1, m, c :: r =>
    let asWord := fun (_ : Unit) => prepend [node (.word [c])] (inlineRun M n m r)
    if m = some c then some (.ok ([], c :: r))
    else if c = '\\' then
      match r with
      | [] => some (.ok ([node (.word [])], []))
      | d :: r' => prepend [node (.word [d])] (inlineRun M n m r')
    else if c = '[' then
      match macroAt r with
      | none => asWord ()
      | some (name, args, r') =>
        match M name args with
        | none => none
        | some (.error e) => some (.error e)
        | some (.ok []) => some (.ok ([], r'))
        | some (.ok (x :: xs)) => prepend (x :: xs) (inlineRun M n m r')
    else if c = '`' then
      match closing '`' r with
      | none => asWord ()
      | some (raw, r') => prepend [node (.verbatim (unescape '`' raw))] (inlineRun M n m r')
    else if c = '$' ∨ c = '%' then
      match closing c r with
      | none => asWord ()
      | some (raw, r') => prepend [node (.text (unescape c raw))] (inlineRun M n m r')
    else
      match styleOf c with
      | none => asWord ()
      | some k =>
        match inlineRun M n (some c) r with
        | none => none
        | some (.error e) => some (.error e)
        | some (.ok (content, rest)) =>
          match rest with
          | [] => asWord ()
          | d :: r' =>
            if d = c then prepend [node (.style k) (joinWords none content)] (inlineRun M n m r')
            else asWord ()

/-- The nodes of a text: sentence after sentence. -/
def inlineLoop (M : Macros) : (fuel : Nat) → Str → Option (Except Err (List Node))
  | 0, _ => none
  | _ + 1, [] => some (.ok [])
  | n + 1, c :: s =>
    match inlineRun M (s.length + 2) none (c :: s) with
    | none => none
    | some (.error e) => some (.error e)
    | some (.ok (items, rest)) => (inlineLoop M n rest).map fun r => r.map (joinWords none items ++ ·)

/-- A text without the spaces at its end. -/
def trimEnd (s : Str) : Str := (s.reverse.dropWhile (· == ' ')).reverse

/-- The nodes of a single line of text. Spaces at the end are dropped, but a blank line is kept as
it is. -/
def inlineText (M : Macros) (s : Str) : Option (Except Err (List Node)) :=
  if s ≠ [] ∧ isBlank s = true then some (.ok [node (.text s)])
  else inlineLoop M (s.length + 1) (trimEnd s)

/-- Parsing `text` yields the nodes `ns` (up to positions and identity numbers), wherever the text stands and for every
large enough recursion budget. -/
def ParsesTo (env : Env) (text : Str) (ns : List Node) : Prop :=
  ∀ (line column : Nat) (source : Option Str) (uid : Nat), ∃ N, ∀ fuel ≥ N, ∃ res,
    parseText fuel env text line column source uid = .ok res ∧ anonList res.nodes = ns

/-- Parsing `text` raises the error `er`, which is given here without its place. -/
def ParseFails (env : Env) (text : Str) (er : Err) : Prop :=
  ∀ (line column : Nat) (source : Option Str) (uid : Nat), ∃ N er', er'.bare = er ∧ ∀ fuel ≥ N,
    parseText fuel env text line column source uid = .error er'

/-- No macro has a meaning. -/
def noMacros : Macros := fun _ _ => none

/-! ## How inline text is composed

The relations below say the same in a compositional way, without scanning ahead. `R name args ns` says
that the macro `name` with the text of arguments `args` stands for the nodes `ns`. -/

/-- Characters of macro names: neither special nor a space. -/
def nameChar (c : Char) : Prop := c ∉ inlineSpecial ∧ c ≠ ' '

/-- Between the brackets of a macro: quoted texts first, which may contain brackets (each `\"`
in them stands for double quotes), then text without closing bracket (each `\)` stands for one).
`args` is the text of the arguments. -/
inductive MacroArgsForm : (raw args : Str) → Prop where
  | nil : MacroArgsForm [] []
  | quoted {q raw args : Str} (hq : Span '"' q) (h : MacroArgsForm raw args) :
      MacroArgsForm (c%"\"" ++ q ++ c%"\"" ++ raw) (c%"\"" ++ unescape '"' q ++ c%"\"" ++ args)
  | bare {raw : Str} (h : Span ')' raw) (hne : raw ≠ []) (hq : raw.head? ≠ some '"') :
      MacroArgsForm raw (unescape ')' raw)

/-- The text of a macro. -/
def macroText (name raw : Str) : Str := c%"[" ++ name ++ c%"](" ++ raw ++ c%")"

/-- Inline text made of complete pieces, and its nodes; each ordinary character is a word. `m` is the marker
of the surrounding style, if any. -/
inductive Inline (R : Str → Str → List Node → Prop) : (m : Option Char) → Str → List Node → Prop where
  | nil {m : Option Char} : Inline R m [] []
  /-- a character without a meaning of its own -/
  | char {m : Option Char} {s : Str} {ns : List Node} (c : Char) (hc : c ∉ c%"~^_*`[\\$%") (h : Inline R m s ns) :
      Inline R m (c :: s) (node (.word [c]) :: ns)
  /-- an escaped character -/
  | esc {m : Option Char} {s : Str} {ns : List Node} (c : Char) (h : Inline R m s ns) :
      Inline R m ('\\' :: c :: s) (node (.word [c]) :: ns)
  /-- a text in backticks -/
  | verbatim {m : Option Char} {raw s : Str} {ns : List Node} (hr : Span '`' raw) (h : Inline R m s ns) :
      Inline R m (c%"`" ++ raw ++ c%"`" ++ s) (node (.verbatim (unescape '`' raw)) :: ns)
  /-- a text in dollar or percent signs -/
  | literal {m : Option Char} {raw s : Str} {ns : List Node} (c : Char) (hc : c = '$' ∨ c = '%') (hr : Span c raw)
      (h : Inline R m s ns) : Inline R m ([c] ++ raw ++ [c] ++ s) (node (.text (unescape c raw)) :: ns)
  /-- a text in style markers -/
  | style {m : Option Char} {t s : Str} {ts ns : List Node} (c : Char) (k : Str) (hc : styleOf c = some k) (hm : m ≠ some c)
      (ht : Inline R (some c) t ts) (h : Inline R m s ns) :
      Inline R m ([c] ++ t ++ [c] ++ s) (node (.style k) (joinWords none ts) :: ns)
  /-- a macro -/
  | call {m : Option Char} {name raw args s : Str} {xs ns : List Node} (hn : name ≠ []) (hc : ∀ c ∈ name, nameChar c)
      (ha : MacroArgsForm raw args) (hx : R name args xs) (hne : xs ≠ []) (h : Inline R m s ns) :
      Inline R m (macroText name raw ++ s) (xs ++ ns)

/-- A line of inline text: complete pieces, and marks which are literal because they are not closed in the rest of the
line. -/
inductive Line (R : Str → Str → List Node → Prop) : Str → List Node → Prop where
  | nil : Line R [] []
  | pieces {a b : Str} {na nb : List Node} (ha : Inline R none a na) (hb : Line R b nb) : Line R (a ++ b) (na ++ nb)
  | unpaired {s : Str} {ns : List Node} (c : Char) (hc : c ∈ c%"~^_*`$%") (hs : c ∉ s) (h : Line R s ns) :
      Line R (c :: s) (node (.word [c]) :: ns)
  | bracket {s : Str} {ns : List Node} (hs : ¬ c%"](" <:+: s) (h : Line R s ns) :
      Line R ('[' :: s) (node (.word ['[']) :: ns)

/-- A whole line and its nodes: adjacent words are joined, unless a macro without nodes stands between them. -/
inductive LineNodes (R : Str → Str → List Node → Prop) : Str → List Node → Prop where
  | line {s : Str} {ns : List Node} (h : Line R s ns) : LineNodes R s (joinWords none ns)
  | gap {a name raw args s : Str} {na ns : List Node} (ha : Inline R none a na) (hn : name ≠ [])
      (hc : ∀ c ∈ name, nameChar c) (hf : MacroArgsForm raw args) (hx : R name args []) (h : LineNodes R s ns) :
      LineNodes R (a ++ macroText name raw ++ s) (joinWords none na ++ ns)

end Spec

end Mau
