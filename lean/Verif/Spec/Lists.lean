import Verif.Spec.Document

/-!
# Specification: lists
-/

namespace Mau.Spec

/-- One list line: its mark and its text, as tokens. The level is the number of symbols of the mark. -/
abbrev ListLine := Token × Token

/-- An item: the mark and the item node. -/
abbrev Entry := Token × Node

/-- The level of an item. -/
def Entry.level (e : Entry) : Nat := e.1.value.length

/-- The item of one line: its content is the parse of the text. (A text that gives no nodes is an IndexError.) -/
def Parser.item (P : Parser) (s : DocSt) (l : ListLine) : Except Err (Node × DocSt) := do
  let r ← P.inline s l.2.value l.2.ctx
  match r.1.getLast? with
  | none => throw (.py .indexError)
  | some last => return (Node.new (.listItem l.1.value.length) (l.1.ctx.merge last.ctx) r.1, r.2)

/-- The items of some lines, in order. -/
def Parser.items (P : Parser) : DocSt → List ListLine → Except Err (List Entry × DocSt)
  | s, [] => .ok ([], s)
  | s, l :: ls => do
    let r ← P.item s l
    let rs ← P.items r.2 ls
    return ((l.1, r.1) :: rs.1, rs.2)

/-- A list is ordered if its first mark starts with `#`. -/
def numbered (mark : Token) : Bool := mark.value.head? == some '#'

/-- `Lists L es ns`: the nodes `ns` are the content of a list of level `L` made of the items `es`: items of level `L` stand
in it directly, and a deeper item starts a nested list with it and all following items that are at least as deep. -/
inductive Lists : Nat → List Entry → List Node → Prop where
  | nil (L : Nat) : Lists L [] []
  | item {L : Nat} {e : Entry} {es : List Entry} {ns : List Node} (h : e.level = L) (hs : Lists L es ns) :
      Lists L (e :: es) (e.2 :: ns)
  | sub {L : Nat} {e : Entry} {inside after : List Entry} {subs ns : List Node} {last : Node} (h : L < e.level)
      (hi : Lists e.level (e :: inside) subs) (ha : Lists L after ns) (hmax : ∀ f ∈ after.head?, f.level < e.level)
      (hl : subs.getLast? = some last) :
      Lists L (e :: inside ++ after) (Node.new (.list (numbered e.1) false 1) (e.1.ctx.merge last.ctx) subs :: ns)

/-- A finished list: the arguments give the start. -/
def listStep (s : DocSt) (mark : Token) (nodes : List Node) : Except Err DocSt := do
  let r ← listStart (Dict.get? (args s).named c%"start") s.latest nodes.length
  let s := { s with latest := r.2 }
  let ctx ← spanOf nodes
  let keep ← allowed s
  return put s keep (Node.new (.list (numbered mark) true r.1) ctx nodes (args s) s.labelBuf)

/-- The parts of a list line: indentation, mark, spaces, text. -/
structure ItemLine where
  indent : Str
  mark : Str
  spaces : Str
  text : Str

/-- The line. -/
def ItemLine.line (i : ItemLine) : Str := i.indent ++ i.mark ++ i.spaces ++ i.text

/-- The line is a list line. -/
def ItemLine.Ok (i : ItemLine) : Prop :=
  SpecialLine i.line [.skip i.indent, .tok .LIST i.mark, .skip i.spaces, .tok .TEXT i.text]

/-- Mark and text of list lines as tokens, the first line at `ln`, `col`. -/
def itemToks (src : Option Str) : (ln col : Nat) → List ItemLine → List ListLine
  | _, _, [] => []
  | ln, col, i :: is =>
    (tokAt .LIST i.mark ln (col + i.indent.length) src,
     tokAt .TEXT i.text ln (col + i.indent.length + i.mark.length + i.spaces.length) src) :: itemToks src (ln + 1) 0 is

/-- What may follow a list of level `L`: the end of the document, an empty line, or a list line of a lower level. Comments are
skipped. -/
inductive AfterList (L : Nat) : List Str → Prop where
  | nil : AfterList L []
  | empty (rest : List Str) : AfterList L ([] :: rest)
  | lower {i : ItemLine} {rest : List Str} (h : i.Ok) (hl : i.mark.length < L) : AfterList L (i.line :: rest)
  | comment {l : Str} {rest : List Str} (h : SpecialLine l []) (hr : AfterList L rest) : AfterList L (l :: rest)
  | comments {cs rest : List Str} (h : c%"////" ∉ cs) (hr : AfterList L rest) : AfterList L (c%"////" :: (cs ++ c%"////" :: rest))

end Mau.Spec
