import Verif.Spec.Nodes

/-!
# Specification: the tree of a list

What C39 and C40 say about the nodes of a list, without reference to how they are built.
-/

namespace Mau.Spec

mutual
/-- The items of a list node, read depth-first; any other node is an item itself. -/
def itemsOf : Node → List Node
  | .mk (.list o m st) _ _ cs _ _ => itemsOfAll cs
  | .mk d a c cs ls ex => [.mk d a c cs ls ex]
/-- The items of several nodes, read depth-first. -/
def itemsOfAll : List Node → List Node
  | [] => []
  | n :: ns => itemsOf n ++ itemsOfAll ns
end

/-- The node is a list item of level `L`. -/
def IsItem (L : Nat) (n : Node) : Prop := n.data = .listItem L

/-- `ListTree L ns`: the content of a list of level `L`. Its items have level `L`; its nested lists have a greater level (so they are
deeper than the items before them), do not start with a list and are not empty; no nested list directly follows another one of a
smaller or the same level. -/
inductive ListTree : Nat → List Node → Prop where
  | nil {L : Nat} : ListTree L []
  | item {L : Nat} {n : Node} {ns : List Node} (h : IsItem L n) (hs : ListTree L ns) : ListTree L (n :: ns)
  | sub {L M : Nat} {o : Bool} {ctx : Context} {n : Node} {ms ns : List Node} (hM : L < M) (h : IsItem M n) (hi : ListTree M (n :: ms))
      (hs : ListTree L ns) (hn : ∀ K o' st' ctx' m ms' ns', ns = Node.new (.list o' false st') ctx' (m :: ms') :: ns' → IsItem K m → K < M) :
      ListTree L (Node.new (.list o false 1) ctx (n :: ms) :: ns)

/-- The item nodes of some list lines: one per line, in order; the level is the number of symbols and the content the parse of the
text. -/
inductive ItemNodes (P : Parser) (env : Env) : (ln col : Nat) → List ItemLine → List Node → Prop where
  | nil {ln col : Nat} : ItemNodes P env ln col [] []
  | cons {ln col : Nat} {i : ItemLine} {is : List ItemLine} {ctx : Context} {content ns : List Node}
      (h : HoldsParse P env i.text (at_ P.src ln (col + i.indent.length + i.mark.length + i.spaces.length) i.text.length) content)
      (hne : content ≠ []) (hs : ItemNodes P env (ln + 1) 0 is ns) :
      ItemNodes P env ln col (i :: is) (Node.new (.listItem i.mark.length) ctx content :: ns)

/-- `Marked ns is`: the nested lists among `ns` (whose items are those of the lines `is`) are numbered exactly if their first line
is marked by `#`. -/
inductive Marked : List Node → List ItemLine → Prop where
  | nil : Marked [] []
  | item {L : Nat} {n : Node} {i : ItemLine} {ns : List Node} {is : List ItemLine} (h : IsItem L n) (hs : Marked ns is) :
      Marked (n :: ns) (i :: is)
  | sub {o : Bool} {ctx : Context} {ms ns : List Node} {i : ItemLine} {is js : List ItemLine} (ho : o = (i.mark.head? == some '#'))
      (hi : Marked ms (i :: is)) (hs : Marked ns js) : Marked (Node.new (.list o false 1) ctx ms :: ns) (i :: is ++ js)

/-! ## Numbers -/

/-- The value of a string of decimal digits. -/
def decimal (ds : Str) : Nat := ds.foldl (fun n c => 10 * n + (c.toNat - '0'.toNat)) 0

/-- `WholeNumber v n`: the text `v` is the whole number `n`: a sign (or none), then groups of digits, with an underscore between two
groups; there may be white space around it. -/
inductive WholeNumber : Str → Int → Prop where
  | mk {sign : Str} {groups : List Str} {v : Str} {n : Int} (hv : strip v = sign ++ joinWith ['_'] groups) (hne : groups ≠ [])
      (hg : ∀ g ∈ groups, g ≠ [] ∧ ∀ c ∈ g, isDigitAscii c = true)
      (hs : sign = [] ∧ n = decimal groups.flatten ∨ sign = ['+'] ∧ n = decimal groups.flatten ∨ sign = ['-'] ∧ n = -(decimal groups.flatten : Int)) :
      WholeNumber v n

/-- `StartOf a next st`: with the arguments `a` a list starts at `st`, if the automatic number is `next`. -/
inductive StartOf (a : NodeArgs) (next : Int) : Int → Prop where
  | default (h : Dict.get? a.named c%"start" = none) : StartOf a next 1
  | auto (h : Dict.get? a.named c%"start" = some c%"auto") : StartOf a next next
  | number {v : Str} {n : Int} (h : Dict.get? a.named c%"start" = some v) (hv : v ≠ c%"auto") (hn : WholeNumber v n) : StartOf a next n

/-- `NoLists P rest ln ls s s'`: the lines `ls`, followed by `rest`, are constructs other than lists, each with what stands before it; reading
them leads from the state `s` to the state `s'`. -/
inductive NoLists (P : Parser) (rest : List Str) : (ln : Nat) → List Str → DocSt → DocSt → Prop where
  | nil {ln : Nat} {s : DocSt} : NoLists P rest ln [] s s
  | construct {ln : Nat} {pre ls after : List Str} {s s1 s2 s3 : DocSt} {as : List Attached} {k : Kind} {a : NodeArgs} (hk : k ≠ .list)
      (hpre : Prelude P (ls ++ (after ++ rest)) ln 0 pre s as s1) (hc : Construct P s1 (ln + pre.length) 0 ls (after ++ rest) k a (.ok s2))
      (h : NoLists P rest (ln + pre.length + ls.length) after s2 s3) : NoLists P rest ln (pre ++ ls ++ after) s s3

end Mau.Spec
