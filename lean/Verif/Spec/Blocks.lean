import Verif.Spec.Nodes

/-!
# Specification: blocks

What C41, C42, C47 and C48 say about blocks.
-/

namespace Mau.Spec

/-- The lines of a block between two lines of four characters `ch`. -/
def blockLines (ch : Char) (cs : List Str) : List Str := [ch, ch, ch, ch] :: (cs ++ [[ch, ch, ch, ch]])

/-- The characters `ch` can delimit a block with the content `cs`. -/
structure Delimits (ch : Char) (cs : List Str) : Prop where
  noComment : ch ≠ '/'
  noSpace : ch ≠ ' '
  inside : [ch, ch, ch, ch] ∉ cs

/-- The value of an argument, if it is not empty. -/
def ArgIs (a : NodeArgs) (key value : Str) : Prop := value ≠ [] ∧ Dict.get? a.named key = some value

/-- The argument is missing or empty. -/
def NoArg (a : NodeArgs) (key : Str) : Prop := ∀ v, ¬ ArgIs a key v

/-- `Placed a s n n' s2`: in the state `s`, a block with the arguments `a` was finished and the state after it is `s2`. The block is
the node `n`; as a footnote it is `n'` (without position and arguments).

- With an argument `footnote` it is the text of the footnote of this name, which was not defined before.
- Otherwise, with arguments `group` and `position`, it is added to the group at this position, which was free.
- Otherwise it is appended to the document, if the pending control allows it. -/
inductive Placed (a : NodeArgs) (s : DocSt) (n n' : Node) : DocSt → Prop where
  | footnote {name : Str} (h : ArgIs a c%"footnote" name) (hnew : Dict.get? s.bodies name = none) :
      Placed a s n n' { s with bodies := s.bodies ++ [(name, n')], argsBuf := none, labelBuf := [] }
  | group {g p : Str} {groups : Dict (Dict Node)} (hf : NoArg a c%"footnote") (hg : ArgIs a c%"group" g) (hp : ArgIs a c%"position" p)
      (hnew : Dict.get? ((Dict.get? s.groups g).getD []) p = none)
      (hthis : Dict.get? groups g = some ((Dict.get? s.groups g).getD [] ++ [(p, Node.new (.blockgroupItem g p) Context.empty [n])]))
      (hother : ∀ g', g' ≠ g → Dict.get? groups g' = Dict.get? s.groups g') :
      Placed a s n n' { s with groups := groups, argsBuf := none, labelBuf := [] }
  | document {keep : Bool} (hf : NoArg a c%"footnote") (hg : NoArg a c%"group" ∨ NoArg a c%"position") (hk : allowed s = .ok keep) :
      Placed a s n n' (put s keep n)

/-- The raw lines for some lines of text, the first at line `ln`: each has the text of its line and its position. -/
def rawNodes (src : Option Str) : Nat → List Str → List Node
  | _, [] => []
  | ln, l :: ls => Node.new (.rawLine l) (at_ src ln 0 l.length) :: rawNodes src (ln + 1) ls

/-- The value of a raw line. -/
def rawText (n : Node) : Str := match n.data with | .rawLine v => v | _ => []

/-! ## Source blocks -/

/-- What a line of a source block means: the code, the marker, the highlight style. -/
structure CodeLine where
  code : Str
  marker : Option Str := none
  highlight : Option Str := none

/-- `CodeOf d p dflt al line r`: with the marker delimiter `d`, the highlight prefix `p`, the default highlight style `dflt` and the
style aliases `al`, the line means `r`. -/
inductive CodeOf (d p : Char) (dflt : Str) (al : Str → Option Str) : Str → CodeLine → Prop where
  /-- The line does not end with the delimiter. -/
  | plain {line : Str} (h : line.getLast? ≠ some d) : CodeOf d p dflt al line ⟨line, none, none⟩
  /-- The delimiter at the end is the only one. -/
  | single {code : Str} (h : d ∉ code) : CodeOf d p dflt al (code ++ [d]) ⟨code ++ [d], none, none⟩
  /-- Nothing between the last two delimiters. -/
  | empty {code : Str} : CodeOf d p dflt al (code ++ [d, d]) ⟨code, none, none⟩
  /-- A marker. -/
  | marker {code label : Str} (hd : d ∉ label) (hl : label ≠ []) (hp : label.head? ≠ some p) :
      CodeOf d p dflt al (code ++ d :: label ++ [d]) ⟨code, some label, none⟩
  /-- A highlight style. -/
  | style {code st : Str} (hd : d ∉ p :: st) (hs : st ≠ []) :
      CodeOf d p dflt al (code ++ d :: p :: st ++ [d]) ⟨code, none, some ((al st).getD st)⟩
  /-- The default highlight style. -/
  | default {code : Str} (hd : d ≠ p) : CodeOf d p dflt al (code ++ [d, p, d]) ⟨code, none, some ((al dflt).getD dflt)⟩

/-- The same for a delimiter `del` (not empty) and a prefix `pre` of any length, as the lines are really cut: only the last character of a line that ends with the
delimiter is taken off, and what follows the next delimiter is the mark; a style is a mark without its first character. -/
inductive CutOf (del pre : Str) (dflt : Str) (al : Str → Option Str) : Str → CodeLine → Prop where
  /-- The line does not end with the delimiter. -/
  | plain {line : Str} (h : ¬ del <:+ line) : CutOf del pre dflt al line ⟨line, none, none⟩
  /-- Without its last character the line does not contain the delimiter. -/
  | single {body : Str} {c : Char} (h : del <:+ body ++ [c]) (hb : ¬ del <:+: body) : CutOf del pre dflt al (body ++ [c]) ⟨body ++ [c], none, none⟩
  /-- Nothing between the delimiter and the last character. -/
  | empty {code : Str} {c : Char} (h : del <:+ code ++ del ++ [c]) (hp : pre ≠ []) : CutOf del pre dflt al (code ++ del ++ [c]) ⟨code, none, none⟩
  /-- A marker. -/
  | marker {code mark : Str} {c : Char} (h : del <:+ code ++ del ++ mark ++ [c]) (hd : ¬ del <:+: mark) (hm : mark ≠ []) (hp : ¬ pre <+: mark) :
      CutOf del pre dflt al (code ++ del ++ mark ++ [c]) ⟨code, some mark, none⟩
  /-- A highlight style. -/
  | style {code st : Str} {x c : Char} (h : del <:+ code ++ del ++ x :: st ++ [c]) (hd : ¬ del <:+: x :: st) (hp : pre <+: x :: st) (hs : st ≠ []) :
      CutOf del pre dflt al (code ++ del ++ x :: st ++ [c]) ⟨code, none, some ((al st).getD st)⟩
  /-- The default highlight style. -/
  | default {code mark : Str} {c : Char} (h : del <:+ code ++ del ++ mark ++ [c]) (hd : ¬ del <:+: mark) (hp : pre <+: mark) (hm : mark.length ≤ 1) :
      CutOf del pre dflt al (code ++ del ++ mark ++ [c]) ⟨code, none, some ((al dflt).getD dflt)⟩

/-- The text a highlight style stands for, among the aliases configured for source blocks. -/
def aliasOf (al : List (Str × Nested)) (style : Str) : Option Str :=
  match Dict.get? al style with
  | some (.leaf (.str v)) => some v
  | _ => none

/-- The aliases of highlight styles configured in the variables. -/
inductive StyleAliases (env : Env) : (Str → Option Str) → Prop where
  | none (h : Env.get env c%"mau.parser.source_highlight_style_aliases" = .default) : StyleAliases env fun _ => Option.none
  | some {e : Env} {al : List (Str × Nested)} (h : Env.get env c%"mau.parser.source_highlight_style_aliases" = .namespace e)
      (hd : Env.asdict e = .ok al) : StyleAliases env (aliasOf al)

/-- The arguments that control a source block. -/
def sourceKeys : List Str := [c%"classes", c%"engine", c%"marker_delimiter", c%"highlight_marker", c%"highlight_default_style", c%"language"]

/-- `Language a lang left`: with the arguments `a` a source block has the language `lang` — the argument of this name, else the first
one without a name, else `text` — and the arguments without names `left` remain. -/
inductive Language (a : NodeArgs) : Str → List Str → Prop where
  | named {v : Str} (h : Dict.get? a.named c%"language" = some v) : Language a v a.unnamed
  | first {v : Str} {vs : List Str} (h : Dict.get? a.named c%"language" = none) (hu : a.unnamed = v :: vs) : Language a v vs
  | default (h : Dict.get? a.named c%"language" = none) (hu : a.unnamed = []) : Language a c%"text" []

/-- `LeftOver a left keys b`: the arguments `b` are `left` and those arguments of `a` whose names are not in `keys`. -/
structure LeftOver (a : NodeArgs) (left : List Str) (keys : List Str) (b : NodeArgs) : Prop where
  unnamed : b.unnamed = left
  named : ∀ k, Dict.get? b.named k = if k ∈ keys then none else Dict.get? a.named k
  tags : b.tags = a.tags
  subtype : b.subtype = a.subtype

/-- The code lines, numbered from `n`. -/
inductive CodeNodes (d p : Char) (dflt : Str) (al : Str → Option Str) : Nat → List Str → List Node → Prop where
  | nil {n : Nat} : CodeNodes d p dflt al n [] []
  | plain {n : Nat} {l : Str} {ls : List Str} {r : CodeLine} {ctx : Context} {ns : List Node} (h : CodeOf d p dflt al l r) (hm : r.marker = none)
      (hs : CodeNodes d p dflt al (n + 1) ls ns) :
      CodeNodes d p dflt al n (l :: ls) (Node.new (.sourceLine n r.code r.highlight) ctx [] :: ns)
  | marked {n : Nat} {l m : Str} {ls : List Str} {r : CodeLine} {ctx ctx' : Context} {ns : List Node} (h : CodeOf d p dflt al l r) (hm : r.marker = some m)
      (hs : CodeNodes d p dflt al (n + 1) ls ns) :
      CodeNodes d p dflt al n (l :: ls) (Node.new (.sourceLine n r.code r.highlight) ctx [Node.new (.sourceMarker m) ctx'] :: ns)

/-- The code lines, numbered from `n`, each of which means what `Means` says of its line. -/
inductive CodeRows (Means : Str → CodeLine → Prop) : Nat → List Str → List Node → Prop where
  | nil {n : Nat} : CodeRows Means n [] []
  | plain {n : Nat} {l : Str} {ls : List Str} {r : CodeLine} {ctx : Context} {ns : List Node} (h : Means l r) (hm : r.marker = none)
      (hs : CodeRows Means (n + 1) ls ns) :
      CodeRows Means n (l :: ls) (Node.new (.sourceLine n r.code r.highlight) ctx [] :: ns)
  | marked {n : Nat} {l m : Str} {ls : List Str} {r : CodeLine} {ctx ctx' : Context} {ns : List Node} (h : Means l r) (hm : r.marker = some m)
      (hs : CodeRows Means (n + 1) ls ns) :
      CodeRows Means n (l :: ls) (Node.new (.sourceLine n r.code r.highlight) ctx [Node.new (.sourceMarker m) ctx'] :: ns)

/-! ## Isolation -/

/-- Nothing was added to (or removed from) what is collected for the table of contents and the footnotes, apart from footnote texts. -/
structure SameCollections (s s2 : DocSt) : Prop where
  headers : s2.tocHeaders = s.tocHeaders
  tocs : s2.tocNodes = s.tocNodes
  mentions : s2.footnoteMacros = s.footnoteMacros
  lists : s2.footnoteLists = s.footnoteLists
  links : s2.linkMacros = s.linkMacros
  targets : s2.linkHeaders = s.linkHeaders

/-- `Merged s inner s1`: everything collected by the parser of the block (`inner`) for the table of contents and the footnotes was added
to that of the enclosing parser `s`. -/
structure Merged (s inner s1 : DocSt) : Prop where
  headers : s1.tocHeaders = s.tocHeaders ++ inner.tocHeaders
  tocs : s1.tocNodes = s.tocNodes ++ inner.tocNodes
  mentions : s1.footnoteMacros = s.footnoteMacros ++ inner.footnoteMacros
  lists : s1.footnoteLists = s.footnoteLists ++ inner.footnoteLists
  bodies : ∀ name, Dict.get? s1.bodies name = (Dict.get? inner.bodies name).or (Dict.get? s.bodies name)
  links : s1.linkMacros = s.linkMacros
  targets : s1.linkHeaders = s.linkHeaders

/-- The document that is the content of a block: the lines, at their position, with the variables of the enclosing document. -/
def contentOf (P : Parser) (ln : Nat) (cs : List Str) (s : DocSt) : NestedReq :=
  ⟨joinWith ['\n'] cs, s.env, ln, 0, P.src, [], s.uid, s.objs⟩

end Mau.Spec
