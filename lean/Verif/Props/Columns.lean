import Verif.Lemmas.Columns
import Verif.Props.Document
import Verif.Props.Text
import Verif.Props.Lists
import Verif.Spec.Columns

/-!
# Columns

C76: the nodes of a line of inline text lie side by side and cover the line, each at the columns of the characters it was made of.
-/

set_option linter.unusedSimpArgs false

namespace Mau

open Spec

/-- C76: if a line of inline text parses then its nodes cover the line, from its first column up to the last one that is no space. The line must not
end with a backslash followed by spaces. -/
theorem C76_line {fuel : Nat} {env : Env} {text : Str} {line column uid : Nat} {source : Option Str} {r : TextResult} (hn : '\n' ∉ text)
    (hb : text = [] ∨ isBlank text = false) (hl : trimEnd text = text ∨ (trimEnd text).getLast? ≠ some '\\')
    (h : parseText fuel env text line column source uid = .ok r) :
    Tiles line column source (trimEnd text) 0 (trimEnd text).length r.nodes :=
  parseText_tiles hn hb hl h

/-- A slice of a text is a part of it. -/
theorem between_infix (text : Str) (a b : Nat) : between text a b <:+: text :=
  (List.take_prefix _ _).isInfix.trans (List.drop_suffix _ _).isInfix

/-- Nodes that tile a text without control macros lie side by side. -/
theorem Spec.Tiles.side {line column : Nat} {source : Option Str} {text : Str} {a b : Nat} {ns : List Node} (hi : ¬ c%"[if" <:+: text)
    (h : Tiles line column source text a b ns) :
    (∀ n ∈ ns, n.ctx.startLine = line ∧ n.ctx.endLine = line ∧ n.ctx.source = source ∧ n.ctx.startColumn < n.ctx.endColumn) ∧
    (∀ i n m, ns[i]? = some n → ns[i + 1]? = some m → m.ctx.startColumn = n.ctx.endColumn) ∧
    (ns = [] → a = b) ∧ (∀ n, ns.head? = some n → n.ctx.startColumn = column + a) ∧ (∀ n, ns.getLast? = some n → n.ctx.endColumn = column + b) := by
  induction h with
  | nil => exact ⟨by simp, by simp, by simp, by simp, by simp⟩
  | @node a b c i j n ns hab hb hc hs hin hij hmac h ihin ihmac ih =>
    obtain ⟨i1, i2, i3, i4, i5⟩ := ih
    refine ⟨?_, ?_, by simp, ?_, ?_⟩
    · intro m hm
      rcases List.mem_cons.1 hm with rfl | hm
      · rw [hc]; exact ⟨rfl, rfl, rfl, by simp only [spanAt]; omega⟩
      · exact i1 m hm
    · intro i x y hx hy
      cases i with
      | zero =>
        cases ns with
        | nil => simp at hy
        | cons m ms =>
          simp only [List.getElem?_cons_zero, List.getElem?_cons_succ, Option.some.injEq] at hx hy
          subst hx hy
          rw [i4 m rfl, hc]; rfl
      | succ i => exact i2 i x y (by simpa using hx) (by simpa using hy)
    · intro m hm
      cases hm
      rw [hc]; rfl
    · intro m hm
      cases ns with
      | nil =>
        simp only [List.getLast?_singleton, Option.some.injEq] at hm
        subst hm
        rw [hc, ← i3 rfl]; rfl
      | cons x xs => exact i5 m (by simpa [List.getLast?_cons_cons] using hm)
  | control hab hb hs h ih =>
    obtain ⟨name, args, ⟨r, rfl⟩, hs⟩ := hs
    have h1 : c%"[if" <:+: between text _ _ := ⟨[], r ++ c%"](" ++ args ++ c%")", by rw [hs]; simp⟩
    exact absurd (h1.trans (between_infix _ _ _)) hi

/-- C76: the nodes of a line of inline text without control macros lie side by side on that line: the first one starts where the text starts, each of
the others starts where the one before it ends, and the last one ends where the text ends. -/
theorem C76_side_by_side {fuel : Nat} {env : Env} {text : Str} {line column uid : Nat} {source : Option Str} {r : TextResult} (hn : '\n' ∉ text)
    (hb : isBlank text = false) (hl : trimEnd text = text ∨ (trimEnd text).getLast? ≠ some '\\') (hi : ¬ c%"[if" <:+: text)
    (h : parseText fuel env text line column source uid = .ok r) :
    (∀ n ∈ r.nodes, n.ctx.startLine = line ∧ n.ctx.endLine = line ∧ n.ctx.source = source ∧ n.ctx.startColumn < n.ctx.endColumn) ∧
    (∀ i n m, r.nodes[i]? = some n → r.nodes[i + 1]? = some m → m.ctx.startColumn = n.ctx.endColumn) ∧
    (∀ n, r.nodes.head? = some n → n.ctx.startColumn = column) ∧
    (∀ n, r.nodes.getLast? = some n → n.ctx.endColumn = column + (trimEnd text).length) := by
  have hi' : ¬ c%"[if" <:+: trimEnd text := by
    intro h
    obtain ⟨sp, -, hsp, -⟩ := trimEnd_spec text
    exact hi (h.trans ⟨[], sp, by rw [List.nil_append, ← hsp]⟩)
  have := (C76_line hn (.inr hb) hl h).side hi'
  exact ⟨this.1, this.2.1, this.2.2.2.1, this.2.2.2.2⟩

/-- Nodes that tile an unadorned text without control macros, and the nodes in them, stand over their own characters. -/
theorem Spec.Tiles.everywhere {line column : Nat} {source : Option Str} {text : Str} {a b : Nat} {ns : List Node} (hu : Unadorned text)
    (hi : ¬ c%"[if" <:+: text) (h : Tiles line column source text a b ns) :
    ∀ n, Spec.Within n ns → n = emptyText ∨
      ∃ i j, i < j ∧ j ≤ text.length ∧ n.ctx = spanAt line column source i j ∧ Spells (between text i j) n.data := by
  induction h with
  | nil => intro n hw; cases hw with | here h => cases h | inner h _ => cases h
  | @node a b c i j n ns hab hb hc hs hin hij hmac h ihin ihmac ih =>
    have hu' : Unadorned (between text a b) :=
      ⟨fun h => hu.1 ((between_infix _ _ _).subset h), fun h => hu.2.1 ((between_infix _ _ _).subset h), fun h => hu.2.2 ((between_infix _ _ _).subset h)⟩
    intro m hw
    cases hw with
    | here hm =>
      rcases List.mem_cons.1 hm with rfl | hm
      · exact .inr ⟨a, b, hab, hb, hc, hs⟩
      · exact ih m (.here hm)
    | @inner _ p hm hw =>
      rcases List.mem_cons.1 hm with rfl | hm
      · by_cases hst : ∃ k, p.data = .style k
        · obtain ⟨k, hk⟩ := hst
          exact ihin k hk m hw
        · by_cases he : p.content = [emptyText]
          · rw [he] at hw
            cases hw with
            | here hm => exact .inl (List.mem_singleton.1 hm)
            | inner hm hw =>
              rw [List.mem_singleton.1 hm] at hw
              cases hw with | here h => cases h | inner h _ => cases h
          · exact ihmac (fun k hk => hst ⟨k, hk⟩) hu' he m hw
      · exact ih m (.inner hm hw)
  | control hab hb hs h ih =>
    obtain ⟨name, args, ⟨r, rfl⟩, hs⟩ := hs
    have h1 : c%"[if" <:+: between text _ _ := ⟨[], r ++ c%"](" ++ args ++ c%")", by rw [hs]; simp⟩
    exact absurd (h1.trans (between_infix _ _ _)) hi

/-- C76: at every depth, also inside of macros. In a line without escaped characters, named arguments, aliases and control macros each node stands over
the characters that it was made of. Only the text of a link without text and without target has no place. -/
theorem C76_everywhere {fuel : Nat} {env : Env} {text : Str} {line column uid : Nat} {source : Option Str} {r : TextResult} (hn : '\n' ∉ text)
    (hb : isBlank text = false) (hu : Unadorned text) (hi : ¬ c%"[if" <:+: text)
    (h : parseText fuel env text line column source uid = .ok r) (n : Node) (hw : Spec.Within n r.nodes) :
    n = emptyText ∨ ∃ i j, i < j ∧ j ≤ text.length ∧ n.ctx = spanAt line column source i j ∧ Spells (between text i j) n.data := by
  obtain ⟨sp, -, hsp, -⟩ := trimEnd_spec text
  have hx : trimEnd text <:+: text := ⟨[], sp, by rw [List.nil_append, ← hsp]⟩
  have hl : (trimEnd text).getLast? ≠ some '\\' := fun h => hu.1 (hx.subset (List.mem_of_getLast? h))
  rcases (C76_line hn (.inr hb) (.inr hl) h).everywhere ⟨fun h => hu.1 (hx.subset h), fun h => hu.2.1 (hx.subset h), fun h => hu.2.2 (hx.subset h)⟩
    (fun h => hi (h.trans hx)) n hw with h | ⟨i, j, h1, h2, h3, h4⟩
  · exact .inl h
  · refine .inr ⟨i, j, h1, Nat.le_trans h2 hx.length_le, h3, ?_⟩
    have : between text i j = between (trimEnd text) i j := by
      conv => lhs; rw [hsp]
      unfold between
      rw [List.drop_append_of_le_length (by omega), List.take_append_of_le_length (by rw [List.length_drop]; omega)]
    rw [this]; exact h4

/-- Inline text of a document: its nodes cover the text, after the replacement of the variables. -/
theorem HoldsParse.tiles {P : Parser} {env : Env} {text v : Str} {ctx : Context} {content : List Node} (hv : Replaced env text v) (hn : '\n' ∉ v)
    (hb : isBlank v = false) (hl : trimEnd v = v ∨ (trimEnd v).getLast? ≠ some '\\') (h : HoldsParse P env text ctx content) :
    Tiles ctx.startLine ctx.startColumn ctx.source (trimEnd v) 0 (trimEnd v).length content := by
  obtain ⟨s, s', rfl, h⟩ := h
  have h1 := hv ctx.startLine ctx.startColumn ctx.source
  unfold preprocess at h1
  unfold Parser.inline docText at h
  cases hp : preprocessNodes s.env text ctx.startLine ctx.startColumn ctx.source with
  | error e => rw [hp] at h; cases e <;> cases h
  | ok ps =>
    rw [hp] at h h1
    have hval : (processedText ps).value = v := Except.ok.inj h1
    cases ps with
    | nil =>
      have : v = [] := by rw [← hval]; rfl
      subst this
      cases h
      exact .nil
    | cons p ps =>
      dsimp only at h
      cases hq : parseText P.fuel s.env (processedText (p :: ps)).value ctx.startLine ctx.startColumn ctx.source s.uid with
      | error e => rw [hq] at h; cases e <;> cases h
      | ok r =>
        rw [hq] at h
        cases h
        rw [hval] at hq
        exact C76_line hn (.inr hb) hl hq

/-- A line that can be laid out: the replacement of variables does not change it, it has no line feed and no space at its end, and it is not blank. -/
structure Spec.Layable (env : Env) (l : Str) : Prop where
  itself : Replaced env l l
  newline : '\n' ∉ l
  visible : isBlank l = false
  space : trimEnd l = l

/-- C76: a header. The nodes in it cover its text, at the columns of the text in the line. -/
theorem C76_header {P : Parser} {ln col n : Nat} {sp text : Str} {rest : List Str} {s s' : DocSt} (ht : HeaderText sp text) (hl : Layable s.env text)
    (hk : Spec.allowed s = .ok true) (h : P.run ln col (headerLine (n + 1) sp text :: rest) s = .ok s') :
    ∃ s1 d a ctx content ls, P.run (ln + 1) 0 rest s1 = .ok s' ∧ s1.nodes = s.nodes ++ [Node.new d ctx content a ls] ∧
      (∃ i x y, d = .header i (n + 1) x y) ∧ Tiles ln (col + (n + 1) + sp.length) P.src text 0 text.length content := by
  obtain ⟨s1, ctx, content, keep, h1, h2, h3, -, h4, -⟩ := C59_header ht h
  rw [hk] at h2
  cases h2
  have := HoldsParse.tiles hl.itself hl.newline hl.visible (.inl hl.space) h3
  rw [hl.space] at this
  exact ⟨s1, _, _, ctx, content, _, h1, (h4 rfl).1, ⟨_, _, _, rfl⟩, this⟩

/-- The content of the lines of a paragraph. -/
theorem paragraphLines_tiles {P : Parser} {env : Env} {ln col : Nat} {ls : List Str} {ns : List Node} (hl : ∀ l ∈ ls, Layable env l)
    (h : ParagraphLines P env ln col ls ns) :
    ns.length = ls.length ∧ ∀ i l n, ls[i]? = some l → ns[i]? = some n →
      Tiles (ln + i) (if i = 0 then col else 0) P.src l 0 l.length n.content := by
  induction h with
  | nil => exact ⟨rfl, by simp⟩
  | @cons ln col l ls content ns h hs ih =>
    obtain ⟨i1, i2⟩ := ih fun l hl' => hl l (List.mem_cons_of_mem _ hl')
    refine ⟨by simp [i1], ?_⟩
    intro i x n hx hn
    cases i with
    | zero =>
      simp only [List.getElem?_cons_zero, Option.some.injEq] at hx hn
      subst hx hn
      have hl' := hl l List.mem_cons_self
      have := HoldsParse.tiles hl'.itself hl'.newline hl'.visible (.inl hl'.space) h
      rw [hl'.space] at this
      exact this
    | succ i =>
      have := i2 i x n (by simpa using hx) (by simpa using hn)
      rw [if_neg (by omega)]
      split at this <;> rw [Nat.add_right_comm] at this <;> exact this

/-- C76: a paragraph. It has one node per line, and the nodes in it cover the line. -/
theorem C76_paragraph {P : Parser} {ln col : Nat} {ls rest : List Str} {s s' : DocSt} (ht : ∀ l ∈ ls, TextLine l) (hne : ls ≠ []) (hr : NoText rest)
    (hl : ∀ l ∈ ls, Layable s.env l) (hk : Spec.allowed s = .ok true) (h : P.run ln col (ls ++ rest) s = .ok s') :
    ∃ s1 a ctx ns labels, P.run (ln + ls.length) 0 rest s1 = .ok s' ∧ s1.nodes = s.nodes ++ [Node.new .paragraph ctx ns a labels] ∧
      ns.length = ls.length ∧
      ∀ i l n, ls[i]? = some l → ns[i]? = some n → Tiles (ln + i) (if i = 0 then col else 0) P.src l 0 l.length n.content := by
  obtain ⟨s1, ctx, ns, keep, h1, h2, h3, -, -, h4⟩ := C58_paragraph ht hne hr h
  rw [hk] at h3
  cases h3
  obtain ⟨p1, p2⟩ := paragraphLines_tiles hl h2
  refine ⟨_, args s, ctx, ns, s.labelBuf, h4, ?_, p1, p2⟩
  simp [put, h1.nodes]

/-- The content of the items of a list. -/
theorem itemNodes_tiles {P : Parser} {env : Env} {ln col : Nat} {is : List ItemLine} {ns : List Node} (hl : ∀ i ∈ is, Layable env i.text)
    (h : ItemNodes P env ln col is ns) :
    ns.length = is.length ∧ ∀ k i n, is[k]? = some i → ns[k]? = some n →
      Tiles (ln + k) ((if k = 0 then col else 0) + i.indent.length + i.mark.length + i.spaces.length) P.src i.text 0 i.text.length n.content := by
  induction h with
  | nil => exact ⟨rfl, by simp⟩
  | @cons ln col j is ctx content ns h hne hs ih =>
    obtain ⟨i1, i2⟩ := ih fun l hl' => hl l (List.mem_cons_of_mem _ hl')
    refine ⟨by simp [i1], ?_⟩
    intro i x n hx hn
    cases i with
    | zero =>
      simp only [List.getElem?_cons_zero, Option.some.injEq] at hx hn
      subst hx hn
      have hl' := hl j List.mem_cons_self
      have := HoldsParse.tiles hl'.itself hl'.newline hl'.visible (.inl hl'.space) h
      rw [hl'.space] at this
      exact this
    | succ i =>
      have := i2 i x n (by simpa using hx) (by simpa using hn)
      rw [if_neg (by omega)]
      split at this <;> rw [Nat.add_right_comm] at this <;> exact this

/-- C76: a list. Its items, read depth-first, are one per line, and the nodes in an item cover the text of its line, at the columns of the text. -/
theorem C76_list {P : Parser} {ln col : Nat} {i : ItemLine} {is : List ItemLine} {rest : List Str} {s s' : DocSt}
    (hi : ∀ j ∈ i :: is, j.Ok ∧ i.mark.length ≤ j.mark.length) (hr : AfterList i.mark.length rest) (hl : ∀ j ∈ i :: is, Layable s.env j.text)
    (hk : Spec.allowed s = .ok true) (h : P.run ln col ((i :: is).map (·.line) ++ rest) s = .ok s') :
    ∃ s1 a d ctx ns labels, P.run (ln + (i :: is).length) 0 rest s1 = .ok s' ∧ s1.nodes = s.nodes ++ [Node.new d ctx ns a labels] ∧
      (∃ o st, d = .list o true st) ∧ (itemsOfAll ns).length = (i :: is).length ∧
      ∀ k j n, (i :: is)[k]? = some j → (itemsOfAll ns)[k]? = some n →
        Tiles (ln + k) ((if k = 0 then col else 0) + j.indent.length + j.mark.length + j.spaces.length) P.src j.text 0 j.text.length n.content := by
  obtain ⟨items, ns, s1, keep, st, ctx, h1, rfl, -, -, h2, h3, h4⟩ := C39_list hi hr h
  rw [hk] at h3
  cases h3
  obtain ⟨p1, p2⟩ := itemNodes_tiles hl h1
  refine ⟨_, args s, .list (i.mark.head? == some '#') true st, ctx, ns, s.labelBuf, h4, ?_, ⟨_, _, rfl⟩, p1, p2⟩
  rw [h2]
  simp [put]

/-! ## Examples -/

/-- The text of a node, the name of its style or the address of its link. -/
def gistOf : NodeData → Str
  | .text v | .verbatim v | .style v | .macroLink v => v
  | _ => []

/-- The nodes, each followed by those in it: text and columns. -/
def columnsOf (ns : List Node) : List (Str × Nat × Nat) :=
  ns.flatMap fun n => (n :: n.content).map fun m => (gistOf m.data, m.ctx.startColumn, m.ctx.endColumn)

/-- The hypotheses of `C76_line` and `C76_side_by_side` hold for a text with a style, an escaped character and a macro. -/
example : (parseText 40 [] c%"a *b `c`* \\_ [link](x,y) $d$ e" 3 2).toOption.map (fun r => columnsOf r.nodes) = some
    [(c%"a ", 2, 4), (c%"star", 4, 11), (c%"b ", 5, 7), (c%"c", 7, 10), (c%" _ ", 11, 15), (c%"x", 15, 26), (c%"y", 24, 25), (c%" ", 26, 27),
      (c%"d", 27, 30), (c%" e", 30, 32)] := by
  decide +kernel

/-- The nodes in the text of a link, two levels deep. -/
example : (parseText 40 [] c%"a [link](x,b _c_) d" 3 2).toOption.map (fun r => columnsOf (r.nodes.flatMap (·.content))) = some
    [(c%"b ", 13, 15), (c%"underscore", 15, 18), (c%"c", 16, 17)] := by
  decide +kernel

/-- `Unadorned` is needed: the columns in a named argument are counted without the spaces before it. -/
example : (parseText 40 [] c%"[link](x,text=   b)" 3 2).toOption.map (fun r => columnsOf (r.nodes.flatMap (·.content))) = some
    [(c%"b", 16, 17)] := by
  decide +kernel

/-- A backslash before spaces at the end of the line is excluded: its node ends on the next line. -/
example : (parseText 40 [] c%"a\\ " 3 2).toOption.map (fun r => r.nodes.map fun n => (gistOf n.data, n.ctx.startLine, n.ctx.endLine)) =
    some [(c%"a", 3, 4)] := by
  decide +kernel

/-- A line with a style, a macro and a dollar text is one that `C76_paragraph`, `C76_header` and `C76_list` speak of. -/
example (env : Env) : Layable env c%"a *b* [link](x,y) $d$ e" where
  itself := C17_no_special env _ (by unfold preSpecial; decide) (by decide)
  newline := by decide
  visible := by decide
  space := by decide

end Mau
