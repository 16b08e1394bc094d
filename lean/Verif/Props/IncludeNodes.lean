import Verif.Props.Includes

set_option linter.unusedSimpArgs false

/-!
# C68 — includes of other things than Mau files
-/

namespace Mau
open Spec

/-- The parameters of an include after the positional values were given their names. -/
theorem given_eq (a : NodeArgs) {names : List Str} (hn : names.Nodup) {n : Str} (h : n ∈ names) :
    Dict.get? (a.setNames names).named n = given a names n := by
  obtain ⟨k1, k2, k3, _⟩ := C26_set_names a.unnamed a.named names hn
  have hff : names.filter (fun n => !Dict.has a.named n) = names.filter fun m => (Dict.get? a.named m).isNone := by
    apply List.filter_congr
    intro n _
    unfold Dict.has
    cases Dict.get? a.named n <;> rfl
  rw [hff] at k2 k3
  have hnd : (names.filter fun m => (Dict.get? a.named m).isNone).Nodup := hn.filter _
  show Dict.get? (setNames a.unnamed a.named names).2 n = _
  unfold given
  cases hg : Dict.get? a.named n with
  | some v => exact k1 n v hg
  | none =>
    dsimp only
    have hmem : n ∈ names.filter fun m => (Dict.get? a.named m).isNone := List.mem_filter.2 ⟨h, by rw [hg]; rfl⟩
    generalize names.filter (fun m => (Dict.get? a.named m).isNone) = free at k2 k3 hmem hnd ⊢
    have hidx : free[free.idxOf n]? = some n := by
      have hlt := List.idxOf_lt_length_of_mem hmem
      rw [List.getElem?_eq_getElem hlt, List.getElem_idxOf]
    cases hx : a.unnamed[free.idxOf n]? with
    | some v => exact k2 _ _ _ hidx hx
    | none =>
      cases hy : Dict.get? (setNames a.unnamed a.named names).2 n with
      | none => rfl
      | some v =>
        exfalso
        rcases k3 n v hy with h' | ⟨i, h3, h4⟩
        · rw [hg] at h'; cases h'
        · have : free.idxOf n = i := by
            obtain ⟨hi, he⟩ := List.getElem?_eq_some_iff.1 h3
            rw [← he]
            exact List.Nodup.idxOf_getElem hnd i hi
          rw [this, h4] at hx
          cases hx

/-- What is left once the named parameters are taken away. -/
theorem unused_of (a : NodeArgs) {names : List Str} (hn : names.Nodup) {b : NodeArgs} (hu : b.unnamed = (a.setNames names).unnamed)
    (hm : ∀ k, Dict.get? b.named k = if k ∈ names then none else Dict.get? (a.setNames names).named k) (ht : b.tags = a.tags)
    (hi : b.internalTags = a.internalTags) (hs : b.subtype = a.subtype) : Unused a names b := by
  obtain ⟨k1, k2, k3, k4⟩ := C26_set_names a.unnamed a.named names hn
  have hff : names.filter (fun n => !Dict.has a.named n) = names.filter fun m => (Dict.get? a.named m).isNone := by
    apply List.filter_congr
    intro n _
    unfold Dict.has
    cases Dict.get? a.named n <;> rfl
  rw [hff] at k3 k4
  refine ⟨hu.trans k4, fun k => ?_, ht, hi, hs⟩
  rw [hm k]
  split
  · rfl
  · rename_i hk
    show Dict.get? (setNames a.unnamed a.named names).2 k = _
    cases hg : Dict.get? a.named k with
    | some v => exact k1 k v hg
    | none =>
      cases hy : Dict.get? (setNames a.unnamed a.named names).2 k with
      | none => rfl
      | some v =>
        exfalso
        rcases k3 k v hy with h' | ⟨i, h3, _⟩
        · rw [hg] at h'; cases h'
        · exact hk (List.mem_filter.1 (List.mem_of_getElem? h3)).1

/-- The line of an include is read by the step of the include. -/
theorem include_reads {P : Parser} (hP : Clean P) {s : DocSt} {ln col : Nat} {ty l : Str} {rest : List Str} {a : NodeArgs} (hl : IncludeLine P s ln col ty l a) :
    ∃ ctx : Context, ctx.source = P.src ∧ ctx.startLine = ln ∧ ctx.endLine = ln ∧ ctx.startColumn = col ∧
      Reads P ln col (l :: rest) s (P.includeStep s ty a ctx) (ln + 1) rest := by
  cases hl with
  | pending hl =>
    refine ⟨_, rfl, ?_, ?_, ?_, reads_include hP hl⟩ <;> simp [Context.merge, at_] <;> omega
  | own hl hb ha =>
    have := reads_include_args (rest := rest) (s := s) (ln := ln) (col := col) hP hl
    unfold Parser.includeInline at this
    rw [hb] at this
    dsimp only at this
    rw [ha] at this
    refine ⟨_, rfl, ?_, ?_, ?_, this⟩ <;> simp [Context.merge, at_] <;> omega

/-- What a node included by a line looks like, apart from its class, fields and children: its position is the line. -/
structure AtLine (P : Parser) (s : DocSt) (ln col : Nat) (n : Node) : Prop where
  source : n.ctx.source = P.src
  startLine : n.ctx.startLine = ln
  endLine : n.ctx.endLine = ln
  startColumn : n.ctx.startColumn = col
  labels : n.labels = s.labelBuf

theorem step_put {P : Parser} {s : DocSt} {ty : Str} {a : NodeArgs} {ctx : Context} {d : NodeData} {ns : List Node} {b : NodeArgs}
    (h : P.includeNodeStep { s with argsBuf := none } ty a ctx = .ok ((d, ns, b), { s with argsBuf := none })) (hc : s.controlBuf = none) :
    P.includeStep s ty a ctx = .ok { s with argsBuf := none, labelBuf := [], nodes := s.nodes ++ [Node.new d ctx ns b s.labelBuf] } := by
  unfold Parser.includeStep
  rw [h]
  show (Spec.allowed { s with argsBuf := none } >>= fun keep => _) = _
  unfold Spec.allowed
  dsimp only
  rw [hc]
  show Except.ok _ = Except.ok _
  cases s
  cases hc
  rfl

/-- C68: `<< image` gives an image node with the address, the description and the classes that are given. -/
theorem C68_image {P : Parser} (hP : Clean P) {s : DocSt} {ln col : Nat} {l uri : Str} {rest : List Str} {a : NodeArgs} (hl : IncludeLine P s ln col c%"image" l a)
    (hu : given a [c%"uri", c%"alt_text", c%"classes"] c%"uri" = some uri) (hne : uri ≠ []) (hc : s.controlBuf = none) :
    ∃ n cls, P.run ln col (l :: rest) s = P.run (ln + 1) 0 rest { s with argsBuf := none, labelBuf := [], nodes := s.nodes ++ [n] } ∧
      n.data = .includeImage uri (given a [c%"uri", c%"alt_text", c%"classes"] c%"alt_text") cls ∧ Classes (given a [c%"uri", c%"alt_text", c%"classes"] c%"classes") cls ∧
      n.content = [] ∧ Unused a [c%"uri", c%"alt_text", c%"classes"] n.args ∧ AtLine P s ln col n := by
  obtain ⟨ctx, c1, c2, c3, c4, hr⟩ := include_reads (rest := rest) hP hl
  have g : ∀ n ∈ [c%"uri", c%"alt_text", c%"classes"], Dict.get? (a.setNames [c%"uri", c%"alt_text", c%"classes"]).named n = given a [c%"uri", c%"alt_text", c%"classes"] n :=
    fun n hn => given_eq a (by decide) hn
  obtain ⟨b, hstep, hun⟩ : ∃ b, includeImage a ctx = .ok (.includeImage uri (given a [c%"uri", c%"alt_text", c%"classes"] c%"alt_text")
      (classesOf (given a [c%"uri", c%"alt_text", c%"classes"] c%"classes")), b) ∧ Unused a [c%"uri", c%"alt_text", c%"classes"] b := by
    unfold includeImage NodeArgs.pop
    dsimp only
    rw [g _ (by decide), truthy_some.2 ⟨hne, hu⟩]
    dsimp only
    rw [Dict.get?_erase, if_neg (by decide), g _ (by decide), Dict.get?_erase, if_neg (by decide), Dict.get?_erase, if_neg (by decide), g _ (by decide)]
    refine ⟨_, rfl, unused_of a (by decide) rfl (fun k => ?_) rfl rfl rfl⟩
    dsimp only
    rw [Dict.get?_erase, Dict.get?_erase, Dict.get?_erase]
    by_cases h1 : c%"uri" = k <;> by_cases h2 : c%"alt_text" = k <;> by_cases h3 : c%"classes" = k <;> simp [h1, h2, h3, @eq_comm _ k]
  refine ⟨_, _, hr.ok _ (step_put (b := b) ?_ hc), rfl, classes_spec _, rfl, hun, c1, c2, c3, c4, rfl⟩
  unfold Parser.includeNodeStep
  rw [if_pos rfl, hstep]
  rfl

/-- C68: `<< raw` gives a raw node with one line per line of the file, unchanged: joined they are the file. -/
theorem C68_raw {P : Parser} (hP : Clean P) {s : DocSt} {ln col : Nat} {l uri text : Str} {rest : List Str} {a : NodeArgs} (hl : IncludeLine P s ln col c%"raw" l a)
    (hu : given a [c%"uri"] c%"uri" = some uri) (hne : uri ≠ []) (hf : P.cfg.files uri = .ok text) (hc : s.controlBuf = none) :
    ∃ n ls, P.run ln col (l :: rest) s = P.run (ln + 1) 0 rest { s with argsBuf := none, labelBuf := [], nodes := s.nodes ++ [n] } ∧
      n.data = .includeRaw uri ∧ n.content.map (·.data) = ls.map NodeData.rawLine ∧ joinWith ['\n'] ls = text ∧ (∀ x ∈ ls, '\n' ∉ x) ∧ Unused a [c%"uri"] n.args ∧ AtLine P s ln col n := by
  obtain ⟨ctx, c1, c2, c3, c4, hr⟩ := include_reads (rest := rest) hP hl
  refine ⟨_, splitChar '\n' text, hr.ok _ (step_put (d := .includeRaw uri) (ns := (splitChar '\n' text).map fun l => Node.new (.rawLine l) ctx)
    (b := { a.setNames [c%"uri"] with named := Dict.erase (a.setNames [c%"uri"]).named c%"uri" }) ?_ hc),
    rfl, ?_, join_split _ _, fun _ h => sep_not_mem_of_mem_split h,
    unused_of a (by decide) rfl (fun k => ?_) rfl rfl rfl, c1, c2, c3, c4, rfl⟩
  · unfold Parser.includeNodeStep
    rw [if_neg (by decide), if_neg (by decide), if_pos rfl]
    unfold includeRaw NodeArgs.pop readFile
    dsimp only
    rw [given_eq a (by decide) (by decide), truthy_some.2 ⟨hne, hu⟩]
    dsimp only
    rw [hf]
    rfl
  · show List.map _ (List.map _ _) = _
    rw [List.map_map]
    rfl
  · show Dict.get? (Dict.erase _ _) k = _
    rw [Dict.get?_erase]
    by_cases h1 : c%"uri" = k <;> simp [h1, @eq_comm _ k]

/-- C68: an include of an unknown type gives a node with that type and all its arguments. -/
theorem C68_other {P : Parser} (hP : Clean P) {s : DocSt} {ln col : Nat} {l ty : Str} {rest : List Str} {a : NodeArgs} (hl : IncludeLine P s ln col ty l a)
    (ht : ty ∉ [c%"image", c%"mau", c%"raw", c%"toc", c%"footnotes", c%"blockgroup"]) (hc : s.controlBuf = none) :
    ∃ n, P.run ln col (l :: rest) s = P.run (ln + 1) 0 rest { s with argsBuf := none, labelBuf := [], nodes := s.nodes ++ [n] } ∧
      n.data = .include ty ∧ n.args = a ∧ n.content = [] ∧ AtLine P s ln col n := by
  obtain ⟨ctx, c1, c2, c3, c4, hr⟩ := include_reads (rest := rest) hP hl
  refine ⟨_, hr.ok _ (step_put (d := .include ty) (ns := []) (b := a) ?_ hc), rfl, rfl, rfl, c1, c2, c3, c4, rfl⟩
  simp only [List.mem_cons, List.not_mem_nil, or_false, not_or] at ht
  unfold Parser.includeNodeStep
  rw [if_neg ht.1, if_neg ht.2.1, if_neg ht.2.2.1, if_neg ht.2.2.2.1, if_neg ht.2.2.2.2.1, if_neg ht.2.2.2.2.2]

/-- C68: an include of a file (or image) without an address is a Mau error. -/
theorem C68_no_address {P : Parser} (hP : Clean P) {s : DocSt} {ln col : Nat} {l ty : Str} {names : List Str} {rest : List Str} {a : NodeArgs}
    (hl : IncludeLine P s ln col ty l a)
    (ht : (ty, names) ∈ [(c%"image", [c%"uri", c%"alt_text", c%"classes"]), (c%"raw", [c%"uri"]), (c%"mau", [c%"uri"])])
    (hu : given a names c%"uri" = none ∨ given a names c%"uri" = some []) (hlex : Lexes P.src (ln + 1) rest) :
    ∃ c, PointsAt P.src ln col c ∧ P.run ln col (l :: rest) s = .error (.parser (.text c%"Syntax error. You need to specify a URI.") (some c)) := by
  obtain ⟨ctx, c1, c2, c3, c4, hr⟩ := include_reads (rest := rest) hP hl
  refine ⟨ctx, ⟨c1, c2, c3, c4⟩, hr.err _ ?_ hlex⟩
  unfold Parser.includeStep Parser.includeNodeStep
  have hno : ∀ o : Option Str, o = none ∨ o = some [] → truthy o = none := by rintro _ (rfl | rfl) <;> rfl
  simp only [List.mem_cons, Prod.mk.injEq, List.not_mem_nil, or_false] at ht
  rcases ht with ⟨rfl, rfl⟩ | ⟨rfl, rfl⟩ | ⟨rfl, rfl⟩
  · rw [if_pos rfl]
    unfold includeImage NodeArgs.pop
    dsimp only
    rw [given_eq a (by decide) (by decide), hno _ hu]
    rfl
  · rw [if_neg (by decide), if_neg (by decide), if_pos rfl]
    unfold includeRaw NodeArgs.pop
    dsimp only
    rw [given_eq a (by decide) (by decide), hno _ hu]
    rfl
  · rw [if_neg (by decide), if_pos rfl]
    unfold Parser.includeMauStep
    dsimp only
    rw [given_eq a (by decide) (by decide), hno _ hu]
    rfl

/-- C68: an include of a file that does not exist is a Mau error. (A Mau file that may not be included is rejected before, `C49_rejected`.) -/
theorem C68_no_file {P : Parser} (hP : Clean P) {s : DocSt} {ln col : Nat} {l ty uri : Str} {rest : List Str} {a : NodeArgs}
    (hl : IncludeLine P s ln col ty l a) (ht : ty = c%"raw" ∨ (ty = c%"mau" ∧ some uri ≠ P.src ∧ some uri ∉ s.forbidden))
    (hu : given a [c%"uri"] c%"uri" = some uri) (hne : uri ≠ []) (hf : P.cfg.files uri = .error true) (hlex : Lexes P.src (ln + 1) rest) :
    ∃ c, PointsAt P.src ln col c ∧ P.run ln col (l :: rest) s = .error (.parser (.text (c%"File '" ++ uri ++ c%"' cannot be read.")) (some c)) := by
  obtain ⟨ctx, c1, c2, c3, c4, hr⟩ := include_reads (rest := rest) hP hl
  refine ⟨ctx, ⟨c1, c2, c3, c4⟩, hr.err _ ?_ hlex⟩
  unfold Parser.includeStep Parser.includeNodeStep
  rcases ht with rfl | ⟨rfl, h1, h2⟩
  · rw [if_neg (by decide), if_neg (by decide), if_pos rfl]
    unfold includeRaw NodeArgs.pop readFile
    dsimp only
    rw [given_eq a (by decide) (by decide), truthy_some.2 ⟨hne, hu⟩]
    dsimp only
    rw [hf]
    rfl
  · rw [if_neg (by decide), if_pos rfl]
    unfold Parser.includeMauStep readFile
    dsimp only
    rw [given_eq a (by decide) (by decide), truthy_some.2 ⟨hne, hu⟩]
    dsimp only
    rw [if_neg, hf]
    · rfl
    · simp only [List.contains_iff_mem, mem_addForbidden, c1]
      rintro (h | h)
      · exact h2 h
      · exact h1 h

/-- C68: arguments after the colon together with a line of arguments before are a Mau error. -/
theorem C68_both {P : Parser} (hP : Clean P) {s : DocSt} {ln col : Nat} {l ty sp v : Str} {rest : List Str} {b : NodeArgs}
    (hl : SpecialLine l [.tok .INCLUDE c%"<<", .skip sp, .tok .TEXT ty, .tok .LITERAL [':'], .tok .TEXT v]) (hb : s.argsBuf = some b)
    (hlex : Lexes P.src (ln + 1) rest) :
    ∃ c, PointsAt P.src ln col c ∧
      P.run ln col (l :: rest) s = .error (.parser (.text c%"Syntax error. You cannot specify both boxed and inline arguments.") (some c)) := by
  refine ⟨(at_ P.src ln col 2).merge (at_ P.src ln (col + 2 + sp.length) ty.length), ?_, (reads_include_args hP hl).err _ ?_ hlex⟩
  · refine ⟨rfl, ?_, ?_, ?_⟩ <;> simp only [Context.merge, at_] <;> omega
  unfold Parser.includeInline
  rw [hb]

/-- An image with an address, a description in the place of the second parameter, and two classes. -/
example : ∃ a, IncludeLine (parser {} 20 none) {} 0 0 c%"image" c%"<< image:a.png, \"a cat\", classes=\"x,y\"" a ∧
    given a [c%"uri", c%"alt_text", c%"classes"] c%"uri" = some c%"a.png" ∧ given a [c%"uri", c%"alt_text", c%"classes"] c%"alt_text" = some c%"a cat" ∧
    given a [c%"uri", c%"alt_text", c%"classes"] c%"classes" = some c%"x,y" ∧ Classes (some c%"x,y") [c%"x", c%"y"] := by
  obtain ⟨p, hp, h1, h2⟩ : ∃ p, processArgumentsWithVariables [] (tokAt .TEXT c%"a.png, \"a cat\", classes=\"x,y\"" 0 9 none) = .ok p ∧
      p.arguments.unnamed = [c%"a.png", c%"a cat"] ∧ p.arguments.named = [(c%"classes", c%"x,y")] := ⟨_, rfl, by decide, by decide⟩
  have hl : SpecialLine c%"<< image:a.png, \"a cat\", classes=\"x,y\""
      [.tok .INCLUDE c%"<<", .skip c%" ", .tok .TEXT c%"image", .tok .LITERAL [':'], .tok .TEXT c%"a.png, \"a cat\", classes=\"x,y\""] := by
    exact ⟨.incl c%" " c%"image" c%":a.png, \"a cat\", classes=\"x,y\"" _ (by unfold Spaces; decide) (by decide) (by decide) (by intro c r h; cases h; decide)
      (.colonText (by decide)), by unfold Spaces; decide, by intro ch h; simp at h⟩
  refine ⟨p.arguments, .own hl rfl hp, ?_, ?_, ?_, by unfold Classes; decide⟩ <;> unfold given <;> rw [h1, h2] <;> decide

/-- Documents: an included image, a raw file, and something unknown. -/
example : nodeKinds (parseDoc (exampleFiles [(c%"f", c%"a\n*b*\n")]) 20 c%"<< raw:f\n<< image:a.png\n<< thing\n") =
      some [.includeRaw c%"f", .includeImage c%"a.png" none [], .include c%"thing"] ∧
    failure (parseDoc {} 20 c%"<< raw:nofile\n") = some (.parser (.text c%"File 'nofile' cannot be read.") (some ⟨0, 0, 0, 6, none⟩)) ∧
    failure (parseDoc {} 20 c%"[a]\n<< image:b\n") = some (.parser (.text c%"Syntax error. You cannot specify both boxed and inline arguments.") (some ⟨1, 0, 1, 8, none⟩)) := by
  decide +kernel

end Mau
