import Verif.Lemmas.TextQuiet
import Verif.Props.Document

set_option linter.unusedSimpArgs false

/-!
# Property C58, whole documents: plain paragraphs

A document of plain paragraphs, from its text to its tree.
-/

namespace Mau
open Spec

theorem head_special {l : Str} {ps : List Piece} (h : LineForm l ps) : ∃ c r, l = c :: r ∧ c ∈ c%"/-@<:[.*#= " := by
  cases h with
  | comment r => exact ⟨_, _, rfl, by decide⟩
  | rule => exact ⟨_, _, rfl, by decide⟩
  | control op sp v => exact ⟨_, _, rfl, by decide⟩
  | incl sp ty t ps => exact ⟨_, _, rfl, by decide⟩
  | variable_ name t ps => exact ⟨_, _, rfl, by decide⟩
  | arguments a => exact ⟨_, _, rfl, by decide⟩
  | label role sp v => exact ⟨_, _, rfl, by decide⟩
  | list ind mark sp v h1 h2 h3 =>
    cases ind with
    | cons c r =>
      have := h1 c (by simp)
      subst this
      exact ⟨_, _, rfl, by decide⟩
    | nil =>
      cases mark with
      | nil => exact absurd rfl h2
      | cons c r =>
        have := h3 c (by simp)
        refine ⟨c, _, rfl, ?_⟩
        unfold isListChar at this
        simp at this
        rcases this with rfl | rfl <;> decide
  | header n sp v => exact ⟨'=', _, by rw [List.replicate_succ]; rfl, by decide⟩
  | headerSpace n sp => exact ⟨'=', _, by rw [List.replicate_succ]; rfl, by decide⟩
  | headerSign n => exact ⟨'=', _, by rw [List.replicate_succ]; rfl, by decide⟩

/-- A line whose first character starts none of the special forms is a text line. -/
theorem textLine_of_head {c : Char} {r : Str} (hc : c ∉ c%"/-@<:[.*#= ") (h4 : ∀ ch, c :: r ≠ [ch, ch, ch, ch]) : TextLine (c :: r) := by
  refine ⟨fun h => ?_, h4, fun ps h => ?_⟩
  · have := h c (by simp)
    subst this
    exact hc (by decide)
  · obtain ⟨d, r', e, hd⟩ := head_special h
    cases e
    exact hc hd

/-- A plain line: not empty, no special characters at all, no special first character, not four equal characters, no space at
the end. -/
structure PlainLine (l : Str) : Prop where
  first : ∃ c r, l = c :: r ∧ c ∉ c%"/-@<:[.*#= "
  notDelimiter : ∀ ch, l ≠ [ch, ch, ch, ch]
  last : l.getLast? ≠ some ' '
  inline : ∀ c ∈ l, c ∉ inlineSpecial
  pre : ∀ c ∈ l, c ≠ '{' ∧ c ≠ '}'
  newline : '\n' ∉ l

/-- The document tree of plain paragraphs. -/
def plainTree (paragraphs : List (List Str)) : List Node :=
  paragraphs.map fun ls => node .paragraph (ls.map fun l => node .paragraphLine [node (.text l)])

/-- The lines of plain paragraphs separated by empty lines. -/
def plainLines : List (List Str) → List Str
  | [] => []
  | [p] => p
  | p :: ps => p ++ [] :: plainLines ps

theorem PlainLine.text {l : Str} (h : PlainLine l) : TextLine l := by
  obtain ⟨c, r, rfl, hc⟩ := h.first
  exact textLine_of_head hc h.notDelimiter

theorem PlainLine.replaced {l : Str} (h : PlainLine l) (env : Env) : Replaced env l l := by
  intro line column source
  refine C17_no_special env l (fun c hc => ?_) h.newline line column source
  have h1 := h.inline c hc
  have h2 := h.pre c hc
  rintro (rfl | rfl | rfl | rfl)
  · exact h1 (by decide)
  · exact h1 (by decide)
  · exact h2.1 rfl
  · exact h2.2 rfl

theorem PlainLine.parses {l : Str} (h : PlainLine l) (env : Env) : ParsesTo env l [node (.text l)] := by
  have h1 := C28_plain_text env l h.inline h.newline
  obtain ⟨c, r, e, hc⟩ := h.first
  have hn : l ≠ [] := by rw [e]; simp
  have hb : ¬ isBlank l = true := by
    intro hb
    have := isBlank_iff.1 hb c (by rw [e]; simp)
    subst this
    exact hc (by decide)
  rw [if_neg hn, if_neg hb] at h1
  have ht : trimEnd l = l := by
    have := trimEnd_eq (s := l) (sp := []) (by intro c hc; cases hc) h.last
    rwa [List.append_nil] at this
  rwa [ht] at h1

/-- A plain line parses to one text node, and nothing else happens. -/
theorem PlainLine.inlined {l : Str} (h : PlainLine l) (s : DocSt) (ctx : Context) :
    ∃ N ms, anonList ms = [node (.text l)] ∧ ∀ P : Parser, N ≤ P.fuel → P.inline s l ctx = .ok (ms, s) := by
  have hi : Inlines s.env l [node (.text l)] := by
    intro line column source
    obtain ⟨tok, h1, h2⟩ := map_ok (h.replaced s.env line column source)
    exact ⟨tok, h1, by rw [← h2]; exact h.parses _⟩
  obtain ⟨N, ms, s', h1, h2⟩ := inline_of_inlines hi ctx
  refine ⟨N, ms, h1, fun P hP => ?_⟩
  have h3 := h2 P hP
  rw [h3]
  suffices s' = s by rw [this]
  unfold Parser.inline docText at h3
  obtain ⟨tok, h4, h5⟩ := map_ok (h.replaced s.env ctx.startLine ctx.startColumn ctx.source)
  unfold preprocess at h4
  cases hq : preprocessNodes s.env l ctx.startLine ctx.startColumn ctx.source with
  | error e => rw [hq] at h4; cases h4
  | ok ps =>
    rw [hq] at h4 h3
    cases h4
    cases ps with
    | nil => cases h3; rfl
    | cons p ps =>
      dsimp only at h3
      cases hr : parseText P.fuel s.env (processedText (p :: ps)).value ctx.startLine ctx.startColumn ctx.source s.uid with
      | error e => rw [hr] at h3; cases e <;> cases h3
      | ok r =>
        rw [hr] at h3
        rw [← h5] at hr
        obtain ⟨q1, q2, q3, q4⟩ := parseText_quiet (fun hb => h.inline _ hb (by decide)) hr
        cases h3
        rw [q1, q2, q3, q4]
        simp

theorem plain_inlineLines (src : Option Str) {ls : List Str} (h : ∀ l ∈ ls, PlainLine l) (s : DocSt) : ∀ (ln col : Nat),
    ∃ N ms, anonList ms = (ls.map fun l => node .paragraphLine [node (.text l)]) ∧ ∀ P : Parser, P.src = src → N ≤ P.fuel →
      P.inlineLines s (textToks P.src ln col ls) = .ok (ms, s) := by
  induction ls with
  | nil => intro ln col; exact ⟨0, [], rfl, fun P _ _ => rfl⟩
  | cons l ls ih =>
    intro ln col
    obtain ⟨N, ms, a1, hN⟩ := (h l (by simp)).inlined s (at_ src ln col l.length)
    obtain ⟨M, ms', a2, hM⟩ := ih (fun x hx => h x (by simp [hx])) (ln + 1) 0
    refine ⟨max N M, Node.new .paragraphLine (at_ src ln col l.length) ms :: ms', ?_, fun P hsrc hP => ?_⟩
    · simp only [List.map_cons, anonList]
      rw [a2]
      simp only [Node.new, Node.anon, node, a1, NodeData.anon, anonList]
    · subst hsrc
      have e1 := hN P (by omega)
      have e2 := hM P rfl (by omega)
      rw [textToks, Parser.inlineLines]
      change (P.inline s l (at_ P.src ln col l.length)).bind _ = _
      rw [e1]
      change Except.bind (Parser.inlineLines P s (textToks P.src (ln + 1) 0 ls)) _ = _
      rw [e2]
      rfl

/-- Nothing is pending. -/
def Idle (s : DocSt) : Prop := s.argsBuf = none ∧ s.labelBuf = [] ∧ s.controlBuf = none

/-- One plain paragraph. -/
theorem plain_paragraph (src : Option Str) {ls rest : List Str} (h : ∀ l ∈ ls, PlainLine l) (hne : ls ≠ []) (hr : NoText rest) (s : DocSt)
    (hs : Idle s) (ln col : Nat) :
    ∃ N n, n.anon = node .paragraph (ls.map fun l => node .paragraphLine [node (.text l)]) ∧
      ∀ P : Parser, P.src = src → N ≤ P.fuel →
        P.run ln col (ls ++ rest) s = P.run (ln + ls.length) 0 rest { s with nodes := s.nodes ++ [n] } := by
  obtain ⟨i1, i2, i3⟩ := hs
  obtain ⟨N, ms, a1, hN⟩ := plain_inlineLines src h s ln col
  have hms : ms ≠ [] := by
    rintro rfl
    cases ls with
    | nil => exact hne rfl
    | cons _ _ => cases a1
  obtain ⟨ctx, hctx⟩ : ∃ ctx, spanOf ms = .ok ctx := by
    unfold spanOf
    cases ms with
    | nil => exact absurd rfl hms
    | cons n ns => rw [List.head?_cons, List.getLast?_cons]; exact ⟨_, rfl⟩
  refine ⟨N, Node.new .paragraph ctx ms, ?_, fun P hsrc hP => ?_⟩
  · simp only [Node.new, Node.anon, node, a1, NodeData.anon, anonList]
  · refine (reads_paragraph (P := P) (ln := ln) (col := col) (s := s) (fun l hl => (h l hl).text) hne hr).ok _ ?_
    unfold Parser.paragraphStep
    rw [hN P hsrc hP]
    simp only [Bind.bind, Except.bind]
    rw [hctx]
    dsimp only
    unfold Spec.allowed Spec.args
    rw [i1, i2, i3]
    rfl

theorem run_end {P : Parser} {ln col : Nat} {s : DocSt} : P.run ln col [] s = .ok (start s) := by
  rw [run_eq, docTokens]
  exact runToks_eof _ _ _ _ _ _ rfl

theorem anonList_append' (a b : List Node) : anonList (a ++ b) = anonList a ++ anonList b := by
  induction a with
  | nil => rfl
  | cons x a ih => simp only [List.cons_append, anonList, ih]

theorem plain_run (src : Option Str) {ps : List (List Str)} (h : ∀ p ∈ ps, p ≠ [] ∧ ∀ l ∈ p, PlainLine l) : ∀ (s : DocSt) (_ : Idle s) (ln col : Nat),
    ∃ N ns, anonList ns = plainTree ps ∧ ∀ P : Parser, P.src = src → N ≤ P.fuel →
      P.run ln col (plainLines ps) s = .ok (start { s with nodes := s.nodes ++ ns }) := by
  induction ps with
  | nil =>
    intro s _ ln col
    refine ⟨0, [], rfl, fun P _ _ => ?_⟩
    rw [plainLines, run_end, List.append_nil]
  | cons p ps ih =>
    intro s hs ln col
    obtain ⟨hp1, hp2⟩ := h p (by simp)
    cases ps with
    | nil =>
      obtain ⟨N, n, a1, hN⟩ := plain_paragraph src hp2 hp1 .nil s hs ln col
      refine ⟨N, [n], ?_, fun P hsrc hP => ?_⟩
      · simp only [anonList, a1, plainTree, List.map_cons, List.map_nil]
      · have := hN P hsrc hP
        rw [List.append_nil] at this
        rw [plainLines, this, run_end]
    | cons q qs =>
      obtain ⟨N, n, a1, hN⟩ := plain_paragraph src hp2 hp1 (rest := [] :: plainLines (q :: qs)) (.blank (by intro c hc; cases hc)) s hs ln col
      obtain ⟨M, ns, a2, hM⟩ := ih (fun x hx => h x (by simp [hx])) { s with nodes := s.nodes ++ [n] } hs (ln + p.length + 1) 0
      refine ⟨max N M, n :: ns, ?_, fun P hsrc hP => ?_⟩
      · simp only [anonList, a1, a2]
        rfl
      · have e1 := hN P hsrc (by omega)
        have e2 := hM P hsrc (by omega)
        rw [plainLines, e1, run_blank (by intro c hc; cases hc), e2]
        · simp
        · simp

theorem splitChar_lines {ls : List Str} (hne : ls ≠ []) (h : ∀ l ∈ ls, '\n' ∉ l) : splitChar '\n' (joinWith ['\n'] ls) = ls := by
  induction ls with
  | nil => exact absurd rfl hne
  | cons l ls ih =>
    cases ls with
    | nil => exact splitChar_of_not_mem (h l (by simp))
    | cons m ms =>
      rw [joinWith_cons_of_ne (by simp), List.append_assoc]
      rw [List.singleton_append, splitChar_append_sep (h l (by simp)), ih (by simp) (fun x hx => h x (by simp [hx]))]

/-- C58: a whole document of plain paragraphs separated by empty lines, in any environment: parsing it succeeds, for every large
enough recursion budget, and gives exactly these paragraphs, with their lines, in order, and nothing else. -/
theorem C58_document (cfg : Config) {env : Env} (hu : Usual (initEnv env)) (source : Option Str) {ps : List (List Str)} (hne : ps ≠ [])
    (h : ∀ p ∈ ps, p ≠ [] ∧ ∀ l ∈ p, PlainLine l) :
    ∃ N, ∀ fuel ≥ N, ∃ s, parseDoc cfg fuel (joinWith ['\n'] (plainLines ps)) env source = .ok s ∧ anonList s.nodes = plainTree ps := by
  have hnl : plainLines ps ≠ [] ∧ ∀ l ∈ plainLines ps, '\n' ∉ l := by
    clear source hu env cfg
    induction ps with
    | nil => exact absurd rfl hne
    | cons p ps ih =>
      obtain ⟨hp1, hp2⟩ := h p (by simp)
      cases ps with
      | nil => exact ⟨hp1, fun l hl => (hp2 l hl).newline⟩
      | cons q qs =>
        obtain ⟨i1, i2⟩ := ih (by simp) (fun x hx => h x (by simp [hx]))
        refine ⟨?_, fun l hl => ?_⟩
        · cases p with
          | nil => exact absurd rfl hp1
          | cons a b => simp [plainLines]
        · rw [plainLines] at hl
          · rcases List.mem_append.1 hl with hl | hl
            · exact (hp2 l hl).newline
            · rcases List.mem_cons.1 hl with rfl | hl
              · simp
              · exact i2 l hl
          · simp
  let req : NestedReq := ⟨joinWith ['\n'] (plainLines ps), env, 0, 0, source, [], 1, []⟩
  obtain ⟨N, ns, a1, hN⟩ := plain_run source h (initial req) ⟨rfl, rfl, rfl⟩ 0 0
  refine ⟨N + 1, fun fuel hf => ?_⟩
  obtain ⟨n, rfl⟩ : ∃ n, fuel = n + 1 := ⟨fuel - 1, by omega⟩
  have e := parseDocument_run cfg n req (parserObjects_ok.2 hu)
  rw [show req.text = joinWith ['\n'] (plainLines ps) from rfl, splitChar_lines hnl.1 hnl.2, show req.startLine = 0 from rfl,
    show req.startColumn = 0 from rfl, hN (parser cfg n req.source) rfl (by change N ≤ n; omega)] at e
  change _ = finalise cfg (start { initial req with nodes := [] ++ ns }) at e
  have hfin : finalise cfg (start { initial req with nodes := [] ++ ns }) = .ok (start { initial req with nodes := [] ++ ns }) := by
    rfl
  rw [hfin] at e
  obtain ⟨s, h1, h2⟩ := map_ok e
  refine ⟨s, h1, ?_⟩
  have : s.nodes = ns := by
    have h3 := congrArg DocSt.nodes h2
    exact h3.symm
  rw [this, a1]

/-- The variables of most documents are usual. -/
example : Usual (initEnv []) ∧ Usual (initEnv [(c%"title", .str c%"x"), (c%"mau.visitor.format", .str c%"html")]) :=
  ⟨parserObjects_ok.1 (by decide +kernel), parserObjects_ok.1 (by decide +kernel)⟩

/-- Concrete plain paragraphs. -/
example : ∀ p ∈ [[c%"One line.", c%"Another; line"], [c%"Last"]], p ≠ [] ∧ ∀ l ∈ p, PlainLine l := by
  have key : ∀ c r, c ∉ c%"/-@<:[.*#= " → (c :: r).length ≠ 4 → (c :: r).getLast? ≠ some ' ' → (∀ x ∈ c :: r, x ∉ inlineSpecial) →
      (∀ x ∈ c :: r, x ≠ '{' ∧ x ≠ '}') → '\n' ∉ c :: r → PlainLine (c :: r) :=
    fun c r h1 h2 h3 h4 h5 h6 => ⟨⟨c, r, rfl, h1⟩, fun ch e => h2 (by rw [e]; rfl), h3, h4, h5, h6⟩
  intro p hp
  simp only [List.mem_cons, List.mem_nil_iff, or_false] at hp
  rcases hp with rfl | rfl
  · refine ⟨by simp, fun l hl => ?_⟩
    simp only [List.mem_cons, List.mem_nil_iff, or_false] at hl
    rcases hl with rfl | rfl
    · exact key _ _ (by decide) (by decide) (by decide) (by decide) (by decide) (by decide)
    · exact key _ _ (by decide) (by decide) (by decide) (by decide) (by decide) (by decide)
  · refine ⟨by simp, fun l hl => ?_⟩
    simp only [List.mem_cons, List.mem_nil_iff, or_false] at hl
    subst hl
    refine ⟨⟨'L', c%"ast", rfl, by decide⟩, fun ch e => ?_, by decide, by decide, by decide, by decide⟩
    simp at e
    obtain ⟨rfl, e, _⟩ := e
    exact absurd e (by decide)

end Mau
