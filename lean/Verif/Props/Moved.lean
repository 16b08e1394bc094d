import Verif.Lemmas.TwinDoc
import Verif.Lemmas.DocLink
import Verif.Lemmas.DocCompose
import Verif.Lemmas.DocLines

set_option linter.unusedSimpArgs false
set_option linter.unusedVariables false

/-!
# C78: a text means the same wherever it stands
-/

namespace Mau
open Spec

theorem Spec.Positionless.blind {cfg : Config} (h : Positionless cfg) : Blind cfg :=
  ⟨fun n n' e => by rw [← h.header n, ← h.header n', show Node.adrift n = Node.adrift n' from e],
   fun n n' e => by rw [← h.footnote n, ← h.footnote n', show Node.adrift n = Node.adrift n' from e]⟩

theorem output_twin {s s' : DocSt} (h : DocTwin s s') : DocOutput.adrift s.output = DocOutput.adrift s'.output := by
  have h1 : s.output.document.map Node.adrift = s'.output.document.map Node.adrift := by
    unfold DocSt.output
    dsimp only
    have := both_spanOf h.nodes
    generalize spanOf s.nodes = x at this
    generalize spanOf s'.nodes = y at this
    cases x <;> cases y
    · rfl
    · exact this.elim
    · exact this.elim
    · exact congrArg some (likeNode_new .document this h.nodes {} (show LikeLabels [] [] from rfl))
  have h2 : s.output.toc = s'.output.toc := by
    unfold DocSt.output
    dsimp only
    rw [h.nodes.isEmpty, h.tocHeaders]
  have h3 : s.output.includeCalls.map IncludeCall.adrift = s'.output.includeCalls.map IncludeCall.adrift := h.includeCalls
  have h4 : adriftList s.output.objs = adriftList s'.output.objs := h.objs
  have h5 : s.output.env = s'.output.env := h.env
  unfold DocOutput.adrift
  rw [h1, h2, h3, h4, h5]

theorem meaning_twin {x y : Except Err DocSt} (h : Both DocTwin x y) : meaningOf x = meaningOf y := by
  cases x <;> cases y
  · exact congrArg Except.error h
  · exact h.elim
  · exact h.elim
  · exact congrArg Except.ok (output_twin h)

/-- C78: a document — a file, or the content of a block — that starts at one line and column means what it means at any other: the parser returns the same
document, table of contents, includes, headers and footnotes (which differ in line and column numbers only) and the same variables, or fails with the same
error at another position. -/
theorem C78_document {cfg : Config} (hc : Positionless cfg) (fuel : Nat) (text : Str) (env : Env) (line column line' column' : Nat) (source : Option Str)
    (forbidden : List (Option Str)) (uid : Nat) (objs : List Node) :
    meaningOf (parseDocument cfg fuel ⟨text, env, line, column, source, forbidden, uid, objs⟩) =
      meaningOf (parseDocument cfg fuel ⟨text, env, line', column', source, forbidden, uid, objs⟩) :=
  meaning_twin (both_parseDocument hc.blind fuel text env line column line' column' source forbidden uid objs objs rfl)

/-- C78 for inline text. -/
theorem C78_text (fuel : Nat) (env : Env) (text : Str) (line column line' column' : Nat) (source : Option Str) (uid : Nat) :
    meaningOfText (parseText fuel env text line column source uid) = meaningOfText (parseText fuel env text line' column' source uid) := by
  have h := both_parseText fuel env text line column line' column' source uid
  generalize parseText fuel env text line column source uid = x at h
  generalize parseText fuel env text line' column' source uid = y at h
  cases x <;> cases y
  · exact congrArg Except.error h
  · exact h.elim
  · exact h.elim
  · have hr : LikeResult _ _ := h
    simp only [meaningOfText, show adriftList _ = adriftList _ from hr.nodes, hr.footnotes, hr.links]

/-- C78 for arguments. -/
theorem C78_arguments (env : Env) (text : Str) (line column line' column' : Nat) (source : Option Str) :
    meaningOfArguments (parseArgs env text line column source) = meaningOfArguments (parseArgs env text line' column' source) := by
  have h := both_parseArgs env text line column line' column' source
  generalize parseArgs env text line column source = x at h
  generalize parseArgs env text line' column' source = y at h
  cases x <;> cases y
  · exact congrArg Except.error h
  · exact h.elim
  · exact h.elim
  · exact congrArg Except.ok (LikeArgs.arguments h)

/-! ## Lines that say nothing -/

theorem run_nothing {P : Parser} {m : List Str} (h : SaysNothing m) : ∀ (ln col : Nat) (q : List Str) (s : DocSt), ∃ ln' col', P.run ln col (m ++ q) s = P.run ln' col' q s := by
  induction h with
  | nil => exact fun ln col q s => ⟨ln, col, rfl⟩
  | blank h hr ih =>
    intro ln col q s
    obtain ⟨l, c, e⟩ := ih (ln + 1) 0 q s
    exact ⟨l, c, (run_blank h).trans e⟩
  | @comment r rest h hn hr ih =>
    intro ln col q s
    obtain ⟨l, c, e⟩ := ih (ln + 1) 0 q s
    refine ⟨l, c, (run_comment ⟨.comment r, ?_, ?_⟩).trans e⟩
    · intro hs
      exact absurd (hs '/' (by simp)) (by decide)
    · intro ch e
      injection e with e1 e2
      injection e2 with e2 e3
      subst e1
      exact h e3
  | @comments cs rest h hn hr ih =>
    intro ln col q s
    obtain ⟨l, c, e⟩ := ih (ln + cs.length + 2) 0 q s
    refine ⟨l, c, ?_⟩
    rw [← e]
    have := run_comments (P := P) (ln := ln) (col := col) (rest := rest ++ q) (s := s) h
    simpa using this

theorem nothing_no_newline {m : List Str} (h : SaysNothing m) : ∀ l ∈ m, '\n' ∉ l := by
  induction h with
  | nil => exact fun _ h => by cases h
  | blank h hr ih =>
    intro l hl
    rcases List.mem_cons.1 hl with rfl | hl
    · exact fun hc => absurd (h _ hc) (by decide)
    · exact ih l hl
  | comment h hn hr ih =>
    intro l hl
    rcases List.mem_cons.1 hl with rfl | hl
    · simp only [List.mem_cons, not_or]
      exact ⟨by decide, by decide, hn⟩
    · exact ih l hl
  | comments h hn hr ih =>
    intro l hl
    rcases List.mem_cons.1 hl with rfl | hl
    · decide
    · rcases List.mem_append.1 hl with hl | hl
      · exact hn l hl
      · rcases List.mem_cons.1 hl with rfl | hl
        · decide
        · exact ih l hl

theorem split_ended {m : List Str} (h : ∀ l ∈ m, '\n' ∉ l) (text : Str) : splitChar '\n' (ended m ++ text) = m ++ splitChar '\n' text := by
  induction m with
  | nil => rfl
  | cons l m ih =>
    have e : ended (l :: m) ++ text = l ++ '\n' :: (ended m ++ text) := by simp [ended]
    rw [e, splitChar_append_sep (h l (by simp)), ih fun x hx => h x (by simp [hx])]
    rfl

theorem both_docTokens (src : Option Str) (ls : List Str) (l c l' c' : Nat) : Both Twins (docTokens src l c ls) (docTokens src l' c' ls) := by
  have h := docTokens_shift src l c ls 0 0
  have h' := docTokens_shift src l' c' ls 0 0
  simp only [Nat.zero_add, if_true] at h h'
  rw [h, h']
  cases docTokens src 0 0 ls with
  | ok ts => exact twins_shift ts l c l' c'
  | error e => cases e <;> exact rfl

theorem both_run {P : Parser} (hn : NestedTwin P.nested) (ln col ln' col' : Nat) (ls : List Str) {s s' : DocSt} (h : DocTwin s s') :
    Both DocTwin (P.run ln col ls s) (P.run ln' col' ls s') := by
  unfold Parser.run
  have ht := both_docTokens P.src ls ln col ln' col'
  generalize docTokens P.src ln col ls = x at ht
  generalize docTokens P.src ln' col' ls = y at ht
  cases x <;> cases y
  · exact ht
  · exact ht.elim
  · exact ht.elim
  · rename_i ts ts'
    have hts : Twins ts ts' := ht
    dsimp only
    rw [← hts.length]
    have hs : DocTwin (start s) (start s') := { h with next := rfl }
    exact (both_docLoop hts P.cfg hn P.fuel (ts.length + 2) initialLast initialLast _ _ (.inl ⟨rfl, rfl⟩) hs).map fun a b hab => { hab with next := rfl }

theorem meaning_start (r : Except Err DocSt) : meaningOf (r.map start) = meaningOf r := by
  cases r <;> rfl

/-- Reading two texts whose lines do the same. -/
theorem meaning_of_run {cfg : Config} (hc : Positionless cfg) {n : Nat} {req req' : NestedReq} (he : req.env = req'.env) (hs : req.source = req'.source)
    (hl : Both (fun _ _ => True) (docTokens req.source req.startLine req.startColumn (splitChar '\n' req.text))
      (docTokens req'.source req'.startLine req'.startColumn (splitChar '\n' req'.text)))
    (h : Both DocTwin ((parser cfg n req.source).run req.startLine req.startColumn (splitChar '\n' req.text) (initial req))
      ((parser cfg n req'.source).run req'.startLine req'.startColumn (splitChar '\n' req'.text) (initial req'))) :
    meaningOf (parseDocument cfg (n + 1) req) = meaningOf (parseDocument cfg (n + 1) req') := by
  cases hk : parserObjects (initEnv req.env) with
  | ok u =>
    cases u
    rw [← meaning_start (parseDocument cfg (n + 1) req), ← meaning_start (parseDocument cfg (n + 1) req'), parseDocument_run cfg n req hk,
      parseDocument_run cfg n req' (he ▸ hk)]
    exact meaning_twin (h.bind fun a b hab => both_finalise hc.blind hab)
  | error e =>
    have hk' : parserObjects (initEnv req'.env) = .error e := he ▸ hk
    rw [parseDocument, parseDocument, lexDocument_split, lexDocument_split]
    generalize docTokens req.source req.startLine req.startColumn (splitChar '\n' req.text) = x at hl
    generalize docTokens req'.source req'.startLine req'.startColumn (splitChar '\n' req'.text) = y at hl
    cases x <;> cases y
    · exact congrArg Except.error hl
    · exact hl.elim
    · exact hl.elim
    · dsimp only
      rw [hk, hk']

/-- Lines that say nothing do not break the lexer. -/
theorem nothing_lexes {src : Option Str} {m : List Str} (h : SaysNothing m) : ∀ (ln col ln' col' : Nat) (q : List Str), q ≠ [] →
    Both (fun _ _ => True) (docTokens src ln col (m ++ q)) (docTokens src ln' col' q) := by
  have step : ∀ {x y : Except Err (List Token)} {f : List Token → List Token}, Both (fun _ _ => True) x y → Both (fun _ _ => True) (x.map f) y := by
    intro x y f h
    cases x <;> cases y <;> exact h
  induction h with
  | nil => exact fun ln col ln' col' q hq => (both_docTokens src q ln col ln' col').mono fun _ _ _ => trivial
  | @blank l rest h hr ih =>
    intro ln col ln' col' q hq
    rcases docTokens_blank_line (src := src) (ln := ln) (col := col) (l := l) (rest := rest ++ q) h with ⟨_, e, _⟩ | e
    · exact absurd (List.append_eq_nil_iff.1 e).2 hq
    · rw [List.cons_append, e]
      exact step (ih _ _ _ _ _ hq)
  | @comment r rest h hn hr ih =>
    intro ln col ln' col' q hq
    rw [List.cons_append, docTokens_special (ps := _) ⟨.comment r, ?_, ?_⟩]
    · exact step (ih _ _ _ _ _ hq)
    · intro hs
      exact absurd (hs '/' (by simp)) (by decide)
    · intro ch e
      injection e with e1 e2
      injection e2 with e2 e3
      subst e1
      exact h e3
  | @comments cs rest h hn hr ih =>
    intro ln col ln' col' q hq
    have := docTokens_comment (src := src) (ln := ln) (col := col) (rest := rest ++ q) h
    rw [show c%"////" :: (cs ++ c%"////" :: rest) ++ q = c%"////" :: (cs ++ c%"////" :: (rest ++ q)) by simp, this]
    exact ih _ _ _ _ _ hq

theorem DocTwin.refl (s : DocSt) : DocTwin s s :=
  ⟨rfl, rfl, rfl, rfl, rfl, rfl, by
    cases s.controlBuf with
    | none => exact .inl ⟨rfl, rfl⟩
    | some c => exact .inr ⟨c, c, rfl, rfl, rfl, rfl, rfl, rfl⟩, rfl, rfl, rfl, rfl, rfl, rfl, rfl, rfl, rfl, rfl, rfl, rfl, rfl, rfl⟩

/-- C78: blank lines and comments in front of a document change nothing but line numbers. -/
theorem C78_blank_lines {cfg : Config} (hc : Positionless cfg) (fuel : Nat) {m : List Str} (hm : SaysNothing m) (text : Str) (env : Env) (line column : Nat)
    (source : Option Str) (forbidden : List (Option Str)) (uid : Nat) (objs : List Node) :
    meaningOf (parseDocument cfg fuel ⟨ended m ++ text, env, line, column, source, forbidden, uid, objs⟩) =
      meaningOf (parseDocument cfg fuel ⟨text, env, line, column, source, forbidden, uid, objs⟩) := by
  cases fuel with
  | zero => rfl
  | succ n =>
    have hs := split_ended (nothing_no_newline hm) text
    refine meaning_of_run hc rfl rfl ?_ ?_
    · dsimp only
      rw [hs]
      exact nothing_lexes hm _ _ _ _ _ (splitChar_ne_nil _ _)
    · dsimp only
      rw [hs]
      obtain ⟨l, c, e⟩ := run_nothing (P := parser cfg n source) hm line column (splitChar '\n' text) (initial ⟨ended m ++ text, env, line, column, source, forbidden, uid, objs⟩)
      rw [e]
      exact both_run (both_parseDocument hc.blind n) _ _ _ _ _ (DocTwin.refl _)

theorem ended_append (a b : List Str) : ended (a ++ b) = ended a ++ ended b := by
  simp [ended]

/-- C78: more blank lines, and comments, at a blank line inside a document change nothing but line numbers. `p` are the lines before the blank line; they can
be read on their own. -/
theorem C78_more_space {cfg : Config} (hc : Positionless cfg) (n : Nat) {p m : List Str} (hp : ∀ l ∈ p, '\n' ∉ l) (hm : SaysNothing m) (text : Str) (env : Env)
    (line column : Nat) (source : Option Str) (forbidden : List (Option Str)) (uid : Nat) (objs : List Node)
    (h : ∃ s, (parser cfg n source).run line column (p ++ [[]]) (initial ⟨text, env, line, column, source, forbidden, uid, objs⟩) = .ok s) :
    meaningOf (parseDocument cfg (n + 1) ⟨ended (p ++ [] :: m) ++ text, env, line, column, source, forbidden, uid, objs⟩) =
      meaningOf (parseDocument cfg (n + 1) ⟨ended (p ++ [[]]) ++ text, env, line, column, source, forbidden, uid, objs⟩) := by
  obtain ⟨s1, h1⟩ := h
  have hpm : ∀ l ∈ p ++ [] :: m, '\n' ∉ l := by
    intro l hl
    rcases List.mem_append.1 hl with hl | hl
    · exact hp l hl
    · rcases List.mem_cons.1 hl with rfl | hl
      · exact fun h => by cases h
      · exact nothing_no_newline hm l hl
  have hp1 : ∀ l ∈ p ++ [[]], '\n' ∉ l := fun l hl => hpm l (by
    rcases List.mem_append.1 hl with hl | hl
    · exact List.mem_append_left _ hl
    · exact List.mem_append_right _ (List.mem_cons.2 (.inl (List.mem_singleton.1 hl))))
  have e1 : splitChar '\n' (ended (p ++ [] :: m) ++ text) = p ++ [] :: (m ++ splitChar '\n' text) := by
    rw [split_ended hpm]; simp
  have e2 : splitChar '\n' (ended (p ++ [[]]) ++ text) = p ++ [] :: splitChar '\n' text := by
    rw [split_ended hp1]; simp
  refine meaning_of_run hc rfl rfl ?_ ?_
  · dsimp only
    rw [e1, e2]
    have h2 := h1
    rw [run_eq] at h2
    cases ht : docTokens source line column (p ++ [[]]) with
    | error e =>
      change (docTokens source line column (p ++ [[]])).bind _ = _ at h2
      rw [ht] at h2
      cases h2
    | ok ts =>
      obtain ⟨init, eof, _, _, _, hap⟩ := docTokens_append source _ line column p rfl ts ht
      rw [hap _ (by simp), hap _ (by simp)]
      have hb : SaysNothing ([] :: m) := .blank (fun _ h => by cases h) hm
      have hb' : SaysNothing [[]] := .blank (fun _ h => by cases h) .nil
      have g1 := nothing_lexes (src := source) hb (line + p.length) (if p = [] then column else 0) 0 0 (splitChar '\n' text) (splitChar_ne_nil _ _)
      have g2 := nothing_lexes (src := source) hb' (line + p.length) (if p = [] then column else 0) 0 0 (splitChar '\n' text) (splitChar_ne_nil _ _)
      simp only [List.cons_append, List.nil_append] at g1 g2
      generalize docTokens source 0 0 (splitChar '\n' text) = z at g1 g2
      generalize docTokens source _ _ ([] :: (m ++ splitChar '\n' text)) = x at g1
      generalize docTokens source _ _ ([] :: splitChar '\n' text) = y at g2
      cases x <;> cases y <;> cases z <;> first | exact trivial | exact g1.elim | exact g2.elim | exact Eq.trans g1 (Eq.symm g2)
  · dsimp only
    rw [e1, e2]
    have g1 := run_append (q := m ++ splitChar '\n' text) h1
    have g2 := run_append (q := splitChar '\n' text) h1
    rw [show initial ⟨ended (p ++ [] :: m) ++ text, env, line, column, source, forbidden, uid, objs⟩ = initial ⟨text, env, line, column, source, forbidden, uid, objs⟩ from rfl,
      show initial ⟨ended (p ++ [[]]) ++ text, env, line, column, source, forbidden, uid, objs⟩ = initial ⟨text, env, line, column, source, forbidden, uid, objs⟩ from rfl,
      g1, g2]
    obtain ⟨l, c, e⟩ := run_nothing (P := parser cfg n source) hm (line + p.length + 1) 0 (splitChar '\n' text) s1
    rw [e]
    exact both_run (both_parseDocument hc.blind n) _ _ _ _ _ (DocTwin.refl _)

/-! ## The functions that make identities -/

mutual
theorem extractNode_adrift : ∀ n : Node, extractNode (Node.adrift n) = extractNode n
  | .mk d a c cs ls ex => by
    simp only [Node.adrift, extractNode, extractText_adrift cs]
theorem extractText_adrift : ∀ ns : List Node, extractText (adriftList ns) = extractText ns
  | [] => rfl
  | n :: ns => by simp only [adriftList, extractText, extractNode_adrift n, extractText_adrift ns]
end

/-- Mau's own function for the identities of headers. -/
theorem C78_default_ids (lower md5 : Str → Str) (files : Str → Except Bool Str) : Positionless { files := files, headerId := defaultHeaderId lower md5 } := by
  refine ⟨fun n => ?_, fun n => ?_⟩
  · cases n with
    | mk d a c cs ls ex =>
      simp only [Node.adrift, defaultHeaderId, Node.data, Node.content, extractText_adrift]
  · cases n
    rfl

/-! ## Examples -/

/-- Without a hash: what matters is the text of the header. -/
def plainIds : Config := { headerId := defaultHeaderId id id }

example : Positionless plainIds := C78_default_ids id id _

example : SaysNothing [c%"", c%"// note", c%"  ", c%"////", c%"one", c%"", c%"////"] :=
  .blank (by decide) (.comment (by decide) (by decide) (.blank (by decide) (.comments (cs := [c%"one", c%""]) (by decide) (by decide) .nil)))


/-- The lines where the nodes of the document start. -/
def startingLines (r : Except Err DocSt) : Option (List Nat) :=
  match r with
  | .ok s => some (s.nodes.map fun n => n.ctx.startLine)
  | .error _ => none

/-- A document of a header, a list and a block. -/
def aDocument : Str := c%"= One _two_\n\n* a\n** b[link](c)\n\n----\ntext\n----\n"

example : startingLines (parseDocument plainIds 20 ⟨aDocument, [], 0, 0, none, [], 1, []⟩) = some [0, 2, 5] := by decide +kernel

example : startingLines (parseDocument plainIds 20 ⟨ended [c%"", c%"// note"] ++ aDocument, [], 0, 0, none, [], 1, []⟩) = some [2, 4, 7] := by decide +kernel

example : startingLines (parseDocument plainIds 20 ⟨aDocument, [], 7, 3, none, [], 1, []⟩) = some [7, 9, 12] := by decide +kernel

/-- The lines before a blank line can be read on their own. -/
example : ∃ s, (parser plainIds 20 none).run 0 0 ([c%"= One _two_"] ++ [[]]) (initial ⟨aDocument, [], 0, 0, none, [], 1, []⟩) = .ok s := by
  have h : startingLines ((parser plainIds 20 none).run 0 0 ([c%"= One _two_"] ++ [[]]) (initial ⟨aDocument, [], 0, 0, none, [], 1, []⟩)) = some [0] := by decide +kernel
  generalize (parser plainIds 20 none).run 0 0 ([c%"= One _two_"] ++ [[]]) (initial ⟨aDocument, [], 0, 0, none, [], 1, []⟩) = r at h
  cases r with
  | ok s => exact ⟨s, rfl⟩
  | error e => cases h

end Mau
