import Verif.Lemmas.DocLists
import Verif.Lemmas.NoToken

set_option linter.unusedSimpArgs false

/-!
# The constructs at the level of lines
-/

namespace Mau
open Spec

theorem SpecialLine.plain {l : Str} {ps : List Piece} (h : SpecialLine l ps) : IsPlainLine l := by
  obtain ⟨h1, h2, h3⟩ := h
  refine ⟨?_, h3 '/', ?_⟩
  · cases hb : isBlank l with
    | false => rfl
    | true => exact absurd (isBlank_iff.1 hb) h2
  · cases hb : isBlockDelimiter l with
    | false => rfl
    | true =>
      exfalso
      unfold isBlockDelimiter at hb
      split at hb
      · rename_i a b c d
        simp at hb
        obtain ⟨⟨rfl, rfl⟩, rfl⟩ := hb
        exact h3 _ rfl
      · cases hb

theorem TextLine.plain {l : Str} (h : TextLine l) : IsPlainLine l := by
  obtain ⟨h2, h3, _⟩ := h
  refine ⟨?_, h3 '/', ?_⟩
  · cases hb : isBlank l with
    | false => rfl
    | true => exact absurd (isBlank_iff.1 hb) h2
  · cases hb : isBlockDelimiter l with
    | false => rfl
    | true =>
      exfalso
      unfold isBlockDelimiter at hb
      split at hb
      · rename_i a b c d
        simp at hb
        obtain ⟨⟨rfl, rfl⟩, rfl⟩ := hb
        exact h3 _ rfl
      · cases hb

theorem docTokens_special {src : Option Str} {ln col : Nat} {l : Str} {ps : List Piece} {rest : List Str} (h : SpecialLine l ps) :
    docTokens src ln col (l :: rest) = (docTokens src (ln + 1) 0 rest).map fun ts => place ln src col ps ++ ts := by
  rw [docTokens_line (SpecialLine.plain h), linePieces_iff.2 (.inl h.1)]

theorem docTokens_text {src : Option Str} {ln col : Nat} {l : Str} {rest : List Str} (h : TextLine l) :
    docTokens src ln col (l :: rest) = (docTokens src (ln + 1) 0 rest).map fun ts => tokAt .TEXT l ln col src :: ts := by
  rw [docTokens_line (TextLine.plain h), linePieces_iff.2 (.inr ⟨h.2.2, rfl⟩)]
  rfl

theorem docTokens_blank_line {src : Option Str} {ln col : Nat} {l : Str} {rest : List Str} (h : Spaces l) :
    (l = [] ∧ rest = [] ∧ docTokens src ln col (l :: rest) = .ok [tokAt .EOF [] ln col src]) ∨
    docTokens src ln col (l :: rest) = (docTokens src (ln + 1) 0 rest).map fun ts => tokAt .EOL l ln col src :: ts := by
  by_cases h1 : l = [] ∧ rest = []
  · left
    obtain ⟨rfl, rfl⟩ := h1
    exact ⟨rfl, rfl, by rw [docTokens_single_empty, docTokens]⟩
  · right
    exact docTokens_blank h1 (isBlank_iff.2 h)

theorem isDelim_same {ch : Char} (h1 : ch ≠ '/') (h2 : ch ≠ ' ') : IsDelim [ch, ch, ch, ch] := by
  refine ⟨by simp [isBlockDelimiter], by simp [isBlank, h2], ?_⟩
  intro h
  simp at h
  exact h1 h

/-- The first piece that gives a token is not a text. -/
theorem lineForm_head {l : Str} {ps : List Piece} (h : LineForm l ps) (hp : ps ≠ []) {ln col : Nat} {src : Option Str} :
    ∃ t ts, place ln src col ps = t :: ts ∧ t.type ≠ .TEXT := by
  cases h with
  | comment r => exact absurd rfl hp
  | rule => exact ⟨_, _, rfl, by simp [tokAt]⟩
  | control => exact ⟨_, _, rfl, by simp [tokAt]⟩
  | incl => exact ⟨_, _, rfl, by simp [tokAt]⟩
  | variable_ => exact ⟨_, _, rfl, by simp [tokAt]⟩
  | arguments => exact ⟨_, _, rfl, by simp [tokAt]⟩
  | label => exact ⟨_, _, rfl, by simp [tokAt]⟩
  | list => exact ⟨_, _, rfl, by simp [tokAt]⟩
  | header => exact ⟨_, _, rfl, by simp [tokAt]⟩
  | headerSpace => exact ⟨_, _, rfl, by simp [tokAt]⟩
  | headerSign => exact ⟨_, _, rfl, by simp [tokAt]⟩

theorem first_occurrence {α : Type} [DecidableEq α] {x : α} {l : List α} (h : x ∈ l) : ∃ a b, l = a ++ x :: b ∧ x ∉ a := by
  induction l with
  | nil => simp at h
  | cons y ys ih =>
    by_cases hy : y = x
    · subst hy; exact ⟨[], ys, rfl, by simp⟩
    · obtain ⟨a, b, h1, h2⟩ := ih (by
        rcases List.mem_cons.1 h with h | h
        · exact absurd h.symm hy
        · exact h)
      exact ⟨y :: a, b, by simp [h1], by simp [h2, Ne.symm hy]⟩

theorem lineForm_head_not_literal {l : Str} {ps : List Piece} (h : LineForm l ps) {ln col : Nat} {src : Option Str} :
    ∀ t ∈ (place ln src col ps).head?, t.type ≠ .LITERAL := by
  cases h with
  | comment r => simp [place]
  | rule => simp [place, tokAt]
  | control => simp [place, tokAt]
  | incl => simp [place, tokAt]
  | variable_ => simp [place, tokAt]
  | arguments => simp [place, tokAt]
  | label => simp [place, tokAt]
  | list => simp [place, tokAt]
  | header => simp [place, tokAt]
  | headerSpace => simp [place, tokAt]
  | headerSign => simp [place, tokAt]

theorem docTokens_head_not_literal {src : Option Str} {ls : List Str} {ln col : Nat} {ts : List Token}
    (h : docTokens src ln col ls = .ok ts) : ∀ t ∈ ts.head?, t.type ≠ .LITERAL := by
  revert ts h
  refine docTokens_rec (src := src) (P := fun ln col ls r => ∀ {ts}, r = .ok ts → ∀ t ∈ ts.head?, t.type ≠ .LITERAL)
    ?_ ?_ ?_ ?_ ?_ ?_ ?_ ?_ ls ln col
  · intro ln col ts h; cases h; simp [tokAt]
  · intro ln col ts h; cases h; simp [tokAt]
  · intro ln col l rest _ _ _ ts h
    obtain ⟨x, _, rfl⟩ := map_ok h
    simp [tokAt]
  · intro ln col rest _ ts h; cases h
  · intro ln col cs rest _ ih ts h; exact ih h
  · intro ln col l rest _ _ ts h; cases h
  · intro ln col l cs rest _ _ _ ts h
    obtain ⟨x, _, rfl⟩ := map_ok h
    simp [tokAt]
  · intro ln col l rest _ ih ts h
    obtain ⟨x, hx, rfl⟩ := map_ok h
    rcases linePieces_iff.1 (rfl : linePieces l = linePieces l) with h1 | ⟨_, h1⟩
    · have := lineForm_head_not_literal h1 (ln := ln) (col := col) (src := src)
      revert this
      cases hp : place ln src col (linePieces l) with
      | nil => intro _; exact ih hx
      | cons a b => exact id
    · rw [h1]; simp [place, tokAt]

theorem noText_head {ls : List Str} (h : NoText ls) {src : Option Str} {ln col : Nat} {ts : List Token}
    (ht : docTokens src ln col ls = .ok ts) : ∃ u us, ts = u :: us ∧ u.type ≠ .TEXT := by
  induction h generalizing ln col ts with
  | nil =>
    rw [docTokens] at ht; cases ht
    exact ⟨_, _, rfl, by simp [tokAt]⟩
  | blank h =>
    rcases docTokens_blank_line (src := src) (ln := ln) (col := col) h with ⟨_, _, e⟩ | e
    · rw [e] at ht; cases ht
      exact ⟨_, _, rfl, by simp [tokAt]⟩
    · rw [e] at ht
      obtain ⟨x, _, rfl⟩ := map_ok ht
      exact ⟨_, _, rfl, by simp [tokAt]⟩
  | special h hp =>
    rw [docTokens_special h] at ht
    obtain ⟨x, _, rfl⟩ := map_ok ht
    obtain ⟨t, ts, e, h1⟩ := lineForm_head h.1 hp (ln := ln) (col := col) (src := src)
    rw [e]
    exact ⟨t, ts ++ x, rfl, h1⟩
  | @block ch rest h =>
    by_cases hsp : ch = ' '
    · subst hsp
      rcases docTokens_blank_line (src := src) (ln := ln) (col := col) (l := [' ', ' ', ' ', ' ']) (rest := rest)
        (by intro c hc; simp at hc; exact hc) with ⟨h0, _⟩ | e
      · cases h0
      · rw [e] at ht
        obtain ⟨x, _, rfl⟩ := map_ok ht
        exact ⟨_, _, rfl, by simp [tokAt]⟩
    · have hd := isDelim_same h hsp
      by_cases hm : [ch, ch, ch, ch] ∈ rest
      · obtain ⟨cs, r, hr, hn⟩ := first_occurrence hm
        subst hr
        rw [docTokens_block hd hn] at ht
        obtain ⟨x, _, rfl⟩ := map_ok ht
        exact ⟨_, _, rfl, by simp [tokAt]⟩
      · rw [docTokens_block_open hd hm] at ht; cases ht
  | comment h hr ih =>
    rw [docTokens_special h] at ht
    obtain ⟨x, hx, rfl⟩ := map_ok ht
    exact ih hx
  | comments h hr ih =>
    rw [docTokens_comment h] at ht
    exact ih ht

/-! ## Lines that leave the state alone -/

theorem run_blank {P : Parser} {ln col : Nat} {l : Str} {rest : List Str} {s : DocSt} (h : Spaces l) :
    P.run ln col (l :: rest) s = P.run (ln + 1) 0 rest s := by
  rcases docTokens_blank_line (src := P.src) (ln := ln) (col := col) (rest := rest) h with ⟨h1, h2, e⟩ | e
  · subst h2
    rw [run_eq, run_eq, e, docTokens]
    exact (runToks_eof _ _ _ _ _ _ rfl).trans (runToks_eof _ _ _ _ _ _ rfl).symm
  · refine run_step (chunk := []) e (by simp [tokAt]) (by simp [tokAt]) fun ts hts => ?_
    refine (try_proc (t := tokAt .EOL l ln col P.src) rfl).1 _ ?_
    exact DM.bind_of_ok (get_at (t := tokAt .EOL l ln col P.src) rfl (chk_type rfl))

theorem run_comment {P : Parser} {ln col : Nat} {l : Str} {rest : List Str} {s : DocSt} (h : SpecialLine l []) :
    P.run ln col (l :: rest) s = P.run (ln + 1) 0 rest s := by
  rw [run_eq, run_eq, docTokens_special h]
  cases docTokens P.src (ln + 1) 0 rest <;> rfl

theorem run_comments {P : Parser} {ln col : Nat} {cs rest : List Str} {s : DocSt} (h : c%"////" ∉ cs) :
    P.run ln col (c%"////" :: (cs ++ c%"////" :: rest)) s = P.run (ln + cs.length + 2) 0 rest s := by
  rw [run_eq, run_eq, docTokens_comment h]

/-! ## Steps and the token error -/

theorem nt_inline (P : Parser) (s : DocSt) (text : Str) (ctx : Context) : NT (P.inline s text ctx) := by
  unfold Parser.inline docText
  have h1 := nt_preprocessNodes s.env text ctx.startLine ctx.startColumn ctx.source
  cases hp : preprocessNodes s.env text ctx.startLine ctx.startColumn ctx.source with
  | error e =>
    rw [hp] at h1
    cases e <;> first | exact absurd rfl h1 | exact NT.err (by simp)
  | ok ns =>
    cases ns with
    | nil => exact NT.ok
    | cons n ns =>
      dsimp only
      have h2 := nt_parseText P.fuel s.env (processedText (n :: ns)).value ctx.startLine ctx.startColumn ctx.source s.uid
      cases ht : parseText P.fuel s.env (processedText (n :: ns)).value ctx.startLine ctx.startColumn ctx.source s.uid with
      | error e =>
        rw [ht] at h2
        cases e <;> first | exact absurd rfl h2 | exact NT.err (by simp)
      | ok r => exact NT.ok

theorem nt_allowed (s : DocSt) : NT (allowed s) := by
  unfold allowed
  split
  · exact NT.ok
  · exact nt_control _ _

theorem nt_spanOf (ns : List Node) : NT (spanOf ns) := by
  unfold spanOf
  split
  · exact NT.ok
  · exact NT.err (by simp)

theorem nt_rule (s : DocSt) (ctx : Context) : NT (ruleStep s ctx) := (nt_allowed s).bind fun _ _ => NT.ok

theorem nt_define (s : DocSt) (name value : Str) (ctx : Context) : NT (defineStep s name value ctx) :=
  (nt_definition _ _ _ _).bind fun _ _ => NT.ok

theorem nt_label (P : Parser) (s : DocSt) (role text : Str) (ctx : Context) : NT (P.labelStep s role text ctx) :=
  (nt_inline _ _ _ _).bind fun _ _ => NT.ok

theorem nt_controlStep (s : DocSt) (op : Str) (t : Token) (ctx : Context) : NT (controlStep s op t ctx) := by
  refine (nt_processCondition _ _).bind fun r _ => ?_
  cases r with
  | none => exact NT.err (by simp)
  | some c => exact (nt_mkControl _ _ _ _ _).bind fun _ _ => NT.ok

theorem nt_arguments (s : DocSt) (t : Token) : NT (argumentsStep s t) := (nt_processArgsVars _ _).bind fun _ _ => NT.ok

theorem nt_nameHeader (s : DocSt) (name : Option Str) (id : Nat) (ctx : Context) : NT (nameHeader s name id ctx) := by
  unfold nameHeader
  split
  · exact NT.ok
  · split
    · exact NT.err (by simp)
    · exact NT.ok

theorem nt_header (P : Parser) (s : DocSt) (level : Nat) (text : Str) (signs ctx : Context) : NT (P.headerStep s level text signs ctx) := by
  refine (nt_inline _ _ _ _).bind fun r _ => (nt_spanOf _).bind fun c _ => (nt_allowed _).bind fun keep _ => ?_
  split
  · exact (nt_nameHeader _ _ _ _).bind fun _ _ => NT.ok
  · exact NT.ok

theorem nt_inlineLines (P : Parser) (ls : List Token) : ∀ s, NT (P.inlineLines s ls) := by
  induction ls with
  | nil => intro s; exact NT.ok
  | cons l ls ih => intro s; exact (nt_inline _ _ _ _).bind fun _ _ => (ih _).bind fun _ _ => NT.ok

theorem nt_paragraph (P : Parser) (s : DocSt) (ls : List Token) : NT (P.paragraphStep s ls) :=
  (nt_inlineLines _ _ _).bind fun _ _ => (nt_spanOf _).bind fun _ _ => (nt_allowed _).bind fun _ _ => NT.ok

/-- The nested parser never raises the internal token error. -/
def Clean (P : Parser) : Prop := ∀ r, NT (P.nested r)

theorem NT.of_eq {α β : Type} {x : Except Err α} {e : Err} (h : NT x) (he : x = .error e) : NT (.error e : Except Err β) :=
  NT.err fun h' => h (by rw [he, h'])

theorem nt_styleAlias (a : List (Str × Nested)) (s : Str) : NT (styleAlias a s) := by
  unfold styleAlias
  split
  · exact NT.ok
  · exact NT.ok
  · exact NT.err (by simp)

theorem nt_sourceLine (p : SourceParams) (l : Str) : NT (sourceLine p l) := by
  unfold sourceLine
  dsimp only
  repeat' first
    | exact NT.ok
    | exact NT.of_eq (nt_styleAlias _ _) (by assumption)
    | (refine NT.err ?_; simp; done)
    | split

theorem nt_sourceLines (p : SourceParams) (c : Context) (ls : List Str) : ∀ i, NT (sourceLines p c i ls) := by
  induction ls with
  | nil => intro i; exact NT.ok
  | cons l ls ih => intro i; exact (nt_sourceLine _ _).bind fun _ _ => (ih _).bind fun _ _ => NT.ok

theorem nt_sourceEngine (env : Env) (t : Token) (a : NodeArgs) : NT (sourceEngine env t a) := by
  unfold sourceEngine
  dsimp only
  repeat' first
    | exact NT.ok
    | exact NT.err (by simp)
    | exact nt_asdict _
    | exact nt_sourceLines _ _ _ _
    | split
    | refine NT.bind ?_ fun _ _ => ?_

theorem nt_engine {P : Parser} (hP : Clean P) (s : DocSt) (engine : Str) (cl : List Str) (content : Option Token) (a : NodeArgs) (ctx : Context) :
    NT (P.engineStep s engine cl content a ctx) := by
  unfold Parser.engineStep
  split
  · split
    · exact NT.ok
    · refine NT.bind ?_ fun _ _ => NT.ok
      exact (hP _).bind fun _ _ => NT.ok
  · split
    · split <;> exact NT.ok
    · split
      · split
        · exact NT.ok
        · exact (nt_sourceEngine _ _ _).bind fun _ _ => NT.ok
      · exact NT.err (by simp)

theorem nt_addBlock (g : Dict (Dict Node)) (a b : Str) (n : Node) : NT (addBlock g a b n) := by
  unfold addBlock
  dsimp only
  split
  · exact NT.err (by simp)
  · exact NT.ok

theorem nt_place (s : DocSt) (d : NodeData) (ns : List Node) (a : NodeArgs) (ls : Dict Node) (ctx own : Context) :
    NT (placeStep s d ns a ls ctx own) := by
  unfold placeStep
  split
  · split
    · exact NT.err (by simp)
    · exact NT.ok
  · split
    · exact (nt_addBlock _ _ _ _).bind fun _ _ => NT.ok
    · exact (nt_allowed _).bind fun _ _ => NT.ok

theorem nt_block {P : Parser} (hP : Clean P) (s : DocSt) (content : Option Token) (ctx : Context) : NT (P.blockStep s content ctx) :=
  (nt_engine hP _ _ _ _ _ _).bind fun _ _ => nt_place _ _ _ _ _ _ _

theorem nt_readFile (cfg : Config) (uri : Str) (ctx : Context) : NT (readFile cfg uri ctx) := by
  unfold readFile
  split
  · exact NT.ok
  · exact NT.err (by simp)
  · exact NT.err (by simp)

theorem nt_includeEnv (p : Option Str) (env : Env) : NT (includeEnv p env) := by
  unfold includeEnv
  split
  · unfold Env.fromEnvironment
    have := nt_asdict env
    split
    · rename_i e he
      rw [he] at this
      exact NT.err (fun h => this (by rw [h]))
    · exact NT.ok
  · exact NT.ok

theorem nt_includeMau {P : Parser} (hP : Clean P) (s : DocSt) (a : NodeArgs) (ctx : Context) : NT (P.includeMauStep s a ctx) := by
  unfold Parser.includeMauStep
  dsimp only
  split
  · exact NT.err (by simp)
  · split
    · exact NT.err (by simp)
    · exact (nt_readFile _ _ _).bind fun _ _ => (nt_includeEnv _ _).bind fun _ _ => (hP _).bind fun _ _ => NT.ok

theorem nt_includeImage (a : NodeArgs) (ctx : Context) : NT (includeImage a ctx) := by
  unfold includeImage
  dsimp only
  split
  · exact NT.err (by simp)
  · exact NT.ok

theorem nt_includeRaw (cfg : Config) (a : NodeArgs) (ctx : Context) : NT (includeRaw cfg a ctx) := by
  unfold includeRaw
  dsimp only
  split
  · exact NT.err (by simp)
  · rename_i u _
    have := nt_readFile cfg u ctx
    split
    · rename_i e he
      rw [he] at this
      exact NT.err (fun h => this (by rw [h]))
    · exact NT.ok

theorem nt_includeNode {P : Parser} (hP : Clean P) (s : DocSt) (ty : Str) (a : NodeArgs) (ctx : Context) :
    NT (P.includeNodeStep s ty a ctx) := by
  unfold Parser.includeNodeStep
  dsimp only
  split
  · exact (nt_includeImage _ _).bind fun _ _ => NT.ok
  · split
    · exact nt_includeMau hP _ _ _
    · split
      · exact (nt_includeRaw _ _ _).bind fun _ _ => NT.ok
      · split
        · exact NT.ok
        · split
          · exact NT.ok
          · split
            · split
              · exact NT.err (by simp)
              · exact NT.ok
            · exact NT.ok

theorem nt_include {P : Parser} (hP : Clean P) (s : DocSt) (ty : Str) (a : NodeArgs) (ctx : Context) :
    NT (P.includeStep s ty a ctx) :=
  (nt_includeNode hP _ _ _ _).bind fun _ _ => (nt_allowed _).bind fun _ _ => NT.ok

theorem nt_items (P : Parser) (ls : List ListLine) : ∀ s, NT (P.items s ls) := by
  induction ls with
  | nil => intro s; exact NT.ok
  | cons l ls ih =>
    intro s
    refine NT.bind ?_ fun _ _ => (ih _).bind fun _ _ => NT.ok
    refine (nt_inline _ _ _ _).bind fun r _ => ?_
    cases r.1.getLast? with
    | none => exact NT.err (by simp)
    | some l => exact NT.ok

theorem nt_pyInt (s : Str) : NT (pyInt s) := by
  unfold pyInt
  split
  · exact NT.err (by simp)
  · dsimp only
    generalize intDigits false 0 _ = o
    cases o with
    | none => exact NT.err (by simp)
    | some n => exact NT.ok

theorem nt_listStep (s : DocSt) (m : Token) (ns : List Node) : NT (listStep s m ns) := by
  refine NT.bind ?_ fun _ _ => (nt_spanOf _).bind fun _ _ => (nt_allowed _).bind fun _ _ => NT.ok
  unfold listStart
  repeat' first
    | exact NT.ok
    | exact NT.of_eq (nt_pyInt _) (by assumption)
    | (refine NT.err ?_; simp; done)
    | split

/-! ## Reading lines -/

theorem Does.reads {P : Parser} {ln col ln' : Nat} {ls rest : List Str} {t : Token} {chunk : List Token} {s : DocSt} {x : Except Err DocSt}
    (hx : NT x)
    (hlex : docTokens P.src ln col ls = (docTokens P.src ln' 0 rest).map fun ts => t :: chunk ++ ts)
    (hline : t.ctx.startLine < ln') (hc : ∀ u ∈ t :: chunk, u.type ≠ .EOF)
    (hf : ∀ ts, docTokens P.src ln' 0 rest = .ok ts →
      Does (chunk.length + 1) x (procFor P.cfg P.nested P.fuel (t :: chunk ++ ts) t.type (start s))) :
    Reads P ln col ls s x ln' rest where
  ok := fun s' h => Does.run hlex hline hc hf h
  err := fun e h ⟨ts, hts⟩ => Does.run_err hlex hts (hc t (by simp)) (hf ts hts) h (fun he => hx (by rw [h, he]))
  lex := fun e h => by rw [run_eq, hlex, h]; rfl

/-! ## Single lines -/

theorem ruleLine : SpecialLine c%"---" [.tok .HORIZONTAL_RULE c%"---"] := by
  refine ⟨.rule, ?_, ?_⟩
  · intro h; exact absurd (h '-' (by simp)) (by decide)
  · intro ch h; simp at h

theorem reads_rule {P : Parser} {ln col : Nat} {rest : List Str} {s : DocSt} :
    Reads P ln col (c%"---" :: rest) s (ruleStep s (at_ P.src ln col 3)) (ln + 1) rest :=
  Does.reads (chunk := []) (nt_rule _ _) (docTokens_special ruleLine) (by simp [tokAt]) (by simp [tokAt])
    (fun ts hts => rule_does (t := tokAt .HORIZONTAL_RULE c%"---" ln col P.src) rfl)

theorem reads_label {P : Parser} {ln col : Nat} {l role sp v : Str} {rest : List Str} {s : DocSt}
    (hl : SpecialLine l [.tok .LABEL ('.' :: role), .skip sp, .tok .TEXT v]) :
    Reads P ln col (l :: rest) s (P.labelStep s role v (at_ P.src ln (col + 1 + role.length + sp.length) v.length)) (ln + 1) rest := by
  rw [show col + 1 + role.length = col + (role.length + 1) by omega]
  exact Does.reads (t := tokAt .LABEL ('.' :: role) ln col P.src)
    (chunk := [tokAt .TEXT v ln (col + (role.length + 1) + sp.length) P.src]) (nt_label _ _ _ _ _) (docTokens_special hl)
    (by simp [tokAt]) (by simp [tokAt]) (fun ts hts => label_does (P := P) (s := s) (l := tokAt .LABEL ('.' :: role) ln col P.src)
      (t := tokAt .TEXT v ln (col + (role.length + 1) + sp.length) P.src) (ts := ts) (role := role) rfl rfl rfl)

theorem argsLine {a : Str} (h4 : ∀ ch, '[' :: (a ++ [']']) ≠ [ch, ch, ch, ch]) :
    SpecialLine ('[' :: (a ++ [']'])) [.tok .ARGUMENTS ['['], .tok .TEXT a, .tok .LITERAL [']']] :=
  ⟨.arguments a, by intro h; exact absurd (h '[' (by simp)) (by decide), h4⟩

theorem args_not_fence (a : Str) : ∀ ch, '[' :: (a ++ [']']) ≠ [ch, ch, ch, ch] := by
  intro ch h
  have h1 : '[' = ch := by injection h
  have h2 : ('[' :: (a ++ [']'])).getLast? = some ch := by rw [h]; rfl
  rw [← List.cons_append, List.getLast?_append] at h2
  simp at h2
  rw [← h1] at h2
  exact absurd h2 (by decide)

theorem reads_arguments {P : Parser} {ln col : Nat} {a : Str} {rest : List Str} {s : DocSt} :
    Reads P ln col (('[' :: (a ++ [']'])) :: rest) s (argumentsStep s (tokAt .TEXT a ln (col + 1) P.src)) (ln + 1) rest :=
  Does.reads (t := tokAt .ARGUMENTS ['['] ln col P.src)
    (chunk := [tokAt .TEXT a ln (col + 1) P.src, tokAt .LITERAL [']'] ln (col + 1 + a.length) P.src]) (nt_arguments _ _)
    (docTokens_special (argsLine (args_not_fence a))) (by simp [tokAt]) (by simp [tokAt]) (fun ts hts => arguments_does (s := s) (o := tokAt .ARGUMENTS ['['] ln col P.src) (t := tokAt .TEXT a ln (col + 1) P.src)
      (c := tokAt .LITERAL [']'] ln (col + 1 + a.length) P.src) (ts := ts) rfl rfl rfl rfl rfl)

theorem reads_control {P : Parser} {ln col : Nat} {l op sp v : Str} {rest : List Str} {s : DocSt}
    (hl : SpecialLine l [.tok .CONTROL ['@'], .tok .TEXT op, .skip sp, .tok .TEXT v]) :
    Reads P ln col (l :: rest) s (controlStep s op (tokAt .TEXT v ln (col + 1 + op.length + sp.length) P.src)
      (at_ P.src ln col (1 + op.length + sp.length + v.length))) (ln + 1) rest := by
  have hc : (tokAt .CONTROL ['@'] ln col P.src).ctx.merge (tokAt .TEXT v ln (col + 1 + op.length + sp.length) P.src).ctx =
      at_ P.src ln col (1 + op.length + sp.length + v.length) := by
    simp only [Context.merge, tokAt, at_, List.length_singleton, Context.mk.injEq, and_true]
    omega
  rw [← hc]
  exact
  Does.reads (t := tokAt .CONTROL ['@'] ln col P.src)
    (chunk := [tokAt .TEXT op ln (col + 1) P.src, tokAt .TEXT v ln (col + 1 + op.length + sp.length) P.src]) (nt_controlStep _ _ _ _)
    (docTokens_special hl) (by simp [tokAt]) (by simp [tokAt])
    (fun ts hts => control_does (s := s) (o := tokAt .CONTROL ['@'] ln col P.src) (t := tokAt .TEXT op ln (col + 1) P.src)
      (c := tokAt .TEXT v ln (col + 1 + op.length + sp.length) P.src) (ts := ts) rfl rfl rfl rfl)

theorem reads_header {P : Parser} {ln col : Nat} {l signs sp v : Str} {rest : List Str} {s : DocSt}
    (hl : SpecialLine l [.tok .HEADER signs, .skip sp, .tok .TEXT v]) :
    Reads P ln col (l :: rest) s (P.headerStep s signs.length v (at_ P.src ln col signs.length)
      (at_ P.src ln (col + signs.length + sp.length) v.length)) (ln + 1) rest :=
  Does.reads (t := tokAt .HEADER signs ln col P.src)
    (chunk := [tokAt .TEXT v ln (col + signs.length + sp.length) P.src]) (nt_header _ _ _ _ _ _)
    (docTokens_special hl) (by simp [tokAt]) (by simp [tokAt])
    (fun ts hts => header_does (h := tokAt .HEADER signs ln col P.src) (t := tokAt .TEXT v ln (col + signs.length + sp.length) P.src) rfl rfl)

/-- The context of a variable definition: from the start of the line to its end. -/
theorem define_ctx {src : Option Str} {ln col n m : Nat} :
    ((at_ src ln col 1).merge (at_ src ln (col + 1 + n) 1)).merge (at_ src ln (col + 1 + n + 1) m) = at_ src ln col (n + 2 + m) := by
  simp [Context.merge, at_]
  omega

theorem reads_define {P : Parser} {ln col : Nat} {l name v : Str} {rest : List Str} {s : DocSt}
    (hl : SpecialLine l [.tok .VARIABLE [':'], .tok .TEXT name, .tok .LITERAL [':'], .tok .TEXT v]) :
    Reads P ln col (l :: rest) s (defineStep s name v (at_ P.src ln col (name.length + 2 + v.length))) (ln + 1) rest := by
  rw [← define_ctx]
  exact Does.reads (t := tokAt .VARIABLE [':'] ln col P.src)
    (chunk := [tokAt .TEXT name ln (col + 1) P.src, tokAt .LITERAL [':'] ln (col + 1 + name.length) P.src,
      tokAt .TEXT v ln (col + 1 + name.length + 1) P.src]) (nt_define _ _ _ _)
    (docTokens_special hl) (by simp [tokAt]) (by simp [tokAt])
    (fun ts hts => define_does_value (s := s) (o := tokAt .VARIABLE [':'] ln col P.src) (n := tokAt .TEXT name ln (col + 1) P.src)
      (c := tokAt .LITERAL [':'] ln (col + 1 + name.length) P.src) (v := tokAt .TEXT v ln (col + 1 + name.length + 1) P.src) (ts := ts) rfl rfl rfl rfl rfl rfl)

theorem reads_define_none {P : Parser} {ln col : Nat} {l name : Str} {rest : List Str} {s : DocSt} (hr : NoText rest)
    (hl : SpecialLine l [.tok .VARIABLE [':'], .tok .TEXT name, .tok .LITERAL [':']]) :
    Reads P ln col (l :: rest) s (defineStep s name [] (at_ P.src ln col (name.length + 2))) (ln + 1) rest := by
  rw [show at_ P.src ln col (name.length + 2) = (at_ P.src ln col 1).merge (at_ P.src ln (col + 1 + name.length) 1) by
      simp [Context.merge, at_]; omega]
  refine Does.reads (t := tokAt .VARIABLE [':'] ln col P.src)
    (chunk := [tokAt .TEXT name ln (col + 1) P.src, tokAt .LITERAL [':'] ln (col + 1 + name.length) P.src])
    (nt_define _ _ _ _) (docTokens_special hl) (by simp [tokAt]) (by simp [tokAt]) (fun ts hts => ?_)
  obtain ⟨u, us, rfl, hu⟩ := noText_head hr hts
  exact define_does_none (o := tokAt .VARIABLE [':'] ln col P.src) (n := tokAt .TEXT name ln (col + 1) P.src)
      (c := tokAt .LITERAL [':'] ln (col + 1 + name.length) P.src) rfl rfl rfl rfl rfl hu

/-- A definition without value takes the text line that follows it as its value. -/
theorem reads_define_next {P : Parser} {ln col : Nat} {l name t : Str} {rest : List Str} {s : DocSt}
    (hl : SpecialLine l [.tok .VARIABLE [':'], .tok .TEXT name, .tok .LITERAL [':']]) (ht : TextLine t) :
    Reads P ln col (l :: t :: rest) s
      (defineStep s name t ((at_ P.src ln col (name.length + 2)).merge (at_ P.src (ln + 1) 0 t.length))) (ln + 2) rest := by
  rw [show at_ P.src ln col (name.length + 2) = (at_ P.src ln col 1).merge (at_ P.src ln (col + 1 + name.length) 1) by
      simp [Context.merge, at_]; omega]
  refine Does.reads (t := tokAt .VARIABLE [':'] ln col P.src)
    (chunk := [tokAt .TEXT name ln (col + 1) P.src, tokAt .LITERAL [':'] ln (col + 1 + name.length) P.src, tokAt .TEXT t (ln + 1) 0 P.src])
    (nt_define _ _ _ _) ?_ (by simp [tokAt]) (by simp [tokAt]) (fun ts hts => ?_)
  · rw [docTokens_special hl, docTokens_text ht]
    cases docTokens P.src (ln + 1 + 1) 0 rest <;> rfl
  · exact define_does_value (o := tokAt .VARIABLE [':'] ln col P.src) (n := tokAt .TEXT name ln (col + 1) P.src)
      (c := tokAt .LITERAL [':'] ln (col + 1 + name.length) P.src) (v := tokAt .TEXT t (ln + 1) 0 P.src) rfl rfl rfl rfl rfl rfl

/-! ## Paragraphs -/

theorem textToks_type {src : Option Str} {ln col : Nat} {ls : List Str} {t : Token} (h : t ∈ textToks src ln col ls) : t.type = .TEXT := by
  induction ls generalizing ln col with
  | nil => simp [textToks] at h
  | cons l ls ih =>
    rcases List.mem_cons.1 h with rfl | h
    · rfl
    · exact ih h

theorem textToks_length {src : Option Str} {ln col : Nat} {ls : List Str} : (textToks src ln col ls).length = ls.length := by
  induction ls generalizing ln col with
  | nil => rfl
  | cons l ls ih => simp [textToks, ih]

theorem docTokens_texts {src : Option Str} {ls rest : List Str} (hl : ∀ l ∈ ls, TextLine l) (hne : ls ≠ []) {ln col : Nat} :
    docTokens src ln col (ls ++ rest) = (docTokens src (ln + ls.length) 0 rest).map fun ts => textToks src ln col ls ++ ts := by
  induction ls generalizing ln col with
  | nil => exact absurd rfl hne
  | cons l ls ih =>
    rw [List.cons_append, docTokens_text (hl l (by simp))]
    cases ls with
    | nil => simp [textToks]
    | cons l2 ls =>
      rw [ih (fun l h => hl l (by simp [h])) (by simp)]
      rw [show ln + (l :: l2 :: ls).length = ln + 1 + (l2 :: ls).length by simp; omega]
      cases docTokens src (ln + 1 + (l2 :: ls).length) 0 rest <;> rfl

theorem reads_paragraph {P : Parser} {ln col : Nat} {ls rest : List Str} {s : DocSt} (hl : ∀ l ∈ ls, TextLine l) (hne : ls ≠ [])
    (hr : NoText rest) :
    Reads P ln col (ls ++ rest) s (P.paragraphStep s (textToks P.src ln col ls)) (ln + ls.length) rest := by
  cases ls with
  | nil => exact absurd rfl hne
  | cons l ls =>
    refine Does.reads (t := tokAt .TEXT l ln col P.src) (chunk := textToks P.src (ln + 1) 0 ls) (nt_paragraph _ _ _)
      (docTokens_texts hl hne) (by simp [tokAt]) ?_ (fun ts hts => ?_)
    · intro u hu
      rcases List.mem_cons.1 hu with rfl | hu
      · simp [tokAt]
      · rw [textToks_type hu]; simp
    · obtain ⟨u, us, rfl, hu⟩ := noText_head hr hts
      have := paragraph_does (P := P) (s := s) (lines := textToks P.src ln col (l :: ls)) (ts := us) (fun t ht => textToks_type ht) hu
      have e : (textToks P.src ln col (l :: ls)).length = (textToks P.src (ln + 1) 0 ls).length + 1 := by simp [textToks]
      rw [e] at this
      exact this

/-! ## Blocks -/

theorem contentTok_list {src : Option Str} {ln : Nat} {cs : List Str} : (contentTok src ln cs).toList = contentToken src ln cs := by
  unfold contentTok contentToken
  split <;> rfl

theorem reads_block {P : Parser} (hP : Clean P) {ln col : Nat} {ch : Char} {cs rest : List Str} {s : DocSt} (h1 : ch ≠ '/') (h2 : ch ≠ ' ')
    (hc : [ch, ch, ch, ch] ∉ cs) :
    Reads P ln col ([ch, ch, ch, ch] :: (cs ++ [ch, ch, ch, ch] :: rest)) s
      (P.blockStep s (contentTok P.src (ln + 1) cs) ((at_ P.src ln col 4).merge (at_ P.src (ln + cs.length + 1) 0 4))) (ln + cs.length + 2) rest := by
  have hlex := docTokens_block (src := P.src) (ln := ln) (col := col) (rest := rest) (isDelim_same h1 h2) hc
  refine Does.reads (t := tokAt .BLOCK [ch, ch, ch, ch] ln col P.src)
    (chunk := contentToken P.src (ln + 1) cs ++ [tokAt .BLOCK [ch, ch, ch, ch] (ln + cs.length + 1) 0 P.src]) (s := s)
    (x := P.blockStep s (contentTok P.src (ln + 1) cs) ((at_ P.src ln col 4).merge (at_ P.src (ln + cs.length + 1) 0 4)))
    (nt_block hP _ _ _) (hlex.trans ?_) (by simp [tokAt]; omega) ?_ (fun ts hts => ?_)
  · cases docTokens P.src (ln + cs.length + 2) 0 rest with
    | error e => rfl
    | ok ts => simp [Except.map]
  · intro u hu
    simp only [List.mem_cons, List.mem_append, List.not_mem_nil, or_false] at hu
    rcases hu with rfl | hu | rfl
    · simp [tokAt]
    · exact contentToken_notEof hu
    · simp [tokAt]
  · have := block_does (P := P) (s := s) (o := tokAt .BLOCK [ch, ch, ch, ch] ln col P.src) (c := tokAt .BLOCK [ch, ch, ch, ch] (ln + cs.length + 1) 0 P.src)
      (content := contentTok P.src (ln + 1) cs) (ts := ts) rfl ?_ rfl
    · rw [contentTok_list] at this
      have e : (tokAt .BLOCK [ch, ch, ch, ch] ln col P.src :: (contentToken P.src (ln + 1) cs ++ [tokAt .BLOCK [ch, ch, ch, ch] (ln + cs.length + 1) 0 P.src]) ++ ts) =
        tokAt .BLOCK [ch, ch, ch, ch] ln col P.src :: contentToken P.src (ln + 1) cs ++ tokAt .BLOCK [ch, ch, ch, ch] (ln + cs.length + 1) 0 P.src :: ts := by simp
      rw [e]
      rw [show (contentToken P.src (ln + 1) cs ++ [tokAt .BLOCK [ch, ch, ch, ch] (ln + cs.length + 1) 0 P.src]).length + 1 =
        (contentToken P.src (ln + 1) cs).length + 2 by simp]
      exact this
    · intro t ht
      unfold contentTok at ht
      split at ht
      · simp at ht
      · simp at ht; subst ht; rfl

/-! ## Includes -/

theorem reads_include {P : Parser} (hP : Clean P) {ln col : Nat} {l sp ty : Str} {rest : List Str} {s : DocSt}
    (hl : SpecialLine l [.tok .INCLUDE c%"<<", .skip sp, .tok .TEXT ty]) :
    Reads P ln col (l :: rest) s
      (P.includeStep s ty (args s) ((at_ P.src ln col 2).merge (at_ P.src ln (col + 2 + sp.length) ty.length))) (ln + 1) rest := by
  refine Does.reads (t := tokAt .INCLUDE c%"<<" ln col P.src) (chunk := [tokAt .TEXT ty ln (col + 2 + sp.length) P.src])
    (x := P.includeStep s ty (args s) ((at_ P.src ln col 2).merge (at_ P.src ln (col + 2 + sp.length) ty.length)))
    (nt_include hP _ _ _ _) (docTokens_special hl) (by simp [tokAt]) (by simp [tokAt]) (fun ts hts => ?_)
  have hh : ∃ u us, ts = u :: us ∧ ¬ (u.type = .LITERAL ∧ u.value = [':']) := by
    obtain ⟨u, us, rfl⟩ : ∃ u us, ts = u :: us := by
      obtain ⟨i, e, rfl, _⟩ := docTokens_ends _ _ _ _ _ hts
      cases i with
      | nil => exact ⟨_, _, rfl⟩
      | cons a b => exact ⟨_, _, rfl⟩
    exact ⟨u, us, rfl, fun h => docTokens_head_not_literal hts u rfl h.1⟩
  obtain ⟨u, us, rfl, hu⟩ := hh
  exact include_does_plain (P := P) (s := s) (o := tokAt .INCLUDE c%"<<" ln col P.src) (t := tokAt .TEXT ty ln (col + 2 + sp.length) P.src) (ts := us) rfl rfl hu

theorem nt_includeInline {P : Parser} (hP : Clean P) (s : DocSt) (ty : Str) (a : Token) (ctx : Context) :
    NT (P.includeInline s ty a ctx) := by
  unfold Parser.includeInline
  split
  · exact NT.err (by simp)
  · exact (nt_processArgsVars _ _).bind fun _ _ => nt_include hP _ _ _ _

theorem reads_include_args {P : Parser} (hP : Clean P) {ln col : Nat} {l sp ty a : Str} {rest : List Str} {s : DocSt}
    (hl : SpecialLine l [.tok .INCLUDE c%"<<", .skip sp, .tok .TEXT ty, .tok .LITERAL [':'], .tok .TEXT a]) :
    Reads P ln col (l :: rest) s
      (P.includeInline s ty (tokAt .TEXT a ln (col + 2 + sp.length + ty.length + 1) P.src)
        ((at_ P.src ln col 2).merge (at_ P.src ln (col + 2 + sp.length) ty.length))) (ln + 1) rest := by
  refine Does.reads (t := tokAt .INCLUDE c%"<<" ln col P.src)
    (chunk := [tokAt .TEXT ty ln (col + 2 + sp.length) P.src, tokAt .LITERAL [':'] ln (col + 2 + sp.length + ty.length) P.src,
      tokAt .TEXT a ln (col + 2 + sp.length + ty.length + 1) P.src])
    (x := P.includeInline s ty (tokAt .TEXT a ln (col + 2 + sp.length + ty.length + 1) P.src)
        ((at_ P.src ln col 2).merge (at_ P.src ln (col + 2 + sp.length) ty.length)))
    (nt_includeInline hP _ _ _ _) (docTokens_special hl) (by simp [tokAt]) (by simp [tokAt])
    (fun ts hts => ?_)
  exact include_does_args (P := P) (s := s) (o := tokAt .INCLUDE c%"<<" ln col P.src) (t := tokAt .TEXT ty ln (col + 2 + sp.length) P.src)
    (u := tokAt .LITERAL [':'] ln (col + 2 + sp.length + ty.length) P.src)
    (v := tokAt .TEXT a ln (col + 2 + sp.length + ty.length + 1) P.src) (ts := ts) rfl rfl rfl rfl rfl

/-! ## Lists -/

theorem lineForm_list_ne {l a b c v : Str} (h : LineForm l [.skip a, .tok .LIST b, .skip c, .tok .TEXT v]) : b ≠ [] := by
  generalize hq : [Piece.skip a, .tok .LIST b, .skip c, .tok .TEXT v] = ps at h
  cases h <;> simp at hq
  obtain ⟨_, rfl, _, _⟩ := hq
  assumption

theorem itemToks_docTokens {src : Option Str} {is : List ItemLine} {rest : List Str} (hi : ∀ i ∈ is, i.Ok) (hne : is ≠ []) {ln col : Nat} :
    docTokens src ln col (is.map (·.line) ++ rest) =
      (docTokens src (ln + is.length) 0 rest).map fun ts => lineToks (itemToks src ln col is) ++ ts := by
  induction is generalizing ln col with
  | nil => exact absurd rfl hne
  | cons i is ih =>
    rw [List.map_cons, List.cons_append, docTokens_special (hi i (by simp))]
    cases is with
    | nil => simp [itemToks, lineToks, place]
    | cons j is =>
      rw [ih (fun l h => hi l (by simp [h])) (by simp)]
      rw [show ln + (i :: j :: is).length = ln + 1 + (j :: is).length by simp; omega]
      cases docTokens src (ln + 1 + (j :: is).length) 0 rest <;> rfl

theorem itemToks_mem {src : Option Str} {is : List ItemLine} {ln col : Nat} {x : ListLine} (h : x ∈ itemToks src ln col is) :
    x.1.type = .LIST ∧ x.2.type = .TEXT ∧ ∃ i ∈ is, x.1.value = i.mark ∧ x.2.value = i.text := by
  induction is generalizing ln col with
  | nil => simp [itemToks] at h
  | cons i is ih =>
    rcases List.mem_cons.1 h with rfl | h
    · exact ⟨rfl, rfl, i, by simp, rfl, rfl⟩
    · obtain ⟨h1, h2, j, hj, h3⟩ := ih h
      exact ⟨h1, h2, j, by simp [hj], h3⟩

theorem afterList_head {L : Nat} {ls : List Str} (h : AfterList L ls) {src : Option Str} {ln col : Nat} {ts : List Token}
    (ht : docTokens src ln col ls = .ok ts) : ∃ u us, ts = u :: us ∧ EndsList L u := by
  induction h generalizing ln col ts with
  | nil =>
    rw [docTokens] at ht; cases ht
    exact ⟨_, _, rfl, .inl ⟨.inl rfl, rfl⟩⟩
  | empty rest =>
    rcases docTokens_blank_line (src := src) (ln := ln) (col := col) (l := []) (rest := rest) (by intro c hc; simp at hc) with ⟨_, _, e⟩ | e
    · rw [e] at ht; cases ht
      exact ⟨_, _, rfl, .inl ⟨.inl rfl, rfl⟩⟩
    · rw [e] at ht
      obtain ⟨x, _, rfl⟩ := map_ok ht
      exact ⟨_, _, rfl, .inl ⟨.inr rfl, rfl⟩⟩
  | @lower i rest h hl =>
    rw [docTokens_special h] at ht
    obtain ⟨x, _, rfl⟩ := map_ok ht
    exact ⟨_, _, rfl, .inr ⟨rfl, hl⟩⟩
  | comment h hr ih =>
    rw [docTokens_special h] at ht
    obtain ⟨x, hx, rfl⟩ := map_ok ht
    exact ih hx
  | comments h hr ih =>
    rw [docTokens_comment h] at ht
    exact ih ht

/-- List lines at least as deep as the first. -/
theorem reads_list {P : Parser} {ln col : Nat} {i : ItemLine} {is : List ItemLine} {rest : List Str} {s s1 : DocSt} {es : List Entry}
    (hi : ∀ j ∈ i :: is, j.Ok ∧ i.mark.length ≤ j.mark.length) (hr : AfterList i.mark.length rest)
    (hits : P.items s (itemToks P.src ln col (i :: is)) = .ok (es, s1)) :
    ∃ ns, Lists i.mark.length es ns ∧
      Reads P ln col ((i :: is).map (·.line) ++ rest) s (listStep s1 (tokAt .LIST i.mark ln (col + i.indent.length) P.src) ns)
        (ln + (i :: is).length) rest := by
  have hall : ∀ x ∈ itemToks P.src ln col (i :: is), x.1.type = .LIST ∧ x.2.type = .TEXT ∧ x.1.value ≠ [] ∧ i.mark.length ≤ x.1.value.length := by
    intro x hx
    obtain ⟨h1, h2, j, hj, h3, _⟩ := itemToks_mem hx
    refine ⟨h1, h2, ?_, ?_⟩
    · rw [h3]; exact lineForm_list_ne (hi j hj).1.1
    · rw [h3]; exact (hi j hj).2
  have hlex := itemToks_docTokens (src := P.src) (ln := ln) (col := col) (rest := rest) (fun j hj => (hi j hj).1) (is := i :: is) (by simp)
  -- the nodes do not depend on what follows
  have key : ∀ u ts, EndsList i.mark.length u → ∃ ns, Lists i.mark.length es ns ∧
      Does (2 * (itemToks P.src ln col (i :: is)).length) (listStep s1 (tokAt .LIST i.mark ln (col + i.indent.length) P.src) ns)
        (listProc P.fuel (lineToks (itemToks P.src ln col (i :: is)) ++ u :: ts) (start s)) := by
    intro u ts hu
    exact list_does (l := (itemToks P.src ln col (i :: is)).head (by simp [itemToks]))
      (ls := itemToks P.src (ln + 1) 0 is) (u := u) (ts := ts) hall hu hits
  by_cases hx : Lexes P.src (ln + (i :: is).length) rest
  · obtain ⟨ts, hts⟩ := hx
    obtain ⟨u, us, rfl, hu⟩ := afterList_head hr hts
    obtain ⟨ns, h1, h2⟩ := key u us hu
    refine ⟨ns, h1, Does.reads (t := tokAt .LIST i.mark ln (col + i.indent.length) P.src)
      (chunk := tokAt .TEXT i.text ln (col + i.indent.length + i.mark.length + i.spaces.length) P.src :: lineToks (itemToks P.src (ln + 1) 0 is))
      (nt_listStep _ _ _) hlex (by simp [tokAt]) ?_ ?_⟩
    · intro t ht
      have : t ∈ lineToks (itemToks P.src ln col (i :: is)) := ht
      unfold lineToks at this
      obtain ⟨x, hx, hm⟩ := List.mem_flatMap.1 this
      obtain ⟨h1, h2, _⟩ := hall x hx
      simp at hm
      rcases hm with rfl | rfl
      · rw [h1]; simp
      · rw [h2]; simp
    · intro ts hts2
      rw [hts] at hts2
      cases hts2
      have e : 2 * (itemToks P.src ln col (i :: is)).length = (tokAt .TEXT i.text ln (col + i.indent.length + i.mark.length + i.spaces.length) P.src ::
        lineToks (itemToks P.src (ln + 1) 0 is)).length + 1 := by
        simp [itemToks, lineToks_length]; omega
      rw [e] at h2
      exact h2
  · obtain ⟨ns, h1, h2⟩ := key (tokAt .EOF [] 0 0 none) [] (.inl ⟨.inl rfl, rfl⟩)
    refine ⟨ns, h1, ?_, fun e _ hl => absurd hl hx, fun e h => by rw [run_eq, hlex, h]; rfl⟩
    intro s' _
    rw [run_eq, run_eq, hlex]
    cases hd : docTokens P.src (ln + (i :: is).length) 0 rest with
    | ok ts => exact absurd ⟨ts, hd⟩ hx
    | error e => rfl

/-- A successful reading does the step and goes on. -/
theorem Reads.success {P : Parser} {ln col ln' : Nat} {ls rest : List Str} {s s' : DocSt} {x : Except Err DocSt}
    (h : Reads P ln col ls s x ln' rest) (hr : P.run ln col ls s = .ok s') :
    ∃ s1, x = .ok s1 ∧ P.run ln' 0 rest s1 = .ok s' := by
  cases hx : x with
  | ok s1 => exact ⟨s1, rfl, by rw [← h.ok s1 hx, hr]⟩
  | error e =>
    exfalso
    cases hd : docTokens P.src ln' 0 rest with
    | ok ts => rw [h.err e hx ⟨ts, hd⟩] at hr; cases hr
    | error e => rw [h.lex e hd] at hr; cases hr

/-- An item that fails. -/
theorem reads_list_err {P : Parser} {ln col : Nat} {i : ItemLine} {is : List ItemLine} {rest : List Str} {s : DocSt} {e : Err}
    (hi : ∀ j ∈ i :: is, j.Ok ∧ i.mark.length ≤ j.mark.length) (hr : AfterList i.mark.length rest)
    (hits : P.items s (itemToks P.src ln col (i :: is)) = .error e) (hl : Lexes P.src (ln + (i :: is).length) rest) :
    P.run ln col ((i :: is).map (·.line) ++ rest) s = .error e := by
  have hall : ∀ x ∈ itemToks P.src ln col (i :: is), x.1.type = .LIST ∧ x.2.type = .TEXT ∧ x.1.value ≠ [] ∧ i.mark.length ≤ x.1.value.length := by
    intro x hx
    obtain ⟨h1, h2, j, hj, h3, _⟩ := itemToks_mem hx
    refine ⟨h1, h2, ?_, ?_⟩
    · rw [h3]; exact lineForm_list_ne (hi j hj).1.1
    · rw [h3]; exact (hi j hj).2
  have hlex := itemToks_docTokens (src := P.src) (ln := ln) (col := col) (rest := rest) (fun j hj => (hi j hj).1) (is := i :: is) (by simp)
  obtain ⟨ts, hts⟩ := hl
  obtain ⟨u, us, rfl, hu⟩ := afterList_head hr hts
  refine run_step_err (t := tokAt .LIST i.mark ln (col + i.indent.length) P.src)
      (chunk := tokAt .TEXT i.text ln (col + i.indent.length + i.mark.length + i.spaces.length) P.src :: lineToks (itemToks P.src (ln + 1) 0 is))
      hlex hts (by simp [tokAt]) ?_
  refine (try_proc (t := tokAt .LIST i.mark ln (col + i.indent.length) P.src) rfl).2 _ ?_
  exact list_fails (l := (itemToks P.src ln col (i :: is)).head (by simp [itemToks])) (ls := itemToks P.src (ln + 1) 0 is) hall hu hits
    (fun he => nt_items P _ s (by rw [hits, he]))

end Mau
