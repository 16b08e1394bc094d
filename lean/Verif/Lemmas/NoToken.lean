import Verif.Lemmas.DocSteps
import Verif.Lemmas.TextFuel

set_option linter.unusedSimpArgs false

/-!
# The internal token error never leaves a parser

`TokenError` is caught by the loop of `BaseParser.parse`.
-/

namespace Mau
open Spec

/-- The result is not the internal token error. -/
def NT {α : Type} (x : Except Err α) : Prop := x ≠ .error .token

theorem NT.ok {α : Type} {a : α} : NT (.ok a) := by intro h; cases h
theorem NT.err {α : Type} {e : Err} (h : e ≠ .token) : NT (.error e : Except Err α) := by
  intro h'; cases h'; exact h rfl
theorem NT.pure {α : Type} {a : α} : NT (Pure.pure a : Except Err α) := NT.ok
theorem NT.bind {α β : Type} {x : Except Err α} {f : α → Except Err β} (h : NT x) (hf : ∀ a, x = .ok a → NT (f a)) : NT (x >>= f) := by
  cases x with
  | error e => exact NT.err (fun he => h (by rw [he]))
  | ok a => exact hf a rfl

theorem nt_checkToken {t : Token} : NT (TM.checkToken t none none none) := by
  simp [TM.checkToken, NT]

theorem nt_peek (tm : TM) : NT tm.peek := by
  unfold TM.peek
  split
  · exact nt_checkToken
  · split
    · exact NT.err (by simp)
    · exact nt_checkToken

theorem nt_peekIs (tm : TM) (ty : TokenType) (v : Option Str) : NT (tm.peekIs ty v) := by
  unfold TM.peekIs
  split
  · exact NT.ok
  · exact NT.ok
  · rename_i e h _
    exact NT.err h

theorem nt_tryFns {α : Type} (next : Token) (fs : List (TokFn α)) (tm : TM) : NT (tryFns next fs tm) := by
  induction fs with
  | nil => exact NT.err (by simp)
  | cons f fs ih =>
    unfold tryFns
    split
    · exact NT.ok
    · exact ih
    · rename_i e h _
      exact NT.err h

theorem nt_parseLoop {α : Type} (fs : List α → List (TokFn α)) (n : Nat) : ∀ (last : Token) (tm : TM) (acc : List α),
    NT (parseLoop fs n last tm acc) := by
  induction n with
  | zero => intro last tm acc; exact NT.err (by simp)
  | succ n ih =>
    intro last tm acc
    unfold parseLoop
    refine (nt_peekIs tm .EOF none).bind fun b _ => ?_
    split
    · exact NT.ok
    · refine (nt_peek tm).bind fun t _ => ?_
      split
      · exact NT.err (by simp)
      · exact (nt_tryFns _ _ _).bind fun r _ => ih _ _ _

theorem nt_preprocessNodes (env : Env) (text : Str) (sl sc : Nat) (src : Option Str) : NT (preprocessNodes env text sl sc src) := by
  unfold preprocessNodes
  rw [lexPre_eq]
  exact NT.ok.bind fun ts _ => nt_parseLoop _ _ _ _ _

theorem nt_preprocess (env : Env) (text : Str) (sl sc : Nat) (src : Option Str) : NT (preprocess env text sl sc src) :=
  (nt_preprocessNodes env text sl sc src).bind fun _ _ => NT.ok

theorem nt_nestInsert (path : List Str) (v : Val) : ∀ out, NT (nestInsert path v out) := by
  induction path with
  | nil => intro out; exact NT.ok
  | cons k ks ih =>
    intro out
    cases ks with
    | nil => exact NT.ok
    | cons k2 ks =>
      unfold nestInsert
      split
      · exact NT.err (by simp)
      · rename_i sub _
        have := ih sub
        split
        · rename_i e he
          rw [he] at this
          exact NT.err (fun h => this (by rw [h]))
        · exact NT.ok

theorem nt_nestFlat (d : Dict Val) : ∀ out, NT (nestFlat d out) := by
  induction d with
  | nil => intro out; exact NT.ok
  | cons kv d ih =>
    intro out
    unfold nestFlat
    have := nt_nestInsert (keyPath kv.1) kv.2 out
    split
    · rename_i e he
      rw [he] at this
      exact NT.err (fun h => this (by rw [h]))
    · exact ih _

theorem nt_asdict (e : Env) : NT (Env.asdict e) := nt_nestFlat e []

theorem nt_aliasArgs (l : List (Str × Nested)) : NT (aliasArgs l) := by
  induction l with
  | nil => exact NT.ok
  | cons x xs ih =>
    obtain ⟨k, v⟩ := x
    cases v with
    | dict d => exact NT.err (by simp)
    | leaf v =>
      cases v with
      | str s => exact ih.bind fun _ _ => NT.ok
      | list => exact NT.err (by simp)
      | emptyDict => exact NT.err (by simp)
      | other => exact NT.err (by simp)

theorem nt_lookupAlias (env : Env) (name : Str) : NT (lookupAlias env name) := by
  unfold lookupAlias
  dsimp only
  repeat' first
    | exact NT.ok
    | exact NT.err (by simp)
    | exact nt_asdict _
    | exact nt_aliasArgs _
    | split
    | refine NT.bind ?_ fun _ _ => ?_

theorem nt_isolate (u : List CtxText) (n : Dict CtxText) : NT (isolate u n) := by
  unfold isolate
  simp only
  split
  · exact NT.err (by simp)
  · split
    · exact NT.err (by simp)
    · exact NT.ok

theorem locateArgs_ok {ts : List Token} {x : Except Err ParsedArgs} {p : ParsedArgs} : locateArgs ts x = .ok p ↔ x = .ok p := by
  unfold locateArgs
  split
  · simp
  · rfl

theorem nt_locateArgs {ts : List Token} {x : Except Err ParsedArgs} (h : NT x) : NT (locateArgs ts x) := by
  unfold locateArgs
  split
  · rename_i e t _
    refine NT.err fun h' => h ?_
    have : e = .token := by
      cases e <;> first | rfl | (rename_i c; cases c <;> cases h') | cases h'
    rw [this]
  · exact h

theorem nt_parseArgs (env : Env) (text : Str) (sl sc : Nat) (src : Option Str) : NT (parseArgs env text sl sc src) := by
  unfold parseArgs
  rw [lexArgs_eq]
  refine NT.ok.bind fun ts _ => nt_locateArgs ?_
  unfold parseArgTokens
  refine (nt_parseLoop _ _ _ _ _).bind fun items _ => ?_
  unfold isolateTagsAndSubtype
  refine (nt_isolate _ _).bind fun p _ => ?_
  split
  · exact NT.ok
  · exact (nt_lookupAlias _ _).bind fun _ _ => NT.ok

theorem nt_processArgs (env : Env) (t : Token) : NT (processArguments env t) := nt_parseArgs _ _ _ _ _

theorem nt_processArgsVars (env : Env) (t : Token) : NT (processArgumentsWithVariables env t) :=
  (nt_preprocess _ _ _ _ _).bind fun _ _ => nt_parseArgs _ _ _ _ _

theorem nt_mkControl (a b c d : Str) (ctx : Context) : NT (mkControl a b c d ctx) := by
  unfold mkControl
  repeat' split
  all_goals first | exact NT.ok | exact NT.err (by simp)

theorem nt_control (c : Control) (env : Env) : NT (c.process env) := by
  unfold Control.process
  split
  · exact NT.err (by simp)
  · exact NT.ok

theorem nt_firstMatch {fs : List ProcFn} {b : TextBuffer} (h : ∀ f ∈ fs, ∀ b, NT (f b)) : NT (firstMatch fs b) := by
  induction fs with
  | nil => exact NT.ok
  | cons f fs ih =>
    unfold firstMatch
    have := h f (by simp) b
    split
    · rename_i e he
      rw [he] at this
      exact NT.err (fun h => this (by rw [h]))
    · exact ih fun f hf => h f (by simp [hf])
    · exact NT.ok

theorem nt_runLexer {fs : List ProcFn} {b : TextBuffer} (h : ∀ f ∈ fs, ∀ b, NT (f b)) : NT (runLexer fs b) := by
  unfold runLexer
  have hstep : ∀ last b, NT (lexStep fs last b) := by
    intro last b
    unfold lexStep
    split
    · exact NT.err (by simp)
    · refine nt_firstMatch fun f hf b => ?_
      simp only [List.cons_append, List.nil_append, List.mem_cons, List.mem_append, List.not_mem_nil, or_false] at hf
      rcases hf with rfl | rfl | rfl | hf | rfl
      · unfold processEof; split <;> exact NT.ok
      · unfold processEmptyLine; split <;> exact NT.ok
      · unfold processTrailingSpaces; split <;> exact NT.ok
      · exact h f hf b
      · exact NT.err (by simp)
  have main : ∀ n last b acc, NT (lexLoop fs n last b acc) := by
    intro n
    induction n with
    | zero => intro last b acc; exact NT.err (by simp)
    | succ n ih =>
      intro last b acc
      unfold lexLoop
      have := hstep last b
      split
      · rename_i e he
        rw [he] at this
        exact NT.err (fun h => this (by rw [h]))
      · dsimp only
        split
        · exact NT.ok
        · exact ih _ _ _
  exact main _ _ _ _

theorem nt_parseCondition (text : Str) (sl sc : Nat) (src : Option Str) : NT (parseCondition text sl sc src) := by
  unfold parseCondition lexCondition
  refine NT.bind (nt_runLexer ?_) fun ts _ => (nt_parseLoop _ _ _ _ _).bind fun items _ => NT.ok
  intro f hf b
  simp only [conditionLexerFns, List.mem_cons, List.not_mem_nil, or_false] at hf
  subst hf
  unfold conditionFn
  split <;> exact NT.ok

theorem nt_processCondition (env : Env) (t : Token) : NT (processConditionWithVariables env t) :=
  (nt_preprocess _ _ _ _ _).bind fun _ _ => nt_parseCondition _ _ _ _

theorem nt_definition (env : Env) (name value : Str) (ctx : Context) : NT (definition env name value ctx) := by
  unfold definition
  have := nt_preprocess env value ctx.startLine ctx.startColumn ctx.source
  repeat' split
  · exact NT.ok
  · exact NT.ok
  · exact NT.err (by simp)
  · rename_i e he
    rw [he] at this
    exact NT.err (fun h => this (by rw [h]))
  · exact NT.err (by simp)
  · exact NT.ok

/-! ## The text parser -/

/-- A function of the text parser never raises the token error as another exception. -/
def PNT {σ α : Type} (x : PRes σ α) : Prop := x ≠ .err .token

theorem PNT.bind {α β : Type} {x : PM α} {f : α → PM β} (hx : ∀ s, PNT (x s)) (hf : ∀ a s, PNT (f a s)) : ∀ s, PNT ((x >>= f) s) := by
  intro s
  change PNT (PM.bind x f s)
  unfold PM.bind
  have := hx s
  split
  · exact hf _ _
  · intro h; cases h
  · rename_i e he
    rw [he] at this
    intro h; cases h; exact this rfl

theorem PNT.orElse {α : Type} {x y : PM α} (hx : ∀ s, PNT (x s)) (hy : ∀ s, PNT (y s)) : ∀ s, PNT (PM.orElse x y s) := by
  intro s
  unfold PM.orElse
  have := hx s
  split
  · intro h; cases h
  · exact hy _
  · rename_i e he
    rw [he] at this
    exact this

theorem PNT.pure {α : Type} (a : α) : ∀ s, PNT ((Pure.pure a : PM α) s) := by intro s h; cases h

theorem PNT.tm {α : Type} {toks : List Token} {f : TM → Except Err (α × TM)} : ∀ s, PNT (PM.tm toks f s) := by
  intro s
  unfold PM.tm
  split
  · intro h; cases h
  · intro h; cases h
  · rename_i e h _
    intro h'; cases h'; exact h rfl

theorem PNT.peek {α : Type} {toks : List Token} {f : TM → Except Err α} : ∀ s, PNT (PM.peek toks f s) := by
  intro s
  unfold PM.peek
  split
  · intro h; cases h
  · intro h; cases h
  · rename_i e h _
    intro h'; cases h'; exact h rfl

theorem PNT.lift {α : Type} {x : Except Err α} : ∀ s, PNT (PM.lift x s) := by
  intro s
  unfold PM.lift
  split
  · intro h; cases h
  · intro h; cases h
  · rename_i e h
    intro h'; cases h'; exact h rfl

theorem PNT.raise {α : Type} {e : Err} : ∀ s, PNT (PM.raise e s : PRes TextSt α) := by
  intro s
  unfold PM.raise
  split
  · intro h; cases h
  · rename_i e h
    intro h'; cases h'; exact h rfl

theorem PNT.ite {α : Type} {c : Prop} [Decidable c] {x y : PM α} (hx : ∀ s, PNT (x s)) (hy : ∀ s, PNT (y s)) :
    ∀ s, PNT ((if c then x else y) s) := by
  split
  · exact hx
  · exact hy

theorem pnt_mandatory {p : ParsedArgs} {key : Str} {m : Msg} {ctx : Context} : ∀ s, PNT (mandatory p key m ctx s) := by
  unfold mandatory
  cases Dict.get? p.named key
  rotate_left
  · exact PNT.pure _
  · exact PNT.raise

theorem pnt_fresh : ∀ s, PNT (PM.fresh s) := by intro s h; cases h

theorem pnt_textOr {sub : Str → Context → PM (List Node)} (h : ∀ v c s, PNT (sub v c s)) {o : Option CtxText} {d : List Node} :
    ∀ s, PNT (textOr sub o d s) := by
  unfold textOr
  cases o
  · exact PNT.pure _
  · exact h _ _

theorem pnt_dispatch {sub : Str → Context → PM (List Node)} (h : ∀ v c s, PNT (sub v c s)) {env : Env} {name : Token} {p : ParsedArgs}
    {ctx : Context} : ∀ s, PNT (macroDispatch env sub name p ctx s) := by
  unfold macroDispatch
  refine .ite ?_ (.ite ?_ (.ite ?_ (.ite ?_ (.ite ?_ (.ite ?_ (.ite ?_ (.ite ?_ (.ite ?_ (PNT.pure _)))))))))
  · unfold macroControlFn
    refine .bind .lift fun r => ?_
    cases r
    · exact PNT.pure _
    · exact h _ _
  · exact .bind pnt_mandatory fun t => .bind (pnt_textOr h) fun _ => PNT.pure _
  · exact .bind pnt_mandatory fun t => .bind pnt_fresh fun _ => .bind (pnt_textOr h) fun _ s h => by cases h
  · exact .bind pnt_mandatory fun t => .bind (pnt_textOr h) fun _ => PNT.pure _
  · exact .bind pnt_mandatory fun t => PNT.pure _
  · exact .bind pnt_mandatory fun t => .bind pnt_fresh fun _ s h => by cases h
  · exact .bind pnt_mandatory fun t => .bind (h _ _) fun _ => PNT.pure _
  · exact .bind pnt_mandatory fun t => PNT.pure _
  · exact .bind pnt_mandatory fun t => PNT.pure _

theorem pnt_text (env : Env) (n : Nat) :
    (∀ toks m s, PNT (sentenceLoop env toks n m s)) ∧ (∀ toks m s, PNT (parseItem env toks n m s)) ∧
    (∀ toks s, PNT (parseStyle env toks n s)) ∧ (∀ toks s, PNT (parseMacro env toks n s)) ∧
    (∀ v c s, PNT (parseStr env n v c s)) ∧ (∀ toks last s acc, NT (textMain env toks n last s acc)) := by
  induction n with
  | zero =>
    refine ⟨?_, ?_, ?_, ?_, ?_, ?_⟩
    · intro toks m s; unfold sentenceLoop; exact PNT.raise s
    · intro toks m s; unfold parseItem; exact PNT.raise s
    · intro toks s; unfold parseStyle; exact PNT.raise s
    · intro toks s; unfold parseMacro; exact PNT.raise s
    · intro v c s; unfold parseStr; exact PNT.raise s
    · intro toks last s acc; unfold textMain; exact NT.err (by simp)
  | succ n ih =>
    obtain ⟨h1, h2, h3, h4, h5, h6⟩ := ih
    refine ⟨?_, ?_, ?_, ?_, ?_, ?_⟩
    · intro toks m
      unfold sentenceLoop
      exact .bind (h2 _ _) fun ns => .ite (PNT.pure _) (.bind (h1 _ _) fun _ => PNT.pure _)
    · intro toks m
      unfold parseItem
      refine .bind .peek fun t => .ite (PNT.pure _) (.orElse ?_ (.orElse (h4 _) (.orElse ?_ (.orElse ?_ (.orElse (h3 _) ?_)))))
      · exact .bind .tm fun _ => .bind .tm fun _ => PNT.pure _
      · exact .bind .tm fun _ => .bind .tm fun _ => .bind .tm fun _ => PNT.pure _
      · exact .bind .tm fun _ => .bind .tm fun _ => .bind .tm fun _ => PNT.pure _
      · exact .bind .tm fun _ => PNT.pure _
    · intro toks
      unfold parseStyle
      exact .bind .tm fun _ => .bind (h1 _ _) fun _ => .bind .tm fun _ => PNT.pure _
    · intro toks
      unfold parseMacro
      refine .bind ?_ fun _ => pnt_dispatch h5
      unfold macroHead
      exact .bind .tm fun _ => .bind .tm fun _ => .bind .tm fun _ => .bind .tm fun _ => .bind .tm fun _ => .bind .tm fun _ =>
        .bind .lift fun _ => PNT.pure _
    · intro v c s
      unfold parseStr
      simp only [lexText_eq]
      have := h6 (inlineTokens textCut c.source c.startLine c.startColumn (Spec.lines v)) initialLast { uid := s.uid } []
      split
      · rename_i e he
        rw [he] at this
        intro h; cases h; exact this rfl
      · intro h; cases h
    · intro toks last s acc
      unfold textMain
      have p1 := nt_peekIs ⟨toks, s.next⟩ .EOF none
      have p2 := nt_peek ⟨toks, s.next⟩
      split
      · rename_i e he
        rw [he] at p1
        exact NT.err (fun h => p1 (by rw [h]))
      · exact NT.ok
      · split
        · rename_i e he
          rw [he] at p2
          exact NT.err (fun h => p2 (by rw [h]))
        · split
          · exact NT.err (by simp)
          · have p3 := h1 toks none s
            split
            · exact h6 _ _ _ _
            · exact NT.err (by simp)
            · rename_i e he
              rw [he] at p3
              exact NT.err (fun h => p3 (by rw [h]))

theorem nt_parseText (fuel : Nat) (env : Env) (text : Str) (sl sc : Nat) (src : Option Str) (uid : Nat) :
    NT (parseText fuel env text sl sc src uid) := by
  unfold parseText
  rw [lexText_eq]
  dsimp only
  have := (pnt_text env fuel).2.2.2.2.2 (inlineTokens textCut src sl sc (Spec.lines text)) initialLast { uid := uid } []
  split
  · rename_i e he
    rw [he] at this
    exact NT.err (fun h => this (by rw [h]))
  · exact NT.ok

end Mau
