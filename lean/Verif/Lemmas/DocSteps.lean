import Verif.Lemmas.DocRun
import Verif.Spec.Document

set_option linter.unusedSimpArgs false

/-!
# What a line does to the document parser
-/

namespace Mau
open Spec

/-! ## Running lines -/

theorem run_eq (P : Parser) (ln col : Nat) (ls : List Str) (s : DocSt) :
    P.run ln col ls s = (docTokens P.src ln col ls).bind fun toks => runToks P.cfg P.nested P.fuel toks s := by
  unfold Parser.run
  cases docTokens P.src ln col ls <;> rfl

theorem place_line {ln : Nat} {src : Option Str} {ps : List Piece} {col : Nat} {t : Token}
    (h : t ∈ place ln src col ps) : t.ctx.startLine = ln := by
  induction ps generalizing col with
  | nil => simp [place] at h
  | cons p ps ih =>
    cases p with
    | tok ty v =>
      simp only [place, List.mem_cons] at h
      rcases h with rfl | h
      · rfl
      · exact ih h
    | skip v => exact ih h

/-- Tokens start on the line of their text or later. -/
theorem docTokens_lines (src : Option Str) (ls : List Str) (ln col : Nat) (ts : List Token)
    (h : docTokens src ln col ls = .ok ts) : ∀ t ∈ ts, ln ≤ t.ctx.startLine := by
  revert ts
  refine docTokens_rec (src := src) (P := fun ln _ _ r => ∀ ts, r = .ok ts → ∀ t ∈ ts, ln ≤ t.ctx.startLine)
    ?_ ?_ ?_ ?_ ?_ ?_ ?_ ?_ ls ln col
  · intro ln col ts h; cases h; intro t ht; simp at ht; subst ht; exact Nat.le_refl _
  · intro ln col ts h; cases h; intro t ht; simp at ht; subst ht; exact Nat.le_refl _
  · intro ln col l rest _ _ ih ts h t ht
    obtain ⟨x, hx, rfl⟩ := map_ok h
    rcases List.mem_cons.1 ht with rfl | ht
    · exact Nat.le_refl _
    · exact Nat.le_trans (by omega) (ih x hx t ht)
  · intro ln col rest _ ts h; cases h
  · intro ln col cs rest _ ih ts h t ht
    exact Nat.le_trans (by omega) (ih ts h t ht)
  · intro ln col l rest _ _ ts h; cases h
  · intro ln col l cs rest _ _ ih ts h t ht
    obtain ⟨x, hx, rfl⟩ := map_ok h
    rcases List.mem_cons.1 ht with rfl | ht
    · exact Nat.le_refl _
    · rcases List.mem_append.1 ht with ht | ht
      · unfold contentToken at ht
        split at ht
        · simp at ht
        · simp at ht; subst ht; simp
      · rcases List.mem_cons.1 ht with rfl | ht
        · simp [tokAt]; omega
        · exact Nat.le_trans (by omega) (ih x hx t ht)
  · intro ln col l rest _ ih ts h t ht
    obtain ⟨x, hx, rfl⟩ := map_ok h
    rcases List.mem_append.1 ht with ht | ht
    · rw [place_line ht]; exact Nat.le_refl _
    · exact Nat.le_trans (by omega) (ih x hx t ht)

/-- One construct, at the level of lines: its tokens are `t :: chunk`, the rest of the lines starts on a later line. -/
theorem run_step {P : Parser} {ln col ln' : Nat} {ls rest : List Str} {t : Token} {chunk : List Token} {s s' : DocSt}
    (hlex : docTokens P.src ln col ls = (docTokens P.src ln' 0 rest).map fun ts => t :: chunk ++ ts)
    (hline : t.ctx.startLine < ln') (hc : ∀ u ∈ t :: chunk, u.type ≠ .EOF)
    (hf : ∀ ts, docTokens P.src ln' 0 rest = .ok ts →
      tryDocFns t (docFns P.cfg P.nested P.fuel (t :: chunk ++ ts)) (start s) = .ok () { s' with next := chunk.length + 1 }) :
    P.run ln col ls s = P.run ln' 0 rest s' := by
  rw [run_eq, run_eq, hlex]
  cases hr : docTokens P.src ln' 0 rest with
  | error e => rfl
  | ok ts =>
    have := runToks_step P.cfg P.nested P.fuel t chunk ts s _ (docTokens_ends _ _ _ _ _ hr) hc ?_ (hf ts hr) rfl
    · exact this
    · intro u hu e
      have := docTokens_lines _ _ _ _ _ hr u (List.mem_of_mem_head? hu)
      subst e
      omega

/-- A construct whose processing raises. -/
theorem run_step_err {P : Parser} {ln col ln' : Nat} {ls rest : List Str} {t : Token} {chunk ts : List Token} {s : DocSt} {e : Err}
    (hlex : docTokens P.src ln col ls = (docTokens P.src ln' 0 rest).map fun ts => t :: chunk ++ ts)
    (hr : docTokens P.src ln' 0 rest = .ok ts) (hc : t.type ≠ .EOF)
    (hf : tryDocFns t (docFns P.cfg P.nested P.fuel (t :: chunk ++ ts)) (start s) = .err e) :
    P.run ln col ls s = .error e := by
  rw [run_eq, hlex, hr]
  exact runToks_err P.cfg P.nested P.fuel t (chunk ++ ts) s e hc hf

/-! ## Reading tokens -/

theorem get_at {toks : List Token} {t : Token} {s : DocSt} {ty : Option TokenType} {v : Option Str} {f : Option (Str → Bool)}
    (h : toks[s.next]? = some t) (hc : TM.checkToken t ty v f = .ok t) :
    DM.tm toks (·.get ty v f) s = .ok t { s with next := s.next + 1 } := by
  have hl : s.next < toks.length := by
    rcases Nat.lt_or_ge s.next toks.length with h' | h'
    · exact h'
    · rw [List.getElem?_eq_none h'] at h; cases h
  have hlast : ∃ l, toks.getLast? = some l := by
    cases hx : toks.getLast? with
    | none => rw [List.getLast?_eq_none_iff.1 hx] at hl; simp at hl
    | some l => exact ⟨l, rfl⟩
  obtain ⟨l, hlast⟩ := hlast
  have h1 : TM.peek ⟨toks, s.next⟩ ty v f = .ok t := by
    unfold TM.peek
    simp only [h, hc]
  unfold DM.tm TM.get
  simp only [h1, TM.advance, if_pos (show s.next < toks.length + 1 by omega), TM.currentToken, hlast]
  rw [show toks.getD s.next l = t by rw [List.getD_eq_getElem?_getD, h]; rfl]

theorem peek_at {toks : List Token} {t : Token} {s : DocSt} {ty : Option TokenType} {v : Option Str} {f : Option (Str → Bool)}
    (h : toks[s.next]? = some t) (hc : TM.checkToken t ty v f = .ok t) :
    DM.peek toks (·.peek ty v f) s = .ok t s := by
  unfold DM.peek TM.peek
  simp only [h, hc]
  rfl

theorem get_fail {toks : List Token} {t : Token} {s : DocSt} {ty : Option TokenType} {v : Option Str} {f : Option (Str → Bool)}
    (h : toks[s.next]? = some t) (hc : TM.checkToken t ty v f = .error .token) :
    DM.tm toks (·.get ty v f) s = .fail s := by
  unfold DM.tm TM.get TM.peek
  simp only [h, hc]

theorem peek_fail {toks : List Token} {t : Token} {s : DocSt} {ty : Option TokenType} {v : Option Str} {f : Option (Str → Bool)}
    (h : toks[s.next]? = some t) (hc : TM.checkToken t ty v f = .error .token) :
    DM.peek toks (·.peek ty v f) s = .fail s := by
  unfold DM.peek TM.peek DM.lift
  simp only [h, hc]

theorem chk_type {t : Token} {ty : TokenType} (h : t.type = ty) : TM.checkToken t (some ty) none none = .ok t := by
  simp [TM.checkToken, h]

theorem chk_value {t : Token} {ty : TokenType} {v : Str} (h : t.type = ty) (hv : t.value = v) :
    TM.checkToken t (some ty) (some v) none = .ok t := by
  simp [TM.checkToken, h, hv]

theorem chk_any {t : Token} : TM.checkToken t none none none = .ok t := by
  simp [TM.checkToken]

theorem check_wrong {t : Token} {ty : TokenType} {v : Option Str} (h : t.type ≠ ty) :
    TM.checkToken t (some ty) v none = .error .token := by
  have : ¬ ty = t.type := fun h' => h h'.symm
  simp [TM.checkToken, this]

/-! ## Choosing the processing function -/

/-- A function that only accepts one kind of token. -/
def Wants (ty : TokenType) (toks : List Token) (f : DM Unit) : Prop :=
  ∀ (s : DocSt) (t : Token), toks[s.next]? = some t → t.type ≠ ty → f s = .fail s

theorem wants_get {ty : TokenType} {v : Option Str} {toks : List Token} {g : Token → DM Unit} :
    Wants ty toks (DM.tm toks (·.get (some ty) v) >>= g) := by
  intro s t h hne
  exact DM.bind_of_fail (get_fail h (check_wrong hne))

theorem wants_peek {ty : TokenType} {v : Option Str} {toks : List Token} {g : Token → DM Unit} :
    Wants ty toks (DM.peek toks (·.peek (some ty) v) >>= g) := by
  intro s t h hne
  exact DM.bind_of_fail (peek_fail h (check_wrong hne))

theorem try_skip {next : Token} {f : DM Unit} {fs : List (DM Unit)} {s : DocSt} (h : f s = .fail s) :
    tryDocFns next (f :: fs) s = tryDocFns next fs s := by
  change (match f s with | .ok a s' => PRes.ok a s' | .fail s' => tryDocFns next fs { s' with next := s.next } | .err e => .err e) = _
  rw [h]

theorem try_take {next : Token} {f : DM Unit} {fs : List (DM Unit)} {s s' : DocSt} (h : f s = .ok () s') :
    tryDocFns next (f :: fs) s = .ok () s' := by
  change (match f s with | .ok a s' => PRes.ok a s' | .fail s' => tryDocFns next fs { s' with next := s.next } | .err e => .err e) = _
  rw [h]

theorem try_err {next : Token} {f : DM Unit} {fs : List (DM Unit)} {s : DocSt} {e : Err} (h : f s = .err e) :
    tryDocFns next (f :: fs) s = .err e := by
  change (match f s with | .ok a s' => PRes.ok a s' | .fail s' => tryDocFns next fs { s' with next := s.next } | .err e => .err e) = _
  rw [h]

/-- The processing function for a kind of token. -/
def procFor (cfg : Config) (nested : NestedParser) (fuel : Nat) (toks : List Token) : TokenType → DM Unit
  | .EOL => eolProc toks
  | .HORIZONTAL_RULE => ruleProc toks
  | .VARIABLE => variableProc toks
  | .LABEL => labelProc fuel toks
  | .CONTROL => controlProc toks
  | .ARGUMENTS => argumentsProc toks
  | .HEADER => headerProc fuel toks
  | .BLOCK => blockProc nested toks
  | .INCLUDE => includeProc cfg nested toks
  | .LIST => listProc fuel toks
  | _ => paragraphProc fuel toks

/-- The other functions do not take the token, so the function of its kind decides, if it does not give up. -/
theorem try_proc {cfg : Config} {nested : NestedParser} {fuel : Nat} {toks : List Token} {s : DocSt} {t next : Token}
    (h : toks[s.next]? = some t) :
    (∀ s', procFor cfg nested fuel toks t.type s = .ok () s' → tryDocFns next (docFns cfg nested fuel toks) s = .ok () s') ∧
    (∀ e, procFor cfg nested fuel toks t.type s = .err e → tryDocFns next (docFns cfg nested fuel toks) s = .err e) := by
  have w1 : Wants .EOL toks (eolProc toks) := wants_get
  have w2 : Wants .HORIZONTAL_RULE toks (ruleProc toks) := wants_get
  have w3 : Wants .VARIABLE toks (variableProc toks) := wants_get
  have w4 : Wants .LABEL toks (labelProc fuel toks) := wants_get
  have w5 : Wants .CONTROL toks (controlProc toks) := wants_get
  have w6 : Wants .ARGUMENTS toks (argumentsProc toks) := wants_get
  have w7 : Wants .HEADER toks (headerProc fuel toks) := wants_get
  have w8 : Wants .BLOCK toks (blockProc nested toks) := wants_get
  have w9 : Wants .INCLUDE toks (includeProc cfg nested toks) := wants_get
  have w10 : Wants .LIST toks (listProc fuel toks) := wants_peek
  unfold docFns
  have g1 := fun hne => try_skip (next := next) (fs := (docFns cfg nested fuel toks).drop 1) (w1 s t h hne)
  have g2 := fun hne => try_skip (next := next) (fs := (docFns cfg nested fuel toks).drop 2) (w2 s t h hne)
  have g3 := fun hne => try_skip (next := next) (fs := (docFns cfg nested fuel toks).drop 3) (w3 s t h hne)
  have g4 := fun hne => try_skip (next := next) (fs := (docFns cfg nested fuel toks).drop 4) (w4 s t h hne)
  have g5 := fun hne => try_skip (next := next) (fs := (docFns cfg nested fuel toks).drop 5) (w5 s t h hne)
  have g6 := fun hne => try_skip (next := next) (fs := (docFns cfg nested fuel toks).drop 6) (w6 s t h hne)
  have g7 := fun hne => try_skip (next := next) (fs := (docFns cfg nested fuel toks).drop 7) (w7 s t h hne)
  have g8 := fun hne => try_skip (next := next) (fs := (docFns cfg nested fuel toks).drop 8) (w8 s t h hne)
  have g9 := fun hne => try_skip (next := next) (fs := (docFns cfg nested fuel toks).drop 9) (w9 s t h hne)
  have g10 := fun hne => try_skip (next := next) (fs := (docFns cfg nested fuel toks).drop 10) (w10 s t h hne)
  simp only [docFns, List.drop_succ_cons, List.drop_zero] at g1 g2 g3 g4 g5 g6 g7 g8 g9 g10
  constructor
  · intro s' hp
    cases hty : t.type <;> rw [hty] at hp <;> simp only [procFor] at hp <;>
    · simp only [hty, ne_eq, reduceCtorEq, not_false_eq_true, forall_const, not_true_eq_false, false_implies] at g1 g2 g3 g4 g5 g6 g7 g8 g9 g10
      try rw [g1]
      try rw [g2]
      try rw [g3]
      try rw [g4]
      try rw [g5]
      try rw [g6]
      try rw [g7]
      try rw [g8]
      try rw [g9]
      try rw [g10]
      exact try_take hp
  · intro s' hp
    cases hty : t.type <;> rw [hty] at hp <;> simp only [procFor] at hp <;>
    · simp only [hty, ne_eq, reduceCtorEq, not_false_eq_true, forall_const, not_true_eq_false, false_implies] at g1 g2 g3 g4 g5 g6 g7 g8 g9 g10
      try rw [g1]
      try rw [g2]
      try rw [g3]
      try rw [g4]
      try rw [g5]
      try rw [g6]
      try rw [g7]
      try rw [g8]
      try rw [g9]
      try rw [g10]
      exact try_err hp

/-! ## The processing functions as steps -/

/-- The result `r` of a processing function is what the step says, with the index at `k`. -/
def Does (k : Nat) (x : Except Err DocSt) (r : PRes DocSt Unit) : Prop :=
  match x with
  | .ok s' => r = .ok () { s' with next := k }
  | .error e => e ≠ .token → r = .err e

theorem Does.run {P : Parser} {ln col ln' : Nat} {ls rest : List Str} {t : Token} {chunk : List Token} {s s' : DocSt} {x : Except Err DocSt}
    (hlex : docTokens P.src ln col ls = (docTokens P.src ln' 0 rest).map fun ts => t :: chunk ++ ts)
    (hline : t.ctx.startLine < ln') (hc : ∀ u ∈ t :: chunk, u.type ≠ .EOF)
    (hf : ∀ ts, docTokens P.src ln' 0 rest = .ok ts →
      Does (chunk.length + 1) x (procFor P.cfg P.nested P.fuel (t :: chunk ++ ts) t.type (start s)))
    (hx : x = .ok s') : P.run ln col ls s = P.run ln' 0 rest s' := by
  refine run_step hlex hline hc fun ts hts => ?_
  have := hf ts hts
  rw [hx] at this
  exact (try_proc (t := t) rfl).1 _ this

theorem Does.run_err {P : Parser} {ln col ln' : Nat} {ls rest : List Str} {t : Token} {chunk ts : List Token} {s : DocSt} {x : Except Err DocSt}
    {e : Err} (hlex : docTokens P.src ln col ls = (docTokens P.src ln' 0 rest).map fun ts => t :: chunk ++ ts)
    (hr : docTokens P.src ln' 0 rest = .ok ts) (hc : t.type ≠ .EOF)
    (hf : Does (chunk.length + 1) x (procFor P.cfg P.nested P.fuel (t :: chunk ++ ts) t.type (start s)))
    (hx : x = .error e) (he : e ≠ .token) : P.run ln col ls s = .error e := by
  refine run_step_err hlex hr hc ?_
  rw [hx] at hf
  exact (try_proc (t := t) rfl).2 _ (hf he)

/-- A pure step of the processing functions. -/
theorem Does.lift {α : Type} {k : Nat} {x : Except Err α} {f : α → Except Err DocSt} {g : α → DM Unit} {s : DocSt}
    (h : ∀ a, x = .ok a → Does k (f a) (g a s)) : Does k (x >>= f) ((DM.lift x >>= g) s) := by
  cases x with
  | ok a => exact h a rfl
  | error e =>
    intro he
    refine DM.bind_of_err ?_
    unfold DM.lift
    split
    · rename_i h; cases h
    · rename_i h; cases h; exact absurd rfl he
    · rename_i h; cases h; rfl

theorem Does.after {α : Type} {k : Nat} {x : Except Err DocSt} {m : DM α} {g : α → DM Unit} {s s1 : DocSt} {a : α}
    (h1 : m s = .ok a s1) (h2 : Does k x (g a s1)) : Does k x ((m >>= g) s) := by
  rw [DM.bind_of_ok h1]
  exact h2

theorem docText_pos (fuel : Nat) (text : Str) (ctx : Context) (s : DocSt) (k : Nat) :
    docText fuel text ctx { s with next := k } =
      match docText fuel text ctx s with
      | .ok ns s' => .ok ns { s' with next := k }
      | .fail s' => .fail { s' with next := k }
      | .err e => .err e := by
  unfold docText
  simp only
  cases preprocessNodes s.env text ctx.startLine ctx.startColumn ctx.source with
  | error e => cases e <;> rfl
  | ok ns =>
    cases ns with
    | nil => rfl
    | cons n ns =>
      simp only
      cases parseText fuel s.env (processedText (n :: ns)).value ctx.startLine ctx.startColumn ctx.source s.uid with
      | error e => cases e <;> rfl
      | ok r => rfl

theorem Does.inline {P : Parser} {k j : Nat} {f : List Node × DocSt → Except Err DocSt} {g : List Node → DM Unit} {s : DocSt}
    {text : Str} {ctx : Context} (h : ∀ r, P.inline s text ctx = .ok r → Does k (f r) (g r.1 { r.2 with next := j })) :
    Does k (P.inline s text ctx >>= f) ((docText P.fuel text ctx >>= g) { s with next := j }) := by
  have e := docText_pos P.fuel text ctx s j
  unfold Parser.inline at h ⊢
  cases hd : docText P.fuel text ctx s with
  | ok ns s' =>
    rw [hd] at e h
    rw [DM.bind_of_ok e]
    exact h (ns, s') rfl
  | fail s' => intro he; exact absurd rfl he
  | err er =>
    rw [hd] at e
    rw [DM.bind_of_err e]
    intro he; rfl

/-- What the inline parser leaves alone. -/
theorem inline_keeps {P : Parser} {s : DocSt} {text : Str} {ctx : Context} {r : List Node × DocSt} (h : P.inline s text ctx = .ok r) :
    ∃ uid fm lm pl, r.2 = { s with uid := uid, footnoteMacros := fm, linkMacros := lm, places := pl } := by
  unfold Parser.inline docText at h
  cases hp : preprocessNodes s.env text ctx.startLine ctx.startColumn ctx.source with
  | error e => rw [hp] at h; cases e <;> cases h
  | ok ns =>
    rw [hp] at h
    cases ns with
    | nil => cases h; exact ⟨_, _, _, _, rfl⟩
    | cons n ns =>
      simp only at h
      cases ht : parseText P.fuel s.env (processedText (n :: ns)).value ctx.startLine ctx.startColumn ctx.source s.uid with
      | error e => rw [ht] at h; cases e <;> cases h
      | ok r => rw [ht] at h; cases h; exact ⟨_, _, _, _, rfl⟩

/-- Evaluate the pending control, with the arguments and labels already popped. -/
theorem Does.control {k : Nat} {s : DocSt} {f : Bool → Except Err DocSt} {g : Bool → DM Unit}
    (h : ∀ b, allowed s = .ok b → Does k (f b) (g b { used s with next := k })) :
    Does k (allowed s >>= f) ((popControl >>= g) { s with next := k, argsBuf := none, labelBuf := [] }) := by
  have hc : popControl { s with next := k, argsBuf := none, labelBuf := [] } =
      DM.lift (allowed s) { used s with next := k } := by
    unfold popControl allowed used
    cases s.controlBuf with
    | none => rfl
    | some c => rfl
  cases ha : allowed s with
  | error e =>
    intro he
    refine DM.bind_of_err (hc.trans ?_)
    rw [ha]
    cases e <;> first | rfl | exact absurd rfl he
  | ok b =>
    rw [DM.bind_of_ok (hc.trans (by rw [ha]; rfl : _ = PRes.ok b _))]
    exact h b ha

/-- Save a node, with the arguments and labels already popped. -/
theorem Does.put {k : Nat} {s : DocSt} {n : Node} :
    Does k (allowed s >>= fun keep => Except.ok (put s keep n)) (saveIfControl n { s with next := k, argsBuf := none, labelBuf := [] }) := by
  refine Does.control fun b _ => ?_
  cases b <;> rfl

theorem registerName_does {s : DocSt} {k : Nat} {name : Option Str} {id : Nat} {ctx : Context} :
    Does k (nameHeader s name id ctx) (registerName id name ctx { s with next := k }) := by
  unfold nameHeader registerName
  cases truthy name with
  | none => rfl
  | some nm =>
    simp only
    change Does k _ ((if Dict.has s.linkHeaders nm = true then _ else _ : DM Unit) _)
    by_cases hh : Dict.has s.linkHeaders nm = true
    · rw [if_pos hh, if_pos hh]
      intro _; rfl
    · rw [if_neg hh, if_neg hh]
      rfl

theorem nameHeader_used {s : DocSt} {name : Option Str} {id : Nat} {ctx : Context} :
    nameHeader (used s) name id ctx = (nameHeader s name id ctx).map used := by
  unfold nameHeader
  cases truthy name with
  | none => rfl
  | some nm =>
    simp only
    change (if Dict.has s.linkHeaders nm = true then _ else _) = _
    split <;> rfl

/-- Steps in sequence. -/
theorem Does.seq {k j : Nat} {x : Except Err DocSt} {f : DocSt → Except Err DocSt} {m : DM Unit} {g : Unit → DM Unit} {s : DocSt}
    (h1 : Does j x (m s)) (h2 : ∀ s', x = .ok s' → Does k (f s') (g () { s' with next := j })) : Does k (x >>= f) ((m >>= g) s) := by
  cases x with
  | error e => intro he; exact DM.bind_of_err (h1 he)
  | ok s' =>
    have := DM.bind_of_ok (g := g) h1
    rw [this]
    exact h2 s' rfl

theorem rule_does {s : DocSt} {t : Token} {ts : List Token} (h : t.type = .HORIZONTAL_RULE) :
    Does 1 (ruleStep s t.ctx) (ruleProc (t :: ts) (start s)) := by
  unfold ruleProc ruleStep
  rw [DM.bind_of_ok (get_at (t := t) rfl (chk_type h))]
  exact Does.put

theorem label_does {P : Parser} {s : DocSt} {l t : Token} {ts : List Token} {role : Str} (h1 : l.type = .LABEL)
    (h2 : l.value = '.' :: role) (h3 : t.type = .TEXT) :
    Does 2 (P.labelStep s role t.value t.ctx) (labelProc P.fuel (l :: t :: ts) (start s)) := by
  unfold labelProc Parser.labelStep
  rw [DM.bind_of_ok (get_at (t := l) rfl (chk_type h1)), DM.bind_of_ok (get_at (t := t) rfl (chk_type h3))]
  refine Does.inline (s := s) fun r hr => ?_
  obtain ⟨u, f, m, pl, e⟩ := inline_keeps hr
  have e2 : r.2.labelBuf = s.labelBuf := by rw [e]
  rw [h2]
  cases role with
  | nil => rw [← e2]; rfl
  | cons c cs => rw [← e2]; rfl

theorem arguments_does {s : DocSt} {o t c : Token} {ts : List Token} (h1 : o.type = .ARGUMENTS) (h1' : o.value = ['['])
    (h2 : t.type = .TEXT) (h3 : c.type = .LITERAL) (h3' : c.value = [']']) :
    Does 3 (argumentsStep s t) (argumentsProc (o :: t :: c :: ts) (start s)) := by
  unfold argumentsProc argumentsStep
  rw [DM.bind_of_ok (get_at (t := o) rfl (chk_value h1 h1')), DM.bind_of_ok (get_at (t := t) rfl (chk_type h2)),
    DM.bind_of_ok (get_at (t := c) rfl (chk_value h3 h3'))]
  exact Does.lift fun p hp => rfl

theorem control_does {s : DocSt} {o t c : Token} {ts : List Token} (h1 : o.type = .CONTROL) (h1' : o.value = ['@'])
    (h2 : t.type = .TEXT) (h3 : c.type = .TEXT) :
    Does 3 (controlStep s t.value c (o.ctx.merge c.ctx)) (controlProc (o :: t :: c :: ts) (start s)) := by
  unfold controlProc controlStep
  rw [DM.bind_of_ok (get_at (t := o) rfl (chk_value h1 h1')), DM.bind_of_ok (get_at (t := t) rfl (chk_type h2)),
    DM.bind_of_ok (get_at (t := c) rfl (chk_type h3))]
  refine Does.lift fun p hp => ?_
  cases p with
  | none => intro _; rfl
  | some c => exact Does.lift fun p hp => rfl

theorem header_does {P : Parser} {s : DocSt} {h t : Token} {ts : List Token} (h1 : h.type = .HEADER) (h2 : t.type = .TEXT) :
    Does 2 (P.headerStep s h.value.length t.value h.ctx t.ctx) (headerProc P.fuel (h :: t :: ts) (start s)) := by
  unfold headerProc Parser.headerStep
  rw [DM.bind_of_ok (get_at (t := h) rfl (chk_type h1)), DM.bind_of_ok (get_at (t := t) rfl (chk_type h2))]
  refine Does.inline (s := { s with uid := s.uid + 1 }) fun r hr => ?_
  obtain ⟨u, f, m, pl, e⟩ := inline_keeps hr
  have e1 : r.2.labelBuf = s.labelBuf := by rw [e]
  have e2 : args r.2 = args s := by rw [e]; rfl
  rw [← e1, ← e2]
  refine Does.lift fun tctx ht => ?_
  refine Does.control fun b _ => ?_
  cases b with
  | false => rfl
  | true =>
    simp only [if_true]
    unfold registerHeader
    have hn : nameHeader (used r.2) (Dict.get? (Dict.erase (args r.2).named c%"internal_id") c%"name") s.uid (h.ctx.merge tctx) =
        (nameHeader r.2 (Dict.get? (Dict.erase (args r.2).named c%"internal_id") c%"name") s.uid (h.ctx.merge tctx)).map used := nameHeader_used
    have hd := registerName_does (s := used r.2) (k := 2) (name := Dict.get? (Dict.erase (args r.2).named c%"internal_id") c%"name") (id := s.uid) (ctx := h.ctx.merge tctx)
    rw [hn] at hd
    cases hx : nameHeader r.2 (Dict.get? (Dict.erase (args r.2).named c%"internal_id") c%"name") s.uid (h.ctx.merge tctx) with
    | error e =>
      rw [hx] at hd
      intro he
      exact DM.bind_of_err (DM.bind_of_err (hd he))
    | ok s2 =>
      rw [hx] at hd
      exact (DM.bind_of_ok (a := ()) (s1 := { used s2 with
        next := 2, tocHeaders := s2.tocHeaders ++ [(s.uid, h.value.length)], objs := s2.objs ++ [_] })
        ((DM.bind_of_ok hd).trans rfl)).trans rfl

/-- The same for functions with a result. -/
def Gives {α : Type} (k : Nat) (x : Except Err (α × DocSt)) (r : PRes DocSt α) : Prop :=
  match x with
  | .ok (a, s') => r = .ok a { s' with next := k }
  | .error e => e ≠ .token → r = .err e

theorem Gives.bind {α : Type} {k j : Nat} {x : Except Err (α × DocSt)} {f : α × DocSt → Except Err DocSt} {m : DM α} {g : α → DM Unit}
    {s : DocSt} (h1 : Gives j x (m s)) (h2 : ∀ r, x = .ok r → Does k (f r) (g r.1 { r.2 with next := j })) :
    Does k (x >>= f) ((m >>= g) s) := by
  cases x with
  | error e => intro he; exact DM.bind_of_err (h1 he)
  | ok r =>
    rw [DM.bind_of_ok (g := g) h1]
    exact h2 r rfl

theorem Gives.seq {α β : Type} {k j : Nat} {x : Except Err (α × DocSt)} {f : α × DocSt → Except Err (β × DocSt)} {m : DM α} {g : α → DM β}
    {s : DocSt} (h1 : Gives j x (m s)) (h2 : ∀ r, x = .ok r → Gives k (f r) (g r.1 { r.2 with next := j })) :
    Gives k (x >>= f) ((m >>= g) s) := by
  cases x with
  | error e => intro he; exact DM.bind_of_err (h1 he)
  | ok r =>
    rw [DM.bind_of_ok (g := g) h1]
    exact h2 r rfl

theorem Gives.lift {α β : Type} {k : Nat} {x : Except Err α} {f : α → Except Err (β × DocSt)} {g : α → DM β} {s : DocSt}
    (h : ∀ a, x = .ok a → Gives k (f a) (g a s)) : Gives k (x >>= f) ((DM.lift x >>= g) s) := by
  cases x with
  | ok a => exact h a rfl
  | error e =>
    intro he
    refine DM.bind_of_err ?_
    cases e <;> first | rfl | exact absurd rfl he

theorem inline_gives {P : Parser} {j : Nat} {s : DocSt} {text : Str} {ctx : Context} :
    Gives j (P.inline s text ctx) (docText P.fuel text ctx { s with next := j }) := by
  rw [docText_pos]
  unfold Parser.inline
  cases docText P.fuel text ctx s with
  | ok ns s' => rfl
  | fail s' => intro he; exact absurd rfl he
  | err er => intro he; rfl

/-! ### Paragraphs -/

theorem collectLines_run {lines ts : List Token} {u : Token} (hl : ∀ t ∈ lines, t.type = .TEXT) (hu : u.type ≠ .TEXT) :
    ∀ (pre : List Token) (n : Nat) (s : DocSt), s.next = pre.length → lines.length < n →
      collectLines (pre ++ (lines ++ u :: ts)) n s = .ok lines { s with next := pre.length + lines.length } := by
  induction lines with
  | nil =>
    intro pre n s hs hn
    obtain ⟨n, rfl⟩ : ∃ k, n = k + 1 := ⟨n - 1, by omega⟩
    unfold collectLines
    have h1 : (pre ++ ([] ++ u :: ts))[s.next]? = some u := by
      rw [hs, List.getElem?_append_right (by omega)]; simp
    rw [DM.bind_of_ok (peek_at h1 chk_any), if_neg hu]
    change PRes.ok [] s = _
    simp [← hs]
  | cons t lines ih =>
    intro pre n s hs hn
    obtain ⟨n, rfl⟩ : ∃ k, n = k + 1 := ⟨n - 1, by omega⟩
    unfold collectLines
    have h1 : (pre ++ (t :: lines ++ u :: ts))[s.next]? = some t := by
      rw [hs, List.getElem?_append_right (by omega)]; simp
    have ht : t.type = .TEXT := hl t (by simp)
    rw [DM.bind_of_ok (peek_at h1 chk_any), if_pos ht, DM.bind_of_ok (get_at h1 (chk_type ht))]
    have := ih (fun t h => hl t (by simp [h])) (pre ++ [t]) n { s with next := s.next + 1 } (by simp [hs]) (by simp at hn; omega)
    rw [show pre ++ (t :: lines ++ u :: ts) = pre ++ [t] ++ (lines ++ u :: ts) by simp, DM.bind_of_ok this]
    change PRes.ok (t :: lines) _ = _
    simp
    omega

theorem inlineLines_gives {P : Parser} {j : Nat} {s : DocSt} {lines : List Token} :
    Gives j (P.inlineLines s lines) (paragraphLines P.fuel lines { s with next := j }) := by
  induction lines generalizing s with
  | nil => rfl
  | cons t ts ih =>
    unfold Parser.inlineLines paragraphLines
    exact Gives.seq inline_gives fun r hr => Gives.seq ih fun r2 hr2 => rfl

theorem inlineLines_keeps {P : Parser} {lines : List Token} {s : DocSt} {r : List Node × DocSt} (h : P.inlineLines s lines = .ok r) :
    ∃ uid fm lm pl, r.2 = { s with uid := uid, footnoteMacros := fm, linkMacros := lm, places := pl } := by
  induction lines generalizing s r with
  | nil => cases h; exact ⟨_, _, _, _, rfl⟩
  | cons t ts ih =>
    unfold Parser.inlineLines at h
    cases h1 : P.inline s t.value t.ctx with
    | error e => rw [h1] at h; cases h
    | ok r1 =>
      rw [h1] at h
      change (P.inlineLines r1.2 ts >>= _) = _ at h
      cases h2 : P.inlineLines r1.2 ts with
      | error e => rw [h2] at h; cases h
      | ok r2 =>
        rw [h2] at h
        cases h
        obtain ⟨u, f, m, pl, e⟩ := inline_keeps h1
        obtain ⟨u2, f2, m2, pl2, e2⟩ := ih h2
        exact ⟨u2, f2, m2, pl2, by rw [e2, e]⟩

theorem paragraph_does {P : Parser} {s : DocSt} {lines ts : List Token} {u : Token} (hl : ∀ t ∈ lines, t.type = .TEXT) (hu : u.type ≠ .TEXT) :
    Does lines.length (P.paragraphStep s lines) (paragraphProc P.fuel (lines ++ u :: ts) (start s)) := by
  unfold paragraphProc Parser.paragraphStep
  have := collectLines_run (ts := ts) hl hu [] ((lines ++ u :: ts).length + 2) (start s) rfl (by simp; omega)
  simp only [List.nil_append, List.length_nil, Nat.zero_add] at this
  rw [DM.bind_of_ok this]
  refine Gives.bind (inlineLines_gives (s := s)) fun r hr => ?_
  obtain ⟨uid, f, m, pl, e⟩ := inlineLines_keeps hr
  have e1 : r.2.labelBuf = s.labelBuf := by rw [e]
  have e2 : args r.2 = args s := by rw [e]; rfl
  rw [← e1, ← e2]
  exact Does.lift fun ctx hctx => Does.put

/-! ### Variables -/

theorem define_does_value {s : DocSt} {o n c v : Token} {ts : List Token} (h1 : o.type = .VARIABLE) (h1' : o.value = [':'])
    (h2 : n.type = .TEXT) (h3 : c.type = .LITERAL) (h3' : c.value = [':']) (h4 : v.type = .TEXT) :
    Does 4 (defineStep s n.value v.value ((o.ctx.merge c.ctx).merge v.ctx)) (variableProc (o :: n :: c :: v :: ts) (start s)) := by
  unfold variableProc defineStep
  rw [DM.bind_of_ok (get_at (t := o) rfl (chk_value h1 h1')), DM.bind_of_ok (get_at (t := n) rfl (chk_type h2)),
    DM.bind_of_ok (get_at (t := c) rfl (chk_value h3 h3'))]
  have hv : variableText (o :: n :: c :: v :: ts) (o.ctx.merge c.ctx) { s with next := 3 } =
      .ok (v.value, (o.ctx.merge c.ctx).merge v.ctx) { s with next := 4 } := by
    unfold variableText
    rw [DM.bind_of_ok (peek_at (t := v) rfl chk_any), if_pos h4, DM.bind_of_ok (get_at (t := v) rfl chk_any)]
    rfl
  refine Does.after hv ?_
  exact Does.lift fun d hd => rfl

theorem define_does_none {s : DocSt} {o n c u : Token} {ts : List Token} (h1 : o.type = .VARIABLE) (h1' : o.value = [':'])
    (h2 : n.type = .TEXT) (h3 : c.type = .LITERAL) (h3' : c.value = [':']) (h4 : u.type ≠ .TEXT) :
    Does 3 (defineStep s n.value [] (o.ctx.merge c.ctx)) (variableProc (o :: n :: c :: u :: ts) (start s)) := by
  unfold variableProc defineStep
  rw [DM.bind_of_ok (get_at (t := o) rfl (chk_value h1 h1')), DM.bind_of_ok (get_at (t := n) rfl (chk_type h2)),
    DM.bind_of_ok (get_at (t := c) rfl (chk_value h3 h3'))]
  have hv : variableText (o :: n :: c :: u :: ts) (o.ctx.merge c.ctx) { s with next := 3 } =
      .ok ([], o.ctx.merge c.ctx) { s with next := 3 } := by
    unfold variableText
    rw [DM.bind_of_ok (peek_at (t := u) rfl chk_any), if_neg h4]
    rfl
  refine Does.after hv ?_
  exact Does.lift fun d hd => rfl

/-! ### Blocks -/

theorem content_gives {P : Parser} {k : Nat} {s : DocSt} {t : Token} {a : NodeArgs} :
    Gives k (P.contentStep s t a) (blockContent P.nested t a { s with next := k }) := by
  unfold Parser.contentStep blockContent
  cases h : P.nested ⟨t.value, s.env, t.ctx.startLine, t.ctx.startColumn, t.ctx.source, [], s.uid, s.objs⟩ with
  | error e => intro he; cases e <;> first | rfl | exact absurd rfl he
  | ok inner =>
    change _ = _
    simp only
    by_cases hi : Dict.get? a.named c%"isolate" = some c%"false"
    · simp only [hi, if_true]; rfl
    · simp only [hi, if_false]

theorem engine_gives {P : Parser} {k : Nat} {s : DocSt} {engine : Str} {classes : List Str} {content : Option Token} {a : NodeArgs} {ctx : Context} :
    Gives k (P.engineStep s engine classes (content.filter fun t => !t.value.isEmpty) a ctx)
      (blockEngine P.nested engine classes content a ctx { s with next := k }) := by
  unfold Parser.engineStep blockEngine
  simp only
  cases content.filter fun t => !t.value.isEmpty with
  | none =>
    simp only
    by_cases h1 : engine = c%"default"
    · rw [if_pos h1, if_pos h1]; rfl
    · rw [if_neg h1, if_neg h1]
      by_cases h2 : engine = c%"raw"
      · rw [if_pos h2, if_pos h2]; rfl
      · rw [if_neg h2, if_neg h2]
        by_cases h3 : engine = c%"source"
        · rw [if_pos h3, if_pos h3]; rfl
        · rw [if_neg h3, if_neg h3]; intro _; rfl
  | some t =>
    simp only
    by_cases h1 : engine = c%"default"
    · rw [if_pos h1, if_pos h1]; exact Gives.seq content_gives fun r hr => rfl
    · rw [if_neg h1, if_neg h1]
      by_cases h2 : engine = c%"raw"
      · rw [if_pos h2, if_pos h2]; rfl
      · rw [if_neg h2, if_neg h2]
        by_cases h3 : engine = c%"source"
        · rw [if_pos h3, if_pos h3]; exact Gives.lift fun r hr => rfl
        · rw [if_neg h3, if_neg h3]; intro _; rfl

theorem content_keeps {P : Parser} {s : DocSt} {t : Token} {a : NodeArgs} {r : List Node × DocSt} (h : P.contentStep s t a = .ok r) :
    r.2.labelBuf = s.labelBuf ∧ r.2.argsBuf = s.argsBuf := by
  unfold Parser.contentStep at h
  cases hn : P.nested ⟨t.value, s.env, t.ctx.startLine, t.ctx.startColumn, t.ctx.source, [], s.uid, s.objs⟩ with
  | error e => rw [hn] at h; cases h
  | ok inner =>
    rw [hn] at h
    change Except.ok (inner.nodes, if _ then _ else _) = _ at h
    cases h
    split <;> exact ⟨rfl, rfl⟩

theorem engine_keeps {P : Parser} {s : DocSt} {engine : Str} {classes : List Str} {content : Option Token} {a : NodeArgs} {ctx : Context}
    {r : (NodeData × List Node × NodeArgs) × DocSt} (h : P.engineStep s engine classes content a ctx = .ok r) :
    r.2.labelBuf = s.labelBuf ∧ r.2.argsBuf = s.argsBuf := by
  unfold Parser.engineStep at h
  split at h
  · cases content with
    | none => cases h; exact ⟨rfl, rfl⟩
    | some t =>
      cases hc : P.contentStep s t a with
      | error e => simp only [hc] at h; cases h
      | ok r => simp only [hc] at h; cases h; exact content_keeps hc
  · split at h
    · cases content <;> cases h <;> exact ⟨rfl, rfl⟩
    · split at h
      · cases content with
        | none => cases h; exact ⟨rfl, rfl⟩
        | some t =>
          cases hc : sourceEngine s.env t a with
          | error e => simp only [hc] at h; cases h
          | ok r => simp only [hc] at h; cases h; exact ⟨rfl, rfl⟩
      · cases h

theorem place_does {s : DocSt} {k : Nat} {data : NodeData} {ns : List Node} {a : NodeArgs} {labels : Dict Node} {ctx own : Context}
    (ha : s.argsBuf = none) (hl : s.labelBuf = []) :
    Does k (placeStep s data ns a labels ctx own) (placeBlock data ns a labels ctx own { s with next := k }) := by
  unfold placeStep placeBlock
  cases truthy (Dict.get? a.named c%"footnote") with
  | some name =>
    simp only
    change Does k _ ((if Dict.has s.bodies name = true then _ else _ : DM Unit) _)
    by_cases hh : Dict.has s.bodies name = true
    · rw [if_pos hh, if_pos hh]; intro _; rfl
    · rw [if_neg hh, if_neg hh]; rfl
  | none =>
    simp only
    have hp : Does k (allowed s >>= fun keep => Except.ok (put s keep (Node.new data ctx ns a labels)))
        (saveIfControl (Node.new data ctx ns a labels) { s with next := k }) := by
      have := Does.put (k := k) (s := s) (n := Node.new data ctx ns a labels)
      rw [← ha, ← hl] at this
      exact this
    cases truthy (Dict.get? a.named c%"group") with
    | none => exact hp
    | some g =>
      cases truthy (Dict.get? a.named c%"position") with
      | none => exact hp
      | some p => exact Does.lift fun r hr => rfl

theorem block_does {P : Parser} {s : DocSt} {o c : Token} {content : Option Token} {ts : List Token} (h1 : o.type = .BLOCK)
    (h2 : ∀ t ∈ content, t.type = .TEXT) (h3 : c.type = .BLOCK) :
    Does (content.toList.length + 2) (P.blockStep s content (o.ctx.merge c.ctx))
      (blockProc P.nested (o :: content.toList ++ c :: ts) (start s)) := by
  unfold blockProc Parser.blockStep
  rw [List.cons_append, DM.bind_of_ok (get_at (t := o) rfl (chk_type h1))]
  have hb : blockText (o :: (content.toList ++ c :: ts)) { s with next := 1 } = .ok content { s with next := content.toList.length + 1 } := by
    unfold blockText
    cases content with
    | none =>
      rw [DM.bind_of_ok (peek_at (t := c) rfl chk_any), if_neg (by rw [h3]; simp)]
      rfl
    | some t =>
      have ht := h2 t rfl
      rw [DM.bind_of_ok (peek_at (t := t) rfl chk_any), if_pos ht, DM.bind_of_ok (get_at (t := t) rfl (chk_type ht))]
      rfl
  refine Does.after hb ?_
  have hc : (o :: (content.toList ++ c :: ts))[content.toList.length + 1]? = some c := by
    simp [List.getElem?_append_right]
  refine Does.after (get_at (t := c) hc (chk_type h3)) ?_
  refine Gives.bind (m := blockEngine P.nested _ _ content _ (o.ctx.merge c.ctx)) (j := content.toList.length + 2) engine_gives fun r hr => ?_
  have e1 : r.2.labelBuf = s.labelBuf ∧ r.2.argsBuf = none := engine_keeps hr
  rw [← e1.1]
  exact place_does (s := { r.2 with labelBuf := [] }) e1.2 rfl

/-! ### Includes -/

theorem Gives.after {α β : Type} {k : Nat} {x : Except Err (β × DocSt)} {m : DM α} {g : α → DM β} {s s1 : DocSt} {a : α}
    (h1 : m s = .ok a s1) (h2 : Gives k x (g a s1)) : Gives k x ((m >>= g) s) := by
  rw [DM.bind_of_ok h1]
  exact h2

theorem includeMau_gives {P : Parser} {k : Nat} {s : DocSt} {a : NodeArgs} {ctx : Context} :
    Gives k (P.includeMauStep s a ctx) (includeMau P.cfg P.nested a ctx { s with next := k }) := by
  unfold Parser.includeMauStep includeMau
  simp only [NodeArgs.pop]
  cases truthy (Dict.get? (a.setNames [c%"uri"]).named c%"uri") with
  | none => intro _; rfl
  | some uri =>
    simp only
    refine Gives.after (m := DM.modify _) (a := ()) rfl ?_
    refine Gives.after (m := DM.get) rfl ?_
    by_cases hf : (addForbidden s.forbidden ctx.source).contains (some uri) = true
    · rw [if_pos hf]
      intro _
      change (if (addForbidden s.forbidden ctx.source).contains (some uri) = true then _ else _ : DM _) _ = _
      rw [if_pos hf]
      rfl
    · rw [if_neg hf]
      change Gives k _ ((if (addForbidden s.forbidden ctx.source).contains (some uri) = true then _ else _ : DM _) _)
      rw [if_neg hf]
      refine Gives.after (m := DM.modify _) (a := ()) rfl ?_
      refine Gives.lift fun text ht => ?_
      refine Gives.lift fun env henv => ?_
      refine Gives.after (m := DM.get) rfl ?_
      refine Gives.lift fun inner hi => ?_
      rfl

theorem includeNode_gives {P : Parser} {k : Nat} {s : DocSt} {ctype : Str} {a : NodeArgs} {ctx : Context} :
    Gives k (P.includeNodeStep s ctype a ctx) (includeNode P.cfg P.nested ctype a ctx { s with next := k }) := by
  unfold Parser.includeNodeStep includeNode
  by_cases h1 : ctype = c%"image"
  · rw [if_pos h1, if_pos h1]; exact Gives.lift fun r hr => rfl
  rw [if_neg h1, if_neg h1]
  by_cases h2 : ctype = c%"mau"
  · rw [if_pos h2, if_pos h2]; exact includeMau_gives
  rw [if_neg h2, if_neg h2]
  by_cases h3 : ctype = c%"raw"
  · rw [if_pos h3, if_pos h3]
    cases hr : includeRaw P.cfg a ctx with
    | error e => intro he; cases e <;> first | rfl | exact absurd rfl he
    | ok r => rfl
  rw [if_neg h3, if_neg h3]
  by_cases h4 : ctype = c%"toc"
  · rw [if_pos h4, if_pos h4]; rfl
  rw [if_neg h4, if_neg h4]
  by_cases h5 : ctype = c%"footnotes"
  · rw [if_pos h5, if_pos h5]; rfl
  rw [if_neg h5, if_neg h5]
  by_cases h6 : ctype = c%"blockgroup"
  · rw [if_pos h6, if_pos h6]
    simp only [NodeArgs.pop]
    cases Dict.get? (a.setNames [c%"group"]).named c%"group" with
    | none => intro _; rfl
    | some g => rfl
  rw [if_neg h6, if_neg h6]
  rfl

theorem bind_ok_except {α β : Type} {x : Except Err α} {f : α → Except Err β} {b : β} (h : (x >>= f) = .ok b) :
    ∃ a, x = .ok a ∧ f a = .ok b := by
  cases x with
  | error e => cases h
  | ok a => exact ⟨a, rfl, h⟩

theorem includeMau_keeps {P : Parser} {s : DocSt} {a : NodeArgs} {ctx : Context}
    {r : (NodeData × List Node × NodeArgs) × DocSt} (h : P.includeMauStep s a ctx = .ok r) :
    r.2.labelBuf = s.labelBuf ∧ r.2.argsBuf = s.argsBuf := by
  unfold Parser.includeMauStep at h
  simp only at h
  cases hu : truthy (Dict.get? (a.setNames [c%"uri"]).named c%"uri") with
  | none => rw [hu] at h; cases h
  | some uri =>
    rw [hu] at h
    simp only at h
    split at h
    · cases h
    · obtain ⟨_, _, h⟩ := bind_ok_except h
      obtain ⟨_, _, h⟩ := bind_ok_except h
      obtain ⟨_, _, h⟩ := bind_ok_except h
      cases h
      exact ⟨rfl, rfl⟩

theorem includeNode_keeps {P : Parser} {s : DocSt} {ctype : Str} {a : NodeArgs} {ctx : Context}
    {r : (NodeData × List Node × NodeArgs) × DocSt} (h : P.includeNodeStep s ctype a ctx = .ok r) :
    r.2.labelBuf = s.labelBuf ∧ r.2.argsBuf = s.argsBuf := by
  unfold Parser.includeNodeStep at h
  split at h
  · obtain ⟨_, _, h⟩ := bind_ok_except h; cases h; exact ⟨rfl, rfl⟩
  split at h
  · exact includeMau_keeps h
  split at h
  · obtain ⟨_, _, h⟩ := bind_ok_except h; cases h; exact ⟨rfl, rfl⟩
  split at h
  · cases h; exact ⟨rfl, rfl⟩
  split at h
  · cases h; exact ⟨rfl, rfl⟩
  split at h
  · simp only at h
    split at h
    · cases h
    · cases h; exact ⟨rfl, rfl⟩
  · cases h; exact ⟨rfl, rfl⟩

theorem include_rest {P : Parser} {s : DocSt} {k : Nat} {ctype : Str} {a : NodeArgs} {ctx : Context} :
    Does k (P.includeStep s ctype a ctx) ((includeNode P.cfg P.nested ctype a ctx >>= fun r =>
      popLabels >>= fun labels => saveIfControl (Node.new r.1 ctx r.2.1 r.2.2 labels)) { s with next := k, argsBuf := none }) := by
  unfold Parser.includeStep
  refine Gives.bind (s := { s with next := k, argsBuf := none }) (includeNode_gives (s := { s with argsBuf := none })) fun r hr => ?_
  have e1 := includeNode_keeps hr
  have e2 : r.2.labelBuf = s.labelBuf := e1.1
  rw [← e2]
  have := Does.put (k := k) (s := r.2) (n := Node.new r.1.1 ctx r.1.2.1 r.1.2.2 r.2.labelBuf)
  have e3 : r.2.argsBuf = none := e1.2
  rw [← e3] at this
  exact this

theorem include_does_plain {P : Parser} {s : DocSt} {o t u : Token} {ts : List Token} (h1 : o.type = .INCLUDE) (h2 : t.type = .TEXT)
    (h3 : ¬ (u.type = .LITERAL ∧ u.value = [':'])) :
    Does 2 (P.includeStep s t.value (args s) (o.ctx.merge t.ctx)) (includeProc P.cfg P.nested (o :: t :: u :: ts) (start s)) := by
  unfold includeProc
  refine Does.after (get_at (t := o) rfl (chk_type h1)) ?_
  refine Does.after (get_at (t := t) rfl (chk_type h2)) ?_
  refine Does.after (m := DM.get) rfl ?_
  refine Does.after (m := DM.modify _) (a := ()) rfl ?_
  have hp : DM.peek (o :: t :: u :: ts) (·.peekIs .LITERAL (some [':'])) { s with next := 2, argsBuf := none } =
      .ok false { s with next := 2, argsBuf := none } := by
    unfold DM.peek TM.peekIs TM.peek
    have : TM.checkToken u (some .LITERAL) (some [':']) none = .error .token := by
      unfold TM.checkToken
      by_cases hu : u.type = .LITERAL
      · have : ¬ u.value = [':'] := fun h => h3 ⟨hu, h⟩
        have : ¬ [':'] = u.value := fun h => this h.symm
        simp [hu, this]
      · have : ¬ TokenType.LITERAL = u.type := fun h => hu h.symm
        simp [this]
    simp [this, DM.lift]
  have ha : includeArgs s.argsBuf (o :: t :: u :: ts) (o.ctx.merge t.ctx) { s with next := 2, argsBuf := none } = .ok (args s) { s with next := 2, argsBuf := none } := by
    unfold includeArgs
    rw [DM.bind_of_ok hp]
    rfl
  refine Does.after ha ?_
  exact include_rest

theorem include_does_args {P : Parser} {s : DocSt} {o t u v : Token} {ts : List Token} (h1 : o.type = .INCLUDE) (h2 : t.type = .TEXT)
    (h3 : u.type = .LITERAL) (h3' : u.value = [':']) (h4 : v.type = .TEXT) :
    Does 4 (match s.argsBuf with
      | some _ => .error (.parser msgBothArguments (some (o.ctx.merge t.ctx)))
      | none => do
        let p ← processArgumentsWithVariables s.env v
        P.includeStep s t.value p.arguments (o.ctx.merge t.ctx))
      (includeProc P.cfg P.nested (o :: t :: u :: v :: ts) (start s)) := by
  unfold includeProc
  refine Does.after (get_at (t := o) rfl (chk_type h1)) ?_
  refine Does.after (get_at (t := t) rfl (chk_type h2)) ?_
  refine Does.after (m := DM.get) rfl ?_
  refine Does.after (m := DM.modify _) (a := ()) rfl ?_
  have hp : DM.peek (o :: t :: u :: v :: ts) (·.peekIs .LITERAL (some [':'])) { s with next := 2, argsBuf := none } =
      .ok true { s with next := 2, argsBuf := none } := by
    unfold DM.peek TM.peekIs TM.peek
    simp [chk_value h3 h3', DM.lift]
  change Does 4 _ ((includeArgs s.argsBuf _ _ >>= _) { s with next := 2, argsBuf := none })
  cases hb : s.argsBuf with
  | some b =>
    intro _
    refine DM.bind_of_err ?_
    unfold includeArgs
    rw [DM.bind_of_ok hp]
    rfl
  | none =>
    simp only
    cases hx : processArgumentsWithVariables s.env v with
    | error e =>
      intro he
      refine DM.bind_of_err ?_
      unfold includeArgs
      rw [DM.bind_of_ok hp]
      refine (DM.bind_of_ok (get_at (t := u) rfl (chk_value h3 h3'))).trans ?_
      refine (DM.bind_of_ok (get_at (t := v) rfl (chk_type h4))).trans ?_
      refine (DM.bind_of_ok (f := DM.get) rfl).trans ?_
      refine DM.bind_of_err ?_
      change DM.lift (processArgumentsWithVariables s.env v) _ = _
      rw [hx]
      cases e <;> first | rfl | exact absurd rfl he
    | ok p =>
      have ha : includeArgs none (o :: t :: u :: v :: ts) (o.ctx.merge t.ctx) { s with next := 2, argsBuf := none } = .ok p.arguments { s with next := 4, argsBuf := none } := by
        unfold includeArgs
        rw [DM.bind_of_ok hp]
        refine (DM.bind_of_ok (get_at (t := u) rfl (chk_value h3 h3'))).trans ?_
        refine (DM.bind_of_ok (get_at (t := v) rfl (chk_type h4))).trans ?_
        refine (DM.bind_of_ok (f := DM.get) rfl).trans ?_
        refine (DM.bind_of_ok (a := p) (s1 := { s with next := 4, argsBuf := none }) ?_).trans rfl
        change DM.lift (processArgumentsWithVariables s.env v) _ = _
        rw [hx]
        rfl
      refine Does.after ha ?_
      exact include_rest

end Mau
