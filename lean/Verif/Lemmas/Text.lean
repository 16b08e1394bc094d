import Verif.Lemmas.TextFuel
import Verif.Lemmas.TextToks

set_option linter.unusedSimpArgs false

/-! # The text parser computes what `Spec.inlineText` says -/

namespace Mau
open Spec

/-! ## Words and texts -/

theorem anonList_append (a b : List Node) : anonList (a ++ b) = anonList a ++ anonList b := by
  induction a with
  | nil => rfl
  | cons n a ih => simp [anonList, ih]

theorem anonList_eq_nil {a : List Node} : anonList a = [] ↔ a = [] := by
  cases a <;> simp [anonList]

/-- The same after joining words. -/
def SameText (a b : List Node) : Prop := ∀ acc, joinWords acc a = joinWords acc b

theorem SameText.refl (a : List Node) : SameText a a := fun _ => rfl

theorem SameText.trans {a b c : List Node} (h1 : SameText a b) (h2 : SameText b c) : SameText a c :=
  fun acc => (h1 acc).trans (h2 acc)

theorem SameText.cons {a b : List Node} (n : Node) (h : SameText a b) : SameText (n :: a) (n :: b) := by
  intro acc
  cases hd : n.data <;> cases acc <;> simp [joinWords, hd, h _]

theorem SameText.prepend {a b : List Node} (ns : List Node) (h : SameText a b) : SameText (ns ++ a) (ns ++ b) := by
  induction ns with
  | nil => exact h
  | cons n ns ih => exact ih.cons n

/-- The words of the characters of a text. -/
def charWords (v : Str) : List Node := v.map fun c => node (.word [c])

theorem joinWords_cons (acc : Option Str) (n : Node) (ns : List Node) : joinWords acc (n :: ns) =
    (match n.data with
     | .word v => joinWords (some (acc.getD [] ++ v)) ns
     | _ =>
       match acc with
       | some v => node (.text v) :: n :: joinWords none ns
       | none => n :: joinWords none ns) := by
  cases acc <;> rfl

theorem joinWords_charWords (v : Str) (w : Str) (ns : List Node) :
    joinWords (some w) (charWords v ++ ns) = joinWords (some (w ++ v)) ns := by
  induction v generalizing w with
  | nil => simp [charWords]
  | cons c v ih =>
    have : charWords (c :: v) ++ ns = node (.word [c]) :: (charWords v ++ ns) := rfl
    rw [this]
    simp only [joinWords, node, Node.new, Node.data, Option.getD_some]
    rw [ih]; simp

theorem sameText_word {v : Str} (hv : v ≠ []) {a b : List Node} (h : SameText a b) :
    SameText (node (.word v) :: a) (charWords v ++ b) := by
  intro acc
  cases v with
  | nil => exact absurd rfl hv
  | cons c v =>
    have : charWords (c :: v) ++ b = node (.word [c]) :: (charWords v ++ b) := rfl
    rw [this]
    simp only [joinWords_cons, node, Node.new, Node.data]
    rw [joinWords_charWords, h]; simp

theorem anon_word (v : Str) (c : Context) : (Node.new (.word v) c).anon = node (.word v) := rfl

theorem NodeData.anon_word_iff {d : NodeData} {v : Str} : d.anon = .word v ↔ d = .word v := by
  cases d <;> simp [NodeData.anon]

theorem groupWordsAux_anon (ns : List Node) : ∀ acc,
    anonList (groupWordsAux acc ns) = joinWords (acc.map (·.1)) (anonList ns) := by
  induction ns with
  | nil => intro acc; cases acc <;> rfl
  | cons n ns ih =>
    obtain ⟨d, a, c, k, l, x⟩ := n
    intro acc
    by_cases hw : ∃ v, d = .word v
    · obtain ⟨v, rfl⟩ := hw
      cases acc with
      | none => simp only [groupWordsAux, ih]; rfl
      | some p =>
        obtain ⟨w, c0, c1⟩ := p
        simp only [groupWordsAux, ih]; rfl
    · have hw' : ∀ v, d.anon ≠ .word v := fun v h => hw ⟨v, NodeData.anon_word_iff.1 h⟩
      have hj : ∀ acc, joinWords acc (anonList (.mk d a c k l x :: ns)) =
          (match acc with
           | some v => node (.text v) :: (Node.mk d a c k l x).anon :: joinWords none (anonList ns)
           | none => (Node.mk d a c k l x).anon :: joinWords none (anonList ns)) := by
        intro acc
        simp only [anonList, joinWords_cons]
        have : (Node.mk d a c k l x).anon.data = d.anon := rfl
        rw [this]
        cases hd : d.anon
        case word v => exact absurd hd (hw' v)
        all_goals (cases acc <;> rfl)
      rw [hj]
      have hg1 : groupWordsAux none (.mk d a c k l x :: ns) = .mk d a c k l x :: groupWordsAux none ns := by
        cases d
        case word v => exact absurd ⟨v, rfl⟩ hw
        all_goals rfl
      have hg2 : ∀ v c0 c1, groupWordsAux (some (v, c0, c1)) (.mk d a c k l x :: ns) =
          Node.new (.text v) (c0.merge c1) :: .mk d a c k l x :: groupWordsAux none ns := by
        cases d
        case word v => exact absurd ⟨v, rfl⟩ hw
        all_goals (intros; rfl)
      cases acc with
      | none => rw [hg1]; simp only [anonList, ih]; rfl
      | some p => obtain ⟨v, c0, c1⟩ := p; rw [hg2]; simp only [anonList, ih]; rfl

theorem groupWords_anon (ns : List Node) : anonList (groupWords ns) = joinWords none (anonList ns) :=
  groupWordsAux_anon ns none

/-! ## Running the parsing functions -/

/-- The text parser in state `s` stands before the tokens `ts` and the EOF token `e`. -/
def Pos (toks : List Token) (s : TextSt) (ts : List Token) (e : Token) : Prop := At ⟨toks, s.next⟩ ts e

section run
variable {toks ts : List Token} {s : TextSt} {t e : Token}

theorem Pos.reset (h : Pos toks s ts e) (s' : TextSt) : Pos toks { s' with next := s.next } ts e := h

theorem tm_get (h : Pos toks s (t :: ts) e) {ty : Option TokenType} {v : Option Str} {f : Option (Str → Bool)}
    (hc : TM.checkToken t ty v f = .ok t) :
    PM.tm toks (fun tm => tm.get ty v f) s = .ok t { s with next := s.next + 1 } := by
  simp [PM.tm, At.get_cons h hc]

theorem Pos.next (h : Pos toks s (t :: ts) e) : Pos toks { s with next := s.next + 1 } ts e := At.nextAt h

theorem tm_get_fail (h : Pos toks s (t :: ts) e) {ty : Option TokenType} {v : Option Str} {f : Option (Str → Bool)}
    (hc : TM.checkToken t ty v f = .error .token) : PM.tm toks (fun tm => tm.get ty v f) s = .fail s := by
  simp [PM.tm, At.get_mismatch h hc]

theorem tm_get_nil_fail (h : Pos toks s [] e) {ty : Option TokenType} {v : Option Str} {f : Option (Str → Bool)}
    (hc : TM.checkToken e ty v f = .error .token) : PM.tm toks (fun tm => tm.get ty v f) s = .fail s := by
  simp [PM.tm, At.get_nil_mismatch h hc]

theorem tm_get_nil (h : Pos toks s [] e) :
    ∃ s', PM.tm toks (fun tm => tm.get) s = .ok e s' ∧ Pos toks s' [] e := by
  obtain ⟨tm', h1, h2, h3⟩ := At.get_nil h
  refine ⟨{ s with next := tm'.next }, by simp [PM.tm, h1], ?_⟩
  obtain ⟨tk, nx⟩ := tm'
  simp at h2; subst h2
  exact h3

theorem tm_collectJoin (h : Pos toks s ts e) (stops : List Token) :
    ∃ c s', PM.tm toks (fun tm => tm.collectJoin stops) s = .ok
        ⟨.TEXT, toksText (unesc (stopTok stops) escTok false (upto (stopTok stops) escTok ts).1), c⟩ s' ∧
      Pos toks s' (upto (stopTok stops) escTok ts).2 e := by
  obtain ⟨c, tm', h1, h2, h3⟩ := At.collectJoin h stops false
  refine ⟨c, { s with next := tm'.next }, by simp [PM.tm, h1], ?_⟩
  obtain ⟨tk, nx⟩ := tm'
  simp at h2; subst h2
  exact h3

theorem pm_bind_ok {α β : Type} {x : PM α} {f : α → PM β} {s s' : TextSt} {a : α} (h : x s = .ok a s') :
    (x >>= f) s = f a s' := by
  change PM.bind x f s = _
  simp [PM.bind, h]

theorem pm_bind_fail {α β : Type} {x : PM α} {f : α → PM β} {s s' : TextSt} (h : x s = .fail s') :
    (x >>= f) s = .fail s' := by
  change PM.bind x f s = _
  simp [PM.bind, h]

theorem pm_bind_err {α β : Type} {x : PM α} {f : α → PM β} {s : TextSt} {er : Err} (h : x s = .err er) :
    (x >>= f) s = .err er := by
  change PM.bind x f s = _
  simp [PM.bind, h]

theorem pm_pure {α : Type} (a : α) (s : TextSt) : (pure a : PM α) s = .ok a s := rfl

theorem pm_orElse_ok {α : Type} {x y : PM α} {s s' : TextSt} {a : α} (h : x s = .ok a s') :
    PM.orElse x y s = .ok a s' := by simp [PM.orElse, h]

theorem pm_orElse_fail {α : Type} {x y : PM α} {s s' : TextSt} (h : x s = .fail s') :
    PM.orElse x y s = y { s' with next := s.next } := by simp [PM.orElse, h]

theorem pm_orElse_fail_same {α : Type} {x y : PM α} {s : TextSt} (h : x s = .fail s) :
    PM.orElse x y s = y s := by simp [PM.orElse, h]

theorem pm_orElse_err {α : Type} {x y : PM α} {s : TextSt} {er : Err} (h : x s = .err er) :
    PM.orElse x y s = .err er := by simp [PM.orElse, h]

/-! ### The alternatives that do not apply -/

theorem backslash_fail (h : Pos toks s (t :: ts) e) (hn : ¬ (t.type = .LITERAL ∧ t.value = ['\\'])) :
    parseBackslash toks s = .fail s :=
  pm_bind_fail (tm_get_fail h (by rw [check_value, if_neg hn]))

theorem macroHead_fail (env : Env) (h : Pos toks s (t :: ts) e) (hn : ¬ (t.type = .LITERAL ∧ t.value = ['['])) :
    macroHead env toks s = .fail s :=
  pm_bind_fail (tm_get_fail h (by rw [check_value, if_neg hn]))

theorem macroP_fail (env : Env) (h : Pos toks s (t :: ts) e) (hn : ¬ (t.type = .LITERAL ∧ t.value = ['['])) :
    macroP env toks s = .fail s := by
  rw [macroP_eq]; exact pm_bind_fail (macroHead_fail env h hn)

theorem verbatim_fail (h : Pos toks s (t :: ts) e) (hn : ¬ (t.type = .LITERAL ∧ t.value = ['`'])) :
    parseVerbatim toks s = .fail s :=
  pm_bind_fail (tm_get_fail h (by rw [check_value, if_neg hn]))

theorem escaped_fail (h : Pos toks s (t :: ts) e) (hn : ¬ (t.type = .LITERAL ∧ isEscapeMarker t.value = true)) :
    parseEscaped toks s = .fail s :=
  pm_bind_fail (tm_get_fail h (by rw [check_pred, if_neg hn]))

theorem style_fail (env : Env) (h : Pos toks s (t :: ts) e)
    (hn : ¬ (t.type = .LITERAL ∧ (styleName t.value).isSome = true)) : styleP env toks s = .fail s := by
  rw [styleP_eq]; exact pm_bind_fail (tm_get_fail h (by rw [check_pred, if_neg hn]))

theorem word_ok (h : Pos toks s (t :: ts) e) :
    parseWord toks s = .ok [Node.new (.word t.value) t.ctx] { s with next := s.next + 1 } := by
  unfold parseWord
  rw [pm_bind_ok (tm_get h (check_any t))]
  rfl

theorem peek_ok (h : Pos toks s (t :: ts) e) : PM.peek toks (·.peek) s = .ok t s := by
  simp [PM.peek, At.peek_cons h, check_any]

theorem peek_end_ok (h : Pos toks s [] e) : PM.peek toks (·.peek) s = .ok e s := by
  simp [PM.peek, At.peek_nil h, check_any]

/-- The alternatives of `_parse_text` at a token that is not a stop. -/
noncomputable def alternatives (env : Env) (toks : List Token) : PM (List Node) :=
  PM.orElse (parseBackslash toks) <|
  PM.orElse (macroP env toks) <|
  PM.orElse (parseVerbatim toks) <|
  PM.orElse (parseEscaped toks) <|
  PM.orElse (styleP env toks) <|
  parseWord toks

theorem item_stop (env : Env) (m : Option Str) (h : Pos toks s (t :: ts) e) (hs : sentenceStop m t = true) :
    item env toks m s = .ok [] s := by
  rw [item_eq, pm_bind_ok (peek_ok h), if_pos hs]; rfl

theorem item_end (env : Env) (m : Option Str) (h : Pos toks s [] e) : item env toks m s = .ok [] s := by
  rw [item_eq, pm_bind_ok (peek_end_ok h), if_pos (by simp [sentenceStop, h.eof.1, h.eof.2])]; rfl

theorem item_go (env : Env) (m : Option Str) (h : Pos toks s (t :: ts) e) (hs : sentenceStop m t = false) :
    item env toks m s = alternatives env toks s := by
  rw [item_eq, pm_bind_ok (peek_ok h), if_neg (by simp [hs])]; rfl

theorem sentence_stop (env : Env) (m : Option Str) (h : item env toks m s = .ok [] s) :
    sentence env toks m s = .ok [] s := by
  rw [sentence_eq, pm_bind_ok h]; rfl

theorem sentence_go (env : Env) (m : Option Str) {ns : List Node} {s' : TextSt} (h : item env toks m s = .ok ns s')
    (hne : ns ≠ []) {ns' : List Node} {s'' : TextSt} (h2 : sentence env toks m s' = .ok ns' s'') :
    sentence env toks m s = .ok (ns ++ ns') s'' := by
  rw [sentence_eq, pm_bind_ok h]
  have : ns.isEmpty = false := by cases ns <;> simp at hne ⊢
  simp only [this, Bool.false_eq_true, if_false]
  rw [pm_bind_ok h2]; rfl

theorem sentence_none (env : Env) (m : Option Str) {s' : TextSt} (h : item env toks m s = .ok [] s') :
    sentence env toks m s = .ok [] s' := by
  rw [sentence_eq, pm_bind_ok h]; rfl

end run


/-! ## Spans -/

section congr
variable {α : Type} {stop stop' esc : α → Bool}

theorem upto_congr {ts : List α} (h : ∀ t ∈ ts, stop t = stop' t) : upto stop esc ts = upto stop' esc ts := by
  induction ts using upto_induct (stop := stop) (esc := esc) with
  | nil => rfl
  | stopc t ts hs => rw [upto_stop hs, upto_stop (by rw [← h t (by simp)]; exact hs)]
  | dangling t h1 h2 =>
    have := h t (by simp)
    rw [h1] at this
    simp [upto, h1, h2, ← this]
  | esced t u us h1 h2 ih =>
    rw [upto_esc h1 h2, upto_esc (by rw [← h t (by simp)]; exact h1) h2, ih fun t ht => h t (by simp [ht])]
  | plain t ts h1 h2 ih =>
    rw [upto_plain h1 h2, upto_plain (by rw [← h t (by simp)]; exact h1) h2, ih fun t ht => h t (by simp [ht])]

theorem unesc_congr {p : Bool} {ts : List α} (h : ∀ t ∈ ts, stop t = stop' t) :
    unesc stop esc p ts = unesc stop' esc p ts := by
  induction ts using upto_induct (stop := fun _ => false) (esc := esc) with
  | nil => rfl
  | stopc t ts hs => cases hs
  | dangling t h1 h2 => simp [unesc, h2]
  | esced t u us h1 h2 ih =>
    simp only [unesc, h2, if_true]
    rw [h u (by simp), ih fun t ht => h t (by simp [ht])]
  | plain t ts h1 h2 ih =>
    rw [unesc_plain h2, unesc_plain h2, ih fun t ht => h t (by simp [ht])]

end congr

/-- Stop tokens that stop at the literal `c` only, among the tokens of inline text. -/
def StopsAt (c : Char) (stops : List Token) : Prop :=
  ∀ t : Token, (t.type = .TEXT ∨ (t.type = .LITERAL ∧ ∃ d ∈ textLiterals, t.value = [d])) →
    stopTok stops t = stopTok (litToks [c]) t

theorem TextToks.kinds {s : Str} {ts : List Token} (h : TextToks s ts) :
    ∀ t ∈ ts, t.type = .TEXT ∨ (t.type = .LITERAL ∧ ∃ d ∈ textLiterals, t.value = [d]) := by
  induction h with
  | nil => simp
  | lit c t r ts hc ht hv h ih =>
    intro u hu
    rcases List.mem_cons.1 hu with rfl | hu
    · exact .inr ⟨ht, c, hc, hv⟩
    · exact ih u hu
  | space t r ts hv ht h ih =>
    intro u hu
    rcases List.mem_cons.1 hu with rfl | hu
    · exact .inl ht
    · exact ih u hu
  | txt v t r ts hv hne hc hr ht h ih =>
    intro u hu
    rcases List.mem_cons.1 hu with rfl | hu
    · exact .inl ht
    · exact ih u hu

theorem stopTok_cons (a : Token) (as : List Token) (t : Token) : stopTok (a :: as) t = (a.eqv t || stopTok as t) := by
  simp [stopTok, TM.isStop]

theorem stopTok_nil (t : Token) : stopTok [] t = (Token.generate .EOF).eqv t := by
  simp [stopTok, TM.isStop]

theorem stopsAt_eol (c : Char) : StopsAt c [Token.generate .LITERAL [c], Token.generate .EOL] := by
  intro t ht
  have : (Token.generate .EOL).eqv t = false := by
    rcases ht with ht | ⟨ht, _⟩ <;> simp [Token.eqv, Token.generate, ht]
  simp [litToks, stopTok_cons, this]

theorem stopsAt_eof (c : Char) : StopsAt c [Token.generate .LITERAL [c], Token.generate .EOF] := by
  intro t ht
  simp [litToks, stopTok_cons, stopTok_nil]

theorem stopsAt_args : StopsAt ')' [Token.generate .LITERAL [','], Token.generate .LITERAL [')'],
      Token.generate .EOF] := by
  intro t ht
  have : (Token.generate .LITERAL [',']).eqv t = false := by
    rcases ht with ht | ⟨ht, d, hd, hv⟩
    · simp [Token.eqv, Token.generate, ht]
    · have : d ≠ ',' := by rintro rfl; exact absurd hd (by decide)
      simp [Token.eqv, Token.generate, ht, hv, Ne.symm this]
  simp [litToks, stopTok_cons, stopTok_nil, this]

/-- Collecting up to a literal. -/
theorem At.closingJoin {tm : TM} {s : Str} {ts : List Token} {e : Token} {c : Char} {stops : List Token} (h : At tm ts e)
    (ht : TextToks s ts) (hs : StopsAt c stops) (hc : c ∈ textLiterals) (hb : c ≠ '\\') :
    (∀ raw rest, closing c s = some (raw, rest) → ∃ cx tm' t' ts',
      tm.collectJoin stops = .ok (⟨.TEXT, unescape c raw, cx⟩, tm') ∧ tm'.tokens = tm.tokens ∧ At tm' (t' :: ts') e ∧
      t'.type = .LITERAL ∧ t'.value = [c] ∧ TextToks rest ts' ∧ ts' <:+ ts) ∧
    (closing c s = none → ∃ tok tm', tm.collectJoin stops = .ok (tok, tm') ∧ tm'.tokens = tm.tokens ∧ At tm' [] e) := by
  obtain ⟨cx, tm', h1, h2, h3⟩ := At.collectJoin h stops false
  have e1 : upto (stopTok stops) escTok ts = upto (stopTok (litToks [c])) escTok ts :=
    upto_congr fun t hm => hs t (ht.kinds t hm)
  have e2 : unesc (stopTok stops) escTok false (upto (stopTok stops) escTok ts).1 =
      unesc (stopTok (litToks [c])) escTok false (upto (stopTok (litToks [c])) escTok ts).1 := by
    rw [e1]
    refine unesc_congr fun t hm => hs t (ht.kinds t ?_)
    have := upto_append (stop := stopTok (litToks [c])) (esc := escTok) ts
    rw [← this]; simp [hm]
  rw [e2] at h1
  rw [e1] at h3
  have key := toks_closing textKind_good (by decide) hc hb ht.toks
  constructor
  · intro raw rest hcl
    rcases key with ⟨x, hx, t, ts', k1, k2, k3, k4, k5, k6⟩ | ⟨hx, _⟩
    · rw [hcl] at hx; cases hx
      rw [k6 false] at h1
      rw [k1] at h3
      exact ⟨cx, tm', t, ts', h1, h2, h3, k2, k3, ht.of_toks k4 (closing_tok_suffix k1), closing_tok_suffix k1⟩
    · rw [hcl] at hx; cases hx
  · intro hcl
    rcases key with ⟨x, hx, _⟩ | ⟨_, k⟩
    · rw [hcl] at hx; cases hx
    · rw [k] at h3
      exact ⟨_, tm', h1, h2, h3⟩

section spans
variable {toks ts : List Token} {st : TextSt} {t e : Token} {s : Str}

theorem tm_closing {c : Char} {stops : List Token} (h : Pos toks st ts e)
    (ht : TextToks s ts) (hs : StopsAt c stops) (hc : c ∈ textLiterals) (hb : c ≠ '\\') :
    (∀ raw rest, closing c s = some (raw, rest) → ∃ cx st' t' ts',
      PM.tm toks (fun tm => tm.collectJoin stops) st = .ok ⟨.TEXT, unescape c raw, cx⟩ st' ∧
      Pos toks st' (t' :: ts') e ∧
      t'.type = .LITERAL ∧ t'.value = [c] ∧ TextToks rest ts' ∧ ts' <:+ ts) ∧
    (closing c s = none → ∃ tok st', PM.tm toks (fun tm => tm.collectJoin stops) st = .ok tok st' ∧ Pos toks st' [] e) := by
  obtain ⟨k1, k2⟩ := At.closingJoin h ht hs hc hb
  constructor
  · intro raw rest hcl
    obtain ⟨cx, tm', t', ts', a1, a2, a3, a4, a5, a6, a7⟩ := k1 raw rest hcl
    refine ⟨cx, { st with next := tm'.next }, t', ts', by simp [PM.tm, a1], ?_, a4, a5, a6, a7⟩
    obtain ⟨tk, nx⟩ := tm'
    simp at a2; subst a2
    exact a3
  · intro hcl
    obtain ⟨tok, tm', a1, a2, a3⟩ := k2 hcl
    refine ⟨tok, { st with next := tm'.next }, by simp [PM.tm, a1], ?_⟩
    obtain ⟨tk, nx⟩ := tm'
    simp at a2; subst a2
    exact a3

theorem verbatim_span (h : Pos toks st (t :: ts) e) (hl : t.type = .LITERAL ∧ t.value = ['`']) (ht : TextToks s ts) :
    (∀ raw rest, closing '`' s = some (raw, rest) → ∃ cx st' ts',
      parseVerbatim toks st = .ok [Node.new (.verbatim (unescape '`' raw)) cx] st' ∧ Pos toks st' ts' e ∧
      TextToks rest ts' ∧ ts' <:+ ts) ∧
    (closing '`' s = none → ∃ st', parseVerbatim toks st = .fail st') := by
  have h0 := tm_get h (ty := some .LITERAL) (v := some ['`']) (f := none) (by rw [check_value, if_pos hl])
  obtain ⟨k1, k2⟩ := tm_closing h.next ht (stopsAt_eol '`') (by decide) (by decide)
  unfold parseVerbatim
  rw [pm_bind_ok h0]
  constructor
  · intro raw rest hc
    obtain ⟨cx, st', t', ts', a1, a2, a3, a4, a5, a6⟩ := k1 raw rest hc
    rw [pm_bind_ok a1, pm_bind_ok (tm_get a2 (by rw [check_value, if_pos ⟨a3, a4⟩]))]
    exact ⟨_, _, ts', rfl, a2.next, a5, a6⟩
  · intro hc
    obtain ⟨tok, st', a1, a2⟩ := k2 hc
    rw [pm_bind_ok a1, pm_bind_fail (tm_get_nil_fail a2 (by rw [check_value, if_neg (by simp [a2.eof.1])]))]
    exact ⟨_, rfl⟩

theorem escaped_span {c : Char} (hc : c = '$' ∨ c = '%') (h : Pos toks st (t :: ts) e)
    (hl : t.type = .LITERAL ∧ t.value = [c]) (ht : TextToks s ts) :
    (∀ raw rest, closing c s = some (raw, rest) → ∃ cx st' ts',
      parseEscaped toks st = .ok [Node.new (.text (unescape c raw)) cx] st' ∧ Pos toks st' ts' e ∧
      TextToks rest ts' ∧ ts' <:+ ts) ∧
    (closing c s = none → ∃ st', parseEscaped toks st = .fail st') := by
  have h0 := tm_get h (ty := some .LITERAL) (v := none) (f := some isEscapeMarker)
    (by rw [check_pred, if_pos ⟨hl.1, by rw [hl.2]; rcases hc with rfl | rfl <;> decide⟩])
  obtain ⟨k1, k2⟩ := tm_closing h.next ht (stopsAt_eol c) (by rcases hc with rfl | rfl <;> decide)
    (by rcases hc with rfl | rfl <;> decide)
  unfold parseEscaped
  rw [pm_bind_ok h0]
  simp only [hl.2]
  constructor
  · intro raw rest hc
    obtain ⟨cx, st', t', ts', a1, a2, a3, a4, a5, a6⟩ := k1 raw rest hc
    rw [pm_bind_ok a1, pm_bind_ok (tm_get a2 (by rw [check_value, if_pos ⟨a3, a4⟩]))]
    exact ⟨_, _, ts', rfl, a2.next, a5, a6⟩
  · intro hc
    obtain ⟨tok, st', a1, a2⟩ := k2 hc
    rw [pm_bind_ok a1, pm_bind_fail (tm_get_nil_fail a2 (by rw [check_value, if_neg (by simp [a2.eof.1])]))]
    exact ⟨_, rfl⟩

end spans

/-! ## The arguments of a macro -/

theorem At.peekIs_cons {tm : TM} {t e : Token} {ts : List Token} (h : At tm (t :: ts) e) (ty : TokenType) (v : Str) :
    tm.peekIs ty (some v) = .ok (decide (t.type = ty ∧ t.value = v)) := by
  unfold TM.peekIs
  rw [h.peek_cons, check_value]
  by_cases hx : t.type = ty ∧ t.value = v <;> simp [hx]

theorem At.peekIs_nil {tm : TM} {e : Token} (h : At tm [] e) (ty : TokenType) (v : Str) :
    tm.peekIs ty (some v) = .ok (decide (e.type = ty ∧ e.value = v)) := by
  unfold TM.peekIs
  rw [h.peek_nil, check_value]
  by_cases hx : e.type = ty ∧ e.value = v <;> simp [hx]

theorem At.peekIs_cons' {tm : TM} {t e : Token} {ts : List Token} (h : At tm (t :: ts) e) (ty : TokenType) :
    tm.peekIs ty = .ok (decide (t.type = ty)) := by
  unfold TM.peekIs
  rw [h.peek_cons, check_type]
  by_cases hx : t.type = ty <;> simp [hx]

theorem At.peekIs_nil' {tm : TM} {e : Token} (h : At tm [] e) (ty : TokenType) :
    tm.peekIs ty = .ok (decide (e.type = ty)) := by
  unfold TM.peekIs
  rw [h.peek_nil, check_type]
  by_cases hx : e.type = ty <;> simp [hx]

theorem ex_bind_ok {α β : Type} {x : Except Err α} {f : α → Except Err β} {a : α} (h : x = .ok a) : (x >>= f) = f a := by
  rw [h]; rfl

theorem ex_bind_err {α β : Type} {x : Except Err α} {f : α → Except Err β} {er : Err} (h : x = .error er) :
    (x >>= f) = .error er := by
  rw [h]; rfl

theorem TextToks.head {c : Char} {s : Str} {ts : List Token} (h : TextToks (c :: s) ts) :
    ∃ t ts', ts = t :: ts' ∧ ((c ∈ textLiterals ∧ t.type = .LITERAL ∧ t.value = [c] ∧ TextToks s ts') ∨
      (c = ' ' ∧ t.type = .TEXT ∧ t.value = [' '] ∧ TextToks s ts') ∨
      (c ∉ textLiterals ∧ c ≠ ' ' ∧ t.type = .TEXT ∧ ∃ v r, t.value = c :: v ∧ s = v ++ r ∧
        (∀ d ∈ c :: v, wordChar d = true) ∧ (∀ d, r.head? = some d → wordChar d = false) ∧ TextToks r ts')) := by
  generalize hq : c :: s = q at h
  cases h with
  | nil => cases hq
  | lit d t r ts hc ht hv h => cases hq; exact ⟨t, ts, rfl, .inl ⟨hc, ht, hv, h⟩⟩
  | space t r ts hv ht h => cases hq; exact ⟨t, ts, rfl, .inr (.inl ⟨rfl, ht, hv, h⟩)⟩
  | txt v t r ts hv hne hc hr ht h =>
    cases v with
    | nil => exact absurd rfl hne
    | cons d v =>
      simp only [List.cons_append, List.cons.injEq] at hq
      obtain ⟨rfl, rfl⟩ := hq
      have := wordChar_iff.1 (hc c (by simp))
      exact ⟨t, ts, rfl, .inr (.inr ⟨this.1, this.2, ht, v, r, hv, rfl, hc, hr, h⟩)⟩

theorem TextToks.nil_inv {ts : List Token} (h : TextToks [] ts) : ts = [] := h.toks.nil_inv

/-- The loop of `_collect_macro_args`. -/
theorem macroArgsLoop_spec : ∀ (k n : Nat) (s : Str) (ts : List Token) (tm : TM) (acc : List Token) (e : Token),
    At tm ts e → TextToks s ts → s.length < k → ts.length + 1 < n →
    (∀ args rest, macroArgs k s = some (args, rest) → ∃ out tm' t' ts',
      macroArgsLoop n tm acc = .ok (acc ++ out, tm') ∧ tm'.tokens = tm.tokens ∧ toksText out = args ∧
      At tm' (t' :: ts') e ∧ t'.type = .LITERAL ∧ t'.value = [')'] ∧ TextToks rest ts' ∧ ts' <:+ ts) ∧
    (macroArgs k s = none → macroArgsLoop n tm acc = .error .token ∨
      ∃ out tm', macroArgsLoop n tm acc = .ok (out, tm') ∧ tm'.tokens = tm.tokens ∧ At tm' [] e) := by
  intro k
  induction k with
  | zero => intro n s ts tm acc e _ _ h; omega
  | succ k ih =>
    intro n s ts tm acc e hat ht hk hn
    obtain ⟨n, rfl⟩ : ∃ m, n = m + 2 := ⟨n - 2, by omega⟩
    cases s with
    | nil =>
      have := ht.nil_inv
      subst this
      have h1 : macroArgsLoop (n + 2) tm acc = .ok (acc, tm) := by
        rw [macroArgsLoop, ex_bind_ok (hat.peekIs_nil .LITERAL [')'])]
        simp only [hat.eof.1, reduceCtorEq, false_and, decide_false, Bool.false_eq_true, if_false]
        rw [ex_bind_ok (hat.peekIs_nil' .EOF)]
        simp [hat.eof.1]; rfl
      exact ⟨by simp [macroArgs], fun _ => .inr ⟨acc, tm, h1, rfl, hat⟩⟩
    | cons c s =>
      obtain ⟨t, ts1, rfl, hh⟩ := ht.head
      have heof : t.type ≠ .EOF := ht.toks.noEof textKind_good t (by simp)
      by_cases hp : c = ')'
      · subst hp
        have hlit : t.type = .LITERAL ∧ t.value = [')'] ∧ TextToks s ts1 := by
          rcases hh with ⟨_, a, b, c⟩ | ⟨h, _⟩ | ⟨h, _⟩
          · exact ⟨a, b, c⟩
          · cases h
          · exact absurd (by decide) h
        have h1 : macroArgsLoop (n + 2) tm acc = .ok (acc, tm) := by
          rw [macroArgsLoop, ex_bind_ok (hat.peekIs_cons .LITERAL [')'])]
          simp [hlit.1, hlit.2.1]; rfl
        refine ⟨?_, by simp [macroArgs]⟩
        intro args rest h
        simp [macroArgs] at h
        obtain ⟨rfl, rfl⟩ := h
        exact ⟨[], tm, t, ts1, by simpa using h1, rfl, rfl, hat, hlit.1, hlit.2.1, hlit.2.2, List.suffix_cons _ _⟩
      · have hnp : ¬ (t.type = .LITERAL ∧ t.value = [')']) := by
          rintro ⟨h1, h2⟩
          rcases hh with ⟨_, _, b, _⟩ | ⟨_, b, _, _⟩ | ⟨_, _, b, _⟩
          · rw [b] at h2; simp at h2; exact hp h2
          · rw [h1] at b; cases b
          · rw [h1] at b; cases b
        have hgo : macroArgsLoop (n + 2) tm acc = (macroArgPiece tm >>= fun x => macroArgsLoop (n + 1) x.2 (acc ++ [x.1])) := by
          rw [macroArgsLoop, ex_bind_ok (hat.peekIs_cons .LITERAL [')'])]
          simp only [hnp, decide_false, Bool.false_eq_true, if_false]
          rw [ex_bind_ok (hat.peekIs_cons' .EOF)]
          simp only [heof, decide_false, Bool.false_eq_true, if_false]
        rw [hgo]
        unfold macroArgPiece
        rw [ex_bind_ok (hat.peekIs_cons .LITERAL ['"'])]
        by_cases hq : c = '"'
        · subst hq
          have hlit : t.type = .LITERAL ∧ t.value = ['"'] ∧ TextToks s ts1 := by
            rcases hh with ⟨_, a, b, c⟩ | ⟨h, _⟩ | ⟨h, _⟩
            · exact ⟨a, b, c⟩
            · cases h
            · exact absurd (by decide) h
          simp only [hlit.1, hlit.2.1, and_self, decide_true, if_true]
          rw [ex_bind_ok (hat.get_cons (ty := some .LITERAL) (v := some ['"']) (f := none)
            (by rw [check_value, if_pos ⟨hlit.1, hlit.2.1⟩]))]
          simp only
          obtain ⟨k1, k2⟩ := hat.nextAt.closingJoin hlit.2.2 (stopsAt_eof '"') (by decide) (by decide)
          constructor
          · intro args rest h
            simp only [macroArgs, hp, if_false, if_true] at h
            cases hc : closing '"' s with
            | none => rw [hc] at h; simp at h
            | some x =>
              obtain ⟨raw, s2⟩ := x
              rw [hc] at h
              simp only [Option.map_eq_some_iff] at h
              obtain ⟨⟨a2, r2⟩, h4, h5⟩ := h
              cases h5
              obtain ⟨cx, tm', t', ts', a1, a2', a3, a4, a5, a6, a7⟩ := k1 raw s2 hc
              have hlen := closing_length hc
              obtain ⟨i1, _⟩ := ih (n + 1) s2 ts' { tm' with next := tm'.next + 1 }
                (acc ++ [⟨.TEXT, c%"\"" ++ unescape '"' raw ++ c%"\"", t.ctx.merge t'.ctx⟩]) e a3.nextAt a6
                (by simp at hk; omega) (by have := a7.length_le; simp at hn; omega)
              obtain ⟨out, tm2, t2, ts2, b1, b2, b3, b4, b5, b6, b7, b8⟩ := i1 _ _ h4
              refine ⟨⟨.TEXT, c%"\"" ++ unescape '"' raw ++ c%"\"", t.ctx.merge t'.ctx⟩ :: out, tm2, t2, ts2, ?_, ?_, ?_, b4, b5, b6, b7,
                b8.trans (a7.trans (List.suffix_cons _ _))⟩
              · rw [ex_bind_ok a1]
                simp only
                rw [ex_bind_ok (a3.get_cons (ty := some .LITERAL) (v := some ['"']) (f := none)
                  (by rw [check_value, if_pos ⟨a4, a5⟩]))]
                simpa [pure, Except.pure, bind, Except.bind] using b1
              · rw [b2]; exact a2'
              · simp [b3]
          · intro h
            simp only [macroArgs, hp, if_false, if_true] at h
            cases hc : closing '"' s with
            | none =>
              obtain ⟨tok, tm', a1, a2, a3⟩ := k2 hc
              left
              rw [ex_bind_ok a1]
              simp only
              rw [ex_bind_err (a3.get_nil_mismatch (ty := some .LITERAL) (v := some ['"']) (f := none)
                  (by rw [check_value, if_neg (by simp [a3.eof.1])]))]
              rfl
            | some x =>
              obtain ⟨raw, s2⟩ := x
              rw [hc] at h
              simp only [Option.map_eq_none_iff] at h
              obtain ⟨cx, tm', t', ts', a1, a2', a3, a4, a5, a6, a7⟩ := k1 raw s2 hc
              have hlen := closing_length hc
              obtain ⟨_, i2⟩ := ih (n + 1) s2 ts' { tm' with next := tm'.next + 1 }
                (acc ++ [⟨.TEXT, c%"\"" ++ unescape '"' raw ++ c%"\"", t.ctx.merge t'.ctx⟩]) e a3.nextAt a6
                (by simp at hk; omega) (by have := a7.length_le; simp at hn; omega)
              rw [ex_bind_ok a1]
              simp only
              rw [ex_bind_ok (a3.get_cons (ty := some .LITERAL) (v := some ['"']) (f := none)
                (by rw [check_value, if_pos ⟨a4, a5⟩]))]
              rcases i2 h with b | ⟨out, tm2, b1, b2, b3⟩
              · left; simpa [pure, Except.pure, bind, Except.bind] using b
              · right
                refine ⟨out, tm2, by simpa [pure, Except.pure, bind, Except.bind] using b1, ?_, b3⟩
                rw [b2]; exact a2'
        · have hnq : ¬ (t.type = .LITERAL ∧ t.value = ['"']) := by
            rintro ⟨h1, h2⟩
            rcases hh with ⟨_, _, b, _⟩ | ⟨_, b, _, _⟩ | ⟨_, _, b, _⟩
            · rw [b] at h2; simp at h2; exact hq h2
            · rw [h1] at b; cases b
            · rw [h1] at b; cases b
          simp only [hnq, decide_false, Bool.false_eq_true, if_false]
          obtain ⟨k1, k2⟩ := hat.closingJoin ht stopsAt_args (by decide) (by decide)
          constructor
          · intro args rest h
            simp only [macroArgs, hp, hq, if_false] at h
            cases hc : closing ')' (c :: s) with
            | none => rw [hc] at h; simp at h
            | some x =>
              obtain ⟨raw, s2⟩ := x
              rw [hc] at h
              cases h
              obtain ⟨cx, tm', t', ts', a1, a2', a3, a4, a5, a6, a7⟩ := k1 raw rest hc
              refine ⟨[⟨.TEXT, unescape ')' raw, cx⟩], tm', t', ts', ?_, a2', by simp, a3, a4, a5, a6, a7⟩
              rw [ex_bind_ok a1, macroArgsLoop, ex_bind_ok (a3.peekIs_cons .LITERAL [')'])]
              simp [a4, a5]; rfl
          · intro h
            simp only [macroArgs, hp, hq, if_false] at h
            cases hc : closing ')' (c :: s) with
            | none =>
              obtain ⟨tok, tm', a1, a2, a3⟩ := k2 hc
              right
              refine ⟨acc ++ [tok], tm', ?_, a2, a3⟩
              rw [ex_bind_ok a1, macroArgsLoop, ex_bind_ok (a3.peekIs_nil .LITERAL [')'])]
              simp only [a3.eof.1, reduceCtorEq, false_and, decide_false, Bool.false_eq_true, if_false]
              rw [ex_bind_ok (a3.peekIs_nil' .EOF)]
              simp [a3.eof.1]; rfl
            | some x => rw [hc] at h; simp at h


/-! ## The head of a macro -/

theorem fromTokenList_value (ts : List Token) : (Token.fromTokenList ts).value = toksText ts := by
  cases ts with
  | nil => rfl
  | cons a as =>
    obtain ⟨z, hz⟩ : ∃ z, (a :: as).getLast? = some z := by
      cases hl : (a :: as).getLast? with
      | none => simp at hl
      | some z => exact ⟨z, rfl⟩
    simp only [Token.fromTokenList, List.head?_cons, hz, joinWith_nil]
    rfl

theorem takeWhile_wordChars {v r : Str} (hv : ∀ d ∈ v, wordChar d = true) (hr : ∀ d, r.head? = some d → wordChar d = false) :
    (v ++ r).takeWhile (fun c => !(inlineSpecial.contains c || c == ' ')) = v := by
  induction v with
  | nil =>
    cases r with
    | nil => rfl
    | cons d r =>
      have := hr d rfl
      unfold wordChar at this
      rw [List.nil_append, List.takeWhile_cons, this]; simp
  | cons c v ih =>
    have := hv c (by simp)
    unfold wordChar at this
    rw [List.cons_append, List.takeWhile_cons, this]
    simp only [if_true]
    rw [ih fun d hd => hv d (by simp [hd])]

section mac
variable {toks ts : List Token} {st : TextSt} {t e : Token} {r : Str}

theorem collectMacroArgs_spec (h : Pos toks st ts e) (ht : TextToks r ts) (hts : List.Sublist ts toks) :
    (∀ args rest, macroArgs (r.length + 1) r = some (args, rest) → ∃ argsTok k t' ts',
      PM.tm toks collectMacroArgs st = .ok argsTok { st with next := k } ∧ argsTok.value = args ∧
      Pos toks { st with next := k } (t' :: ts') e ∧ t'.type = .LITERAL ∧ t'.value = [')'] ∧ TextToks rest ts' ∧ ts' <:+ ts) ∧
    (macroArgs (r.length + 1) r = none → PM.tm toks collectMacroArgs st = .fail st ∨
      ∃ a k, PM.tm toks collectMacroArgs st = .ok a { st with next := k } ∧ Pos toks { st with next := k } [] e) := by
  obtain ⟨h1, h2⟩ := macroArgsLoop_spec (r.length + 1) (toks.length + 2) r ts ⟨toks, st.next⟩ [] e h ht (by omega)
    (by have := hts.length_le; omega)
  constructor
  · intro args rest hm
    obtain ⟨out, tm', t', ts', a1, a2, a3, a4, a5, a6, a7, a8⟩ := h1 args rest hm
    refine ⟨Token.fromTokenList out, tm'.next, t', ts', ?_, ?_, ?_, a5, a6, a7, a8⟩
    · simp only [PM.tm, collectMacroArgs, a1, bind, Except.bind, pure, Except.pure, List.nil_append]
    · rw [fromTokenList_value, a3]
    · obtain ⟨tk, nx⟩ := tm'
      simp at a2; subst a2
      exact a4
  · intro hm
    rcases h2 hm with a | ⟨out, tm', a1, a2, a3⟩
    · left; simp only [PM.tm, collectMacroArgs, a, bind, Except.bind]
    · right
      refine ⟨Token.fromTokenList out, tm'.next, ?_, ?_⟩
      · simp only [PM.tm, collectMacroArgs, a1, bind, Except.bind, pure, Except.pure]
      · obtain ⟨tk, nx⟩ := tm'
        simp at a2; subst a2
        exact a3

/-- After the name of a macro. -/
def macroTail (r : Str) : Option (Str × Str) :=
  match r with
  | c :: d :: r2 => if c = ']' ∧ d = '(' then macroArgs (r2.length + 1) r2 else none
  | _ => none

theorem macroAt_word {v r : Str} (hne : v ≠ []) (hv : ∀ d ∈ v, wordChar d = true)
    (hr : ∀ d, r.head? = some d → wordChar d = false) :
    macroAt (v ++ r) = (macroTail r).map fun x => (v, x.1, x.2) := by
  have hh : ¬ (v ++ r).head? = some ' ' := by
    cases v with
    | nil => exact absurd rfl hne
    | cons c v =>
      have := (wordChar_iff.1 (hv c (by simp))).2
      simpa using this
  unfold macroAt
  simp only [if_neg hh, takeWhile_wordChars hv hr, if_neg hne, List.drop_left]
  cases r with
  | nil => rfl
  | cons c r =>
    cases r with
    | nil => rfl
    | cons d r =>
      simp only [macroTail]
      split <;> rfl

theorem macroAt_space (r : Str) : macroAt (' ' :: r) = (macroTail r).map fun x => ([' '], x.1, x.2) := by
  unfold macroAt
  simp only [List.head?_cons, if_true, List.cons_ne_nil, if_false, List.length_cons, List.length_nil, List.drop_succ_cons,
    List.drop_zero, Nat.zero_add]
  cases r with
  | nil => rfl
  | cons c r =>
    cases r with
    | nil => rfl
    | cons d r =>
      simp only [macroTail]
      split <;> rfl

theorem macroAt_lit {c : Char} (hc : c ∈ textLiterals) (r : Str) : macroAt (c :: r) = none := by
  have h1 : c ≠ ' ' := by rintro rfl; exact absurd hc (by decide)
  have h2 : (!(inlineSpecial.contains c || c == ' ')) = false := by
    have : inlineSpecial.contains c = true := by
      simp [textLiterals, inlineSpecial] at hc ⊢
      exact hc
    rw [this]; rfl
  unfold macroAt
  have h3 : ¬ (c :: r).head? = some ' ' := by simpa using h1
  simp only [if_neg h3, List.takeWhile_cons, h2, Bool.false_eq_true, if_false, if_true]

/-- The second half of `macroHead`, after the name. -/
def macroHeadTail (env : Env) (toks : List Token) (o name : Token) : PM (Token × ParsedArgs × Context) := do
  let _ ← PM.tm toks (·.get (some .LITERAL) (some [']']))
  let _ ← PM.tm toks (·.get (some .LITERAL) (some ['(']))
  let argsTok ← PM.tm toks collectMacroArgs
  let c ← PM.tm toks (·.get (some .LITERAL) (some [')']))
  let p ← PM.lift (processArguments env argsTok)
  return (name, p, o.ctx.merge c.ctx)

theorem lit_or_not {c d : Char} (hd : d ∈ textLiterals) (h : TextToks (c :: r) (t :: ts)) :
    (c = d ∧ t.type = .LITERAL ∧ t.value = [d] ∧ TextToks r ts) ∨ (c ≠ d ∧ ¬ (t.type = .LITERAL ∧ t.value = [d])) := by
  obtain ⟨t', ts', he, hh⟩ := h.head
  cases he
  rcases hh with ⟨a, b, f, g⟩ | ⟨a, b, f, g⟩ | ⟨a, b, f, _⟩
  · by_cases hcd : c = d
    · left; subst hcd; exact ⟨rfl, b, f, g⟩
    · right; refine ⟨hcd, ?_⟩; rintro ⟨_, h2⟩; rw [f] at h2; simp at h2; exact hcd h2
  · right; refine ⟨by rintro rfl; subst a; exact absurd hd (by decide), by rw [b]; simp⟩
  · right; exact ⟨by rintro rfl; exact a hd, by rw [f]; simp⟩

theorem macroHeadTail_spec (env : Env) (o name : Token) (h : Pos toks st ts e) (ht : TextToks r ts) (hts : List.Sublist ts toks) :
    (∀ args rest, macroTail r = some (args, rest) → ∃ argsTok k cx ts', argsTok.value = args ∧
      macroHeadTail env toks o name st = (PM.lift (processArguments env argsTok) >>= fun p => pure (name, p, cx)) { st with next := k } ∧
      Pos toks { st with next := k } ts' e ∧ TextToks rest ts' ∧ ts' <:+ ts) ∧
    (macroTail r = none → ∃ st', macroHeadTail env toks o name st = .fail st') := by
  unfold macroHeadTail
  cases r with
  | nil =>
    have := ht.nil_inv
    subst this
    refine ⟨by simp [macroTail], fun _ => ?_⟩
    rw [pm_bind_fail (tm_get_nil_fail h (by rw [check_value, if_neg (by simp [h.eof.1])]))]
    exact ⟨_, rfl⟩
  | cons c r =>
    obtain ⟨t, ts1, rfl, _⟩ := ht.head
    rcases lit_or_not (d := ']') (by decide) ht with ⟨rfl, b1, b2, b3⟩ | ⟨hc, hn⟩
    · rw [pm_bind_ok (tm_get h (by rw [check_value, if_pos ⟨b1, b2⟩]))]
      have h := h.next
      cases r with
      | nil =>
        have := b3.nil_inv
        subst this
        refine ⟨by simp [macroTail], fun _ => ?_⟩
        rw [pm_bind_fail (tm_get_nil_fail h (by rw [check_value, if_neg (by simp [h.eof.1])]))]
        exact ⟨_, rfl⟩
      | cons d r =>
        obtain ⟨t2, ts2, rfl, _⟩ := b3.head
        rcases lit_or_not (d := '(') (by decide) b3 with ⟨rfl, c1, c2, c3⟩ | ⟨hc, hn⟩
        · rw [pm_bind_ok (tm_get h (by rw [check_value, if_pos ⟨c1, c2⟩]))]
          have h := h.next
          have hsuf : ts2 <:+ t :: t2 :: ts2 := (List.suffix_cons _ _).trans (List.suffix_cons _ _)
          obtain ⟨k1, k2⟩ := collectMacroArgs_spec h c3 (hsuf.sublist.trans hts)
          simp only [macroTail, and_self, if_true]
          constructor
          · intro args rest hm
            obtain ⟨argsTok, k, t', ts', a1, a2, a3, a4, a5, a6, a7⟩ := k1 args rest hm
            rw [pm_bind_ok a1, pm_bind_ok (tm_get a3 (by rw [check_value, if_pos ⟨a4, a5⟩]))]
            exact ⟨argsTok, k + 1, _, ts', a2, rfl, a3.next, a6, a7.trans hsuf⟩
          · intro hm
            rcases k2 hm with a | ⟨a, k, a1, a2⟩
            · rw [pm_bind_fail a]; exact ⟨_, rfl⟩
            · rw [pm_bind_ok a1, pm_bind_fail (tm_get_nil_fail a2 (by rw [check_value, if_neg (by simp [a2.eof.1])]))]
              exact ⟨_, rfl⟩
        · refine ⟨by simp [macroTail, hc], fun _ => ?_⟩
          rw [pm_bind_fail (tm_get_fail h (by rw [check_value, if_neg hn]))]
          exact ⟨_, rfl⟩
    · refine ⟨?_, fun _ => ?_⟩
      · intro args rest h
        cases r <;> simp [macroTail, hc] at h
      · rw [pm_bind_fail (tm_get_fail h (by rw [check_value, if_neg hn]))]
        exact ⟨_, rfl⟩

theorem macroHead_spec (env : Env) (h : Pos toks st (t :: ts) e) (hl : t.type = .LITERAL ∧ t.value = ['['])
    (ht : TextToks r ts) (hts : List.Sublist ts toks) :
    (∀ name args rest, macroAt r = some (name, args, rest) → ∃ nameTok argsTok k cx ts', nameTok.value = name ∧
      argsTok.value = args ∧
      macroHead env toks st = (PM.lift (processArguments env argsTok) >>= fun p => pure (nameTok, p, cx)) { st with next := k } ∧
      Pos toks { st with next := k } ts' e ∧ TextToks rest ts' ∧ ts' <:+ ts) ∧
    (macroAt r = none → ∃ st', macroHead env toks st = .fail st') := by
  have h0 := tm_get h (ty := some .LITERAL) (v := some ['[']) (f := none) (by rw [check_value, if_pos hl])
  have e1 : macroHead env toks st =
      (PM.tm toks (·.get (some .TEXT)) >>= fun name => macroHeadTail env toks t name) { st with next := st.next + 1 } := by
    unfold macroHead
    rw [pm_bind_ok h0]; rfl
  rw [e1]
  have h := h.next
  cases r with
  | nil =>
    have := ht.nil_inv
    subst this
    refine ⟨by simp [macroAt], fun _ => ?_⟩
    rw [pm_bind_fail (tm_get_nil_fail h (by rw [check_type, if_neg (by simp [h.eof.1])]))]
    exact ⟨_, rfl⟩
  | cons c r =>
    obtain ⟨t1, ts1, rfl, hh⟩ := ht.head
    have hsuf : ts1 <:+ t1 :: ts1 := List.suffix_cons _ _
    rcases hh with ⟨a1, a2, a3, a4⟩ | ⟨a1, a2, a3, a4⟩ | ⟨a1, a2, a3, v, r', a4, a5, a6, a7, a8⟩
    · rw [macroAt_lit a1]
      refine ⟨by simp, fun _ => ?_⟩
      rw [pm_bind_fail (tm_get_fail h (by rw [check_type, if_neg (by simp [a2])]))]
      exact ⟨_, rfl⟩
    · subst a1
      rw [macroAt_space, pm_bind_ok (tm_get h (by rw [check_type, if_pos a2]))]
      obtain ⟨k1, k2⟩ := macroHeadTail_spec env t t1 h.next a4 (hsuf.sublist.trans hts)
      constructor
      · intro name args rest hm
        rw [Option.map_eq_some_iff] at hm
        obtain ⟨⟨a, b⟩, m1, m2⟩ := hm
        cases m2
        obtain ⟨argsTok, k, cx, ts', b1, b2, b3, b4, b5⟩ := k1 _ _ m1
        exact ⟨t1, argsTok, k, cx, ts', a3, b1, b2, b3, b4, b5.trans hsuf⟩
      · intro hm
        rw [Option.map_eq_none_iff] at hm
        exact k2 hm
    · subst a5
      rw [← List.cons_append, macroAt_word (by simp) a6 a7, pm_bind_ok (tm_get h (by rw [check_type, if_pos a3]))]
      obtain ⟨k1, k2⟩ := macroHeadTail_spec env t t1 h.next a8 (hsuf.sublist.trans hts)
      constructor
      · intro name args rest hm
        rw [Option.map_eq_some_iff] at hm
        obtain ⟨⟨a, b⟩, m1, m2⟩ := hm
        cases m2
        obtain ⟨argsTok, k, cx, ts', b1, b2, b3, b4, b5⟩ := k1 _ _ m1
        exact ⟨t1, argsTok, k, cx, ts', a4, b1, b2, b3, b4, b5.trans hsuf⟩
      · intro hm
        rw [Option.map_eq_none_iff] at hm
        exact k2 hm

end mac

/-- A macro, after its head was read. -/
noncomputable def macroBody (env : Env) (nameTok argsTok : Token) (cx : Context) : PM (List Node) := do
  let p ← PM.lift (processArguments env argsTok)
  macroDispatch env (strP env) nameTok p cx

/-- The macro with this name and this text of arguments yields these nodes or this error. -/
def MacroMeans (env : Env) (name args : Str) : Except Err (List Node) → Prop
  | .ok ns => ∀ (nameTok argsTok : Token) (cx : Context) (st : TextSt), nameTok.value = name → argsTok.value = args →
    ∃ ns' st', macroBody env nameTok argsTok cx st = .ok ns' st' ∧ st'.next = st.next ∧ anonList ns' = ns
  | .error er => ∀ (nameTok argsTok : Token) (cx : Context) (st : TextSt), nameTok.value = name → argsTok.value = args →
    ∃ er', macroBody env nameTok argsTok cx st = .err er' ∧ er'.bare = er

/-- A meaning of macros which is right. -/
def MacrosRight (env : Env) (M : Macros) : Prop := ∀ name args r, M name args = some r → MacroMeans env name args r


/-! ## Sentences -/

/-- Only the token index changes. -/
def Quiet {α : Type} (f : PM α) : Prop :=
  ∀ s, (∀ a s', f s = .ok a s' → s' = { s with next := s'.next }) ∧ ∀ s', f s = .fail s' → s' = { s with next := s'.next }

namespace Quiet
variable {α β : Type}

theorem pure (a : α) : Quiet (Pure.pure a : PM α) := fun s => ⟨by intro _ _ h; cases h; rfl, by intro _ h; cases h⟩

theorem bind {f : PM α} {g : α → PM β} (hf : Quiet f) (hg : ∀ a, Quiet (g a)) : Quiet (f >>= g) := by
  intro s
  change (∀ a s', PM.bind f g s = .ok a s' → _) ∧ ∀ s', PM.bind f g s = .fail s' → _
  unfold PM.bind
  cases hx : f s with
  | ok a s1 =>
    have h1 := (hf s).1 _ _ hx
    refine ⟨fun b s' h => ?_, fun s' h => ?_⟩
    · have h2 := (hg a s1).1 _ _ h
      rw [h2, h1]
    · have h2 := (hg a s1).2 _ h
      rw [h2, h1]
  | fail s1 => exact ⟨(by intro _ _ h; cases h), (by intro _ h; cases h; exact (hf s).2 _ hx)⟩
  | err e => exact ⟨(by intro _ _ h; cases h), (by intro _ h; cases h)⟩

theorem raise (e : Err) : Quiet (PM.raise e : PM α) := by
  intro s
  cases e <;> exact ⟨(by intro _ _ h; cases h), (by intro _ h; cases h; try rfl)⟩

theorem tm {toks : List Token} (f : TM → Except Err (α × TM)) : Quiet (PM.tm toks f) := by
  intro s
  unfold PM.tm
  split
  · exact ⟨(by intro _ _ h; cases h; rfl), (by intro _ h; cases h)⟩
  · exact ⟨(by intro _ _ h; cases h), (by intro _ h; cases h; rfl)⟩
  · exact ⟨(by intro _ _ h; cases h), (by intro _ h; cases h)⟩

theorem peek {toks : List Token} (f : TM → Except Err α) : Quiet (PM.peek toks f) := by
  intro s
  unfold PM.peek
  split
  · exact ⟨(by intro _ _ h; cases h; rfl), (by intro _ h; cases h)⟩
  · exact ⟨(by intro _ _ h; cases h), (by intro _ h; cases h; rfl)⟩
  · exact ⟨(by intro _ _ h; cases h), (by intro _ h; cases h)⟩

theorem ite {c : Prop} [Decidable c] {f g : PM α} (hf : Quiet f) (hg : Quiet g) : Quiet (if c then f else g) := by
  split
  · exact hf
  · exact hg

theorem orElse {f g : PM α} (hf : Quiet f) (hg : Quiet g) : Quiet (PM.orElse f g) := by
  intro s
  unfold PM.orElse
  cases hx : f s with
  | ok a s1 => exact ⟨(by intro _ _ h; cases h; exact (hf s).1 _ _ hx), (by intro _ h; cases h)⟩
  | fail s1 =>
    have h1 := (hf s).2 _ hx
    refine ⟨fun b s' h => ?_, fun s' h => ?_⟩
    · have h2 := (hg _).1 _ _ h
      rw [h2, h1]
    · have h2 := (hg _).2 _ h
      rw [h2, h1]
  | err e => exact ⟨(by intro _ _ h; cases h), (by intro _ h; cases h)⟩

end Quiet

/-- Nothing is collected, and no identity number is used. -/
def Same (s s' : TextSt) : Prop := s' = { s with next := s'.next }

theorem Same.refl {s : TextSt} : Same s s := rfl
theorem Same.trans {a b c : TextSt} (h : Same a b) (h' : Same b c) : Same a c := by
  unfold Same at *
  rw [h', h]

theorem Quiet.same {α : Type} {f : PM α} (h : Quiet f) {s s' : TextSt} {a : α} (hx : f s = .ok a s') : Same s s' := by
  exact (h s).1 a s' hx

theorem Quiet.same_fail {α : Type} {f : PM α} (h : Quiet f) {s s' : TextSt} (hx : f s = .fail s') : Same s s' := by
  exact (h s).2 s' hx

theorem Quiet.lift {α : Type} (x : Except Err α) : Quiet (PM.lift x) := by
  intro s
  unfold PM.lift
  split
  · exact ⟨(by intro _ _ h; cases h; rfl), (by intro _ h; cases h)⟩
  · exact ⟨(by intro _ _ h; cases h), (by intro _ h; cases h; rfl)⟩
  · exact ⟨(by intro _ _ h; cases h), (by intro _ h; cases h)⟩

theorem quiet_backslash (toks : List Token) : Quiet (parseBackslash toks) := .bind (.tm _) fun _ => .bind (.tm _) fun _ => .pure _
theorem quiet_verbatim (toks : List Token) : Quiet (parseVerbatim toks) := .bind (.tm _) fun _ => .bind (.tm _) fun _ => .bind (.tm _) fun _ => .pure _
theorem quiet_escaped (toks : List Token) : Quiet (parseEscaped toks) := .bind (.tm _) fun _ => .bind (.tm _) fun _ => .bind (.tm _) fun _ => .pure _
theorem quiet_macroHead (env : Env) (toks : List Token) : Quiet (macroHead env toks) := by
  unfold macroHead
  exact .bind (.tm _) fun _ => .bind (.tm _) fun _ => .bind (.tm _) fun _ => .bind (.tm _) fun _ => .bind (.tm _) fun _ => .bind (.tm _) fun _ =>
    .bind (.lift _) fun _ => .pure _

/-- This macro adds nothing to the collections. -/
def MacroHush (env : Env) (name args : Str) : Prop :=
  ∀ (nameTok argsTok : Token) (cx : Context) (st st' : TextSt) (ns : List Node), nameTok.value = name → argsTok.value = args →
    macroBody env nameTok argsTok cx st = .ok ns st' → Same st st'


theorem inlineRun_plain (M : Macros) (n : Nat) {m : Option Char} {c : Char} (r : Str)
    (hc : c ∉ textLiterals) (hm : ∀ k, m = some k → k ∈ textLiterals) :
    inlineRun M (n + 1) m (c :: r) = prepend [node (.word [c])] (inlineRun M n m r) := by
  have h1 : ¬ m = some c := fun h => hc (hm c h)
  have hne : ∀ d ∈ textLiterals, c ≠ d := fun d hd h => hc (h ▸ hd)
  have h2 := hne '\\' (by decide)
  have h3 := hne '[' (by decide)
  have h4 := hne '`' (by decide)
  have h5 := hne '$' (by decide)
  have h6 := hne '%' (by decide)
  have h7 : styleOf c = none := by
    simp [styleOf, hne '_' (by decide), hne '*' (by decide), hne '^' (by decide), hne '~' (by decide)]
  simp only [inlineRun, h1, h2, h3, h4, h5, h6, h7, if_false, or_self]

theorem inlineRun_words (M : Macros) {m : Option Char}
    (hm : ∀ k, m = some k → k ∈ textLiterals) (v r : Str) (hv : ∀ c ∈ v, wordChar c = true) :
    ∀ n x, inlineRun M n m (v ++ r) = some x → ∃ n' y, n' + v.length = n ∧ inlineRun M n' m r = some y ∧
      x = y.map fun z => (charWords v ++ z.1, z.2) := by
  induction v with
  | nil => intro n x h; exact ⟨n, x, by simp, h, by cases x <;> rfl⟩
  | cons c v ih =>
    intro n x h
    cases n with
    | zero => simp [inlineRun] at h
    | succ n =>
      rw [List.cons_append, inlineRun_plain M n _ (wordChar_iff.1 (hv c (by simp))).1 hm] at h
      simp only [prepend, Option.map_eq_some_iff] at h
      obtain ⟨y, h1, rfl⟩ := h
      obtain ⟨n', z, h2, h3, rfl⟩ := ih (fun c hc => hv c (by simp [hc])) n y h1
      exact ⟨n', z, by simp; omega, h3, by cases z <;> simp [Except.map, charWords]⟩

theorem styleName_eq (c : Char) : styleName [c] = styleOf c := by
  simp [styleName, styleOf]

theorem sentenceStop_text {t : Token} {m : Option Char} (ht : t.type = .TEXT) :
    sentenceStop (m.map ([·])) t = false := by
  cases m <;> simp [sentenceStop, ht]

theorem sentenceStop_lit {t : Token} {m : Option Char} {c : Char} (ht : t.type = .LITERAL) (hv : t.value = [c]) :
    sentenceStop (m.map ([·])) t = decide (m = some c) := by
  cases m with
  | none => simp [sentenceStop, ht]
  | some k =>
    have : ([c] == [k]) = decide (k = c) := by
      rw [Bool.eq_iff_iff]; simp; exact eq_comm
    simp [sentenceStop, ht, hv, this]

/-- What `_parse_sentence` does from the tokens of `s`. -/
def SentenceGives (Q : Prop) (env : Env) (toks : List Token) (e : Token) (m : Option Char) (items : List Node) (rest : Str)
    (ts : List Token) (st : TextSt) : Prop :=
  ∃ ns st' ts', sentence env toks (m.map ([·])) st = .ok ns st' ∧ SameText (anonList ns) items ∧
    TextToks rest ts' ∧ ts' <:+ ts ∧ Pos toks st' ts' e ∧ (Q → Same st st')

/-- What `_parse_sentence` does, with errors. -/
def SentenceMeans (Q : Prop) (env : Env) (toks : List Token) (e : Token) (m : Option Char) (x : Except Err (List Node × Str))
    (ts : List Token) (st : TextSt) : Prop :=
  match x with
  | .ok y => SentenceGives Q env toks e m y.1 y.2 ts st
  | .error er => ∃ er', sentence env toks (m.map ([·])) st = .err er' ∧ er'.bare = er

/-- Put nodes in front of a result. -/
abbrev addFront (a : List Node) (x : Except Err (List Node × Str)) : Except Err (List Node × Str) :=
  x.map fun y => (a ++ y.1, y.2)

section sound
variable {Q : Prop} {env : Env} {toks : List Token} {e : Token} {m : Option Char}

theorem sentence_item_err (env : Env) (m : Option Str) {st : TextSt} {er : Err} (h : item env toks m st = .err er) :
    sentence env toks m st = .err er := by
  rw [sentence_eq]; exact pm_bind_err h

theorem sentence_go_err (env : Env) (m : Option Str) {st st' : TextSt} {ns : List Node} {er : Err}
    (h : item env toks m st = .ok ns st') (hne : ns ≠ []) (h2 : sentence env toks m st' = .err er) :
    sentence env toks m st = .err er := by
  rw [sentence_eq, pm_bind_ok h]
  have : ns.isEmpty = false := by cases ns <;> simp at hne ⊢
  simp only [this, Bool.false_eq_true, if_false]
  exact pm_bind_err h2

theorem gives_step0 {st st' : TextSt} {ns : List Node} {ts ts' : List Token} {items a : List Node} {rest : Str}
    (h : item env toks (m.map ([·])) st = .ok ns st') (hne : ns ≠ [])
    (hs : ∀ b b', SameText b b' → SameText (anonList ns ++ b) (a ++ b'))
    (h2 : SentenceGives Q env toks e m items rest ts' st') (hsuf : ts' <:+ ts) (hq : Q → Same st st') :
    SentenceGives Q env toks e m (a ++ items) rest ts st := by
  obtain ⟨ns', st2, ts2, k1, k2, k3, k4, k5, k6⟩ := h2
  refine ⟨ns ++ ns', st2, ts2, sentence_go env _ h hne k1, ?_, k3, k4.trans hsuf, k5, fun q => (hq q).trans (k6 q)⟩
  rw [anonList_append]
  exact hs _ _ k2

theorem gives_step {st st' : TextSt} {ns : List Node} {ts ts' : List Token} {x : Except Err (List Node × Str)} {a : List Node}
    (h : item env toks (m.map ([·])) st = .ok ns st') (hne : ns ≠ [])
    (hs : ∀ b b', SameText b b' → SameText (anonList ns ++ b) (a ++ b'))
    (h2 : SentenceMeans Q env toks e m x ts' st') (hsuf : ts' <:+ ts) (hq : Q → Same st st') :
    SentenceMeans Q env toks e m (addFront a x) ts st := by
  cases x with
  | ok y => exact gives_step0 h hne hs h2 hsuf hq
  | error er => obtain ⟨er', h2, hb⟩ := h2; exact ⟨er', sentence_go_err env _ h hne h2, hb⟩

/-- The alternatives at a token that starts nothing. -/
theorem alternatives_word {st : TextSt} {t : Token} {ts : List Token} (hp : Pos toks st (t :: ts) e)
    (h1 : ¬ (t.type = .LITERAL ∧ t.value = ['\\'])) (h2 : ¬ (t.type = .LITERAL ∧ t.value = ['[']))
    (h3 : ¬ (t.type = .LITERAL ∧ t.value = ['`'])) (h4 : ¬ (t.type = .LITERAL ∧ isEscapeMarker t.value = true))
    (h5 : ¬ (t.type = .LITERAL ∧ (styleName t.value).isSome = true)) :
    alternatives env toks st = .ok [Node.new (.word t.value) t.ctx] { st with next := st.next + 1 } := by
  unfold alternatives
  rw [pm_orElse_fail_same (backslash_fail hp h1), pm_orElse_fail_same (macroP_fail env hp h2),
    pm_orElse_fail_same (verbatim_fail hp h3), pm_orElse_fail_same (escaped_fail hp h4),
    pm_orElse_fail_same (style_fail env hp h5), word_ok hp]

theorem run_sound {M : Macros} (hM : MacrosRight env M) (hQ : Q → ∀ name args ns, M name args = some (.ok ns) → MacroHush env name args) :
    ∀ (n : Nat) (m : Option Char) (s : Str) (ts : List Token) (st : TextSt) (x : Except Err (List Node × Str)),
      (∀ k, m = some k → k ∈ textLiterals) → inlineRun M n m s = some x → TextToks s ts → List.Sublist ts toks →
      Pos toks st ts e → SentenceMeans Q env toks e m x ts st := by
  intro n
  induction n using Nat.strongRecOn with
  | _ n ih =>
  intro m s ts st x hm hrun ht hts hp
  cases n with
  | zero => simp [inlineRun] at hrun
  | succ n =>
  cases s with
  | nil =>
    have := ht.nil_inv
    subst this
    simp [inlineRun] at hrun
    subst hrun
    exact ⟨[], st, [], sentence_stop env _ (item_end env _ hp), .refl _, .nil, List.suffix_refl _, hp, fun _ => .refl⟩
  | cons c r =>
  obtain ⟨t, ts1, rfl, hh⟩ := ht.head
  have hts1 : List.Sublist ts1 toks := (List.suffix_cons _ _).sublist.trans hts
  rcases hh with ⟨a1, a2, a3, a4⟩ | ⟨a1, a2, a3, a4⟩ | ⟨a1, a2, a3, v, r', a4, a5, a6, a7, a8⟩
  · -- a special character
    have hv : ∀ d, (t.type = .LITERAL ∧ t.value = [d]) ↔ c = d := by
      intro d; simp [a2, a3]
    by_cases hmc : m = some c
    · simp only [inlineRun, hmc, if_true, Option.some.injEq] at hrun
      subst hrun
      refine ⟨[], st, t :: ts1, sentence_stop env _ (item_stop env _ hp ?_), .refl _, ht, List.suffix_refl _, hp, fun _ => .refl⟩
      rw [sentenceStop_lit a2 a3, hmc]; simp
    · have hgo := item_go env (m.map ([·])) hp (by rw [sentenceStop_lit a2 a3]; simpa using hmc)
      -- the special character as a word
      have asWord : ∀ st0, Pos toks st0 (t :: ts1) e → (Q → Same st st0) →
          alternatives env toks st = .ok [Node.new (.word [c]) t.ctx] { st0 with next := st0.next + 1 } →
          prepend [node (.word [c])] (inlineRun M n m r) = some x →
          SentenceMeans Q env toks e m x (t :: ts1) st := by
        intro st0 hp0 hsm halt hpre
        simp only [prepend, Option.map_eq_some_iff] at hpre
        obtain ⟨x', hr1, rfl⟩ := hpre
        exact gives_step (hgo.trans halt) (by simp) (fun _ _ hb => hb.prepend _)
          (ih n (by omega) m r ts1 _ _ hm hr1 a4 hts1 hp0.next) (List.suffix_cons _ _) (fun q => (hsm q).trans rfl)
      by_cases hbs : c = '\\'
      · -- an escape
        subst hbs
        have h0 := tm_get hp (ty := some .LITERAL) (v := some ['\\']) (f := none) (by rw [check_value, if_pos ⟨a2, a3⟩])
        cases r with
        | nil =>
          have := a4.nil_inv
          subst this
          simp [inlineRun, hmc] at hrun
          subst hrun
          obtain ⟨st', g1, g2⟩ := tm_get_nil hp.next
          have hb : parseBackslash toks st = .ok [Node.new (.word e.value) (t.ctx.merge e.ctx)] st' := by
            unfold parseBackslash
            rw [pm_bind_ok h0, pm_bind_ok g1]; rfl
          rw [hp.eof.2] at hb
          have hi : item env toks (m.map ([·])) st = .ok [Node.new (.word []) (t.ctx.merge e.ctx)] st' := by
            rw [hgo]; exact pm_orElse_ok hb
          have := gives_step (Q := Q) (a := [node (.word [])]) (x := .ok ([], [])) (ts := [t]) (ts' := []) hi (by simp)
            (fun _ _ hb => hb.prepend _)
            ⟨[], st', [], sentence_stop env _ (item_end env _ g2), .refl _, .nil, List.suffix_refl _, g2, fun _ => .refl⟩
            (List.nil_suffix) (fun _ => (quiet_backslash toks).same hb)
          exact this
        | cons d r' =>
          simp only [inlineRun, hmc, if_false, if_true, prepend, Option.map_eq_some_iff] at hrun
          obtain ⟨x', hr1, rfl⟩ := hrun
          obtain ⟨t2, ts2, rfl, hh2⟩ := a4.head
          have hts2 : List.Sublist ts2 toks := (List.suffix_cons _ _).sublist.trans hts1
          have hb : parseBackslash toks st =
              .ok [Node.new (.word t2.value) (t.ctx.merge t2.ctx)] { st with next := st.next + 1 + 1 } := by
            unfold parseBackslash
            rw [pm_bind_ok h0, pm_bind_ok (tm_get hp.next (check_any t2))]; rfl
          have hi : item env toks (m.map ([·])) st =
              .ok [Node.new (.word t2.value) (t.ctx.merge t2.ctx)] { st with next := st.next + 1 + 1 } := by
            rw [hgo]; exact pm_orElse_ok hb
          have hsuf2 : ts2 <:+ t :: t2 :: ts2 := (List.suffix_cons _ _).trans (List.suffix_cons _ _)
          have single : t2.value = [d] → TextToks r' ts2 →
              SentenceMeans Q env toks e m (addFront [node (.word [d])] x') (t :: t2 :: ts2) st := by
            intro hv2 ht2
            rw [hv2] at hi
            exact gives_step hi (by simp) (fun _ _ hb => hb.prepend _)
              (ih n (by omega) m r' ts2 _ _ hm hr1 ht2 hts2 hp.next.next) hsuf2 (fun _ => rfl)
          rcases hh2 with ⟨b1, b2, b3, b4⟩ | ⟨b1, b2, b3, b4⟩ | ⟨b1, b2, b3, v, r2, b4, b5, b6, b7, b8⟩
          · exact single b3 b4
          · subst b1; exact single b3 b4
          · subst b5
            obtain ⟨n', y, k1, k2, k3⟩ := inlineRun_words M hm v r2 (fun c hc => b6 c (by simp [hc])) n _ hr1
            subst k3
            rw [b4] at hi
            have : addFront [node (.word [d])] (addFront (charWords v) y) = addFront (charWords (d :: v)) y := by
              cases y <;> simp [charWords, Except.map]
            change SentenceMeans Q env toks e m (addFront [node (.word [d])] (addFront (charWords v) y)) _ st
            rw [this]
            exact gives_step hi (by simp) (fun _ _ hb => sameText_word (by simp) hb)
              (ih n' (by omega) m r2 ts2 _ _ hm k2 b8 hts2 hp.next.next) hsuf2 (fun _ => rfl)
      · have hf1 : parseBackslash toks st = .fail st := backslash_fail hp (by rw [hv]; exact hbs)
        have hlastword : ∀ st0, Pos toks st0 (t :: ts1) e →
            parseWord toks st0 = .ok [Node.new (.word [c]) t.ctx] { st0 with next := st0.next + 1 } := by
          intro st0 hp0; rw [word_ok hp0, a3]
        by_cases hbr : c = '['
        · -- a macro
          subst hbr
          have hf345 : ∀ st0, Pos toks st0 (t :: ts1) e →
              (PM.orElse (parseVerbatim toks) <| PM.orElse (parseEscaped toks) <| PM.orElse (styleP env toks) <| parseWord toks) st0
                = .ok [Node.new (.word ['[']) t.ctx] { st0 with next := st0.next + 1 } := by
            intro st0 hp0
            rw [pm_orElse_fail_same (verbatim_fail hp0 (by rw [hv]; decide)),
              pm_orElse_fail_same (escaped_fail hp0 (by simp [a2, a3, isEscapeMarker])),
              pm_orElse_fail_same (style_fail env hp0 (by simp [a2, a3, styleName])), hlastword st0 hp0]
          obtain ⟨k1, k2⟩ := macroHead_spec env hp ⟨a2, a3⟩ a4 hts1
          simp only [inlineRun, hmc, hbs, if_false, if_true] at hrun
          cases hma : macroAt r with
          | none =>
            rw [hma] at hrun
            obtain ⟨st', hfail⟩ := k2 hma
            have hmf : macroP env toks st = .fail st' := by rw [macroP_eq]; exact pm_bind_fail hfail
            refine asWord { st' with next := st.next } (hp.reset st') (fun _ => Same.trans ((quiet_macroHead env toks).same_fail hfail) rfl) ?_ hrun
            unfold alternatives
            rw [pm_orElse_fail_same hf1, pm_orElse_fail hmf, hf345 _ (hp.reset st')]
          | some x =>
            obtain ⟨name, args, r'⟩ := x
            rw [hma] at hrun
            obtain ⟨nameTok, argsTok, k, cx, ts', b1, b2, b3, b4, b5, b6⟩ := k1 _ _ _ hma
            have hts' : List.Sublist ts' toks := b6.sublist.trans hts1
            simp only at hrun
            cases hMx : M name args with
            | none => rw [hMx] at hrun; cases hrun
            | some res =>
              have hb := hM name args res hMx
              have hmac : macroP env toks st = macroBody env nameTok argsTok cx { st with next := k } := by
                rw [macroP_eq]
                show PM.bind (macroHead env toks) _ st = _
                unfold PM.bind
                rw [b3]
                unfold macroBody
                show _ = PM.bind _ _ _
                simp only [bind, PM.bind, pure]
                cases PM.lift (processArguments env argsTok) { st with next := k } <;> rfl
              rw [hMx] at hrun
              cases res with
              | error er =>
                simp only [Option.some.injEq] at hrun
                subst hrun
                obtain ⟨er', hb1, hb2⟩ := hb nameTok argsTok cx { st with next := k } b1 b2
                refine ⟨er', sentence_item_err env _ ?_, hb2⟩
                rw [hgo]; unfold alternatives
                rw [pm_orElse_fail_same hf1]
                exact pm_orElse_err (hmac.trans hb1)
              | ok ns =>
              obtain ⟨ns', st', c2, c3, c4⟩ := hb nameTok argsTok cx { st with next := k } b1 b2
              have hsame : Q → Same st st' := fun q => Same.trans (b := { st with next := k }) rfl (hQ q name args ns hMx nameTok argsTok cx _ st' ns' b1 b2 c2)
              rw [← hmac] at c2
              have hp' : Pos toks st' ts' e := by unfold Pos; rw [c3]; exact b4
              have hitem : item env toks (m.map ([·])) st = .ok ns' st' := by
                rw [hgo]; unfold alternatives
                rw [pm_orElse_fail_same hf1, pm_orElse_ok c2]
              cases ns with
              | nil =>
                have : ns' = [] := anonList_eq_nil.1 c4
                subst this
                simp only [Option.some.injEq] at hrun
                subst hrun
                exact ⟨[], st', ts', sentence_none env _ hitem, .refl _, b5, b6.trans (List.suffix_cons _ _), hp', hsame⟩
              | cons y ys =>
                simp only [prepend, Option.map_eq_some_iff] at hrun
                obtain ⟨x', hr1, rfl⟩ := hrun
                have hne : ns' ≠ [] := by rintro rfl; cases c4
                refine gives_step hitem hne (fun _ _ hb => ?_)
                  (ih n (by omega) m r' ts' _ _ hm hr1 b5 hts' hp') (b6.trans (List.suffix_cons _ _)) hsame
                rw [c4]; exact hb.prepend _
        · have hf2 : macroP env toks st = .fail st := macroP_fail env hp (by rw [hv]; exact hbr)
          by_cases hbt : c = '`'
          · -- verbatim
            subst hbt
            have hf45 : ∀ st0, Pos toks st0 (t :: ts1) e →
                (PM.orElse (parseEscaped toks) <| PM.orElse (styleP env toks) <| parseWord toks) st0
                  = .ok [Node.new (.word ['`']) t.ctx] { st0 with next := st0.next + 1 } := by
              intro st0 hp0
              rw [pm_orElse_fail_same (escaped_fail hp0 (by simp [a2, a3, isEscapeMarker])),
                pm_orElse_fail_same (style_fail env hp0 (by simp [a2, a3, styleName])), hlastword st0 hp0]
            obtain ⟨k1, k2⟩ := verbatim_span hp ⟨a2, a3⟩ a4
            simp only [inlineRun, hmc, hbs, hbr, if_false, if_true] at hrun
            cases hcl : closing '`' r with
            | none =>
              rw [hcl] at hrun
              obtain ⟨st', hfail⟩ := k2 hcl
              refine asWord { st' with next := st.next } (hp.reset st') (fun _ => Same.trans ((quiet_verbatim toks).same_fail hfail) rfl) ?_ hrun
              unfold alternatives
              rw [pm_orElse_fail_same hf1, pm_orElse_fail_same hf2, pm_orElse_fail hfail, hf45 _ (hp.reset st')]
            | some x =>
              obtain ⟨raw, r'⟩ := x
              rw [hcl] at hrun
              simp only [prepend, Option.map_eq_some_iff] at hrun
              obtain ⟨x', hr1, rfl⟩ := hrun
              obtain ⟨cx, st', ts', b1, b2, b3, b4⟩ := k1 _ _ hcl
              refine gives_step (ns := [Node.new (.verbatim (unescape '`' raw)) cx]) (hgo.trans ?_) (by simp) (fun _ _ hb => hb.prepend _)
                (ih n (by omega) m r' ts' _ _ hm hr1 b3 (b4.sublist.trans hts1) b2) (b4.trans (List.suffix_cons _ _)) (fun _ => (quiet_verbatim toks).same b1)
              unfold alternatives
              rw [pm_orElse_fail_same hf1, pm_orElse_fail_same hf2, pm_orElse_ok b1]
          · have hf3 : parseVerbatim toks st = .fail st := verbatim_fail hp (by rw [hv]; exact hbt)
            by_cases hde : c = '$' ∨ c = '%'
            · -- dollar and percent
              have hnst : styleName [c] = none := by rcases hde with rfl | rfl <;> decide
              have hf5 : ∀ st0, Pos toks st0 (t :: ts1) e →
                  (PM.orElse (styleP env toks) <| parseWord toks) st0
                    = .ok [Node.new (.word [c]) t.ctx] { st0 with next := st0.next + 1 } := by
                intro st0 hp0
                rw [pm_orElse_fail_same (style_fail env hp0 (by simp [a2, a3, hnst])), hlastword st0 hp0]
              obtain ⟨k1, k2⟩ := escaped_span hde hp ⟨a2, a3⟩ a4
              simp only [inlineRun, hmc, hbs, hbr, hbt, hde, if_false, if_true] at hrun
              cases hcl : closing c r with
              | none =>
                rw [hcl] at hrun
                obtain ⟨st', hfail⟩ := k2 hcl
                refine asWord { st' with next := st.next } (hp.reset st') (fun _ => Same.trans ((quiet_escaped toks).same_fail hfail) rfl) ?_ hrun
                unfold alternatives
                rw [pm_orElse_fail_same hf1, pm_orElse_fail_same hf2, pm_orElse_fail_same hf3, pm_orElse_fail hfail,
                  hf5 _ (hp.reset st')]
              | some x =>
                obtain ⟨raw, r'⟩ := x
                rw [hcl] at hrun
                simp only [prepend, Option.map_eq_some_iff] at hrun
                obtain ⟨x', hr1, rfl⟩ := hrun
                obtain ⟨cx, st', ts', b1, b2, b3, b4⟩ := k1 _ _ hcl
                refine gives_step (ns := [Node.new (.text (unescape c raw)) cx]) (hgo.trans ?_) (by simp) (fun _ _ hb => hb.prepend _)
                  (ih n (by omega) m r' ts' _ _ hm hr1 b3 (b4.sublist.trans hts1) b2) (b4.trans (List.suffix_cons _ _)) (fun _ => (quiet_escaped toks).same b1)
                unfold alternatives
                rw [pm_orElse_fail_same hf1, pm_orElse_fail_same hf2, pm_orElse_fail_same hf3, pm_orElse_ok b1]
            · have hnesc : isEscapeMarker [c] = false := by
                simp only [not_or] at hde
                simp [isEscapeMarker, hde.1, hde.2]
              have hf4 : parseEscaped toks st = .fail st := escaped_fail hp (by simp [a3, hnesc])
              simp only [inlineRun, hmc, hbs, hbr, hbt, hde, if_false] at hrun
              cases hst : styleOf c with
              | none =>
                rw [hst] at hrun
                refine asWord st hp (fun _ => .refl) ?_ hrun
                unfold alternatives
                rw [pm_orElse_fail_same hf1, pm_orElse_fail_same hf2, pm_orElse_fail_same hf3, pm_orElse_fail_same hf4,
                  pm_orElse_fail_same (style_fail env hp (by simp [a3, styleName_eq, hst])), hlastword st hp]
              | some k =>
                rw [hst] at hrun
                cases hin : inlineRun M n (some c) r with
                | none => rw [hin] at hrun; cases hrun
                | some xc =>
                  have hsub := ih n (by omega) (some c) r ts1 _ _
                    (by intro k hk; cases hk; exact a1) hin a4 hts1 hp.next
                  rw [hin] at hrun
                  have hopen := tm_get hp (ty := some .LITERAL) (v := none) (f := some fun v => (styleName v).isSome)
                    (by rw [check_pred, if_pos ⟨a2, by simp [a3, styleName_eq, hst]⟩])
                  cases xc with
                  | error er =>
                    simp only [Option.some.injEq] at hrun
                    subst hrun
                    obtain ⟨er', hsub, hb⟩ := hsub
                    refine ⟨er', sentence_item_err env _ ?_, hb⟩
                    rw [hgo]; unfold alternatives
                    rw [pm_orElse_fail_same hf1, pm_orElse_fail_same hf2, pm_orElse_fail_same hf3, pm_orElse_fail_same hf4]
                    refine pm_orElse_err ?_
                    rw [styleP_eq, pm_bind_ok hopen]
                    simp only [a3]
                    exact pm_bind_err hsub
                  | ok xc =>
                  obtain ⟨content, rest1⟩ := xc
                  obtain ⟨ns, st1, ts2, b1, b2, b3, b4, b5, b6⟩ := hsub
                  have hst1 : Q → Same st st1 := fun q => Same.trans (b := { st with next := st.next + 1 }) rfl (b6 q)
                  have hstyle : styleP env toks st = (PM.tm toks (·.get (some .LITERAL) (some [c])) >>= fun z =>
                      pure [Node.new (.style k) (t.ctx.merge z.ctx) (groupWords ns)]) st1 := by
                    rw [styleP_eq, pm_bind_ok hopen]
                    simp only [a3]
                    simp only [Option.map_some] at b1
                    rw [pm_bind_ok b1]
                    simp [styleName_eq, hst]
                  have hword : (∃ st', styleP env toks st = .fail st' ∧ (Q → Same st st')) →
                      prepend [node (.word [c])] (inlineRun M n m r) = some x →
                      SentenceMeans Q env toks e m x (t :: ts1) st := by
                    rintro ⟨st', hfail, hsm⟩ hpre
                    refine asWord { st' with next := st.next } (hp.reset st') (fun q => (hsm q).trans rfl) ?_ hpre
                    unfold alternatives
                    rw [pm_orElse_fail_same hf1, pm_orElse_fail_same hf2, pm_orElse_fail_same hf3, pm_orElse_fail_same hf4,
                      pm_orElse_fail hfail, hlastword _ (hp.reset st')]
                  cases rest1 with
                  | nil =>
                    have := b3.nil_inv
                    subst this
                    refine hword ⟨st1, ?_, hst1⟩ hrun
                    rw [hstyle]
                    exact pm_bind_fail (tm_get_nil_fail b5 (by rw [check_value, if_neg (by simp [b5.eof.1])]))
                  | cons d r' =>
                    obtain ⟨t3, ts3, rfl, _⟩ := b3.head
                    rcases lit_or_not a1 b3 with ⟨rfl, d1, d2, d3⟩ | ⟨hne, hnl⟩
                    · simp only [if_true, prepend, Option.map_eq_some_iff] at hrun
                      obtain ⟨x', hr1, rfl⟩ := hrun
                      have hsuf : ts3 <:+ ts1 := (List.suffix_cons _ _).trans b4
                      have hok := pm_bind_ok (f := fun z => (pure [Node.new (.style k) (t.ctx.merge z.ctx) (groupWords ns)] : PM _))
                        (tm_get b5 (ty := some .LITERAL) (v := some [d]) (f := none) (by rw [check_value, if_pos ⟨d1, d2⟩]))
                      refine gives_step (ns := [Node.new (.style k) (t.ctx.merge t3.ctx) (groupWords ns)])
                        (st' := { st1 with next := st1.next + 1 }) (hgo.trans ?_) (by simp) (fun _ _ hb => ?_)
                        (ih n (by omega) m r' ts3 _ _ hm hr1 d3 (hsuf.sublist.trans hts1) b5.next)
                        (hsuf.trans (List.suffix_cons _ _)) (fun q => (hst1 q).trans rfl)
                      · unfold alternatives
                        rw [pm_orElse_fail_same hf1, pm_orElse_fail_same hf2, pm_orElse_fail_same hf3, pm_orElse_fail_same hf4]
                        refine pm_orElse_ok ?_
                        rw [hstyle, hok]; rfl
                      · have : anonList [Node.new (.style k) (t.ctx.merge t3.ctx) (groupWords ns)] =
                            [node (.style k) (joinWords none content)] := by
                          simp only [anonList, Node.anon, Node.new, groupWords_anon, b2 none, NodeData.anon, node]
                        rw [this]; exact hb.prepend _
                    · simp only [hne, if_false] at hrun
                      refine hword ⟨st1, ?_, hst1⟩ hrun
                      rw [hstyle]
                      exact pm_bind_fail (tm_get_fail b5 (by rw [check_value, if_neg hnl]))
  · -- a space
    subst a1
    rw [inlineRun_plain M n r (by decide) hm] at hrun
    simp only [prepend, Option.map_eq_some_iff] at hrun
    obtain ⟨x', hr1, rfl⟩ := hrun
    have hgo := item_go env (m.map ([·])) hp (sentenceStop_text a2)
    rw [alternatives_word hp (by simp [a2]) (by simp [a2]) (by simp [a2]) (by simp [a2]) (by simp [a2]), a3] at hgo
    exact gives_step hgo (by simp) (fun _ _ hb => hb.prepend _)
      (ih n (by omega) m r ts1 _ _ hm hr1 a4 hts1 hp.next) (List.suffix_cons _ _) (fun _ => rfl)
  · -- a word
    subst a5
    rw [← List.cons_append] at hrun
    obtain ⟨n', y, k1, k2, k3⟩ := inlineRun_words M hm (c :: v) r' a6 (n + 1) _ hrun
    subst k3
    have hgo := item_go env (m.map ([·])) hp (sentenceStop_text a3)
    rw [alternatives_word hp (by simp [a3]) (by simp [a3]) (by simp [a3]) (by simp [a3]) (by simp [a3]), a4] at hgo
    exact gives_step hgo (by simp) (fun _ _ hb => sameText_word (by simp) hb)
      (ih n' (by simp at k1; omega) m r' ts1 _ _ hm k2 a8 hts1 hp.next) (List.suffix_cons _ _) (fun _ => rfl)

end sound


/-! ## Texts -/

theorem closing_suffix {c : Char} {s raw rest : Str} (h : closing c s = some (raw, rest)) : rest <:+ s := by
  have := (span_of_closing h).2
  exact ⟨raw ++ [c], by simp [this]⟩

theorem macroArgs_suffix : ∀ (k : Nat) (s args rest : Str), macroArgs k s = some (args, rest) → rest <:+ s := by
  intro k
  induction k with
  | zero => intro s args rest h; simp [macroArgs] at h
  | succ k ih =>
    intro s args rest h
    cases s with
    | nil => simp [macroArgs] at h
    | cons c s =>
      simp only [macroArgs] at h
      split at h
      · cases h; exact List.suffix_cons _ _
      · split at h
        · cases hc : closing '"' s with
          | none => rw [hc] at h; simp at h
          | some x =>
            obtain ⟨raw, s2⟩ := x
            rw [hc] at h
            simp only [Option.map_eq_some_iff] at h
            obtain ⟨⟨a, b⟩, h1, h2⟩ := h
            cases h2
            exact (ih _ _ _ h1).trans ((closing_suffix hc).trans (List.suffix_cons _ _))
        · cases hc : closing ')' (c :: s) with
          | none => rw [hc] at h; simp at h
          | some x =>
            obtain ⟨raw, s2⟩ := x
            rw [hc] at h
            cases h
            exact closing_suffix hc

theorem macroAt_suffix {r name args rest : Str} (h : macroAt r = some (name, args, rest)) : rest <:+ r := by
  unfold macroAt at h
  simp only at h
  generalize (if r.head? = some ' ' then [' '] else r.takeWhile fun c => !(inlineSpecial.contains c || c == ' ')) = w at h
  by_cases hw : w = []
  · simp [hw] at h
  · rw [if_neg hw] at h
    cases he : List.drop w.length r with
    | nil => rw [he] at h; cases h
    | cons c r1 =>
      cases r1 with
      | nil => rw [he] at h; cases h
      | cons d r2 =>
        rw [he] at h
        simp only at h
        by_cases hcd : c = ']' ∧ d = '('
        · rw [if_pos hcd, Option.map_eq_some_iff] at h
          obtain ⟨⟨a, b⟩, h1, h2⟩ := h
          cases h2
          have h3 := macroArgs_suffix _ _ _ _ h1
          have h4 : r2 <:+ r := by
            have : c :: d :: r2 <:+ r := by rw [← he]; exact List.drop_suffix _ _
            exact ((List.suffix_cons _ _).trans (List.suffix_cons _ _)).trans this
          exact h3.trans h4
        · rw [if_neg hcd] at h; cases h

theorem inlineRun_suffix (M : Macros) : ∀ (n : Nat) (m : Option Char) (s : Str) (items : List Node) (rest : Str),
    inlineRun M n m s = some (.ok (items, rest)) → rest <:+ s ∧ (∀ c r, s = c :: r → m ≠ some c → rest <:+ r) := by
  intro n
  induction n with
  | zero => intro m s items rest h; simp [inlineRun] at h
  | succ n ih =>
    intro m s items rest h
    cases s with
    | nil => simp [inlineRun] at h; obtain ⟨_, rfl⟩ := h; exact ⟨List.nil_suffix, by simp⟩
    | cons c r =>
      by_cases hmc : m = some c
      · simp [inlineRun, hmc] at h
        obtain ⟨_, rfl⟩ := h
        refine ⟨List.suffix_refl _, ?_⟩
        intro c' r' he hx; cases he; exact absurd hmc hx
      · have pre : ∀ (a : List Node) (r' : Str), r' <:+ r → prepend a (inlineRun M n m r') = some (.ok (items, rest)) → rest <:+ r := by
          intro a r' hr' hp
          simp only [prepend, Option.map_eq_some_iff] at hp
          obtain ⟨x, h1, h2⟩ := hp
          cases x with
          | error er => cases h2
          | ok x => cases h2; exact (ih _ _ _ _ h1).1.trans hr'
        suffices hs : rest <:+ r from ⟨hs.trans (List.suffix_cons _ _), by intro c' r' he _; cases he; exact hs⟩
        simp only [inlineRun, if_neg hmc] at h
        split at h
        · cases r with
          | nil => simp at h; rw [h.2]; exact List.suffix_refl _
          | cons d r' => exact pre _ _ (List.suffix_cons _ _) h
        · split at h
          · cases hma : macroAt r with
            | none => rw [hma] at h; exact pre _ _ (List.suffix_refl _) h
            | some x =>
              obtain ⟨name, args, r'⟩ := x
              rw [hma] at h
              simp only at h
              cases hx : M name args with
              | none => rw [hx] at h; cases h
              | some ns =>
                rw [hx] at h
                cases ns with
                | error er => cases h
                | ok ns =>
                cases ns with
                | nil => cases h; exact macroAt_suffix hma
                | cons a b => exact pre _ _ (macroAt_suffix hma) h
          · split at h
            · cases hc : closing '`' r with
              | none => rw [hc] at h; exact pre _ _ (List.suffix_refl _) h
              | some x => rw [hc] at h; exact pre _ _ (closing_suffix hc) h
            · split at h
              · cases hc : closing c r with
                | none => rw [hc] at h; exact pre _ _ (List.suffix_refl _) h
                | some x => rw [hc] at h; exact pre _ _ (closing_suffix hc) h
              · cases hst : styleOf c with
                | none => rw [hst] at h; exact pre _ _ (List.suffix_refl _) h
                | some k =>
                  rw [hst] at h
                  simp only at h
                  cases hin : inlineRun M n (some c) r with
                  | none => rw [hin] at h; cases h
                  | some x =>
                    rw [hin] at h
                    cases x with
                    | error er => cases h
                    | ok x =>
                    obtain ⟨content, rest1⟩ := x
                    cases rest1 with
                    | nil => exact pre _ _ (List.suffix_refl _) h
                    | cons d r' =>
                      simp only at h
                      split at h
                      · exact pre _ _ ((List.suffix_cons _ _).trans (ih _ _ _ _ hin).1) h
                      · exact pre _ _ (List.suffix_refl _) h

section loop
variable {Q : Prop} {env : Env} {toks : List Token} {e : Token}

/-- What the main loop of the text parser does. -/
def LoopMeans (Q : Prop) (env : Env) (toks : List Token) (last : Token) (st : TextSt) (acc : List Node) : Except Err (List Node) → Prop
  | .ok ns => ∃ ns' st', mainP env toks last st acc = .ok (acc ++ ns', st') ∧ anonList ns' = ns ∧ (Q → Same st st')
  | .error er => ∃ er', mainP env toks last st acc = .error er' ∧ er'.bare = er

theorem loop_sound {M : Macros} (hM : MacrosRight env M) (hQ : Q → ∀ name args ns, M name args = some (.ok ns) → MacroHush env name args) :
    ∀ (n : Nat) (s : Str) (ts : List Token) (st : TextSt) (last : Token) (acc : List Node) (x : Except Err (List Node)),
      inlineLoop M n s = some x → TextToks s ts → List.Sublist ts toks → ts.Nodup → Pos toks st ts e → last ∉ ts →
      LoopMeans Q env toks last st acc x := by
  intro n
  induction n with
  | zero => intro s ts st last acc x h; simp [inlineLoop] at h
  | succ n ih =>
    intro s ts st last acc x h ht hts hnd hp hlast
    cases s with
    | nil =>
      have := ht.nil_inv
      subst this
      simp [inlineLoop] at h
      subst h
      refine ⟨[], st, ?_, rfl, fun _ => .refl⟩
      rw [mainP_eq, At.peekIs_nil' hp]
      simp [hp.eof.1]
    | cons c r =>
      obtain ⟨t, ts1, rfl, _⟩ := ht.head
      have heof : t.type ≠ .EOF := ht.toks.noEof textKind_good t (by simp)
      have hne : t ≠ last := by rintro rfl; exact hlast (by simp)
      have hpk : TM.peek ⟨toks, st.next⟩ = .ok t := by rw [At.peek_cons hp]; exact check_any t
      have hstep : mainP env toks last st acc = (match sentence env toks none st with
          | .ok ns s' => mainP env toks t s' (acc ++ groupWords ns)
          | .fail _ => .error (.parser .cannotParse (some t.ctx))
          | .err e => .error e) := by
        rw [mainP_eq, At.peekIs_cons' hp]
        simp only [heof, decide_false, hpk, if_neg hne]
        cases sentence env toks none st <;> rfl
      simp only [inlineLoop] at h
      cases hr : inlineRun M (r.length + 2) none (c :: r) with
      | none => rw [hr] at h; cases h
      | some y =>
        rw [hr] at h
        have hrs := run_sound (e := e) hM hQ _ none (c :: r) (t :: ts1) st y (by simp) hr ht hts hp
        cases y with
        | error er =>
          simp only [Option.some.injEq] at h
          subst h
          obtain ⟨er', hrs, hb⟩ := hrs
          have hrs : sentence env toks none st = .err er' := hrs
          exact ⟨er', by rw [hstep, hrs], hb⟩
        | ok y =>
        obtain ⟨items, rest⟩ := y
        simp only [Option.map_eq_some_iff] at h
        obtain ⟨x2, h1, rfl⟩ := h
        obtain ⟨ns1, st1, ts', k1, k2, k3, k4, k5, k6⟩ := hrs
        simp only at k2 k3
        have k1 : sentence env toks none st = .ok ns1 st1 := k1
        have hrest := (inlineRun_suffix M _ _ _ _ _ hr).2 c r rfl (by simp)
        have hts1 : ts' <:+ ts1 := by
          rcases List.suffix_cons_iff.1 k4 with rfl | h
          · have h1 := k3.text
            rw [ht.text] at h1
            rw [← h1] at hrest
            have := hrest.length_le
            simp at this
            omega
          · exact h
        have hnd1 := (List.nodup_cons.1 hnd)
        have hih := ih rest ts' st1 t (acc ++ groupWords ns1) x2 h1 k3 (k4.sublist.trans hts)
          (hnd1.2.sublist hts1.sublist) k5 (fun hx => hnd1.1 (hts1.subset hx))
        rw [k1] at hstep
        simp only at hstep
        cases x2 with
        | error er => obtain ⟨er', hih, hb⟩ := hih; exact ⟨er', hstep.trans hih, hb⟩
        | ok ns2 =>
          obtain ⟨ns', st', j1, j2, j3⟩ := hih
          refine ⟨groupWords ns1 ++ ns', st', ?_, ?_, fun q => (k6 q).trans (j3 q)⟩
          · rw [hstep, j1, List.append_assoc]
          · rw [anonList_append, groupWords_anon, k2, j2]

end loop

/-- The fuel-free version of `ParsesTo`. -/
def TextDenotes (env : Env) (text : Str) (ns : List Node) : Prop :=
  ∀ sl sc src uid, ∃ res, textP env text sl sc src uid = .ok res ∧ anonList res.nodes = ns

theorem TextDenotes.parsesTo {env : Env} {text : Str} {ns : List Node} (h : TextDenotes env text ns) : ParsesTo env text ns := by
  intro sl sc src uid
  obtain ⟨res, h1, h2⟩ := h sl sc src uid
  obtain ⟨N, hN⟩ := textP_ev env text sl sc src uid
  exact ⟨N, fun n hn => ⟨res, (hN n hn).trans h1, h2⟩⟩

theorem ParsesTo.denotes {env : Env} {text : Str} {ns : List Node} (h : ParsesTo env text ns) : TextDenotes env text ns := by
  intro sl sc src uid
  obtain ⟨N, hN⟩ := h sl sc src uid
  obtain ⟨K, hK⟩ := textP_ev env text sl sc src uid
  obtain ⟨res, h1, h2⟩ := hN (max N K) (by omega)
  exact ⟨res, (hK (max N K) (by omega)).symm.trans h1, h2⟩

theorem strP_of_textP {env : Env} {text : Str} {ctx : Context} {st : TextSt} {res : TextResult}
    (h : textP env text ctx.startLine ctx.startColumn ctx.source st.uid = .ok res) :
    strP env text ctx st = .ok res.nodes { st with uid := res.uid } := by
  rw [strP_eq]
  unfold textP at h
  cases hl : lexText (TextBuffer.ofText text ctx.startLine ctx.startColumn ctx.source) with
  | error er => rw [hl] at h; cases h
  | ok toks =>
    rw [hl] at h
    simp only at h ⊢
    cases hm : mainP env toks initialLast { uid := st.uid } [] with
    | error er => rw [hm] at h; cases h
    | ok x =>
      obtain ⟨ns, s⟩ := x
      rw [hm] at h
      cases h
      rfl

theorem TextDenotes.sub {env : Env} {text : Str} {ns : List Node} (h : TextDenotes env text ns) (ctx : Context) (st : TextSt) :
    ∃ ns' k, strP env text ctx st = .ok ns' { st with uid := k } ∧ anonList ns' = ns := by
  obtain ⟨res, h1, h2⟩ := h ctx.startLine ctx.startColumn ctx.source st.uid
  exact ⟨res.nodes, res.uid, strP_of_textP h1, h2⟩

/-- The fuel-free version of `ParseFails`. -/
def TextErrs (env : Env) (text : Str) (er : Err) : Prop :=
  ∀ sl sc src uid, ∃ er', textP env text sl sc src uid = .error er' ∧ er'.bare = er

theorem TextErrs.fails {env : Env} {text : Str} {er : Err} (h : TextErrs env text er) : ParseFails env text er := by
  intro sl sc src uid
  obtain ⟨N, hN⟩ := textP_ev env text sl sc src uid
  obtain ⟨er', h, hb⟩ := h sl sc src uid
  exact ⟨N, er', hb, fun n hn => (hN n hn).trans h⟩

theorem ParseFails.errs {env : Env} {text : Str} {er : Err} (h : ParseFails env text er) : TextErrs env text er := by
  intro sl sc src uid
  obtain ⟨N, er', hb, hN⟩ := h sl sc src uid
  obtain ⟨K, hK⟩ := textP_ev env text sl sc src uid
  exact ⟨er', (hK (max N K) (by omega)).symm.trans (hN (max N K) (by omega)), hb⟩

theorem TextErrs.sub {env : Env} {text : Str} {er : Err} (h : TextErrs env text er) (ctx : Context) (st : TextSt) :
    ∃ er', strP env text ctx st = .err er' ∧ er'.bare = er := by
  obtain ⟨er', h, hb⟩ := h ctx.startLine ctx.startColumn ctx.source st.uid
  refine ⟨er', ?_, hb⟩
  rw [strP_eq]
  unfold textP at h
  cases hl : lexText (TextBuffer.ofText text ctx.startLine ctx.startColumn ctx.source) with
  | error er => rw [hl] at h; cases h; rfl
  | ok toks =>
    rw [hl] at h
    simp only at h ⊢
    cases hm : mainP env toks initialLast { uid := st.uid } [] with
    | error er => rw [hm] at h; cases h; rfl
    | ok x => rw [hm] at h; cases h

/-- What parsing a text yields. -/
def TextMeans (env : Env) (text : Str) : Except Err (List Node) → Prop
  | .ok ns => TextDenotes env text ns
  | .error er => TextErrs env text er

/-- The nodes of a line of text, and whether mentions and links were collected. -/
theorem text_sound_hush {Q : Prop} {env : Env} {M : Macros}
    (hM : MacrosRight env M) (hQ : Q → ∀ name args ns, M name args = some (.ok ns) → MacroHush env name args)
    {text : Str} (hnl : '\n' ∉ text) {x : Except Err (List Node)}
    (h : inlineText M text = some x) :
    match x with
    | .ok ns => ∀ sl sc src uid, ∃ res, textP env text sl sc src uid = .ok res ∧ anonList res.nodes = ns ∧
        (Q → res.footnoteMacros = [] ∧ res.headerLinks = [] ∧ res.uid = uid ∧ res.places = [])
    | .error er => TextErrs env text er := by
  unfold inlineText at h
  split at h
  · rename_i hb
    cases h
    intro sl sc src uid
    obtain ⟨t, e, h1, h2, h3, h4, h5⟩ := text_blank text hnl hb.1 hb.2 sl sc src
    unfold textP
    rw [h1]
    simp only
    have hp : Pos [t, e] ({ uid := uid } : TextSt) [t] e := At.start [t] e ⟨h2, h3⟩
    have hstop : sentenceStop none t = false := by simp [sentenceStop, h4, h5, hb.1]
    have hi := item_go env none hp hstop
    rw [alternatives_word hp (by simp [h4]) (by simp [h4]) (by simp [h4]) (by simp [h4]) (by simp [h4])] at hi
    have hs := sentence_go env none hi (by simp) (sentence_stop env none (item_end env none hp.next))
    have hm : mainP env [t, e] initialLast { uid := uid } [] =
        .ok ([Node.new (.text t.value) (t.ctx.merge t.ctx)], { ({ uid := uid } : TextSt) with next := 1 }) := by
      rw [mainP_eq, At.peekIs_cons' hp]
      have hpk : TM.peek ⟨[t, e], ({ uid := uid } : TextSt).next⟩ = .ok t := by rw [At.peek_cons hp]; exact check_any t
      have hne : t ≠ initialLast := by rintro rfl; simp [initialLast, Token.generate] at h4
      simp only [h4, reduceCtorEq, decide_false, hpk, if_neg hne]
      rw [hs]
      simp only
      rw [mainP_eq, At.peekIs_nil' hp.next]
      simp only [h2, decide_true]
      rfl
    rw [hm]
    exact ⟨_, rfl, by rw [h5]; rfl, fun _ => ⟨rfl, rfl, rfl, rfl⟩⟩
  · rename_i hb
    have hb' : text = [] ∨ isBlank text = false := by
      by_cases h0 : text = []
      · exact .inl h0
      · right; simp [h0] at hb; exact hb
    have key : ∀ sl sc src uid, ∃ toks, lexText (TextBuffer.ofText text sl sc src) = .ok toks ∧
        LoopMeans Q env toks initialLast { uid := uid } [] x := by
      intro sl sc src uid
      obtain ⟨ts, e, h1, h2, h3, h4, h5⟩ := text_single text hnl hb' sl sc src
      have hnd := h5.nodup
      have hnd' : ts.Nodup := (List.nodup_append.1 hnd).1
      refine ⟨_, h1, loop_sound (toks := ts ++ [e]) (e := e) hM hQ _ _ ts { uid := uid } initialLast [] x h h4
        (List.sublist_append_left _ _) hnd' (At.start ts e ⟨h2, h3⟩) (by
          intro hx
          exact h4.toks.noEof textKind_good _ hx rfl)⟩
    cases x with
    | error er =>
      intro sl sc src uid
      obtain ⟨toks, h1, h2⟩ := key sl sc src uid
      obtain ⟨er', h2, hb⟩ := h2
      refine ⟨er', ?_, hb⟩
      unfold textP
      rw [h1]
      simp only [h2]
    | ok ns =>
      intro sl sc src uid
      obtain ⟨toks, h1, ns', st', k1, k2, k3⟩ := key sl sc src uid
      unfold textP
      rw [h1]
      simp only [k1]
      refine ⟨_, rfl, by simpa using k2, fun q => ?_⟩
      have k4 := k3 q
      unfold Same at k4
      dsimp only
      rw [k4]
      exact ⟨rfl, rfl, rfl, rfl⟩

/-- The nodes of a line of text. -/
theorem text_sound {env : Env} {M : Macros}
    (hM : MacrosRight env M) {text : Str} (hnl : '\n' ∉ text) {x : Except Err (List Node)}
    (h : inlineText M text = some x) : TextMeans env text x := by
  have := text_sound_hush (Q := False) hM (fun q => q.elim) hnl h
  cases x with
  | error er => exact this
  | ok ns => exact fun sl sc src uid => let ⟨res, h1, h2, _⟩ := this sl sc src uid; ⟨res, h1, h2⟩

end Mau
