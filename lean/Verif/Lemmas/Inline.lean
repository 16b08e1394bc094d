import Verif.Lemmas.Scan
import Verif.Props.Tokens
import Verif.Props.Lexing

set_option linter.unusedSimpArgs false

/-!
# Reading the tokens of a single line

The tokens of the inline lexers on a single line (`Toks`), the position of a tokens manager
in such tokens (`At`), and what peeking, getting and collecting do there.
-/

namespace Mau
open Spec

/-! ## The position in the tokens -/

/-- `tm` stands before the tokens `ts` and the final EOF token `e` (or, if `ts` is empty, possibly
behind it). -/
structure At (tm : TM) (ts : List Token) (e : Token) : Prop where
  drop : tm.tokens.drop tm.next = ts ++ [e] ∨ (ts = [] ∧ tm.tokens.length ≤ tm.next)
  last : tm.tokens.getLast? = some e
  eof : e.type = .EOF ∧ e.value = []

namespace At
variable {tm : TM} {t e : Token} {ts : List Token}

theorem start (ts : List Token) (e : Token) (h : e.type = .EOF ∧ e.value = []) :
    At { tokens := ts ++ [e] } ts e := ⟨.inl (by simp), by simp, h⟩

theorem drop_cons' (h : At tm (t :: ts) e) : tm.tokens[tm.next]? = some t ∧ tm.tokens.drop (tm.next + 1) = ts ++ [e] := by
  rcases h.drop with hd | ⟨hd, _⟩
  · exact drop_cons hd
  · cases hd

theorem nextAt (h : At tm (t :: ts) e) : At { tm with next := tm.next + 1 } ts e :=
  ⟨.inl h.drop_cons'.2, h.last, h.eof⟩

theorem peek_cons (h : At tm (t :: ts) e) (ty : Option TokenType) (v : Option Str) (f : Option (Str → Bool)) :
    tm.peek ty v f = TM.checkToken t ty v f := by
  simp [TM.peek, h.drop_cons'.1]

theorem peek_nil (h : At tm [] e) (ty : Option TokenType) (v : Option Str) (f : Option (Str → Bool)) :
    tm.peek ty v f = TM.checkToken e ty v f := by
  rcases h.drop with hd | ⟨_, hd⟩
  · have := drop_cons hd
    simp [TM.peek, this.1]
  · simp [TM.peek, List.getElem?_eq_none hd, h.last]

theorem get_cons (h : At tm (t :: ts) e) {ty : Option TokenType} {v : Option Str} {f : Option (Str → Bool)}
    (hc : TM.checkToken t ty v f = .ok t) : tm.get ty v f = .ok (t, { tm with next := tm.next + 1 }) := by
  obtain ⟨tm', h1, h2, h3⟩ := (C12_get tm ty v f).2 t (by rw [h.peek_cons, hc])
  rw [h1]
  have hlt : tm.next < tm.tokens.length := by
    have := h.drop_cons'.1
    rw [List.getElem?_eq_some_iff] at this; exact this.1
  have : tm' = { tm with next := tm.next + 1 } := by
    cases tm'; simp at h2 h3 ⊢; exact ⟨h2, by omega⟩
  rw [this]

theorem get_mismatch (h : At tm (t :: ts) e) {ty : Option TokenType} {v : Option Str} {f : Option (Str → Bool)}
    (hc : TM.checkToken t ty v f = .error .token) : tm.get ty v f = .error .token := by
  simp [TM.get, h.peek_cons, hc]

theorem get_nil_mismatch (h : At tm [] e) {ty : Option TokenType} {v : Option Str} {f : Option (Str → Bool)}
    (hc : TM.checkToken e ty v f = .error .token) : tm.get ty v f = .error .token := by
  simp [TM.get, h.peek_nil, hc]

theorem get_nil (h : At tm [] e) : ∃ tm', tm.get = .ok (e, tm') ∧ tm'.tokens = tm.tokens ∧ At tm' [] e := by
  obtain ⟨tm', h1, h2, h3⟩ := (C12_get tm none none none).2 e (by rw [h.peek_nil]; simp [TM.checkToken])
  refine ⟨tm', h1, h2, ⟨.inr ⟨rfl, ?_⟩, by rw [h2]; exact h.last, h.eof⟩⟩
  have : tm.tokens.length ≤ tm.next + 1 := by
    rcases h.drop with hd | ⟨_, hd⟩
    · have := congrArg List.length hd; simp at this; omega
    · omega
  rw [h2, h3]; omega

end At

theorem check_any (t : Token) : TM.checkToken t none none none = .ok t := by simp [TM.checkToken]

theorem check_type {t : Token} {ty : TokenType} :
    TM.checkToken t (some ty) none none = if t.type = ty then .ok t else .error .token := by
  simp only [TM.checkToken, Option.getD_some, Option.isSome_none, Bool.false_and, Bool.false_eq_true, if_false,
    Option.map_none, reduceCtorEq]
  by_cases h : ty = t.type
  · simp [h]
  · have : ¬ t.type = ty := fun h2 => h h2.symm
    simp [h, this]

theorem check_value {t : Token} {ty : TokenType} {v : Str} :
    TM.checkToken t (some ty) (some v) none = if t.type = ty ∧ t.value = v then .ok t else .error .token := by
  simp only [TM.checkToken, Option.getD_some, Option.isSome_some, Bool.true_and, Option.map_none, reduceCtorEq, if_false]
  by_cases h : ty = t.type
  · subst h
    by_cases h2 : v = t.value
    · subst h2; simp
    · have : ¬ t.value = v := fun h3 => h2 h3.symm
      simp [h2, this]
  · have : ¬ t.type = ty := fun h2 => h h2.symm
    simp [h, this]

theorem check_pred {t : Token} {ty : TokenType} {f : Str → Bool} :
    TM.checkToken t (some ty) none (some f) = if t.type = ty ∧ f t.value = true then .ok t else .error .token := by
  simp only [TM.checkToken, Option.getD_some, Option.isSome_none, Bool.false_and, Bool.false_eq_true, if_false,
    Option.map_some, Option.some.injEq]
  by_cases h : ty = t.type
  · subst h
    cases hf : f t.value <;> simp [hf]
  · have : ¬ t.type = ty := fun h2 => h h2.symm
    simp [h, this]

/-- The stop test of `collect`, including EOF. -/
def stopTok (stops : List Token) (t : Token) : Bool := TM.isStop (stops ++ [Token.generate .EOF]) t

/-- The escape test of `collect`. -/
def escTok (t : Token) : Bool := t.eqv TM.escapeToken

theorem collected_upto (stops : List Token) (preserve : Bool) (ts : List Token) :
    (upto (stopTok stops) escTok ts).2 ≠ [] →
    Collected stops preserve (upto (stopTok stops) escTok ts).1
      (unesc (stopTok stops) escTok preserve (upto (stopTok stops) escTok ts).1) := by
  induction ts using upto_induct (stop := stopTok stops) (esc := escTok) with
  | nil => simp [upto]
  | stopc t ts h => intro _; rw [upto_stop h]; exact .done
  | dangling t h1 h2 => simp [upto, h1, h2]
  | esced t u us h1 h2 ih =>
    rw [upto_esc h1 h2]
    intro h
    have ih := ih h
    have ht : IsEscape t := isEscape_iff.1 h2
    have hns : ¬ IsStop stops t := by
      rw [← isStop_iff]; simpa [stopTok] using h1
    simp only [unesc, h2, if_true]
    by_cases hu : (stopTok stops u && !preserve) = true
    · rw [if_pos hu]
      simp at hu
      exact .dropped ht hns (isStop_iff.1 hu.1) hu.2 ih
    · rw [if_neg hu]
      refine .kept ht hns ?_ ih
      by_cases hp : preserve = true
      · exact .inr hp
      · left; rw [← isStop_iff]; intro h3
        apply hu; simp at hp; simp [stopTok, h3, hp]
  | plain t ts h1 h2 ih =>
    rw [upto_plain h1 h2]
    intro h
    rw [unesc_plain h2]
    refine .plain ?_ ?_ (ih h)
    · rw [← isStop_iff]; simpa [stopTok] using h1
    · rw [← isEscape_iff]; simpa [escTok] using h2

theorem collected_all (stops : List Token) (preserve : Bool) (ts : List Token) (e : Token)
    (he : e.type = .EOF ∧ e.value = []) :
    (upto (stopTok stops) escTok ts).2 = [] →
    (Collected stops preserve ts (unesc (stopTok stops) escTok preserve ts)) ∨
    ∃ out, Collected stops preserve (ts ++ [e]) out ∧
      out = unesc (stopTok stops) escTok preserve ts ++ [e] := by
  induction ts using upto_induct (stop := stopTok stops) (esc := escTok) with
  | nil => intro _; exact .inl .done
  | stopc t ts h => intro h2; simp [upto_stop h] at h2
  | dangling t h1 h2 =>
    intro _
    right
    have ht : IsEscape t := isEscape_iff.1 h2
    have hns : ¬ IsStop stops t := by
      rw [← isStop_iff]; simpa [stopTok] using h1
    cases preserve with
    | true => exact ⟨_, .kept ht hns (.inr rfl) .done, by simp [unesc, h2]⟩
    | false => exact ⟨_, .dropped ht hns (.inr he) rfl .done, by simp [unesc, h2]⟩
  | esced t u us h1 h2 ih =>
    rw [upto_esc h1 h2]
    intro h
    have ht : IsEscape t := isEscape_iff.1 h2
    have hns : ¬ IsStop stops t := by
      rw [← isStop_iff]; simpa [stopTok] using h1
    have hu : ∀ ts' out, Collected stops preserve ts' out →
        Collected stops preserve (t :: u :: ts') (if stopTok stops u && !preserve then u :: out else t :: u :: out) := by
      intro ts' out hc
      by_cases hu : (stopTok stops u && !preserve) = true
      · rw [if_pos hu]
        simp at hu
        exact .dropped ht hns (isStop_iff.1 hu.1) hu.2 hc
      · rw [if_neg hu]
        refine .kept ht hns ?_ hc
        by_cases hp : preserve = true
        · exact .inr hp
        · left; rw [← isStop_iff]; intro h3
          apply hu; simp at hp; simp [stopTok, h3, hp]
    rcases ih h with ih | ⟨out, h3, h4⟩
    · left
      simp only [unesc, h2, if_true]
      exact hu _ _ ih
    · right
      refine ⟨_, hu _ _ h3, ?_⟩
      simp only [unesc, h2, if_true, h4]
      split <;> simp
  | plain t ts h1 h2 ih =>
    rw [upto_plain h1 h2]
    intro h
    have a1 : ¬ IsStop stops t := by rw [← isStop_iff]; simpa [stopTok] using h1
    have a2 : ¬ IsEscape t := by rw [← isEscape_iff]; simpa [escTok] using h2
    rw [unesc_plain h2]
    rcases ih h with ih | ⟨out, h3, h4⟩
    · exact .inl (.plain a1 a2 ih)
    · exact .inr ⟨_, .plain a1 a2 h3, by rw [h4]; simp⟩

/-- The text of tokens. -/
def toksText (ts : List Token) : Str := (ts.map (·.value)).flatten

@[simp] theorem toksText_nil : toksText [] = [] := rfl
@[simp] theorem toksText_cons (t : Token) (ts : List Token) : toksText (t :: ts) = t.value ++ toksText ts := rfl
@[simp] theorem toksText_append (a b : List Token) : toksText (a ++ b) = toksText a ++ toksText b := by
  simp [toksText]

theorem joinWith_nil (ls : List Str) : joinWith [] ls = ls.flatten := by
  induction ls with
  | nil => rfl
  | cons l ls ih =>
    cases ls with
    | nil => simp [joinWith]
    | cons a as => simp [joinWith] at ih ⊢; exact ih

theorem flatten_filter_ne (ls : List Str) : (ls.filter fun v => !v.isEmpty).flatten = ls.flatten := by
  induction ls with
  | nil => rfl
  | cons l ls ih =>
    rw [List.filter_cons]
    cases l with
    | nil => simpa using ih
    | cons a as => simp [ih]

/-- Collecting from a position: what is returned and where the manager stands. -/
theorem At.collect {tm : TM} {ts : List Token} {e : Token} (h : At tm ts e) (stops : List Token) (preserve : Bool) :
    ∃ out tm', tm.collect stops preserve = .ok (out, tm') ∧ tm'.tokens = tm.tokens ∧
      At tm' (upto (stopTok stops) escTok ts).2 e ∧
      toksText out = toksText (unesc (stopTok stops) escTok preserve (upto (stopTok stops) escTok ts).1) := by
  have hap := upto_append (stop := stopTok stops) (esc := escTok) ts
  rcases h.drop with hd | ⟨hd, hlen⟩
  · rcases upto_snd (stop := stopTok stops) (esc := escTok) ts with hn | ⟨s, r, hs, hstop⟩
    · rw [hn] at hap ⊢
      rw [List.append_nil] at hap
      rw [hap]
      rcases collected_all stops preserve ts e h.eof hn with hc | ⟨out, hc, hout⟩
      · have h1 := C13_collect tm stops preserve ts _ [] e hd hc (.inr h.eof)
        refine ⟨_, _, h1, rfl, ⟨.inl ?_, h.last, h.eof⟩, rfl⟩
        rw [← List.drop_drop, hd]; simp
      · have h1 := C13_collect_trailing tm stops preserve ts out e h.eof hd hc
        refine ⟨_, _, h1, rfl, ⟨.inr ⟨rfl, ?_⟩, h.last, h.eof⟩, ?_⟩
        · have := congrArg List.length hd; simp at this; simp; omega
        · rw [hout]; simp [h.eof.2]
    · have hc := collected_upto stops preserve ts (by rw [hs]; simp)
      have hd' : tm.tokens.drop tm.next = (upto (stopTok stops) escTok ts).1 ++ s :: (r ++ [e]) := by
        rw [hd, ← List.cons_append, ← hs, ← List.append_assoc, hap]
      have h1 := C13_collect tm stops preserve _ _ (r ++ [e]) s hd' hc (isStop_iff.1 hstop)
      refine ⟨_, _, h1, rfl, ⟨.inl ?_, h.last, h.eof⟩, rfl⟩
      rw [← List.drop_drop, hd', hs]; simp
  · subst hd
    have := collectLoop_spec (Collected.done (stops := stops) (preserve := preserve)) (tm.tokens.length + 2) tm []
      (by simp) ⟨_, rfl⟩ ⟨e, by simpa using peek_end (List.getElem?_eq_none hlen) h.last, .inr h.eof⟩
    refine ⟨[], tm, by simpa [TM.collect] using this, rfl, ⟨.inr ⟨rfl, hlen⟩, h.last, h.eof⟩, rfl⟩

theorem At.collectJoin {tm : TM} {ts : List Token} {e : Token} (h : At tm ts e) (stops : List Token) (preserve : Bool) :
    ∃ c tm', tm.collectJoin stops [] preserve = .ok
        (⟨.TEXT, toksText (unesc (stopTok stops) escTok preserve (upto (stopTok stops) escTok ts).1), c⟩, tm') ∧
      tm'.tokens = tm.tokens ∧ At tm' (upto (stopTok stops) escTok ts).2 e := by
  obtain ⟨out, tm', h1, h2, h3, h4⟩ := h.collect stops preserve
  rw [← h4]
  cases out with
  | nil =>
    refine ⟨Context.empty, tm', ?_, h2, h3⟩
    simp [TM.collectJoin, h1, Bind.bind, Except.bind, pure, Except.pure, toksText]
  | cons a as =>
    obtain ⟨z, hz⟩ : ∃ z, (a :: as).getLast? = some z := by
      cases hl : (a :: as).getLast? with
      | none => simp at hl
      | some z => exact ⟨z, rfl⟩
    refine ⟨a.ctx.merge z.ctx, tm', ?_, h2, h3⟩
    simp only [TM.collectJoin, h1, Bind.bind, Except.bind, pure, Except.pure, List.head?_cons, hz, joinWith_nil,
      flatten_filter_ne]
    rfl

/-! ## The tokens of a line -/

/-- Tokens of a text: special characters alone as LITERAL tokens, runs of others with the type
given by `kind`. -/
inductive Toks (lits : Str) (kind : Str → TokenType) : Str → List Token → Prop where
  | nil : Toks lits kind [] []
  | lit (c : Char) (t : Token) (r : Str) (ts : List Token) (hc : c ∈ lits) (ht : t.type = .LITERAL)
      (hv : t.value = [c]) (h : Toks lits kind r ts) : Toks lits kind (c :: r) (t :: ts)
  | run (v : Str) (t : Token) (r : Str) (ts : List Token) (hv : t.value = v) (hne : v ≠ [])
      (hc : ∀ c ∈ v, c ∉ lits) (ht : t.type = kind v) (h : Toks lits kind r ts) :
      Toks lits kind (v ++ r) (t :: ts)

theorem Toks.text {lits : Str} {kind : Str → TokenType} {s : Str} {ts : List Token} (h : Toks lits kind s ts) :
    toksText ts = s := by
  induction h with
  | nil => rfl
  | lit c t r ts _ _ hv _ ih => simp [hv, ih]
  | run v t r ts hv _ _ _ _ ih => simp [hv, ih]

/-- The kinds of runs are neither LITERAL nor EOF. -/
def GoodKind (kind : Str → TokenType) : Prop := ∀ v, kind v ≠ .LITERAL ∧ kind v ≠ .EOF

theorem Toks.noEof {lits : Str} {kind : Str → TokenType} (hk : GoodKind kind) {s : Str} {ts : List Token}
    (h : Toks lits kind s ts) : ∀ t ∈ ts, t.type ≠ .EOF := by
  induction h with
  | nil => simp
  | lit c t r ts _ ht _ _ ih => simp [ht]; exact ih
  | run v t r ts _ _ _ ht _ ih => simp [ht, (hk v).2]; exact ih

/-- The stop characters of literal stop tokens. -/
def litToks (cs : List Char) : List Token := cs.map fun c => Token.generate .LITERAL [c]

theorem stopTok_lit {cs : List Char} {t : Token} {c : Char} (ht : t.type = .LITERAL) (hv : t.value = [c]) :
    stopTok (litToks cs) t = cs.contains c := by
  rw [Bool.eq_iff_iff, stopTok, isStop_iff]
  constructor
  · rintro (⟨s, hs, h1, h2⟩ | ⟨h1, _⟩)
    · simp only [litToks, List.mem_map] at hs
      obtain ⟨d, hd, rfl⟩ := hs
      rw [hv] at h2
      simp [Token.generate] at h2
      subst h2; simpa using hd
    · rw [ht] at h1; cases h1
  · intro h
    left
    refine ⟨Token.generate .LITERAL [c], List.mem_map.2 ⟨c, by simpa using h, rfl⟩, ?_, ?_⟩
    · simp [Token.generate, ht]
    · simp [Token.generate, hv]

theorem stopTok_run {cs : List Char} {t : Token} (ht : t.type ≠ .LITERAL) (he : t.type ≠ .EOF) :
    stopTok (litToks cs) t = false := by
  rw [Bool.eq_false_iff, ne_eq, stopTok, isStop_iff]
  rintro (⟨s, hs, h1, h2⟩ | ⟨h1, _⟩)
  · simp only [litToks, List.mem_map] at hs
    obtain ⟨d, hd, rfl⟩ := hs
    exact ht h1.symm
  · exact he h1

theorem escTok_lit {t : Token} {c : Char} (ht : t.type = .LITERAL) (hv : t.value = [c]) :
    escTok t = (c == '\\') := by
  simp [escTok, Token.eqv, TM.escapeToken, Token.generate, ht, hv]

theorem escTok_run {t : Token} (ht : t.type ≠ .LITERAL) : escTok t = false := by
  simp [escTok, Token.eqv, TM.escapeToken, Token.generate, ht]

/-- Scanning tokens is scanning characters. -/
theorem Toks.upto {lits : Str} {kind : Str → TokenType} (hk : GoodKind kind) (hb : '\\' ∈ lits) {cs : List Char}
    (hcs : ∀ c ∈ cs, c ∈ lits) (hcb : '\\' ∉ cs) {s : Str} {ts : List Token} (h : Toks lits kind s ts) (p : Bool) :
    toksText (unesc (stopTok (litToks cs)) escTok p (Spec.upto (stopTok (litToks cs)) escTok ts).1) =
      unesc cs.contains escChar p (Spec.upto cs.contains escChar s).1 ∧
    toksText (Spec.upto (stopTok (litToks cs)) escTok ts).1 = (Spec.upto cs.contains escChar s).1 ∧
    Toks lits kind (Spec.upto cs.contains escChar s).2 (Spec.upto (stopTok (litToks cs)) escTok ts).2 := by
  have hplain : ∀ v : Str, (∀ c ∈ v, c ∉ lits) → ∀ c ∈ v, cs.contains c = false ∧ escChar c = false := by
    intro v hv c hc
    refine ⟨?_, ?_⟩
    · rw [Bool.eq_false_iff]; intro h; simp at h; exact hv c hc (hcs c h)
    · rw [Bool.eq_false_iff]; intro h; simp [escChar] at h; subst h; exact hv _ hc hb
  generalize hn : ts.length = n
  induction n using Nat.strongRecOn generalizing s ts with
  | _ n ih =>
    cases h with
    | nil => exact ⟨rfl, rfl, .nil⟩
    | lit c t r ts hc ht hv h =>
      have e1 := stopTok_lit (cs := cs) ht hv
      have e2 := escTok_lit ht hv
      by_cases hstop : cs.contains c = true
      · rw [upto_stop (e1.trans hstop), upto_stop hstop]
        exact ⟨rfl, rfl, .lit c t r ts hc ht hv h⟩
      · have hstop' : cs.contains c = false := by simpa using hstop
        rw [hstop'] at e1
        by_cases hesc : c = '\\'
        · subst hesc
          have e2' : escTok t = true := by rw [e2]; rfl
          have hE : escChar '\\' = true := rfl
          cases h with
          | nil =>
            refine ⟨?_, ?_, ?_⟩
            · simp only [Spec.upto, e1, e2', hstop', hE, Bool.false_eq_true, if_false, if_true, unesc]
              cases p <;> simp [hv]
            · simp only [Spec.upto, e1, e2', hstop', hE, Bool.false_eq_true, if_false, if_true]
              simp [hv]
            · simp only [Spec.upto, e1, e2', hstop', hE, Bool.false_eq_true, if_false, if_true]
              exact .nil
          | lit d u r us hd hu huv h =>
            rw [upto_esc e1 e2', upto_esc hstop' hE]
            obtain ⟨i1, i2, i3⟩ := ih us.length (by simp at hn; omega) h rfl
            refine ⟨?_, by simp [hv, huv, i2], i3⟩
            simp only [unesc, e2', hE, if_true, stopTok_lit (cs := cs) hu huv]
            by_cases hx : (cs.contains d && !p) = true
            · rw [if_pos hx, if_pos hx]; simp [huv, i1]
            · rw [if_neg hx, if_neg hx]; simp [hv, huv, i1]
          | run v u r us huv hne hcv hu h =>
            obtain ⟨i1, i2, i3⟩ := ih us.length (by simp at hn; omega) h rfl
            cases v with
            | nil => exact absurd rfl hne
            | cons d v =>
              have hd := hplain _ hcv d (by simp)
              have hv' : ∀ c ∈ v, cs.contains c = false ∧ escChar c = false :=
                fun c hc => hplain _ hcv c (by simp [hc])
              have es := stopTok_run (cs := cs) (t := u) (by rw [hu]; exact (hk _).1) (by rw [hu]; exact (hk _).2)
              rw [upto_esc e1 e2', List.cons_append, upto_esc hstop' hE, upto_plains hv']
              refine ⟨?_, by simp [hv, huv, i2], i3⟩
              simp only [unesc, e2', hE, if_true, es, hd.1, Bool.false_and, Bool.false_eq_true, if_false]
              rw [unesc_plains (fun c hc => (hv' c hc).2)]
              simp [hv, huv, i1]
        · have e2' : escTok t = false := by rw [e2]; simpa using hesc
          have hE : escChar c = false := by simpa [escChar] using hesc
          obtain ⟨i1, i2, i3⟩ := ih ts.length (by simp at hn; omega) h rfl
          rw [upto_plain e1 e2', upto_plain hstop' hE]
          refine ⟨?_, by simp [hv, i2], i3⟩
          rw [unesc_plain e2', unesc_plain hE]
          simp [hv, i1]
    | run v t r ts hv hne hcv ht h =>
      obtain ⟨i1, i2, i3⟩ := ih ts.length (by simp at hn; omega) h rfl
      have es := stopTok_run (cs := cs) (t := t) (by rw [ht]; exact (hk _).1) (by rw [ht]; exact (hk _).2)
      have ee := escTok_run (t := t) (by rw [ht]; exact (hk _).1)
      rw [upto_plain es ee, upto_plains (hplain v hcv)]
      refine ⟨?_, by simp [hv, i2], i3⟩
      rw [unesc_plain ee, unesc_plains (fun c hc => (hplain v hcv c hc).2)]
      simp [hv, i1]

/-! ## Lexing a single line -/

/-- How a cutter classifies. -/
structure Classifies (lits : Str) (kind : Str → TokenType) (cut : Cutter) : Prop where
  lit : ∀ c r, isBlank (c :: r) = false → c ∈ lits → cut (c :: r) = (.LITERAL, 1)
  run : ∀ c r, isBlank (c :: r) = false → c ∉ lits → 0 < (cut (c :: r)).2 ∧
    (∀ d ∈ (c :: r).take (cut (c :: r)).2, d ∉ lits) ∧
    (cut (c :: r)).1 = kind ((c :: r).take (cut (c :: r)).2)

theorem toks_cutLine {lits : Str} {kind : Str → TokenType} {cut : Cutter} (hc : Classifies lits kind cut)
    (ln : Nat) (src : Option Str) (n : Nat) (col : Nat) (s : Str) :
    Toks lits kind (piecesText (cutLine cut n s)) (place ln src col (cutLine cut n s)) := by
  induction n generalizing s col with
  | zero => exact .nil
  | succ n ih =>
    simp only [cutLine]
    by_cases hb : isBlank s = true
    · rw [if_pos hb]; exact .nil
    · rw [if_neg hb]
      simp only [Bool.not_eq_true] at hb
      obtain ⟨c, r, rfl⟩ := cons_of_not_blank hb
      by_cases hl : c ∈ lits
      · have e := hc.lit c r hb hl
        rw [e]
        simp only [place, piecesText, List.map_cons, List.flatten_cons, pieceText, List.take_succ_cons, List.take_zero]
        exact .lit c _ _ _ hl rfl rfl (ih _ _)
      · obtain ⟨h1, h2, h3⟩ := hc.run c r hb hl
        simp only [place, piecesText, List.map_cons, List.flatten_cons, pieceText]
        refine .run _ _ _ _ rfl ?_ h2 h3 (ih _ _)
        obtain ⟨k, hk⟩ : ∃ k, (cut (c :: r)).2 = k + 1 := ⟨(cut (c :: r)).2 - 1, by omega⟩
        rw [hk]; simp

theorem text_classifies : Classifies textLiterals (fun _ => .TEXT) textCut where
  lit := by
    intro c r _ hc
    have hne : c ≠ ' ' := by rintro rfl; exact absurd hc (by decide)
    rw [textCut]
    · simp [hc]
    · intro h; exact hne h
  run := by
    intro c r _ hc
    by_cases hs : c = ' '
    · subst hs
      refine ⟨by simp [textCut], ?_, by simp [textCut]⟩
      intro d hd
      simp [textCut] at hd
      subst hd; exact hc
    · have e : textCut (c :: r) = (.TEXT, ((c :: r).takeWhile fun c => !(textLiterals.contains c || c == ' ')).length) := by
        rw [textCut]
        · simp [hc]
        · intro h; exact hs h
      rw [e]
      refine ⟨?_, ?_, rfl⟩
      · simp [List.takeWhile_cons, hc, hs]
      · intro d hd
        simp only at hd
        rw [takeWhile_take_length] at hd
        have := mem_takeWhile _ hd
        simp at this
        exact this.1

/-- The type of a run of the arguments lexer. -/
def argsKind (v : Str) : TokenType := if isBlank v then .WHITESPACE else .TEXT

theorem args_classifies : Classifies argsLiterals argsKind argsCut where
  lit := by
    intro c r _ hc
    have hne : c ≠ ' ' := by rintro rfl; exact absurd hc (by decide)
    simp [argsCut, hne, hc]
  run := by
    intro c r _ hc
    by_cases hs : c = ' '
    · subst hs
      have e : argsCut (' ' :: r) = (.WHITESPACE, ((' ' :: r).takeWhile (· == ' ')).length) := by simp [argsCut]
      rw [e]
      simp only [takeWhile_take_length]
      refine ⟨by simp, ?_, ?_⟩
      · intro d hd
        have := mem_takeWhile _ hd
        simp at this; subst this; exact hc
      · have : isBlank ((' ' :: r).takeWhile (· == ' ')) = true := by
          rw [isBlank_iff]; intro d hd
          have := mem_takeWhile _ hd
          simpa using this
        simp only [argsKind, this, if_true]
    · have e : argsCut (c :: r) = (.TEXT, ((c :: r).takeWhile fun c => !(argsLiterals.contains c || c == ' ')).length) := by
        simp [argsCut, hs, hc]
      rw [e]
      simp only [takeWhile_take_length]
      refine ⟨by simp [List.takeWhile_cons, hc, hs], ?_, ?_⟩
      · intro d hd
        have := mem_takeWhile _ hd
        simp at this; exact this.1
      · have : isBlank ((c :: r).takeWhile fun c => !(argsLiterals.contains c || c == ' ')) = false := by
          simp [isBlank, List.takeWhile_cons, hc, hs]
        simp only [argsKind, this, Bool.false_eq_true, if_false]

theorem pre_classifies : Classifies preLiterals (fun _ => .TEXT) preCut where
  lit := by
    intro c r _ hc
    simp [preCut, hc]
  run := by
    intro c r _ hc
    have e : preCut (c :: r) = (.TEXT, ((c :: r).takeWhile fun c => !preLiterals.contains c).length) := by
      simp [preCut, hc]
    rw [e]
    simp only [takeWhile_take_length]
    refine ⟨by simp [List.takeWhile_cons, hc], ?_, trivial⟩
    intro d hd
    have := mem_takeWhile _ hd
    simp at this; exact this

/-- Tokens at strictly increasing positions. -/
def Increasing (ts : List Token) : Prop :=
  ts.Pairwise fun a b => a.ctx.startLine < b.ctx.startLine ∨
    (a.ctx.startLine = b.ctx.startLine ∧ a.ctx.startColumn < b.ctx.startColumn)

theorem Increasing.nodup {ts : List Token} (h : Increasing ts) : ts.Nodup := by
  refine List.Pairwise.imp ?_ h
  rintro a b hab rfl
  omega

theorem place_increasing (ln : Nat) (src : Option Str) (ps : List Piece) (hp : ∀ p ∈ ps, pieceText p ≠ []) (col : Nat) :
    Increasing (place ln src col ps) ∧ ∀ t ∈ place ln src col ps, t.ctx.startLine = ln ∧ col ≤ t.ctx.startColumn ∧
      t.ctx.startColumn < col + (piecesText ps).length := by
  induction ps generalizing col with
  | nil => exact ⟨.nil, by simp [place]⟩
  | cons p ps ih =>
    have hp' : ∀ p ∈ ps, pieceText p ≠ [] := fun q hq => hp q (by simp [hq])
    cases p with
    | tok ty v =>
      have hv : v ≠ [] := hp (.tok ty v) (by simp)
      have hvl : 0 < v.length := List.length_pos_iff.2 hv
      obtain ⟨i1, i2⟩ := ih hp' (col + v.length)
      simp only [place]
      refine ⟨List.pairwise_cons.2 ⟨?_, i1⟩, ?_⟩
      · intro t ht
        have := i2 t ht
        simp [tokAt]; omega
      · intro t ht
        rcases List.mem_cons.1 ht with rfl | ht
        · simp [tokAt, piecesText, pieceText]; omega
        · have := i2 t ht
          simp [piecesText, pieceText] at this ⊢; omega
    | skip v =>
      obtain ⟨i1, i2⟩ := ih hp' (col + v.length)
      simp only [place]
      refine ⟨i1, ?_⟩
      intro t ht
      have := i2 t ht
      simp [piecesText, pieceText] at this ⊢; omega

theorem cutLine_ne {lits : Str} {kind : Str → TokenType} {cut : Cutter} (hc : Classifies lits kind cut) (n : Nat) (s : Str) :
    ∀ p ∈ cutLine cut n s, pieceText p ≠ [] := by
  induction n generalizing s with
  | zero => simp [cutLine]
  | succ n ih =>
    simp only [cutLine]
    by_cases hb : isBlank s = true
    · simp [hb]
    · rw [if_neg hb]
      simp only [Bool.not_eq_true] at hb
      obtain ⟨c, r, rfl⟩ := cons_of_not_blank hb
      intro p hp
      rcases List.mem_cons.1 hp with rfl | hp
      · have : 0 < (cut (c :: r)).2 := by
          by_cases hl : c ∈ lits
          · rw [hc.lit c r hb hl]; simp
          · exact (hc.run c r hb hl).1
        obtain ⟨k, hk⟩ : ∃ k, (cut (c :: r)).2 = k + 1 := ⟨(cut (c :: r)).2 - 1, by omega⟩
        simp [pieceText, hk]
      · exact ih _ p hp

/-- The tokens of a single non-blank (or empty) line: those of its characters up to spaces at the
end, followed by EOF. -/
theorem inline_single {fs : List ProcFn} {lits : Str} {kind : Str → TokenType} {cut : Cutter} (hcb : CutsBy fs cut)
    (hc : Classifies lits kind cut) (text : Str)
    (hnl : '\n' ∉ text) (hb : text = [] ∨ isBlank text = false) (sl sc : Nat) (src : Option Str) :
    ∃ ts e s sp, inlineTokens cut src sl sc (Spec.lines text) = ts ++ [e] ∧ e.type = .EOF ∧ e.value = [] ∧
      Toks lits kind s ts ∧ s = piecesText (cutLine cut text.length text) ∧ text = s ++ sp ∧ Spaces sp ∧
      Increasing (ts ++ [e]) := by
  by_cases he : text = []
  · subst he
    exact ⟨[], tokAt .EOF [] sl sc src, [], [], by simp [Spec.lines, inlineTokens], rfl, rfl, .nil, rfl, rfl,
      by intro c hc; simp at hc, List.pairwise_singleton _ _⟩
  · have hb' : isBlank text = false := by rcases hb with h | h; exact absurd h he; exact h
    have hl : Spec.lines text = [text] := by simp [Spec.lines, he, splitChar_of_not_mem hnl]
    rw [hl]
    have hpl := place_increasing sl src (cutLine cut text.length text) (cutLine_ne hc _ _) sc
    have hsp : ∃ sp, text = piecesText (cutLine cut text.length text) ++ sp ∧ Spaces sp := by
      have key : ∀ n (s : Str), s.length ≤ n → ∃ sp, s = piecesText (cutLine cut n s) ++ sp ∧ Spaces sp := by
        intro n
        induction n with
        | zero =>
          intro s hs
          have : s = [] := List.eq_nil_of_length_eq_zero (by omega)
          subst this; exact ⟨[], rfl, by intro c hc; simp at hc⟩
        | succ n ih =>
          intro s hs
          simp only [cutLine]
          by_cases hbs : isBlank s = true
          · rw [if_pos hbs]; exact ⟨s, rfl, isBlank_iff.1 hbs⟩
          · rw [if_neg hbs]
            have hpos := hcb.pos s (by simpa using hbs)
            obtain ⟨sp, h1, h2⟩ := ih (s.drop (cut s).2) (by simp; omega)
            refine ⟨sp, ?_, h2⟩
            have : piecesText (.tok (cut s).1 (s.take (cut s).2) :: cutLine cut n (s.drop (cut s).2)) =
                s.take (cut s).2 ++ piecesText (cutLine cut n (s.drop (cut s).2)) := by
              simp [piecesText, pieceText]
            rw [this, List.append_assoc, ← h1, List.take_append_drop]
      exact key _ _ (Nat.le_refl _)
    obtain ⟨sp, h1, h2⟩ := hsp
    simp only [inlineTokens, hb', Bool.false_eq_true, if_false]
    split
    · rename_i hlen
      refine ⟨_, _, _, sp, rfl, rfl, rfl, toks_cutLine hc sl src text.length sc text, rfl, h1, h2, ?_⟩
      refine List.pairwise_append.2 ⟨hpl.1, List.pairwise_singleton _ _, ?_⟩
      intro a ha b hb
      simp at hb; subst hb
      have := hpl.2 a ha
      simp [tokAt]; omega
    · refine ⟨_, _, _, sp, rfl, rfl, rfl, toks_cutLine hc sl src text.length sc text, rfl, h1, h2, ?_⟩
      refine List.pairwise_append.2 ⟨hpl.1, List.pairwise_singleton _ _, ?_⟩
      intro a ha b hb
      simp at hb; subst hb
      have := hpl.2 a ha
      simp [tokAt]; omega

theorem contains_singleton (c : Char) : List.contains [c] = (· == c) := by
  funext d; rw [Bool.eq_iff_iff]; simp

theorem Toks.nil_inv {lits : Str} {kind : Str → TokenType} {ts : List Token} (h : Toks lits kind [] ts) : ts = [] := by
  generalize hq : ([] : Str) = q at h
  cases h with
  | nil => rfl
  | lit c t r ts _ _ _ _ => cases hq
  | run v t r ts _ hne _ _ _ => simp at hq; exact absurd hq.1 hne

/-- The result of scanning tokens up to a literal, in terms of `closing`. -/
theorem toks_closing {lits : Str} {kind : Str → TokenType} (hk : GoodKind kind) (hbl : '\\' ∈ lits) {stop : Char}
    (hs : stop ∈ lits) (hb : stop ≠ '\\') {s : Str} {ts : List Token} (h : Toks lits kind s ts) :
    (∃ x, closing stop s = some x ∧ ∃ t ts', (upto (stopTok (litToks [stop])) escTok ts).2 = t :: ts' ∧
      t.type = .LITERAL ∧ t.value = [stop] ∧ Toks lits kind x.2 ts' ∧
      toksText (upto (stopTok (litToks [stop])) escTok ts).1 = x.1 ∧
      ∀ p, toksText (unesc (stopTok (litToks [stop])) escTok p (upto (stopTok (litToks [stop])) escTok ts).1) =
        unesc (· == stop) escChar p x.1) ∨
    (closing stop s = none ∧ (upto (stopTok (litToks [stop])) escTok ts).2 = []) := by
  have key := fun p => h.upto hk hbl (cs := [stop]) (by simpa using hs) (by simpa using hb.symm) p
  have e : List.contains [stop] = (· == stop) := contains_singleton stop
  rw [e] at key
  unfold closing
  rcases hx : upto (· == stop) escChar s with ⟨raw, rest⟩
  rw [hx] at key
  simp only at key
  cases rest with
  | nil =>
    right
    refine ⟨rfl, ?_⟩
    have := (key true).2.2
    exact this.nil_inv
  | cons c rest =>
    left
    have hc : c = stop := by
      rcases upto_snd (stop := (· == stop)) (esc := escChar) s with h1 | ⟨d, r, h1, h2⟩
      · rw [hx] at h1; cases h1
      · rw [hx] at h1; cases h1; simpa using h2
    subst hc
    refine ⟨(raw, rest), rfl, ?_⟩
    have h3 := (key true).2.2
    generalize hl : (upto (stopTok (litToks [c])) escTok ts).2 = l at h3
    generalize hq : c :: rest = q at h3
    cases h3 with
    | nil => cases hq
    | lit d t r ts' hd ht hv h =>
      cases hq
      exact ⟨t, ts', rfl, ht, hv, h, (key true).2.1, fun p => (key p).1⟩
    | run v t r ts' hv hne hcv ht h =>
      cases v with
      | nil => exact absurd rfl hne
      | cons d v =>
        simp at hq
        exact absurd hs (hcv c (by simp [hq.1]))

theorem closing_tok_suffix {stops : List Token} {ts ts' : List Token} {t : Token}
    (h : (upto (stopTok stops) escTok ts).2 = t :: ts') : ts' <:+ ts := by
  have := upto_append (stop := stopTok stops) (esc := escTok) ts
  rw [h] at this
  exact ⟨(upto (stopTok stops) escTok ts).1 ++ [t], by simpa using this⟩

end Mau
