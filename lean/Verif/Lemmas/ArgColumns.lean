import Verif.Lemmas.Slices
import Verif.Lemmas.TextPlaces

set_option linter.unusedSimpArgs false

/-!
# The columns of arguments
-/

namespace Mau
open Spec

/-- The tokens `toks` are those of the text `T`, which starts at the column `col` of the line `ln`. -/
structure Spread (toks ts0 : List Token) (e : Token) (T : Str) (ln col : Nat) (src : Option Str) : Prop where
  toks : toks = ts0 ++ [e]
  eof : e.type = .EOF ∧ e.value = []
  text : toksText ts0 = T
  ne : ∀ t ∈ ts0, t.value ≠ []
  ctxs : ∀ t ts, t :: ts <:+ ts0 → t.ctx = spanAt ln col src (T.length - (toksText (t :: ts)).length) (T.length - (toksText ts).length)

/-- The tokens manager stands before column `a`. -/
def Here (toks ts0 : List Token) (e : Token) (T : Str) (a : Nat) (tm : TM) : Prop :=
  tm.tokens = toks ∧ ∃ ts, ts <:+ ts0 ∧ At tm ts e ∧ T.length = a + (toksText ts).length

section
variable {toks ts0 : List Token} {e : Token} {T : Str} {ln col : Nat} {src : Option Str} {tm tm' : TM} {a b c : Nat}

theorem Here.le (h : Here toks ts0 e T a tm) : a ≤ T.length := by obtain ⟨_, ts, _, _, h⟩ := h; omega

theorem here_any (S : Spread toks ts0 e T ln col src) (h : tm.tokens = toks) : ∃ a, Here toks ts0 e T a tm := by
  have hl : tm.tokens.getLast? = some e := by rw [h, S.toks]; simp
  by_cases hn : tm.next ≤ ts0.length
  · refine ⟨T.length - (toksText (ts0.drop tm.next)).length, h, ts0.drop tm.next, List.drop_suffix _ _, ⟨.inl ?_, hl, S.eof⟩, ?_⟩
    · rw [h, S.toks, List.drop_append_of_le_length hn]
    · have := toksText_le (List.drop_suffix tm.next ts0)
      rw [S.text] at this
      omega
  · refine ⟨T.length, h, [], List.nil_suffix, ⟨.inr ⟨rfl, ?_⟩, hl, S.eof⟩, by simp [toksText]⟩
    rw [h, S.toks]; simp; omega

theorem spread_suffix (S : Spread toks ts0 e T ln col src) {ts : List Token} (h : ts <:+ ts0) (ha : T.length = a + (toksText ts).length) :
    T.drop a = toksText ts := by
  obtain ⟨pre, rfl⟩ := h
  have e1 := S.text
  rw [toksText_append] at e1
  have : (toksText pre).length = a := by rw [← e1, List.length_append] at ha; omega
  rw [← e1, ← this, List.drop_left]

/-- Reading a token. -/
theorem get_here (S : Spread toks ts0 e T ln col src) {ty : Option TokenType} {v : Option Str} {f : Option (Str → Bool)} {t : Token}
    (hs : Here toks ts0 e T a tm) (h : tm.get ty v f = .ok (t, tm')) :
    TM.checkToken t ty v f = .ok t ∧ ((t ∈ ts0 ∧ Here toks ts0 e T (a + t.value.length) tm' ∧ T.drop a = t.value ++ T.drop (a + t.value.length) ∧
      0 < t.value.length ∧ t.ctx = spanAt ln col src a (a + t.value.length)) ∨ (t = e ∧ a = T.length ∧ Here toks ts0 e T a tm')) := by
  obtain ⟨g1, g2, g3⟩ := get_cases h
  obtain ⟨h0, ts, h1, h2, h3⟩ := hs
  cases ts with
  | nil =>
    rw [h2.peek_nil] at g1
    obtain ⟨rfl, -⟩ := check_plain g1
    have ha : a = T.length := by simpa [toksText] using h3.symm
    refine ⟨g1, .inr ⟨rfl, ha, g2.trans h0, [], h1, ⟨.inr ⟨rfl, ?_⟩, by rw [g2]; exact h2.last, S.eof⟩, h3⟩⟩
    rw [g2, g3]
    rcases h2.drop with hd | ⟨_, hd⟩
    · have := congrArg List.length hd; simp at this; omega
    · omega
  | cons t1 ts =>
    rw [h2.peek_cons] at g1
    obtain ⟨rfl, -⟩ := check_plain g1
    rw [h2.get_cons g1] at h
    cases h
    have hl : (toksText (t :: ts)).length = t.value.length + (toksText ts).length := by simp [toksText]
    have hsuf : ts <:+ ts0 := (List.suffix_cons _ _).trans h1
    have hb : T.length = (a + t.value.length) + (toksText ts).length := by omega
    have hm : t ∈ ts0 := h1.subset (by simp)
    refine ⟨g1, .inl ⟨hm, ⟨h0, ts, hsuf, h2.nextAt, hb⟩, ?_, List.length_pos_iff.2 (S.ne t hm), ?_⟩⟩
    · rw [spread_suffix S h1 h3, spread_suffix S hsuf hb]; simp [toksText]
    · rw [S.ctxs _ _ h1]
      congr 1 <;> omega

/-- The tokens of the columns `a` to `b`. -/
def Runs (T : Str) (ln col : Nat) (src : Option Str) (a b : Nat) (ts : List Token) : Prop :=
  (ts = [] ∧ a = b) ∨ (a < b ∧ b ≤ T.length ∧ toksText ts = between T a b ∧ ∃ t0 t1 x y, ts.head? = some t0 ∧ ts.getLast? = some t1 ∧
    t0.ctx = spanAt ln col src a x ∧ t1.ctx = spanAt ln col src y b ∧ a ≤ y ∧ x ≤ b)

theorem Runs.one {t : Token} (h : T.drop a = t.value ++ T.drop (a + t.value.length)) (hp : 0 < t.value.length) (hb : a + t.value.length ≤ T.length)
    (hc : t.ctx = spanAt ln col src a (a + t.value.length)) : Runs T ln col src a (a + t.value.length) [t] := by
  refine .inr ⟨by omega, hb, ?_, t, t, _, _, rfl, rfl, hc, hc, by omega, by omega⟩
  rw [between_eq h rfl]; simp [toksText]

theorem Runs.append {ts us : List Token} (h : Runs T ln col src a b ts) (h2 : Runs T ln col src b c us) : Runs T ln col src a c (ts ++ us) := by
  rcases h with ⟨rfl, rfl⟩ | ⟨h1, h3, h4, t0, t1, x, y, h5, h6, h7, h8, h9, h10⟩
  · simpa using h2
  · rcases h2 with ⟨rfl, rfl⟩ | ⟨g1, g3, g4, u0, u1, z, w, g5, g6, g7, g8, g9, g10⟩
    · rw [List.append_nil]
      exact .inr ⟨h1, h3, h4, t0, t1, x, y, h5, h6, h7, h8, h9, h10⟩
    · refine .inr ⟨by omega, g3, ?_, t0, u1, x, w, ?_, ?_, h7, g8, by omega, by omega⟩
      · rw [toksText_append, h4, g4, ← between_append (Nat.le_of_lt h1) (Nat.le_of_lt g1) g3]
      · cases ts with
        | nil => cases h5
        | cons => simpa using h5
      · rw [List.getLast?_append, g6]; rfl

theorem Runs.le {ts : List Token} (h : Runs T ln col src a b ts) : a ≤ b := by
  rcases h with ⟨_, h⟩ | ⟨h, _⟩ <;> omega

/-- The value and the context are those of the columns `a` to `b`. -/
def Cut (T : Str) (ln col : Nat) (src : Option Str) (a b : Nat) (v : Str) (x : Context) : Prop :=
  (a = b ∧ v = [] ∧ x = Context.empty) ∨ (a < b ∧ b ≤ T.length ∧ v = between T a b ∧ x = spanAt ln col src a b)

/-- Collecting tokens, as long as there is no backslash. -/
theorem collectLoop_here (S : Spread toks ts0 e T ln col src) {stops : List Token} (he : TM.isStop stops e = true) {preserve : Bool} (n : Nat) :
    ∀ (a : Nat) (tm tm' : TM) (acc out : List Token), Here toks ts0 e T a tm → TM.collectLoop stops preserve n tm acc = .ok (out, tm') →
      ∃ b, a ≤ b ∧ Here toks ts0 e T b tm' ∧ ('\\' ∉ between T a b → ∃ new, out = acc ++ new ∧ Runs T ln col src a b new) ∧
        (∀ t, tm.peek = .ok t → TM.isStop stops t = false → a < b) := by
  induction n with
  | zero => intro a tm tm' acc out _ h; cases h
  | succ n ih =>
    intro a tm tm' acc out hs h
    unfold TM.collectLoop at h
    cases hp : tm.peek with
    | error x => rw [hp] at h; cases h
    | ok t =>
      simp only [hp, Bind.bind, Except.bind] at h
      cases hst : TM.isStop stops t with
      | true =>
        simp only [hst, if_true] at h
        cases h
        refine ⟨a, Nat.le_refl _, hs, fun _ => ⟨[], by simp, .inl ⟨rfl, rfl⟩⟩, ?_⟩
        intro u hu hus
        cases hu; rw [hst] at hus; cases hus
      | false =>
        simp only [hst, Bool.false_eq_true, if_false] at h
        have hne : t ≠ e := by rintro rfl; rw [he] at hst; cases hst
        split at h
        · rename_i hesc
          cases hg : tm.get with
          | error x => rw [hg] at h; cases h
          | ok r =>
            obtain ⟨esc, tm1⟩ := r
            simp only [hg] at h
            have g1 := (get_cases hg).1
            rw [hp] at g1; cases g1
            have hv : t.value = ['\\'] := by
              simp [Token.eqv, TM.escapeToken, Token.generate] at hesc
              exact hesc.2
            obtain ⟨-, k⟩ := get_here S hs hg
            obtain ⟨-, k1, k2, k3, k4⟩ := k.resolve_right fun k => hne k.1
            rw [hv] at k1 k2
            simp only [List.length_singleton] at k1 k2
            cases hp2 : tm1.peek with
            | error x => rw [hp2] at h; cases h
            | ok t2 =>
              simp only [hp2] at h
              cases hg2 : tm1.get with
              | error x => rw [hg2] at h; cases h
              | ok r =>
                obtain ⟨t3, tm2⟩ := r
                simp only [hg2] at h
                obtain ⟨b2, m1, m2⟩ : ∃ b2, a + 1 ≤ b2 ∧ Here toks ts0 e T b2 tm2 := by
                  obtain ⟨-, m⟩ := get_here S k1 hg2
                  rcases m with ⟨-, m, -⟩ | ⟨-, -, m⟩
                  · exact ⟨_, by omega, m⟩
                  · exact ⟨_, Nat.le_refl _, m⟩
                obtain ⟨b, f1, f2, f3, f4⟩ := ih b2 tm2 tm' _ out m2 h
                refine ⟨b, by omega, f2, fun hn => absurd ?_ hn, fun _ _ _ => by omega⟩
                have hl := f2.le
                have e1 := between_append (T := T) (a := a) (b := a + 1) (c := b) (by omega) (by omega) hl
                rw [e1, between_eq k2 rfl]; simp
        · cases hg : tm.get with
          | error x => rw [hg] at h; cases h
          | ok r =>
            obtain ⟨t2, tm1⟩ := r
            simp only [hg] at h
            have g1 := (get_cases hg).1
            rw [hp] at g1; cases g1
            obtain ⟨-, k⟩ := get_here S hs hg
            obtain ⟨-, k1, k2, k3, k4⟩ := k.resolve_right fun k => hne k.1
            obtain ⟨b, f1, f2, f3, f4⟩ := ih _ tm1 tm' _ out k1 h
            refine ⟨b, by omega, f2, fun hn => ?_, fun _ _ _ => by omega⟩
            have e1 := between_append (T := T) (a := a) (b := a + t.value.length) (c := b) (by omega) (by omega) f2.le
            obtain ⟨new, f5, f6⟩ := f3 fun hx => hn (by rw [e1]; simp [hx])
            exact ⟨t :: new, by rw [f5]; simp, (Runs.one k2 k3 k1.le k4).append f6⟩

/-- Collecting and joining tokens. -/
theorem collectJoin_here (S : Spread toks ts0 e T ln col src) {stops : List Token} {preserve : Bool} {x : Token} (hs : Here toks ts0 e T a tm)
    (h : tm.collectJoin stops [] preserve = .ok (x, tm')) :
    ∃ b, a ≤ b ∧ Here toks ts0 e T b tm' ∧ ('\\' ∉ between T a b → Cut T ln col src a b x.value x.ctx) ∧
      (∀ t, tm.peek = .ok t → TM.isStop (stops ++ [Token.generate .EOF]) t = false → a < b) := by
  unfold TM.collectJoin TM.collect at h
  have he : TM.isStop (stops ++ [Token.generate .EOF]) e = true := by simp [TM.isStop, Token.eqv, Token.generate, S.eof]
  cases hc : TM.collectLoop (stops ++ [Token.generate .EOF]) preserve (tm.tokens.length + 2) tm [] with
  | error y => simp only [hc, Bind.bind, Except.bind] at h; cases h
  | ok r =>
    obtain ⟨out, tm1⟩ := r
    simp only [hc, Bind.bind, Except.bind] at h
    obtain ⟨b, f1, f2, f3, f4⟩ := collectLoop_here S he _ a tm tm1 [] out hs hc
    cases out with
    | nil =>
      cases h
      refine ⟨b, f1, f2, fun hn => ?_, f4⟩
      obtain ⟨new, g1, g2⟩ := f3 hn
      rw [List.nil_append] at g1
      subst g1
      rcases g2 with ⟨-, g2⟩ | ⟨_, _, _, _, _, _, _, g2, _⟩
      · exact .inl ⟨g2, rfl, rfl⟩
      · cases g2
    | cons t ts =>
      obtain ⟨z, hz⟩ : ∃ z, (t :: ts).getLast? = some z := ⟨_, List.getLast?_eq_some_getLast (by simp)⟩
      simp only [List.head?_cons, hz, Pure.pure, Except.pure] at h
      injection h with h
      injection h with h5 h6
      subst h5 h6
      refine ⟨b, f1, f2, fun hn => ?_, f4⟩
      obtain ⟨new, g1, g2⟩ := f3 hn
      rw [List.nil_append] at g1
      subst g1
      rcases g2 with ⟨g2, -⟩ | ⟨g1, g2, g3, t0, t1, p, q, g4, g5, g6, g7, g8, g9⟩
      · cases g2
      · rw [List.head?_cons] at g4
        rw [hz] at g5
        cases g4; cases g5
        refine .inr ⟨g1, g2, ?_, ?_⟩
        · show joinWith [] _ = _
          rw [joined_value, g3]
        · show t.ctx.merge z.ctx = _
          rw [g6, g7, merge_span g8 g9]

/-! ## The arguments of a macro -/

theorem macroArgPiece_here (S : Spread toks ts0 e T ln col src) (ht : ∀ t ∈ ts0, t.type = .LITERAL → t.value ≠ [',']) {x : Token} (hs : Here toks ts0 e T a tm)
    (h1 : tm.peekIs .LITERAL (some [')']) = .ok false) (h2 : tm.peekIs .EOF = .ok false) (h : macroArgPiece tm = .ok (x, tm')) :
    ∃ b, a ≤ b ∧ Here toks ts0 e T b tm' ∧ ('\\' ∉ between T a b → Runs T ln col src a b [x]) := by
  unfold macroArgPiece at h
  cases hq : tm.peekIs .LITERAL (some ['"']) with
  | error y => simp only [hq, Bind.bind, Except.bind] at h; cases h
  | ok y =>
    simp only [hq, Bind.bind, Except.bind] at h
    cases y with
    | true =>
      simp only [if_true] at h
      cases g1 : tm.get (some .LITERAL) (some ['"']) with
      | error y => rw [g1] at h; cases h
      | ok r =>
        obtain ⟨o, tm1⟩ := r
        simp only [g1] at h
        obtain ⟨c1, k⟩ := get_here S hs g1
        rw [check_value] at c1
        split at c1
        · rename_i ho
          rcases k with ⟨-, k1, k2, -, k4⟩ | ⟨rfl, -⟩
          · rw [ho.2] at k1 k2 k4
            simp only [List.length_singleton] at k1 k2 k4
            cases g2 : tm1.collectJoin [Token.generate .LITERAL ['"'], Token.generate .EOF] with
            | error y => rw [g2] at h; cases h
            | ok r =>
              obtain ⟨t, tm2⟩ := r
              simp only [g2] at h
              obtain ⟨b, f1, f2, f3, -⟩ := collectJoin_here S k1 g2
              cases g3 : tm2.get (some .LITERAL) (some ['"']) with
              | error y => rw [g3] at h; cases h
              | ok r =>
                obtain ⟨z, tm3⟩ := r
                simp only [g3] at h
                cases h
                obtain ⟨c2, m⟩ := get_here S f2 g3
                rw [check_value] at c2
                split at c2
                · rename_i hz
                  rcases m with ⟨-, m1, m2, -, m4⟩ | ⟨rfl, -⟩
                  · rw [hz.2] at m1 m2 m4
                    simp only [List.length_singleton] at m1 m2 m4
                    refine ⟨b + 1, by omega, m1, fun hn => ?_⟩
                    have hle := m1.le
                    have e1 := between_append (T := T) (a := a) (b := a + 1) (c := b + 1) (by omega) (by omega) hle
                    have e2 := between_append (T := T) (a := a + 1) (b := b) (c := b + 1) (by omega) (by omega) hle
                    rw [between_eq k2 rfl] at e1
                    rw [between_eq m2 rfl] at e2
                    rw [e1, e2] at hn
                    refine .inr ⟨by omega, hle, ?_, _, _, b + 1, a, rfl, rfl, ?_, ?_, by omega, by omega⟩
                    · rw [e1, e2]
                      have hv : t.value = between T (a + 1) b := by
                        rcases f3 (fun hx => hn (by simp [hx])) with ⟨q1, q2, -⟩ | ⟨_, _, q, _⟩
                        · rw [q2, q1]; simp [between]
                        · exact q
                      simp [toksText, hv]
                    · show o.ctx.merge z.ctx = _
                      rw [k4, m4, merge_span (by omega) (by omega)]
                    · show o.ctx.merge z.ctx = _
                      rw [k4, m4, merge_span (by omega) (by omega)]
                  · rw [S.eof.1] at hz; cases hz.1
                · cases c2
          · rw [S.eof.1] at ho; cases ho.1
        · cases c1
    | false =>
      simp only [Bool.false_eq_true, if_false] at h
      obtain ⟨b, f1, f2, f3, f4⟩ := collectJoin_here S hs h
      refine ⟨b, f1, f2, fun hn => ?_⟩
      have hlt : a < b := by
        cases hp : tm.peek with
        | error y =>
          exfalso
          unfold TM.collectJoin TM.collect at h
          unfold TM.collectLoop at h
          simp only [hp, Bind.bind, Except.bind] at h
          cases h
        | ok t =>
          refine f4 t hp ?_
          rw [Bool.eq_false_iff]
          intro hst
          simp only [TM.isStop, List.any_cons, List.cons_append, List.nil_append, List.any_nil, Bool.or_false, Bool.or_eq_true, Token.eqv,
            Token.generate, Bool.and_eq_true, beq_iff_eq] at hst
          have hm : t.type = .LITERAL → t ∈ ts0 := by
            intro hty
            rcases (peek_cases (toks := toks) (hs.1.trans S.toks) hp).1 with h | h
            · exact h.2
            · rw [h.2, S.eof.1] at hty; cases hty
          rcases hst with hst | hst | hst | hst
          · exact ht t (hm hst.1.symm) hst.1.symm hst.2.symm
          · have := peekIs_false h1 hp
            simp [TM.checkToken, ← hst.1, ← hst.2] at this
          · have := peekIs_false h2 hp
            simp [TM.checkToken, ← hst.1] at this
          · have := peekIs_false h2 hp
            simp [TM.checkToken, ← hst.1] at this
      rcases f3 hn with ⟨q, -⟩ | ⟨-, q1, q2, q3⟩
      · omega
      · exact .inr ⟨hlt, q1, by simp [toksText, q2], x, x, b, a, rfl, rfl, q3, q3, by omega, by omega⟩

theorem macroArgsLoop_here (S : Spread toks ts0 e T ln col src) (ht : ∀ t ∈ ts0, t.type = .LITERAL → t.value ≠ [',']) (n : Nat) :
    ∀ (a : Nat) (tm tm' : TM) (acc out : List Token), Here toks ts0 e T a tm → macroArgsLoop n tm acc = .ok (out, tm') →
      ∃ b, a ≤ b ∧ Here toks ts0 e T b tm' ∧ ('\\' ∉ between T a b → ∃ new, out = acc ++ new ∧ Runs T ln col src a b new) := by
  induction n with
  | zero => intro a tm tm' acc out _ h; cases h
  | succ n ih =>
    intro a tm tm' acc out hs h
    simp only [macroArgsLoop] at h
    cases h1 : tm.peekIs .LITERAL (some [')']) with
    | error x => simp only [h1, Bind.bind, Except.bind] at h; cases h
    | ok y =>
      simp only [h1, Bind.bind, Except.bind] at h
      cases y with
      | true =>
        simp only [if_true] at h
        cases h
        exact ⟨a, Nat.le_refl _, hs, fun _ => ⟨[], by simp, .inl ⟨rfl, rfl⟩⟩⟩
      | false =>
        simp only [Bool.false_eq_true, if_false] at h
        cases h2 : tm.peekIs .EOF with
        | error x => simp only [h2] at h; cases h
        | ok y =>
          simp only [h2] at h
          cases y with
          | true =>
            simp only [if_true] at h
            cases h
            exact ⟨a, Nat.le_refl _, hs, fun _ => ⟨[], by simp, .inl ⟨rfl, rfl⟩⟩⟩
          | false =>
            simp only [Bool.false_eq_true, if_false] at h
            cases h3 : macroArgPiece tm with
            | error x => simp only [h3] at h; cases h
            | ok r =>
              obtain ⟨t, tm1⟩ := r
              simp only [h3] at h
              obtain ⟨b1, f1, f2, f3⟩ := macroArgPiece_here S ht hs h1 h2 h3
              obtain ⟨b, g1, g2, g3⟩ := ih b1 tm1 tm' _ out f2 h
              refine ⟨b, by omega, g2, fun hn => ?_⟩
              rw [between_append f1 g1 g2.le] at hn
              obtain ⟨new, k1, k2⟩ := g3 fun hx => hn (by simp [hx])
              exact ⟨t :: new, by rw [k1]; simp, (f3 fun hx => hn (by simp [hx])).append k2⟩

theorem collectMacroArgs_here (S : Spread toks ts0 e T ln col src) (ht : ∀ t ∈ ts0, t.type = .LITERAL → t.value ≠ [',']) {x : Token}
    (hs : Here toks ts0 e T a tm) (h : collectMacroArgs tm = .ok (x, tm')) :
    ∃ b, a ≤ b ∧ Here toks ts0 e T b tm' ∧ ('\\' ∉ between T a b → Cut T ln col src a b x.value x.ctx) := by
  unfold collectMacroArgs at h
  cases h1 : macroArgsLoop (tm.tokens.length + 2) tm [] with
  | error y => simp only [h1, Bind.bind, Except.bind] at h; cases h
  | ok r =>
    obtain ⟨out, tm1⟩ := r
    simp only [h1, Bind.bind, Except.bind] at h
    cases h
    obtain ⟨b, f1, f2, f3⟩ := macroArgsLoop_here S ht _ a tm _ [] out hs h1
    refine ⟨b, f1, f2, fun hn => ?_⟩
    obtain ⟨new, g1, g2⟩ := f3 hn
    rw [List.nil_append] at g1
    subst g1
    rcases g2 with ⟨rfl, g2⟩ | ⟨g1, g2, g3, t0, t1, p, q, g4, g5, g6, g7, g8, g9⟩
    · exact .inl ⟨g2, rfl, rfl⟩
    · refine .inr ⟨g1, g2, ?_, ?_⟩
      · rw [fromTokenList_value, g3]
      · unfold Token.fromTokenList
        rw [g4, g5]
        show t0.ctx.merge t1.ctx = _
        rw [g6, g7, merge_span g8 g9]

end

/-! ## The arguments lexer -/

theorem toks_ne {lits : Str} {kind : Str → TokenType} {s : Str} {ts : List Token} (h : Toks lits kind s ts) : ∀ t ∈ ts, t.value ≠ [] := by
  induction h with
  | nil => intro t ht; cases ht
  | lit c t r ts hc hty hv h ih =>
    intro u hu
    rcases List.mem_cons.1 hu with rfl | hu
    · rw [hv]; simp
    · exact ih u hu
  | run v t r ts hv hne hc hty h ih =>
    intro u hu
    rcases List.mem_cons.1 hu with rfl | hu
    · rw [hv]; exact hne
    · exact ih u hu

theorem args_spread (v : Str) (hn : '\n' ∉ v) (hne : v ≠ []) (ln col : Nat) (src : Option Str) :
    ∃ ts0 e T, lexArgs (TextBuffer.ofText v ln col src) = .ok (ts0 ++ [e]) ∧ Spread (ts0 ++ [e]) ts0 e T ln col src ∧ T <+: v := by
  have hl : Spec.lines v = [v] := by simp [Spec.lines, hne, splitChar_of_not_mem hn]
  rw [lexArgs_eq, hl]
  cases hb : isBlank v with
  | true =>
    refine ⟨[tokAt .EOL v ln col src], tokAt .EOF [] (ln + 1) 0 src, v, ?_, ⟨rfl, ⟨rfl, rfl⟩, ?_, ?_, ?_⟩, List.prefix_refl _⟩
    · simp [inlineTokens, hb, hne]
    · simp [toksText, tokAt]
    · intro t ht
      rw [List.mem_singleton] at ht
      subst ht
      exact hne
    · intro t ts h
      rcases List.suffix_cons_iff.1 h with h | h
      · cases h
        simp [toksText, tokAt, spanAt]
      · simp at h
  | false =>
    obtain ⟨ts, e, s, sp, h1, h2, h3, h4, h5, h6, h7, h8⟩ := inline_single argsCuts args_classifies v hn (.inr hb) ln col src
    rw [hl] at h1
    have h0 := h1
    simp only [inlineTokens, hb, Bool.false_eq_true, if_false] at h1
    have hts : ts = place ln src col (cutLine argsCut v.length v) := by
      split at h1
      · exact (List.append_inj' h1 rfl).1.symm
      · exact (List.append_inj' h1 rfl).1.symm
    refine ⟨ts, e, s, by rw [h0], ⟨rfl, ⟨h2, h3⟩, ?_, ?_, ?_⟩, ⟨sp, h6.symm⟩⟩
    · rw [hts, place_text (cutLine_pieces _ _), ← h5]
    · intro t ht hv
      exact toks_ne h4 t ht hv
    · intro t us hs
      rw [hts] at hs
      rw [h5]
      exact place_ctx (cutLine_pieces _ _) _ _ _ hs

/-- The argument lies at its columns. -/
def Lies (T : Str) (ln col : Nat) (src : Option Str) (x : CtxText) : Prop := ∃ a b, Cut T ln col src a b x.value x.ctx

theorem between_prefix {T v : Str} {a b : Nat} (h : T <+: v) (hb : b ≤ T.length) : between v a b = between T a b := by
  obtain ⟨r, rfl⟩ := h
  unfold between
  by_cases ha : a ≤ T.length
  · rw [List.drop_append_of_le_length ha, List.take_append_of_le_length (by simp; omega)]
  · have : b - a = 0 := by omega
    rw [this]; simp

theorem Cut.prefix {T v : Str} {ln col a b : Nat} {src : Option Str} {w : Str} {x : Context} (h : Cut T ln col src a b w x) (hp : T <+: v) :
    Cut v ln col src a b w x := by
  rcases h with h | ⟨h1, h2, h3, h4⟩
  · exact .inl h
  · exact .inr ⟨h1, Nat.le_trans h2 hp.length_le, by rw [between_prefix hp h2, h3], h4⟩

section
variable {toks ts0 : List Token} {e : Token} {T : Str} {ln col : Nat} {src : Option Str}

theorem not_between {c : Char} (h : c ∉ T) (a b : Nat) : c ∉ between T a b := fun hx =>
  h (List.mem_of_mem_drop (List.mem_of_mem_take hx))

theorem lies_argValue (S : Spread toks ts0 e T ln col src) (hb : '\\' ∉ T) : TGives toks argValue fun c => Lies T ln col src ⟨c.value, c.ctx⟩ := by
  have hj : ∀ stops preserve, TGives toks (fun tm => tm.collectJoin stops [] preserve) fun c => Lies T ln col src ⟨c.value, c.ctx⟩ := by
    intro stops preserve tm c tm' ht h
    obtain ⟨a, hs⟩ := here_any S ht
    obtain ⟨b, -, f2, f3, -⟩ := collectJoin_here S hs h
    exact ⟨f2.1, a, b, f3 (not_between hb a b)⟩
  have hg : ∀ ty v f, TGives toks (fun tm => tm.get ty v f) fun _ => True := by
    intro ty v f tm c tm' ht h
    exact ⟨(get_cases h).2.1.trans ht, trivial⟩
  unfold argValue
  refine .test ?_ (hj _ _)
  refine .bind (hg _ _ _) fun _ _ => ?_
  refine .bind (hj _ _) fun c hc => ?_
  exact .bind (hg _ _ _) fun _ _ => .pure hc

theorem never_named (S : Spread toks ts0 e T ln col src) (he : '=' ∉ T) : TGives toks namedArgument fun _ => False := by
  unfold namedArgument
  refine .bind (P := fun _ => True) (fun tm c tm' ht h => ⟨(get_cases h).2.1.trans ht, trivial⟩) fun _ _ => ?_
  refine TGives.bind (P := fun _ => False) ?_ fun _ h => h.elim
  intro tm t tm' ht h
  refine ⟨(get_cases h).2.1.trans ht, ?_⟩
  obtain ⟨a, hs⟩ := here_any S ht
  obtain ⟨c1, k⟩ := get_here S hs h
  rw [check_value] at c1
  split at c1
  · rename_i hv
    rcases k with ⟨k, -⟩ | ⟨rfl, -⟩
    · refine he ?_
      rw [← S.text]
      simp only [toksText, List.mem_flatten, List.mem_map]
      exact ⟨_, ⟨t, k, rfl⟩, by rw [hv.2]; simp⟩
    · rw [S.eof.1] at hv; cases hv.1
  · cases c1

theorem lies_unnamed (S : Spread toks ts0 e T ln col src) (hb : '\\' ∉ T) (on : Bool) :
    TGives toks (unnamedArgument on) fun i => ∃ n, i = .unnamed n ∧ Lies T ln col src n := by
  cases on with
  | true => intro tm a tm' _ h; cases h
  | false =>
    unfold unnamedArgument
    refine TGives.bind (f := argValue) (lies_argValue S hb) fun c hc => ?_
    exact .opt (.opt (.pure ⟨_, rfl, hc⟩))

end

theorem isoPass_keeps {c : Char} {mark : IsoNode → IsoNode} {n : IsoNode} {P : IsoNode → Bool} (hm : ∀ n, P (mark n) = true) (h : P (isoPass c mark n) = false) :
    isoPass c mark n = n := by
  unfold isoPass at h ⊢
  split
  · rename_i d rest hv
    rw [hv] at h
    dsimp only at h
    split at h
    · rw [hm] at h; cases h
    · rename_i hc; rw [if_neg hc]
  · rfl

/-- Isolating tags, subtype and alias leaves the other arguments as they are. -/
theorem isolate_keeps {u : List CtxText} {nm : Dict CtxText} {p : ParsedArgs} (h : isolate u nm = .ok p) : (∀ m ∈ p.unnamed, m ∈ u) ∧ p.named = nm := by
  unfold isolate at h
  dsimp only at h
  split at h
  · cases h
  · split at h
    · cases h
    · cases h
      refine ⟨?_, rfl⟩
      intro m hm
      obtain ⟨q, hq, rfl⟩ := List.mem_map.1 hm
      obtain ⟨hq1, hq2⟩ := List.mem_filter.1 hq
      obtain ⟨m3, hm3, rfl⟩ := List.mem_map.1 hq1
      obtain ⟨m2, hm2, rfl⟩ := List.mem_map.1 hm3
      obtain ⟨m1, hm1, rfl⟩ := List.mem_map.1 hm2
      obtain ⟨m0, h0, rfl⟩ := List.mem_map.1 hm1
      have hx : ∀ n, (isoPass '@' (fun n => { n with isAlias := true }) n).isTag = n.isTag ∧ (isoPass '@' (fun n => { n with isAlias := true }) n).isSubtype = n.isSubtype := by
        intro n; unfold isoPass; repeat' split
        all_goals exact ⟨rfl, rfl⟩
      have hy : ∀ n, (isoPass '*' (fun n => { n with isSubtype := true }) n).isTag = n.isTag := by
        intro n; unfold isoPass; repeat' split
        all_goals rfl
      simp only [Bool.not_eq_true', Bool.or_eq_false_iff] at hq2
      obtain ⟨⟨q1, q2⟩, q3⟩ := hq2
      have e3 := isoPass_keeps (c := '@') (mark := fun n => { n with isAlias := true }) (P := (·.isAlias)) (fun _ => rfl) q3
      rw [e3] at q1 q2 ⊢
      have e2 := isoPass_keeps (c := '*') (mark := fun n => { n with isSubtype := true }) (P := (·.isSubtype)) (fun _ => rfl) q2
      rw [e2] at q1 ⊢
      have e1 := isoPass_keeps (c := '#') (mark := fun n => { n with isTag := true }) (P := (·.isTag)) (fun _ => rfl) q1
      rw [e1]
      exact h0

/-- Without the character there is no alias. -/
theorem isolate_alias {u : List CtxText} {nm : Dict CtxText} {p : ParsedArgs} (hu : ∀ m ∈ u, '@' ∉ m.value) (h : isolate u nm = .ok p) : p.alias = none := by
  have hsub : ∀ (c : Char) (mark : IsoNode → IsoNode) (n : IsoNode), (∀ n, (mark n).node = n.node) → '@' ∉ n.node.value → '@' ∉ (isoPass c mark n).node.value := by
    intro c mark n hm hn
    unfold isoPass
    split
    · rename_i d rest hv
      split
      · rw [hm]
        intro hx
        exact hn (by rw [hv]; exact List.mem_cons_of_mem _ hx)
      · exact hn
    · exact hn
  unfold isolate at h
  dsimp only at h
  split at h
  · cases h
  · split at h
    · cases h
    · cases h
      show List.head? _ = none
      rw [List.head?_eq_none_iff, List.map_eq_nil_iff, List.filter_eq_nil_iff]
      intro q hq
      obtain ⟨m3, hm3, rfl⟩ := List.mem_map.1 hq
      obtain ⟨m2, hm2, rfl⟩ := List.mem_map.1 hm3
      obtain ⟨m1, hm1, rfl⟩ := List.mem_map.1 hm2
      obtain ⟨m0, h0, rfl⟩ := List.mem_map.1 hm1
      have f1 := hsub '#' (fun n => { n with isTag := true }) (IsoNode.mk m0 false false false) (fun _ => rfl) (hu m0 h0)
      have f2 := hsub '*' (fun n => { n with isSubtype := true }) _ (fun _ => rfl) f1
      generalize hg : isoPass '*' (fun n => { n with isSubtype := true }) (isoPass '#' (fun n => { n with isTag := true }) (IsoNode.mk m0 false false false)) = g at f2
      have halias : g.isAlias = false := by
        rw [← hg, isoPass_alias '*' (fun n => { n with isSubtype := true }) (fun _ => rfl), isoPass_alias '#' (fun n => { n with isTag := true }) (fun _ => rfl)]
      unfold isoPass
      split
      · rename_i d rest hv
        split
        · rename_i hd
          rw [hv, hd] at f2
          exact absurd List.mem_cons_self f2
        · simp [halias]
      · simp [halias]

/-- Arguments without backslashes, `=` and `@` are all unnamed and lie at the columns of their characters. -/
theorem args_lie {env : Env} {v : Str} {ln col : Nat} {src : Option Str} {p : ParsedArgs} (hn : '\n' ∉ v) (hb : '\\' ∉ v) (he : '=' ∉ v) (ha : '@' ∉ v)
    (h : parseArgs env v ln col src = .ok p) : (∀ m ∈ p.unnamed, Lies v ln col src m) ∧ p.named = [] := by
  unfold parseArgs at h
  cases h1 : lexArgs (TextBuffer.ofText v ln col src) with
  | error x => rw [h1] at h; cases h
  | ok ts =>
    simp only [h1, Bind.bind, Except.bind] at h
    cases h2 : parseLoop argFns (ts.length + 2) initialLast { tokens := ts } [] with
    | error x =>
      simp only [parseArgTokens, h2, Bind.bind, Except.bind] at h
      unfold locateArgs at h
      split at h
      · cases h
      · cases h
    | ok items =>
      have h : isolateTagsAndSubtype env (unnamedOf items) (namedOf items) = .ok p := by
        simp only [parseArgTokens, h2, Bind.bind, Except.bind] at h
        unfold locateArgs at h
        split at h
        · cases h
        · exact h
      have hit : ∀ i ∈ items, ∃ n, i = .unnamed n ∧ Lies v ln col src n := by
        by_cases hv : v = []
        · rw [lexArgs_eq, hv] at h1
          simp only [Spec.lines, if_true, inlineTokens] at h1
          injection h1 with h1
          subst h1
          unfold parseLoop at h2
          simp [TM.peekIs, TM.peek, TM.checkToken, tokAt, Bind.bind, Except.bind] at h2
          cases h2
          intro i hi; cases hi
        · obtain ⟨ts0, e, T, k1, S, k2⟩ := args_spread v hn hv ln col src
          rw [k1] at h1
          cases h1
          have hT : ∀ c : Char, c ∉ v → c ∉ T := fun c hc hx => hc (k2.subset hx)
          have := TGives.parseLoop (toks := ts0 ++ [e]) (fs := argFns) (R := fun i => ∃ n, i = .unnamed n ∧ Lies T ln col src n) ?_ _ _ _ [] items rfl (by simp) h2
          · intro i hi
            obtain ⟨n, rfl, a, b, hc⟩ := this i hi
            exact ⟨n, rfl, a, b, hc.prefix k2⟩
          · intro acc f hf
            simp only [argFns, List.mem_cons, List.not_mem_nil, or_false] at hf
            rcases hf with rfl | rfl
            · exact (never_named S (hT _ he)).mono fun _ h => h.elim
            · exact lies_unnamed S (hT _ hb) _
      have hun : ∀ m ∈ unnamedOf items, Lies v ln col src m := by
        intro m hm
        unfold unnamedOf at hm
        obtain ⟨i, hi1, hi2⟩ := List.mem_filterMap.1 hm
        obtain ⟨n, rfl, hl⟩ := hit i hi1
        cases hi2; exact hl
      have hna : namedOf items = [] := by
        have : ∀ (l : List ArgItem), (∀ i ∈ l, ∃ n, i = .unnamed n ∧ Lies v ln col src n) →
            l.foldl (fun d i => match i with | .named k n => Dict.set d k n | .unnamed _ => d) ([] : Dict CtxText) = [] := by
          intro l
          induction l with
          | nil => intro _; rfl
          | cons i l ih =>
            intro hl
            obtain ⟨n, rfl, -⟩ := hl i (by simp)
            exact ih fun j hj => hl j (by simp [hj])
        exact this items hit
      have hat : ∀ m ∈ unnamedOf items, '@' ∉ m.value := by
        intro m hm hx
        obtain ⟨a, b, hc⟩ := hun m hm
        rcases hc with ⟨_, hc, _⟩ | ⟨_, _, hc, _⟩
        · rw [hc] at hx; cases hx
        · rw [hc] at hx; exact not_between ha _ _ hx
      unfold isolateTagsAndSubtype at h
      cases h3 : isolate (unnamedOf items) (namedOf items) with
      | error x => simp only [h3, Bind.bind, Except.bind] at h; cases h
      | ok q =>
        obtain ⟨h4, h5⟩ := isolate_keeps h3
        simp only [h3, Bind.bind, Except.bind, isolate_alias hat h3] at h
        cases h
        exact ⟨fun m hm => hun m (h4 m hm), h5.trans hna⟩

end Mau
