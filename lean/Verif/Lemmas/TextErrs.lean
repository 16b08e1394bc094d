import Verif.Lemmas.AliasBounds
import Verif.Lemmas.Text
import Verif.Lemmas.TextQuiet
import Verif.Props.Conditions

set_option linter.unusedSimpArgs false

/-!
# The errors of the text parser

An error of parsing a text is a Mau error, an error of looking up an alias, an error of a control macro, or an error of parsing one of the texts the text leads to.
-/

namespace Mau
open Spec

/-! ## The tokens of a text -/

/-- What the tokens of texts are like. -/
def TextTok (t : Token) : Prop := t.type ≠ .EOF ∧ (t.type = .LITERAL → ∃ c ∈ textLiterals, t.value = [c]) ∧ '\n' ∉ t.value

theorem TextToks.all {s : Str} {ts : List Token} (h : TextToks s ts) (hn : '\n' ∉ s) : ∀ t ∈ ts, TextTok t := by
  induction h with
  | nil => intro t ht; cases ht
  | lit c t r ts hc ht hv h ih =>
    intro u hu
    rcases List.mem_cons.1 hu with rfl | hu
    · exact ⟨by rw [ht]; simp, fun _ => ⟨c, hc, hv⟩, by rw [hv]; intro h; simp at h; exact hn (by rw [h]; simp)⟩
    · exact ih (fun h => hn (by simp [h])) u hu
  | space t r ts hv ht h ih =>
    intro u hu
    rcases List.mem_cons.1 hu with rfl | hu
    · exact ⟨by rw [ht]; simp, fun h => (by rw [ht] at h; cases h), by rw [hv]; decide⟩
    · exact ih (fun h => hn (by simp [h])) u hu
  | txt v t r ts hv hne hc hr ht h ih =>
    intro u hu
    rcases List.mem_cons.1 hu with rfl | hu
    · exact ⟨by rw [ht]; simp, fun h => (by rw [ht] at h; cases h), by rw [hv]; exact fun h => hn (by simp [h])⟩
    · exact ih (fun h => hn (by simp [h])) u hu

theorem inlineTokens_all (src : Option Str) (ls : List Str) (hn : ∀ l ∈ ls, '\n' ∉ l) : ∀ (ln col : Nat) (t : Token), t ∈ inlineTokens textCut src ln col ls →
    t.type ≠ .EOF → TextTok t := by
  induction ls with
  | nil => intro ln col t ht hne; simp [inlineTokens] at ht; subst ht; exact absurd rfl hne
  | cons l ls ih =>
    intro ln col t ht hne
    simp only [inlineTokens] at ht
    split at ht
    · split at ht
      · simp at ht; subst ht; exact absurd rfl hne
      · rcases List.mem_cons.1 ht with rfl | ht
        · exact ⟨hne, fun h => (by cases h), hn l (by simp)⟩
        · exact ih (fun m hm => hn m (by simp [hm])) _ _ t ht hne
    · rcases List.mem_append.1 ht with ht | ht
      · have h := textToks_cutLine ln src l.length col l (Nat.le_refl _)
        refine h.all ?_ t ht
        intro hx
        rw [cutLine_text textCuts textKeeps l.length l (Nat.le_refl _)] at hx
        obtain ⟨sp, _, h⟩ := dropTrailing_split l
        exact hn l (by simp) (by rw [h]; exact List.mem_append_left _ hx)
      · split at ht
        · simp at ht; subst ht; exact absurd rfl hne
        · exact ih (fun m hm => hn m (by simp [hm])) _ _ t ht hne

theorem lexText_all (text : Str) (sl sc : Nat) (src : Option Str) {init : List Token} {e : Token}
    (h : lexText (TextBuffer.ofText text sl sc src) = .ok (init ++ [e])) (he : e.type = .EOF) : ∀ t ∈ init, TextTok t := by
  rw [lexText_eq] at h
  injection h with h
  obtain ⟨init', e', h1, h2, h3, h4⟩ := inlineTokens_ends textCuts src (Spec.lines text) sl sc
  rw [h1] at h
  obtain ⟨rfl, _⟩ := List.append_inj' h rfl
  intro t ht
  refine inlineTokens_all src (Spec.lines text) ?_ sl sc t (by rw [h1]; simp [ht]) (h4 t ht)
  intro l hl
  unfold Spec.lines at hl
  split at hl
  · cases hl
  · exact sep_not_mem_of_mem_split hl

/-! ## Texts up to backslashes -/

/-- `x` is `t`, perhaps without some characters if `t` has backslashes. -/
def Joined (x t : Str) : Prop := x.Sublist t ∧ ('\\' ∉ t → x = t)

theorem Joined.refl (t : Str) : Joined t t := ⟨.refl _, fun _ => rfl⟩
theorem Joined.append {a b c d : Str} (h1 : Joined a b) (h2 : Joined c d) : Joined (a ++ c) (b ++ d) :=
  ⟨h1.1.append h2.1, fun h => by rw [h1.2 (fun hb => h (by simp [hb])), h2.2 (fun hb => h (by simp [hb]))]⟩
theorem Joined.mayOccur {a b : Str} (h : Joined a b) : MayOccur a b := ⟨h.1, fun hb _ => by rw [h.2 hb]; exact List.infix_refl _⟩

theorem unesc_joined (stops : List Token) (p : Bool) (ts : List Token) :
    Joined (toksText (unesc (stopTok stops) escTok p ts)) (toksText ts) := by
  refine ⟨toksText_sublist (unesc_sublist _ _ _ _ ts (Nat.le_refl _)), fun hb => ?_⟩
  have : ∀ t ∈ ts, escTok t = false := by
    intro t ht
    cases he : escTok t with
    | false => rfl
    | true =>
      exfalso
      have := (isEscape_iff.1 he)
      apply hb
      have hv : t.value = ['\\'] := this.2
      unfold toksText
      rw [List.mem_flatten]
      exact ⟨t.value, List.mem_map.2 ⟨t, ht, rfl⟩, by rw [hv]; simp⟩
  have h2 := unesc_plains (stop := stopTok stops) (p := p) (v := ts) (ts := []) this
  rw [List.append_nil] at h2
  rw [h2]
  simp [unesc]

theorem safe_collectJoin' (stops : List Token) (preserve : Bool) :
    TokSafe (fun tm => tm.collectJoin stops [] preserve) fun pre t => Joined t.value (toksText pre) := by
  intro tm ts e hat
  obtain ⟨c, tm', h1, h2, h3⟩ := hat.collectJoin stops preserve
  simp only [h1]
  refine ⟨fun y hy => (by cases hy), fun a tm'' h => ?_⟩
  cases h
  exact ⟨h2, _, _, (upto_append ts).symm, h3, unesc_joined _ _ _⟩

/-! ## The arguments of a macro -/

theorem At.unique {tm : TM} {ts ts' : List Token} {e : Token} (h : At tm ts e) (h' : At tm ts' e) : ts = ts' := by
  have nil : ∀ {a b : List Token}, At tm a e → At tm b e → tm.tokens.length ≤ tm.next → a = [] := by
    intro a b h1 _ hl
    rcases h1.drop with h1 | h1
    · rw [List.drop_eq_nil_of_le hl] at h1
      cases a <;> cases h1
    · exact h1.1
  by_cases hl : tm.tokens.length ≤ tm.next
  · rw [nil h h' hl, nil h' h hl]
  · rcases h.drop with h1 | h1
    · rcases h'.drop with h2 | h2
      · rw [h1] at h2
        exact (List.append_inj' h2 rfl).1
      · exact absurd h2.2 hl
    · exact absurd h1.2 hl

theorem upto_rest_le {α : Type} {stop esc : α → Bool} {t : α} {ts : List α} (h : stop t = false) : (upto stop esc (t :: ts)).2.length ≤ ts.length := by
  have hs : ∀ l : List α, (upto stop esc l).2.length ≤ l.length := fun l => by
    have := congrArg List.length (upto_append (stop := stop) (esc := esc) l)
    simp at this; omega
  cases he : esc t with
  | false => rw [upto_plain h he]; exact hs ts
  | true =>
    cases ts with
    | nil => simp [upto, h, he]
    | cons u us => rw [upto_esc h he]; have := hs us; simp; omega

theorem safe_macroArgPiece : TokSafe macroArgPiece fun pre t => Joined t.value (toksText pre) := by
  unfold macroArgPiece
  refine safe_peekTest _ _ ?_ ?_
  · refine .bind (safe_lit _) fun p1 o h1 => ?_
    refine .bind (safe_collectJoin' _ _) fun p2 t h2 => ?_
    refine .bind (safe_lit _) fun p3 c h3 => ?_
    refine (TokSafe.pure _).mono fun p4 b h4 => ?_
    obtain ⟨rfl, rfl⟩ := h4
    simp only [h1.1, h3.1, toksText_append, toksText_cons, toksText_nil, List.append_nil, h1.2, h3.2]
    exact ((Joined.refl _).append h2).append (Joined.refl _)
  · exact safe_collectJoin' _ _

/-- A piece of the arguments is not empty. -/
theorem macroArgPiece_moves {tm tm' : TM} {t a : Token} {ts ts' : List Token} {e : Token} (hat : At tm (t :: ts) e) (ht : TextTok t)
    (hp : tm.peekIs .LITERAL (some [')']) = .ok false) (h : macroArgPiece tm = .ok (a, tm')) (hat' : At tm' ts' e) : ts'.length ≤ ts.length := by
  unfold macroArgPiece at h
  rw [hat.peekIs_cons] at h hp
  simp only [bind, Except.bind] at h
  split at h
  · rename_i hq
    have hq : t.type = .LITERAL ∧ t.value = ['"'] := by simpa using hq
    rw [hat.get_cons (by rw [check_value, if_pos hq])] at h
    dsimp only at h
    have hnext := hat.nextAt
    have h3 : TokSafe (fun tm => do
      let (t', tm) ← tm.collectJoin [Token.generate .LITERAL ['"'], Token.generate .EOF]
      let (c, tm) ← tm.get (some .LITERAL) (some ['"'])
      return ((⟨.TEXT, ['"'] ++ t'.value ++ ['"'], t.ctx.merge c.ctx⟩ : Token), tm)) fun _ _ => True := by
        refine .bind (safe_collectJoin' _ _) fun p2 t h2 => ?_
        refine .bind (safe_lit _) fun p3 c h3 => ?_
        exact (TokSafe.pure _).mono fun p4 b h4 => trivial
    obtain ⟨_, pre, ts'', e1, e2, _⟩ := (h3 _ _ _ hnext).2 a tm' h
    have := At.unique hat' e2
    subst this
    rw [e1]; simp
  · obtain ⟨c, tm1, h1, h2, h3⟩ := hat.collectJoin [Token.generate .LITERAL [','], Token.generate .LITERAL [')'], Token.generate .EOF] false
    rw [h1] at h
    cases h
    have := At.unique hat' h3
    subst this
    have hstop : stopTok [Token.generate .LITERAL [','], Token.generate .LITERAL [')'], Token.generate .EOF] t = false := by
      rw [Bool.eq_false_iff]
      intro hs
      simp only [stopTok, TM.isStop, List.any_cons, List.cons_append, List.nil_append, List.any_nil, Bool.or_false, Bool.or_eq_true, Token.eqv,
        Token.generate, Bool.and_eq_true, beq_iff_eq, decide_eq_true_eq] at hs
      rcases hs with hs | hs | hs | hs
      · obtain ⟨c, hc, hv⟩ := ht.2.1 hs.1.symm
        rw [hv] at hs
        injection hs.2 with h1 _
        subst h1
        exact absurd hc (by decide)
      · rw [← hs.1, ← hs.2] at hp; simp at hp
      · exact ht.1 hs.1.symm
      · exact ht.1 hs.1.symm
    exact upto_rest_le hstop

theorem macroArgsLoop_safe (n : Nat) : ∀ (tm : TM) (ts : List Token) (e : Token) (acc : List Token), At tm ts e → (∀ t ∈ ts, TextTok t) → ts.length + 1 ≤ n →
    (∀ x, macroArgsLoop n tm acc = .error x → x = .token ∨ x.isMau = true) ∧ ∀ out tm', macroArgsLoop n tm acc = .ok (out, tm') →
      tm'.tokens = tm.tokens ∧ ∃ new pre ts', out = acc ++ new ∧ ts = pre ++ ts' ∧ At tm' ts' e ∧ Joined (toksText new) (toksText pre) := by
  induction n with
  | zero => intro tm ts e acc _ _ h; omega
  | succ n ih =>
    intro tm ts e acc hat hts hn
    unfold macroArgsLoop
    cases h1 : tm.peekIs .LITERAL (some [')']) with
    | error x => exact absurd h1 (hat.peekIs_total _ _ _ _)
    | ok b =>
      cases b with
      | true =>
        simp only [bind, Except.bind, if_true, pure, Except.pure]
        refine ⟨fun x h => (by cases h), fun out tm' h => ?_⟩
        cases h
        exact ⟨rfl, [], [], ts, by simp, rfl, hat, .refl _⟩
      | false =>
        simp only [bind, Except.bind, Bool.false_eq_true, if_false]
        cases h2 : tm.peekIs .EOF with
        | error x => exact absurd h2 (hat.peekIs_total _ _ _ _)
        | ok b =>
          cases b with
          | true =>
            simp only [if_true, pure, Except.pure]
            refine ⟨fun x h => (by cases h), fun out tm' h => ?_⟩
            cases h
            exact ⟨rfl, [], [], ts, by simp, rfl, hat, .refl _⟩
          | false =>
            simp only [Bool.false_eq_true, if_false]
            obtain ⟨h3, h4⟩ := safe_macroArgPiece tm ts e hat
            cases h5 : macroArgPiece tm with
            | error x => exact ⟨fun y h => (by cases h; exact h3 _ h5), fun out tm' h => (by cases h)⟩
            | ok r =>
              obtain ⟨a, tm1⟩ := r
              obtain ⟨e1, pre, ts', e2, e3, e4⟩ := h4 a tm1 h5
              dsimp only
              cases ts with
              | nil => rw [hat.peekIs_nil', hat.eof.1] at h2; simp at h2
              | cons t ts =>
                have hlen := macroArgPiece_moves hat (hts t (by simp)) h1 h5 e3
                obtain ⟨h6, h7⟩ := ih tm1 ts' e (acc ++ [a]) e3 (fun u hu => hts u (by rw [e2]; simp [hu])) (by simp at hn; omega)
                refine ⟨h6, fun out tm' h => ?_⟩
                obtain ⟨f1, new, pre', ts'', f2, f3, f4, f5⟩ := h7 out tm' h
                refine ⟨f1.trans e1, a :: new, pre ++ pre', ts'', by rw [f2]; simp, by rw [e2, f3]; simp, f4, ?_⟩
                rw [toksText_cons, toksText_append]
                exact e4.append f5

/-! ## The functions of the text parser -/

/-- The parser stands before the tokens `ts`, which end the tokens `init` of the text. -/
structure Before (toks init : List Token) (e : Token) (s : TextSt) (ts : List Token) : Prop where
  at_ : At ⟨toks, s.next⟩ ts e
  suf : ts <:+ init
  all : ∀ t ∈ init, TextTok t
  len : init.length ≤ toks.length

/-- Errors are in `E`; a result leaves the parser behind some tokens `pre` with `Q pre a`. -/
def PAt {α : Type} (E : Err → Prop) (toks init : List Token) (e : Token) (f : PM α) (Q : List Token → α → Prop) (s : TextSt) (ts : List Token) : Prop :=
  (∀ x, f s = .err x → E x) ∧ ∀ a s', f s = .ok a s' → ∃ pre ts', ts = pre ++ ts' ∧ Before toks init e s' ts' ∧ Q pre a

namespace PAt
variable {α β : Type} {E : Err → Prop} {toks init : List Token} {e : Token} {s : TextSt} {ts : List Token}

theorem mono {f : PM α} {Q R : List Token → α → Prop} (h : PAt E toks init e f Q s ts) (hq : ∀ pre a ts', ts = pre ++ ts' → Q pre a → R pre a) :
    PAt E toks init e f R s ts :=
  ⟨h.1, fun a s' hx => by obtain ⟨pre, ts', h1, h2, h3⟩ := h.2 a s' hx; exact ⟨pre, ts', h1, h2, hq _ _ ts' h1 h3⟩⟩

theorem pure (hb : Before toks init e s ts) (a : α) : PAt E toks init e (Pure.pure a : PM α) (fun pre b => pre = [] ∧ b = a) s ts :=
  ⟨fun x h => (by cases h), fun b s' h => (by cases h; exact ⟨[], ts, rfl, hb, rfl, rfl⟩)⟩

theorem bind {f : PM α} {g : α → PM β} {Q : List Token → α → Prop} {R : List Token → β → Prop} (hf : PAt E toks init e f Q s ts)
    (hg : ∀ pre a s' ts', ts = pre ++ ts' → Before toks init e s' ts' → Q pre a → PAt E toks init e (g a) (fun q b => R (pre ++ q) b) s' ts') :
    PAt E toks init e (f >>= g) R s ts := by
  change PAt E toks init e (PM.bind f g) R s ts
  unfold PAt PM.bind
  cases hx : f s with
  | err x =>
    exact ⟨fun y hy => (by cases hy; exact hf.1 _ hx), fun b s' hy => (by cases hy)⟩
  | fail s1 => exact ⟨fun y hy => (by cases hy), fun b s' hy => (by cases hy)⟩
  | ok a s1 =>
    obtain ⟨pre, ts1, h1, h2, h3⟩ := hf.2 a s1 hx
    obtain ⟨h4, h5⟩ := hg pre a s1 ts1 h1 h2 h3
    refine ⟨h4, fun b s' hy => ?_⟩
    obtain ⟨q, ts2, h6, h7, h8⟩ := h5 b s' hy
    exact ⟨pre ++ q, ts2, by rw [h1, h6, List.append_assoc], h7, h8⟩

theorem orElse {f g : PM α} {Q : List Token → α → Prop} (hf : PAt E toks init e f Q s ts)
    (hg : ∀ s', s'.next = s.next → PAt E toks init e g Q s' ts) : PAt E toks init e (PM.orElse f g) Q s ts := by
  unfold PAt PM.orElse
  cases hx : f s with
  | err x => exact ⟨fun y hy => (by cases hy; exact hf.1 _ hx), fun b s' hy => (by cases hy)⟩
  | ok a s1 => exact ⟨fun y hy => (by cases hy), fun b s' hy => (by cases hy; exact hf.2 a s1 hx)⟩
  | fail s1 => exact hg _ rfl

theorem tm (hE : ∀ x : Err, x.isMau = true → E x) (hb : Before toks init e s ts) {f : TokFn α} {Q : List Token → α → Prop} (hf : TokSafe f Q) :
    PAt E toks init e (PM.tm toks f) Q s ts := by
  obtain ⟨h1, h2⟩ := hf _ _ _ hb.at_
  unfold PAt PM.tm
  cases hx : f ⟨toks, s.next⟩ with
  | error x =>
    have h1 := h1 x hx
    refine ⟨fun y hy => ?_, fun b s' hy => ?_⟩
    · cases x with
      | token => cases hy
      | _ => cases hy; exact hE _ (h1.resolve_left (by simp))
    · cases x <;> cases hy
  | ok r =>
    obtain ⟨a, tm'⟩ := r
    obtain ⟨h3, pre, ts', h4, h5, h6⟩ := h2 a tm' hx
    refine ⟨fun y hy => (by cases hy), fun b s' hy => ?_⟩
    cases hy
    refine ⟨pre, ts', h4, ⟨?_, (h4 ▸ List.suffix_append pre ts').trans hb.suf, hb.all, hb.len⟩, h6⟩
    obtain ⟨tk, nx⟩ := tm'
    dsimp only at h3
    subst h3
    exact h5

theorem lift {x : Except Err α} (hb : Before toks init e s ts) (hx : ∀ y, x = .error y → y ≠ .token → E y) :
    PAt E toks init e (PM.lift x) (fun pre a => pre = [] ∧ x = .ok a) s ts := by
  unfold PAt PM.lift
  cases x with
  | ok a => exact ⟨fun y hy => (by cases hy), fun b s' hy => (by cases hy; exact ⟨[], ts, rfl, hb, rfl, rfl⟩)⟩
  | error y =>
    refine ⟨fun z hz => ?_, fun b s' hy => ?_⟩
    · cases y with
      | token => cases hz
      | _ => cases hz; exact hx _ rfl (by simp)
    · cases y <;> cases hy

end PAt

section parser
variable {E : Err → Prop} {toks init : List Token} {e : Token} {s : TextSt} {ts : List Token}

theorem pat_backslash (hE : ∀ x : Err, x.isMau = true → E x) (hb : Before toks init e s ts) :
    PAt E toks init e (parseBackslash toks) (fun pre _ => pre ≠ []) s ts := by
  unfold parseBackslash
  refine .bind (.tm hE hb (safe_lit _)) fun p a s1 ts1 e1 hb1 h1 => ?_
  refine .bind (.tm hE hb1 (safe_get none none none)) fun p2 a2 s2 ts2 e2 hb2 h2 => ?_
  exact (PAt.pure hb2 _).mono fun p3 b _ _ h3 => (by rw [h1.1]; simp)

theorem pat_verbatim (hE : ∀ x : Err, x.isMau = true → E x) (hb : Before toks init e s ts) :
    PAt E toks init e (parseVerbatim toks) (fun pre _ => pre ≠ []) s ts := by
  unfold parseVerbatim
  refine .bind (.tm hE hb (safe_lit _)) fun p a s1 ts1 e1 hb1 h1 => ?_
  refine .bind (.tm hE hb1 (safe_collectJoin' _ _)) fun p2 a2 s2 ts2 e2 hb2 h2 => ?_
  refine .bind (.tm hE hb2 (safe_lit _)) fun p3 a3 s3 ts3 e3 hb3 h3 => ?_
  exact (PAt.pure hb3 _).mono fun p3 b _ _ h3 => (by rw [h1.1]; simp)

/-- Getting a special character by a test. -/
theorem safe_litTest (f : Str → Bool) : TokSafe (fun tm => tm.get (some .LITERAL) none (some f)) fun pre t => pre = [t] := by
  refine (safe_get _ _ _).mono fun pre t h => ?_
  obtain ⟨h1, h2⟩ := h
  rcases h2 with h2 | h2
  · exact h2
  · exfalso
    unfold TM.checkToken at h1
    rw [h2.2.1] at h1
    simp at h1

theorem pat_escaped (hE : ∀ x : Err, x.isMau = true → E x) (hb : Before toks init e s ts) :
    PAt E toks init e (parseEscaped toks) (fun pre _ => pre ≠ []) s ts := by
  unfold parseEscaped
  refine .bind (.tm hE hb (safe_litTest _)) fun p a s1 ts1 e1 hb1 h1 => ?_
  refine .bind (.tm hE hb1 (safe_collectJoin' _ _)) fun p2 a2 s2 ts2 e2 hb2 h2 => ?_
  refine .bind (.tm hE hb2 (safe_lit _)) fun p3 a3 s3 ts3 e3 hb3 h3 => ?_
  exact (PAt.pure hb3 _).mono fun p3 b _ _ h3 => (by rw [h1]; simp)

theorem pat_collectMacroArgs (hE : ∀ x : Err, x.isMau = true → E x) (hb : Before toks init e s ts) :
    PAt E toks init e (PM.tm toks collectMacroArgs) (fun pre t => Joined t.value (toksText pre)) s ts := by
  have hlen : ts.length + 1 ≤ toks.length + 2 := by
    have := hb.suf.length_le
    have := hb.len
    omega
  obtain ⟨h1, h2⟩ := macroArgsLoop_safe (toks.length + 2) ⟨toks, s.next⟩ ts e [] hb.at_ (fun t ht => hb.all t (hb.suf.mem ht)) hlen
  unfold PAt PM.tm collectMacroArgs
  cases hx : macroArgsLoop (toks.length + 2) ⟨toks, s.next⟩ [] with
  | error x =>
    have h1 := h1 x hx
    simp only [Bind.bind, Except.bind, hx]
    refine ⟨fun y hy => ?_, fun b s' hy => ?_⟩
    · cases x with
      | token => cases hy
      | _ => cases hy; exact hE _ (h1.resolve_left (by simp))
    · cases x <;> cases hy
  | ok r =>
    obtain ⟨out, tm'⟩ := r
    obtain ⟨h3, new, pre, ts', h4, h5, h6, h7⟩ := h2 out tm' hx
    simp only [Bind.bind, Except.bind, hx, Pure.pure, Except.pure]
    refine ⟨fun y hy => (by cases hy), fun b s' hy => ?_⟩
    cases hy
    refine ⟨pre, ts', h5, ⟨?_, (h5 ▸ List.suffix_append pre ts').trans hb.suf, hb.all, hb.len⟩, ?_⟩
    · obtain ⟨tk, nx⟩ := tm'
      dsimp only at h3
      subst h3
      exact h6
    · rw [fromTokenList_value, h4]; exact h7

/-- What the head of a macro reads. -/
theorem pat_macroHead (hE : ∀ x : Err, x.isMau = true → E x) (hb : Before toks init e s ts) (env : Env)
    (hal : ∀ x name, Brackets (toksText init) → '@' ∈ toksText init → lookupAlias env name = .error x → E x) :
    PAt E toks init e (macroHead env toks) (fun pre r => pre ≠ [] ∧ r.1 ∈ init ∧ (['['] ++ r.1.value ++ [']', '(']) <:+: toksText init ∧
      ∀ v, r.2.1.Has v → (MayOccur v (toksText init) ∧ v.length < (toksText init).length) ∨
        ('@' ∈ toksText init ∧ ∃ name a k, lookupAlias env name = .ok a ∧ Dict.get? a.args k = some v)) s ts := by
  unfold macroHead
  refine .bind (.tm hE hb (safe_lit _)) fun p1 o s1 ts1 e1 hb1 h1 => ?_
  refine .bind (.tm hE hb1 safe_text) fun p2 name s2 ts2 e2 hb2 h2 => ?_
  refine .bind (.tm hE hb2 (safe_lit _)) fun p3 c3 s3 ts3 e3 hb3 h3 => ?_
  refine .bind (.tm hE hb3 (safe_lit _)) fun p4 c4 s4 ts4 e4 hb4 h4 => ?_
  refine .bind (pat_collectMacroArgs hE hb4) fun p5 args s5 ts5 e5 hb5 h5 => ?_
  refine .bind (.tm hE hb5 (safe_lit _)) fun p6 c6 s6 ts6 e6 hb6 h6 => ?_
  have hts : ts = p1 ++ p2 ++ p3 ++ p4 ++ p5 ++ p6 ++ ts6 := by rw [e1, e2, e3, e4, e5, e6]; simp
  have hinf : p1 ++ p2 ++ p3 ++ p4 ++ p5 ++ p6 <:+: init := List.IsInfix.trans ⟨[], ts6, by rw [hts]; simp⟩ hb.suf.isInfix
  have htext := infix_toksText hinf
  have hshape : toksText (p1 ++ p2 ++ p3 ++ p4 ++ p5 ++ p6) = (['['] ++ name.value ++ [']', '(']) ++ toksText p5 ++ [')'] := by
    simp [toksText_append, h1, h2, h3, h4, h6]
  rw [hshape] at htext
  have hargs : MayOccur args.value (toksText init) ∧ args.value.length < (toksText init).length := by
    refine ⟨h5.mayOccur.trans ((MayOccur.of_infix ⟨['['] ++ name.value ++ [']', '('], [')'], by simp⟩).trans (.of_infix htext)), ?_⟩
    have h7 := h5.1.length_le
    have h8 := htext.length_le
    simp at h8
    omega
  obtain ⟨b1, b2⟩ := parseArgs_bounds env args.value args.ctx.startLine args.ctx.startColumn args.ctx.source
  refine .bind (.lift hb6 ?_) fun p7 p s7 ts7 e7 hb7 h7 => ?_
  · intro y hy _
    rcases b1 y hy with h | ⟨h, nm, _, hl⟩
    · exact hE y h
    · exact hal y nm ⟨htext.mem (by simp), htext.mem (by simp)⟩ (hargs.1.mem h) hl
  · refine (PAt.pure hb7 _).mono fun p8 r _ _ h8 => ?_
    obtain ⟨rfl, rfl⟩ := h8
    refine ⟨by rw [h1.1]; simp, ?_, List.IsInfix.trans ⟨[], toksText p5 ++ [')'], by simp⟩ htext, ?_⟩
    · exact hb1.suf.mem (by rw [e2, h2]; simp)
    · intro v hv
      rcases b2 p h7.2 v hv with h | ⟨h, x⟩
      · exact .inl ⟨h.trans hargs.1, Nat.lt_of_le_of_lt h.length_le hargs.2⟩
      · exact .inr ⟨hargs.1.mem h, x⟩

end parser

/-! ## Control macros -/

theorem parseCondition_cases {text : Str} (hn : '\n' ∉ text) (sl sc : Nat) (src : Option Str) :
    (text = [] ∧ parseCondition text sl sc src = .ok none) ∨ (∃ x, parseCondition text sl sc src = .error x ∧ x.isMau = true) ∨
      ∃ (var : Str) (neg : Bool) (value : Str) (ctx : Context), parseCondition text sl sc src = .ok (some ⟨var, if neg then c%"!=" else c%"==", value, ctx⟩) := by
  by_cases hc : ∃ var neg value, ConditionText text var neg value
  · obtain ⟨var, neg, value, hc⟩ := hc
    obtain ⟨ctx, hp⟩ := C27_reads hc hn sl sc src
    exact .inr (.inr ⟨var, neg, value, ctx, hp⟩)
  · by_cases hb : isBlank text = true
    · rw [parseCondition_blank hb hn]
      by_cases ht : text = []
      · exact .inl ⟨ht, by rw [if_pos ht]⟩
      · exact .inr (.inl ⟨_, if_neg ht, rfl⟩)
    · exact .inr (.inl ⟨_, C27_malformed hc hn (by simpa using hb) sl sc src, rfl⟩)

theorem split_pair {s a b : Str} (h : splitChar ':' s = [a, b]) : s = a ++ ':' :: b := by
  have := join_split ':' s
  rw [h] at this
  simpa [joinWith] using this.symm

theorem controlCase_bounds (env : Env) (name : Token) (p : ParsedArgs) (cx : Context) (hn : '\n' ∉ name.value) :
    (∀ x, controlCase env name p cx = .error x → x.isMau = true ∨ (x = .py .attributeError ∧ ((∃ op, name.value = op ++ [':']) ∨
      ∃ cond k, name.value = c%"ifeval:" ++ cond ∧ p.Has k ∧ NotText env k))) ∧
    ∀ v c, controlCase env name p cx = .ok (some (v, c)) → p.Has v ∨ ∃ cond k, name.value = c%"ifeval:" ++ cond ∧ p.Has k ∧ Env.get env k = .value (.str v) := by
  unfold controlCase
  dsimp only
  split
  · rename_i op cond hs
    have hname := split_pair hs
    split
    · exact ⟨fun x h => (by cases h; exact .inl rfl), fun v c h => (by cases h)⟩
    · rcases parseCondition_cases (text := cond) (fun h => hn (by rw [hname]; simp [h])) name.ctx.startLine (name.ctx.startColumn + 4) name.ctx.source with
        ⟨h1, h2⟩ | ⟨x, h1, h2⟩ | ⟨var, neg, value, ctx, h1⟩
      · simp only [h2, Bind.bind, Except.bind, Pure.pure, Except.pure]
        refine ⟨fun x h => ?_, fun v c h => (by cases h)⟩
        cases h
        exact .inr ⟨rfl, .inl ⟨op, by rw [hname, h1]⟩⟩
      · simp only [h1, Bind.bind, Except.bind, Pure.pure, Except.pure, h2, if_true]
        exact ⟨fun x h => (by cases h; exact .inl rfl), fun v c h => (by cases h)⟩
      · have hmk : mkControl c%"if" var (if neg = true then c%"!=" else c%"==") value name.ctx = .ok ⟨var, neg, value, name.ctx⟩ := by cases neg <;> simp [mkControl]
        simp only [h1, hmk, Bind.bind, Except.bind, Pure.pure, Except.pure]
        cases h3 : Dict.get? (p.setNames [c%"true_case", c%"false_case"]).named c%"true_case" with
        | none => exact ⟨fun x h => (by cases h; exact .inl rfl), fun v c h => (by cases h)⟩
        | some tc =>
          dsimp only
          cases h4 : (Control.mk var neg value name.ctx).process env with
          | error x =>
            refine ⟨fun y h => ?_, fun v c h => (by cases h)⟩
            cases h
            unfold Control.process at h4
            split at h4
            · cases h4; exact .inl rfl
            · cases h4
          | ok test =>
            dsimp only
            have hres : ∀ r, (if test = true then some tc else Dict.get? (p.setNames [c%"true_case", c%"false_case"]).named c%"false_case") = some r →
                p.Has r.value := by
              intro r hr
              split at hr
              · cases hr; exact has_setNames h3
              · exact has_setNames hr
            generalize (if test = true then some tc else Dict.get? (p.setNames [c%"true_case", c%"false_case"]).named c%"false_case") = res at hres ⊢
            split
            · rename_i hev
              cases res with
              | none => exact ⟨fun x h => (by cases h; exact .inl rfl), fun v c h => (by cases h)⟩
              | some r =>
                have hr := hres r rfl
                have hname' : name.value = c%"ifeval:" ++ cond := by rw [hname, hev]; simp
                dsimp only
                cases hg : Env.get env r.value with
                | default => exact ⟨fun x h => (by cases h; exact .inl rfl), fun v c h => (by cases h)⟩
                | «namespace» e =>
                  exact ⟨fun x h => (by cases h; exact .inr ⟨rfl, .inr ⟨cond, _, hname', hr, .inl ⟨e, hg⟩⟩⟩), fun v c h => (by cases h)⟩
                | value w =>
                  cases w with
                  | str t =>
                    refine ⟨fun x h => (by cases h), fun v c h => ?_⟩
                    cases h
                    exact .inr ⟨cond, _, hname', hr, hg⟩
                  | _ =>
                    exact ⟨fun x h => (by cases h; exact .inr ⟨rfl, .inr ⟨cond, _, hname', hr, .inr ⟨_, hg, by simp⟩⟩⟩), fun v c h => (by cases h)⟩
            · refine ⟨fun x h => (by cases h), fun v c h => ?_⟩
              cases res with
              | none => cases h
              | some r => cases h; exact .inl (hres r rfl)
  · exact ⟨fun x h => (by cases h; exact .inl rfl), fun v c h => (by cases h)⟩

/-! ## The texts a text leads to -/

/-- Parsing the text may involve parsing `v`. -/
def Leads (env : Env) (text v : Str) : Prop :=
  Brackets text ∧ ((MayOccur v text ∧ v.length < text.length) ∨ ('@' ∈ text ∧ ∃ key, (c%"mau.parser.aliases." ++ key, Val.str v) ∈ env) ∨
    (MayOccur c%"[ifeval:" text ∧ ∃ k, (k, Val.str v) ∈ env ∧ (MayOccur k text ∨ '@' ∈ text)))

/-- The errors of the parts of a text are in `E`. -/
structure Errors (E : Err → Prop) (env : Env) (text : Str) : Prop where
  mau : ∀ x : Err, x.isMau = true → E x
  alias : ∀ x name, Brackets text → '@' ∈ text → lookupAlias env name = .error x → E x
  empty : MayOccur c%":](" text → MayOccur c%"[if" text → E (.py .attributeError)
  notText : ∀ k, Brackets text → MayOccur c%"[ifeval:" text → (MayOccur k text ∨ '@' ∈ text) → NotText env k → E (.py .attributeError)
  sub : ∀ v c s x, Leads env text v → strP env v c s = .err x → E x

section parser
variable {E : Err → Prop} {toks init : List Token} {e : Token} {s : TextSt} {ts : List Token} {env : Env} {text : Str}

/-- Parsing a text the current one leads to. -/
theorem pat_sub (H : Errors E env text) (hb : Before toks init e s ts) {v : Str} (hv : Leads env text v) (c : Context) :
    PAt E toks init e (strP env v c) (fun _ _ => True) s ts := by
  refine ⟨fun x hx => H.sub v c s x hv hx, fun a s' hx => ⟨[], ts, rfl, ?_, trivial⟩⟩
  rw [strP_eq] at hx
  dsimp only at hx
  split at hx
  · cases hx
  · split at hx
    · cases hx
    · cases hx
      exact ⟨hb.at_, hb.suf, hb.all, hb.len⟩

theorem pat_textOr (H : Errors E env text) (hb : Before toks init e s ts) (o : Option CtxText) (d : List Node) (ho : ∀ t, o = some t → Leads env text t.value) :
    PAt E toks init e (textOr (strP env) o d) (fun _ _ => True) s ts := by
  cases o with
  | none => exact (PAt.pure hb _).mono fun _ _ _ _ _ => trivial
  | some t => exact pat_sub H hb (ho t rfl) _

theorem pat_mandatory (H : Errors E env text) (hb : Before toks init e s ts) (p : ParsedArgs) (key : Str) (m : Msg) (cx : Context) :
    PAt E toks init e (mandatory p key m cx) (fun pre n => pre = [] ∧ Dict.get? p.named key = some n) s ts := by
  unfold mandatory
  cases h : Dict.get? p.named key with
  | some n => exact (PAt.pure hb _).mono fun pre a _ _ h => ⟨h.1, by rw [h.2]⟩
  | none => exact ⟨fun x hx => (by cases hx; exact H.mau _ rfl), fun a s' hx => (by cases hx)⟩

theorem pat_fresh (hb : Before toks init e s ts) : PAt E toks init e PM.fresh (fun _ _ => True) s ts :=
  ⟨fun x hx => (by cases hx), fun a s' hx => (by cases hx; exact ⟨[], ts, rfl, ⟨hb.at_, hb.suf, hb.all, hb.len⟩, trivial⟩)⟩

theorem pat_dispatch (H : Errors E env text) (hb : Before toks init e s ts) (name : Token) (p : ParsedArgs) (ctx : Context) (hname : '\n' ∉ name.value)
    (hshape : MayOccur (['['] ++ name.value ++ [']', '(']) text)
    (hp : ∀ v, p.Has v → (MayOccur v text ∧ v.length < text.length) ∨ ('@' ∈ text ∧ ∃ name a k, lookupAlias env name = .ok a ∧ Dict.get? a.args k = some v)) :
    PAt E toks init e (macroDispatch env (strP env) name p ctx) (fun _ _ => True) s ts := by
  have hbr : Brackets text := ⟨hshape.mem (by simp), hshape.mem (by simp)⟩
  have hlead : ∀ v, p.Has v → Leads env text v := by
    intro v hv
    refine ⟨hbr, ?_⟩
    rcases hp v hv with h | ⟨h, nm, a, k, h1, h2⟩
    · exact .inl h
    · exact .inr (.inl ⟨h, alias_value h1 h2⟩)
  have hset : ∀ (names : List Str) (k : Str) (n : CtxText), Dict.get? (p.setNames names).named k = some n → Leads env text n.value :=
    fun names k n h => hlead _ (has_setNames h)
  have occ : ∀ k, p.Has k → MayOccur k text ∨ '@' ∈ text := by
    intro k hk
    rcases hp k hk with h | h
    · exact .inl h.1
    · exact .inr h.1
  unfold macroDispatch
  split
  · rename_i hif
    obtain ⟨b1, b2⟩ := controlCase_bounds env name p ctx hname
    unfold macroControlFn
    have hprefix : ∀ a, a <+: name.value → MayOccur ('[' :: a) text := by
      rintro a ⟨r, hr⟩
      exact (MayOccur.of_infix ⟨[], r ++ [']', '('], by rw [← hr]; simp⟩).trans hshape
    refine .bind (.lift hb ?_) fun p1 o s1 ts1 e1 hb1 h1 => ?_
    · intro y hy _
      rcases b1 y hy with h | ⟨rfl, h | ⟨cond, k, h, hk, hnt⟩⟩
      · exact H.mau y h
      · obtain ⟨op, hop⟩ := h
        refine H.empty ?_ (hprefix _ (by unfold startsWith at hif; exact List.isPrefixOf_iff_prefix.1 hif))
        exact (MayOccur.of_infix ⟨['['] ++ op, [], by rw [hop]; simp⟩).trans hshape
      · exact H.notText k hbr (hprefix c%"ifeval:" ⟨cond, h.symm⟩) (occ k hk) hnt
    · cases o with
      | none => exact (PAt.pure hb1 _).mono fun _ _ _ _ _ => trivial
      | some vc =>
        obtain ⟨v, vc⟩ := vc
        refine pat_sub H hb1 ?_ _
        rcases b2 v vc h1.2 with h | ⟨cond, k, h, hk, hg⟩
        · exact hlead v h
        · refine ⟨hbr, .inr (.inr ⟨hprefix c%"ifeval:" ⟨cond, h.symm⟩, k, ?_, occ k hk⟩)⟩
          unfold Env.get at hg
          split at hg
          · rename_i w hw
            injection hg with hg
            subst hg
            exact Dict.mem_of_get? hw
          · dsimp only at hg
            split at hg <;> cases hg
  split
  · refine .bind (pat_mandatory H hb _ _ _ _) fun p1 a1 s1 ts1 e1 hb1 h1 => ?_
    refine .bind (pat_textOr H hb1 _ _ fun t ht => hset _ _ t ht) fun p2 a2 s2 ts2 e2 hb2 h2 => ?_
    exact (PAt.pure hb2 _).mono fun _ _ _ _ _ => trivial
  split
  · refine .bind (pat_mandatory H hb _ _ _ _) fun p1 a1 s1 ts1 e1 hb1 h1 => ?_
    refine .bind (pat_fresh hb1) fun p2 a2 s2 ts2 e2 hb2 h2 => ?_
    refine .bind (pat_textOr H hb2 _ _ fun t ht => hset _ _ t ht) fun p2 a2 s3 ts3 e2 hb3 h2 => ?_
    exact ⟨fun x hx => (by cases hx), fun a s' hx => (by cases hx; exact ⟨[], ts3, rfl, ⟨hb3.at_, hb3.suf, hb3.all, hb3.len⟩, trivial⟩)⟩
  split
  · refine .bind (pat_mandatory H hb _ _ _ _) fun p1 a1 s1 ts1 e1 hb1 h1 => ?_
    refine .bind (pat_textOr H hb1 _ _ fun t ht => hset _ _ t ht) fun p2 a2 s2 ts2 e2 hb2 h2 => ?_
    exact (PAt.pure hb2 _).mono fun _ _ _ _ _ => trivial
  split
  · refine .bind (pat_mandatory H hb _ _ _ _) fun p1 a1 s1 ts1 e1 hb1 h1 => ?_
    exact (PAt.pure hb1 _).mono fun _ _ _ _ _ => trivial
  split
  · refine .bind (pat_mandatory H hb _ _ _ _) fun p1 a1 s1 ts1 e1 hb1 h1 => ?_
    refine .bind (pat_fresh hb1) fun p2 a2 s3 ts3 e2 hb3 h2 => ?_
    exact ⟨fun x hx => (by cases hx), fun a s' hx => (by cases hx; exact ⟨[], ts3, rfl, ⟨hb3.at_, hb3.suf, hb3.all, hb3.len⟩, trivial⟩)⟩
  split
  · refine .bind (pat_mandatory H hb _ _ _ _) fun p1 a1 s1 ts1 e1 hb1 h1 => ?_
    refine .bind (pat_sub H hb1 (hset _ _ _ h1.2) _) fun p2 a2 s2 ts2 e2 hb2 h2 => ?_
    exact (PAt.pure hb2 _).mono fun _ _ _ _ _ => trivial
  split
  · refine .bind (pat_mandatory H hb _ _ _ _) fun p1 a1 s1 ts1 e1 hb1 h1 => ?_
    exact (PAt.pure hb1 _).mono fun _ _ _ _ _ => trivial
  split
  · refine .bind (pat_mandatory H hb _ _ _ _) fun p1 a1 s1 ts1 e1 hb1 h1 => ?_
    exact (PAt.pure hb1 _).mono fun _ _ _ _ _ => trivial
  · exact (PAt.pure hb _).mono fun _ _ _ _ _ => trivial

theorem pat_macro (H : Errors E env text) (htext : MayOccur (toksText init) text) (hb : Before toks init e s ts) :
    PAt E toks init e (macroP env toks) (fun pre _ => pre ≠ []) s ts := by
  rw [macroP_eq]
  refine .bind (pat_macroHead H.mau hb env fun x name h1 h2 => H.alias x name ⟨htext.mem h1.1, htext.mem h1.2⟩ (htext.mem h2)) fun p1 r s1 ts1 e1 hb1 h1 => ?_
  obtain ⟨name, p, ctx⟩ := r
  obtain ⟨h2, h3, h4, h5⟩ := h1
  dsimp only at h3 h4 h5
  refine (pat_dispatch H hb1 name p ctx (hb.all name h3).2.2 ((MayOccur.of_infix h4).trans htext) ?_).mono fun q _ _ _ _ => by simp [h2]
  intro v hv
  rcases h5 v hv with h | h
  · exact .inl ⟨h.1.trans htext, Nat.lt_of_lt_of_le h.2 htext.length_le⟩
  · exact .inr ⟨htext.mem h.1, h.2⟩

theorem pat_peek (H : Errors E env text) (hb : Before toks init e s ts) : PAt E toks init e (PM.peek toks (·.peek))
    (fun pre t => pre = [] ∧ ((ts = [] ∧ t = e) ∨ ∃ ts', ts = t :: ts')) s ts := by
  unfold PAt PM.peek
  dsimp only
  cases ts with
  | nil =>
    rw [hb.at_.peek_nil]
    have : TM.checkToken e none none none = .ok e := by simp [TM.checkToken]
    rw [this]
    exact ⟨fun x hx => (by cases hx), fun a s' hx => (by cases hx; exact ⟨[], [], rfl, hb, rfl, .inl ⟨rfl, rfl⟩⟩)⟩
  | cons t ts =>
    rw [hb.at_.peek_cons]
    have : TM.checkToken t none none none = .ok t := by simp [TM.checkToken]
    rw [this]
    exact ⟨fun x hx => (by cases hx), fun a s' hx => (by cases hx; exact ⟨[], t :: ts, rfl, hb, rfl, .inr ⟨ts, rfl⟩⟩)⟩

theorem pat_word (H : Errors E env text) (hb : Before toks init e s ts) (hne : ts ≠ []) : PAt E toks init e (parseWord toks) (fun pre _ => pre ≠ []) s ts := by
  unfold parseWord
  refine PAt.bind (Q := fun pre _ => pre ≠ []) ?_ fun p1 t s1 ts1 e1 hb1 h1 => (PAt.pure hb1 _).mono fun _ _ _ _ _ => by simp [h1]
  obtain ⟨h1, h2⟩ := PAt.tm H.mau hb (safe_get none none none)
  refine ⟨h1, fun a s' hx => ?_⟩
  cases ts with
  | nil => exact absurd rfl hne
  | cons t ts =>
    obtain ⟨pre, ts', h3, h4, h5⟩ := h2 a s' hx
    refine ⟨pre, ts', h3, h4, ?_⟩
    rintro rfl
    have hg : TM.get ⟨toks, s.next⟩ none none none = _ := hb.at_.get_cons (by simp [TM.checkToken] : TM.checkToken t none none none = .ok t)
    unfold PM.tm at hx
    dsimp only at hx
    rw [hg] at hx
    cases hx
    have := At.unique h4.at_ hb.at_.nextAt
    rw [List.nil_append] at h3
    rw [← h3] at this
    have := congrArg List.length this
    simp at this

theorem before_congr {s' : TextSt} (hb : Before toks init e s ts) (h : s'.next = s.next) : Before toks init e s' ts :=
  ⟨by rw [h]; exact hb.at_, hb.suf, hb.all, hb.len⟩

theorem pat_sentence (H : Errors E env text) (htext : MayOccur (toksText init) text) (k : Nat) : ∀ (s : TextSt) (ts : List Token), Before toks init e s ts → ts.length ≤ k →
    ∀ m, PAt E toks init e (sentence env toks m) (fun _ _ => True) s ts := by
  induction k using Nat.strongRecOn with
  | ind k ih =>
    intro s ts hb hk m
    have hitem : PAt E toks init e (item env toks m) (fun pre a => a ≠ [] → pre ≠ []) s ts := by
      rw [item_eq]
      refine .bind (pat_peek H hb) fun p1 t s1 ts1 e1 hb1 h1 => ?_
      obtain ⟨rfl, h1⟩ := h1
      rw [List.nil_append] at e1
      subst e1
      split
      · exact (PAt.pure hb1 _).mono fun p a _ _ h => by intro ha; exact absurd h.2 ha
      · rename_i hstop
        have hne : ts ≠ [] := by
          rintro rfl
          rcases h1 with ⟨_, rfl⟩ | ⟨_, h1⟩
          · apply hstop
            simp [sentenceStop, hb.at_.eof.1, hb.at_.eof.2]
          · cases h1
        refine PAt.mono (Q := fun pre _ => pre ≠ []) ?_ fun p a _ _ h _ => by simpa using h
        refine .orElse (pat_backslash H.mau hb1) fun s2 e2 => ?_
        refine .orElse (pat_macro H htext (before_congr hb1 e2)) fun s3 e3 => ?_
        refine .orElse (pat_verbatim H.mau (before_congr hb1 (e3.trans e2))) fun s4 e4 => ?_
        refine .orElse (pat_escaped H.mau (before_congr hb1 (e4.trans (e3.trans e2)))) fun s5 e5 => ?_
        have hb5 := before_congr hb1 (e5.trans (e4.trans (e3.trans e2)))
        refine .orElse ?_ fun s6 e6 => pat_word H (before_congr hb5 e6) hne
        rw [styleP_eq]
        refine .bind (.tm H.mau hb5 (safe_litTest _)) fun p1 o s1 ts1 e1 hb1 h1 => ?_
        have hlt : ts1.length < k := by rw [e1, h1] at hk; simp at hk; omega
        refine .bind (ih ts1.length hlt s1 ts1 hb1 (Nat.le_refl _) _) fun p2 a2 s2 ts2 e2 hb2 h2 => ?_
        refine .bind (.tm H.mau hb2 (safe_lit _)) fun p3 c s3 ts3 e3 hb3 h3 => ?_
        exact (PAt.pure hb3 _).mono fun _ _ _ _ _ => by rw [h1]; simp
    rw [sentence_eq]
    refine .bind hitem fun p1 a s1 ts1 e1 hb1 h1 => ?_
    split
    · exact (PAt.pure hb1 _).mono fun _ _ _ _ _ => trivial
    · rename_i ha
      have hp := h1 (by simpa using ha)
      have hlt : ts1.length < k := by
        have := List.length_pos_iff.2 hp
        rw [e1] at hk; simp at hk; omega
      refine .bind (ih ts1.length hlt s1 ts1 hb1 (Nat.le_refl _) _) fun p2 a2 s2 ts2 e2 hb2 h2 => ?_
      exact (PAt.pure hb2 _).mono fun _ _ _ _ _ => trivial

theorem mainP_errors (H : Errors E env text) (htext : MayOccur (toksText init) text) (n : Nat) : ∀ (s : TextSt) (ts : List Token) (last : Token) (acc : List Node),
    Before toks init e s ts → (ts.length + 2 ≤ n ∨ 1 ≤ n ∧ TM.peek ⟨toks, s.next⟩ = .ok last) → ∀ x, mainP env toks last s acc = .error x → E x := by
  induction n with
  | zero => intro s ts last acc _ h; omega
  | succ n ih =>
    intro s ts last acc hb hn x
    rw [mainP_eq]
    cases h1 : TM.peekIs ⟨toks, s.next⟩ .EOF with
    | error y => exact absurd h1 (hb.at_.peekIs_total _ _ _ _)
    | ok b =>
      cases b with
      | true => intro h; cases h
      | false =>
        dsimp only
        cases h2 : TM.peek ⟨toks, s.next⟩ with
        | error y =>
          have := hb.at_.peek_error h2
          subst this
          exact absurd h2 (nt_peek _)
        | ok t =>
          dsimp only
          split
          · intro h; cases h; exact H.mau _ rfl
          · rename_i hl
            have hlen : ts.length + 2 ≤ n + 1 := by
              rcases hn with hn | ⟨_, hp⟩
              · exact hn
              · rw [h2] at hp; cases hp; exact absurd rfl hl
            have hs := pat_sentence H htext ts.length s ts hb (Nat.le_refl _) none
            cases h3 : sentence env toks none s with
            | err y => intro h; cases h; exact hs.1 _ h3
            | fail s' => intro h; cases h; exact H.mau _ rfl
            | ok a s' =>
              obtain ⟨pre, ts', h4, h5, _⟩ := hs.2 a s' h3
              dsimp only
              refine ih s' ts' t _ h5 ?_ x
              cases pre with
              | nil =>
                right
                refine ⟨by omega, ?_⟩
                rw [← h2]
                have h6 := hb.at_
                rw [h4] at h6
                exact at_peek h5.at_ h6
              | cons p ps => left; rw [h4] at hlen; simp at hlen; omega

end parser

theorem strP_errors {E : Err → Prop} {env : Env} {text : Str} (H : Errors E env text) (c : Context) (s : TextSt) (x : Err) (hx : strP env text c s = .err x) : E x := by
  rw [strP_eq] at hx
  dsimp only at hx
  obtain ⟨init, e, h1, h2, h3, h4⟩ := lexText_toks text c.startLine c.startColumn c.source
  rw [h1] at hx
  dsimp only at hx
  split at hx
  · rename_i y hy
    cases hx
    exact mainP_errors H h4 (init.length + 2) _ init initialLast [] ⟨At.start init e ⟨h2, h3⟩, List.suffix_refl _, lexText_all text _ _ _ h1 h2, by simp⟩
      (.inl (Nat.le_refl _)) _ hy
  · cases hx

theorem textP_errors {E : Err → Prop} {env : Env} {text : Str} (H : Errors E env text) {sl sc : Nat} {src : Option Str} {uid : Nat} {x : Err}
    (hx : textP env text sl sc src uid = .error x) : E x := by
  unfold textP at hx
  obtain ⟨init, e, h1, h2, h3, h4⟩ := lexText_toks text sl sc src
  rw [h1] at hx
  dsimp only at hx
  split at hx
  · rename_i y hy
    cases hx
    exact mainP_errors H h4 (init.length + 2) _ init initialLast [] ⟨At.start init e ⟨h2, h3⟩, List.suffix_refl _, lexText_all text _ _ _ h1 h2, by simp⟩
      (.inl (Nat.le_refl _)) _ hy
  · cases hx

end Mau
