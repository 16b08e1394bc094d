import Verif.Lemmas.TextPlaces
import Verif.Lemmas.PreBounds

set_option linter.unusedSimpArgs false

/-!
# Where the errors of a text come from
-/

namespace Mau
open Spec

/-- The error is on the line `sl` of the file `src`, or it is not a Mau error. -/
inductive ErrOn (src : Option Str) (sl : Nat) : Err → Prop where
  | lexer (m : Msg) (col : Nat) : ErrOn src sl (.lexer m sl col src)
  | parser {m : Msg} {c : Context} (h : OnL true src sl c) : ErrOn src sl (.parser m (some c))
  | other {e : Err} (h : e.isMau = false) : ErrOn src sl e

/-! ## Functions of the tokens manager -/

/-- The function raises no Mau error. -/
def Mauless {α β : Type} (f : β → Except Err α) : Prop := ∀ tm x, f tm = .error x → x.isMau = false

namespace Mauless
variable {α β γ : Type}

theorem ok {a : TM → α} : Mauless fun tm => (Pure.pure (a tm) : Except Err α) := by
  intro tm x h; cases h

theorem bind {f : γ → Except Err α} {k : γ → α → Except Err β} (hf : Mauless f) (hk : ∀ a, Mauless fun tm => k tm a) : Mauless fun tm => f tm >>= k tm := by
  intro tm x h
  cases hr : f tm with
  | error e => simp only [hr, Bind.bind, Except.bind] at h; cases h; exact hf _ _ hr
  | ok r => simp only [hr, Bind.bind, Except.bind] at h; exact hk r tm x h

theorem bind' {f : TM → Except Err (α × TM)} {k : α × TM → Except Err β} (hf : Mauless f) (hk : ∀ a, Mauless fun tm => k (a, tm)) : Mauless fun tm => f tm >>= k := by
  intro tm x h
  cases hr : f tm with
  | error e => simp only [hr, Bind.bind, Except.bind] at h; cases h; exact hf _ _ hr
  | ok r => simp only [hr, Bind.bind, Except.bind] at h; exact hk r.1 r.2 x h

theorem check {t : Token} {ty : Option TokenType} {v : Option Str} {f : Option (Str → Bool)} {x : Err} (h : TM.checkToken t ty v f = .error x) : x.isMau = false := by
  unfold TM.checkToken at h
  split at h
  · cases h; rfl
  · split at h
    · cases h; rfl
    · split at h
      · cases h; rfl
      · cases h

theorem peek (ty : Option TokenType) (v : Option Str) (f : Option (Str → Bool)) : Mauless fun tm => TM.peek tm ty v f := by
  intro tm x h
  dsimp only at h
  unfold TM.peek at h
  split at h
  · exact check h
  · split at h
    · cases h; rfl
    · exact check h

theorem get (ty : Option TokenType) (v : Option Str) (f : Option (Str → Bool)) : Mauless fun tm => TM.get tm ty v f := by
  intro tm x h
  dsimp only at h
  unfold TM.get at h
  split at h
  · rename_i hp; cases h; exact peek ty v f tm _ hp
  · dsimp only at h
    split at h
    · rename_i hc
      cases h
      unfold TM.currentToken at hc
      split at hc
      · cases hc; rfl
      · split at hc <;> cases hc
    · cases h

theorem peekIs (ty : TokenType) (v : Option Str) (f : Option (Str → Bool)) : Mauless fun tm => TM.peekIs tm ty v f := by
  intro tm x h
  dsimp only at h
  unfold TM.peekIs at h
  split at h
  · cases h
  · cases h
  · rename_i hp; cases h; exact peek _ v f tm _ hp

theorem test {ty : TokenType} {v : Option Str} {f : Option (Str → Bool)} {g1 g2 : TM → Except Err α} (h1 : Mauless g1) (h2 : Mauless g2) :
    Mauless (fun tm => do if ← TM.peekIs tm ty v f then g1 tm else g2 tm) := by
  refine .bind (f := fun tm => TM.peekIs tm ty v f) (peekIs _ _ _) fun b => ?_
  cases b with
  | true => simpa using h1
  | false => simpa using h2

theorem collectLoop (stops : List Token) (preserve : Bool) : ∀ (n : Nat) (tm : TM) (acc : List Token) (x : Err), TM.collectLoop stops preserve n tm acc = .error x → x.isMau = false := by
  intro n
  induction n with
  | zero => intro tm acc x h; cases h; rfl
  | succ n ih =>
    intro tm acc x h
    unfold TM.collectLoop at h
    simp only [Bind.bind, Except.bind] at h
    split at h
    · rename_i hp; cases h; exact peek _ _ _ _ _ hp
    · split at h
      · cases h
      · split at h
        · split at h
          · rename_i hp; cases h; exact get _ _ _ _ _ hp
          · split at h
            · rename_i hp; cases h; exact peek _ _ _ _ _ hp
            · split at h
              · rename_i hp; cases h; exact get _ _ _ _ _ hp
              · exact ih _ _ _ h
        · split at h
          · rename_i hp; cases h; exact get _ _ _ _ _ hp
          · exact ih _ _ _ h

theorem collectJoin (stops : List Token) (j : Str) (preserve : Bool) : Mauless fun tm => TM.collectJoin tm stops j preserve := by
  intro tm x h
  dsimp only at h
  unfold TM.collectJoin TM.collect at h
  simp only [Bind.bind, Except.bind] at h
  split at h
  · rename_i hp; cases h; exact collectLoop _ _ _ _ _ _ hp
  · split at h <;> cases h

theorem optToken (ty : TokenType) (v : Option Str) : Mauless fun tm => Mau.optToken ty v tm := by
  intro tm x h
  dsimp only at h
  unfold Mau.optToken at h
  split at h
  · cases h
  · cases h
  · rename_i hg; cases h; exact get _ _ _ _ _ hg

theorem opt {ty : TokenType} {v : Option Str} {g : TM → Except Err α} (h : Mauless g) : Mauless (fun tm => do let tm ← Mau.optToken ty v tm; g tm) := by
  intro tm x hx
  cases ho : Mau.optToken ty v tm with
  | error e => simp only [ho, Bind.bind, Except.bind] at hx; cases hx; exact optToken ty v tm _ ho
  | ok tm1 => simp only [ho, Bind.bind, Except.bind] at hx; exact h tm1 x hx

theorem argValue : Mauless Mau.argValue := by
  unfold Mau.argValue
  refine .test ?_ (collectJoin _ _ _)
  exact .bind' (get _ _ _) fun _ => .bind' (collectJoin _ _ _) fun _ => .bind' (get _ _ _) fun _ => .ok

theorem namedArgument : Mauless Mau.namedArgument := by
  unfold Mau.namedArgument
  exact .bind' (get _ _ _) fun _ => .bind' (get _ _ _) fun _ => .bind' (f := Mau.argValue) argValue fun _ => .opt (.opt .ok)

theorem unnamedArgument : Mauless (Mau.unnamedArgument false) := by
  unfold Mau.unnamedArgument
  exact .bind' (f := Mau.argValue) argValue fun _ => .opt (.opt .ok)

theorem macroArgPiece : Mauless Mau.macroArgPiece := by
  unfold Mau.macroArgPiece
  refine .test ?_ (collectJoin _ _ _)
  exact .bind' (get _ _ _) fun _ => .bind' (collectJoin _ _ _) fun _ => .bind' (get _ _ _) fun _ => .ok

theorem macroArgsLoop : ∀ (n : Nat) (tm : TM) (acc : List Token) (x : Err), Mau.macroArgsLoop n tm acc = .error x → x.isMau = false := by
  intro n
  induction n with
  | zero => intro tm acc x h; cases h; rfl
  | succ n ih =>
    intro tm acc x h
    unfold Mau.macroArgsLoop at h
    simp only [Bind.bind, Except.bind] at h
    split at h
    · rename_i hp; cases h; exact peekIs _ _ _ _ _ hp
    · split at h
      · cases h
      · split at h
        · rename_i hp; cases h; exact peekIs _ _ _ _ _ hp
        · split at h
          · cases h
          · split at h
            · rename_i hp; cases h; exact macroArgPiece _ _ hp
            · exact ih _ _ _ h

theorem collectMacroArgs : Mauless Mau.collectMacroArgs := by
  intro tm x h
  unfold Mau.collectMacroArgs at h
  simp only [Bind.bind, Except.bind] at h
  split at h
  · rename_i hp; cases h; exact macroArgsLoop _ _ _ _ hp
  · cases h

end Mauless

/-- Errors of a function of the tokens manager. -/
def TFails {α : Type} (E : Err → Prop) (toks : List Token) (f : TM → Except Err α) : Prop := ∀ tm x, tm.tokens = toks → f tm = .error x → E x

section
variable {src : Option Str} {sl : Nat} {toks init : List Token} {e : Token}

/-- The token at which the loop of a parser is, not at the end. -/
theorem loop_token (H : TextToksAt true src sl toks init e) {tm : TM} (ht : tm.tokens = toks) (h : tm.peekIs .EOF = .ok false) {t : Token} (hp : tm.peek = .ok t) : t ∈ init := by
  rcases (peek_cases (toks := toks) (ht.trans H.toks) hp).1 with h1 | h1
  · exact h1.2
  · exfalso
    have := peekIs_false h hp
    rw [h1.2] at this
    simp [TM.checkToken, H.eof.1] at this

theorem parseLoop_fails {α : Type} {E : Err → Prop} {fs : List α → List (TokFn α)} (H : TextToksAt true src sl toks init e) (ho : ∀ x, x.isMau = false → E x)
    (ht : ∀ m, ∀ t ∈ init, E (.parser m (some t.ctx))) (hf : ∀ acc, ∀ f ∈ fs acc, TFails E toks f) (hg : ∀ acc, ∀ f ∈ fs acc, TGives toks f fun _ => True) :
    ∀ (n : Nat) (last : Token) (tm : TM) (acc : List α) (x : Err), tm.tokens = toks → parseLoop fs n last tm acc = .error x → E x := by
  have htry : ∀ (nx : Token), nx ∈ init → ∀ (l : List (TokFn α)), (∀ f ∈ l, TFails E toks f) → ∀ (tm : TM) (x : Err), tm.tokens = toks → tryFns nx l tm = .error x → E x := by
    intro nx hnx l
    induction l with
    | nil => intro _ tm x _ h; cases h; exact ht _ nx hnx
    | cons f l ih =>
      intro hl tm x htm h
      unfold tryFns at h
      split at h
      · cases h
      · exact ih (fun g hg => hl g (by simp [hg])) tm x htm h
      · rename_i hr; cases h; exact hl f (by simp) tm _ htm hr
  intro n
  induction n with
  | zero => intro last tm acc x _ h; cases h; exact ho _ rfl
  | succ n ih =>
    intro last tm acc x htm h
    unfold parseLoop at h
    simp only [Bind.bind, Except.bind] at h
    split at h
    · rename_i hp; cases h; exact ho _ (Mauless.peekIs _ _ _ _ _ hp)
    · rename_i b hb
      split at h
      · cases h
      · rename_i hbf
        have hb' : tm.peekIs .EOF = .ok false := by rw [hb]; cases b <;> simp_all
        split at h
        · rename_i hp; cases h; exact ho _ (Mauless.peek _ _ _ _ _ hp)
        · rename_i t hp
          have hmem := loop_token H htm hb' hp
          split at h
          · cases h; exact ht _ t hmem
          · split at h
            · rename_i hr; cases h; exact htry t hmem _ (hf acc) tm _ htm hr
            · rename_i r hr
              obtain ⟨a, tm'⟩ := r
              exact ih _ _ _ _ (TGives.tryFns (hg acc) tm a tm' htm hr).1 h

/-! ## Variables -/

theorem lexPre_places {text : Str} (hn : '\n' ∉ text) (sl sc : Nat) (src : Option Str) {toks : List Token}
    (h : lexPre (TextBuffer.ofText text sl sc src) = .ok toks) : ∃ init e, TextToksAt true src sl toks init e := by
  rw [lexPre_eq] at h
  injection h with h
  obtain ⟨init, e, h1⟩ := cut_toksAt (exact := true) preCuts (fun _ => hn) sl sc src fun t ht hne _ => by
    refine inlineTokens_values preCut src (Spec.lines text) ?_ sl sc t ht
    intro l hl
    unfold Spec.lines at hl
    split at hl
    · cases hl
    · exact sep_not_mem_of_mem_split hl
  rw [h] at h1
  exact ⟨init, e, h1⟩

theorem preCurly_fails (H : TextToksAt true src sl toks init e) (env : Env) : TFails (ErrOn src sl) toks (preCurly env) := by
  intro tm x ht h
  unfold preCurly at h
  simp only [Bind.bind, Except.bind] at h
  split at h
  · rename_i hp; cases h; exact .other (Mauless.get _ _ _ _ _ hp)
  · rename_i r1 hr1
    obtain ⟨o, tm1⟩ := r1
    obtain ⟨ht1, ho⟩ := gives_typed H (by simp) _ _ tm o tm1 ht hr1
    split at h
    · rename_i hp; cases h; exact .other (Mauless.collectJoin _ _ _ _ _ hp)
    · rename_i r2 hr2
      obtain ⟨name, tm2⟩ := r2
      obtain ⟨ht2, hname⟩ := gives_collectJoin H _ _ tm1 name tm2 ht1 hr2
      split at h
      · rename_i hp; cases h; exact .other (Mauless.get _ _ _ _ _ hp)
      · rename_i r3 hr3
        obtain ⟨c, tm3⟩ := r3
        obtain ⟨ht3, hc⟩ := gives_typed H (by simp) _ _ tm2 c tm3 ht2 hr3
        split at h
        · rename_i hst
          split at h
          · rename_i hp; cases h; exact .other (Mauless.peekIs _ _ _ _ _ hp)
          · split at h
            · cases h
              refine .parser (hname.2.resolve_right fun hv => ?_)
              rw [hv] at hst
              simp [startsWith] at hst
            · split at h
              · rename_i hp; cases h; exact .other (Mauless.get _ _ _ _ _ hp)
              · cases h
        · split at h
          · cases h
            exact .parser ((H.on o ho).1.merge (H.on c hc).1.from)
          · cases h

theorem preprocessNodes_fails {text : Str} (hn : '\n' ∉ text) {env : Env} {sc : Nat} {x : Err} (h : preprocessNodes env text sl sc src = .error x) : ErrOn src sl x := by
  unfold preprocessNodes at h
  cases hl : lexPre (TextBuffer.ofText text sl sc src) with
  | error y => rw [lexPre_eq] at hl; cases hl
  | ok ts =>
    simp only [hl, Bind.bind, Except.bind] at h
    obtain ⟨init, e, H⟩ := lexPre_places hn sl sc src hl
    have hm : ∀ {f : TokFn CtxText}, Mauless f → TFails (ErrOn src sl) ts f := fun hf tm x _ h => .other (hf tm x h)
    refine parseLoop_fails (fs := fun _ => preFns env) H (fun _ => .other) (fun m t ht => .parser (H.on t ht).1) ?_ ?_ _ _ { tokens := ts } [] x rfl h
    · intro acc f hf
      simp only [preFns, List.mem_cons, List.not_mem_nil, or_false] at hf
      rcases hf with rfl | rfl | rfl | rfl
      · apply hm
        unfold preEscapedChar
        exact .bind' (Mauless.get _ _ _) fun _ => .bind' (Mauless.get _ _ _) fun _ => .ok
      · apply hm
        unfold preVerbatim
        exact .bind' (Mauless.get _ _ _) fun _ => .bind' (Mauless.collectJoin _ _ _) fun _ => .bind' (Mauless.get _ _ _) fun _ => .ok
      · exact preCurly_fails H env
      · apply hm
        unfold prePass
        exact .bind' (Mauless.get _ _ _) fun _ => .ok
    · intro acc f hf
      simp only [preFns, List.mem_cons, List.not_mem_nil, or_false] at hf
      rcases hf with rfl | rfl | rfl | rfl
      · unfold preEscapedChar
        exact .bind (gives_get H _ _ _) fun _ _ => .bind (gives_get H _ _ _) fun _ _ => .pure trivial
      · unfold preVerbatim
        exact .bind (gives_get H _ _ _) fun _ _ => .bind (gives_collectJoin H _ _) fun _ _ => .bind (gives_get H _ _ _) fun _ _ => .pure trivial
      · intro tm a tm' ht h
        refine ⟨?_, trivial⟩
        unfold preCurly at h
        simp only [Bind.bind, Except.bind] at h
        split at h
        · cases h
        · rename_i r1 hr1
          obtain ⟨o, tm1⟩ := r1
          have ht1 := (gives_get H _ _ _ tm o tm1 ht hr1).1
          split at h
          · cases h
          · rename_i r2 hr2
            obtain ⟨name, tm2⟩ := r2
            have ht2 := (gives_collectJoin H _ _ tm1 name tm2 ht1 hr2).1
            split at h
            · cases h
            · rename_i r3 hr3
              obtain ⟨c, tm3⟩ := r3
              have ht3 := (gives_get H _ _ _ tm2 c tm3 ht2 hr3).1
              split at h
              · split at h
                · cases h
                · split at h
                  · cases h
                  · split at h
                    · cases h
                    · rename_i r4 hr4
                      obtain ⟨c2, tm4⟩ := r4
                      cases h
                      exact (gives_get H _ _ _ tm3 c2 _ ht3 hr4).1
              · split at h
                · cases h
                · cases h; exact ht3
      · unfold prePass
        exact .bind (gives_get H _ _ _) fun _ _ => .pure trivial

theorem preprocess_fails {text : Str} (hn : '\n' ∉ text) {env : Env} {sc : Nat} {x : Err} (h : preprocess env text sl sc src = .error x) : ErrOn src sl x := by
  unfold preprocess at h
  cases hp : preprocessNodes env text sl sc src with
  | error y => simp only [hp, Bind.bind, Except.bind] at h; cases h; exact preprocessNodes_fails hn hp
  | ok ns => simp only [hp, Bind.bind, Except.bind] at h; cases h

/-! ## Arguments -/

/-- The error will be on the line once the arguments parser has placed it. -/
def Lax (src : Option Str) (sl : Nat) (x : Err) : Prop := ∀ c, OnL true src sl c → ErrOn src sl (x.locate c)

theorem Lax.other {x : Err} (h : x.isMau = false) : Lax src sl x := fun c _ => .other (by rw [Err.locate_isMau]; exact h)

theorem Lax.bare (m : Msg) : Lax src sl (.parser m none) := fun _ h => .parser h

theorem Lax.at {m : Msg} {c : Context} (h : OnL true src sl c) : Lax src sl (.parser m (some c)) := fun _ _ => .parser h

theorem nestInsert_mauless (path : List Str) (v : Val) : Mauless (nestInsert path v) := by
  induction path with
  | nil => intro out x h; cases h
  | cons k ks ih =>
    cases ks with
    | nil => intro out x h; cases h
    | cons k2 ks =>
      intro out x h
      unfold nestInsert at h
      split at h
      · cases h; split <;> rfl
      · split at h
        · rename_i he; cases h; exact ih _ _ he
        · cases h

theorem nestFlat_mauless (d : Dict Val) : Mauless (nestFlat d) := by
  induction d with
  | nil => intro out x h; cases h
  | cons kv d ih =>
    intro out x h
    unfold nestFlat at h
    split at h
    · rename_i he; cases h; exact nestInsert_mauless _ _ _ _ he
    · exact ih _ _ h

theorem asdict_mauless : Mauless Env.asdict := fun e x h => nestFlat_mauless e [] x h

theorem aliasArgs_mauless : Mauless aliasArgs := by
  intro l
  induction l with
  | nil => intro x h; cases h
  | cons y ys ih =>
    obtain ⟨k, v⟩ := y
    intro x h
    cases v with
    | dict d => cases h; rfl
    | leaf v =>
      cases v with
      | str s =>
        unfold aliasArgs at h
        simp only [Bind.bind, Except.bind] at h
        split at h
        · rename_i he; cases h; exact ih _ he
        · cases h
      | _ => cases h; rfl

/-- The errors of a computation. -/
def LaxIn {α : Type} (src : Option Str) (sl : Nat) (r : Except Err α) : Prop := ∀ x, r = .error x → Lax src sl x

theorem LaxIn.bind {α β : Type} {f : Except Err α} {g : α → Except Err β} (hf : LaxIn src sl f) (hg : ∀ a, LaxIn src sl (g a)) : LaxIn src sl (f >>= g) := by
  intro x hx
  cases f with
  | error y => cases hx; exact hf _ rfl
  | ok a => exact hg a x hx

theorem LaxIn.ok {α : Type} {a : α} : LaxIn src sl (Pure.pure a : Except Err α) := fun _ h => nomatch h

theorem LaxIn.raise {α : Type} {x : Err} (h : Lax src sl x) : LaxIn src sl (throw x : Except Err α) := fun _ e => by cases e; exact h

theorem lookupAlias_lax {env : Env} {name : Str} : LaxIn src sl (lookupAlias env name) := by
  unfold lookupAlias
  dsimp only
  repeat' first
    | exact LaxIn.ok
    | exact LaxIn.raise (.bare _)
    | exact LaxIn.raise (.other rfl)
    | exact fun _ h => .other (asdict_mauless _ _ h)
    | exact fun _ h => .other (aliasArgs_mauless _ _ h)
    | split
    | refine LaxIn.bind ?_ fun _ => ?_

theorem parseArgTokens_lax (H : TextToksAt true src sl toks init e) {env : Env} {x : Err} (h : parseArgTokens env toks = .error x) : Lax src sl x := by
  unfold parseArgTokens at h
  cases h2 : parseLoop argFns (toks.length + 2) initialLast { tokens := toks } [] with
  | error y =>
    simp only [h2, Bind.bind, Except.bind] at h
    cases h
    refine parseLoop_fails (E := Lax src sl) (fs := argFns) H (fun _ => .other) (fun m t ht => .at (H.on t ht).1) ?_ ?_ _ _ { tokens := toks } [] _ rfl h2
    · intro acc f hf
      simp only [argFns, List.mem_cons, List.not_mem_nil, or_false] at hf
      rcases hf with rfl | rfl
      · exact fun tm x _ h => .other (Mauless.namedArgument tm x h)
      · intro tm x _ h
        generalize acc.any (·.isNamed) = on at h
        cases on with
        | false => exact .other (Mauless.unnamedArgument tm x h)
        | true => cases h; exact .bare _
    · intro acc f hf
      simp only [argFns, List.mem_cons, List.not_mem_nil, or_false] at hf
      rcases hf with rfl | rfl
      · exact (gives_named H).mono fun _ _ => trivial
      · exact (gives_unnamed H _).mono fun _ _ => trivial
  | ok items =>
    simp only [h2, Bind.bind, Except.bind] at h
    unfold isolateTagsAndSubtype at h
    cases h3 : isolate (unnamedOf items) (namedOf items) with
    | error y =>
      simp only [h3, Bind.bind, Except.bind] at h
      cases h
      unfold isolate at h3
      dsimp only at h3
      split at h3
      · cases h3; exact .bare _
      · split at h3
        · cases h3; exact .bare _
        · cases h3
    | ok q =>
      simp only [h3, Bind.bind, Except.bind] at h
      split at h
      · cases h
      · rename_i al _
        cases h6 : lookupAlias env al.value with
        | error y => rw [h6] at h; cases h; exact lookupAlias_lax _ h6
        | ok a => simp only [h6] at h; cases h

theorem parseArgTokens_eof {env : Env} (he : e.type = .EOF) : ∃ p, parseArgTokens env [e] = .ok p := by
  unfold parseArgTokens
  have : parseLoop argFns ([e].length + 2) initialLast { tokens := [e] } [] = .ok [] := by
    unfold parseLoop
    simp [TM.peekIs, TM.peek, TM.checkToken, he, Bind.bind, Except.bind, Pure.pure, Except.pure]
  rw [this]
  exact ⟨_, rfl⟩

theorem parseArgs_fails {text : Str} (hn : '\n' ∉ text) {env : Env} {sc : Nat} {x : Err} (h : parseArgs env text sl sc src = .error x) : ErrOn src sl x := by
  unfold parseArgs at h
  cases h1 : lexArgs (TextBuffer.ofText text sl sc src) with
  | error y => rw [lexArgs_eq] at h1; cases h1
  | ok ts =>
    simp only [h1, Bind.bind, Except.bind] at h
    obtain ⟨init, e, H⟩ := lexArgs_places (exact := true) (fun _ => hn) sl sc src h1
    cases h2 : parseArgTokens env ts with
    | ok p =>
      rw [h2] at h
      simp [locateArgs] at h
    | error y =>
      have hlax := parseArgTokens_lax H h2
      cases hi : init with
      | nil =>
        obtain ⟨p, hp⟩ := parseArgTokens_eof (env := env) H.eof.1
        have := H.toks
        rw [hi, List.nil_append] at this
        rw [this, hp] at h2; cases h2
      | cons t init' =>
        have hh : ts.head? = some t := by rw [H.toks, hi]; rfl
        rw [h2] at h
        unfold locateArgs at h
        simp only [hh] at h
        cases h
        exact hlax _ (H.on t (by rw [hi]; simp)).1

/-- Errors in arguments. -/
theorem processArguments_fails {env : Env} {t : Token} (hf : Fit true src sl t.value t.ctx) {x : Err} (h : processArguments env t = .error x) : ErrOn src sl x := by
  unfold processArguments at h
  rcases hf.2 with hq | hempty
  · obtain ⟨q1, q2, _⟩ := hq rfl
    rw [q1, q2] at h
    exact parseArgs_fails (hf.1 rfl) h
  · exfalso
    unfold parseArgs at h
    rw [lexArgs_eq, hempty] at h
    simp only [Spec.lines, if_true, inlineTokens, Bind.bind, Except.bind] at h
    obtain ⟨p, hp⟩ := parseArgTokens_eof (env := env) (e := tokAt .EOF [] t.ctx.startLine t.ctx.startColumn t.ctx.source) rfl
    rw [hp] at h
    simp [locateArgs] at h

/-- The text put together by the preprocessor is on one line. -/
theorem preprocess_oneLine {env : Env} (hv : Undisturbed env) {text : Str} (hn : '\n' ∉ text) {sc : Nat} {t : Token} (h : preprocess env text sl sc src = .ok t) : '\n' ∉ t.value := by
  intro hc
  rcases (preprocess_bounds env text sl sc src).2 t h '\n' hc with h | ⟨kv, hm, hk⟩
  · exact hn h
  · exact hv.values kv.1 kv.2 hm hk

theorem processArgumentsWithVariables_fails {env : Env} (hv : Undisturbed env) {t : Token} (hn : '\n' ∉ t.value) (hc : OnL true src sl t.ctx) {x : Err}
    (h : processArgumentsWithVariables env t = .error x) : ErrOn src sl x := by
  obtain ⟨q1, q2, _⟩ := hc rfl
  unfold processArgumentsWithVariables at h
  rw [q1, q2] at h
  cases hp : preprocess env t.value sl t.ctx.startColumn src with
  | error y => simp only [hp, Bind.bind, Except.bind] at h; cases h; exact preprocess_fails hn hp
  | ok u =>
    simp only [hp, Bind.bind, Except.bind] at h
    exact parseArgs_fails (preprocess_oneLine hv hn hp) h

/-! ## Conditions -/

theorem parseCondition_fails {text : Str} (hn : '\n' ∉ text) {sc : Nat} {x : Err} (h : parseCondition text sl sc src = .error x) : ErrOn src sl x := by
  by_cases hc : ∃ var neg value, ConditionText text var neg value
  · obtain ⟨var, neg, value, hc⟩ := hc
    obtain ⟨ctx, hp⟩ := C27_reads hc hn sl sc src
    rw [hp] at h; cases h
  · by_cases hb : isBlank text = true
    · rw [parseCondition_blank hb hn] at h
      by_cases ht : text = []
      · rw [if_pos ht] at h; cases h
      · rw [if_neg ht] at h; cases h
        exact .parser fun _ => ⟨rfl, rfl, Nat.le_refl _⟩
    · rw [C27_malformed hc hn (by simpa using hb)] at h
      cases h
      exact .lexer _ _

theorem processConditionWithVariables_fails {env : Env} (hv : Undisturbed env) {t : Token} (hn : '\n' ∉ t.value) (hc : OnL true src sl t.ctx) {x : Err}
    (h : processConditionWithVariables env t = .error x) : ErrOn src sl x := by
  obtain ⟨q1, q2, _⟩ := hc rfl
  unfold processConditionWithVariables at h
  rw [q1, q2] at h
  cases hp : preprocess env t.value sl t.ctx.startColumn src with
  | error y => simp only [hp, Bind.bind, Except.bind] at h; cases h; exact preprocess_fails hn hp
  | ok u =>
    simp only [hp, Bind.bind, Except.bind] at h
    exact parseCondition_fails (preprocess_oneLine hv hn hp) h

theorem mkControl_fails {op var cmp value : Str} {ctx : Context} (hc : OnL true src sl ctx) {x : Err} (h : mkControl op var cmp value ctx = .error x) : ErrOn src sl x := by
  unfold mkControl at h
  split at h
  · cases h; exact .parser hc
  · split at h
    · cases h
    · split at h
      · cases h
      · cases h; exact .other rfl

theorem mkControl_ctx {op var cmp value : Str} {ctx : Context} {c : Control} (h : mkControl op var cmp value ctx = .ok c) : c.ctx = ctx := by
  unfold mkControl at h
  split at h
  · cases h
  · split at h
    · cases h; rfl
    · split at h
      · cases h; rfl
      · cases h

theorem process_fails {env : Env} {c : Control} {x : Err} (h : c.process env = .error x) : x = .parser (.undefinedVariable c.var) (some c.ctx) := by
  unfold Control.process at h
  split at h
  · cases h; rfl
  · cases h

theorem controlCase_fails {env : Env} {name : Token} {p : ParsedArgs} {cx : Context} (hname : OnL true src sl name.ctx) (hcx : OnL true src sl cx) {x : Err}
    (h : controlCase env name p cx = .error x) : ErrOn src sl x := by
  unfold controlCase at h
  dsimp only at h
  split at h
  · rename_i op cond _
    simp only [Bind.bind, Except.bind] at h
    split at h
    · cases h; exact .parser hcx
    generalize hpc : parseCondition cond name.ctx.startLine (name.ctx.startColumn + 4) name.ctx.source = o at h
    cases o with
    | error y =>
      dsimp only at h
      split at h
      · cases h
        exact .parser fun hx => hname hx
      · rename_i hm
        cases h
        exact .other (by simpa using hm)
    | ok o =>
    cases o with
    | none => cases h; exact .other rfl
    | some cnd =>
      simp only [Pure.pure, Except.pure] at h
      cases hmk : mkControl c%"if" cnd.var cnd.comparison cnd.value name.ctx with
      | error y => rw [hmk] at h; cases h; exact mkControl_fails hname hmk
      | ok control =>
        simp only [hmk] at h
        cases h3 : Dict.get? (p.setNames [c%"true_case", c%"false_case"]).named c%"true_case" with
        | none => simp only [h3] at h; cases h; exact .parser hcx
        | some tc =>
          simp only [h3] at h
          cases hpr : control.process env with
          | error y =>
            rw [hpr] at h
            cases h
            rw [process_fails hpr, mkControl_ctx hmk]
            exact .parser hname
          | ok test =>
            simp only [hpr] at h
            generalize (if test = true then some tc else Dict.get? (p.setNames [c%"true_case", c%"false_case"]).named c%"false_case") = res at h
            split at h
            · cases res with
              | none => cases h; exact .parser hcx
              | some r =>
                dsimp only at h
                cases hg : Env.get env r.value with
                | default => rw [hg] at h; cases h; exact .parser hcx
                | «namespace» e => rw [hg] at h; cases h; exact .other rfl
                | value w => cases w <;> simp only [hg] at h <;> cases h <;> exact .other rfl
            · cases h
  · cases h; exact .parser hcx

/-! ## The text parser -/

/-- The mentions met so far are on the line. -/
structure Noted (src : Option Str) (sl : Nat) (s : TextSt) : Prop where
  on : ∀ p ∈ s.places, OnL true src sl p.2
  notes : ∀ q ∈ s.footnoteMacros ++ s.headerLinks, ∃ c, (q.1, c) ∈ s.places

/-- Outcomes of a function of the text parser. -/
def PWell {α : Type} (src : Option Str) (sl : Nat) (f : PM α) : Prop := ∀ s, Noted src sl s →
  match f s with
  | .ok _ s' => Noted src sl s'
  | .fail s' => Noted src sl s'
  | .err x => ErrOn src sl x

namespace PWell
variable {α β : Type}

theorem pure (a : α) : PWell src sl (Pure.pure a : PM α) := fun _ h => h

theorem bind {f : PM α} {g : α → PM β} {P : α → Prop} (hf : PWell src sl f) (hp : PGives f P) (hg : ∀ a, P a → PWell src sl (g a)) : PWell src sl (f >>= g) := by
  intro s hs
  change match PM.bind f g s with | .ok _ s' => Noted src sl s' | .fail s' => Noted src sl s' | .err x => ErrOn src sl x
  have := hf s hs
  unfold PM.bind
  cases h : f s with
  | ok a s1 => rw [h] at this; exact hg a (hp s a s1 h) s1 this
  | fail s1 => rw [h] at this; exact this
  | err e => rw [h] at this; exact this

theorem then_ {f : PM α} {g : α → PM β} (hf : PWell src sl f) (hg : ∀ a, PWell src sl (g a)) : PWell src sl (f >>= g) :=
  bind hf (P := fun _ => True) (fun _ _ _ _ => trivial) fun a _ => hg a

theorem raise {x : Err} (h : ErrOn src sl x) : PWell src sl (PM.raise x : PM α) := by
  intro s hs
  cases x with
  | token => exact hs
  | _ => exact h

theorem ite {c : Prop} [Decidable c] {f g : PM α} (hf : PWell src sl f) (hg : PWell src sl g) : PWell src sl (if c then f else g) := by
  split
  · exact hf
  · exact hg

theorem tm {f : TokFn α} (h : Mauless f) : PWell src sl (PM.tm toks f) := by
  intro s hs
  unfold PM.tm
  cases hf : f ⟨toks, s.next⟩ with
  | ok r => exact ⟨hs.on, hs.notes⟩
  | error x =>
    have := h _ _ hf
    cases x with
    | token => exact hs
    | _ => exact .other this

theorem lift {x : Except Err α} (h : ∀ e, x = .error e → ErrOn src sl e) : PWell src sl (PM.lift x) := by
  intro s hs
  unfold PM.lift
  cases x with
  | ok a => exact hs
  | error e =>
    have := h _ rfl
    cases e with
    | token => exact hs
    | _ => exact this

theorem orElse {f g : PM α} (hf : PWell src sl f) (hg : PWell src sl g) : PWell src sl (PM.orElse f g) := by
  intro s hs
  have := hf s hs
  unfold PM.orElse
  cases h : f s with
  | ok a s1 => rw [h] at this; exact this
  | fail s1 => rw [h] at this; exact hg _ ⟨this.on, this.notes⟩
  | err e => rw [h] at this; exact this

theorem fresh : PWell src sl PM.fresh := fun _ hs => ⟨hs.on, hs.notes⟩

theorem mandatory {p : ParsedArgs} (key : Str) (m : Msg) {cx : Context} (h : OnL true src sl cx) : PWell src sl (Mau.mandatory p key m cx) := by
  unfold Mau.mandatory
  cases Dict.get? p.named key with
  | some n => exact pure _
  | none => exact raise (.parser h)

theorem textOr {sub : Str → Context → PM (List Node)} (hs : ∀ v c, Fit true src sl v c → PWell src sl (sub v c)) {p : ParsedArgs}
    (hp : FitArgs true src sl p) (key : Str) {d : List Node} : PWell src sl (Mau.textOr sub (Dict.get? p.named key) d) := by
  unfold Mau.textOr
  cases h : Dict.get? p.named key with
  | none => exact pure _
  | some t => exact hs _ _ (hp.named _ (Dict.mem_of_get? h))

end PWell

section macros
variable {sub : Str → Context → PM (List Node)} (hs : ∀ v c, Fit true src sl v c → PWell src sl (sub v c))
  {p : ParsedArgs} (hp : FitArgs true src sl p) {ctx : Context} (hctx : OnL true src sl ctx)
include hs hp hctx

theorem dispatch_well {env : Env} (hv : Undisturbed env) {name : Token} (hname : OnL true src sl name.ctx) : PWell src sl (macroDispatch env sub name p ctx) := by
  unfold macroDispatch
  refine .ite ?_ (.ite ?_ (.ite ?_ (.ite ?_ (.ite ?_ (.ite ?_ (.ite ?_ (.ite ?_ (.ite ?_ (.pure _)))))))))
  · unfold macroControlFn
    refine .bind (P := fun o => ∀ v c, o = some (v, c) → Fit true src sl v c) (.lift fun _ => controlCase_fails hname hctx) (.lift fun o ho v c h => ?_) fun o ho => ?_
    · subst h; exact controlCase_fit (fun _ => hv) hp ho
    · cases o with
      | none => exact .pure _
      | some vc => exact hs _ _ (ho _ _ rfl)
  · unfold macroLinkFn
    exact .then_ (.mandatory _ _ hctx) fun t => .then_ (.textOr hs (fit_setNames hp _) _) fun ns => .pure _
  · unfold macroHeaderFn
    refine .then_ (.mandatory _ _ hctx) fun t => .then_ .fresh fun i => .then_ (.textOr hs (fit_setNames hp _) _) fun ns => ?_
    intro s h
    refine ⟨fun q hq => ?_, fun q hq => ?_⟩
    · rcases List.mem_append.1 hq with hq | hq
      · exact h.on q hq
      · rw [List.mem_singleton] at hq; subst hq; exact hctx
    · simp only [List.mem_append, List.mem_singleton] at hq ⊢
      rcases hq with hq | hq | rfl
      · obtain ⟨c, hc⟩ := h.notes q (by simp [hq]); exact ⟨c, .inl hc⟩
      · obtain ⟨c, hc⟩ := h.notes q (by simp [hq]); exact ⟨c, .inl hc⟩
      · exact ⟨ctx, .inr rfl⟩
  · unfold macroMailtoFn
    exact .then_ (.mandatory _ _ hctx) fun t => .then_ (.textOr hs (fit_setNames hp _) _) fun ns => .pure _
  · unfold macroImageFn
    exact .then_ (.mandatory _ _ hctx) fun t => .pure _
  · unfold macroFootnoteFn
    refine .then_ (.mandatory _ _ hctx) fun t => .then_ .fresh fun i => ?_
    intro s h
    refine ⟨fun q hq => ?_, fun q hq => ?_⟩
    · rcases List.mem_append.1 hq with hq | hq
      · exact h.on q hq
      · rw [List.mem_singleton] at hq; subst hq; exact hctx
    · simp only [List.mem_append, List.mem_singleton] at hq ⊢
      rcases hq with (hq | rfl) | hq
      · obtain ⟨c, hc⟩ := h.notes q (by simp [hq]); exact ⟨c, .inl hc⟩
      · exact ⟨ctx, .inr rfl⟩
      · obtain ⟨c, hc⟩ := h.notes q (by simp [hq]); exact ⟨c, .inl hc⟩
  · unfold macroClassFn
    exact .bind (P := fun n => Fit true src sl n.value n.ctx) (.mandatory _ _ hctx) (.mandatory (fit_setNames hp _) _ _ _) fun t ht => .then_ (hs _ _ ht) fun ns => .pure _
  · unfold macroUnicodeFn
    exact .then_ (.mandatory _ _ hctx) fun t => .pure _
  · unfold macroRawFn
    exact .then_ (.mandatory _ _ hctx) fun t => .pure _

end macros

theorem macroHead_well (H : TextToksOk true src sl toks init e) {env : Env} : PWell src sl (macroHead env toks) := by
  have H0 := H.toTextToksAt
  unfold macroHead
  refine .then_ (.tm (Mauless.get _ _ _)) fun o => ?_
  refine .then_ (.tm (Mauless.get _ _ _)) fun name => ?_
  refine .then_ (.tm (Mauless.get _ _ _)) fun _ => ?_
  refine .then_ (.tm (Mauless.get _ _ _)) fun _ => ?_
  refine .bind (.tm Mauless.collectMacroArgs) (.tm (collectMacroArgs_gives H)) fun args hargs => ?_
  refine .then_ (.tm (Mauless.get _ _ _)) fun c => ?_
  exact .then_ (.lift fun _ => processArguments_fails hargs) fun p => .pure _

theorem macroHead_name (H : TextToksOk true src sl toks init e) {env : Env} : PGives (macroHead env toks) fun r => OnL true src sl r.1.ctx := by
  have H0 := H.toTextToksAt
  unfold macroHead
  refine .bind (P := fun _ => True) (fun _ _ _ _ => trivial) fun o _ => ?_
  refine .bind (.tm (gives_typed H0 (by simp) _ _)) fun name hname => ?_
  refine .bind (P := fun _ => True) (fun _ _ _ _ => trivial) fun _ _ => ?_
  refine .bind (P := fun _ => True) (fun _ _ _ _ => trivial) fun _ _ => ?_
  refine .bind (P := fun _ => True) (fun _ _ _ _ => trivial) fun args _ => ?_
  refine .bind (P := fun _ => True) (fun _ _ _ _ => trivial) fun c _ => ?_
  refine .bind (P := fun _ => True) (fun _ _ _ _ => trivial) fun p _ => .pure ?_
  exact (H.on name hname).1

end

section
variable {src : Option Str} {sl : Nat}

theorem inline_well {env : Env} (hv : Undisturbed env) (n : Nat) :
    (∀ toks init e, TextToksOk true src sl toks init e → ∀ m, PWell src sl (sentenceLoop env toks n m)) ∧
    (∀ toks init e, TextToksOk true src sl toks init e → ∀ m, PWell src sl (parseItem env toks n m)) ∧
    (∀ toks init e, TextToksOk true src sl toks init e → PWell src sl (parseStyle env toks n)) ∧
    (∀ toks init e, TextToksOk true src sl toks init e → PWell src sl (parseMacro env toks n)) ∧
    (∀ v c, Fit true src sl v c → PWell src sl (parseStr env n v c)) ∧
    (∀ toks init e, TextToksOk true src sl toks init e → ∀ last s acc, Noted src sl s →
      match textMain env toks n last s acc with
      | .ok r => Noted src sl r.2
      | .error x => ErrOn src sl x) := by
  induction n with
  | zero =>
    refine ⟨fun _ _ _ _ _ => ?_, fun _ _ _ _ _ => ?_, fun _ _ _ _ => ?_, fun _ _ _ _ => ?_, fun _ _ _ => ?_, ?_⟩
    · unfold sentenceLoop; exact .raise (.other rfl)
    · unfold parseItem; exact .raise (.other rfl)
    · unfold parseStyle; exact .raise (.other rfl)
    · unfold parseMacro; exact .raise (.other rfl)
    · unfold parseStr; exact .raise (.other rfl)
    · intro toks init e _ last s acc _; unfold textMain; exact .other rfl
  | succ n ih =>
    obtain ⟨i1, i2, i3, i4, i5, i6⟩ := ih
    refine ⟨fun toks init e H m => ?_, fun toks init e H m => ?_, fun toks init e H => ?_, fun toks init e H => ?_, fun v c hf => ?_, ?_⟩
    · unfold sentenceLoop
      exact .then_ (i2 toks init e H m) fun ns => .ite (.pure _) (.then_ (i1 toks init e H m) fun r => .pure _)
    · unfold parseItem
      have hpeek : PWell src sl (PM.peek toks (·.peek)) := by
        intro s hs
        unfold PM.peek
        dsimp only
        cases hf : TM.peek ⟨toks, s.next⟩ with
        | ok r => exact hs
        | error x =>
          have := Mauless.peek none none none _ _ hf
          cases x with
          | token => exact hs
          | _ => exact .other this
      refine .then_ hpeek fun t => .ite (.pure _) (.orElse ?_ (.orElse (i4 toks init e H) (.orElse ?_ (.orElse ?_ (.orElse (i3 toks init e H) ?_)))))
      · unfold parseBackslash
        exact .then_ (.tm (Mauless.get _ _ _)) fun _ => .then_ (.tm (Mauless.get _ _ _)) fun _ => .pure _
      · unfold parseVerbatim
        exact .then_ (.tm (Mauless.get _ _ _)) fun _ => .then_ (.tm (Mauless.collectJoin _ _ _)) fun _ => .then_ (.tm (Mauless.get _ _ _)) fun _ => .pure _
      · unfold parseEscaped
        exact .then_ (.tm (Mauless.get _ _ _)) fun _ => .then_ (.tm (Mauless.collectJoin _ _ _)) fun _ => .then_ (.tm (Mauless.get _ _ _)) fun _ => .pure _
      · unfold parseWord
        exact .then_ (.tm (Mauless.get _ _ _)) fun _ => .pure _
    · unfold parseStyle
      exact .then_ (.tm (Mauless.get _ _ _)) fun o => .then_ (i1 toks init e H _) fun _ => .then_ (.tm (Mauless.get _ _ _)) fun _ => .pure _
    · unfold parseMacro
      refine .bind (P := fun r => (FitArgs true src sl r.2.1 ∧ OnL true src sl r.2.2) ∧ OnL true src sl r.1.ctx) (macroHead_well H) ?_ fun r hr => ?_
      · exact fun s a s' h => ⟨macroHead_gives H (fun _ => hv) s a s' h, macroHead_name H s a s' h⟩
      · obtain ⟨name, p, ctx⟩ := r
        exact dispatch_well i5 hr.1.1 hr.1.2 hv hr.2
    · intro s hs
      unfold parseStr
      cases hl : lexText (TextBuffer.ofText v c.startLine c.startColumn c.source) with
      | error x => rw [lexText_eq] at hl; cases hl
      | ok toks =>
        dsimp only
        have hn0 : Noted src sl { uid := s.uid } := ⟨fun _ h => (nomatch h), fun _ h => (nomatch h)⟩
        rcases hf.2 with hq | rfl
        · obtain ⟨init, e, H⟩ := lexText_places hf.1 _ _ _ hl
          rw [(hq rfl).1, (hq rfl).2.1] at H
          have := i6 toks init e H initialLast { uid := s.uid } [] hn0
          cases hm : textMain env toks n initialLast { uid := s.uid } [] with
          | error x => rw [hm] at this; exact this
          | ok r => exact ⟨hs.on, hs.notes⟩
        · rw [lexText_eq] at hl
          simp only [Spec.lines, if_true, inlineTokens] at hl
          injection hl with hl
          subst hl
          cases n with
          | zero => unfold textMain; exact .other rfl
          | succ n =>
            unfold textMain
            simp [TM.peekIs, TM.peek, TM.checkToken, tokAt]
            exact ⟨hs.on, hs.notes⟩
    · intro toks init e H last s acc hs
      unfold textMain
      cases hb : TM.peekIs ⟨toks, s.next⟩ .EOF with
      | error x => exact .other (Mauless.peekIs _ _ _ _ _ hb)
      | ok b =>
        cases b with
        | true => exact hs
        | false =>
          dsimp only
          cases hp : TM.peek ⟨toks, s.next⟩ with
          | error x => exact .other (Mauless.peek _ _ _ _ _ hp)
          | ok t =>
            dsimp only
            have hon := (H.on t (loop_token H.toTextToksAt (tm := ⟨toks, s.next⟩) rfl hb hp)).1
            by_cases hl : t = last
            · rw [if_pos hl]; exact .parser hon
            · rw [if_neg hl]
              have := i1 toks init e H none s hs
              cases hr : sentenceLoop env toks n none s with
              | ok ns s1 => rw [hr] at this; exact i6 toks init e H _ _ _ this
              | fail s1 => exact .parser hon
              | err x => rw [hr] at this; exact this

/-- Errors of a text are on its line. -/
theorem parseText_fails {env : Env} (hv : Undisturbed env) {text : Str} (hn : '\n' ∉ text) {fuel sc uid : Nat} {x : Err}
    (h : parseText fuel env text sl sc src uid = .error x) : ErrOn src sl x := by
  unfold parseText at h
  cases hl : lexText (TextBuffer.ofText text sl sc src) with
  | error y => rw [lexText_eq] at hl; cases hl
  | ok toks =>
    simp only [hl] at h
    obtain ⟨init, e, H⟩ := lexText_places (exact := true) (fun _ => hn) _ _ _ hl
    have := (inline_well hv fuel).2.2.2.2.2 toks init e H initialLast { uid := uid } [] ⟨fun _ h => (nomatch h), fun _ h => (nomatch h)⟩
    split at h
    · rename_i hm; cases h; rw [hm] at this; exact this
    · cases h

/-- The mentions of a text are on its line, with their contexts. -/
theorem parseText_notes {env : Env} (hv : Undisturbed env) {text : Str} (hn : '\n' ∉ text) {fuel sc uid : Nat} {r : TextResult}
    (h : parseText fuel env text sl sc src uid = .ok r) :
    (∀ p ∈ r.places, OnL true src sl p.2) ∧ ∀ q ∈ r.footnoteMacros ++ r.headerLinks, ∃ c, (q.1, c) ∈ r.places := by
  unfold parseText at h
  cases hl : lexText (TextBuffer.ofText text sl sc src) with
  | error y => rw [lexText_eq] at hl; cases hl
  | ok toks =>
    simp only [hl] at h
    obtain ⟨init, e, H⟩ := lexText_places (exact := true) (fun _ => hn) _ _ _ hl
    have := (inline_well hv fuel).2.2.2.2.2 toks init e H initialLast { uid := uid } [] ⟨fun _ h => (nomatch h), fun _ h => (nomatch h)⟩
    split at h
    · cases h
    · rename_i hm; cases h; rw [hm] at this; exact ⟨this.on, this.notes⟩

end

end Mau
