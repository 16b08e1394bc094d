import Verif.Lemmas.TextErrs
import Verif.Lemmas.TextCore
import Verif.Spec.Positions

set_option linter.unusedSimpArgs false

/-!
# Where the nodes of a text come from

With `exact = false` nothing is said about positions, only about classes.
-/

namespace Mau
open Spec

/-- The context starts on the line `sl` of the file `src`. -/
def OnL (exact : Bool) (src : Option Str) (sl : Nat) (c : Context) : Prop := exact = true → c.source = src ∧ c.startLine = sl ∧ sl ≤ c.endLine

/-- The context starts on the line `sl` or later. -/
def FromL (exact : Bool) (src : Option Str) (sl : Nat) (c : Context) : Prop := exact = true → c.source = src ∧ sl ≤ c.startLine ∧ sl ≤ c.endLine

/-- No newline. -/
def OneLine (exact : Bool) (t : Str) : Prop := exact = true → '\n' ∉ t

section
variable {exact : Bool} {src : Option Str} {sl : Nat}

theorem OnL.from {c : Context} (h : OnL exact src sl c) : FromL exact src sl c := fun hx => by
  obtain ⟨h1, h2, h3⟩ := h hx
  exact ⟨h1, by omega, h3⟩

theorem OnL.merge {a b : Context} (h1 : OnL exact src sl a) (h2 : FromL exact src sl b) : OnL exact src sl (a.merge b) := fun hx => by
  obtain ⟨a1, a2, a3⟩ := h1 hx
  obtain ⟨b1, b2, b3⟩ := h2 hx
  refine ⟨a1, ?_, ?_⟩ <;> simp only [Context.merge] <;> omega

theorem FromL.merge {a b : Context} (h1 : FromL exact src sl a) (h2 : FromL exact src sl b) : FromL exact src sl (a.merge b) := fun hx => by
  obtain ⟨a1, a2, a3⟩ := h1 hx
  obtain ⟨b1, b2, b3⟩ := h2 hx
  refine ⟨a1, ?_, ?_⟩ <;> simp only [Context.merge] <;> omega

end

/-- The tokens of a text on one line: EOF may be on the next line. -/
structure TextToksAt (exact : Bool) (src : Option Str) (sl : Nat) (toks init : List Token) (e : Token) : Prop where
  toks : toks = init ++ [e]
  eof : e.type = .EOF ∧ e.value = []
  last : FromL exact src sl e.ctx
  on : ∀ t ∈ init, OnL exact src sl t.ctx ∧ OneLine exact t.value ∧ t.type ≠ .EOF

theorem place_all {ln col : Nat} {src : Option Str} {ps : List Piece} : ∀ t ∈ place ln src col ps, t.ctx.source = src ∧ t.ctx.startLine = ln ∧ t.ctx.endLine = ln := by
  induction ps generalizing col with
  | nil => intro t h; cases h
  | cons p ps ih =>
    intro t h
    cases p with
    | tok ty v =>
      rcases List.mem_cons.1 h with rfl | h
      · exact ⟨rfl, rfl, rfl⟩
      · exact ih t h
    | skip v => exact ih t h

/-- The tokens of one line. -/
theorem inlineTokens_line {cut : Cutter} {fs : List ProcFn} (hc : CutsBy fs cut) (src : Option Str) (ln col : Nat) (l : Str) :
    ∃ init e, inlineTokens cut src ln col [l] = init ++ [e] ∧ (e.type = .EOF ∧ e.value = []) ∧ (e.ctx.source = src ∧ ln ≤ e.ctx.startLine ∧ ln ≤ e.ctx.endLine) ∧
      ∀ t ∈ init, t.type ≠ .EOF ∧ t.ctx.source = src ∧ t.ctx.startLine = ln ∧ t.ctx.endLine = ln := by
  obtain ⟨init, e, h1, h2, h3, h4⟩ := inlineTokens_ends hc src [l] ln col
  have key : ∃ init' e', inlineTokens cut src ln col [l] = init' ++ [e'] ∧ (e'.ctx.source = src ∧ ln ≤ e'.ctx.startLine ∧ ln ≤ e'.ctx.endLine) ∧
      ∀ t ∈ init', t.ctx.source = src ∧ t.ctx.startLine = ln ∧ t.ctx.endLine = ln := by
    simp only [inlineTokens, and_true]
    split
    · split
      · exact ⟨[], _, rfl, ⟨rfl, Nat.le_refl _, Nat.le_refl _⟩, fun _ h => (by cases h)⟩
      · refine ⟨[tokAt .EOL l ln col src], _, rfl, ⟨rfl, Nat.le_succ _, Nat.le_succ _⟩, fun t h => ?_⟩
        rw [List.mem_singleton] at h; subst h
        exact ⟨rfl, rfl, rfl⟩
    · simp only [true_and]
      split
      · exact ⟨_, _, rfl, ⟨rfl, Nat.le_refl _, Nat.le_refl _⟩, place_all⟩
      · exact ⟨_, _, rfl, ⟨rfl, Nat.le_succ _, Nat.le_succ _⟩, place_all⟩
  obtain ⟨init', e', k1, k2, k3⟩ := key
  rw [h1] at k1
  obtain ⟨rfl, he⟩ := List.append_inj' k1 rfl
  injection he with he _
  subst he
  exact ⟨init, e, h1, ⟨h2, h3⟩, k2, fun t ht => ⟨h4 t ht, k3 t ht⟩⟩

theorem lines_one {text : Str} (hn : '\n' ∉ text) : Spec.lines text = [] ∨ Spec.lines text = [text] := by
  unfold Spec.lines
  split
  · exact .inl rfl
  · exact .inr (splitChar_of_not_mem hn)

theorem cut_toksAt {cut : Cutter} {fs : List ProcFn} (hc : CutsBy fs cut) {exact : Bool} {text : Str} (hn : OneLine exact text) (sl sc : Nat) (src : Option Str)
    (hv : ∀ t ∈ inlineTokens cut src sl sc (Spec.lines text), t.type ≠ .EOF → OneLine exact t.value) :
    ∃ init e, TextToksAt exact src sl (inlineTokens cut src sl sc (Spec.lines text)) init e := by
  obtain ⟨init, e, h1, h2, h3, h4⟩ := inlineTokens_ends hc src (Spec.lines text) sl sc
  cases exact with
  | false => exact ⟨init, e, h1, ⟨h2, h3⟩, fun h => (by cases h), fun t ht => ⟨fun h => (by cases h), fun h => (by cases h), h4 t ht⟩⟩
  | true =>
    rcases lines_one (hn rfl) with hl | hl
    · rw [hl] at hv ⊢
      exact ⟨[], _, rfl, ⟨rfl, rfl⟩, fun _ => ⟨rfl, Nat.le_refl _, Nat.le_refl _⟩, fun _ h => (by cases h)⟩
    · rw [hl] at hv ⊢
      obtain ⟨init, e, k1, k2, k3, k4⟩ := inlineTokens_line hc src sl sc text
      refine ⟨init, e, k1, k2, fun _ => k3, fun t ht => ?_⟩
      obtain ⟨k5, k6, k7, k8⟩ := k4 t ht
      exact ⟨fun _ => ⟨k6, k7, by omega⟩, hv t (by rw [k1]; simp [ht]) k5, k5⟩

/-- The tokens of texts are not commas (those of `_collect_macro_args`). -/
structure TextToksOk (exact : Bool) (src : Option Str) (sl : Nat) (toks init : List Token) (e : Token) : Prop extends TextToksAt exact src sl toks init e where
  all : ∀ t ∈ init, TextTok t

theorem lexText_places {exact : Bool} {text : Str} (hn : OneLine exact text) (sl sc : Nat) (src : Option Str) {toks : List Token}
    (h : lexText (TextBuffer.ofText text sl sc src) = .ok toks) : ∃ init e, TextToksOk exact src sl toks init e := by
  have h0 := h
  rw [lexText_eq] at h
  injection h with h
  have hall : ∀ t ∈ inlineTokens textCut src sl sc (Spec.lines text), t.type ≠ .EOF → TextTok t := by
    intro t ht hne
    refine inlineTokens_all src (Spec.lines text) ?_ sl sc t ht hne
    intro l hl
    unfold Spec.lines at hl
    split at hl
    · cases hl
    · exact sep_not_mem_of_mem_split hl
  obtain ⟨init, e, h1⟩ := cut_toksAt textCuts hn sl sc src fun t ht hne _ => (hall t ht hne).2.2
  rw [h] at h1
  exact ⟨init, e, h1, fun t ht => hall t (by rw [h, h1.toks]; simp [ht]) (h1.on t ht).2.2⟩

theorem inlineTokens_values (cut : Cutter) (src : Option Str) (ls : List Str) (hn : ∀ l ∈ ls, '\n' ∉ l) : ∀ (ln col : Nat) (t : Token),
    t ∈ inlineTokens cut src ln col ls → '\n' ∉ t.value := by
  have hcut : ∀ (n : Nat) (l : Str), '\n' ∉ l → ∀ (ln col : Nat), ∀ t ∈ place ln src col (cutLine cut n l), '\n' ∉ t.value := by
    intro n
    induction n with
    | zero => intro l _ ln col t ht; cases ht
    | succ n ih =>
      intro l hl ln col t ht
      unfold cutLine at ht
      split at ht
      · cases ht
      · rcases List.mem_cons.1 ht with rfl | ht
        · exact fun h => hl (List.mem_of_mem_take h)
        · exact ih _ (fun h => hl (List.mem_of_mem_drop h)) _ _ t ht
  induction ls with
  | nil => intro ln col t ht; simp [inlineTokens] at ht; subst ht; simp [tokAt]
  | cons l ls ih =>
    intro ln col t ht
    simp only [inlineTokens] at ht
    split at ht
    · split at ht
      · simp at ht; subst ht; simp [tokAt]
      · rcases List.mem_cons.1 ht with rfl | ht
        · exact hn l (by simp)
        · exact ih (fun m hm => hn m (by simp [hm])) _ _ t ht
    · rcases List.mem_append.1 ht with ht | ht
      · exact hcut _ l (hn l (by simp)) _ _ t ht
      · split at ht
        · simp at ht; subst ht; simp [tokAt]
        · exact ih (fun m hm => hn m (by simp [hm])) _ _ t ht

theorem lexArgs_places {exact : Bool} {text : Str} (hn : OneLine exact text) (sl sc : Nat) (src : Option Str) {toks : List Token}
    (h : lexArgs (TextBuffer.ofText text sl sc src) = .ok toks) : ∃ init e, TextToksAt exact src sl toks init e := by
  rw [lexArgs_eq] at h
  injection h with h
  obtain ⟨init, e, h1⟩ := cut_toksAt argsCuts hn sl sc src fun t ht hne _ => by
    refine inlineTokens_values argsCut src (Spec.lines text) ?_ sl sc t ht
    intro l hl
    unfold Spec.lines at hl
    split at hl
    · cases hl
    · exact sep_not_mem_of_mem_split hl
  rw [h] at h1
  exact ⟨init, e, h1⟩

/-! ## Functions of the tokens manager -/

theorem get_cases {tm tm' : TM} {ty : Option TokenType} {v : Option Str} {f : Option (Str → Bool)} {t : Token} (h : tm.get ty v f = .ok (t, tm')) :
    tm.peek ty v f = .ok t ∧ tm'.tokens = tm.tokens ∧ tm'.next = min (tm.next + 1) (max tm.next (tm.tokens.length + 1)) := by
  cases hp : tm.peek ty v f with
  | error e => rw [(C12_get tm ty v f).1 e hp] at h; cases h
  | ok t' =>
    obtain ⟨tm1, h1, h2, h3⟩ := (C12_get tm ty v f).2 t' hp
    rw [h1] at h
    cases h
    exact ⟨rfl, h2, h3⟩

theorem check_plain {t t' : Token} {ty : Option TokenType} {v : Option Str} {f : Option (Str → Bool)} (h : TM.checkToken t ty v f = .ok t') :
    t' = t ∧ ty.getD t.type = t.type := by
  unfold TM.checkToken at h
  split at h
  · cases h
  · rename_i hty
    split at h
    · cases h
    · split at h
      · cases h
      · cases h; exact ⟨rfl, Decidable.not_not.1 hty⟩

/-- What is at the next position. -/
theorem peek_cases {toks init : List Token} {e : Token} {tm : TM} (ht : tm.tokens = init ++ [e]) {ty : Option TokenType} {v : Option Str} {f : Option (Str → Bool)}
    {t : Token} (h : tm.peek ty v f = .ok t) :
    (tm.next < init.length ∧ t ∈ init ∨ init.length ≤ tm.next ∧ t = e) ∧ ty.getD t.type = t.type := by
  unfold TM.peek at h
  rw [ht] at h
  split at h
  · rename_i u hu
    obtain ⟨h1, h2⟩ := check_plain h
    subst h1
    refine ⟨?_, h2⟩
    by_cases hl : tm.next < init.length
    · rw [List.getElem?_append_left hl] at hu
      exact .inl ⟨hl, List.mem_of_getElem? hu⟩
    · rw [List.getElem?_append_right (by omega)] at hu
      have := List.mem_of_getElem? hu
      rw [List.mem_singleton] at this
      exact .inr ⟨by omega, this⟩
  · rename_i hu
    rw [List.getLast?_concat] at h
    obtain ⟨h1, h2⟩ := check_plain h
    subst h1
    refine ⟨.inr ⟨?_, rfl⟩, h2⟩
    rw [List.getElem?_eq_none_iff] at hu
    simp at hu
    omega

theorem peek_last_ok {init : List Token} {e : Token} {tm : TM} (ht : tm.tokens = init ++ [e]) (hl : init.length ≤ tm.next) : tm.peek = .ok e := by
  have hchk : TM.checkToken e none none none = .ok e := by simp [TM.checkToken]
  unfold TM.peek
  rw [ht, List.getElem?_append_right hl]
  cases hd : tm.next - init.length with
  | zero => simp [hchk]
  | succ n => simp [List.getLast?_concat, hchk]

/-- What a function of the tokens manager returns. -/
def TGives {α : Type} (toks : List Token) (f : TokFn α) (P : α → Prop) : Prop := ∀ tm a tm', tm.tokens = toks → f tm = .ok (a, tm') → tm'.tokens = toks ∧ P a

namespace TGives
variable {α β : Type} {toks : List Token}

theorem pure {P : α → Prop} {a : α} (h : P a) : TGives toks (fun tm => (Pure.pure (a, tm) : Except Err (α × TM))) P := by
  intro tm b tm' ht hx; cases hx; exact ⟨ht, h⟩

theorem bind {f : TokFn α} {k : α × TM → Except Err (β × TM)} {P : α → Prop} {R : β → Prop} (hf : TGives toks f P) (hg : ∀ a, P a → TGives toks (fun tm => k (a, tm)) R) :
    TGives toks (fun tm => f tm >>= k) R := by
  intro tm b tm' ht hx
  cases h : f tm with
  | error e => simp only [h, Bind.bind, Except.bind] at hx; cases hx
  | ok r =>
    obtain ⟨a, tm1⟩ := r
    simp only [h, Bind.bind, Except.bind] at hx
    obtain ⟨h1, h2⟩ := hf tm a tm1 ht h
    exact hg a h2 tm1 b tm' h1 hx

theorem mono {f : TokFn α} {P R : α → Prop} (h : TGives toks f P) (hp : ∀ a, P a → R a) : TGives toks f R :=
  fun tm a tm' ht hx => ⟨(h tm a tm' ht hx).1, hp a (h tm a tm' ht hx).2⟩

theorem test {f : TM → Except Err Bool} {g1 g2 : TokFn α} {R : α → Prop} (h1 : TGives toks g1 R) (h2 : TGives toks g2 R) :
    TGives toks (fun tm => do if ← f tm then g1 tm else g2 tm) R := by
  intro tm a tm' ht hx
  cases h : f tm with
  | error e => simp only [h, Bind.bind, Except.bind] at hx; cases hx
  | ok b =>
    simp only [h, Bind.bind, Except.bind] at hx
    cases b with
    | true => exact h1 tm a tm' ht (by simpa using hx)
    | false => exact h2 tm a tm' ht (by simpa using hx)

theorem opt {ty : TokenType} {v : Option Str} {g : TokFn α} {R : α → Prop} (h : TGives toks g R) : TGives toks (fun tm => do let tm ← optToken ty v tm; g tm) R := by
  intro tm a tm' ht hx
  cases ho : optToken ty v tm with
  | error e => simp only [ho, Bind.bind, Except.bind] at hx; cases hx
  | ok tm1 =>
    simp only [ho, Bind.bind, Except.bind] at hx
    refine h tm1 a tm' ?_ hx
    unfold optToken at ho
    split at ho
    · rename_i hg
      cases ho
      rw [(get_cases hg).2.1, ht]
    · cases ho; exact ht
    · cases ho

theorem tryFns {R : α → Prop} {nx : Token} {fs : List (TokFn α)} (h : ∀ f ∈ fs, TGives toks f R) : TGives toks (Mau.tryFns nx fs) R := by
  induction fs with
  | nil => intro tm a tm' _ hx; cases hx
  | cons f fs ih =>
    intro tm a tm' ht hx
    unfold Mau.tryFns at hx
    split at hx
    · rename_i r hr; cases hx; exact h f (by simp) tm a tm' ht hr
    · exact ih (fun g hg => h g (by simp [hg])) tm a tm' ht hx
    · cases hx

theorem parseLoop {R : α → Prop} {fs : List α → List (TokFn α)} (h : ∀ acc, ∀ f ∈ fs acc, TGives toks f R) : ∀ (n : Nat) (last : Token) (tm : TM) (acc out : List α),
    tm.tokens = toks → (∀ a ∈ acc, R a) → Mau.parseLoop fs n last tm acc = .ok out → ∀ a ∈ out, R a := by
  intro n
  induction n with
  | zero => intro last tm acc out _ _ hx; cases hx
  | succ n ih =>
    intro last tm acc out ht ha hx
    unfold Mau.parseLoop at hx
    simp only [Bind.bind, Except.bind] at hx
    split at hx
    · cases hx
    · split at hx
      · cases hx; exact ha
      · split at hx
        · cases hx
        · split at hx
          · cases hx
          · split at hx
            · cases hx
            · rename_i r hr
              obtain ⟨a, tm'⟩ := r
              obtain ⟨h1, h2⟩ := tryFns (h acc) tm a tm' ht hr
              refine ih _ tm' _ out h1 ?_ hx
              intro b hb
              rcases List.mem_append.1 hb with hb | hb
              · exact ha b hb
              · rw [List.mem_singleton] at hb; subst hb; exact h2

end TGives

/-- A text for parsing: on one line, at a known position unless it is empty. -/
def Fit (exact : Bool) (src : Option Str) (sl : Nat) (v : Str) (c : Context) : Prop := OneLine exact v ∧ (OnL exact src sl c ∨ v = [])

section
variable {exact : Bool} {src : Option Str} {sl : Nat} {toks init : List Token} {e : Token}

/-- What `collect` returns: tokens before the end, perhaps followed by EOF. -/
theorem collectLoop_gives (H : toks = init ++ [e]) (he : e.type = .EOF ∧ e.value = []) {stops : List Token} {preserve : Bool} (n : Nat) :
    ∀ (tm : TM) (acc out : List Token) (tm' : TM), tm.tokens = toks → TM.collectLoop (stops ++ [Token.generate .EOF]) preserve n tm acc = .ok (out, tm') →
      tm'.tokens = toks ∧ ∃ new, out = acc ++ new ∧ ((∀ t ∈ new, t ∈ init) ∨ ∃ new0, new = new0 ++ [e] ∧ (∀ t ∈ new0, t ∈ init) ∧ init.length ≤ tm'.next) ∧
        ∀ t, tm.peek = .ok t → TM.isStop (stops ++ [Token.generate .EOF]) t = false → new ≠ [] := by
  have heof : TM.isStop (stops ++ [Token.generate .EOF]) e = true := by
    simp [TM.isStop, Token.eqv, Token.generate, he]
  induction n with
  | zero => intro tm acc out tm' _ h; cases h
  | succ n ih =>
    intro tm acc out tm' ht h
    have hti : tm.tokens = init ++ [e] := ht.trans H
    unfold TM.collectLoop at h
    cases hp : tm.peek with
    | error x => rw [hp] at h; cases h
    | ok t =>
      simp only [hp, Bind.bind, Except.bind] at h
      cases hs : TM.isStop (stops ++ [Token.generate .EOF]) t with
      | true =>
        simp only [hs, if_true] at h
        cases h
        refine ⟨ht, [], by simp, .inl (by simp), ?_⟩
        intro u hu hus
        cases hu; rw [hs] at hus; cases hus
      | false =>
        simp only [hs, Bool.false_eq_true, if_false] at h
        have hmem : ∀ {tm : TM} {u : Token}, tm.tokens = init ++ [e] → tm.peek = .ok u → TM.isStop (stops ++ [Token.generate .EOF]) u = false → u ∈ init := by
          intro tm u h1 h2 h3
          rcases (peek_cases (toks := toks) h1 h2).1 with h | h
          · exact h.2
          · rw [h.2, heof] at h3; cases h3
        split at h
        · cases hg : tm.get with
          | error x => rw [hg] at h; cases h
          | ok r =>
            obtain ⟨esc, tm1⟩ := r
            simp only [hg] at h
            obtain ⟨g1, g2, _⟩ := get_cases hg
            have g2' : tm1.tokens = init ++ [e] := g2.trans hti
            rw [hp] at g1; cases g1
            have hesc : t ∈ init := hmem hti hp hs
            cases hp2 : tm1.peek with
            | error x => rw [hp2] at h; cases h
            | ok t2 =>
              simp only [hp2] at h
              cases hg2 : tm1.get with
              | error x => rw [hg2] at h; cases h
              | ok r =>
                obtain ⟨t3, tm2⟩ := r
                simp only [hg2] at h
                obtain ⟨k1, k2, k3⟩ := get_cases hg2
                rw [hp2] at k1; cases k1
                obtain ⟨f1, new, f2, f3, _⟩ := ih tm2 _ out tm' (k2.trans (g2.trans ht)) h
                refine ⟨f1, ?_⟩
                rcases (peek_cases (toks := toks) g2' hp2).1 with hin | hend
                · generalize hpre : (if (!TM.isStop (stops ++ [Token.generate TokenType.EOF]) t2 || preserve) = true then acc ++ [t] else acc) = acc1 at f2
                  have hacc : ∃ p, acc1 = acc ++ p ∧ ∀ u ∈ p, u ∈ init := by
                    rw [← hpre]
                    split
                    · exact ⟨[t], rfl, by simpa using hesc⟩
                    · exact ⟨[], by simp, by simp⟩
                  obtain ⟨p, hp1, hp3⟩ := hacc
                  refine ⟨p ++ t2 :: new, by rw [f2, hp1]; simp, ?_, by intros; simp at *⟩
                  rcases f3 with f3 | ⟨new0, f4, f5, f6⟩
                  · left
                    intro u hu
                    rcases List.mem_append.1 hu with hu | hu
                    · exact hp3 u hu
                    · rcases List.mem_cons.1 hu with rfl | hu
                      · exact hin.2
                      · exact f3 u hu
                  · right
                    refine ⟨p ++ t2 :: new0, by rw [f4]; simp, ?_, f6⟩
                    intro u hu
                    rcases List.mem_append.1 hu with hu | hu
                    · exact hp3 u hu
                    · rcases List.mem_cons.1 hu with rfl | hu
                      · exact hin.2
                      · exact f5 u hu
                · -- the escaped token is EOF: the next round ends
                  have hl : init.length ≤ tm2.next := by rw [k3]; omega
                  have hnew : new = [] ∧ tm' = tm2 := by
                    cases n with
                    | zero => cases h
                    | succ n =>
                      unfold TM.collectLoop at h
                      rw [peek_last_ok (k2.trans g2') hl] at h
                      simp only [Bind.bind, Except.bind, heof, if_true] at h
                      cases h
                      refine ⟨?_, rfl⟩
                      have := f2
                      simpa using this
                  obtain ⟨rfl, rfl⟩ := hnew
                  generalize hpre : (if (!TM.isStop (stops ++ [Token.generate TokenType.EOF]) t2 || preserve) = true then acc ++ [t] else acc) = acc1 at f2
                  have hacc : ∃ p, acc1 = acc ++ p ∧ ∀ u ∈ p, u ∈ init := by
                    rw [← hpre]
                    split
                    · exact ⟨[t], rfl, by simpa using hesc⟩
                    · exact ⟨[], by simp, by simp⟩
                  obtain ⟨p, hp1, hp3⟩ := hacc
                  refine ⟨p ++ [t2], by rw [f2, hp1]; simp, .inr ⟨p, by rw [hend.2], hp3, hl⟩, by intros; simp at *⟩
        · cases hg : tm.get with
          | error x => rw [hg] at h; cases h
          | ok r =>
            obtain ⟨t2, tm1⟩ := r
            simp only [hg] at h
            obtain ⟨g1, g2, _⟩ := get_cases hg
            rw [hp] at g1; cases g1
            have hin : t ∈ init := hmem hti hp hs
            obtain ⟨f1, new, f2, f3, _⟩ := ih tm1 _ out tm' (g2.trans ht) h
            refine ⟨f1, t :: new, by rw [f2]; simp, ?_, by intros; simp at *⟩
            rcases f3 with f3 | ⟨new0, f4, f5, f6⟩
            · left
              intro u hu
              rcases List.mem_cons.1 hu with rfl | hu
              · exact hin
              · exact f3 u hu
            · right
              refine ⟨t :: new0, by rw [f4]; simp, ?_, f6⟩
              intro u hu
              rcases List.mem_cons.1 hu with rfl | hu
              · exact hin
              · exact f5 u hu

theorem joined_value {ts : List Token} : joinWith [] ((ts.map (·.value)).filter (fun v => !v.isEmpty)) = toksText ts := by
  rw [joinWith_nil, flatten_filter_ne]; rfl

theorem oneLine_toks {ts : List Token} (h : ∀ t ∈ ts, OneLine exact t.value) : OneLine exact (toksText ts) := by
  intro hx hn
  simp only [toksText, List.mem_flatten, List.mem_map] at hn
  obtain ⟨_, ⟨t, ht, rfl⟩, hn⟩ := hn
  exact h t ht hx hn

theorem collectJoin_gives (H : TextToksAt exact src sl toks init e) {stops : List Token} {preserve : Bool} {tm tm' : TM} {c : Token} (ht : tm.tokens = toks)
    (h : tm.collectJoin stops [] preserve = .ok (c, tm')) :
    tm'.tokens = toks ∧ Fit exact src sl c.value c.ctx ∧
      ∀ t, tm.peek = .ok t → TM.isStop (stops ++ [Token.generate .EOF]) t = false →
        OnL exact src sl c.ctx ∨ FromL exact src sl c.ctx ∧ c.value = [] ∧ init.length ≤ tm'.next := by
  unfold TM.collectJoin TM.collect at h
  cases hc : TM.collectLoop (stops ++ [Token.generate .EOF]) preserve (tm.tokens.length + 2) tm [] with
  | error x => simp only [hc, Bind.bind, Except.bind] at h; cases h
  | ok r =>
    obtain ⟨out, tm1⟩ := r
    simp only [hc, Bind.bind, Except.bind] at h
    obtain ⟨h1, new, h2, h3, h4⟩ := collectLoop_gives H.toks H.eof _ tm [] out tm1 ht hc
    rw [List.nil_append] at h2
    subst h2
    cases out with
    | nil =>
      cases h
      exact ⟨h1, ⟨fun _ => by simp, .inr rfl⟩, fun t hp hs => absurd rfl (h4 t hp hs)⟩
    | cons a as =>
      obtain ⟨z, hz⟩ : ∃ z, (a :: as).getLast? = some z := ⟨_, List.getLast?_eq_some_getLast (by simp)⟩
      simp only [List.head?_cons, hz, Pure.pure, Except.pure] at h
      injection h with h
      injection h with h5 h6
      subst h5 h6
      have hzm : z ∈ a :: as := List.mem_of_getLast? hz
      have hall : ∀ t ∈ a :: as, t ∈ init ∨ t = e := by
        intro t ht'
        rcases h3 with h3 | ⟨new0, e1, e2, _⟩
        · exact .inl (h3 t ht')
        · rw [e1] at ht'
          rcases List.mem_append.1 ht' with h | h
          · exact .inl (e2 t h)
          · exact .inr (by simpa using h)
      have hfrom : ∀ t ∈ a :: as, FromL exact src sl t.ctx ∧ OneLine exact t.value := by
        intro t ht'
        rcases hall t ht' with h | h
        · exact ⟨(H.on t h).1.from, (H.on t h).2.1⟩
        · rw [h]; exact ⟨H.last, fun _ => by rw [H.eof.2]; simp⟩
      have hone : OneLine exact (joinWith [] (((a :: as).map (·.value)).filter (fun v => !v.isEmpty))) := by
        rw [joined_value]; exact oneLine_toks fun t ht' => (hfrom t ht').2
      have hcase : OnL exact src sl (a.ctx.merge z.ctx) ∨ FromL exact src sl (a.ctx.merge z.ctx) ∧
          joinWith [] (((a :: as).map (·.value)).filter (fun v => !v.isEmpty)) = [] ∧ init.length ≤ tm1.next := by
        by_cases ha : a ∈ init
        · exact .inl ((H.on a ha).1.merge (hfrom z hzm).1)
        · right
          refine ⟨(hfrom a (by simp)).1.merge (hfrom z hzm).1, ?_⟩
          rcases h3 with h3 | ⟨new0, e1, e2, e3⟩
          · exact absurd (h3 a (by simp)) ha
          · cases new0 with
            | nil =>
              rw [List.nil_append] at e1
              refine ⟨?_, e3⟩
              rw [e1, joined_value]
              simp [toksText, H.eof.2]
            | cons b bs =>
              rw [List.cons_append] at e1
              injection e1 with e1 _
              exact absurd (e1 ▸ e2 b (by simp)) ha
      refine ⟨h1, ⟨hone, ?_⟩, fun _ _ _ => hcase⟩
      rcases hcase with h | h
      · exact .inl h
      · exact .inr h.2.1

theorem gives_collectJoin (H : TextToksAt exact src sl toks init e) (stops : List Token) (preserve : Bool) :
    TGives toks (fun tm => tm.collectJoin stops [] preserve) fun c => Fit exact src sl c.value c.ctx :=
  fun _ _ _ ht h => ⟨(collectJoin_gives H ht h).1, (collectJoin_gives H ht h).2.1⟩

theorem gives_get (H : TextToksAt exact src sl toks init e) (ty : Option TokenType) (v : Option Str) (f : Option (Str → Bool)) :
    TGives toks (fun tm => tm.get ty v f) fun t => (t ∈ init ∨ t = e) ∧ ty.getD t.type = t.type := by
  intro tm t tm' ht h
  obtain ⟨h1, h2, _⟩ := get_cases h
  obtain ⟨h3, h4⟩ := peek_cases (toks := toks) (ht.trans H.toks) h1
  exact ⟨h2.trans ht, h3.elim (fun h => .inl h.2) (fun h => .inr h.2), h4⟩

/-- Getting a token of a certain type, not EOF. -/
theorem gives_typed (H : TextToksAt exact src sl toks init e) {ty : TokenType} (hty : ty ≠ .EOF) (v : Option Str) (f : Option (Str → Bool)) :
    TGives toks (fun tm => tm.get (some ty) v f) fun t => t ∈ init := by
  refine (gives_get H _ v f).mono fun t h => h.1.resolve_right ?_
  rintro rfl
  have := h.2
  rw [H.eof.1] at this
  exact hty this

theorem gives_any (H : TextToksAt exact src sl toks init e) (v : Option Str) (f : Option (Str → Bool)) (ty : Option TokenType) :
    TGives toks (fun tm => tm.get ty v f) fun t => FromL exact src sl t.ctx ∧ OneLine exact t.value := by
  refine (gives_get H ty v f).mono fun t h => ?_
  rcases h.1 with h | rfl
  · exact ⟨(H.on t h).1.from, (H.on t h).2.1⟩
  · exact ⟨H.last, fun _ => by rw [H.eof.2]; simp⟩

/-! ## Arguments -/

theorem gives_argValue (H : TextToksAt exact src sl toks init e) : TGives toks argValue fun c => Fit exact src sl c.value c.ctx := by
  unfold argValue
  refine .test ?_ (gives_collectJoin H _ _)
  refine .bind (gives_get H _ _ _) fun _ _ => ?_
  refine .bind (gives_collectJoin H _ _) fun c hc => ?_
  exact .bind (gives_get H _ _ _) fun _ _ => .pure hc

/-- An argument that can be parsed. -/
def ArgItem.FitAt (exact : Bool) (src : Option Str) (sl : Nat) : ArgItem → Prop
  | .named _ n => Fit exact src sl n.value n.ctx
  | .unnamed n => Fit exact src sl n.value n.ctx

theorem Fit.infix {v w : Str} {c : Context} (h : Fit exact src sl v c) (hw : w <:+: v) : Fit exact src sl w c :=
  ⟨fun hx hn => h.1 hx (hw.mem hn), h.2.imp id fun hv => by rw [hv] at hw; exact List.infix_nil.1 hw⟩

theorem gives_named (H : TextToksAt exact src sl toks init e) : TGives toks namedArgument fun i => i.FitAt exact src sl := by
  unfold namedArgument
  refine .bind (gives_get H _ _ _) fun _ _ => ?_
  refine .bind (gives_get H _ _ _) fun _ _ => ?_
  refine .bind (gives_argValue H) fun c hc => ?_
  exact .opt (.opt (.pure (hc.infix (strip_infix _))))

theorem gives_unnamed (H : TextToksAt exact src sl toks init e) (on : Bool) : TGives toks (unnamedArgument on) fun i => i.FitAt exact src sl := by
  cases on with
  | true => intro tm a tm' _ h; cases h
  | false =>
    unfold unnamedArgument
    refine TGives.bind (f := argValue) (gives_argValue H) fun c hc => ?_
    exact .opt (.opt (.pure hc))

/-- The arguments are on the line. -/
structure FitArgs (exact : Bool) (src : Option Str) (sl : Nat) (p : ParsedArgs) : Prop where
  unnamed : ∀ m ∈ p.unnamed, Fit exact src sl m.value m.ctx
  named : ∀ kn ∈ p.named, Fit exact src sl kn.2.value kn.2.ctx

theorem isoPass_fit {c : Char} {mark : IsoNode → IsoNode} (hm : ∀ n, (mark n).node = n.node) {n : IsoNode} (h : Fit exact src sl n.node.value n.node.ctx) :
    Fit exact src sl (isoPass c mark n).node.value (isoPass c mark n).node.ctx := by
  unfold isoPass
  split
  · rename_i d rest hv
    split
    · rw [hm]
      exact h.infix (by rw [hv]; exact (List.suffix_cons _ _).isInfix)
    · exact h
  · exact h

theorem isoPass_ctx {c : Char} {mark : IsoNode → IsoNode} (hm : ∀ n, (mark n).node = n.node) {n : IsoNode} : (isoPass c mark n).node.ctx = n.node.ctx := by
  unfold isoPass
  split
  · split
    · rw [hm]
    · rfl
  · rfl

theorem isolate_fit {u : List CtxText} {nm : Dict CtxText} (hu : ∀ m ∈ u, Fit exact src sl m.value m.ctx) (hn : ∀ kn ∈ nm, Fit exact src sl kn.2.value kn.2.ctx)
    {p : ParsedArgs} (h : isolate u nm = .ok p) : FitArgs exact src sl p ∧ ∀ al, p.alias = some al → OnL exact src sl al.ctx := by
  have hval : ∀ m ∈ ((((u.map fun n => ({ node := n } : IsoNode)).map
      (isoPass '#' fun n => { n with isTag := true })).map (isoPass '*' fun n => { n with isSubtype := true })).map
        (isoPass '@' fun n => { n with isAlias := true })), Fit exact src sl m.node.value m.node.ctx ∧ (m.isAlias = true → OnL exact src sl m.node.ctx) := by
    intro m hm
    obtain ⟨m3, hm3, rfl⟩ := List.mem_map.1 hm
    obtain ⟨m2, hm2, rfl⟩ := List.mem_map.1 hm3
    obtain ⟨m1, hm1, rfl⟩ := List.mem_map.1 hm2
    obtain ⟨m0, h0, rfl⟩ := List.mem_map.1 hm1
    have f0 : Fit exact src sl (IsoNode.mk m0 false false false).node.value (IsoNode.mk m0 false false false).node.ctx := hu m0 h0
    have f1 := isoPass_fit (c := '#') (mark := fun n => { n with isTag := true }) (fun _ => rfl) f0
    have f2 := isoPass_fit (c := '*') (mark := fun n => { n with isSubtype := true }) (fun _ => rfl) f1
    have f3 := isoPass_fit (c := '@') (mark := fun n => { n with isAlias := true }) (fun _ => rfl) f2
    refine ⟨f3, fun ha => ?_⟩
    rw [isoPass_ctx (c := '@') (mark := fun n => { n with isAlias := true }) (fun _ => rfl)]
    refine f2.2.resolve_right fun hv => ?_
    generalize hg : isoPass '*' (fun n => { n with isSubtype := true }) (isoPass '#' (fun n => { n with isTag := true }) (IsoNode.mk m0 false false false)) = g at ha hv
    unfold isoPass at ha
    rw [hv] at ha
    · dsimp only at ha
      rw [← hg] at ha
      rw [isoPass_alias '*' (fun n => { n with isSubtype := true }) (fun _ => rfl), isoPass_alias '#' (fun n => { n with isTag := true }) (fun _ => rfl)] at ha
      cases ha
  unfold isolate at h
  dsimp only at h
  split at h
  · cases h
  · split at h
    · cases h
    · cases h
      refine ⟨⟨?_, hn⟩, ?_⟩
      · intro m hm
        obtain ⟨q, hq, rfl⟩ := List.mem_map.1 hm
        exact (hval q (List.mem_filter.1 hq).1).1
      · intro m hm
        obtain ⟨q, hq, rfl⟩ := List.mem_map.1 (List.mem_of_mem_head? hm)
        exact (hval q (List.mem_filter.1 hq).1).2 (by simpa using (List.mem_filter.1 hq).2)

theorem fit_setNames {p : ParsedArgs} (h : FitArgs exact src sl p) (names : List Str) : FitArgs exact src sl (p.setNames names) := by
  obtain ⟨h1, h2⟩ := setNames_mem p.unnamed p.named names
  refine ⟨fun m hm => h.unnamed m (h1 m hm), fun kn hk => ?_⟩
  rcases h2 kn hk with hk | hk
  · exact h.named kn hk
  · exact h.unnamed _ hk

theorem fit_alias {p : ParsedArgs} (h : FitArgs exact src sl p) {al : CtxText} (hal : OnL exact src sl al.ctx) {a : Alias}
    (ha : ∀ k v, Dict.get? a.args k = some v → OneLine exact v) (missing : List Str) : FitArgs exact src sl (applyAlias p al a missing) := by
  have hfold : ∀ (l : List Str) (d : Dict CtxText), (∀ kn ∈ d, Fit exact src sl kn.2.value kn.2.ctx) →
      ∀ kn ∈ l.foldl (fun d k => match Dict.get? a.args k with | some v => Dict.set d k ⟨v, al.ctx⟩ | none => d) d, Fit exact src sl kn.2.value kn.2.ctx := by
    intro l
    induction l with
    | nil => intro d hd; exact hd
    | cons k l ih =>
      intro d hd
      refine ih _ ?_
      cases hk : Dict.get? a.args k with
      | none => simp only [hk]; exact hd
      | some w =>
        simp only [hk]
        intro kn hkn
        rcases Dict.mem_set hkn with rfl | hkn
        · exact ⟨ha k w hk, .inl hal⟩
        · exact hd kn hkn
  have hn := hfold missing p.named h.named
  unfold applyAlias
  dsimp only
  obtain ⟨h1, h2⟩ := setNames_mem p.unnamed (missing.foldl (fun d k => match Dict.get? a.args k with | some v => Dict.set d k ⟨v, al.ctx⟩ | none => d) p.named) a.names
  refine ⟨fun m hm => h.unnamed m (h1 m hm), fun kn hk => ?_⟩
  rcases h2 kn hk with hk | hk
  · exact hn kn hk
  · exact h.unnamed _ hk

/-- The variables do not disturb positions. -/
def Calmly (exact : Bool) (env : Env) : Prop := exact = true → Undisturbed env

theorem processArguments_fit {env : Env} (hv : Calmly exact env) {t : Token} (hf : Fit exact src sl t.value t.ctx) {p : ParsedArgs} (h : processArguments env t = .ok p) :
    FitArgs exact src sl p := by
  unfold processArguments parseArgs at h
  cases h1 : lexArgs (TextBuffer.ofText t.value t.ctx.startLine t.ctx.startColumn t.ctx.source) with
  | error x => rw [h1] at h; cases h
  | ok ts =>
    simp only [h1, Bind.bind, Except.bind] at h
    cases h2 : parseLoop argFns (ts.length + 2) initialLast { tokens := ts } [] with
    | error x =>
      simp only [parseArgTokens, h2, Bind.bind, Except.bind] at h
      unfold locateArgs at h
      split at h
      · cases h
      · cases h
    | ok items =>
      have h : isolateTagsAndSubtype env (unnamedOf items) (namedOf items) = .ok p := by
        simp only [parseArgTokens, h2, Bind.bind, Except.bind] at h
        unfold locateArgs at h
        split at h
        · cases h
        · exact h
      have hit : ∀ i ∈ items, i.FitAt exact src sl := by
        rcases hf.2 with hq | hempty
        · obtain ⟨init, e, H⟩ := lexArgs_places hf.1 _ _ _ h1
          have H' : TextToksAt exact src sl ts init e := by
            refine ⟨H.toks, H.eof, fun hx => ?_, fun t ht => ⟨fun hx => ?_, (H.on t ht).2⟩⟩
            · have := H.last hx
              rwa [(hq hx).1, (hq hx).2.1] at this
            · have := (H.on t ht).1 hx
              rwa [(hq hx).1, (hq hx).2.1] at this
          refine TGives.parseLoop (toks := ts) (fs := argFns) ?_ _ _ _ [] items rfl (by simp) h2
          intro acc f hf
          simp only [argFns, List.mem_cons, List.not_mem_nil, or_false] at hf
          rcases hf with rfl | rfl
          · exact gives_named H'
          · exact gives_unnamed H' _
        · rw [lexArgs_eq, hempty] at h1
          simp only [Spec.lines, if_true, inlineTokens] at h1
          injection h1 with h1
          subst h1
          unfold parseLoop at h2
          simp [TM.peekIs, TM.peek, TM.checkToken, tokAt, Bind.bind, Except.bind] at h2
          cases h2
          intro i hi; cases hi
      have hun : ∀ m ∈ unnamedOf items, Fit exact src sl m.value m.ctx := by
        intro m hm
        unfold unnamedOf at hm
        obtain ⟨i, hi1, hi2⟩ := List.mem_filterMap.1 hm
        cases i with
        | named => cases hi2
        | unnamed n => cases hi2; exact hit _ hi1
      have hna : ∀ kn ∈ namedOf items, Fit exact src sl kn.2.value kn.2.ctx := by
        have : ∀ (l : List ArgItem) (d : Dict CtxText), (∀ kn ∈ d, Fit exact src sl kn.2.value kn.2.ctx) → (∀ i ∈ l, i ∈ items) →
            ∀ kn ∈ l.foldl (fun d i => match i with | .named k n => Dict.set d k n | .unnamed _ => d) d, Fit exact src sl kn.2.value kn.2.ctx := by
          intro l
          induction l with
          | nil => intro d hd _; exact hd
          | cons i l ih =>
            intro d hd hl
            refine ih _ ?_ (fun j hj => hl j (by simp [hj]))
            cases i with
            | unnamed n => exact hd
            | named k n =>
              intro kn hk
              rcases Dict.mem_set hk with rfl | hk
              · exact hit (.named k n) (hl _ (by simp))
              · exact hd kn hk
        exact this items [] (by simp) (fun _ h => h)
      unfold isolateTagsAndSubtype at h
      cases h3 : isolate (unnamedOf items) (namedOf items) with
      | error x => simp only [h3, Bind.bind, Except.bind] at h; cases h
      | ok q =>
        obtain ⟨h4, h5⟩ := isolate_fit hun hna h3
        simp only [h3, Bind.bind, Except.bind] at h
        split at h
        · cases h; exact h4
        · rename_i al hal
          cases h6 : lookupAlias env al.value with
          | error x => rw [h6] at h; cases h
          | ok a =>
            simp only [h6] at h
            cases h
            refine fit_alias h4 (h5 al hal) (fun k v hk hx => ?_) _
            obtain ⟨key, hmem⟩ := alias_value h6 hk
            exact (hv hx).values _ _ hmem

/-! ## The arguments of a macro -/

theorem oneLine_quoted {v : Str} (h : OneLine exact v) : OneLine exact (['"'] ++ v ++ ['"']) := by
  intro hx hn
  simp at hn
  exact h hx hn

theorem peekIs_false {tm : TM} {ty : TokenType} {v : Option Str} {t : Token} (h : tm.peekIs ty v = .ok false) (hp : tm.peek = .ok t) :
    TM.checkToken t (some ty) v none = .error .token := by
  have key : tm.peek (some ty) v none = TM.checkToken t (some ty) v none := by
    unfold TM.peek at hp ⊢
    split at hp
    · rename_i u hu; rw [(check_plain hp).1]
    · split at hp
      · cases hp
      · rename_i u hu; rw [(check_plain hp).1]
  unfold TM.peekIs at h
  rw [key] at h
  split at h
  · cases h
  · rename_i he; exact he
  · cases h

theorem macroArgPiece_gives (H : TextToksOk exact src sl toks init e) {tm tm' : TM} {a : Token} (ht : tm.tokens = toks)
    (h1 : tm.peekIs .LITERAL (some [')']) = .ok false) (h2 : tm.peekIs .EOF = .ok false) (h : macroArgPiece tm = .ok (a, tm')) :
    tm'.tokens = toks ∧ OneLine exact a.value ∧ FromL exact src sl a.ctx ∧ (OnL exact src sl a.ctx ∨ a.value = [] ∧ init.length ≤ tm'.next) := by
  have H0 := H.toTextToksAt
  unfold macroArgPiece at h
  cases hq : tm.peekIs .LITERAL (some ['"']) with
  | error x => simp only [hq, Bind.bind, Except.bind] at h; cases h
  | ok b =>
    simp only [hq, Bind.bind, Except.bind] at h
    cases b with
    | true =>
      simp only [if_true] at h
      have hg : TGives toks (fun tm => (do
          let (o, tm) ← tm.get (some .LITERAL) (some ['"'])
          let (t, tm) ← tm.collectJoin [Token.generate .LITERAL ['"'], Token.generate .EOF]
          let (c, tm) ← tm.get (some .LITERAL) (some ['"'])
          return (⟨.TEXT, ['"'] ++ t.value ++ ['"'], o.ctx.merge c.ctx⟩, tm) : Except Err (Token × TM)))
          fun a => OneLine exact a.value ∧ OnL exact src sl a.ctx := by
        refine .bind (gives_typed H0 (by simp) _ _) fun o ho => ?_
        refine .bind (gives_collectJoin H0 _ _) fun t ht => ?_
        refine .bind (gives_typed H0 (by simp) _ _) fun c hc => ?_
        exact .pure ⟨oneLine_quoted ht.1, (H.on o ho).1.merge (H.on c hc).1.from⟩
      obtain ⟨k1, k2, k3⟩ := hg tm a tm' ht h
      exact ⟨k1, k2, k3.from, .inl k3⟩
    | false =>
      simp only [Bool.false_eq_true, if_false] at h
      obtain ⟨k1, k2, k3⟩ := collectJoin_gives H0 ht h
      cases hp : tm.peek with
      | error x =>
        exfalso
        unfold TM.collectJoin TM.collect at h
        unfold TM.collectLoop at h
        simp only [hp, Bind.bind, Except.bind] at h
        cases h
      | ok t =>
        have htok : t ∈ init := by
          rcases (peek_cases (toks := toks) (ht.trans H.toks) hp).1 with h | h
          · exact h.2
          · exfalso
            have := peekIs_false h2 hp
            rw [h.2] at this
            simp [TM.checkToken, H.eof.1] at this
        have hstop : TM.isStop ([Token.generate .LITERAL [','], Token.generate .LITERAL [')'], Token.generate .EOF] ++ [Token.generate .EOF]) t = false := by
          rw [Bool.eq_false_iff]
          intro hs
          simp only [TM.isStop, List.any_cons, List.cons_append, List.nil_append, List.any_nil, Bool.or_false, Bool.or_eq_true, Token.eqv,
            Token.generate, Bool.and_eq_true, beq_iff_eq] at hs
          rcases hs with hs | hs | hs | hs
          · obtain ⟨c, hc, hv⟩ := (H.all t htok).2.1 hs.1.symm
            rw [hv] at hs
            injection hs.2 with h1 _
            subst h1
            exact absurd hc (by decide)
          · have := peekIs_false h1 hp
            simp [TM.checkToken, ← hs.1, ← hs.2] at this
          · exact (H.all t htok).1 hs.1.symm
          · exact (H.all t htok).1 hs.1.symm
        rcases k3 t hp hstop with h | h
        · exact ⟨k1, k2.1, h.from, .inl h⟩
        · exact ⟨k1, k2.1, h.1, .inr h.2⟩

theorem macroArgsLoop_gives (H : TextToksOk exact src sl toks init e) (n : Nat) : ∀ (tm : TM) (acc out : List Token) (tm' : TM), tm.tokens = toks →
    macroArgsLoop n tm acc = .ok (out, tm') → tm'.tokens = toks ∧ ∃ new, out = acc ++ new ∧ (∀ t ∈ new, OneLine exact t.value ∧ FromL exact src sl t.ctx) ∧
      ((∀ t ∈ new, OnL exact src sl t.ctx) ∨ ∃ new0 z, new = new0 ++ [z] ∧ (∀ t ∈ new0, OnL exact src sl t.ctx) ∧ z.value = []) := by
  induction n with
  | zero => intro tm acc out tm' _ h; cases h
  | succ n ih =>
    intro tm acc out tm' ht h
    have done : ∀ {out tm'}, (Except.ok (acc, tm) : Except Err (List Token × TM)) = .ok (out, tm') → tm'.tokens = toks ∧ ∃ new, out = acc ++ new ∧
        (∀ t ∈ new, OneLine exact t.value ∧ FromL exact src sl t.ctx) ∧
        ((∀ t ∈ new, OnL exact src sl t.ctx) ∨ ∃ new0 z, new = new0 ++ [z] ∧ (∀ t ∈ new0, OnL exact src sl t.ctx) ∧ z.value = []) := by
      intro out tm' h
      cases h
      exact ⟨ht, [], by simp, by simp, .inl (by simp)⟩
    unfold macroArgsLoop at h
    cases h1 : tm.peekIs .LITERAL (some [')']) with
    | error x => simp only [h1, Bind.bind, Except.bind] at h; cases h
    | ok b =>
      simp only [h1, Bind.bind, Except.bind] at h
      cases b with
      | true => exact done (by simpa [Pure.pure, Except.pure] using h)
      | false =>
        simp only [Bool.false_eq_true, if_false] at h
        cases h2 : tm.peekIs .EOF with
        | error x => rw [h2] at h; cases h
        | ok b =>
          simp only [h2] at h
          cases b with
          | true => exact done (by simpa [Pure.pure, Except.pure] using h)
          | false =>
            simp only [Bool.false_eq_true, if_false] at h
            cases h3 : macroArgPiece tm with
            | error x => rw [h3] at h; cases h
            | ok r =>
              obtain ⟨a, tm1⟩ := r
              simp only [h3] at h
              obtain ⟨k1, k2, k3, k4⟩ := macroArgPiece_gives H ht h1 h2 h3
              obtain ⟨f1, new, f2, f3, f4⟩ := ih tm1 _ out tm' k1 h
              refine ⟨f1, a :: new, by rw [f2]; simp, ?_, ?_⟩
              · intro t ht'
                rcases List.mem_cons.1 ht' with rfl | ht'
                · exact ⟨k2, k3⟩
                · exact f3 t ht'
              · rcases k4 with k4 | ⟨k4, k5⟩
                · rcases f4 with f4 | ⟨new0, z, e1, e2, e3⟩
                  · left
                    intro t ht'
                    rcases List.mem_cons.1 ht' with rfl | ht'
                    · exact k4
                    · exact f4 t ht'
                  · right
                    refine ⟨a :: new0, z, by rw [e1]; simp, ?_, e3⟩
                    intro t ht'
                    rcases List.mem_cons.1 ht' with rfl | ht'
                    · exact k4
                    · exact e2 t ht'
                · -- at the end nothing follows
                  right
                  have : new = [] := by
                    cases n with
                    | zero => cases h
                    | succ n =>
                      unfold macroArgsLoop at h
                      have hp := peek_last_ok (k1.trans H.toks) k5
                      have q1 : tm1.peekIs .LITERAL (some [')']) = .ok false := by
                        cases hq : tm1.peekIs .LITERAL (some [')']) with
                        | error x => rw [hq] at h; cases h
                        | ok b =>
                          cases b with
                          | false => rfl
                          | true =>
                            exfalso
                            unfold TM.peekIs at hq
                            split at hq
                            · rename_i t hpt
                              obtain ⟨hc, hty⟩ := peek_cases (toks := toks) (k1.trans H.toks) hpt
                              rcases hc with hc | hc
                              · omega
                              · rw [hc.2, H.eof.1] at hty; cases hty
                            · cases hq
                            · cases hq
                      have q2 : tm1.peekIs .EOF = .ok true := by
                        cases hq : tm1.peekIs .EOF with
                        | error x => simp only [q1, hq, Bind.bind, Except.bind, Bool.false_eq_true, if_false] at h; cases h
                        | ok b =>
                          cases b with
                          | true => rfl
                          | false =>
                            exfalso
                            have := peekIs_false hq hp
                            simp [TM.checkToken, H.eof.1] at this
                      simp only [q1, q2, Bind.bind, Except.bind, Bool.false_eq_true, if_false, if_true, Pure.pure, Except.pure] at h
                      cases h
                      simpa using f2
                  subst this
                  exact ⟨[], a, rfl, by simp, k4⟩

theorem collectMacroArgs_gives (H : TextToksOk exact src sl toks init e) : TGives toks collectMacroArgs fun c => Fit exact src sl c.value c.ctx := by
  intro tm a tm' ht h
  unfold collectMacroArgs at h
  cases h1 : macroArgsLoop (tm.tokens.length + 2) tm [] with
  | error x => simp only [h1, Bind.bind, Except.bind] at h; cases h
  | ok r =>
    obtain ⟨out, tm1⟩ := r
    simp only [h1, Bind.bind, Except.bind, Pure.pure, Except.pure] at h
    cases h
    obtain ⟨f1, new, f2, f3, f4⟩ := macroArgsLoop_gives H _ tm [] out _ ht h1
    rw [List.nil_append] at f2
    subst f2
    refine ⟨f1, ?_⟩
    have hone : OneLine exact (Token.fromTokenList out).value := by
      rw [fromTokenList_value]; exact oneLine_toks fun t ht' => (f3 t ht').1
    refine ⟨hone, ?_⟩
    cases out with
    | nil => exact .inr rfl
    | cons a as =>
      obtain ⟨z, hz⟩ : ∃ z, (a :: as).getLast? = some z := ⟨_, List.getLast?_eq_some_getLast (by simp)⟩
      have hctx : (Token.fromTokenList (a :: as)).ctx = a.ctx.merge z.ctx := by
        simp [Token.fromTokenList, hz]
      have hzf := (f3 z (List.mem_of_getLast? hz)).2
      rcases f4 with f4 | ⟨new0, w, e1, e2, e3⟩
      · left; rw [hctx]; exact (f4 a (by simp)).merge hzf
      · cases new0 with
        | nil =>
          right
          rw [List.nil_append] at e1
          rw [fromTokenList_value, e1]
          simp [toksText, e3]
        | cons b bs =>
          left
          rw [List.cons_append] at e1
          injection e1 with e1 _
          rw [hctx]; exact (e1 ▸ e2 b (by simp) : OnL exact src sl a.ctx).merge hzf

end

/-! ## Nodes -/

/-- A node of a text on the line `sl`. -/
inductive InlineAt (exact : Bool) (src : Option Str) (sl : Nat) : Node → Prop where
  | empty {c : Context} : InlineAt exact src sl (Node.new (.text []) c)
  | node {n : Node} (hd : InlineClass n.data) (hq : OnL exact src sl n.ctx) (hl : n.labels = []) (he : n.extra = [])
      (hc : ∀ c ∈ n.content, InlineAt exact src sl c) : InlineAt exact src sl n

/-- A node of a text on the line `sl`, at the top. -/
def TopAt (exact : Bool) (src : Option Str) (sl : Nat) (n : Node) : Prop := InlineAt exact src sl n ∧ OnL exact src sl n.ctx

/-- All of them are. -/
def TopsAt (exact : Bool) (src : Option Str) (sl : Nat) (ns : List Node) : Prop := ∀ n ∈ ns, TopAt exact src sl n

section
variable {exact : Bool} {src : Option Str} {sl : Nat}

theorem topsAt_nil : TopsAt exact src sl [] := fun _ h => nomatch h

theorem topsAt_new {d : NodeData} {c : Context} {ns : List Node} {a : NodeArgs} (hd : InlineClass d) (hq : OnL exact src sl c) (hc : ∀ m ∈ ns, InlineAt exact src sl m) :
    TopsAt exact src sl [Node.new d c ns a] := by
  intro n hn
  rw [List.mem_singleton] at hn
  subst hn
  exact ⟨.node hd hq rfl rfl hc, hq⟩

theorem topsAt_groupWords : ∀ (ns : List Node) (cur : Option (Str × Context × Context)), TopsAt exact src sl ns →
    (∀ v c0 c1, cur = some (v, c0, c1) → OnL exact src sl c0 ∧ OnL exact src sl c1) → TopsAt exact src sl (groupWordsAux cur ns) := by
  intro ns
  induction ns with
  | nil =>
    intro cur _ hcur
    rcases cur with _ | ⟨v, c0, c1⟩
    · exact topsAt_nil
    · obtain ⟨h1, h2⟩ := hcur v c0 c1 rfl
      exact topsAt_new trivial (h1.merge h2.from) (fun _ h => (nomatch h))
  | cons m ns ih =>
    intro cur hns hcur
    have hm := hns m (by simp)
    have hr : TopsAt exact src sl ns := fun x hx => hns x (by simp [hx])
    unfold groupWordsAux
    split
    · rename_i h; cases h
    · rename_i h; cases h
    · rename_i e; cases e
      exact ih _ hr (by intro v c0 c1 h; cases h; exact ⟨hm.2, hm.2⟩)
    · rename_i e; cases e
      refine ih _ hr ?_
      intro v c0 c1 h
      cases h
      exact ⟨(hcur _ _ _ rfl).1, hm.2⟩
    · rename_i e; cases e
      intro x hx
      rcases List.mem_cons.1 hx with rfl | hx
      · exact hm
      · exact ih _ hr (by intro v c0 c1 h; cases h) x hx
    · rename_i e; cases e
      obtain ⟨h1, h2⟩ := hcur _ _ _ rfl
      intro x hx
      rcases List.mem_cons.1 hx with rfl | hx
      · refine topsAt_new (d := .text _) (ns := []) trivial (h1.merge h2.from) ?_ _ (List.mem_singleton.2 rfl)
        intro _ h; cases h
      · rcases List.mem_cons.1 hx with rfl | hx
        · exact hm
        · exact ih _ hr (by intro v c0 c1 h; cases h) x hx

/-- What a function of the text parser returns. -/
def PGives {α : Type} (f : PM α) (P : α → Prop) : Prop := ∀ s a s', f s = .ok a s' → P a

namespace PGives
variable {α β : Type}

theorem pure {P : α → Prop} {a : α} (h : P a) : PGives (Pure.pure a : PM α) P := by intro s b s' hx; cases hx; exact h

theorem bind {f : PM α} {g : α → PM β} {P : α → Prop} {R : β → Prop} (hf : PGives f P) (hg : ∀ a, P a → PGives (g a) R) : PGives (f >>= g) R := by
  intro s b s' hx
  change PM.bind f g s = .ok b s' at hx
  unfold PM.bind at hx
  cases h : f s with
  | ok a s1 => rw [h] at hx; exact hg a (hf s a s1 h) s1 b s' hx
  | fail s1 => rw [h] at hx; cases hx
  | err e => rw [h] at hx; cases hx

theorem raise {P : α → Prop} (e : Err) : PGives (PM.raise e : PM α) P := by intro s a s' hx; cases e <;> cases hx

theorem ite {c : Prop} [Decidable c] {f g : PM α} {P : α → Prop} (hf : PGives f P) (hg : PGives g P) : PGives (if c then f else g) P := by
  split
  · exact hf
  · exact hg

theorem tm {toks : List Token} {f : TokFn α} {P : α → Prop} (h : TGives toks f P) : PGives (PM.tm toks f) P := by
  intro s a s' hx
  unfold PM.tm at hx
  split at hx
  · rename_i a' tm' hf
    cases hx
    exact (h _ _ _ rfl hf).2
  · cases hx
  · cases hx

theorem lift {x : Except Err α} {P : α → Prop} (h : ∀ a, x = .ok a → P a) : PGives (PM.lift x) P := by
  intro s a s' hx
  unfold PM.lift at hx
  split at hx
  · cases hx; exact h _ rfl
  · cases hx
  · cases hx

theorem orElse {f g : PM α} {P : α → Prop} (hf : PGives f P) (hg : PGives g P) : PGives (PM.orElse f g) P := by
  intro s a s' hx
  unfold PM.orElse at hx
  split at hx
  · rename_i h; cases hx; exact hf _ _ _ h
  · exact hg _ _ _ hx
  · cases hx

theorem mandatory {p : ParsedArgs} (hp : FitArgs exact src sl p) (key : Str) (m : Msg) (cx : Context) : PGives (Mau.mandatory p key m cx) fun n => Fit exact src sl n.value n.ctx := by
  unfold Mau.mandatory
  cases h : Dict.get? p.named key with
  | some n => exact pure (hp.named _ (Dict.mem_of_get? h))
  | none => exact raise _

theorem textOr {sub : Str → Context → PM (List Node)} (hs : ∀ v c, Fit exact src sl v c → PGives (sub v c) (TopsAt exact src sl)) {p : ParsedArgs}
    (hp : FitArgs exact src sl p) (key : Str) {d : List Node} (hd : ∀ n ∈ d, InlineAt exact src sl n) :
    PGives (Mau.textOr sub (Dict.get? p.named key) d) fun ns => ∀ n ∈ ns, InlineAt exact src sl n := by
  unfold Mau.textOr
  cases h : Dict.get? p.named key with
  | none => exact pure hd
  | some t => exact fun s a s' hx n hn => (hs _ _ (hp.named _ (Dict.mem_of_get? h)) s a s' hx n hn).1

end PGives

theorem default_at {v : Str} {c : Context} (h : Fit exact src sl v c) : ∀ n ∈ [Node.new (.text v) c], InlineAt exact src sl n := by
  intro n hn
  rw [List.mem_singleton] at hn
  subst hn
  rcases h.2 with h | rfl
  · exact .node trivial h rfl rfl (fun _ h => (nomatch h))
  · exact .empty

theorem controlCase_fit {env : Env} (hv : Calmly exact env) {name : Token} {p : ParsedArgs} {cx : Context} (hp : FitArgs exact src sl p) {v : Str} {c : Context}
    (h : controlCase env name p cx = .ok (some (v, c))) : Fit exact src sl v c := by
  have hp' := fit_setNames hp [c%"true_case", c%"false_case"]
  unfold controlCase at h
  dsimp only at h
  split at h
  · rename_i op cond _
    simp only [Bind.bind, Except.bind] at h
    split at h
    · cases h
    generalize parseCondition cond name.ctx.startLine (name.ctx.startColumn + 4) name.ctx.source = o at h
    cases o with
    | error x =>
      dsimp only at h
      split at h <;> cases h
    | ok o =>
    cases o with
    | none => cases h
    | some cnd =>
      simp only [Pure.pure, Except.pure] at h
      cases hmk : mkControl c%"if" cnd.var cnd.comparison cnd.value name.ctx with
      | error x => rw [hmk] at h; cases h
      | ok control =>
        simp only [hmk] at h
        cases h3 : Dict.get? (p.setNames [c%"true_case", c%"false_case"]).named c%"true_case" with
        | none => simp only [h3] at h; cases h
        | some tc =>
          simp only [h3] at h
          cases hpr : control.process env with
          | error x => rw [hpr] at h; cases h
          | ok test =>
            simp only [hpr] at h
            have hres : ∀ r, (if test = true then some tc else Dict.get? (p.setNames [c%"true_case", c%"false_case"]).named c%"false_case") = some r →
                Fit exact src sl r.value r.ctx := by
              intro r hr
              split at hr
              · cases hr; exact hp'.named _ (Dict.mem_of_get? h3)
              · exact hp'.named _ (Dict.mem_of_get? hr)
            generalize (if test = true then some tc else Dict.get? (p.setNames [c%"true_case", c%"false_case"]).named c%"false_case") = res at hres h
            split at h
            · cases res with
              | none => cases h
              | some r =>
                have hr := hres r rfl
                dsimp only at h
                cases hg : Env.get env r.value with
                | default => rw [hg] at h; cases h
                | «namespace» e => rw [hg] at h; cases h
                | value w =>
                  cases w with
                  | str t =>
                    simp only [hg] at h
                    cases h
                    have hget : Dict.get? env r.value = some (.str v) := by
                      unfold Env.get at hg
                      split at hg
                      · rename_i w hw; cases hg; exact hw
                      · dsimp only at hg
                        split at hg <;> cases hg
                    refine ⟨fun hx => ?_, .inl ?_⟩
                    · exact (hv hx).values _ _ (Dict.mem_of_get? hget)
                    · rcases hr.2 with hr | hr
                      · exact hr
                      · intro hx
                        have := (hv hx).names
                        rw [← hr, hget] at this
                        cases this
                  | _ => simp only [hg] at h; cases h
            · cases res with
              | none => cases h
              | some r => cases h; exact hres r rfl
  · cases h

section macros
variable {sub : Str → Context → PM (List Node)} (hs : ∀ v c, Fit exact src sl v c → PGives (sub v c) (TopsAt exact src sl))
  {p : ParsedArgs} (hp : FitArgs exact src sl p) {ctx : Context} (hctx : OnL exact src sl ctx)
include hs hp hctx

theorem dispatch_gives {env : Env} (hv : Calmly exact env) (name : Token) : PGives (macroDispatch env sub name p ctx) (TopsAt exact src sl) := by
  unfold macroDispatch
  refine .ite ?_ (.ite ?_ (.ite ?_ (.ite ?_ (.ite ?_ (.ite ?_ (.ite ?_ (.ite ?_ (.ite ?_ (.pure ?_)))))))))
  · unfold macroControlFn
    refine .bind (P := fun o => ∀ v c, o = some (v, c) → Fit exact src sl v c) (.lift fun o ho v c h => ?_) fun o ho => ?_
    · subst h; exact controlCase_fit hv hp ho
    · cases o with
      | none => exact .pure topsAt_nil
      | some vc => exact hs _ _ (ho _ _ rfl)
  · unfold macroLinkFn
    refine .bind (.mandatory (fit_setNames hp _) _ _ _) fun t ht => .bind (.textOr hs (fit_setNames hp _) _ (default_at ht)) fun ns hns => .pure ?_
    exact topsAt_new trivial hctx hns
  · unfold macroHeaderFn
    refine .bind (.mandatory (fit_setNames hp _) _ _ _) fun t ht => .bind (P := fun _ => True) (fun _ _ _ _ => trivial) fun i _ =>
      .bind (.textOr hs (fit_setNames hp _) _ (fun _ h => (nomatch h))) fun ns hns => ?_
    intro s a s' hx
    cases hx
    exact topsAt_new trivial hctx hns
  · unfold macroMailtoFn
    refine .bind (.mandatory (fit_setNames hp _) _ _ _) fun t ht => .bind (.textOr hs (fit_setNames hp _) _ (default_at ht)) fun ns hns => .pure ?_
    exact topsAt_new trivial hctx hns
  · unfold macroImageFn
    exact .bind (.mandatory (fit_setNames hp _) _ _ _) fun t _ => .pure (topsAt_new trivial hctx (fun _ h => (nomatch h)))
  · unfold macroFootnoteFn
    refine .bind (.mandatory (fit_setNames hp _) _ _ _) fun t ht => .bind (P := fun _ => True) (fun _ _ _ _ => trivial) fun i _ => ?_
    intro s a s' hx
    cases hx
    exact topsAt_new trivial hctx (fun _ h => (nomatch h))
  · unfold macroClassFn
    refine .bind (.mandatory (fit_setNames hp _) _ _ _) fun t ht => .bind (hs _ _ ht) fun ns hns => .pure ?_
    exact topsAt_new trivial hctx fun n hn => (hns n hn).1
  · unfold macroUnicodeFn
    exact .bind (.mandatory (fit_setNames hp _) _ _ _) fun t _ => .pure (topsAt_new trivial hctx (fun _ h => (nomatch h)))
  · unfold macroRawFn
    exact .bind (.mandatory (fit_setNames hp _) _ _ _) fun t _ => .pure (topsAt_new trivial hctx (fun _ h => (nomatch h)))
  · exact topsAt_new trivial hctx (fun _ h => (nomatch h))

end macros

theorem macroHead_gives {toks init : List Token} {e : Token} (H : TextToksOk exact src sl toks init e) {env : Env} (hv : Calmly exact env) :
    PGives (macroHead env toks) fun r => FitArgs exact src sl r.2.1 ∧ OnL exact src sl r.2.2 := by
  have H0 := H.toTextToksAt
  unfold macroHead
  refine .bind (.tm (gives_typed H0 (by simp) _ _)) fun o ho => ?_
  refine .bind (.tm (gives_typed H0 (by simp) _ _)) fun name _ => ?_
  refine .bind (.tm (gives_typed H0 (by simp) _ _)) fun _ _ => ?_
  refine .bind (.tm (gives_typed H0 (by simp) _ _)) fun _ _ => ?_
  refine .bind (.tm (collectMacroArgs_gives H)) fun args hargs => ?_
  refine .bind (.tm (gives_typed H0 (by simp) _ _)) fun c hc => ?_
  refine .bind (.lift fun p h => processArguments_fit hv hargs h) fun p hp => .pure ?_
  exact ⟨hp, (H.on o ho).1.merge (H.on c hc).1.from⟩

theorem inline_places {env : Env} (hv : Calmly exact env) (n : Nat) :
    (∀ toks init e, TextToksOk exact src sl toks init e → ∀ m, PGives (sentenceLoop env toks n m) (TopsAt exact src sl)) ∧
    (∀ toks init e, TextToksOk exact src sl toks init e → ∀ m, PGives (parseItem env toks n m) (TopsAt exact src sl)) ∧
    (∀ toks init e, TextToksOk exact src sl toks init e → PGives (parseStyle env toks n) (TopsAt exact src sl)) ∧
    (∀ toks init e, TextToksOk exact src sl toks init e → PGives (parseMacro env toks n) (TopsAt exact src sl)) ∧
    (∀ v c, Fit exact src sl v c → PGives (parseStr env n v c) (TopsAt exact src sl)) ∧
    (∀ toks init e, TextToksOk exact src sl toks init e → ∀ last s acc ns s', TopsAt exact src sl acc → textMain env toks n last s acc = .ok (ns, s') →
      TopsAt exact src sl ns) := by
  induction n with
  | zero =>
    refine ⟨fun _ _ _ _ _ => ?_, fun _ _ _ _ _ => ?_, fun _ _ _ _ => ?_, fun _ _ _ _ => ?_, fun _ _ _ => ?_, ?_⟩
    · unfold sentenceLoop; exact .raise _
    · unfold parseItem; exact .raise _
    · unfold parseStyle; exact .raise _
    · unfold parseMacro; exact .raise _
    · unfold parseStr; exact .raise _
    · intro toks init e _ last s acc ns s' _ h; unfold textMain at h; cases h
  | succ n ih =>
    obtain ⟨i1, i2, i3, i4, i5, i6⟩ := ih
    have leaf : ∀ {d : NodeData} {c : Context}, InlineClass d → OnL exact src sl c → TopsAt exact src sl [Node.new d c] :=
      fun h1 h2 => topsAt_new h1 h2 (fun _ h => (nomatch h))
    refine ⟨fun toks init e H m => ?_, fun toks init e H m => ?_, fun toks init e H => ?_, fun toks init e H => ?_, fun v c hf => ?_, ?_⟩
    · unfold sentenceLoop
      refine .bind (i2 toks init e H m) fun ns hns => .ite (.pure topsAt_nil) (.bind (i1 toks init e H m) fun r hr => .pure ?_)
      intro x hx
      rcases List.mem_append.1 hx with hx | hx
      · exact hns x hx
      · exact hr x hx
    · have H0 := H.toTextToksAt
      unfold parseItem
      intro s a s' hx
      change PM.bind (PM.peek toks (·.peek)) _ s = .ok a s' at hx
      unfold PM.bind PM.peek at hx
      dsimp only at hx
      cases hp : TM.peek ⟨toks, s.next⟩ with
      | error x =>
        rw [hp] at hx
        cases x <;> cases hx
      | ok t =>
        simp only [hp] at hx
        split at hx
        · cases hx; exact topsAt_nil
        · rename_i hstop
          have g1 : PGives (parseBackslash toks) (TopsAt exact src sl) := by
            unfold parseBackslash
            refine .bind (.tm (gives_typed H0 (by simp) _ _)) fun b hb => .bind (.tm (gives_any H0 _ _ _)) fun u hu => .pure ?_
            exact leaf trivial ((H.on b hb).1.merge hu.1)
          have g2 : PGives (parseVerbatim toks) (TopsAt exact src sl) := by
            unfold parseVerbatim
            refine .bind (.tm (gives_typed H0 (by simp) _ _)) fun o ho => .bind (.tm (gives_collectJoin H0 _ _)) fun c hc =>
              .bind (.tm (gives_typed H0 (by simp) _ _)) fun u hu => .pure ?_
            exact leaf trivial ((H.on o ho).1.merge (H.on u hu).1.from)
          have g3 : PGives (parseEscaped toks) (TopsAt exact src sl) := by
            unfold parseEscaped
            refine .bind (.tm (gives_typed H0 (by simp) _ _)) fun o ho => .bind (.tm (gives_collectJoin H0 _ _)) fun c hc =>
              .bind (.tm (gives_typed H0 (by simp) _ _)) fun u hu => .pure ?_
            exact leaf trivial ((H.on o ho).1.merge (H.on u hu).1.from)
          have hword : ∀ s1 : TextSt, s1.next = s.next → ∀ a s', parseWord toks s1 = .ok a s' → TopsAt exact src sl a := by
            intro s1 hs1 a s' hx
            unfold parseWord at hx
            change PM.bind (PM.tm toks (·.get)) _ s1 = .ok a s' at hx
            unfold PM.bind PM.tm at hx
            dsimp only at hx
            rw [hs1] at hx
            cases hg : TM.get ⟨toks, s.next⟩ with
            | error x => rw [hg] at hx; cases x <;> cases hx
            | ok r =>
              obtain ⟨u, tm'⟩ := r
              simp only [hg] at hx
              cases hx
              have := (get_cases hg).1
              rw [hp] at this
              cases this
              refine leaf trivial ?_
              rcases (peek_cases (toks := toks) (tm := ⟨toks, s.next⟩) H.toks hp).1 with h | h
              · exact (H.on t h.2).1
              · exfalso
                apply hstop
                rw [h.2]
                simp [sentenceStop, H.eof]
          have step : ∀ {f g : PM (List Node)}, PGives f (TopsAt exact src sl) →
              (∀ s1 : TextSt, s1.next = s.next → ∀ a s', g s1 = .ok a s' → TopsAt exact src sl a) →
              ∀ s1 : TextSt, s1.next = s.next → ∀ a s', PM.orElse f g s1 = .ok a s' → TopsAt exact src sl a := by
            intro f g hf hg s1 hs1 a s' hx
            unfold PM.orElse at hx
            split at hx
            · rename_i h; cases hx; exact hf _ _ _ h
            · rename_i s2 _
              exact hg { s2 with next := s1.next } hs1 _ _ hx
            · cases hx
          exact step g1 (step (i4 toks init e H) (step g2 (step g3 (step (i3 toks init e H) hword)))) s rfl a s' hx
    · unfold parseStyle
      refine .bind (.tm (gives_typed H.toTextToksAt (by simp) _ _)) fun o ho => .bind (i1 toks init e H _) fun content hc =>
        .bind (.tm (gives_typed H.toTextToksAt (by simp) _ _)) fun c hcl => .pure ?_
      refine topsAt_new trivial ((H.on o ho).1.merge (H.on c hcl).1.from) fun m hm => ?_
      exact (topsAt_groupWords content none hc (by intro v c0 c1 h; cases h) m hm).1
    · unfold parseMacro
      refine .bind (macroHead_gives H hv) fun r hr => ?_
      obtain ⟨name, p, ctx⟩ := r
      exact dispatch_gives i5 hr.1 hr.2 hv name
    · intro s a s' hx
      unfold parseStr at hx
      split at hx
      · cases hx
      · rename_i toks hl
        split at hx
        · cases hx
        · rename_i ns s1 hm
          cases hx
          rcases hf.2 with hq | rfl
          · obtain ⟨init, e, H⟩ := lexText_places hf.1 _ _ _ hl
            have H' : TextToksOk exact src sl toks init e := by
              refine ⟨⟨H.toks, H.eof, fun hx => ?_, fun t ht => ⟨fun hx => ?_, (H.on t ht).2⟩⟩, H.all⟩
              · have := H.last hx
                rwa [(hq hx).1, (hq hx).2.1] at this
              · have := (H.on t ht).1 hx
                rwa [(hq hx).1, (hq hx).2.1] at this
            exact i6 toks init e H' _ _ _ _ _ topsAt_nil hm
          · rw [lexText_eq] at hl
            simp only [Spec.lines, if_true, inlineTokens] at hl
            injection hl with hl
            subst hl
            cases n with
            | zero => unfold textMain at hm; cases hm
            | succ n =>
              unfold textMain at hm
              simp [TM.peekIs, TM.peek, TM.checkToken, tokAt] at hm
              rw [hm.1]
              exact topsAt_nil
    · intro toks init e H last s acc ns s' hacc h
      unfold textMain at h
      split at h
      · cases h
      · cases h; exact hacc
      · split at h
        · cases h
        · split at h
          · cases h
          · split at h
            · rename_i r s1 hr
              refine i6 toks init e H _ _ _ _ _ ?_ h
              intro x hx
              rcases List.mem_append.1 hx with hx | hx
              · exact hacc x hx
              · exact topsAt_groupWords r none (i1 toks init e H _ _ _ _ hr) (by intro v c0 c1 h; cases h) x hx
            · cases h
            · cases h

/-- The nodes of a text are on its line. -/
theorem parseText_places {env : Env} (hv : Calmly exact env) {text : Str} (hn : OneLine exact text) {fuel sc uid : Nat} {r : TextResult}
    (h : parseText fuel env text sl sc src uid = .ok r) : TopsAt exact src sl r.nodes := by
  unfold parseText at h
  split at h
  · cases h
  · rename_i toks hl
    split at h
    · cases h
    · rename_i ns s hm
      cases h
      obtain ⟨init, e, H⟩ := lexText_places hn _ _ _ hl
      exact (inline_places hv fuel).2.2.2.2.2 toks init e H _ _ _ _ _ topsAt_nil hm

end

end Mau
