import Verif.Spec.Moved
import Verif.Props.Lexing
import Verif.Props.ConditionLexing
import Verif.Model.Arguments

set_option linter.unusedSimpArgs false

/-!
# Two runs that differ in positions only: tokens, the preprocessor, arguments and conditions
-/

namespace Mau
open Spec

/-- Contexts of the same source. -/
def Near (c c' : Context) : Prop := c.source = c'.source

/-- Tokens that differ in their position only. -/
def Twin (t t' : Token) : Prop := t.type = t'.type ∧ t.value = t'.value ∧ Near t.ctx t'.ctx

/-- Errors that differ in the position only. -/
def SameErr (e e' : Err) : Prop := Err.said e = Err.said e'

/-- Results that agree. -/
def Both {α β : Type} (R : α → β → Prop) : Except Err α → Except Err β → Prop
  | .ok a, .ok b => R a b
  | .error e, .error e' => SameErr e e'
  | _, _ => False

theorem Both.bind {α β γ δ : Type} {R : α → β → Prop} {Q : γ → δ → Prop} {x : Except Err α} {y : Except Err β} {f : α → Except Err γ} {g : β → Except Err δ}
    (h : Both R x y) (hf : ∀ a b, R a b → Both Q (f a) (g b)) : Both Q (x >>= f) (y >>= g) := by
  cases x <;> cases y <;> first | exact h.elim | exact h | exact hf _ _ h

theorem Both.map {α β γ δ : Type} {R : α → β → Prop} {Q : γ → δ → Prop} {x : Except Err α} {y : Except Err β} {f : α → γ} {g : β → δ}
    (h : Both R x y) (hf : ∀ a b, R a b → Q (f a) (g b)) : Both Q (x.map f) (y.map g) := by
  cases x <;> cases y <;> first | exact h.elim | exact h | exact hf _ _ h

theorem Both.mono {α β : Type} {R Q : α → β → Prop} {x : Except Err α} {y : Except Err β} (h : Both R x y) (hf : ∀ a b, R a b → Q a b) : Both Q x y := by
  cases x <;> cases y <;> first | exact h.elim | exact h | exact hf _ _ h

theorem Both.refl {α : Type} {R : α → α → Prop} (x : Except Err α) (h : ∀ a, R a a) : Both R x x := by
  cases x with
  | ok a => exact h a
  | error e => exact rfl

theorem sameErr_token {e e' : Err} (h : SameErr e e') : e = .token ↔ e' = .token := by
  cases e <;> cases e' <;> simp_all [SameErr, Err.said]

/-- A token without its position. -/
def Token.adrift (t : Token) : Token := { t with ctx := Context.adrift t.ctx }

theorem twin_iff {t t' : Token} : Twin t t' ↔ t.adrift = t'.adrift := by
  cases t; cases t'
  simp [Twin, Token.adrift, Context.adrift, Near]

theorem near_iff {c c' : Context} : Near c c' ↔ Context.adrift c = Context.adrift c' := by
  simp [Near, Context.adrift]

/-- A token at another place. -/
def Token.at (f : Context → Context) (t : Token) : Token := { t with ctx := f t.ctx }

/-- Lists of tokens that differ in the positions only; equal tokens are equal in both. -/
structure Twins (ts ts' : List Token) : Prop where
  base : ∃ (b : List Token) (f f' : Context → Context), (∀ c d, f c = f d ↔ c = d) ∧ (∀ c d, f' c = f' d ↔ c = d) ∧ (∀ c, Near (f c) (f' c)) ∧
    ts = b.map (Token.at f) ∧ ts' = b.map (Token.at f')

theorem token_at_eq {f : Context → Context} (h : ∀ c d, f c = f d ↔ c = d) {t u : Token} : Token.at f t = Token.at f u ↔ t = u := by
  cases t; cases u
  simp [Token.at, h]

theorem Twins.length {ts ts' : List Token} (h : Twins ts ts') : ts.length = ts'.length := by
  obtain ⟨b, f, f', -, -, -, rfl, rfl⟩ := h
  simp

theorem Twins.maps {ts ts' : List Token} (h : Twins ts ts') : ts.map Token.adrift = ts'.map Token.adrift := by
  obtain ⟨b, f, f', -, -, hn, rfl, rfl⟩ := h
  simp only [List.map_map]
  refine List.map_congr_left fun t _ => ?_
  have := hn t.ctx
  simp [Token.at, Token.adrift, Context.adrift, Near] at this ⊢
  exact this

/-- Both lists end at the same place, or have twins there. -/
theorem Twins.at {ts ts' : List Token} (h : Twins ts ts') (i : Nat) :
    (ts[i]? = none ∧ ts'[i]? = none) ∨ ∃ t t', ts[i]? = some t ∧ ts'[i]? = some t' ∧ Twin t t' := by
  obtain ⟨b, f, f', -, -, hn, rfl, rfl⟩ := h
  rw [List.getElem?_map, List.getElem?_map]
  cases hb : b[i]? with
  | none => exact .inl ⟨rfl, rfl⟩
  | some t => exact .inr ⟨_, _, rfl, rfl, rfl, rfl, hn _⟩

theorem Twins.last {ts ts' : List Token} (h : Twins ts ts') :
    (ts.getLast? = none ∧ ts'.getLast? = none) ∨ ∃ t t', ts.getLast? = some t ∧ ts'.getLast? = some t' ∧ Twin t t' := by
  obtain ⟨b, f, f', -, -, hn, rfl, rfl⟩ := h
  rw [List.getLast?_map, List.getLast?_map]
  cases hb : b.getLast? with
  | none => exact .inl ⟨rfl, rfl⟩
  | some t => exact .inr ⟨_, _, rfl, rfl, rfl, rfl, hn _⟩

/-- Tokens of the two lists at the same place. -/
def Paired (ts ts' : List Token) (t t' : Token) : Prop := ∃ i : Nat, ts[i]? = some t ∧ ts'[i]? = some t'

theorem Twins.eq_iff {ts ts' : List Token} (h : Twins ts ts') {t t' u u' : Token} (h1 : Paired ts ts' t t') (h2 : Paired ts ts' u u') : t = u ↔ t' = u' := by
  obtain ⟨b, f, f', hf, hf', hn, rfl, rfl⟩ := h
  obtain ⟨i, hi, hi'⟩ := h1
  obtain ⟨j, hj, hj'⟩ := h2
  rw [List.getElem?_map] at hi hi' hj hj'
  cases hb : b[i]? with
  | none => rw [hb] at hi; cases hi
  | some x =>
    cases hc : b[j]? with
    | none => rw [hc] at hj; cases hj
    | some y =>
      rw [hb] at hi hi'; rw [hc] at hj hj'
      cases hi; cases hi'; cases hj; cases hj'
      rw [token_at_eq hf, token_at_eq hf']

/-- The functions of the tokens manager see the same. -/
def Sees {α β : Type} (ts ts' : List Token) (R : α → β → Prop) (f : TM → Except Err (α × TM)) (g : TM → Except Err (β × TM)) : Prop :=
  ∀ i, Both (fun x y => R x.1 y.1 ∧ ∃ j, x.2 = ⟨ts, j⟩ ∧ y.2 = ⟨ts', j⟩) (f ⟨ts, i⟩) (g ⟨ts', i⟩)

section
variable {ts ts' : List Token} (hts : Twins ts ts')
include hts

theorem both_check {t t' : Token} (h : Twin t t') (ty : Option TokenType) (v : Option Str) (f : Option (Str → Bool)) :
    Both (fun a b => a = t ∧ b = t') (TM.checkToken t ty v f) (TM.checkToken t' ty v f) := by
  unfold TM.checkToken
  rw [h.1, h.2.1]
  split
  · exact rfl
  split
  · exact rfl
  split
  · exact rfl
  · exact ⟨rfl, rfl⟩

theorem both_peek (i : Nat) (ty : Option TokenType) (v : Option Str) (f : Option (Str → Bool)) :
    Both (fun a b => Twin a b ∧ Paired ts ts' a b) (TM.peek ⟨ts, i⟩ ty v f) (TM.peek ⟨ts', i⟩ ty v f) := by
  unfold TM.peek
  dsimp only
  rcases hts.at i with ⟨h1, h2⟩ | ⟨t, t', h1, h2, h3⟩
  · rw [h1, h2]
    dsimp only
    rcases hts.last with ⟨h4, h5⟩ | ⟨t, t', h4, h5, h6⟩
    · rw [h4, h5]; exact rfl
    · rw [h4, h5]
      refine (both_check hts h6 ty v f).mono fun a b h => ?_
      rw [h.1, h.2]
      refine ⟨h6, ts.length - 1, ?_, ?_⟩
      · rw [← h4, List.getLast?_eq_getElem?]
      · rw [← h5, List.getLast?_eq_getElem?, hts.length]
  · rw [h1, h2]
    refine (both_check hts h3 ty v f).mono fun a b h => ?_
    rw [h.1, h.2]
    exact ⟨h3, i, h1, h2⟩

theorem both_current (i : Nat) : Both Twin (TM.currentToken ⟨ts, i⟩) (TM.currentToken ⟨ts', i⟩) := by
  unfold TM.currentToken
  dsimp only
  rcases hts.last with ⟨h4, h5⟩ | ⟨t, t', h4, h5, h6⟩
  · rw [h4, h5]; exact rfl
  · rw [h4, h5]
    cases i with
    | zero => exact h6
    | succ i =>
      dsimp only
      rw [List.getD_eq_getElem?_getD, List.getD_eq_getElem?_getD]
      rcases hts.at i with ⟨h1, h2⟩ | ⟨u, u', h1, h2, h3⟩
      · rw [h1, h2]; exact h6
      · rw [h1, h2]; exact h3

theorem sees_get (ty : Option TokenType) (v : Option Str) (f : Option (Str → Bool)) : Sees ts ts' Twin (·.get ty v f) (·.get ty v f) := by
  intro i
  have h := both_peek hts i ty v f
  unfold TM.get
  dsimp only
  cases h1 : TM.peek ⟨ts, i⟩ ty v f <;> cases h2 : TM.peek ⟨ts', i⟩ ty v f <;> rw [h1, h2] at h
  · exact h
  · exact h.elim
  · exact h.elim
  · dsimp only
    have ha : ∃ j, TM.advance ⟨ts, i⟩ = ⟨ts, j⟩ ∧ TM.advance ⟨ts', i⟩ = ⟨ts', j⟩ := by
      unfold TM.advance
      dsimp only
      rw [hts.length]
      split
      · exact ⟨_, rfl, rfl⟩
      · exact ⟨_, rfl, rfl⟩
    obtain ⟨j, e1, e2⟩ := ha
    rw [e1, e2]
    have hc := both_current hts j
    cases h3 : TM.currentToken ⟨ts, j⟩ <;> cases h4 : TM.currentToken ⟨ts', j⟩ <;> rw [h3, h4] at hc
    · exact hc
    · exact hc.elim
    · exact hc.elim
    · exact ⟨hc, j, rfl, rfl⟩

theorem both_peekIs (i : Nat) (ty : TokenType) (v : Option Str) (f : Option (Str → Bool)) :
    Both Eq (TM.peekIs ⟨ts, i⟩ ty v f) (TM.peekIs ⟨ts', i⟩ ty v f) := by
  have h := both_peek hts i (some ty) v f
  unfold TM.peekIs
  cases h1 : TM.peek ⟨ts, i⟩ (some ty) v f <;> cases h2 : TM.peek ⟨ts', i⟩ (some ty) v f <;> rw [h1, h2] at h
  · rename_i e e'
    have := sameErr_token h
    by_cases he : e = .token
    · rw [he, this.1 he]; exact rfl
    · have he' : e' ≠ .token := fun e2 => he (this.2 e2)
      cases e <;> cases e' <;> first | exact h | exact absurd rfl he | exact absurd rfl he' | (cases h)
  · exact h.elim
  · exact h.elim
  · exact rfl

end

/-- Sequencing. -/
theorem Sees.bind {α β γ δ : Type} {ts ts' : List Token} {R : α → β → Prop} {Q : γ → δ → Prop} {x : Except Err (α × TM)} {y : Except Err (β × TM)}
    {f : α × TM → Except Err γ} {g : β × TM → Except Err δ}
    (h : Both (fun x y => R x.1 y.1 ∧ ∃ j, x.2 = ⟨ts, j⟩ ∧ y.2 = ⟨ts', j⟩) x y)
    (hf : ∀ a b j, R a b → Both Q (f (a, ⟨ts, j⟩)) (g (b, ⟨ts', j⟩))) : Both Q (x >>= f) (y >>= g) := by
  refine h.bind fun ⟨a, t⟩ ⟨b, t'⟩ ⟨h1, j, e1, e2⟩ => ?_
  cases e1; cases e2
  exact hf a b j h1

theorem Twin.eqv {t t' : Token} (h : Twin t t') (u : Token) : t.eqv u = t'.eqv u := by
  unfold Token.eqv
  rw [h.1, h.2.1]

theorem Twin.stop {t t' : Token} (h : Twin t t') (stops : List Token) : TM.isStop stops t = TM.isStop stops t' := by
  unfold TM.isStop
  induction stops with
  | nil => rfl
  | cons s r ih => simp only [List.any_cons, ih]; unfold Token.eqv; rw [h.1, h.2.1]

/-- Lists of tokens that differ in the positions only. -/
def Alikes (l l' : List Token) : Prop := l.map Token.adrift = l'.map Token.adrift

theorem Alikes.snoc {l l' : List Token} (h : Alikes l l') {t t' : Token} (ht : Twin t t') : Alikes (l ++ [t]) (l' ++ [t']) := by
  unfold Alikes at h ⊢
  rw [List.map_append, List.map_append, h, List.map_singleton, List.map_singleton, twin_iff.1 ht]

theorem Near.merge {a a' b b' : Context} (h : Near a a') : Near (a.merge b) (a'.merge b') := h

section
variable {ts ts' : List Token} (hts : Twins ts ts')
include hts

theorem both_collectLoop (stops : List Token) (preserve : Bool) : ∀ (n i : Nat) (acc acc' : List Token), Alikes acc acc' →
    Both (fun x y => Alikes x.1 y.1 ∧ ∃ j, x.2 = ⟨ts, j⟩ ∧ y.2 = ⟨ts', j⟩) (TM.collectLoop stops preserve n ⟨ts, i⟩ acc) (TM.collectLoop stops preserve n ⟨ts', i⟩ acc')
  | 0, _, _, _, _ => rfl
  | n + 1, i, acc, acc', h => by
    rw [TM.collectLoop, TM.collectLoop]
    refine (both_peek hts i _ _ _).bind fun t t' ht => ?_
    rw [ht.1.stop stops]
    split
    · exact ⟨h, i, rfl, rfl⟩
    rw [ht.1.eqv TM.escapeToken]
    split
    · refine Sees.bind (sees_get hts _ _ _ i) fun e e' j he => ?_
      refine (both_peek hts j _ _ _).bind fun t2 t2' h2 => ?_
      dsimp only
      rw [h2.1.stop stops]
      refine Sees.bind (sees_get hts _ _ _ j) fun t3 t3' k h3 => ?_
      refine both_collectLoop stops preserve n k _ _ (Alikes.snoc ?_ h3)
      split
      · exact h.snoc he
      · exact h
    · refine Sees.bind (sees_get hts _ _ _ i) fun e e' j he => ?_
      exact both_collectLoop stops preserve n j _ _ (h.snoc he)

theorem sees_collect (stops : List Token) (preserve : Bool) : Sees ts ts' Alikes (·.collect stops preserve) (·.collect stops preserve) := by
  intro i
  unfold TM.collect
  dsimp only
  rw [hts.length]
  exact both_collectLoop hts _ _ _ _ _ _ rfl

end

theorem Alikes.values {l l' : List Token} (h : Alikes l l') : l.map (·.value) = l'.map (·.value) := by
  have := congrArg (List.map (fun t => t.value)) h
  simpa [Token.adrift, Function.comp_def] using this

theorem Alikes.ends {l l' : List Token} (h : Alikes l l') :
    (l.head? = none ∧ l'.head? = none ∧ l.getLast? = none ∧ l'.getLast? = none) ∨
      ∃ a a' b b', l.head? = some a ∧ l'.head? = some a' ∧ l.getLast? = some b ∧ l'.getLast? = some b' ∧ Twin a a' ∧ Twin b b' := by
  unfold Alikes at h
  have h1 := congrArg List.head? h
  have h2 := congrArg List.getLast? h
  rw [List.head?_map, List.head?_map] at h1
  rw [List.getLast?_map, List.getLast?_map] at h2
  cases l with
  | nil => cases l' with
    | nil => exact .inl ⟨rfl, rfl, rfl, rfl⟩
    | cons => cases h
  | cons x l => cases l' with
    | nil => cases h
    | cons x' l' =>
      rw [List.getLast?_eq_some_getLast (List.cons_ne_nil _ _), List.getLast?_eq_some_getLast (List.cons_ne_nil _ _)] at h2 ⊢
      refine .inr ⟨_, _, _, _, rfl, rfl, rfl, rfl, twin_iff.2 (Option.some.inj h1), twin_iff.2 (Option.some.inj h2)⟩

theorem Alikes.joined {l l' : List Token} (h : Alikes l l') (sep : Str) : Twin (Token.fromTokenList l sep) (Token.fromTokenList l' sep) := by
  unfold Token.fromTokenList
  rcases h.ends with ⟨h1, h2, h3, h4⟩ | ⟨a, a', b, b', h1, h2, h3, h4, h5, h6⟩
  · rw [h1, h2]; exact ⟨rfl, rfl, rfl⟩
  · rw [h1, h2, h3, h4]
    exact ⟨rfl, by dsimp only; rw [h.values], h5.2.2.merge⟩

section
variable {ts ts' : List Token} (hts : Twins ts ts')
include hts

theorem sees_collectJoin (stops : List Token) (sep : Str) (preserve : Bool) : Sees ts ts' Twin (·.collectJoin stops sep preserve) (·.collectJoin stops sep preserve) := by
  intro i
  unfold TM.collectJoin
  refine Sees.bind (sees_collect hts stops preserve i) fun l l' j h => ?_
  dsimp only
  rcases h.ends with ⟨h1, h2, h3, h4⟩ | ⟨a, a', b, b', h1, h2, h3, h4, h5, h6⟩
  · rw [h1, h2]; exact ⟨⟨rfl, rfl, rfl⟩, j, rfl, rfl⟩
  · rw [h1, h2, h3, h4]
    exact ⟨⟨rfl, by dsimp only; rw [h.values], h5.2.2.merge⟩, j, rfl, rfl⟩

end

/-! ## Lexers -/

theorem shift_inj (l c : Nat) (x y : Context) : shiftCtx l c x = shiftCtx l c y ↔ x = y := by
  constructor
  · intro h
    cases x; cases y
    simp only [shiftCtx, Context.mk.injEq] at h ⊢
    obtain ⟨h1, h2, h3, h4, h5⟩ := h
    have e1 := Nat.add_right_cancel h1
    have e3 := Nat.add_right_cancel h3
    subst e1 e3
    exact ⟨rfl, Nat.add_right_cancel h2, rfl, Nat.add_right_cancel h4, h5⟩
  · rintro rfl; rfl

/-- The tokens of a text at two places. -/
theorem twins_shift (ts : List Token) (l c l' c' : Nat) :
    Twins (ts.map fun t => { t with ctx := shiftCtx l c t.ctx }) (ts.map fun t => { t with ctx := shiftCtx l' c' t.ctx }) :=
  ⟨ts, shiftCtx l c, shiftCtx l' c', shift_inj l c, shift_inj l' c', fun _ => rfl, rfl, rfl⟩

theorem both_shift (x : Except Err (List Token)) (l c l' c' : Nat) :
    Both Twins (x.map fun ts => ts.map fun t => { t with ctx := shiftCtx l c t.ctx }) (x.map fun ts => ts.map fun t => { t with ctx := shiftCtx l' c' t.ctx }) := by
  cases x with
  | error e => exact rfl
  | ok ts => exact twins_shift ts l c l' c'

theorem both_lexText (text : Str) (l c l' c' : Nat) (src : Option Str) :
    Both Twins (lexText (TextBuffer.ofText text l c src)) (lexText (TextBuffer.ofText text l' c' src)) := by
  rw [C11_text text l c, C11_text text l' c']
  exact both_shift _ _ _ _ _

theorem both_lexArgs (text : Str) (l c l' c' : Nat) (src : Option Str) :
    Both Twins (lexArgs (TextBuffer.ofText text l c src)) (lexArgs (TextBuffer.ofText text l' c' src)) := by
  rw [C11_arguments text l c, C11_arguments text l' c']
  exact both_shift _ _ _ _ _

theorem both_lexPre (text : Str) (l c l' c' : Nat) (src : Option Str) :
    Both Twins (lexPre (TextBuffer.ofText text l c src)) (lexPre (TextBuffer.ofText text l' c' src)) := by
  rw [C11_preprocess text l c, C11_preprocess text l' c']
  exact both_shift _ _ _ _ _

theorem both_lexCondition (text : Str) (l c l' c' : Nat) (src : Option Str) :
    Both Twins (lexCondition (TextBuffer.ofText text l c src)) (lexCondition (TextBuffer.ofText text l' c' src)) := by
  rw [C11_condition text l c, C11_condition text l' c']
  cases lexCondition (TextBuffer.ofText text 0 0 src) with
  | ok ts => exact twins_shift ts l c l' c'
  | error e => cases e <;> exact rfl

theorem both_lexDocument (text : Str) (l c l' c' : Nat) (src : Option Str) :
    Both Twins (lexDocument (TextBuffer.ofText text l c src)) (lexDocument (TextBuffer.ofText text l' c' src)) := by
  rw [C11_document text l c, C11_document text l' c']
  cases lexDocument (TextBuffer.ofText text 0 0 src) with
  | ok ts => exact twins_shift ts l c l' c'
  | error e => cases e <;> exact rfl

/-! ## The loop of the parsers -/

/-- The last tokens of two parser loops. -/
def Lasts (ts ts' : List Token) (t t' : Token) : Prop := (t = initialLast ∧ t' = initialLast) ∨ Paired ts ts' t t'

/-- The next token is the last one in both or in none. -/
theorem lasts_eq {ts ts' : List Token} (hts : Twins ts ts') {t t' u u' : Token} (ht : Paired ts ts' t t') (hn : t.type ≠ .EOF) (hn' : t'.type ≠ .EOF)
    (hu : Lasts ts ts' u u') : t = u ↔ t' = u' := by
  rcases hu with ⟨rfl, rfl⟩ | hu
  · exact ⟨fun e => absurd (by rw [e]; rfl) hn, fun e => absurd (by rw [e]; rfl) hn'⟩
  · exact hts.eq_iff ht hu

theorem peekIs_eof {tm : TM} {t : Token} (h : tm.peekIs .EOF = .ok false) (h2 : tm.peek = .ok t) : t.type ≠ .EOF := by
  unfold TM.peekIs TM.peek at h
  unfold TM.peek at h2
  intro e
  have key : ∀ u : Token, TM.checkToken u none none none = .ok t → TM.checkToken u (some .EOF) none none = .ok u := by
    intro u hu
    unfold TM.checkToken at hu ⊢
    simp at hu
    subst hu
    simp [e]
  split at h2
  · rename_i u hu
    rw [hu] at h
    dsimp only at h
    rw [key u h2] at h
    cases h
  · rename_i hu
    rw [hu] at h
    dsimp only at h
    split at h2
    · cases h2
    · rename_i u hu2
      rw [hu2] at h
      dsimp only at h
      rw [key u h2] at h
      cases h

/-- Lists of functions that see the same. -/
inductive SeeAll {α β : Type} (ts ts' : List Token) (R : α → β → Prop) : List (TokFn α) → List (TokFn β) → Prop where
  | nil : SeeAll ts ts' R [] []
  | cons {f : TokFn α} {g : TokFn β} {fs : List (TokFn α)} {gs : List (TokFn β)} (h : Sees ts ts' R f g) (hs : SeeAll ts ts' R fs gs) : SeeAll ts ts' R (f :: fs) (g :: gs)

theorem sees_try {α β : Type} {ts ts' : List Token} {R : α → β → Prop} {fs : List (TokFn α)} {gs : List (TokFn β)} (h : SeeAll ts ts' R fs gs)
    {t t' : Token} (ht : Near t.ctx t'.ctx) : Sees ts ts' R (tryFns t fs) (tryFns t' gs) := by
  intro i
  induction h with
  | nil => simp only [tryFns]; exact (by simp [Both, SameErr, Err.said, near_iff.1 ht])
  | cons h hs ih =>
    simp only [tryFns]
    rename_i f g fs gs
    have h1 := h i
    cases hx : f ⟨ts, i⟩ <;> cases hy : g ⟨ts', i⟩ <;> rw [hx, hy] at h1
    · rename_i e e'
      have := sameErr_token h1
      by_cases he : e = .token
      · rw [he, this.1 he]; exact ih
      · have he' : e' ≠ .token := fun e2 => he (this.2 e2)
        cases e <;> cases e' <;> first | exact h1 | exact absurd rfl he | exact absurd rfl he' | (cases h1)
    · exact h1.elim
    · exact h1.elim
    · exact h1

theorem both_parseLoop {α β : Type} {ts ts' : List Token} (hts : Twins ts ts') {R : List α → List β → Prop} {Q : α → β → Prop}
    {fs : List α → List (TokFn α)} {gs : List β → List (TokFn β)} (hf : ∀ l l', R l l' → SeeAll ts ts' Q (fs l) (gs l'))
    (hR : ∀ l l' a b, R l l' → Q a b → R (l ++ [a]) (l' ++ [b])) :
    ∀ (n i : Nat) (u u' : Token) (l : List α) (l' : List β), R l l' → Lasts ts ts' u u' → Both R (parseLoop fs n u ⟨ts, i⟩ l) (parseLoop gs n u' ⟨ts', i⟩ l')
  | 0, _, _, _, _, _, _, _ => rfl
  | n + 1, i, u, u', l, l', hl, hu => by
    rw [parseLoop, parseLoop]
    have hp := both_peekIs hts i .EOF none none
    have hq := both_peek hts i none none none
    cases h1 : TM.peekIs ⟨ts, i⟩ .EOF <;> cases h2 : TM.peekIs ⟨ts', i⟩ .EOF <;> rw [h1, h2] at hp
    · exact hp
    · exact hp.elim
    · exact hp.elim
    · rename_i b b'
      cases hp
      cases b with
      | true => exact hl
      | false =>
        cases h3 : TM.peek ⟨ts, i⟩ <;> cases h4 : TM.peek ⟨ts', i⟩ <;> rw [h3, h4] at hq
        · exact hq
        · exact hq.elim
        · exact hq.elim
        · rename_i t t'
          have he := lasts_eq hts hq.2 (peekIs_eof h1 h3) (peekIs_eof h2 h4) hu
          change Both R (if t = u then _ else _) (if t' = u' then _ else _)
          by_cases h : t = u
          · rw [if_pos h, if_pos (he.1 h)]
            change SameErr _ _
            simp [SameErr, Err.said, near_iff.1 hq.1.2.2]
          · rw [if_neg h, if_neg fun e => h (he.2 e)]
            refine Sees.bind (sees_try (hf l l' hl) hq.1.2.2 i) fun a b j hab => ?_
            exact both_parseLoop hts hf hR n j t t' _ _ (hR _ _ _ _ hl hab) (.inr hq.2)

/-! ## The preprocessor -/

/-- A text without its position. -/
def CtxText.adrift (t : CtxText) : CtxText := { t with ctx := Context.adrift t.ctx }

/-- Texts that differ in their position only. -/
def LikeText (t t' : CtxText) : Prop := t.value = t'.value ∧ Near t.ctx t'.ctx

theorem likeText_iff {t t' : CtxText} : LikeText t t' ↔ CtxText.adrift t = CtxText.adrift t' := by
  cases t; cases t'
  simp [LikeText, CtxText.adrift, near_iff]

/-- Lists of texts that differ in the positions only. -/
def LikeTexts (l l' : List CtxText) : Prop := l.map CtxText.adrift = l'.map CtxText.adrift

theorem LikeTexts.snoc {l l' : List CtxText} {a b : CtxText} (h : LikeTexts l l') (hab : LikeText a b) : LikeTexts (l ++ [a]) (l' ++ [b]) := by
  unfold LikeTexts at h ⊢
  rw [List.map_append, List.map_append, h, List.map_singleton, List.map_singleton, likeText_iff.1 hab]

theorem sees_err {α β : Type} {Q : α → β → Prop} {m : Msg} {c c' : Context} (h : Near c c') :
    Both Q (.error (.parser m (some c)) : Except Err α) (.error (.parser m (some c')) : Except Err β) := by
  simp [Both, SameErr, Err.said, near_iff.1 h]

section
variable {ts ts' : List Token} (hts : Twins ts ts')
include hts

theorem sees_escapedChar : Sees ts ts' LikeText preEscapedChar preEscapedChar := by
  intro i
  unfold preEscapedChar
  refine Sees.bind (sees_get hts _ _ _ i) fun a a' j ha => ?_
  refine Sees.bind (sees_get hts _ _ _ j) fun b b' k hb => ?_
  dsimp only
  rw [hb.2.1]
  exact ⟨⟨rfl, ha.2.2.merge⟩, k, rfl, rfl⟩

theorem sees_preVerbatim : Sees ts ts' LikeText preVerbatim preVerbatim := by
  intro i
  unfold preVerbatim
  refine Sees.bind (sees_get hts _ _ _ i) fun a a' j ha => ?_
  refine Sees.bind (sees_collectJoin hts _ _ _ j) fun b b' k hb => ?_
  refine Sees.bind (sees_get hts _ _ _ k) fun c c' m hc => ?_
  dsimp only
  exact ⟨⟨by dsimp only; rw [hb.2.1], ha.2.2.merge⟩, m, rfl, rfl⟩

theorem sees_curly (env : Env) : Sees ts ts' LikeText (preCurly env) (preCurly env) := by
  intro i
  unfold preCurly
  refine Sees.bind (sees_get hts _ _ _ i) fun a a' j ha => ?_
  refine Sees.bind (sees_collectJoin hts _ _ _ j) fun b b' k hb => ?_
  refine Sees.bind (sees_get hts _ _ _ k) fun c c' m hc => ?_
  dsimp only
  rw [hb.2.1]
  split
  · refine (both_peekIs hts m _ _ _).bind fun x y hxy => ?_
    cases hxy
    split
    · exact sees_err hb.2.2
    · refine Sees.bind (sees_get hts _ _ _ m) fun d d' q hd => ?_
      exact ⟨⟨rfl, ha.2.2.merge⟩, q, rfl, rfl⟩
  · cases Env.getitem env b'.value with
    | error e => exact sees_err ha.2.2.merge
    | ok v => exact ⟨⟨rfl, ha.2.2.merge⟩, m, rfl, rfl⟩

theorem sees_pass : Sees ts ts' LikeText prePass prePass := by
  intro i
  unfold prePass
  refine Sees.bind (sees_get hts _ _ _ i) fun a a' j ha => ?_
  exact ⟨⟨ha.2.1, ha.2.2⟩, j, rfl, rfl⟩

end

theorem both_preprocessNodes (env : Env) (text : Str) (l c l' c' : Nat) (src : Option Str) :
    Both LikeTexts (preprocessNodes env text l c src) (preprocessNodes env text l' c' src) := by
  unfold preprocessNodes
  refine (both_lexPre text l c l' c' src).bind fun ts ts' h => ?_
  rw [h.length]
  exact both_parseLoop h (Q := LikeText) (fun _ _ _ => .cons (sees_escapedChar h) (.cons (sees_preVerbatim h) (.cons (sees_curly h env) (.cons (sees_pass h) .nil))))
    (fun _ _ _ _ h1 h2 => h1.snoc h2) _ _ _ _ _ _ rfl (.inl ⟨rfl, rfl⟩)

theorem LikeTexts.processed {l l' : List CtxText} (h : LikeTexts l l') : Twin (processedText l) (processedText l') := by
  unfold processedText
  refine Alikes.joined ?_ _
  unfold Alikes
  have := congrArg (List.map fun t : CtxText => (⟨.TEXT, t.value, t.ctx⟩ : Token)) h
  simpa [Token.adrift, CtxText.adrift, Function.comp_def] using this

theorem both_preprocess (env : Env) (text : Str) (l c l' c' : Nat) (src : Option Str) :
    Both Twin (preprocess env text l c src) (preprocess env text l' c' src) := by
  unfold preprocess
  exact (both_preprocessNodes env text l c l' c' src).bind fun _ _ h => h.processed

/-! ## Arguments -/

/-- Apply a function to the values of a dictionary. -/
def overValues {α β : Type} (f : α → β) (d : Dict α) : Dict β := d.map fun kv => (kv.1, f kv.2)

theorem overValues_get? {α β : Type} (f : α → β) (d : Dict α) (k : Str) : Dict.get? (overValues f d) k = (Dict.get? d k).map f := by
  unfold overValues
  induction d with
  | nil => rfl
  | cons e d ih => simp only [List.map_cons, Dict.get?]; split <;> simp_all

theorem overValues_has {α β : Type} (f : α → β) (d : Dict α) (k : Str) : Dict.has (overValues f d) k = Dict.has d k := by
  unfold Dict.has
  rw [overValues_get?, Option.isSome_map]

theorem overValues_set {α β : Type} (f : α → β) (d : Dict α) (k : Str) (v : α) : overValues f (Dict.set d k v) = Dict.set (overValues f d) k (f v) := by
  unfold overValues
  induction d with
  | nil => rfl
  | cons e d ih => simp only [Dict.set, List.map_cons]; split <;> simp_all

theorem overValues_update {α β : Type} (f : α → β) (d e : Dict α) : overValues f (Dict.update d e) = Dict.update (overValues f d) (overValues f e) := by
  unfold Dict.update
  induction e generalizing d with
  | nil => rfl
  | cons x e ih =>
    rw [List.foldl_cons, ih, overValues_set]
    rfl

theorem setNames_over {α β : Type} (f : α → β) (us : List α) (d : Dict α) (names : List Str) :
    setNames (us.map f) (overValues f d) names = ((setNames us d names).1.map f, overValues f (setNames us d names).2) := by
  unfold setNames
  simp only [overValues_has, overValues_update, List.map_drop]
  congr 3
  induction (names.filter fun n => !Dict.has d n) generalizing us with
  | nil => rfl
  | cons n ns ih =>
    cases us with
    | nil => rfl
    | cons u us =>
      simp only [List.map_cons, List.zip_cons_cons, overValues, List.map_cons]
      exact congrArg _ (ih us)

/-- An argument without its position. -/
def ArgItem.adrift : ArgItem → ArgItem
  | .named k n => .named k (CtxText.adrift n)
  | .unnamed n => .unnamed (CtxText.adrift n)

/-- Arguments that differ in their position only. -/
def LikeItem (a b : ArgItem) : Prop := ArgItem.adrift a = ArgItem.adrift b

/-- Lists of arguments that differ in the positions only. -/
def LikeItems (l l' : List ArgItem) : Prop := l.map ArgItem.adrift = l'.map ArgItem.adrift

theorem isNamed_adrift (a : ArgItem) : (ArgItem.adrift a).isNamed = a.isNamed := by cases a <;> rfl

theorem LikeItems.any {l l' : List ArgItem} (h : LikeItems l l') : l.any (·.isNamed) = l'.any (·.isNamed) := by
  have e : ∀ m : List ArgItem, m.any (·.isNamed) = (m.map ArgItem.adrift).any (·.isNamed) := by
    intro m
    induction m with
    | nil => rfl
    | cons a m ih => simp only [List.any_cons, List.map_cons, isNamed_adrift, ih]
  rw [e l, e l']
  exact congrArg (List.any · _) h

theorem LikeItems.snoc {l l' : List ArgItem} {a b : ArgItem} (h : LikeItems l l') (hab : LikeItem a b) : LikeItems (l ++ [a]) (l' ++ [b]) := by
  unfold LikeItems at h ⊢
  rw [List.map_append, List.map_append, h, List.map_singleton, List.map_singleton, hab]

theorem unnamedOf_adrift (l : List ArgItem) : unnamedOf (l.map ArgItem.adrift) = (unnamedOf l).map CtxText.adrift := by
  unfold unnamedOf
  induction l with
  | nil => rfl
  | cons a l ih => cases a <;> simp_all [ArgItem.adrift]

theorem namedOf_adrift (l : List ArgItem) : namedOf (l.map ArgItem.adrift) = overValues CtxText.adrift (namedOf l) := by
  unfold namedOf
  have key : ∀ d : Dict CtxText, (l.map ArgItem.adrift).foldl (fun d i => match i with | .named k n => Dict.set d k n | .unnamed _ => d) (overValues CtxText.adrift d) =
      overValues CtxText.adrift (l.foldl (fun d i => match i with | .named k n => Dict.set d k n | .unnamed _ => d) d) := by
    induction l with
    | nil => exact fun _ => rfl
    | cons a l ih =>
      intro d
      cases a with
      | named k n => simp only [List.map_cons, ArgItem.adrift, List.foldl_cons]; rw [← overValues_set]; exact ih _
      | unnamed n => exact ih _
  exact key []

section
variable {ts ts' : List Token} (hts : Twins ts ts')
include hts

theorem sees_argValue : Sees ts ts' Twin argValue argValue := by
  intro i
  unfold argValue
  refine (both_peekIs hts i _ _ _).bind fun x y hxy => ?_
  cases hxy
  split
  · refine Sees.bind (sees_get hts _ _ _ i) fun a a' j ha => ?_
    refine Sees.bind (sees_collectJoin hts _ _ _ j) fun b b' k hb => ?_
    refine Sees.bind (sees_get hts _ _ _ k) fun c c' m hc => ?_
    exact ⟨hb, m, rfl, rfl⟩
  · exact sees_collectJoin hts _ _ _ i

theorem sees_opt (i : Nat) (ty : TokenType) (v : Option Str) :
    Both (fun x y => ∃ j, x = (⟨ts, j⟩ : TM) ∧ y = ⟨ts', j⟩) (optToken ty v ⟨ts, i⟩) (optToken ty v ⟨ts', i⟩) := by
  unfold optToken
  have h := sees_get hts (some ty) v none i
  dsimp only at h
  cases h1 : TM.get ⟨ts, i⟩ (some ty) v <;> cases h2 : TM.get ⟨ts', i⟩ (some ty) v <;> rw [h1, h2] at h
  · rename_i e e'
    have := sameErr_token h
    by_cases he : e = .token
    · rw [he, this.1 he]; exact ⟨i, rfl, rfl⟩
    · have he' : e' ≠ .token := fun e2 => he (this.2 e2)
      cases e <;> cases e' <;> first | exact h | exact absurd rfl he | exact absurd rfl he' | (cases h)
  · exact h.elim
  · exact h.elim
  · obtain ⟨-, j, e1, e2⟩ := h
    exact ⟨j, e1, e2⟩

theorem sees_namedArgument : Sees ts ts' LikeItem namedArgument namedArgument := by
  intro i
  unfold namedArgument
  refine Sees.bind (sees_get hts _ _ _ i) fun a a' j ha => ?_
  refine Sees.bind (sees_get hts _ _ _ j) fun b b' k hb => ?_
  refine Sees.bind (sees_argValue hts k) fun c c' m hc => ?_
  refine (sees_opt hts m _ _).bind fun _ _ ⟨p, e1, e2⟩ => ?_
  cases e1; cases e2
  refine (sees_opt hts p _ _).bind fun _ _ ⟨q, e1, e2⟩ => ?_
  cases e1; cases e2
  refine ⟨?_, q, rfl, rfl⟩
  simp only [LikeItem, ArgItem.adrift, CtxText.adrift, ha.2.1, hc.2.1, near_iff.1 hc.2.2]

theorem sees_unnamedArgument (on : Bool) : Sees ts ts' LikeItem (unnamedArgument on) (unnamedArgument on) := by
  intro i
  unfold unnamedArgument
  split
  · exact rfl
  refine Sees.bind (sees_argValue hts i) fun c c' m hc => ?_
  refine (sees_opt hts m _ _).bind fun _ _ ⟨p, e1, e2⟩ => ?_
  cases e1; cases e2
  refine (sees_opt hts p _ _).bind fun _ _ ⟨q, e1, e2⟩ => ?_
  cases e1; cases e2
  refine ⟨?_, q, rfl, rfl⟩
  simp only [LikeItem, ArgItem.adrift, CtxText.adrift, hc.2.1, near_iff.1 hc.2.2]

end

/-- Parsed arguments without their positions. -/
def ParsedArgs.adrift (p : ParsedArgs) : ParsedArgs :=
  ⟨p.unnamed.map CtxText.adrift, overValues CtxText.adrift p.named, p.tagNodes, p.subtype.map CtxText.adrift, p.alias.map CtxText.adrift⟩

/-- Parsed arguments that differ in the positions only. -/
def LikeArgs (p p' : ParsedArgs) : Prop := ParsedArgs.adrift p = ParsedArgs.adrift p'

/-- The same for arguments during isolation. -/
def IsoNode.adrift (n : IsoNode) : IsoNode := { n with node := CtxText.adrift n.node }

theorem isoPass_adrift (c : Char) (mark : IsoNode → IsoNode) (hm : ∀ n, IsoNode.adrift (mark n) = mark (IsoNode.adrift n)) (n : IsoNode) :
    isoPass c mark (IsoNode.adrift n) = IsoNode.adrift (isoPass c mark n) := by
  unfold isoPass
  cases n with
  | mk node a b d =>
    cases node with
    | mk v ctx =>
      cases v with
      | nil => rfl
      | cons x v =>
        simp only [IsoNode.adrift, CtxText.adrift]
        split
        · exact (hm ⟨⟨v, ctx⟩, a, b, d⟩).symm
        · rfl

theorem isolate_adrift (us : List CtxText) (d : Dict CtxText) :
    isolate (us.map CtxText.adrift) (overValues CtxText.adrift d) = (isolate us d).map ParsedArgs.adrift := by
  have e1 : ((us.map CtxText.adrift).map fun n => ({ node := n } : IsoNode)) = (us.map fun n => ({ node := n } : IsoNode)).map IsoNode.adrift := by
    simp only [List.map_map]; rfl
  have pass : ∀ (c : Char) (mark : IsoNode → IsoNode), (∀ n, IsoNode.adrift (mark n) = mark (IsoNode.adrift n)) → ∀ l : List IsoNode,
      (l.map IsoNode.adrift).map (isoPass c mark) = (l.map (isoPass c mark)).map IsoNode.adrift := by
    intro c mark hm l
    simp only [List.map_map]
    exact List.map_congr_left fun n _ => isoPass_adrift c mark hm n
  have filt : ∀ (p : IsoNode → Bool), (∀ n, p (IsoNode.adrift n) = p n) → ∀ l : List IsoNode, (l.map IsoNode.adrift).filter p = (l.filter p).map IsoNode.adrift := by
    intro p hp l
    induction l with
    | nil => rfl
    | cons n l ih => simp only [List.map_cons, List.filter_cons, hp, ih]; split <;> rfl
  unfold isolate
  simp only [e1]
  rw [pass '#' (fun n => { n with isTag := true }) (fun _ => rfl), pass '*' (fun n => { n with isSubtype := true }) (fun _ => rfl),
    pass '@' (fun n => { n with isAlias := true }) (fun _ => rfl)]
  rw [filt (·.isSubtype) (fun _ => rfl), filt (·.isAlias) (fun _ => rfl), List.length_map, List.length_map]
  split
  · rfl
  split
  · rfl
  generalize List.map (isoPass '@' _) _ = l3
  simp only [filt (fun n => !(n.isTag || n.isSubtype || n.isAlias)) (fun _ => rfl), filt (·.isTag) (fun _ => rfl), filt (·.isSubtype) (fun _ => rfl), Except.map, ParsedArgs.adrift,
    List.map_map, Function.comp_def, List.head?_map, Option.map_map]
  rfl

theorem foldl_over {α β γ : Type} (f : α → β) {F : Dict β → γ → Dict β} {G : Dict α → γ → Dict α} (h : ∀ d k, overValues f (G d k) = F (overValues f d) k) (ks : List γ) (d : Dict α) :
    ks.foldl F (overValues f d) = overValues f (ks.foldl G d) := by
  induction ks generalizing d with
  | nil => rfl
  | cons k ks ih => rw [List.foldl_cons, List.foldl_cons, ← ih, h]

theorem applyAlias_adrift (p : ParsedArgs) (al : CtxText) (a : Alias) (missing : List Str) :
    applyAlias (ParsedArgs.adrift p) (CtxText.adrift al) a missing = ParsedArgs.adrift (applyAlias p al a missing) := by
  unfold applyAlias
  dsimp only [ParsedArgs.adrift]
  rw [foldl_over CtxText.adrift (G := fun d k => match Dict.get? a.args k with | some v => Dict.set d k ⟨v, al.ctx⟩ | none => d), setNames_over]
  rotate_left
  · intro d k
    cases Dict.get? a.args k with
    | none => rfl
    | some v => exact overValues_set _ _ _ _
  dsimp only
  congr 1
  cases p.subtype <;> cases a.subtype <;> rfl

theorem both_isolateTags (env : Env) {l l' : List ArgItem} (h : LikeItems l l') :
    Both LikeArgs (isolateTagsAndSubtype env (unnamedOf l) (namedOf l)) (isolateTagsAndSubtype env (unnamedOf l') (namedOf l')) := by
  unfold isolateTagsAndSubtype
  have hi : Both LikeArgs (isolate (unnamedOf l) (namedOf l)) (isolate (unnamedOf l') (namedOf l')) := by
    have : (isolate (unnamedOf l) (namedOf l)).map ParsedArgs.adrift = (isolate (unnamedOf l') (namedOf l')).map ParsedArgs.adrift := by
      rw [← isolate_adrift, ← isolate_adrift, ← unnamedOf_adrift, ← unnamedOf_adrift, ← namedOf_adrift, ← namedOf_adrift, h]
    cases h1 : isolate (unnamedOf l) (namedOf l) <;> cases h2 : isolate (unnamedOf l') (namedOf l') <;> rw [h1, h2] at this <;>
      first | (exact congrArg Err.said (Except.error.inj this)) | (cases this; done) | exact Except.ok.inj this
  refine hi.bind fun p p' hp => ?_
  have ha : p.alias.map CtxText.adrift = p'.alias.map CtxText.adrift := congrArg ParsedArgs.alias hp
  cases h1 : p.alias <;> cases h2 : p'.alias <;> rw [h1, h2] at ha
  · exact hp
  · cases ha
  · cases ha
  · rename_i al al'
    have ha := Option.some.inj ha
    have hv := (likeText_iff.2 ha).1
    dsimp only
    rw [hv]
    cases lookupAlias env al'.value with
    | error e => exact rfl
    | ok a =>
      change LikeArgs _ _
      unfold LikeArgs
      have hm : missingKeys a p.named = missingKeys a p'.named := by
        unfold missingKeys
        have : overValues CtxText.adrift p.named = overValues CtxText.adrift p'.named := congrArg ParsedArgs.named hp
        refine congrArg (List.filter · _) (funext fun k => ?_)
        rw [← overValues_has CtxText.adrift, this, overValues_has]
      rw [← applyAlias_adrift, ← applyAlias_adrift, hm, ha, show ParsedArgs.adrift p = ParsedArgs.adrift p' from hp]

theorem both_parseArgTokens (env : Env) {ts ts' : List Token} (h : Twins ts ts') : Both LikeArgs (parseArgTokens env ts) (parseArgTokens env ts') := by
  unfold parseArgTokens
  refine Both.bind (R := LikeItems) ?_ fun l l' hl => both_isolateTags env hl
  rw [h.length]
  refine both_parseLoop h (Q := LikeItem) (fun l l' hl => ?_) (fun _ _ _ _ h1 h2 => h1.snoc h2) _ _ _ _ _ _ rfl (.inl ⟨rfl, rfl⟩)
  unfold argFns
  rw [hl.any]
  exact .cons (sees_namedArgument h) (.cons (sees_unnamedArgument h _) .nil)

theorem sameErr_locate {e e' : Err} (h : SameErr e e') {c c' : Context} (hc : Near c c') : SameErr (e.locate c) (e'.locate c') := by
  unfold SameErr at h ⊢
  cases e <;> cases e' <;> try (first | exact h | (cases h; done))
  rename_i m o m' o'
  cases o <;> cases o' <;> simp_all [Err.locate, Err.said, near_iff]

theorem both_parseArgs (env : Env) (text : Str) (l c l' c' : Nat) (src : Option Str) :
    Both LikeArgs (parseArgs env text l c src) (parseArgs env text l' c' src) := by
  unfold parseArgs
  refine (both_lexArgs text l c l' c' src).bind fun ts ts' h => ?_
  have hp := both_parseArgTokens env h
  unfold locateArgs
  have h0 := h.at 0
  rw [← List.head?_eq_getElem?, ← List.head?_eq_getElem?] at h0
  cases h1 : parseArgTokens env ts <;> cases h2 : parseArgTokens env ts' <;> rw [h1, h2] at hp
  · rcases h0 with ⟨e1, e2⟩ | ⟨t, t', e1, e2, e3⟩
    · rw [e1, e2]; exact hp
    · rw [e1, e2]; exact sameErr_locate hp e3.2.2
  · exact hp.elim
  · exact hp.elim
  · exact hp

theorem both_processArguments (env : Env) {t t' : Token} (h : Twin t t') : Both LikeArgs (processArguments env t) (processArguments env t') := by
  unfold processArguments
  rw [h.2.1, show t.ctx.source = t'.ctx.source from h.2.2]
  exact both_parseArgs env _ _ _ _ _ _

theorem both_processArgumentsWithVariables (env : Env) {t t' : Token} (h : Twin t t') :
    Both LikeArgs (processArgumentsWithVariables env t) (processArgumentsWithVariables env t') := by
  unfold processArgumentsWithVariables
  rw [h.2.1, show t.ctx.source = t'.ctx.source from h.2.2]
  refine (both_preprocess env _ _ _ _ _ _).bind fun x x' hx => ?_
  rw [hx.2.1]
  exact both_parseArgs env _ _ _ _ _ _

theorem LikeArgs.setNames {p p' : ParsedArgs} (h : LikeArgs p p') (names : List Str) : LikeArgs (p.setNames names) (p'.setNames names) := by
  have e : ∀ q : ParsedArgs, ParsedArgs.adrift (q.setNames names) = (ParsedArgs.adrift q).setNames names := by
    intro q
    unfold ParsedArgs.setNames
    dsimp only [ParsedArgs.adrift]
    rw [setNames_over]
  unfold LikeArgs at h ⊢
  rw [e, e, h]

theorem LikeArgs.arguments {p p' : ParsedArgs} (h : LikeArgs p p') : p.arguments = p'.arguments := by
  have e : ∀ q : ParsedArgs, (ParsedArgs.adrift q).arguments = q.arguments := by
    intro q
    simp only [ParsedArgs.arguments, ParsedArgs.adrift, overValues, List.map_map, Function.comp_def, Option.map_map, CtxText.adrift]
  rw [← e p, ← e p', h]

theorem LikeArgs.values {p p' : ParsedArgs} (h : LikeArgs p p') : p.unnamed.map (·.value) = p'.unnamed.map (·.value) := by
  have := congrArg NodeArgs.unnamed h.arguments
  exact this

theorem LikeArgs.get {p p' : ParsedArgs} (h : LikeArgs p p') (k : Str) :
    (Dict.get? p.named k = none ∧ Dict.get? p'.named k = none) ∨
      ∃ t t', Dict.get? p.named k = some t ∧ Dict.get? p'.named k = some t' ∧ LikeText t t' := by
  have h1 : overValues CtxText.adrift p.named = overValues CtxText.adrift p'.named := congrArg ParsedArgs.named h
  have h2 : Dict.get? (overValues CtxText.adrift p.named) k = Dict.get? (overValues CtxText.adrift p'.named) k := by rw [h1]
  rw [overValues_get?, overValues_get?] at h2
  cases h3 : Dict.get? p.named k <;> cases h4 : Dict.get? p'.named k <;> rw [h3, h4] at h2
  · exact .inl ⟨rfl, rfl⟩
  · cases h2
  · cases h2
  · exact .inr ⟨_, _, rfl, rfl, likeText_iff.2 (Option.some.inj h2)⟩

/-! ## Conditions -/

/-- Conditions that differ in the position only. -/
def LikeCondition (c c' : ConditionNode) : Prop := c.var = c'.var ∧ c.comparison = c'.comparison ∧ c.value = c'.value ∧ Near c.ctx c'.ctx

theorem both_parseCondition (text : Str) (l c l' c' : Nat) (src : Option Str) :
    Both (fun x y => (x = none ∧ y = none) ∨ ∃ a b, x = some a ∧ y = some b ∧ LikeCondition a b) (parseCondition text l c src) (parseCondition text l' c' src) := by
  unfold parseCondition
  refine (both_lexCondition text l c l' c' src).bind fun ts ts' h => ?_
  rw [h.length]
  refine Both.bind (R := fun l l' => (l.getLast? = none ∧ l'.getLast? = none) ∨ ∃ a b, l.getLast? = some a ∧ l'.getLast? = some b ∧ LikeCondition a b) ?_ fun x y hxy => ?_
  rotate_left
  · exact hxy
  refine both_parseLoop h (Q := LikeCondition) (fun _ _ _ => .cons ?_ .nil) (fun l l' a b _ h2 => ?_) _ _ _ _ _ _ (.inl ⟨rfl, rfl⟩) (.inl ⟨rfl, rfl⟩)
  · intro i
    unfold conditionParserFn
    refine Sees.bind (sees_get h _ _ _ i) fun a a' j ha => ?_
    refine Sees.bind (sees_get h _ _ _ j) fun b b' k hb => ?_
    refine Sees.bind (sees_get h _ _ _ k) fun c c' m hc => ?_
    exact ⟨⟨ha.2.1, hb.2.1, hc.2.1, ha.2.2.merge⟩, m, rfl, rfl⟩
  · refine .inr ⟨a, b, ?_, ?_, h2⟩ <;> simp

theorem both_processCondition (env : Env) {t t' : Token} (h : Twin t t') :
    Both (fun x y => (x = none ∧ y = none) ∨ ∃ a b, x = some a ∧ y = some b ∧ LikeCondition a b) (processConditionWithVariables env t) (processConditionWithVariables env t') := by
  unfold processConditionWithVariables
  rw [h.2.1, show t.ctx.source = t'.ctx.source from h.2.2]
  refine (both_preprocess env _ _ _ _ _ _).bind fun x x' hx => ?_
  rw [hx.2.1]
  exact both_parseCondition _ _ _ _ _ _

/-- Controls that differ in the position only. -/
def LikeControl (c c' : Control) : Prop := c.var = c'.var ∧ c.negated = c'.negated ∧ c.value = c'.value ∧ Near c.ctx c'.ctx

theorem both_mkControl (op var cmp value : Str) {c c' : Context} (h : Near c c') : Both LikeControl (mkControl op var cmp value c) (mkControl op var cmp value c') := by
  unfold mkControl
  split
  · exact sees_err h
  split
  · exact ⟨rfl, rfl, rfl, h⟩
  split
  · exact ⟨rfl, rfl, rfl, h⟩
  · exact rfl

theorem both_control {c c' : Control} (h : LikeControl c c') (env : Env) : Both Eq (c.process env) (c'.process env) := by
  unfold Control.process
  rw [h.1]
  split
  · exact sees_err h.2.2.2
  · dsimp only
    rw [h.2.1, h.2.2.1]
    exact rfl

end Mau
