import Verif.Lemmas.DocCalm
import Verif.Lemmas.EnvAll
import Verif.Lemmas.CondTotal
import Verif.Lemmas.AliasBounds
import Verif.Lemmas.Tidy
import Verif.Lemmas.DocFuel
import Verif.Props.Errors

set_option linter.unusedSimpArgs false

/-!
# Processing functions that end

Results of the document parser for all sufficiently large recursion budgets.
-/

namespace Mau
open Spec

/-- What is demanded of a result. -/
def Meets {α : Type} (E : Err → Prop) (J : DocSt → Prop) (Q : α → DocSt → Prop) : PRes DocSt α → Prop
  | .ok a s => Q a s
  | .fail s => J s
  | .err e => E e

/-- For large budgets the result does not change, and is as demanded. -/
def Ends {α : Type} (E : Err → Prop) (J : DocSt → Prop) (F : Nat → DM α) (s : DocSt) (Q : α → DocSt → Prop) : Prop :=
  ∃ r, Ev (fun n => F n s) r ∧ Meets E J Q r

section
variable {α β : Type} {E : Err → Prop} {J : DocSt → Prop}

theorem Ends.const {f : DM α} {s : DocSt} {Q : α → DocSt → Prop} (h : Meets E J Q (f s)) : Ends E J (fun _ => f) s Q :=
  ⟨_, .const _, h⟩

theorem Ends.bind {F : Nat → DM α} {G : Nat → α → DM β} {s : DocSt} {Q : α → DocSt → Prop} {R : β → DocSt → Prop} (h1 : Ends E J F s Q)
    (h2 : ∀ a s', Q a s' → Ends E J (fun n => G n a) s' R) : Ends E J (fun n => F n >>= G n) s R := by
  obtain ⟨r, ⟨N, hN⟩, ho⟩ := h1
  cases r with
  | ok a s' =>
    obtain ⟨r', ⟨M, hM⟩, ho'⟩ := h2 a s' ho
    refine ⟨r', ⟨max N M, fun n hn => ?_⟩, ho'⟩
    show (F n >>= G n) s = r'
    rw [DM.bind_of_ok (hN n (by omega))]
    exact hM n (by omega)
  | fail s' => exact ⟨.fail s', ⟨N, fun n hn => DM.bind_of_fail (hN n hn)⟩, ho⟩
  | err e => exact ⟨.err e, ⟨N, fun n hn => DM.bind_of_err (hN n hn)⟩, ho⟩

theorem Ends.mono {F : Nat → DM α} {s : DocSt} {Q R : α → DocSt → Prop} (h : Ends E J F s Q) (hq : ∀ a s', Q a s' → R a s') : Ends E J F s R := by
  obtain ⟨r, h1, h2⟩ := h
  refine ⟨r, h1, ?_⟩
  cases r with
  | ok a s' => exact hq a s' h2
  | fail s' => exact h2
  | err e => exact h2

theorem Ends.pure {a : α} {s : DocSt} {Q : α → DocSt → Prop} (h : Q a s) : Ends E J (fun _ => (Pure.pure a : DM α)) s Q := .const h

theorem Ends.raise {e : Err} {s : DocSt} {Q : α → DocSt → Prop} (he : E e) (ht : e ≠ .token) : Ends E J (fun _ => (DM.raise e : DM α)) s Q := by
  refine .const ?_
  unfold DM.raise DM.lift
  split
  · rename_i h; cases h
  · rename_i h; cases h; exact absurd rfl ht
  · rename_i h; cases h; exact he

theorem Ends.lift {x : Except Err α} {s : DocSt} {Q : α → DocSt → Prop} (hj : J s) (he : ∀ e, x = .error e → E e) (hq : ∀ a, x = .ok a → Q a s) :
    Ends E J (fun _ => DM.lift x) s Q := by
  refine .const ?_
  unfold DM.lift
  cases x with
  | ok a => exact hq a rfl
  | error e =>
    by_cases ht : e = .token
    · subst ht; exact hj
    · have := he e rfl
      split
      · rename_i h; cases h
      · exact hj
      · rename_i h; cases h; exact this

theorem Ends.get {s : DocSt} {Q : DocSt → DocSt → Prop} (h : Q s s) : Ends E J (fun _ => DM.get) s Q := .const h

theorem Ends.modify {f : DocSt → DocSt} {s : DocSt} {Q : Unit → DocSt → Prop} (h : Q () (f s)) : Ends E J (fun _ => DM.modify f) s Q := .const h

theorem Ends.fresh {s : DocSt} {Q : Nat → DocSt → Prop} (h : Q s.uid { s with uid := s.uid + 1 }) : Ends E J (fun _ => DM.fresh) s Q := .const h

theorem Ends.ite {c : Prop} [Decidable c] {F G : Nat → DM α} {s : DocSt} {Q : α → DocSt → Prop} (h1 : c → Ends E J F s Q) (h2 : ¬ c → Ends E J G s Q) :
    Ends E J (fun n => if c then F n else G n) s Q := by
  by_cases hc : c
  · simp only [hc, if_true]; exact h1 hc
  · simp only [hc, if_false]; exact h2 hc

omit E J in
theorem check_err {t : Token} {ty : Option TokenType} {v : Option Str} {f : Option (Str → Bool)} {e : Err} (h : TM.checkToken t ty v f = .error e) : e = .token := by
  unfold TM.checkToken at h
  repeat' split at h
  all_goals first | (cases h; rfl) | cases h

omit E J in
theorem peek_err {toks : List Token} (hE : EndsWithEof toks) {i : Nat} {ty : Option TokenType} {v : Option Str} {f : Option (Str → Bool)} {e : Err}
    (h : TM.peek ⟨toks, i⟩ ty v f = .error e) : e = .token := by
  obtain ⟨init, l, rfl, _⟩ := hE
  unfold TM.peek at h
  simp only [List.getLast?_concat] at h
  split at h
  · exact check_err h
  · exact check_err h

omit E J in
theorem get_err {toks : List Token} (hE : EndsWithEof toks) {i : Nat} {ty : Option TokenType} {v : Option Str} {f : Option (Str → Bool)} {e : Err}
    (h : TM.get ⟨toks, i⟩ ty v f = .error e) : e = .token := by
  unfold TM.get at h
  split at h
  · rename_i hp; cases h; exact peek_err hE hp
  · dsimp only at h
    split at h
    · rename_i hc
      cases h
      unfold TM.currentToken at hc
      split at hc
      · cases hc; rfl
      · split at hc <;> cases hc
    · cases h

/-- Looking at the next token. -/
theorem Ends.peek {toks : List Token} (hE : EndsWithEof toks) {ty : Option TokenType} {v : Option Str} {f : Option (Str → Bool)} {s : DocSt} (hj : J s)
    (hEt : E .token) {Q : Token → DocSt → Prop}
    (hq : ∀ t, TM.peek ⟨toks, s.next⟩ ty v f = .ok t → (t.type ≠ .EOF → toks[s.next]? = some t ∧ s.next + 1 < toks.length) → Q t s) :
    Ends E J (fun _ => DM.peek toks (·.peek ty v f)) s Q :=
  .lift hj (fun e he => by cases peek_err hE he; exact hEt) fun t ht => hq t ht fun h => peek_inside hE ht h

omit E J in
theorem peek_type {toks : List Token} {i : Nat} {ty : TokenType} {v : Option Str} {f : Option (Str → Bool)} {t : Token}
    (h : TM.peek ⟨toks, i⟩ (some ty) v f = .ok t) : t.type = ty := by
  have key : ∀ u : Token, TM.checkToken u (some ty) v f = .ok t → t.type = ty := by
    intro u hu
    have := chk_ok hu
    subst this
    unfold TM.checkToken at hu
    split at hu
    · cases hu
    · rename_i hn; simp at hn; exact hn.symm
  unfold TM.peek at h
  dsimp only at h
  cases hi : toks[i]? with
  | some u => rw [hi] at h; exact key _ h
  | none =>
    rw [hi] at h
    dsimp only at h
    cases hl : toks.getLast? with
    | none => rw [hl] at h; cases h
    | some u => rw [hl] at h; exact key _ h

/-- Reading a token that is not the last one. -/
theorem Ends.next {toks : List Token} (hE : EndsWithEof toks) {ty : Option TokenType} {v : Option Str} {f : Option (Str → Bool)} {s : DocSt} (hj : J s)
    {Q : Token → DocSt → Prop} (hne : ∀ t, TM.peek ⟨toks, s.next⟩ ty v f = .ok t → t.type ≠ .EOF)
    (hq : ∀ t, TM.peek ⟨toks, s.next⟩ ty v f = .ok t → toks[s.next]? = some t → s.next + 1 < toks.length → Q t { s with next := s.next + 1 }) :
    Ends E J (fun _ => DM.tm toks (·.get ty v f)) s Q := by
  refine .const ?_
  cases h : DM.tm toks (·.get ty v f) s with
  | ok a s' =>
    obtain ⟨⟨t, h1⟩, h2, h3⟩ := getDM_ok h
    obtain ⟨h4, h5⟩ := peek_inside hE h1 (hne t h1)
    have hadv : (TM.advance ⟨toks, s.next⟩).next = s.next + 1 := by
      unfold TM.advance
      rw [if_pos (by show s.next < toks.length + 1; omega)]
    have hadv' : TM.advance ⟨toks, s.next⟩ = ⟨toks, s.next + 1⟩ := by
      unfold TM.advance
      rw [if_pos (by show s.next < toks.length + 1; omega)]
    have ha : a = t := by
      rw [hadv'] at h3
      unfold TM.currentToken at h3
      obtain ⟨init, l, e, _⟩ := hE
      rw [e] at h3 h4
      simp only [List.getLast?_concat, List.getD, h4, Option.getD_some] at h3
      injection h3 with h3
      exact h3.symm
    subst ha
    rw [h2, hadv]
    exact hq a h1 h4 h5
  | fail s' =>
    unfold DM.tm at h
    split at h
    · cases h
    · cases h; exact hj
    · cases h
  | err e =>
    exfalso
    unfold DM.tm at h
    split at h
    · cases h
    · cases h
    · rename_i x hx ht
      exact hx (get_err hE ht)

/-- Reading a token of the given type. -/
theorem Ends.tok {toks : List Token} (hE : EndsWithEof toks) {ty : TokenType} {v : Option Str} {f : Option (Str → Bool)} {s : DocSt} (hty : ty ≠ .EOF) (hj : J s)
    {Q : Token → DocSt → Prop} (hq : ∀ t, toks[s.next]? = some t → t.type = ty → s.next + 1 < toks.length → Q t { s with next := s.next + 1 }) :
    Ends E J (fun _ => DM.tm toks (·.get (some ty) v f)) s Q :=
  .next hE hj (fun t ht => by rw [peek_type ht]; exact hty) fun t ht h1 h2 => hq t h1 (peek_type ht) h2

end

end Mau
