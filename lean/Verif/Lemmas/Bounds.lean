import Verif.Spec.Termination
import Verif.Lemmas.Inline

set_option linter.unusedSimpArgs false

/-!
# What functions of the tokens manager return

Errors are token errors or Mau errors, the position moves forward, and the collected values are parts of the text passed over.
-/

namespace Mau
open Spec

namespace Spec.MayOccur

theorem refl (t : Str) : MayOccur t t := ⟨List.Sublist.refl _, fun _ _ => List.infix_refl _⟩

theorem trans {a b c : Str} (h1 : MayOccur a b) (h2 : MayOccur b c) : MayOccur a c := by
  refine ⟨h1.1.trans h2.1, fun hb hn => ?_⟩
  exact (h1.2 (fun h => hb (h2.1.mem h)) (fun h => hn (h2.1.mem h))).trans (h2.2 hb hn)

theorem of_infix {a b : Str} (h : a <:+: b) : MayOccur a b := ⟨h.sublist, fun _ _ => h⟩

theorem mem {a b : Str} (h : MayOccur a b) {c : Char} (hc : c ∈ a) : c ∈ b := h.1.mem hc

theorem length_le {a b : Str} (h : MayOccur a b) : a.length ≤ b.length := h.1.length_le

end Spec.MayOccur

/-- The errors are token errors or Mau errors; a result leaves the manager behind some tokens `pre` with `Q pre a`. -/
def TokSafe {α : Type} (f : TokFn α) (Q : List Token → α → Prop) : Prop :=
  ∀ tm ts e, At tm ts e → (∀ x, f tm = .error x → x = .token ∨ x.isMau = true) ∧
    ∀ a tm', f tm = .ok (a, tm') → tm'.tokens = tm.tokens ∧ ∃ pre ts', ts = pre ++ ts' ∧ At tm' ts' e ∧ Q pre a

namespace TokSafe
variable {α β : Type}

theorem mono {f : TokFn α} {Q R : List Token → α → Prop} (h : TokSafe f Q) (hq : ∀ pre a, Q pre a → R pre a) : TokSafe f R := by
  intro tm ts e hat
  refine ⟨(h tm ts e hat).1, fun a tm' hx => ?_⟩
  obtain ⟨h1, pre, ts', h2, h3, h4⟩ := (h tm ts e hat).2 a tm' hx
  exact ⟨h1, pre, ts', h2, h3, hq _ _ h4⟩

theorem pure (a : α) : TokSafe (fun tm => (Pure.pure (a, tm) : Except Err (α × TM))) (fun pre b => pre = [] ∧ b = a) := by
  intro tm ts e hat
  refine ⟨fun x h => (by cases h), fun b tm' h => ?_⟩
  cases h
  exact ⟨rfl, [], ts, rfl, hat, rfl, rfl⟩

theorem error {x : Err} (h : x.isMau = true) (Q : List Token → α → Prop) : TokSafe (fun _ => .error x) Q := by
  intro tm ts e hat
  exact ⟨fun y hy => (by cases hy; exact .inr h), fun b tm' hy => (by cases hy)⟩

theorem bind {f : TokFn α} {k : α × TM → Except Err (β × TM)} {Q : List Token → α → Prop} {R : List Token → β → Prop} (hf : TokSafe f Q)
    (hg : ∀ p a, Q p a → TokSafe (fun tm => k (a, tm)) fun q b => R (p ++ q) b) : TokSafe (fun tm => f tm >>= k) R := by
  intro tm ts e hat
  obtain ⟨h1, h2⟩ := hf tm ts e hat
  cases hx : f tm with
  | error x =>
    refine ⟨fun y hy => ?_, fun b tm' hy => ?_⟩
    · simp only [hx, Bind.bind, Except.bind] at hy
      cases hy
      exact h1 _ hx
    · simp only [hx, Bind.bind, Except.bind] at hy
      cases hy
  | ok r =>
    obtain ⟨a, tm1⟩ := r
    obtain ⟨h3, pre, ts1, h4, h5, h6⟩ := h2 a tm1 hx
    obtain ⟨h7, h8⟩ := hg pre a h6 tm1 ts1 e h5
    refine ⟨fun y hy => ?_, fun b tm' hy => ?_⟩
    · simp only [hx, Bind.bind, Except.bind] at hy
      exact h7 _ hy
    · simp only [hx, Bind.bind, Except.bind] at hy
      obtain ⟨h9, q, ts2, h10, h11, h12⟩ := h8 b tm' hy
      exact ⟨h9.trans h3, pre ++ q, ts2, by rw [h4, h10, List.append_assoc], h11, h12⟩

/-- A test that does not move. -/
theorem test {f : TM → Except Err Bool} {g1 g2 : TokFn α} {R : List Token → α → Prop}
    (hf : ∀ tm ts e, At tm ts e → ∀ x, f tm = .error x → x = .token ∨ x.isMau = true) (h1 : TokSafe g1 R) (h2 : TokSafe g2 R) :
    TokSafe (fun tm => do if ← f tm then g1 tm else g2 tm) R := by
  intro tm ts e hat
  cases hx : f tm with
  | error x =>
    refine ⟨fun y hy => ?_, fun b tm' hy => ?_⟩
    · simp only [hx, Bind.bind, Except.bind] at hy
      cases hy
      exact hf tm ts e hat _ hx
    · simp only [hx, Bind.bind, Except.bind] at hy
      cases hy
  | ok r =>
    cases r
    · simp only [hx, Bind.bind, Except.bind, Bool.false_eq_true, if_false]
      exact h2 tm ts e hat
    · simp only [hx, Bind.bind, Except.bind, if_true]
      exact h1 tm ts e hat

end TokSafe

theorem check_error {t : Token} {ty : Option TokenType} {v : Option Str} {f : Option (Str → Bool)} {x : Err}
    (h : TM.checkToken t ty v f = .error x) : x = .token := by
  unfold TM.checkToken at h
  split at h
  · cases h; rfl
  · split at h
    · cases h; rfl
    · split at h
      · cases h; rfl
      · cases h

theorem At.peek_error {tm : TM} {ts : List Token} {e : Token} (h : At tm ts e) {ty : Option TokenType} {v : Option Str} {f : Option (Str → Bool)} {x : Err}
    (hx : tm.peek ty v f = .error x) : x = .token := by
  cases ts with
  | nil => rw [h.peek_nil] at hx; exact check_error hx
  | cons t ts => rw [h.peek_cons] at hx; exact check_error hx

theorem At.peekIs_total {tm : TM} {ts : List Token} {e : Token} (h : At tm ts e) (ty : TokenType) (v : Option Str) (f : Option (Str → Bool)) (x : Err) :
    tm.peekIs ty v f ≠ .error x := by
  intro hx
  unfold TM.peekIs at hx
  split at hx
  · cases hx
  · cases hx
  · rename_i y hne hy
    exact hne (h.peek_error hy)

/-- What `get` takes: the next token, or the final EOF token again. -/
theorem safe_get (ty : Option TokenType) (v : Option Str) (f : Option (Str → Bool)) :
    TokSafe (fun tm => tm.get ty v f) fun pre t => TM.checkToken t ty v f = .ok t ∧ (pre = [t] ∨ pre = [] ∧ t.type = .EOF ∧ t.value = []) := by
  intro tm ts e hat
  cases ts with
  | nil =>
    cases hc : TM.checkToken e ty v f with
    | error x =>
      have := check_error hc
      subst this
      simp only [hat.get_nil_mismatch hc]
      exact ⟨fun y hy => (by cases hy; exact .inl rfl), fun _ _ h => (by cases h)⟩
    | ok t =>
      have ht := checkToken_ok hc
      subst ht
      obtain ⟨tm', h1, h2, h3⟩ := (C12_get tm ty v f).2 t (by rw [hat.peek_nil, hc])
      simp only [h1]
      refine ⟨fun y hy => (by cases hy), fun a tm'' h => ?_⟩
      cases h
      refine ⟨h2, [], [], rfl, ⟨.inr ⟨rfl, ?_⟩, by rw [h2]; exact hat.last, hat.eof⟩, hc, .inr ⟨rfl, hat.eof⟩⟩
      have : tm.tokens.length ≤ tm.next + 1 := by
        rcases hat.drop with hd | ⟨_, hd⟩
        · have := congrArg List.length hd; simp at this; omega
        · omega
      rw [h2, h3]; omega
  | cons t ts =>
    cases hc : TM.checkToken t ty v f with
    | error x =>
      have := check_error hc
      subst this
      simp only [hat.get_mismatch hc]
      exact ⟨fun y hy => (by cases hy; exact .inl rfl), fun _ _ h => (by cases h)⟩
    | ok t' =>
      have ht := checkToken_ok hc
      subst ht
      simp only [hat.get_cons hc]
      refine ⟨fun y hy => (by cases hy), fun a tm'' h => ?_⟩
      cases h
      exact ⟨rfl, [t'], ts, rfl, hat.nextAt, hc, .inl rfl⟩

/-- Getting a special character. -/
theorem safe_lit (v : Str) : TokSafe (fun tm => tm.get (some .LITERAL) (some v)) fun pre t => pre = [t] ∧ t.value = v := by
  refine (safe_get _ _ _).mono fun pre t h => ?_
  obtain ⟨h1, h2⟩ := h
  rw [check_value] at h1
  split at h1
  · rename_i hv
    rcases h2 with h2 | h2
    · exact ⟨h2, hv.2⟩
    · rw [h2.2.1] at hv; exact absurd hv.1 (by simp)
  · cases h1

theorem safe_text : TokSafe (fun tm => tm.get (some .TEXT)) fun pre t => pre = [t] := by
  refine (safe_get _ _ _).mono fun pre t h => ?_
  obtain ⟨h1, h2⟩ := h
  rw [check_type] at h1
  split at h1
  · rename_i hv
    rcases h2 with h2 | h2
    · exact h2
    · rw [h2.2.1] at hv; exact absurd hv (by simp)
  · cases h1

theorem unesc_sublist {α : Type} (stop esc : α → Bool) (p : Bool) (n : Nat) : ∀ l : List α, l.length ≤ n → (unesc stop esc p l).Sublist l := by
  induction n with
  | zero => intro l h; cases l with
    | nil => exact .slnil
    | cons a as => simp at h
  | succ n ih =>
    intro l h
    cases l with
    | nil => exact .slnil
    | cons t ts =>
      cases he : esc t with
      | true =>
        cases ts with
        | nil =>
          simp only [unesc, he, if_true]
          split
          · exact .refl _
          · exact List.nil_sublist _
        | cons u us =>
          simp only [unesc, he, if_true]
          split
          · exact .cons _ (.cons_cons _ (ih us (by simp at h; omega)))
          · exact .cons_cons _ (.cons_cons _ (ih us (by simp at h; omega)))
      | false =>
        rw [unesc_plain he]
        exact .cons_cons _ (ih ts (by simp at h; omega))

theorem toksText_sublist {a b : List Token} (h : a.Sublist b) : (toksText a).Sublist (toksText b) := by
  induction h with
  | slnil => exact .slnil
  | cons a _ ih => exact ih.trans (List.sublist_append_right _ _)
  | cons_cons a _ ih => exact (List.Sublist.refl _).append ih

theorem unesc_mayOccur (stops : List Token) (p : Bool) (ts : List Token) :
    MayOccur (toksText (unesc (stopTok stops) escTok p ts)) (toksText ts) := by
  refine ⟨toksText_sublist (unesc_sublist _ _ _ _ ts (Nat.le_refl _)), fun hb _ => ?_⟩
  have : ∀ t ∈ ts, escTok t = false := by
    intro t ht
    cases he : escTok t with
    | false => rfl
    | true =>
      exfalso
      have := (isEscape_iff.1 he)
      apply hb
      have hv : t.value = ['\\'] := this.2
      unfold toksText
      rw [List.mem_flatten]
      exact ⟨t.value, List.mem_map.2 ⟨t, ht, rfl⟩, by rw [hv]; simp⟩
  have h2 := unesc_plains (stop := stopTok stops) (p := p) (v := ts) (ts := []) this
  rw [List.append_nil] at h2
  rw [h2]
  simp [unesc]

theorem safe_collectJoin (stops : List Token) (preserve : Bool) :
    TokSafe (fun tm => tm.collectJoin stops [] preserve) fun pre t => t.type = .TEXT ∧ MayOccur t.value (toksText pre) := by
  intro tm ts e hat
  obtain ⟨c, tm', h1, h2, h3⟩ := hat.collectJoin stops preserve
  simp only [h1]
  refine ⟨fun y hy => (by cases hy), fun a tm'' h => ?_⟩
  cases h
  exact ⟨h2, _, _, (upto_append ts).symm, h3, rfl, unesc_mayOccur _ _ _⟩

end Mau
