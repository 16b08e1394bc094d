import Verif.Spec.Scan

/-! # Lemmas about scanning -/

namespace Mau
open Spec

section upto
variable {α : Type} {stop esc : α → Bool}

theorem upto_stop {t : α} {ts : List α} (h : stop t = true) : upto stop esc (t :: ts) = ([], t :: ts) := by
  cases ts <;> simp [upto, h]

theorem upto_plain {t : α} {ts : List α} (h : stop t = false) (h2 : esc t = false) :
    upto stop esc (t :: ts) = (t :: (upto stop esc ts).1, (upto stop esc ts).2) := by
  cases ts <;> simp [upto, h, h2]

theorem upto_esc {t u : α} {us : List α} (h : stop t = false) (h2 : esc t = true) :
    upto stop esc (t :: u :: us) = (t :: u :: (upto stop esc us).1, (upto stop esc us).2) := by
  simp [upto, h, h2]

theorem unesc_plain {p : Bool} {t : α} {ts : List α} (h2 : esc t = false) :
    unesc stop esc p (t :: ts) = t :: unesc stop esc p ts := by
  cases ts <;> simp [unesc, h2]

theorem upto_plains {v ts : List α} (h : ∀ t ∈ v, stop t = false ∧ esc t = false) :
    upto stop esc (v ++ ts) = (v ++ (upto stop esc ts).1, (upto stop esc ts).2) := by
  induction v with
  | nil => simp
  | cons a v ih =>
    have := h a (by simp)
    rw [List.cons_append, upto_plain this.1 this.2, ih (fun t ht => h t (by simp [ht]))]
    simp

theorem unesc_plains {p : Bool} {v ts : List α} (h : ∀ t ∈ v, esc t = false) :
    unesc stop esc p (v ++ ts) = v ++ unesc stop esc p ts := by
  induction v with
  | nil => simp
  | cons a v ih =>
    rw [List.cons_append, unesc_plain (h a (by simp)), ih (fun t ht => h t (by simp [ht]))]
    simp

/-- Induction following the recursion of `upto` and `unesc`. -/
theorem upto_induct {stop esc : α → Bool} {P : List α → Prop} (nil : P [])
    (stopc : ∀ t ts, stop t = true → P (t :: ts))
    (dangling : ∀ t, stop t = false → esc t = true → P [t])
    (esced : ∀ t u us, stop t = false → esc t = true → P us → P (t :: u :: us))
    (plain : ∀ t ts, stop t = false → esc t = false → P ts → P (t :: ts)) : ∀ ts, P ts := by
  intro ts
  generalize hn : ts.length = n
  induction n using Nat.strongRecOn generalizing ts with
  | _ n ih =>
    cases ts with
    | nil => exact nil
    | cons t ts =>
      cases hs : stop t with
      | true => exact stopc t ts hs
      | false =>
        cases he : esc t with
        | true =>
          cases ts with
          | nil => exact dangling t hs he
          | cons u us => exact esced t u us hs he (ih us.length (by simp at hn; omega) us rfl)
        | false => exact plain t ts hs he (ih ts.length (by simp at hn; omega) ts rfl)

theorem upto_append (ts : List α) : (upto stop esc ts).1 ++ (upto stop esc ts).2 = ts := by
  induction ts using upto_induct (stop := stop) (esc := esc) with
  | nil => rfl
  | stopc t ts h => simp [upto_stop h]
  | dangling t h1 h2 => simp [upto, h1, h2]
  | esced t u us h1 h2 ih => rw [upto_esc h1 h2]; simp [ih]
  | plain t ts h1 h2 ih => rw [upto_plain h1 h2]; simp [ih]

theorem upto_snd (ts : List α) : (upto stop esc ts).2 = [] ∨ ∃ s r, (upto stop esc ts).2 = s :: r ∧ stop s = true := by
  induction ts using upto_induct (stop := stop) (esc := esc) with
  | nil => exact .inl rfl
  | stopc t ts h => exact .inr ⟨t, ts, by simp [upto_stop h], h⟩
  | dangling t h1 h2 => left; simp [upto, h1, h2]
  | esced t u us h1 h2 ih => rw [upto_esc h1 h2]; exact ih
  | plain t ts h1 h2 ih => rw [upto_plain h1 h2]; exact ih

end upto

theorem Spec.closing_length {stop : Char} {s raw rest : Str} (h : closing stop s = some (raw, rest)) :
    rest.length < s.length := by
  have := congrArg List.length (upto_append (stop := (· == stop)) (esc := escChar) s)
  unfold closing at h
  split at h
  · cases h
  · rename_i raw' c rest' he
    cases h
    rw [he] at this
    simp at this; omega


theorem closing_span {stop : Char} (hb : stop ≠ '\\') {raw : Str} (h : Span stop raw) (r : Str) :
    closing stop (raw ++ stop :: r) = some (raw, r) := by
  have : upto (· == stop) escChar (raw ++ stop :: r) = (raw, stop :: r) := by
    induction h with
    | nil => exact upto_stop (by simp)
    | plain c rr h1 h2 h ih =>
      rw [List.cons_append, upto_plain (by simpa using h1) (by simpa [escChar] using h2), ih]
    | esc c rr h ih =>
      rw [List.cons_append, List.cons_append, upto_esc (by simpa using Ne.symm hb) (by simp [escChar]), ih]
  simp [closing, this]

theorem span_of_closing {stop : Char} {s raw rest : Str} (h : closing stop s = some (raw, rest)) :
    Span stop raw ∧ s = raw ++ stop :: rest := by
  unfold closing at h
  split at h
  · cases h
  · rename_i raw' c rest' he
    cases h
    have h1 := upto_append (stop := (· == stop)) (esc := escChar) s
    have h2 := upto_snd (stop := (· == stop)) (esc := escChar) s
    rw [he] at h1 h2
    have hc : c = stop := by
      rcases h2 with h2 | ⟨d, r, h2, h3⟩
      · cases h2
      · cases h2; simpa using h3
    subst hc
    refine ⟨?_, h1.symm⟩
    clear h1 h2
    induction s using upto_induct (stop := (· == c)) (esc := escChar) generalizing raw with
    | nil => simp [upto] at he
    | stopc t ts h => rw [upto_stop (stop := (· == c)) h] at he; cases he; exact .nil
    | dangling t h1 h2 => simp [upto, h1, h2] at he
    | esced t u us h1 h2 ih =>
      rw [upto_esc (stop := (· == c)) h1 h2] at he
      simp only [Prod.mk.injEq] at he
      obtain ⟨rfl, h4⟩ := he
      have : t = '\\' := by simpa [escChar] using h2
      subst this
      exact .esc u _ (ih (Prod.ext rfl h4))
    | plain t ts h1 h2 ih =>
      rw [upto_plain (stop := (· == c)) h1 h2] at he
      simp only [Prod.mk.injEq] at he
      obtain ⟨rfl, h4⟩ := he
      exact .plain t _ (by simpa using h1) (by simpa [escChar] using h2) (ih (Prod.ext rfl h4))

theorem span_plain {stop : Char} {s : Str} (h1 : stop ∉ s) (h2 : '\\' ∉ s) : Span stop s := by
  induction s with
  | nil => exact .nil
  | cons c r ih =>
    simp at h1 h2
    exact .plain c r (Ne.symm h1.1) (Ne.symm h2.1) (ih h1.2 h2.2)

theorem unescape_plain {stop : Char} {s : Str} (h : '\\' ∉ s) : unescape stop s = s := by
  have := unesc_plains (stop := (· == stop)) (esc := escChar) (p := false) (v := s) (ts := []) (by
    intro c hc; simp only [escChar, beq_eq_false_iff_ne]; rintro rfl; exact h hc)
  simpa [unescape, unesc] using this

end Mau
