import Verif.Basic

/-! # Lemmas about strings: splitting, joining, blanks -/

namespace Mau

theorem splitChar_ne_nil (sep : Char) (s : Str) : splitChar sep s ≠ [] := by
  induction s with
  | nil => simp [splitChar]
  | cons c cs ih =>
    simp only [splitChar]
    split
    · simp
    · split <;> simp

theorem splitChar_cons_ne {sep c : Char} (h : c ≠ sep) (s : Str) :
    ∃ l ls, splitChar sep s = l :: ls ∧ splitChar sep (c :: s) = (c :: l) :: ls := by
  cases hs : splitChar sep s with
  | nil => exact absurd hs (splitChar_ne_nil _ _)
  | cons l ls => exact ⟨l, ls, rfl, by simp [splitChar, h, hs]⟩

@[simp] theorem splitChar_nil (sep : Char) : splitChar sep [] = [[]] := rfl

@[simp] theorem splitChar_sep (sep : Char) (s : Str) :
    splitChar sep (sep :: s) = [] :: splitChar sep s := by simp [splitChar]

theorem joinWith_cons_of_ne {sep l : Str} {ls : List Str} (h : ls ≠ []) :
    joinWith sep (l :: ls) = l ++ sep ++ joinWith sep ls := by
  cases ls with
  | nil => exact absurd rfl h
  | cons a as => simp [joinWith]

/-- Joining what was split gives the text back. -/
theorem join_split (sep : Char) (s : Str) : joinWith [sep] (splitChar sep s) = s := by
  induction s with
  | nil => simp [joinWith]
  | cons c cs ih =>
    by_cases h : c = sep
    · subst h
      rw [splitChar_sep, joinWith_cons_of_ne (splitChar_ne_nil _ _), ih]; simp
    · obtain ⟨l, ls, h1, h2⟩ := splitChar_cons_ne h cs
      rw [h2]
      rw [h1] at ih
      cases ls with
      | nil => simp [joinWith] at ih ⊢; exact ih
      | cons a as => simp [joinWith] at ih ⊢; exact ih

/-- A piece of a split text does not contain the separator. -/
theorem sep_not_mem_of_mem_split {sep : Char} {s l : Str} (h : l ∈ splitChar sep s) : sep ∉ l := by
  induction s generalizing l with
  | nil => simp at h; simp [h]
  | cons c cs ih =>
    by_cases hc : c = sep
    · subst hc
      simp at h
      rcases h with h | h
      · simp [h]
      · exact ih h
    · obtain ⟨l', ls, h1, h2⟩ := splitChar_cons_ne hc cs
      rw [h2] at h
      rcases List.mem_cons.1 h with h | h
      · subst h
        have := ih (l := l') (by simp [h1])
        simp [this]; exact fun e => hc e.symm
      · exact ih (by simp [h1, h])

/-- A text without the separator is one piece. -/
theorem splitChar_of_not_mem {sep : Char} {s : Str} (h : sep ∉ s) : splitChar sep s = [s] := by
  induction s with
  | nil => rfl
  | cons c cs ih =>
    simp at h
    have := ih h.2
    simp [splitChar, this, Ne.symm h.1]

/-- Splitting after joining gives the pieces back, if they do not contain the separator. -/
theorem split_join {sep : Char} {ls : List Str} (hne : ls ≠ []) (h : ∀ l ∈ ls, sep ∉ l) :
    splitChar sep (joinWith [sep] ls) = ls := by
  induction ls with
  | nil => exact absurd rfl hne
  | cons l ls ih =>
    cases ls with
    | nil => simpa [joinWith] using splitChar_of_not_mem (h l (by simp))
    | cons a as =>
      have ih' := ih (by simp) (fun x hx => h x (by simp [hx]))
      rw [joinWith_cons_of_ne (by simp)]
      have hl := h l (by simp)
      clear ih h hne
      induction l with
      | nil => simp [ih']
      | cons c cs ihc =>
        simp at hl
        have := ihc (by simpa using hl.2)
        simp only [List.cons_append, splitChar, Ne.symm hl.1, if_false]
        rw [this]

/-- `splitChar` across a concatenation whose first part has no separator and is followed by one. -/
theorem splitChar_append_sep {sep : Char} {l : Str} (h : sep ∉ l) (r : Str) :
    splitChar sep (l ++ sep :: r) = l :: splitChar sep r := by
  induction l with
  | nil => simp
  | cons c cs ih =>
    simp at h
    have := ih (by simpa using h.2)
    simp [splitChar, Ne.symm h.1, this]

theorem isBlank_iff {s : Str} : isBlank s = true ↔ ∀ c ∈ s, c = ' ' := by
  simp [isBlank]

end Mau
