import Verif.Spec.Columns
import Verif.Lemmas.Text

set_option linter.unusedSimpArgs false

/-!
# Slices of a line and the tokens of a line
-/

namespace Mau
open Spec

/-! ## Slices -/

theorem between_eq {T x : Str} {a b : Nat} (h : T.drop a = x ++ T.drop b) (hb : b = a + x.length) : between T a b = x := by
  unfold between
  rw [h, hb, Nat.add_sub_cancel_left, List.take_left]

theorem drop_between {T : Str} {a b : Nat} (h : a ≤ b) : T.drop a = between T a b ++ T.drop b := by
  unfold between
  have : T.drop b = (T.drop a).drop (b - a) := by rw [List.drop_drop]; congr 1; omega
  rw [this, List.take_append_drop]

theorem between_length {T : Str} {a b : Nat} (h : a ≤ b) (hb : b ≤ T.length) : (between T a b).length = b - a := by
  unfold between
  simp; omega

theorem between_append {T : Str} {a b c : Nat} (h : a ≤ b) (h2 : b ≤ c) (hc : c ≤ T.length) : between T a c = between T a b ++ between T b c := by
  refine between_eq ?_ ?_
  · rw [List.append_assoc, ← drop_between h2, ← drop_between h]
  · rw [List.length_append, between_length h (by omega), between_length h2 hc]; omega

section
variable {ln col : Nat} {src : Option Str}

theorem merge_span {a b c d : Nat} (h1 : a ≤ c) (h2 : b ≤ d) :
    (spanAt ln col src a b).merge (spanAt ln col src c d) = spanAt ln col src a d := by
  simp only [spanAt, Context.merge]
  congr 1 <;> omega

end

/-! ## The tokens of a line -/

theorem place_text {ln : Nat} {src : Option Str} {ps : List Piece} (hp : ∀ p ∈ ps, ∃ ty v, p = .tok ty v) :
    ∀ c, toksText (place ln src c ps) = piecesText ps := by
  induction ps with
  | nil => intro c; rfl
  | cons p ps ih =>
    intro c
    obtain ⟨ty, v, rfl⟩ := hp p (by simp)
    have := ih (fun q hq => hp q (by simp [hq])) (c + v.length)
    simp only [place, piecesText, List.map_cons, List.flatten_cons, pieceText, toksText_cons] at this ⊢
    rw [this]; rfl

theorem toksText_le {ts us : List Token} (h : ts <:+ us) : (toksText ts).length ≤ (toksText us).length := by
  obtain ⟨p, rfl⟩ := h
  rw [toksText_append, List.length_append]; omega

theorem place_ctx {ln : Nat} {src : Option Str} {ps : List Piece} (hp : ∀ p ∈ ps, ∃ ty v, p = .tok ty v) : ∀ (c : Nat) (t : Token) (ts : List Token),
    t :: ts <:+ place ln src c ps →
    t.ctx = spanAt ln c src ((piecesText ps).length - (toksText (t :: ts)).length) ((piecesText ps).length - (toksText ts).length) := by
  induction ps with
  | nil => intro c t ts h; simp [place] at h
  | cons p ps ih =>
    intro c t ts h
    obtain ⟨ty, v, rfl⟩ := hp p (by simp)
    have hp' : ∀ q ∈ ps, ∃ ty v, q = .tok ty v := fun q hq => hp q (by simp [hq])
    have hl : (piecesText (.tok ty v :: ps)).length = v.length + (piecesText ps).length := by simp [piecesText, pieceText]
    simp only [place] at h
    rcases List.suffix_cons_iff.1 h with h | h
    · cases h
      rw [toksText_cons, List.length_append, place_text hp', hl]
      simp only [tokAt, spanAt]
      congr 1 <;> omega
    · rw [ih hp' _ t ts h]
      have h1 := toksText_le h
      rw [place_text hp'] at h1
      have h2 : (toksText ts).length ≤ (toksText (t :: ts)).length := toksText_le (List.suffix_cons _ _)
      simp only [spanAt]
      congr 1 <;> omega

theorem cutLine_pieces {cut : Cutter} : ∀ (n : Nat) (s : Str), ∀ p ∈ cutLine cut n s, ∃ ty v, p = .tok ty v := by
  intro n
  induction n with
  | zero => intro s p h; simp [cutLine] at h
  | succ n ih =>
    intro s p h
    simp only [cutLine] at h
    split at h
    · cases h
    · rcases List.mem_cons.1 h with rfl | h
      · exact ⟨_, _, rfl⟩
      · exact ih _ p h

end Mau
