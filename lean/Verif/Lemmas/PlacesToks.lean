import Verif.Lemmas.DocVars
import Verif.Lemmas.TextPlaces
import Verif.Lemmas.PlacesFinal

set_option linter.unusedSimpArgs false

/-!
# Where the tokens of a document come from
-/

namespace Mau
open Spec

/-- The token is on the line `l` of the file `src`, not before the line `a`. -/
structure TokOn (src : Option Str) (a : Nat) (t : Token) : Prop where
  source : t.ctx.source = src
  from_ : a ≤ t.ctx.startLine
  ends : t.ctx.endLine = t.ctx.startLine

/-- Tokens of the lines `a` to `last` of the file `src`. -/
inductive Feed (src : Option Str) (last : Nat) : Nat → List Token → Prop where
  | eof {a : Nat} {e : Token} (h : e.type = .EOF) : Feed src last a [e]
  | one {a : Nat} {t : Token} {ts : List Token} (h1 : t.type ≠ .EOF) (h2 : t.type ≠ .BLOCK) (h : TokOn src a t) (hl : t.ctx.startLine ≤ last)
      (hn : '\n' ∉ t.value) (hr : Feed src last t.ctx.startLine ts) : Feed src last a (t :: ts)
  | bare {a : Nat} {o c : Token} {ts : List Token} (h1 : o.type = .BLOCK) (h2 : c.type = .BLOCK) (ho : TokOn src a o) (hc : TokOn src o.ctx.startLine c)
      (hl : c.ctx.startLine ≤ last) (hr : Feed src last c.ctx.startLine ts) : Feed src last a (o :: c :: ts)
  | block {a : Nat} {o t c : Token} {ts : List Token} (h1 : o.type = .BLOCK) (h2 : c.type = .BLOCK) (h3 : t.type = .TEXT) (ho : TokOn src a o)
      (hc : TokOn src o.ctx.startLine c) (hl : c.ctx.startLine ≤ last) (hs : t.ctx.source = src) (ht : o.ctx.startLine ≤ t.ctx.startLine)
      (hx : t.ctx.startLine + lastLine t.value ≤ c.ctx.startLine) (hr : Feed src last c.ctx.startLine ts) : Feed src last a (o :: t :: c :: ts)

variable {src : Option Str} {last : Nat}

theorem TokOn.mono {a a' : Nat} {t : Token} (h : TokOn src a t) (ha : a' ≤ a) : TokOn src a' t := ⟨h.source, Nat.le_trans ha h.from_, h.ends⟩

theorem Feed.mono {a a' : Nat} {ts : List Token} (h : Feed src last a ts) (ha : a' ≤ a) : Feed src last a' ts := by
  cases h with
  | eof h => exact .eof h
  | one h1 h2 h hl hn hr => exact .one h1 h2 (h.mono ha) hl hn hr
  | bare h1 h2 ho hc hl hr => exact .bare h1 h2 (ho.mono ha) hc hl hr
  | block h1 h2 h3 ho hc hl hs ht hx hr => exact .block h1 h2 h3 (ho.mono ha) hc hl hs ht hx hr

theorem linePieces_ok {l : Str} (hn : '\n' ∉ l) {ty : TokenType} {v : Str} (h : Piece.tok ty v ∈ linePieces l) : ty ≠ .EOF ∧ ty ≠ .BLOCK ∧ '\n' ∉ v := by
  have hT : ∀ {t ps}, Tail t ps → '\n' ∉ t → Piece.tok ty v ∈ ps → ty ≠ .EOF ∧ ty ≠ .BLOCK ∧ '\n' ∉ v := by
    intro t ps ht hn hm
    cases ht with
    | none => cases hm
    | colon => simp at hm; simp [hm]
    | colonText => simp at hm hn; rcases hm with hm | hm <;> simp [hm, hn]
    | text => simp at hm; simp [hm, hn]
  rcases linePieces_iff.1 (rfl : linePieces l = linePieces l) with h1 | ⟨_, h1⟩
  · generalize linePieces l = ps at h h1
    cases h1 with
    | incl sp ty t ps a b c d e =>
      simp only [List.mem_cons, List.mem_append, not_or] at hn
      rcases List.mem_append.1 h with h | h
      · simp at h; rcases h with h | h <;> simp [h, hn]
      · exact hT e hn.2.2.2 h
    | variable_ nm t ps a b c e =>
      simp only [List.mem_cons, List.mem_append, not_or] at hn
      rcases List.mem_append.1 h with h | h
      · simp at h; rcases h with h | h <;> simp [h, hn]
      · exact hT e hn.2.2 h
    | comment => cases h
    | rule => simp at h; simp [h]
    | control => simp at h hn; rcases h with h | h | h <;> simp [h, hn]
    | arguments => simp at h hn; rcases h with h | h | h <;> simp [h, hn]
    | label => simp at h hn; rcases h with h | h <;> simp [h, hn]
    | list => simp at h hn; rcases h with h | h <;> simp [h, hn]
    | header => simp at h hn; rcases h with h | h <;> simp [h, hn, List.mem_replicate]
    | headerSpace => simp at h hn; rcases h with h | h <;> simp [h, hn, List.mem_replicate]
    | headerSign => simp at h hn; rcases h with h | h <;> simp [h, hn, List.mem_replicate]
  · rw [h1] at h
    simp at h
    simp [h, hn]

theorem Feed.place {ln col : Nat} {ps : List Piece} {ts : List Token} (hp : ∀ ty v, Piece.tok ty v ∈ ps → ty ≠ .EOF ∧ ty ≠ .BLOCK ∧ '\n' ∉ v) (hl : ln ≤ last)
    (h : Feed src last ln ts) : Feed src last ln (Spec.place ln src col ps ++ ts) := by
  induction ps generalizing col with
  | nil => exact h
  | cons p ps ih =>
    cases p with
    | tok ty v =>
      obtain ⟨h1, h2, h3⟩ := hp ty v (by simp)
      exact .one h1 h2 ⟨rfl, Nat.le_refl _, rfl⟩ hl h3 (ih fun ty v h => hp ty v (List.mem_cons_of_mem _ h))
    | skip v => exact ih fun ty v h => hp ty v (List.mem_cons_of_mem _ h)

theorem lastLine_join {cs : List Str} (hne : cs ≠ []) (hn : ∀ l ∈ cs, '\n' ∉ l) : lastLine (joinWith ['\n'] cs) = cs.length - 1 := by
  unfold lastLine
  rw [split_join hne hn]

/-- The tokens of lines are on these lines. -/
theorem feed_lines {ls : List Str} {ln col : Nat} {ts : List Token} (hn : ∀ l ∈ ls, '\n' ∉ l) (hl : ln + ls.length ≤ last + 1)
    (h : docTokens src ln col ls = .ok ts) : Feed src last ln ts := by
  revert ts h hn hl
  refine docTokens_rec (src := src) (P := fun ln col ls r => ∀ {ts}, (∀ l ∈ ls, '\n' ∉ l) → ln + ls.length ≤ last + 1 → r = .ok ts → Feed src last ln ts)
    ?_ ?_ ?_ ?_ ?_ ?_ ?_ ?_ ls ln col
  · intro ln col ts _ _ h; cases h; exact .eof rfl
  · intro ln col ts _ _ h; cases h; exact .eof rfl
  · intro ln col l rest _ hb ih ts hn hls h
    obtain ⟨x, hx, rfl⟩ := map_ok h
    simp only [List.length_cons] at hls
    exact .one (by simp [tokAt]) (by simp [tokAt]) ⟨rfl, Nat.le_refl _, rfl⟩ (by show ln ≤ last; omega) (hn l (by simp))
      ((ih (fun l hl => hn l (by simp [hl])) (by omega) hx).mono (Nat.le_succ _))
  · intro ln col rest _ ts _ _ h; cases h
  · intro ln col cs rest hc ih ts hn hls h
    simp only [List.length_cons, List.length_append] at hls
    exact (ih (fun l hl => hn l (by simp [hl])) (by omega) h).mono (by omega)
  · intro ln col l rest _ _ ts _ _ h; cases h
  · intro ln col l cs rest hd hc ih ts hn hls h
    obtain ⟨x, hx, rfl⟩ := map_ok h
    simp only [List.length_cons, List.length_append] at hls
    have hr := (ih (fun l hl => hn l (by simp [hl])) (by omega) hx).mono (a' := ln + cs.length + 1) (by omega)
    unfold contentToken
    split
    · exact .bare rfl rfl ⟨rfl, Nat.le_refl _, rfl⟩ ⟨rfl, by show ln ≤ _; simp only [tokAt]; omega, rfl⟩ (by show ln + cs.length + 1 ≤ last; omega) hr
    · rename_i hne
      refine .block rfl rfl rfl ⟨rfl, Nat.le_refl _, rfl⟩ ⟨rfl, by show ln ≤ _; simp only [tokAt]; omega, rfl⟩ (by show ln + cs.length + 1 ≤ last; omega) rfl
        (by show ln ≤ ln + 1; omega) ?_ hr
      show ln + 1 + lastLine (joinWith ['\n'] cs) ≤ ln + cs.length + 1
      rw [lastLine_join hne fun l hl => hn l (by simp [hl])]
      omega
  · intro ln col l rest hl ih ts hn hls h
    obtain ⟨x, hx, rfl⟩ := map_ok h
    simp only [List.length_cons] at hls
    exact Feed.place (fun ty v hp => linePieces_ok (hn l (by simp)) hp) (by omega)
      ((ih (fun l hl => hn l (by simp [hl])) (by omega) hx).mono (Nat.le_succ _))

/-- The next token, if it is not the end. -/
theorem Feed.any {toks : List Token} {a i : Nat} {t : Token} (h : Feed src last a (toks.drop i)) (ht : toks[i]? = some t) (h1 : t.type ≠ .EOF) :
    TokOn src a t ∧ t.ctx.startLine ≤ last := by
  rw [drop_of_get ht] at h
  generalize hq : toks.drop (i + 1) = q at h
  cases h with
  | eof h => exact absurd h h1
  | one _ _ h hl hn hr => exact ⟨h, hl⟩
  | bare _ _ ho hc hl _ => exact ⟨ho, Nat.le_trans hc.from_ hl⟩
  | block _ _ _ ho hc hl _ _ _ _ => exact ⟨ho, Nat.le_trans hc.from_ hl⟩

/-- The next token, if it is not a delimiter or the end. -/
theorem Feed.next {toks : List Token} {a i : Nat} {t : Token} (h : Feed src last a (toks.drop i)) (ht : toks[i]? = some t) (h1 : t.type ≠ .EOF) (h2 : t.type ≠ .BLOCK) :
    TokOn src a t ∧ t.ctx.startLine ≤ last ∧ '\n' ∉ t.value ∧ Feed src last t.ctx.startLine (toks.drop (i + 1)) := by
  rw [drop_of_get ht] at h
  generalize hq : toks.drop (i + 1) = q at h
  cases h with
  | eof h => exact absurd h h1
  | one _ _ h hl hn hr => exact ⟨h, hl, hn, hr⟩
  | bare h => exact absurd h h2
  | block h => exact absurd h h2

end Mau
