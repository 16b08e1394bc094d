import Verif.Lemmas.PlacesToks
import Verif.Lemmas.Uncontrolled

set_option linter.unusedSimpArgs false

/-!
# The texts among the tokens of lines in which no control macro can begin
-/

namespace Mau
open Spec

/-- Tokens of lines in which no control macro can begin. -/
inductive Stock : List Token → Prop where
  | eof {e : Token} (h : e.type = .EOF) : Stock [e]
  | one {t : Token} {ts : List Token} (h1 : t.type ≠ .EOF) (h2 : t.type ≠ .BLOCK) (h3 : t.type ≠ .ARGUMENTS) (hn : '\n' ∉ t.value)
      (hu : t.type = .TEXT → Uncontrolled t.value) (hr : Stock ts) : Stock (t :: ts)
  | args {a t c : Token} {ts : List Token} (h1 : a.type = .ARGUMENTS) (h2 : t.type = .TEXT) (h3 : c.type = .LITERAL) (hr : Stock ts) : Stock (a :: t :: c :: ts)
  | bare {o c : Token} {ts : List Token} (h1 : o.type = .BLOCK) (h2 : c.type = .BLOCK) (hr : Stock ts) : Stock (o :: c :: ts)
  | block {o t c : Token} {ts : List Token} (h1 : o.type = .BLOCK) (h2 : c.type = .BLOCK) (h3 : t.type = .TEXT) (hu : ∀ l ∈ splitChar '\n' t.value, Uncontrolled l)
      (hr : Stock ts) : Stock (o :: t :: c :: ts)

theorem Stock.place {ln col : Nat} {src : Option Str} {ps : List Piece} {ts : List Token}
    (hp : ∀ ty v, Piece.tok ty v ∈ ps → ty ≠ .EOF ∧ ty ≠ .BLOCK ∧ ty ≠ .ARGUMENTS ∧ '\n' ∉ v ∧ (ty = .TEXT → Uncontrolled v)) (h : Stock ts) :
    Stock (Spec.place ln src col ps ++ ts) := by
  induction ps generalizing col with
  | nil => exact h
  | cons p ps ih =>
    cases p with
    | tok ty v =>
      obtain ⟨h1, h2, h3, h4, h5⟩ := hp ty v (by simp)
      exact .one h1 h2 h3 h4 h5 (ih fun ty v h => hp ty v (List.mem_cons_of_mem _ h))
    | skip v => exact ih fun ty v h => hp ty v (List.mem_cons_of_mem _ h)

theorem Stock.line {ln col : Nat} {src : Option Str} {l : Str} (hn : '\n' ∉ l) (hu : Uncontrolled l) {ts : List Token} (h : Stock ts) :
    Stock (Spec.place ln src col (linePieces l) ++ ts) := by
  have hT : ∀ {t ps}, Tail t ps → Uncontrolled t → ∀ ty v, Piece.tok ty v ∈ ps → ty ≠ .ARGUMENTS ∧ (ty = .TEXT → Uncontrolled v) := by
    intro t ps ht hu ty v hm
    cases ht with
    | none => cases hm
    | colon => simp at hm; simp [hm]
    | colonText => simp at hm; rcases hm with ⟨rfl, rfl⟩ | ⟨rfl, rfl⟩
                   · simp
                   · exact ⟨by simp, fun _ => hu.suffix (a := [':'])⟩
    | text => simp at hm; obtain ⟨rfl, rfl⟩ := hm; exact ⟨by simp, fun _ => hu⟩
  have hchars : ∀ {p : Char → Bool} {v : Str}, (∀ c ∈ v, p c = true) → p '[' = false → Uncontrolled v := by
    intro p v hv hp
    refine uncontrolled_plain fun hm => ?_
    have := hv _ hm
    rw [hp] at this
    cases this
  have done : (∀ ty v, Piece.tok ty v ∈ linePieces l → ty ≠ .ARGUMENTS ∧ (ty = .TEXT → Uncontrolled v)) → Stock (Spec.place ln src col (linePieces l) ++ ts) := by
    intro h'
    refine Stock.place (fun ty v hm => ?_) h
    obtain ⟨a, b, c⟩ := linePieces_ok hn hm
    exact ⟨a, b, (h' ty v hm).1, c, (h' ty v hm).2⟩
  rcases linePieces_iff.1 (rfl : linePieces l = linePieces l) with h1 | ⟨_, h1⟩
  · generalize linePieces l = ps at done h1
    cases h1 with
    | arguments a => exact .args rfl rfl rfl h
    | incl sp ty t ps a b c d e =>
      refine done fun ty' v hm => ?_
      rcases List.mem_append.1 hm with hm | hm
      · simp at hm
        rcases hm with ⟨rfl, rfl⟩ | ⟨rfl, rfl⟩
        · exact ⟨by simp, by simp⟩
        · exact ⟨by simp, fun _ => hchars c (by decide)⟩
      · exact hT e (hu.suffix (a := '<' :: '<' :: (sp ++ ty))) ty' v hm
    | variable_ nm t ps a b c e =>
      refine done fun ty' v hm => ?_
      rcases List.mem_append.1 hm with hm | hm
      · simp at hm
        rcases hm with ⟨rfl, rfl⟩ | ⟨rfl, rfl⟩
        · exact ⟨by simp, by simp⟩
        · exact ⟨by simp, fun _ => hchars b (by decide)⟩
      · exact hT e (hu.suffix (a := ':' :: nm)) ty' v hm
    | comment => exact done fun _ _ hm => nomatch hm
    | rule => exact done fun ty v hm => by simp at hm; obtain ⟨rfl, rfl⟩ := hm; exact ⟨by simp, by simp⟩
    | control op sp v a b c d e =>
      refine done fun ty v' hm => ?_
      simp at hm
      rcases hm with ⟨rfl, rfl⟩ | ⟨rfl, rfl⟩ | ⟨rfl, rfl⟩
      · exact ⟨by simp, by simp⟩
      · exact ⟨by simp, fun _ => hchars b (by decide)⟩
      · exact ⟨by simp, fun _ => hu.suffix (a := '@' :: (op ++ sp))⟩
    | label role sp v =>
      refine done fun ty v' hm => ?_
      simp at hm
      rcases hm with ⟨rfl, rfl⟩ | ⟨rfl, rfl⟩
      · exact ⟨by simp, by simp⟩
      · exact ⟨by simp, fun _ => hu.suffix (a := '.' :: (role ++ sp))⟩
    | list ind mark sp v =>
      refine done fun ty v' hm => ?_
      simp at hm
      rcases hm with ⟨rfl, rfl⟩ | ⟨rfl, rfl⟩
      · exact ⟨by simp, by simp⟩
      · exact ⟨by simp, fun _ => hu.suffix (a := ind ++ mark ++ sp)⟩
    | header n sp v =>
      refine done fun ty v' hm => ?_
      simp at hm
      rcases hm with ⟨rfl, rfl⟩ | ⟨rfl, rfl⟩
      · exact ⟨by simp, by simp⟩
      · exact ⟨by simp, fun _ => hu.suffix (a := List.replicate (n + 1) '=' ++ sp)⟩
    | headerSpace n sp =>
      refine done fun ty v' hm => ?_
      simp at hm
      rcases hm with ⟨rfl, rfl⟩ | ⟨rfl, rfl⟩
      · exact ⟨by simp, by simp⟩
      · exact ⟨by simp, fun _ => uncontrolled_plain (by decide)⟩
    | headerSign n =>
      refine done fun ty v' hm => ?_
      simp at hm
      rcases hm with ⟨rfl, rfl⟩ | ⟨rfl, rfl⟩
      · exact ⟨by simp, by simp⟩
      · exact ⟨by simp, fun _ => uncontrolled_plain (by decide)⟩
  · refine done fun ty v hm => ?_
    rw [h1] at hm
    simp at hm
    obtain ⟨rfl, rfl⟩ := hm
    exact ⟨by simp, fun _ => hu⟩

theorem stock_lines {src : Option Str} {ls : List Str} {ln col : Nat} {ts : List Token} (hn : ∀ l ∈ ls, '\n' ∉ l) (hu : ∀ l ∈ ls, Uncontrolled l)
    (h : docTokens src ln col ls = .ok ts) : Stock ts := by
  revert ts h hn hu
  refine docTokens_rec (src := src) (P := fun ln col ls r => ∀ {ts}, (∀ l ∈ ls, '\n' ∉ l) → (∀ l ∈ ls, Uncontrolled l) → r = .ok ts → Stock ts)
    ?_ ?_ ?_ ?_ ?_ ?_ ?_ ?_ ls ln col
  · intro ln col ts _ _ h; cases h; exact .eof rfl
  · intro ln col ts _ _ h; cases h; exact .eof rfl
  · intro ln col l rest _ hb ih ts hn hls h
    obtain ⟨x, hx, rfl⟩ := map_ok h
    exact .one (by simp [tokAt]) (by simp [tokAt]) (by simp [tokAt]) (hn l (by simp)) (by simp [tokAt])
      (ih (fun l hl => hn l (by simp [hl])) (fun l hl => hls l (by simp [hl])) hx)
  · intro ln col rest _ ts _ _ h; cases h
  · intro ln col cs rest hc ih ts hn hls h
    exact ih (fun l hl => hn l (by simp [hl])) (fun l hl => hls l (by simp [hl])) h
  · intro ln col l rest _ _ ts _ _ h; cases h
  · intro ln col l cs rest hd hc ih ts hn hls h
    obtain ⟨x, hx, rfl⟩ := map_ok h
    have hr := ih (fun l hl => hn l (by simp [hl])) (fun l hl => hls l (by simp [hl])) hx
    unfold contentToken
    split
    · exact .bare rfl rfl hr
    · rename_i hne
      refine .block rfl rfl rfl ?_ hr
      change ∀ l ∈ splitChar '\n' (joinWith ['\n'] cs), _
      rw [split_join hne fun l hl => hn l (by simp [hl])]
      exact fun l hl => hls l (by simp [hl])
  · intro ln col l rest hl ih ts hn hls h
    obtain ⟨x, hx, rfl⟩ := map_ok h
    exact .line (hn l (by simp)) (hls l (by simp)) (ih (fun l hl => hn l (by simp [hl])) (fun l hl => hls l (by simp [hl])) hx)

/-- The next token, if it is not a delimiter, arguments or the end. -/
theorem Stock.next {toks : List Token} {i : Nat} {t : Token} (h : Stock (toks.drop i)) (ht : toks[i]? = some t) (h1 : t.type ≠ .EOF) (h2 : t.type ≠ .BLOCK) (h3 : t.type ≠ .ARGUMENTS) :
    '\n' ∉ t.value ∧ (t.type = .TEXT → Uncontrolled t.value) ∧ Stock (toks.drop (i + 1)) := by
  rw [drop_of_get ht] at h
  generalize hq : toks.drop (i + 1) = q at h
  cases h with
  | eof h => exact absurd h h1
  | one _ _ _ hn hu hr => exact ⟨hn, hu, hr⟩
  | args h => exact absurd h h3
  | bare h => exact absurd h h2
  | block h => exact absurd h h2

end Mau
