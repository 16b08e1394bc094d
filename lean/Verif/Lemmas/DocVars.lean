import Verif.Lemmas.DocEndsNested
import Verif.Spec.Variables

set_option linter.unusedSimpArgs false

/-!
# Which lines define variables
-/

namespace Mau
open Spec

/-- What the lines (those with `L`) say about the constructs that start with the first token: a definition comes from a line that has its name, and the lines
in a block are among the lines. -/
structure HeadFrom (L : Str → Prop) (ts : List Token) : Prop where
  var : ∀ o n c r, ts = o :: n :: c :: r → o.type = .VARIABLE → c.type = .LITERAL → ∃ value, L (':' :: (n.value ++ ':' :: value))
  block : ∀ o t r, ts = o :: t :: r → o.type = .BLOCK → t.type = .TEXT → ∀ l ∈ splitChar '\n' t.value, L l

/-- The same for all tokens. -/
def TokFrom (L : Str → Prop) (toks : List Token) : Prop := ∀ i, HeadFrom L (toks.drop i)

section
variable {L : Str → Prop}

theorem HeadFrom.nil : HeadFrom L [] := ⟨(by intros; contradiction), (by intros; contradiction)⟩

theorem HeadFrom.other {t : Token} {ts : List Token} (h1 : t.type ≠ .VARIABLE) (h2 : t.type ≠ .BLOCK) : HeadFrom L (t :: ts) := by
  refine ⟨?_, ?_⟩
  · intro o n c r e hx; cases e; exact absurd hx h1
  · intro o a r e hx; cases e; exact absurd hx h2

theorem TokFrom.nil : TokFrom L [] := by intro i; rw [List.drop_nil]; exact .nil

theorem TokFrom.cons {t : Token} {ts : List Token} (h : HeadFrom L (t :: ts)) (ht : TokFrom L ts) : TokFrom L (t :: ts) := by
  intro i
  cases i with
  | zero => exact h
  | succ i => exact ht i

theorem TokFrom.plain {ty : TokenType} {v : Str} {ln c : Nat} {src : Option Str} {r : List Token} (h1 : ty ≠ .VARIABLE) (h2 : ty ≠ .BLOCK) (h : TokFrom L r) :
    TokFrom L (tokAt ty v ln c src :: r) := .cons (.other h1 h2) h

theorem tokFrom_lines {src : Option Str} {ls : List Str} {ln col : Nat} {ts : List Token} (hn : ∀ l ∈ ls, '\n' ∉ l) (hL : ∀ l ∈ ls, L l)
    (h : docTokens src ln col ls = .ok ts) : TokFrom L ts := by
  revert ts h hL hn
  refine docTokens_rec (src := src) (P := fun ln col ls r => ∀ {ts}, (∀ l ∈ ls, '\n' ∉ l) → (∀ l ∈ ls, L l) → r = .ok ts → TokFrom L ts)
    ?_ ?_ ?_ ?_ ?_ ?_ ?_ ?_ ls ln col
  · intro ln col ts _ _ h; cases h; exact .plain (by simp) (by simp) .nil
  · intro ln col ts _ _ h; cases h; exact .plain (by simp) (by simp) .nil
  · intro ln col l rest _ hb ih ts hn hls h
    obtain ⟨x, hx, rfl⟩ := map_ok h
    exact .plain (by simp) (by simp) (ih (fun l hl => hn l (by simp [hl])) (fun l hl => hls l (by simp [hl])) hx)
  · intro ln col rest _ ts _ _ h; cases h
  · intro ln col cs rest hc ih ts hn hls h
    exact ih (fun l hl => hn l (by simp [hl])) (fun l hl => hls l (by simp [hl])) h
  · intro ln col l rest _ _ ts _ _ h; cases h
  · intro ln col l cs rest hd hc ih ts hn hls h
    obtain ⟨x, hx, rfl⟩ := map_ok h
    have hr := ih (fun l hl => hn l (by simp [hl])) (fun l hl => hls l (by simp [hl])) hx
    have hclose : TokFrom L (tokAt .BLOCK l (ln + cs.length + 1) 0 src :: x) := by
      refine .cons ⟨?_, ?_⟩ hr
      · intro o n c r e hy; injection e with e0 _; subst e0; cases hy
      · intro o t r e _ ht
        injection e with _ e
        subst e
        obtain ⟨h1, h2⟩ := head_text hx t rfl ht
        rw [splitChar_of_not_mem (hn _ (by simp [h1]))]
        intro l hl
        simp only [List.mem_singleton] at hl
        subst hl
        exact hls _ (by simp [h1])
    unfold contentToken
    split
    · refine .cons ⟨?_, ?_⟩ hclose
      · intro o n c r e hy; injection e with e0 _; subst e0; cases hy
      · intro o t r e _ ht
        injection e with _ e
        injection e with e _
        subst e
        cases ht
    · rename_i hne
      refine .cons ⟨?_, ?_⟩ (.cons (.other (by simp) (by simp)) hclose)
      · intro o n c r e hy; injection e with e0 _; subst e0; cases hy
      · intro o t r e _ ht
        injection e with _ e
        injection e with e _
        subst e
        rw [split_join hne (fun l hl => hn l (by simp [hl]))]
        exact fun l hl => hls l (by simp [hl])
  · intro ln col l rest hl ih ts hn hls h
    obtain ⟨x, hx, rfl⟩ := map_ok h
    have hok := ih (fun l hl => hn l (by simp [hl])) (fun l hl => hls l (by simp [hl])) hx
    have hlit := docTokens_head_not_literal hx
    have hLl := hls l (by simp)
    rcases linePieces_iff.1 (rfl : linePieces l = linePieces l) with hf | ⟨hno, hps⟩
    · revert hf
      generalize linePieces l = ps
      intro hf
      cases hf with
      | comment => exact hok
      | rule => exact .plain (by simp) (by simp) hok
      | control => exact .plain (by simp) (by simp) (.plain (by simp) (by simp) (.plain (by simp) (by simp) hok))
      | incl sp ty t ps h1 h2 h3 h4 h5 =>
        have hshape : place ln src col ([.tok .INCLUDE c%"<<", .skip sp, .tok .TEXT ty] ++ ps) ++ x =
            tokAt .INCLUDE c%"<<" ln col src :: tokAt .TEXT ty ln (col + 2 + sp.length) src :: (place ln src (col + 2 + sp.length + ty.length) ps ++ x) := by
          simp [place]
        rw [hshape]
        refine .plain (by simp) (by simp) (.plain (by simp) (by simp) ?_)
        cases h5 with
        | none => exact hok
        | colon => exact .plain (by simp) (by simp) hok
        | colonText => exact .plain (by simp) (by simp) (.plain (by simp) (by simp) hok)
        | text => exact .plain (by simp) (by simp) hok
      | variable_ name t ps h1 h2 h3 h4 =>
        have hshape : place ln src col ([.tok .VARIABLE [':'], .tok .TEXT name] ++ ps) ++ x =
            tokAt .VARIABLE [':'] ln col src :: tokAt .TEXT name ln (col + 1) src :: (place ln src (col + 1 + name.length) ps ++ x) := by
          simp [place]
        rw [hshape]
        have hrest : TokFrom L (place ln src (col + 1 + name.length) ps ++ x) ∧
            ∀ c r', place ln src (col + 1 + name.length) ps ++ x = c :: r' → c.type = .LITERAL → ∃ value, t = ':' :: value := by
          cases h4 with
          | none =>
            refine ⟨hok, fun c r' e hc => ?_⟩
            simp only [place, List.nil_append] at e
            rw [e] at hlit
            exact absurd hc (hlit c rfl)
          | colon => exact ⟨.plain (by simp) (by simp) hok, fun c r' e hc => ⟨_, rfl⟩⟩
          | colonText => exact ⟨.plain (by simp) (by simp) (.plain (by simp) (by simp) hok), fun c r' e hc => ⟨_, rfl⟩⟩
          | text hv hv' =>
            refine ⟨.plain (by simp) (by simp) hok, fun c r' e hc => ?_⟩
            simp only [place, List.cons_append, List.nil_append, List.cons.injEq] at e
            obtain ⟨rfl, _⟩ := e
            cases hc
        refine .cons ⟨?_, ?_⟩ (.plain (by simp) (by simp) hrest.1)
        · intro o n c r e _ hc
          injection e with _ e
          injection e with e1 e2
          subst e1
          obtain ⟨value, rfl⟩ := hrest.2 c r e2 hc
          exact ⟨value, hLl⟩
        · intro o a r e hy; injection e with e0 _; subst e0; cases hy
      | arguments a => exact .plain (by simp) (by simp) (.plain (by simp) (by simp) (.plain (by simp) (by simp) hok))
      | label => exact .plain (by simp) (by simp) (.plain (by simp) (by simp) hok)
      | list => exact .plain (by simp) (by simp) (.plain (by simp) (by simp) hok)
      | header => exact .plain (by simp) (by simp) (.plain (by simp) (by simp) hok)
      | headerSpace => exact .plain (by simp) (by simp) (.plain (by simp) (by simp) hok)
      | headerSign => exact .plain (by simp) (by simp) (.plain (by simp) (by simp) hok)
    · rw [hps]
      exact .plain (by simp) (by simp) hok

end

/-! ## Reading tokens at known places -/

/-- A token read. -/
theorem tok_get {toks : List Token} (hE : EndsWithEof toks) {ty : TokenType} {v : Option Str} {f : Option (Str → Bool)} {s s' : DocSt} {t : Token} (hty : ty ≠ .EOF)
    (h : DM.tm toks (·.get (some ty) v f) s = .ok t s') : toks[s.next]? = some t ∧ t.type = ty ∧ s' = { s with next := s.next + 1 } := by
  obtain ⟨⟨t0, h0⟩, h1, h2⟩ := getDM_ok h
  have ht := peek_type h0
  obtain ⟨h3, h4⟩ := peek_inside hE h0 (by rw [ht]; exact hty)
  have e : TM.advance ⟨toks, s.next⟩ = ⟨toks, s.next + 1⟩ := by
    unfold TM.advance
    rw [if_pos (by show s.next < toks.length + 1; omega)]
  rw [e] at h1 h2
  unfold TM.currentToken at h2
  have h3' := h3
  obtain ⟨init, l, e', _⟩ := hE
  rw [e'] at h2 h3'
  simp only [List.getLast?_concat, List.getD, h3', Option.getD_some] at h2
  injection h2 with h2
  subst h2
  exact ⟨h3, ht, h1⟩

/-- `R` relates the state `s` and the state after `f`. -/
def KeepsAt {α : Type} (R : DocSt → DocSt → Prop) (f : DM α) (s : DocSt) : Prop :=
  (∀ a s', f s = .ok a s' → R s s') ∧ ∀ s', f s = .fail s' → R s s'

section
variable {R : DocSt → DocSt → Prop} {nested : NestedParser} {ok : Option Str → Prop} {defs texts : Str → Prop} {α β : Type}
  (F : Frame R nested ok defs texts) (N : ∀ s k, R s { s with next := k })
include F

theorem KeepsAt.bind {f : DM α} {g : α → DM β} {s : DocSt} (hf : KeepsAt R f s) (hg : ∀ a s1, f s = .ok a s1 → KeepsAt R (g a) s1) : KeepsAt R (f >>= g) s := by
  constructor
  · intro b s' h
    obtain ⟨a, s1, h1, h2⟩ := DM.bind_ok h
    exact F.trans (hf.1 _ _ h1) ((hg a s1 h1).1 _ _ h2)
  · intro s' h
    cases h1 : f s with
    | ok a s1 =>
      rw [DM.bind_of_ok h1] at h
      exact F.trans (hf.1 _ _ h1) ((hg a s1 h1).2 _ h)
    | fail s1 =>
      rw [DM.bind_of_fail h1] at h
      cases h
      exact hf.2 _ h1
    | err e => rw [DM.bind_of_err h1] at h; cases h

include N

/-- Variables are defined by the lines that say so. -/
theorem Keeps.variableProc_from {L : Str → Prop} {toks : List Token} (hE : EndsWithEof toks) (hT : TokFrom L toks)
    (hd : ∀ l k, L l → LineDefines l k → defs k) : Keeps R (Mau.variableProc toks) := by
  intro s
  unfold Mau.variableProc
  refine KeepsAt.bind F (Keeps.tm F N _ s) fun o s1 h1 => ?_
  obtain ⟨ho, hot, rfl⟩ := tok_get hE (by simp) h1
  refine KeepsAt.bind F (Keeps.tm F N _ _) fun n s1 h2 => ?_
  obtain ⟨hn, hnt, rfl⟩ := tok_get hE (by simp) h2
  refine KeepsAt.bind F (Keeps.tm F N _ _) fun c s1 h3 => ?_
  obtain ⟨hc, hct, rfl⟩ := tok_get hE (by simp) h3
  obtain ⟨value, hL⟩ := (hT s.next).var o n c _ (by rw [drop_of_get ho, drop_of_get hn, drop_of_get hc]) hot hct
  refine KeepsAt.bind F ?_ fun v s1 _ => ?_
  · exact Keeps.bind F (Keeps.peek F _) (fun _ => Keeps.ite (Keeps.bind F (Keeps.tm F N _) fun _ => Keeps.pure F _) (Keeps.pure F _)) _
  refine KeepsAt.bind F (Keeps.get F _) fun s2 s3 hg => ?_
  refine KeepsAt.bind F (Keeps.lift F _ _) fun d s4 hl => ?_
  obtain ⟨h4, rfl⟩ := DM.lift_ok hl
  clear hl
  refine Keeps.modify (fun s => F.env s _ _ ?_) _
  refine hd _ _ hL ⟨value, ?_⟩
  unfold definition at h4
  split at h4
  · rename_i hp
    injection h4 with h4
    subst h4
    cases hnv : n.value with
    | nil => rw [hnv] at hp; cases hp
    | cons x r =>
      rw [hnv] at hp
      simp only [startsWith, List.isPrefixOf, Bool.and_true, beq_iff_eq] at hp
      subst hp
      exact .inr (.inl rfl)
  · split at h4
    · rename_i hp
      injection h4 with h4
      subst h4
      cases hnv : n.value with
      | nil => rw [hnv] at hp; cases hp
      | cons x r =>
        rw [hnv] at hp
        simp only [startsWith, List.isPrefixOf, Bool.and_true, beq_iff_eq] at hp
        subst hp
        exact .inr (.inr rfl)
    · split at h4
      · cases h4
      · split at h4
        · cases h4
        · split at h4
          · cases h4
          · injection h4 with h4
            subst h4
            exact .inl rfl

/-- Blocks contain lines of the document. -/
theorem Keeps.blockProc_from {L : Str → Prop} {toks : List Token} (hE : EndsWithEof toks) (hT : TokFrom L toks)
    (hd : ∀ text, (∀ l ∈ splitChar '\n' text, L l) → texts text) : Keeps R (Mau.blockProc nested toks) := by
  intro s
  unfold Mau.blockProc
  refine KeepsAt.bind F (Keeps.tm F N _ s) fun o s1 h1 => ?_
  obtain ⟨ho, hot, rfl⟩ := tok_get hE (by simp) h1
  refine KeepsAt.bind F ?_ fun content s1 h2 => ?_
  · exact Keeps.bind F (Keeps.peek F _) (fun _ => Keeps.ite (Keeps.bind F (Keeps.tm F N _) fun _ => Keeps.pure F _) (Keeps.pure F _)) _
  have hc : ∀ t, content = some t → texts t.value := by
    rintro t rfl
    unfold blockText at h2
    obtain ⟨p, s2, h3, h4⟩ := DM.bind_ok h2
    obtain ⟨_, rfl⟩ := DM.lift_ok h3
    split at h4
    · obtain ⟨t', s3, h5, h6⟩ := DM.bind_ok h4
      cases h6
      obtain ⟨ht, htt, _⟩ := tok_get hE (by simp) h5
      exact hd _ ((hT s.next).block o t _ (by rw [drop_of_get ho, drop_of_get ht]) hot htt)
    · cases h4
  exact Keeps.bind F (Keeps.tm F N _) (fun _ => Keeps.bind F (Keeps.popArgs F) fun _ => Keeps.bind F (Keeps.blockEngine F _ _ _ _ _ hc) fun _ =>
    Keeps.bind F (Keeps.popLabels F) fun _ => Keeps.placeBlock F _ _ _ _ _ _) _

end

/-- What every processing function respects, given that variables are defined by the lines, holds between the states before and after reading lines. -/
theorem run_keeps_from {R : DocSt → DocSt → Prop} {P : Parser} {L : Str → Prop} {defs texts : Str → Prop} (F : Frame R P.nested (· = P.src) defs texts)
    (N : ∀ s k, R s { s with next := k }) {ln col : Nat} {ls : List Str} {s s' : DocSt} (hn : ∀ l ∈ ls, '\n' ∉ l) (hL : ∀ l ∈ ls, L l)
    (hd : ∀ l k, L l → LineDefines l k → defs k) (ht : ∀ text, (∀ l ∈ splitChar '\n' text, L l) → texts text)
    (h : P.run ln col ls s = .ok s') : R s s' := by
  unfold Parser.run at h
  split at h
  · cases h
  · rename_i toks hx
    obtain ⟨x, hl, rfl⟩ := map_ok h
    have hE := docTokens_ends _ _ _ _ _ hx
    have hT := tokFrom_lines (L := L) hn hL hx
    exact F.trans (N s 0) (F.trans (Keeps.docLoop F N (Keeps.docFns F N _ _ _ (docTokens_source hx) (Keeps.variableProc_from F N hE hT hd)
      (Keeps.blockProc_from F N hE hT ht)) _ _ _ _ hl) (N _ _))

end Mau
