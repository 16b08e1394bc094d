import Verif.Lemmas.DocLines
import Verif.Spec.Termination

set_option linter.unusedSimpArgs false

/-!
# Tokens of documents without loops
-/

namespace Mau
open Spec

/-- The conditions on a construct that starts with the first token: definitions have no parenthesis in the value, files are included (`M`) without
parentheses in the arguments, blocks have contents `B`. -/
structure HeadOk (M : Prop) (B : Str → Prop) (ts : List Token) : Prop where
  var : ∀ o n c v r, ts = o :: n :: c :: v :: r → o.type = .VARIABLE → c.type = .LITERAL → v.type = .TEXT →
    n.value.head? = some '+' ∨ n.value.head? = some '-' ∨ '(' ∉ v.value
  args : M → ∀ o a r, ts = o :: a :: r → o.type = .ARGUMENTS → '(' ∉ a.value
  incl : ∀ o t r, ts = o :: t :: r → o.type = .INCLUDE → t.value = c%"mau" → M ∧
    ∀ c a r', r = c :: a :: r' → c.type = .LITERAL → a.type = .TEXT → '(' ∉ a.value
  block : ∀ o t r, ts = o :: t :: r → o.type = .BLOCK → t.type = .TEXT → B t.value

/-- The conditions hold for all tokens. -/
def TokOk (M : Prop) (B : Str → Prop) (toks : List Token) : Prop := ∀ i, HeadOk M B (toks.drop i)

section
variable {M : Prop} {B : Str → Prop}

theorem HeadOk.nil : HeadOk M B [] := ⟨by intros; contradiction, by intros; contradiction, by intros; contradiction, by intros; contradiction⟩

theorem HeadOk.other {t : Token} {ts : List Token} (h1 : t.type ≠ .VARIABLE) (h2 : t.type ≠ .ARGUMENTS) (h3 : t.type ≠ .INCLUDE) (h4 : t.type ≠ .BLOCK) :
    HeadOk M B (t :: ts) := by
  refine ⟨?_, ?_, ?_, ?_⟩
  · intro o n c v r e hx; cases e; exact absurd hx h1
  · intro _ o a r e hx; cases e; exact absurd hx h2
  · intro o a r e hx; cases e; exact absurd hx h3
  · intro o a r e hx; cases e; exact absurd hx h4

theorem TokOk.nil : TokOk M B [] := by intro i; rw [List.drop_nil]; exact .nil

theorem TokOk.cons {t : Token} {ts : List Token} (h : HeadOk M B (t :: ts)) (ht : TokOk M B ts) : TokOk M B (t :: ts) := by
  intro i
  cases i with
  | zero => exact h
  | succ i => exact ht i

/-- What is known about the lines. -/
structure LinesOk (M : Prop) (N : Nat) (ls : List Str) : Prop where
  newline : ∀ l ∈ ls, '\n' ∉ l
  def_ : ∀ l ∈ ls, PlainDefinition l
  call : M → ∀ l ∈ ls, PlainCall l
  mau : ¬ M → ∀ l ∈ ls, ¬ IncludesMau l
  outside : M → IncludesOutside ls
  bound : ls.length ≤ N

/-- The contents of blocks: no includes, simple definitions, fewer lines. -/
def Inner (N : Nat) (v : Str) : Prop := (∀ l ∈ Spec.lines v, PlainDefinition l ∧ ¬ IncludesMau l) ∧ (Spec.lines v).length < N

theorem split_first {l : Str} {a b c d : List Str} (h : a ++ l :: b = c ++ l :: d) (ha : l ∉ a) (hc : l ∉ c) : a = c ∧ b = d := by
  have h1 := untilLine_eq_some (rest := b) ha
  have h2 := untilLine_eq_some (rest := d) hc
  rw [h, h2] at h1
  simp only [Option.some.injEq, Prod.mk.injEq] at h1
  exact ⟨h1.1.symm, h1.2.symm⟩

theorem Spec.IncludesOutside.block_inv {l : Str} {cs rest : List Str} (h : IncludesOutside (l :: (cs ++ l :: rest))) (hd : IsDelim l) (hc : l ∉ cs) :
    (∀ x ∈ cs, ¬ IncludesMau x) ∧ IncludesOutside rest := by
  obtain ⟨ch, rfl, h1, h2⟩ := delim_chars hd
  generalize hq : [ch, ch, ch, ch] :: (cs ++ [ch, ch, ch, ch] :: rest) = ls at h
  cases h with
  | nil => cases hq
  | comment h hr => injection hq with hq _; injection hq with hq _; exact absurd hq h2
  | @block ch' cs' rest' h hcs hr =>
    unfold blockLines at hq
    injection hq with hq1 hq2
    injection hq1 with hq1 _
    subst hq1
    change _ = (cs' ++ [[ch, ch, ch, ch]]) ++ rest' at hq2
    rw [List.append_assoc] at hq2
    obtain ⟨rfl, rfl⟩ := split_first hq2 hc h.inside
    exact ⟨hcs, hr⟩
  | line h hr => injection hq with hq _; exact absurd hq.symm (h ch)
  | spaces hr => injection hq with hq _; injection hq with hq _; exact absurd hq h1
  | @unclosed ch' rest' h3 h4 =>
    injection hq with hq1 hq2
    injection hq1 with hq1 _
    subst hq1
    rw [← hq2] at h4
    exact absurd (by simp) h4

theorem Spec.IncludesOutside.comment_inv {cs rest : List Str} (h : IncludesOutside (c%"////" :: (cs ++ c%"////" :: rest))) (hc : c%"////" ∉ cs) :
    IncludesOutside rest := by
  generalize hq : c%"////" :: (cs ++ c%"////" :: rest) = ls at h
  cases h with
  | nil => cases hq
  | comment h hr =>
    injection hq with _ hq
    obtain ⟨rfl, rfl⟩ := split_first hq hc h
    exact hr
  | block h hcs hr =>
    unfold blockLines at hq
    injection hq with hq1 hq2
    injection hq1 with hq1 _
    exact absurd hq1.symm h.noComment
  | line h hr => injection hq with hq _; exact absurd hq.symm (h '/')
  | spaces hr => injection hq with hq _; exact absurd hq (by decide)
  | @unclosed ch' rest' h3 h4 =>
    injection hq with hq1 hq2
    injection hq1 with hq1 _
    subst hq1
    rw [← hq2] at h4
    exact absurd (by simp) h4

theorem Spec.IncludesOutside.line_inv {l : Str} {rest : List Str} (h : IncludesOutside (l :: rest)) (hl : IsPlainLine l ∨ isBlank l = true) :
    IncludesOutside rest := by
  have hne : ∀ ch, ch ≠ ' ' → l ≠ [ch, ch, ch, ch] := by
    rintro ch hch rfl
    rcases hl with hl | hl
    · have := hl.2.2
      simp [isBlockDelimiter] at this
    · simp [isBlank, hch] at hl
  generalize hq : l :: rest = ls at h
  cases h with
  | nil => cases hq
  | comment h hr => injection hq with hq _; exact absurd hq (hne '/' (by decide))
  | block h hcs hr =>
    unfold blockLines at hq
    injection hq with hq1 hq2
    exact absurd hq1 (hne _ h.noSpace)
  | line h hr => injection hq with _ hq; rw [hq]; exact hr
  | spaces hr => injection hq with _ hq; rw [hq]; exact hr
  | unclosed h3 h4 => injection hq with hq _; exact absurd hq (hne _ h3)

theorem LinesOk.tail {N : Nat} {l : Str} {rest : List Str} (h : LinesOk M N (l :: rest)) (hl : IsPlainLine l ∨ isBlank l = true) : LinesOk M N rest where
  newline := fun x hx => h.newline x (by simp [hx])
  def_ := fun x hx => h.def_ x (by simp [hx])
  call := fun hm x hx => h.call hm x (by simp [hx])
  mau := fun hm x hx => h.mau hm x (by simp [hx])
  outside := fun hm => (h.outside hm).line_inv hl
  bound := by have := h.bound; simp at this; omega

theorem LinesOk.after {N : Nat} {l : Str} {cs rest : List Str} (h : LinesOk M N (l :: (cs ++ l :: rest))) (ho : M → IncludesOutside rest) : LinesOk M N rest where
  newline := fun x hx => h.newline x (by simp [hx])
  def_ := fun x hx => h.def_ x (by simp [hx])
  call := fun hm x hx => h.call hm x (by simp [hx])
  mau := fun hm x hx => h.mau hm x (by simp [hx])
  outside := ho
  bound := by have := h.bound; simp at this; omega

theorem mau_form {l : Str} (h : IncludesMau l) : ∃ ps, LineForm l ps := by
  obtain ⟨sp, r, rfl, h1, h2⟩ := h
  exact ⟨_, .incl sp c%"mau" r (sepPieces r) h1 (by decide) (by decide) h2 (tail_iff.2 rfl)⟩

theorem head_text {src : Option Str} {ls : List Str} {ln col : Nat} {ts : List Token} (h : docTokens src ln col ls = .ok ts) :
    ∀ t ∈ ts.head?, t.type = .TEXT → t.value ∈ ls ∧ ∀ qs, ¬ LineForm t.value qs := by
  revert ts h
  refine docTokens_rec (src := src) (P := fun ln col ls r => ∀ {ts}, r = .ok ts → ∀ t ∈ ts.head?, t.type = .TEXT → t.value ∈ ls ∧ ∀ qs, ¬ LineForm t.value qs)
    ?_ ?_ ?_ ?_ ?_ ?_ ?_ ?_ ls ln col
  · intro ln col ts h; cases h; simp [tokAt]
  · intro ln col ts h; cases h; simp [tokAt]
  · intro ln col l rest _ _ _ ts h
    obtain ⟨x, _, rfl⟩ := map_ok h
    simp [tokAt]
  · intro ln col rest _ ts h; cases h
  · intro ln col cs rest _ ih ts h t ht hx
    obtain ⟨h1, h2⟩ := ih h t ht hx
    exact ⟨by simp [h1], h2⟩
  · intro ln col l rest _ _ ts h; cases h
  · intro ln col l cs rest _ _ _ ts h
    obtain ⟨x, _, rfl⟩ := map_ok h
    simp [tokAt]
  · intro ln col l rest _ ih ts h t ht hx
    obtain ⟨x, hx', rfl⟩ := map_ok h
    rcases linePieces_iff.1 (rfl : linePieces l = linePieces l) with hf | ⟨hno, hps⟩
    · revert hf
      generalize linePieces l = ps at ht
      intro hf
      cases hf with
      | comment =>
        obtain ⟨h1, h2⟩ := ih hx' t (by simpa [place] using ht) hx
        exact ⟨by simp [h1], h2⟩
      | rule => simp [place, tokAt] at ht; subst ht; cases hx
      | control => simp [place, tokAt] at ht; subst ht; cases hx
      | incl => simp [place, tokAt] at ht; subst ht; cases hx
      | variable_ => simp [place, tokAt] at ht; subst ht; cases hx
      | arguments => simp [place, tokAt] at ht; subst ht; cases hx
      | label => simp [place, tokAt] at ht; subst ht; cases hx
      | list => simp [place, tokAt] at ht; subst ht; cases hx
      | header => simp [place, tokAt] at ht; subst ht; cases hx
      | headerSpace => simp [place, tokAt] at ht; subst ht; cases hx
      | headerSign => simp [place, tokAt] at ht; subst ht; cases hx
    · rw [hps] at ht
      simp [place, tokAt] at ht
      subst ht
      exact ⟨by simp, hno⟩

theorem inner_block {N : Nat} {cs : List Str} (hn : ∀ l ∈ cs, '\n' ∉ l) (hne : cs ≠ []) (h : ∀ l ∈ cs, PlainDefinition l ∧ ¬ IncludesMau l) (hN : cs.length < N) :
    Inner N (joinWith ['\n'] cs) := by
  unfold Inner Spec.lines
  split
  · exact ⟨(by intro _ h; cases h), (by show 0 < N; omega)⟩
  · rw [split_join hne hn]; exact ⟨h, hN⟩

theorem tokOk_of_lines {N : Nat} {src : Option Str} {ls : List Str} {ln col : Nat} {ts : List Token} (hls : LinesOk M N ls)
    (h : docTokens src ln col ls = .ok ts) : TokOk M (Inner N) ts := by
  revert ts h hls
  refine docTokens_rec (src := src) (P := fun ln col ls r => ∀ {ts}, LinesOk M N ls → r = .ok ts → TokOk M (Inner N) ts)
    ?_ ?_ ?_ ?_ ?_ ?_ ?_ ?_ ls ln col
  · intro ln col ts _ h; cases h; exact .cons (.other (by simp [tokAt]) (by simp [tokAt]) (by simp [tokAt]) (by simp [tokAt])) .nil
  · intro ln col ts _ h; cases h; exact .cons (.other (by simp [tokAt]) (by simp [tokAt]) (by simp [tokAt]) (by simp [tokAt])) .nil
  · intro ln col l rest _ hb ih ts hls h
    obtain ⟨x, hx, rfl⟩ := map_ok h
    exact .cons (.other (by simp [tokAt]) (by simp [tokAt]) (by simp [tokAt]) (by simp [tokAt])) (ih (hls.tail (.inr hb)) hx)
  · intro ln col rest _ ts _ h; cases h
  · intro ln col cs rest hc ih ts hls h
    exact ih (hls.after fun hm => (hls.outside hm).comment_inv hc) h
  · intro ln col l rest _ _ ts _ h; cases h
  · intro ln col l cs rest hd hc ih ts hls h
    obtain ⟨x, hx, rfl⟩ := map_ok h
    have hinv : M → (∀ x ∈ cs, ¬ IncludesMau x) ∧ IncludesOutside rest := fun hm => (hls.outside hm).block_inv hd hc
    have hr := hls.after fun hm => (hinv hm).2
    have hmau : ∀ x ∈ cs, ¬ IncludesMau x := by
      by_cases hm : M
      · exact (hinv hm).1
      · intro y hy; exact hls.mau hm y (by simp [hy])
    have hN := hls.bound
    simp only [List.length_cons, List.length_append] at hN
    have hclose : TokOk M (Inner N) (tokAt .BLOCK l (ln + cs.length + 1) 0 src :: x) := by
      refine .cons ⟨?_, ?_, ?_, ?_⟩ (ih hr hx)
      · intro o n c v r e hy; injection e with e0 _; subst e0; cases hy
      · intro _ o a r e hy; injection e with e0 _; subst e0; cases hy
      · intro o a r e hy; injection e with e0 _; subst e0; cases hy
      · intro o t r e _ ht
        injection e with _ e
        subst e
        obtain ⟨h1, h2⟩ := head_text hx t rfl ht
        have hnl := hr.newline _ h1
        unfold Inner Spec.lines
        split
        · exact ⟨(by intro _ h; cases h), (by show 0 < N; omega)⟩
        · rw [splitChar_of_not_mem hnl]
          refine ⟨fun l hl => ?_, by simp; omega⟩
          simp only [List.mem_singleton] at hl
          subst hl
          exact ⟨hr.def_ _ h1, fun hm => by obtain ⟨ps, hp⟩ := mau_form hm; exact h2 ps hp⟩
    unfold contentToken
    split
    · refine .cons ⟨?_, ?_, ?_, ?_⟩ hclose
      · intro o n c v r e hy; injection e with e0 _; subst e0; cases hy
      · intro _ o a r e hy; injection e with e0 _; subst e0; cases hy
      · intro o a r e hy; injection e with e0 _; subst e0; cases hy
      · intro o t r e _ ht
        injection e with _ e
        injection e with e _
        subst e
        cases ht
    · rename_i hne
      refine .cons ⟨?_, ?_, ?_, ?_⟩ (.cons (.other (by simp) (by simp) (by simp) (by simp)) hclose)
      · intro o n c v r e hy; injection e with e0 _; subst e0; cases hy
      · intro _ o a r e hy; injection e with e0 _; subst e0; cases hy
      · intro o a r e hy; injection e with e0 _; subst e0; cases hy
      · intro o t r e _ ht
        injection e with _ e
        injection e with e _
        subst e
        exact inner_block (fun l hl => hls.newline l (by simp [hl])) hne (fun l hl => ⟨hls.def_ l (by simp [hl]), hmau l hl⟩) (by omega)
  · intro ln col l rest hl ih ts hls h
    obtain ⟨x, hx, rfl⟩ := map_ok h
    have hok := ih (hls.tail (.inl hl)) hx
    have hlit := docTokens_head_not_literal hx
    have hdef := hls.def_ l (by simp)
    have hcall := fun hm => hls.call hm l (by simp)
    have hmau := fun hm => hls.mau hm l (by simp)
    have hplain : ∀ {ty : TokenType} {v : Str} {c : Nat} {r : List Token}, ty ≠ .VARIABLE → ty ≠ .ARGUMENTS → ty ≠ .INCLUDE → ty ≠ .BLOCK →
        TokOk M (Inner N) r → TokOk M (Inner N) (tokAt ty v ln c src :: r) := fun h1 h2 h3 h4 h => .cons (.other h1 h2 h3 h4) h
    rcases linePieces_iff.1 (rfl : linePieces l = linePieces l) with hf | ⟨hno, hps⟩
    · revert hf
      generalize linePieces l = ps
      intro hf
      cases hf with
      | comment => exact hok
      | rule => exact hplain (by simp) (by simp) (by simp) (by simp) hok
      | control =>
        exact hplain (by simp) (by simp) (by simp) (by simp) (hplain (by simp) (by simp) (by simp) (by simp) (hplain (by simp) (by simp) (by simp) (by simp) hok))
      | incl sp ty t ps h1 h2 h3 h4 h5 =>
        have hM : ty = c%"mau" → M ∧ '(' ∉ t ∧ t ≠ [':'] := by
          rintro rfl
          have hi : IncludesMau ('<' :: '<' :: (sp ++ c%"mau" ++ t)) := ⟨sp, t, rfl, h1, h4⟩
          by_cases hm : M
          · refine ⟨hm, fun hc => ((hcall hm).inline hi).1 (by simp [hc]), ?_⟩
            rintro rfl
            exact ((hcall hm).inline hi).2 ('<' :: '<' :: (sp ++ c%"mau")) (by simp)
          · exact absurd hi (hmau hm)
        have hrest : TokOk M (Inner N) (place ln src (col + 2 + sp.length + ty.length) ps ++ x) ∧
            ∀ c a r', place ln src (col + 2 + sp.length + ty.length) ps ++ x = c :: a :: r' → c.type = .LITERAL → a.type = .TEXT → ty = c%"mau" → '(' ∉ a.value := by
          cases h5 with
          | none =>
            refine ⟨hok, fun c a r' e hc _ _ => ?_⟩
            simp only [place, List.nil_append] at e
            rw [e] at hlit
            exact absurd hc (hlit c rfl)
          | colon =>
            refine ⟨hplain (by simp) (by simp) (by simp) (by simp) hok, fun c a r' e hc _ hty => ?_⟩
            exact absurd rfl (hM hty).2.2
          | @colonText v hv =>
            refine ⟨hplain (by simp) (by simp) (by simp) (by simp) (hplain (by simp) (by simp) (by simp) (by simp) hok), fun c a r' e hc _ hty => ?_⟩
            simp only [place, List.cons_append, List.nil_append, List.cons.injEq] at e
            obtain ⟨_, rfl, _⟩ := e
            intro hp
            exact (hM hty).2.1 (by simp only [tokAt] at hp; simp [hp])
          | text hv hv' =>
            refine ⟨hplain (by simp) (by simp) (by simp) (by simp) hok, fun c a r' e hc _ hty => ?_⟩
            simp only [place, List.cons_append, List.nil_append, List.cons.injEq] at e
            obtain ⟨rfl, _⟩ := e
            cases hc
        have hshape : place ln src col ([.tok .INCLUDE c%"<<", .skip sp, .tok .TEXT ty] ++ ps) ++ x =
            tokAt .INCLUDE c%"<<" ln col src :: tokAt .TEXT ty ln (col + 2 + sp.length) src :: (place ln src (col + 2 + sp.length + ty.length) ps ++ x) := by
          simp [place]
        rw [hshape]
        refine .cons ⟨?_, ?_, ?_, ?_⟩ (hplain (by simp) (by simp) (by simp) (by simp) hrest.1)
        · intro o n c v r e hy; injection e with e0 _; subst e0; cases hy
        · intro _ o a r e hy; injection e with e0 _; subst e0; cases hy
        · intro o u r e _ hv
          injection e with _ e
          injection e with e1 e2
          subst e1
          exact ⟨(hM hv).1, fun c a r' e3 hc ha => hrest.2 c a r' (e2.trans e3) hc ha hv⟩
        · intro o a r e hy; injection e with e0 _; subst e0; cases hy
      | variable_ name t ps h1 h2 h3 h4 =>
        have hrest : TokOk M (Inner N) (place ln src (col + 1 + name.length) ps ++ x) ∧
            ∀ c v r', place ln src (col + 1 + name.length) ps ++ x = c :: v :: r' → c.type = .LITERAL → v.type = .TEXT →
              name.head? = some '+' ∨ name.head? = some '-' ∨ '(' ∉ v.value := by
          cases h4 with
          | none =>
            refine ⟨hok, fun c a r' e hc _ => ?_⟩
            simp only [place, List.nil_append] at e
            rw [e] at hlit
            exact absurd hc (hlit c rfl)
          | colon =>
            refine ⟨hplain (by simp) (by simp) (by simp) (by simp) hok, fun c a r' e hc _ => ?_⟩
            rcases hdef name [] rfl h2 with h | h | ⟨h, _⟩
            · exact .inl h
            · exact .inr (.inl h)
            · exact absurd rfl h
          | @colonText v hv =>
            refine ⟨hplain (by simp) (by simp) (by simp) (by simp) (hplain (by simp) (by simp) (by simp) (by simp) hok), fun c a r' e hc _ => ?_⟩
            simp only [place, List.cons_append, List.nil_append, List.cons.injEq] at e
            obtain ⟨_, rfl, _⟩ := e
            rcases hdef name v rfl h2 with h | h | ⟨_, h⟩
            · exact .inl h
            · exact .inr (.inl h)
            · exact .inr (.inr h)
          | text hv hv' =>
            refine ⟨hplain (by simp) (by simp) (by simp) (by simp) hok, fun c a r' e hc _ => ?_⟩
            simp only [place, List.cons_append, List.nil_append, List.cons.injEq] at e
            obtain ⟨rfl, _⟩ := e
            cases hc
        have hshape : place ln src col ([.tok .VARIABLE [':'], .tok .TEXT name] ++ ps) ++ x =
            tokAt .VARIABLE [':'] ln col src :: tokAt .TEXT name ln (col + 1) src :: (place ln src (col + 1 + name.length) ps ++ x) := by
          simp [place]
        rw [hshape]
        refine .cons ⟨?_, ?_, ?_, ?_⟩ (hplain (by simp) (by simp) (by simp) (by simp) hrest.1)
        · intro o n c v r e _ hc hv
          injection e with _ e
          injection e with e1 e2
          subst e1
          exact hrest.2 c v r e2 hc hv
        · intro _ o a r e hy; injection e with e0 _; subst e0; cases hy
        · intro o a r e hy; injection e with e0 _; subst e0; cases hy
        · intro o a r e hy; injection e with e0 _; subst e0; cases hy
      | arguments a =>
        refine .cons ⟨?_, ?_, ?_, ?_⟩ (hplain (by simp) (by simp) (by simp) (by simp) (hplain (by simp) (by simp) (by simp) (by simp) hok))
        · intro o n c v r e hy; injection e with e0 _; subst e0; cases hy
        · intro hm o u r e _
          injection e with _ e
          injection e with e _
          subst e
          exact (hcall hm).boxed a rfl
        · intro o a r e hy; injection e with e0 _; subst e0; cases hy
        · intro o a r e hy; injection e with e0 _; subst e0; cases hy
      | label => exact hplain (by simp) (by simp) (by simp) (by simp) (hplain (by simp) (by simp) (by simp) (by simp) hok)
      | list => exact hplain (by simp) (by simp) (by simp) (by simp) (hplain (by simp) (by simp) (by simp) (by simp) hok)
      | header => exact hplain (by simp) (by simp) (by simp) (by simp) (hplain (by simp) (by simp) (by simp) (by simp) hok)
      | headerSpace => exact hplain (by simp) (by simp) (by simp) (by simp) (hplain (by simp) (by simp) (by simp) (by simp) hok)
      | headerSign => exact hplain (by simp) (by simp) (by simp) (by simp) (hplain (by simp) (by simp) (by simp) (by simp) hok)
    · rw [hps]
      exact hplain (by simp) (by simp) (by simp) (by simp) hok

end

end Mau
