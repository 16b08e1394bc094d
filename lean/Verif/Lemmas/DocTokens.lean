import Verif.Lemmas.DocLexing
import Verif.Lemmas.LineForms

/-! # Facts about the specified token lists -/

set_option linter.unusedSimpArgs false

namespace Mau
open Spec

theorem docTokens_single_empty (src : Option Str) (ln col : Nat) :
    docTokens src ln col [[]] = docTokens src ln col [] := by
  rw [docTokens, docTokens]; simp

theorem docTokens_blank {src ln col l rest} (h1 : ¬ (l = [] ∧ rest = [])) (h2 : isBlank l = true) :
    docTokens src ln col (l :: rest) =
      (docTokens src (ln + 1) 0 rest).map fun ts => tokAt .EOL l ln col src :: ts := by
  rw [docTokens, if_neg h1, if_pos h2]

theorem fence_not_blank : isBlank c%"////" = false := by decide

theorem docTokens_comment_open {src ln col rest} (h : c%"////" ∉ rest) :
    docTokens src ln col (c%"////" :: rest) = .error (.lexer .unclosedComment ln col src) := by
  rw [docTokens, if_neg (by simp), if_neg (by decide), if_pos rfl]
  have := untilLine_none.2 h
  split
  · rfl
  · rename_i r hr; rw [this] at hr; cases hr

theorem docTokens_comment {src ln col cs rest} (h : c%"////" ∉ cs) :
    docTokens src ln col (c%"////" :: (cs ++ c%"////" :: rest)) =
      docTokens src (ln + cs.length + 2) 0 rest := by
  rw [docTokens, if_neg (by simp), if_neg (by decide), if_pos rfl]
  have := untilLine_eq_some (rest := rest) h
  split
  · rename_i hr; rw [this] at hr; cases hr
  · rename_i r hr; rw [this] at hr; simp at hr; rw [← hr]

/-- A block delimiter line: four equal characters, not spaces, not slashes. -/
def IsDelim (l : Str) : Prop := isBlockDelimiter l = true ∧ isBlank l = false ∧ l ≠ c%"////"

theorem delim_chars {l : Str} (h : IsDelim l) : ∃ ch, l = [ch, ch, ch, ch] ∧ ch ≠ ' ' ∧ ch ≠ '/' := by
  obtain ⟨h1, h2, h3⟩ := h
  unfold isBlockDelimiter at h1
  split at h1
  · rename_i a b c d
    simp only [Bool.and_eq_true, beq_iff_eq] at h1
    obtain ⟨⟨rfl, rfl⟩, rfl⟩ := h1
    refine ⟨_, rfl, ?_, ?_⟩
    · rintro rfl; exact absurd h2 (by decide)
    · rintro rfl; exact h3 rfl
  · cases h1

theorem IsDelim.ne_nil {l : Str} (h : IsDelim l) : l ≠ [] := docBlock_ne h.1

theorem docTokens_block_open {src ln col l rest} (hd : IsDelim l) (h : l ∉ rest) :
    docTokens src ln col (l :: rest) = .error (.lexer .unclosedBlock ln col src) := by
  rw [docTokens, if_neg (by simp [hd.ne_nil]), if_neg (by simp [hd.2.1]), if_neg hd.2.2, if_pos hd.1]
  have := untilLine_none.2 h
  split
  · rfl
  · rename_i r hr; rw [this] at hr; cases hr

theorem docTokens_block {src ln col l cs rest} (hd : IsDelim l) (h : l ∉ cs) :
    docTokens src ln col (l :: (cs ++ l :: rest)) =
      (docTokens src (ln + cs.length + 2) 0 rest).map fun ts =>
        tokAt .BLOCK l ln col src :: contentToken src (ln + 1) cs ++
          tokAt .BLOCK l (ln + cs.length + 1) 0 src :: ts := by
  rw [docTokens, if_neg (by simp [hd.ne_nil]), if_neg (by simp [hd.2.1]), if_neg hd.2.2, if_pos hd.1]
  have := untilLine_eq_some (rest := rest) h
  split
  · rename_i hr; rw [this] at hr; cases hr
  · rename_i r hr; rw [this] at hr; simp at hr; rw [← hr]

/-- A line handled on its own: not blank, no fence, no delimiter. -/
def IsPlainLine (l : Str) : Prop := isBlank l = false ∧ l ≠ c%"////" ∧ isBlockDelimiter l = false

theorem docTokens_line {src ln col l rest} (h : IsPlainLine l) :
    docTokens src ln col (l :: rest) =
      (docTokens src (ln + 1) 0 rest).map fun ts => place ln src col (linePieces l) ++ ts := by
  have : l ≠ [] := by intro e; have := h.1; simp [e, isBlank] at this
  rw [docTokens, if_neg (by simp [this]), if_neg (by simp [h.1]), if_neg h.2.1, if_neg (by simp [h.2.2])]

/-- Induction over the lines of a document along the specification. -/
theorem docTokens_rec {src : Option Str} {P : Nat → Nat → List Str → Except Err (List Token) → Prop}
    (nil : ∀ ln col, P ln col [] (.ok [tokAt .EOF [] ln col src]))
    (lastEmpty : ∀ ln col, P ln col [[]] (.ok [tokAt .EOF [] ln col src]))
    (blank : ∀ ln col l rest, ¬ (l = [] ∧ rest = []) → isBlank l = true →
      P (ln + 1) 0 rest (docTokens src (ln + 1) 0 rest) →
      P ln col (l :: rest) ((docTokens src (ln + 1) 0 rest).map fun ts => tokAt .EOL l ln col src :: ts))
    (commentOpen : ∀ ln col rest, c%"////" ∉ rest →
      P ln col (c%"////" :: rest) (.error (.lexer .unclosedComment ln col src)))
    (comment : ∀ ln col cs rest, c%"////" ∉ cs →
      P (ln + cs.length + 2) 0 rest (docTokens src (ln + cs.length + 2) 0 rest) →
      P ln col (c%"////" :: (cs ++ c%"////" :: rest)) (docTokens src (ln + cs.length + 2) 0 rest))
    (blockOpen : ∀ ln col l rest, IsDelim l → l ∉ rest →
      P ln col (l :: rest) (.error (.lexer .unclosedBlock ln col src)))
    (block : ∀ ln col l cs rest, IsDelim l → l ∉ cs →
      P (ln + cs.length + 2) 0 rest (docTokens src (ln + cs.length + 2) 0 rest) →
      P ln col (l :: (cs ++ l :: rest))
        ((docTokens src (ln + cs.length + 2) 0 rest).map fun ts =>
        tokAt .BLOCK l ln col src :: contentToken src (ln + 1) cs ++
          tokAt .BLOCK l (ln + cs.length + 1) 0 src :: ts))
    (line : ∀ ln col l rest, IsPlainLine l →
      P (ln + 1) 0 rest (docTokens src (ln + 1) 0 rest) →
      P ln col (l :: rest)
        ((docTokens src (ln + 1) 0 rest).map fun ts => place ln src col (linePieces l) ++ ts)) :
    ∀ ls ln col, P ln col ls (docTokens src ln col ls) := by
  have main : ∀ n (ls : List Str), ls.length ≤ n → ∀ ln col, P ln col ls (docTokens src ln col ls) := by
    intro n
    induction n with
    | zero =>
      intro ls h ln col
      have : ls = [] := List.eq_nil_of_length_eq_zero (by omega)
      subst this; rw [docTokens]; exact nil _ _
    | succ n ih =>
      intro ls h ln col
      cases ls with
      | nil => rw [docTokens]; exact nil _ _
      | cons l rest =>
        simp at h
        by_cases hz : l = [] ∧ rest = []
        · rw [hz.1, hz.2, docTokens_single_empty, docTokens]; exact lastEmpty _ _
        by_cases hb : isBlank l = true
        · rw [docTokens_blank hz hb]; exact blank _ _ _ _ hz hb (ih _ h _ _)
        have hb' : isBlank l = false := by simpa using hb
        by_cases hf : l = c%"////"
        · subst hf
          by_cases hm : c%"////" ∈ rest
          · cases hu : untilLine c%"////" rest with
            | none => exact absurd hm (untilLine_none.1 hu)
            | some r =>
              have e := untilLine_append hu
              have hn := untilLine_not_mem hu
              rw [e, docTokens_comment hn]
              exact comment _ _ _ _ hn (ih _ (by rw [e] at h; simp at h; omega) _ _)
          · rw [docTokens_comment_open hm]; exact commentOpen _ _ _ hm
        by_cases hd : isBlockDelimiter l = true
        · have hD : IsDelim l := ⟨hd, hb', hf⟩
          by_cases hm : l ∈ rest
          · cases hu : untilLine l rest with
            | none => exact absurd hm (untilLine_none.1 hu)
            | some r =>
              have e := untilLine_append hu
              have hn := untilLine_not_mem hu
              rw [e, docTokens_block hD hn]
              exact block _ _ _ _ _ hD hn (ih _ (by rw [e] at h; simp at h; omega) _ _)
          · rw [docTokens_block_open hD hm]; exact blockOpen _ _ _ _ hD hm
        · have hP : IsPlainLine l := ⟨hb', hf, by simpa using hd⟩
          rw [docTokens_line hP]; exact line _ _ _ _ hP (ih _ h _ _)
  intro ls ln col
  exact main _ ls (Nat.le_refl _) ln col

theorem map_ok {ε α β : Type} {f : α → β} {r : Except ε α} {y : β} (h : r.map f = .ok y) :
    ∃ x, r = .ok x ∧ y = f x := by
  cases r with
  | error e => simp [Except.map] at h
  | ok x => simp [Except.map] at h; exact ⟨x, rfl, h.symm⟩

theorem map_error {ε α β : Type} {f : α → β} {r : Except ε α} {e : ε} (h : r.map f = .error e) :
    r = .error e := by
  cases r with
  | error e' => simp [Except.map] at h; rw [h]
  | ok x => simp [Except.map] at h

/-- A token list that ends with exactly one EOF token. -/
def EndsWithEof (ts : List Token) : Prop :=
  ∃ init e, ts = init ++ [e] ∧ e.type = .EOF ∧ e.value = [] ∧ ∀ t ∈ init, t.type ≠ .EOF

theorem EndsWithEof.append {as ts : List Token} (ha : ∀ t ∈ as, t.type ≠ .EOF) (h : EndsWithEof ts) :
    EndsWithEof (as ++ ts) := by
  obtain ⟨i, e, rfl, h1, h2, h3⟩ := h
  refine ⟨as ++ i, e, by simp, h1, h2, ?_⟩
  intro t ht
  rcases List.mem_append.1 ht with ht | ht
  · exact ha t ht
  · exact h3 t ht

theorem endsWithEof_single (ln col : Nat) (src : Option Str) :
    EndsWithEof [tokAt .EOF [] ln col src] := ⟨[], _, rfl, rfl, rfl, by simp⟩

theorem contentToken_notEof {src ln cs t} (h : t ∈ contentToken src ln cs) : t.type ≠ .EOF := by
  unfold contentToken at h
  split at h
  · simp at h
  · simp at h; simp [h]

theorem docTokens_ends (src : Option Str) (ls : List Str) (ln col : Nat) (ts : List Token)
    (h : docTokens src ln col ls = .ok ts) : EndsWithEof ts := by
  revert ts
  refine docTokens_rec (src := src) (P := fun _ _ _ r => ∀ ts, r = .ok ts → EndsWithEof ts)
    ?_ ?_ ?_ ?_ ?_ ?_ ?_ ?_ ls ln col
  · intro ln col ts h; simp at h; rw [← h]; exact endsWithEof_single _ _ _
  · intro ln col ts h; simp at h; rw [← h]; exact endsWithEof_single _ _ _
  · intro ln col l rest _ _ ih ts h
    obtain ⟨x, hx, rfl⟩ := map_ok h
    exact (ih x hx).append (as := [_]) (by simp [tokAt])
  · intro ln col rest _ ts h; simp at h
  · intro ln col cs rest _ ih ts h; exact ih ts h
  · intro ln col l rest _ _ ts h; simp at h
  · intro ln col l cs rest _ _ ih ts h
    obtain ⟨x, hx, rfl⟩ := map_ok h
    have := (ih x hx).append (as := tokAt .BLOCK l ln col src :: (contentToken src (ln + 1) cs ++
          [tokAt .BLOCK l (ln + cs.length + 1) 0 src])) (by
        intro t ht
        simp at ht
        rcases ht with rfl | ht | rfl
        · simp [tokAt]
        · exact contentToken_notEof ht
        · simp [tokAt])
    simpa using this
  · intro ln col l rest _ ih ts h
    obtain ⟨x, hx, rfl⟩ := map_ok h
    exact (ih x hx).append (fun t ht => place_notEof ht)

theorem inlineTokens_ends {fs : List ProcFn} {cut : Cutter} (hc : CutsBy fs cut) (src : Option Str)
    (ls : List Str) (ln col : Nat) : EndsWithEof (inlineTokens cut src ln col ls) := by
  induction ls generalizing ln col with
  | nil => exact endsWithEof_single _ _ _
  | cons l rest ih =>
    simp only [inlineTokens]
    split
    · split
      · exact endsWithEof_single _ _ _
      · exact (ih _ _).append (as := [_]) (by simp [tokAt])
    · apply EndsWithEof.append
      · intro t ht
        obtain ⟨v, hv⟩ := place_types ht
        generalize l.length = n at hv
        clear ht
        induction n generalizing l with
        | zero => simp [cutLine] at hv
        | succ n ihn =>
          simp only [cutLine] at hv
          split at hv
          · simp at hv
          · simp at hv
            rcases hv with hv | hv
            · rw [hv.1]; exact hc.notEof _
            · refine ihn (l.drop (cut l).2) ?_ hv
              by_cases hb : isBlank (l.drop (cut l).2) = true
              · cases n <;> simp [cutLine, hb] at hv
              · simpa using hb
      · split
        · exact endsWithEof_single _ _ _
        · exact ih _ _

/-! ## Shifting the origin -/

/-- Shift a token. -/
def shiftTok (sl sc : Nat) (t : Token) : Token := { t with ctx := shiftCtx sl sc t.ctx }

/-- Shift a result: token positions, or the position of a lexer error. -/
def shiftResult (sl sc : Nat) : Except Err (List Token) → Except Err (List Token)
  | .ok ts => .ok (ts.map (shiftTok sl sc))
  | .error (.lexer m l c o) => .error (.lexer m (l + sl) (c + (if l = 0 then sc else 0)) o)
  | .error e => .error e

theorem shiftResult_map {sl sc : Nat} {as : List Token} {r : Except Err (List Token)} :
    shiftResult sl sc (r.map fun ts => as ++ ts) =
      (shiftResult sl sc r).map fun ts => as.map (shiftTok sl sc) ++ ts := by
  cases r with
  | ok ts => simp [shiftResult, Except.map]
  | error e => cases e <;> simp [shiftResult, Except.map]

theorem shiftTok_tokAt {sl sc ty v ln col src} :
    shiftTok sl sc (tokAt ty v ln col src) =
      tokAt ty v (ln + sl) (col + (if ln = 0 then sc else 0)) src := by
  simp only [shiftTok, tokAt, shiftCtx, Token.mk.injEq, Context.mk.injEq, and_true, true_and]
  by_cases h : ln = 0
  · simp [h]; omega
  · simp [h]

theorem place_shift {sl sc ln src col ps} :
    place (ln + sl) src (col + (if ln = 0 then sc else 0)) ps =
      (place ln src col ps).map (shiftTok sl sc) := by
  induction ps generalizing col with
  | nil => simp [place]
  | cons p ps ih =>
    cases p with
    | tok ty v =>
      simp only [place, List.map_cons, shiftTok_tokAt, ← ih]
      congr 2; omega
    | skip v =>
      simp only [place, ← ih]
      congr 1; omega

theorem contentToken_shift {sl sc ln src cs} :
    contentToken src (ln + sl + 1) cs = (contentToken src (ln + 1) cs).map (shiftTok sl sc) := by
  unfold contentToken
  split
  · rfl
  · rename_i h
    have : cs.length ≠ 0 := by simpa using h
    have h2 : ln + 1 + cs.length - 1 ≠ 0 := by omega
    simp only [shiftTok, shiftCtx, List.map_cons, List.map_nil, if_neg h2, Nat.succ_ne_zero, if_false,
      List.cons.injEq, Token.mk.injEq, Context.mk.injEq, and_true, true_and]
    omega

theorem docTokens_shift (src : Option Str) (sl sc : Nat) (ls : List Str) (ln col : Nat) :
    docTokens src (ln + sl) (col + (if ln = 0 then sc else 0)) ls =
      shiftResult sl sc (docTokens src ln col ls) := by
  refine docTokens_rec (src := src)
    (P := fun ln col ls r => docTokens src (ln + sl) (col + (if ln = 0 then sc else 0)) ls =
      shiftResult sl sc r) ?_ ?_ ?_ ?_ ?_ ?_ ?_ ?_ ls ln col
  · intro ln col; rw [docTokens]; simp [shiftResult, shiftTok_tokAt]
  · intro ln col; rw [docTokens_single_empty, docTokens]; simp [shiftResult, shiftTok_tokAt]
  · intro ln col l rest h1 h2 ih
    simp only [Nat.succ_ne_zero, if_false, Nat.add_zero] at ih
    rw [docTokens_blank h1 h2, show ln + sl + 1 = ln + 1 + sl by omega, ih]
    have := shiftResult_map (sl := sl) (sc := sc) (as := [tokAt .EOL l ln col src])
      (r := docTokens src (ln + 1) 0 rest)
    simp only [List.map_cons, shiftTok_tokAt, List.map_nil, List.cons_append, List.nil_append] at this
    exact this.symm
  · intro ln col rest h
    rw [docTokens_comment_open h]; simp [shiftResult]
  · intro ln col cs rest h ih
    rw [if_neg (by omega), Nat.add_zero] at ih
    rw [docTokens_comment h, ← ih]
    congr 1; omega
  · intro ln col l rest h1 h2
    rw [docTokens_block_open h1 h2]; simp [shiftResult]
  · intro ln col l cs rest h1 h2 ih
    rw [if_neg (by omega), Nat.add_zero] at ih
    rw [docTokens_block h1 h2, show ln + sl + cs.length + 2 = ln + cs.length + 2 + sl by omega, ih]
    have := shiftResult_map (sl := sl) (sc := sc) (as := tokAt .BLOCK l ln col src ::
        (contentToken src (ln + 1) cs ++ [tokAt .BLOCK l (ln + cs.length + 1) 0 src]))
      (r := docTokens src (ln + cs.length + 2) 0 rest)
    simp only [List.map_cons, shiftTok_tokAt, List.map_nil, List.map_append, List.cons_append,
      List.nil_append, List.append_assoc, ← contentToken_shift] at this
    rw [if_neg (c := ln + cs.length + 1 = 0) (by omega), Nat.add_zero,
      show ln + cs.length + 1 + sl = ln + sl + cs.length + 1 by omega] at this
    simpa using this.symm
  · intro ln col l rest h ih
    simp only [Nat.succ_ne_zero, if_false, Nat.add_zero] at ih
    rw [docTokens_line h, show ln + sl + 1 = ln + 1 + sl by omega, ih, shiftResult_map, place_shift]

theorem inlineTokens_shift (cut : Cutter) (src : Option Str) (sl sc : Nat) (ls : List Str) (ln col : Nat) :
    inlineTokens cut src (ln + sl) (col + (if ln = 0 then sc else 0)) ls =
      (inlineTokens cut src ln col ls).map (shiftTok sl sc) := by
  induction ls generalizing ln col with
  | nil => simp [inlineTokens, shiftTok_tokAt]
  | cons l rest ih =>
    have ih' := ih (ln + 1) 0
    simp only [Nat.succ_ne_zero, if_false, Nat.add_zero] at ih'
    simp only [inlineTokens, show ln + sl + 1 = ln + 1 + sl by omega, ih', place_shift]
    split
    · split
      · simp [shiftTok_tokAt]
      · simp [shiftTok_tokAt]
    · split
      · simp only [List.map_append, List.map_cons, List.map_nil, shiftTok_tokAt]
        congr 3; omega
      · simp

/-! ## Shapes and concatenation -/

theorem shape_shift {sl sc : Nat} {r : Except Err (List Token)} : shape (shiftResult sl sc r) = shape r := by
  cases r with
  | ok ts => simp [shape, shiftResult, shiftTok]
  | error e => cases e <;> simp [shape, shiftResult]

theorem shape_map {as : List Token} {r : Except Err (List Token)} :
    shape (r.map fun ts => as ++ ts) =
      (shape r).map fun ts => as.map (fun t => (t.type, t.value)) ++ ts := by
  cases r with
  | ok ts => simp [shape, Except.map]
  | error e => cases e <;> simp [shape, Except.map]

theorem docTokens_append (src : Option Str) :
    ∀ (ls : List Str) (ln col : Nat), ∀ (p : List Str), ls = p ++ [[]] → ∀ ts,
      docTokens src ln col ls = .ok ts → ∃ init e, ts = init ++ [e] ∧ e.type = .EOF ∧ e.value = [] ∧
        ∀ s, s ≠ [] → docTokens src ln col (p ++ s) =
          (docTokens src (ln + p.length) (if p = [] then col else 0) s).map fun us => init ++ us := by
  refine docTokens_rec (src := src) (P := fun ln col ls r => ∀ (p : List Str), ls = p ++ [[]] → ∀ ts,
      r = .ok ts → ∃ init e, ts = init ++ [e] ∧ e.type = .EOF ∧ e.value = [] ∧
        ∀ s, s ≠ [] → docTokens src ln col (p ++ s) =
          (docTokens src (ln + p.length) (if p = [] then col else 0) s).map fun us => init ++ us)
    ?_ ?_ ?_ ?_ ?_ ?_ ?_ ?_
  · intro ln col p hp; simp at hp
  · intro ln col p hp ts h
    have : p = [] := by
      cases p with
      | nil => rfl
      | cons a b => simp at hp
    subst this
    simp at h
    refine ⟨[], _, h.symm, rfl, rfl, ?_⟩
    intro s _
    simp only [List.nil_append, List.length_nil, Nat.add_zero, if_true]
    cases docTokens src ln col s <;> simp [Except.map]
  · intro ln col l rest h1 h2 ih p hp ts h
    cases p with
    | nil => simp at hp; exact absurd ⟨hp.1, hp.2⟩ h1
    | cons a p =>
      simp at hp
      obtain ⟨rfl, rfl⟩ := hp
      obtain ⟨x, hx, rfl⟩ := map_ok h
      obtain ⟨init, e, rfl, he, hv, hs⟩ := ih p rfl x hx
      refine ⟨tokAt .EOL l ln col src :: init, e, by simp, he, hv, ?_⟩
      intro s hs'
      rw [List.cons_append, docTokens_blank (by simp [hs']) h2, hs s hs']
      simp only [List.length_cons, reduceCtorEq, if_false, ite_self]
      rw [show ln + 1 + p.length = ln + (p.length + 1) by omega]
      cases docTokens src (ln + (p.length + 1)) 0 s <;> simp [Except.map]
  · intro ln col rest _ p _ ts h; simp at h
  · intro ln col cs rest h1 ih p hp ts h
    cases p with
    | nil => simp at hp
    | cons a p =>
      simp at hp
      obtain ⟨rfl, hp⟩ := hp
      -- the closing fence is inside p
      have hrest : ∃ p', p = cs ++ c%"////" :: p' ∧ rest = p' ++ [[]] := by
        have hl : (cs ++ c%"////" :: rest).getLast? = some [] := by rw [hp]; simp
        have hne : rest ≠ [] := by rintro rfl; simp at hl
        obtain ⟨r', z, rfl⟩ : ∃ r' z, rest = r' ++ [z] := ⟨_, _, (List.dropLast_concat_getLast hne).symm⟩
        rw [show cs ++ c%"////" :: (r' ++ [z]) = (cs ++ c%"////" :: r') ++ [z] by simp] at hp
        have := List.append_inj' hp rfl
        simp at this
        exact ⟨r', this.1.symm, by rw [this.2]⟩
      obtain ⟨p', rfl, rfl⟩ := hrest
      obtain ⟨init, e, rfl, he, hv, hs⟩ := ih p' rfl ts h
      refine ⟨init, e, rfl, he, hv, ?_⟩
      intro s hs'
      rw [show c%"////" :: (cs ++ c%"////" :: p') ++ s = c%"////" :: (cs ++ c%"////" :: (p' ++ s)) by simp,
        docTokens_comment h1, hs s hs']
      simp only [List.length_cons, List.length_append, reduceCtorEq, if_false, ite_self]
      rw [show ln + cs.length + 2 + p'.length = ln + (cs.length + (p'.length + 1) + 1) by omega]
  · intro ln col l rest _ _ p _ ts h; simp at h
  · intro ln col l cs rest h1 h2 ih p hp ts h
    cases p with
    | nil => simp at hp
    | cons a p =>
      simp at hp
      obtain ⟨rfl, hp⟩ := hp
      have hrest : ∃ p', p = cs ++ l :: p' ∧ rest = p' ++ [[]] := by
        have hl : (cs ++ l :: rest).getLast? = some [] := by rw [hp]; simp
        have hne : rest ≠ [] := by rintro rfl; simp at hl; exact h1.ne_nil hl
        obtain ⟨r', z, rfl⟩ : ∃ r' z, rest = r' ++ [z] := ⟨_, _, (List.dropLast_concat_getLast hne).symm⟩
        rw [show cs ++ l :: (r' ++ [z]) = (cs ++ l :: r') ++ [z] by simp] at hp
        have := List.append_inj' hp rfl
        simp at this
        exact ⟨r', this.1.symm, by rw [this.2]⟩
      obtain ⟨p', rfl, rfl⟩ := hrest
      obtain ⟨x, hx, rfl⟩ := map_ok h
      obtain ⟨init, e, rfl, he, hv, hs⟩ := ih p' rfl x hx
      refine ⟨tokAt .BLOCK l ln col src :: contentToken src (ln + 1) cs ++
          tokAt .BLOCK l (ln + cs.length + 1) 0 src :: init, e, by simp, he, hv, ?_⟩
      intro s hs'
      rw [show l :: (cs ++ l :: p') ++ s = l :: (cs ++ l :: (p' ++ s)) by simp,
        docTokens_block h1 h2, hs s hs']
      simp only [List.length_cons, List.length_append, reduceCtorEq, if_false, ite_self]
      rw [show ln + cs.length + 2 + p'.length = ln + (cs.length + (p'.length + 1) + 1) by omega]
      cases docTokens src (ln + (cs.length + (p'.length + 1) + 1)) 0 s <;> simp [Except.map]
  · intro ln col l rest h1 ih p hp ts h
    cases p with
    | nil => simp at hp; have := h1.1; simp [hp.1, isBlank] at this
    | cons a p =>
      simp at hp
      obtain ⟨rfl, rfl⟩ := hp
      obtain ⟨x, hx, rfl⟩ := map_ok h
      obtain ⟨init, e, rfl, he, hv, hs⟩ := ih p rfl x hx
      refine ⟨place ln src col (linePieces l) ++ init, e, by simp, he, hv, ?_⟩
      intro s hs'
      rw [List.cons_append, docTokens_line h1, hs s hs']
      simp only [List.length_cons, reduceCtorEq, if_false, ite_self]
      rw [show ln + 1 + p.length = ln + (p.length + 1) by omega]
      cases docTokens src (ln + (p.length + 1)) 0 s <;> simp [Except.map]

theorem shape_docTokens (src src' : Option Str) (ls : List Str) (ln col ln' col' : Nat) :
    shape (docTokens src ln col ls) = shape (docTokens src' ln' col' ls) := by
  refine docTokens_rec (src := src) (P := fun ln col ls r => ∀ ln' col',
    shape r = shape (docTokens src' ln' col' ls)) ?_ ?_ ?_ ?_ ?_ ?_ ?_ ?_ ls ln col ln' col'
  · intro ln col ln' col'; rw [docTokens]; rfl
  · intro ln col ln' col'; rw [docTokens_single_empty, docTokens]; rfl
  · intro ln col l rest h1 h2 ih ln' col'
    rw [docTokens_blank h1 h2]
    have e1 := shape_map (as := [tokAt .EOL l ln col src]) (r := docTokens src (ln + 1) 0 rest)
    have e2 := shape_map (as := [tokAt .EOL l ln' col' src']) (r := docTokens src' (ln' + 1) 0 rest)
    simp only [List.cons_append, List.nil_append] at e1 e2
    rw [e1, e2, ih (ln' + 1) 0]; rfl
  · intro ln col rest h ln' col'; rw [docTokens_comment_open h]; rfl
  · intro ln col cs rest h ih ln' col'; rw [docTokens_comment h]; exact ih _ _
  · intro ln col l rest h1 h2 ln' col'; rw [docTokens_block_open h1 h2]; rfl
  · intro ln col l cs rest h1 h2 ih ln' col'
    rw [docTokens_block h1 h2]
    have e1 := shape_map (as := tokAt .BLOCK l ln col src :: (contentToken src (ln + 1) cs ++
          [tokAt .BLOCK l (ln + cs.length + 1) 0 src])) (r := docTokens src (ln + cs.length + 2) 0 rest)
    have e2 := shape_map (as := tokAt .BLOCK l ln' col' src' :: (contentToken src' (ln' + 1) cs ++
          [tokAt .BLOCK l (ln' + cs.length + 1) 0 src'])) (r := docTokens src' (ln' + cs.length + 2) 0 rest)
    simp only [List.cons_append, List.nil_append, List.append_assoc] at e1 e2 ⊢
    rw [e1, e2, ih (ln' + cs.length + 2) 0]
    congr 2
    simp only [contentToken]
    split <;> simp [tokAt]
  · intro ln col l rest h ih ln' col'
    rw [docTokens_line h, shape_map, shape_map, ih (ln' + 1) 0]
    congr 2
    have : ∀ (ps : List Piece) (c c' : Nat), (place ln src c ps).map (fun t => (t.type, t.value)) =
        (place ln' src' c' ps).map (fun t => (t.type, t.value)) := by
      intro ps
      induction ps with
      | nil => intro c c'; rfl
      | cons q qs ihq =>
        intro c c'
        cases q with
        | tok ty v => simp only [place, List.map_cons, tokAt]; rw [ihq]
        | skip v => simp only [place]; exact ihq _ _
    rw [this _ col col']

/-! ## Texts made of a closed part and a rest -/

theorem lexDocument_split (text : Str) (sl sc : Nat) (src : Option Str) :
    lexDocument (TextBuffer.ofText text sl sc src) = docTokens src sl sc (splitChar '\n' text) := by
  rw [lexDocument_eq, Spec.lines]
  split
  · rename_i h; subst h; rw [splitChar_nil, docTokens_single_empty]
  · rfl

theorem splitChar_append_nl {p : Str} (h : p = [] ∨ p.getLast? = some '\n') :
    ∃ P, ∀ s, splitChar '\n' (p ++ s) = P ++ splitChar '\n' s := by
  rcases h with rfl | h
  · exact ⟨[], by simp⟩
  · rw [List.getLast?_eq_some_iff] at h
    obtain ⟨q, rfl⟩ := h
    refine ⟨splitChar '\n' q, ?_⟩
    intro s
    induction q with
    | nil => simp
    | cons c q ih =>
      by_cases hc : c = '\n'
      · subst hc
        simp only [List.cons_append, splitChar_sep]
        rw [ih]
      · obtain ⟨l, ls, e1, e2⟩ := splitChar_cons_ne hc q
        rw [e2]
        obtain ⟨l', ls', e1', e2'⟩ := splitChar_cons_ne hc (q ++ ['\n'] ++ s)
        rw [List.cons_append, List.cons_append, e2']
        rw [ih, e1] at e1'
        simp only [List.cons_append] at e1' ⊢
        injection e1' with h1 h2
        rw [← h1, ← h2]

/-- Lexing a text after a closed part: the tokens of the closed part (without its EOF), then those
of the rest, at the right place. -/
theorem lex_after {p : Str} {sl sc : Nat} {src : Option Str} {ts : List Token}
    (hp : p = [] ∨ p.getLast? = some '\n')
    (hc : lexDocument (TextBuffer.ofText p sl sc src) = .ok ts) :
    ∃ init e ln col, ts = init ++ [e] ∧ e.type = .EOF ∧ e.value = [] ∧
      ∀ s, lexDocument (TextBuffer.ofText (p ++ s) sl sc src) =
        (docTokens src ln col (splitChar '\n' s)).map fun us => init ++ us := by
  obtain ⟨P, hP⟩ := splitChar_append_nl hp
  rw [lexDocument_split] at hc
  have h0 := hP []
  simp at h0
  obtain ⟨init, e, h1, h2, h3, h4⟩ := docTokens_append src _ sl sc P h0 ts hc
  refine ⟨init, e, sl + P.length, if P = [] then sc else 0, h1, h2, h3, ?_⟩
  intro s
  rw [lexDocument_split, hP s, h4 _ (splitChar_ne_nil _ _)]

end Mau
