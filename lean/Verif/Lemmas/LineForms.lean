import Verif.Spec.LineForms
import Verif.Lemmas.Str

/-! # The line functions of the document lexer recognise exactly the documented forms -/

set_option linter.unusedSimpArgs false

namespace Mau
open Spec

theorem span_append {p : Char → Bool} {a b : Str} (ha : ∀ c ∈ a, p c = true) (hb : NoHead p b) :
    (a ++ b).takeWhile p = a ∧ (a ++ b).dropWhile p = b := by
  induction a with
  | nil =>
    cases b with
    | nil => simp
    | cons c r => simp [hb c r rfl]
  | cons c a ih =>
    have := ih (fun d hd => ha d (by simp [hd]))
    simp [ha c (by simp), this]

theorem mem_takeWhile {p : Char → Bool} {s : Str} : ∀ c ∈ s.takeWhile p, p c = true := by
  induction s with
  | nil => simp
  | cons c s ih =>
    by_cases h : p c = true
    · simp only [List.takeWhile_cons, h, if_true, List.mem_cons]
      rintro d (rfl | hd)
      · exact h
      · exact ih d hd
    · simp [List.takeWhile_cons, h]

theorem noHead_dropWhile {p : Char → Bool} {s : Str} : NoHead p (s.dropWhile p) := by
  induction s with
  | nil => intro c r h; simp at h
  | cons c s ih =>
    by_cases h : p c = true
    · simpa [List.dropWhile_cons, h] using ih
    · intro d r hd
      simp [List.dropWhile_cons, h] at hd
      rw [← hd.1]; simpa using h

theorem spaces_all {s : Str} (h : Spaces s) : ∀ c ∈ s, (c == ' ') = true := by
  intro c hc; simp [h c hc]

theorem spaces_takeWhile {s : Str} : Spaces (s.takeWhile (· == ' ')) := by
  intro c hc; simpa using mem_takeWhile c hc

theorem tail_iff {t : Str} {ps : List Piece} : Tail t ps ↔ sepPieces t = ps := by
  constructor
  · intro h
    cases h with
    | none => simp [sepPieces]
    | colon => simp [sepPieces]
    | colonText h => simp [sepPieces, h]
    | text h h' =>
      unfold sepPieces
      split
      · rename_i v; exact absurd (h' ':' v rfl) (by simp)
      · simp [h]
  · rintro rfl
    unfold sepPieces
    split
    · rename_i v
      cases v with
      | nil => exact .colon
      | cons c r => simpa using Tail.colonText (v := c :: r) (by simp)
    · rename_i hv
      cases t with
      | nil => exact .none
      | cons c r =>
        simp
        refine .text (by simp) ?_
        intro d r' he
        simp at he
        simp only [beq_eq_false_iff_ne, ne_eq]
        rintro rfl
        exact hv r (by rw [he.1])

/-! ## The single forms -/

theorem matchComment_iff {l : Str} {ps} : matchComment l = some ps ↔ ∃ r, l = '/' :: '/' :: r ∧ ps = [] := by
  constructor
  · intro h
    by_cases hp : startsWith l c%"//" = true
    · simp only [matchComment, hp, if_true] at h
      rw [startsWith, List.isPrefixOf_iff_prefix] at hp
      obtain ⟨r, hr⟩ := hp
      exact ⟨r, hr.symm, (Option.some.inj h).symm⟩
    · simp [matchComment, hp] at h
  · rintro ⟨r, rfl, rfl⟩
    simp [matchComment, startsWith, List.isPrefixOf]

theorem matchControl_iff {l : Str} {ps} : matchControl l = some ps ↔
    ∃ op sp v, op ≠ [] ∧ (∀ c ∈ op, isLowerAscii c = true) ∧ Spaces sp ∧ NoHead (· == ' ') v ∧
      NoHead isLowerAscii (sp ++ v) ∧ l = '@' :: (op ++ sp ++ v) ∧
      ps = [.tok .CONTROL ['@'], .tok .TEXT op, .skip sp, .tok .TEXT v] := by
  constructor
  · intro h
    unfold matchControl at h
    split at h
    · rename_i r
      simp at h
      refine ⟨r.takeWhile isLowerAscii, (r.dropWhile isLowerAscii).takeWhile (· == ' '),
        (r.dropWhile isLowerAscii).dropWhile (· == ' '), h.1, mem_takeWhile, spaces_takeWhile,
        noHead_dropWhile, ?_, ?_, h.2.symm⟩
      · rw [List.takeWhile_append_dropWhile]; exact noHead_dropWhile
      · simp
    · simp at h
  · rintro ⟨op, sp, v, h1, h2, h3, h4, h5, rfl, rfl⟩
    have e1 := span_append h2 h5
    have e2 := span_append (spaces_all h3) h4
    simp [matchControl, e1, e2, h1]

theorem matchInclude_iff {l : Str} {ps} : matchInclude l = some ps ↔
    ∃ sp ty t ps', Spaces sp ∧ ty ≠ [] ∧ (∀ c ∈ ty, isIncludeChar c = true) ∧
      NoHead isIncludeChar t ∧ Tail t ps' ∧ l = '<' :: '<' :: (sp ++ ty ++ t) ∧
      ps = [.tok .INCLUDE c%"<<", .skip sp, .tok .TEXT ty] ++ ps' := by
  constructor
  · intro h
    unfold matchInclude at h
    split at h
    · rename_i r
      simp at h
      refine ⟨r.takeWhile (· == ' '), (r.dropWhile (· == ' ')).takeWhile isIncludeChar,
        (r.dropWhile (· == ' ')).dropWhile isIncludeChar, _, spaces_takeWhile, h.1, mem_takeWhile,
        noHead_dropWhile, tail_iff.2 rfl, by simp, h.2.symm⟩
    · simp at h
  · rintro ⟨sp, ty, t, ps', h1, h2, h3, h4, h5, rfl, rfl⟩
    rw [tail_iff] at h5
    have hnh : NoHead (· == ' ') (ty ++ t) := by
      intro c r he
      cases ty with
      | nil => exact absurd rfl h2
      | cons d ty' =>
        simp at he
        have := h3 d (by simp)
        rw [← he.1]
        simp only [beq_eq_false_iff_ne, ne_eq]
        rintro rfl
        exact absurd this (by decide)
    have e1 := span_append (spaces_all h1) hnh
    have e2 := span_append h3 h4
    simp [matchInclude, e1, e2, h2, h5]

theorem matchVariable_iff {l : Str} {ps} : matchVariable l = some ps ↔
    ∃ name t ps', name ≠ [] ∧ (∀ c ∈ name, isVarChar c = true) ∧
      NoHead isVarChar t ∧ Tail t ps' ∧ l = ':' :: (name ++ t) ∧
      ps = [.tok .VARIABLE [':'], .tok .TEXT name] ++ ps' := by
  constructor
  · intro h
    unfold matchVariable at h
    split at h
    · rename_i r
      simp at h
      refine ⟨r.takeWhile isVarChar, r.dropWhile isVarChar, _, h.1, mem_takeWhile,
        noHead_dropWhile, tail_iff.2 rfl, by simp, h.2.symm⟩
    · simp at h
  · rintro ⟨name, t, ps', h2, h3, h4, h5, rfl, rfl⟩
    rw [tail_iff] at h5
    have e2 := span_append h3 h4
    simp [matchVariable, e2, h2, h5]

theorem matchArguments_iff {l : Str} {ps} : matchArguments l = some ps ↔
    ∃ a, l = '[' :: (a ++ [']']) ∧
      ps = [.tok .ARGUMENTS ['['], .tok .TEXT a, .tok .LITERAL [']']] := by
  constructor
  · intro h
    unfold matchArguments at h
    split at h
    · rename_i r
      split at h
      · rename_i hl
        simp at h
        refine ⟨r.dropLast, ?_, h.symm⟩
        rw [List.getLast?_eq_some_iff] at hl
        obtain ⟨a, rfl⟩ := hl
        simp
      · simp at h
    · simp at h
  · rintro ⟨a, rfl, rfl⟩
    simp [matchArguments]

theorem matchLabel_iff {l : Str} {ps} : matchLabel l = some ps ↔
    ∃ role sp v, (∀ c ∈ role, isRoleChar c = true) ∧ Spaces sp ∧ NoHead (· == ' ') v ∧
      NoHead isRoleChar (sp ++ v) ∧ l = '.' :: (role ++ sp ++ v) ∧
      ps = [.tok .LABEL ('.' :: role), .skip sp, .tok .TEXT v] := by
  constructor
  · intro h
    unfold matchLabel at h
    split at h
    · rename_i r
      simp at h
      refine ⟨r.takeWhile isRoleChar, (r.dropWhile isRoleChar).takeWhile (· == ' '),
        (r.dropWhile isRoleChar).dropWhile (· == ' '), mem_takeWhile, spaces_takeWhile,
        noHead_dropWhile, ?_, ?_, h.symm⟩
      · rw [List.takeWhile_append_dropWhile]; exact noHead_dropWhile
      · simp
    · simp at h
  · rintro ⟨role, sp, v, h2, h3, h4, h5, rfl, rfl⟩
    have e1 := span_append h2 h5
    have e2 := span_append (spaces_all h3) h4
    simp [matchLabel, e1, e2]

theorem matchList_iff {l : Str} {ps} : matchList l = some ps ↔
    ∃ ind mark sp v, Spaces ind ∧ mark ≠ [] ∧ (∀ c ∈ mark, isListChar c = true) ∧ sp ≠ [] ∧
      Spaces sp ∧ NoHead (· == ' ') v ∧ l = ind ++ mark ++ sp ++ v ∧
      ps = [.skip ind, .tok .LIST mark, .skip sp, .tok .TEXT v] := by
  constructor
  · intro h
    simp only [matchList] at h
    split at h
    · simp at h
    · rename_i hne
      simp at hne h
      refine ⟨_, _, _, _, spaces_takeWhile, hne.1, mem_takeWhile, hne.2, spaces_takeWhile,
        noHead_dropWhile, ?_, h.symm⟩
      simp
  · rintro ⟨ind, mark, sp, v, h1, h2, h3, h4, h5, h6, rfl, rfl⟩
    have hn1 : NoHead (· == ' ') (mark ++ (sp ++ v)) := by
      intro c r he
      cases mark with
      | nil => exact absurd rfl h2
      | cons d m =>
        simp at he
        have := h3 d (by simp)
        rw [← he.1]
        simp only [beq_eq_false_iff_ne, ne_eq]
        rintro rfl
        exact absurd this (by decide)
    have hn2 : NoHead isListChar (sp ++ v) := by
      intro c r he
      cases sp with
      | nil => exact absurd rfl h4
      | cons d m =>
        simp at he
        have := h5 d (by simp)
        rw [← he.1, this]; decide
    have e1 := span_append (spaces_all h1) hn1
    have e2 := span_append h3 hn2
    have e3 := span_append (spaces_all h5) h6
    simp [matchList, e1, e2, e3, h2, h4]

theorem replicate_of_all {c : Char} {s : Str} (h : ∀ d ∈ s, (d == c) = true) :
    s = List.replicate s.length c := by
  rw [List.eq_replicate_iff]; exact ⟨rfl, fun d hd => by simpa using h d hd⟩

theorem matchHeader_iff {l : Str} {ps} : matchHeader l = some ps ↔
    (∃ n sp v, Spaces sp ∧ v ≠ [] ∧ NoHead (· == ' ') v ∧ NoHead (· == '=') (sp ++ v) ∧
      l = List.replicate (n + 1) '=' ++ sp ++ v ∧
      ps = [.tok .HEADER (List.replicate (n + 1) '='), .skip sp, .tok .TEXT v]) ∨
    (∃ n sp, Spaces sp ∧ l = List.replicate (n + 1) '=' ++ sp ++ [' '] ∧
      ps = [.tok .HEADER (List.replicate (n + 1) '='), .skip sp, .tok .TEXT [' ']]) ∨
    (∃ n, l = List.replicate (n + 1) '=' ++ ['='] ∧
      ps = [.tok .HEADER (List.replicate (n + 1) '='), .skip [], .tok .TEXT ['=']]) := by
  have hsplit := List.takeWhile_append_dropWhile (p := (· == '=')) (l := l)
  have hsp := List.takeWhile_append_dropWhile (p := (· == ' ')) (l := l.dropWhile (· == '='))
  have hrep : l.takeWhile (· == '=') = List.replicate (l.takeWhile (· == '=')).length '=' :=
    replicate_of_all mem_takeWhile
  constructor
  · intro h
    simp only [matchHeader] at h
    split at h
    · simp at h
    · rename_i hne
      have hlen : ∃ n, (l.takeWhile (· == '=')).length = n + 1 := by
        cases hl : l.takeWhile (· == '=') with
        | nil => simp [hl] at hne
        | cons a b => exact ⟨b.length, by simp⟩
      obtain ⟨n, hn⟩ := hlen
      rw [hn] at hrep
      split at h
      · rename_i hv
        left
        refine ⟨n, (l.dropWhile (· == '=')).takeWhile (· == ' '),
          (l.dropWhile (· == '=')).dropWhile (· == ' '),
          spaces_takeWhile, by simpa using hv, noHead_dropWhile, ?_, ?_, ?_⟩
        · rw [hsp]; exact noHead_dropWhile
        · rw [List.append_assoc, hsp, ← hrep, hsplit]
        · simp at h; rw [← h, hrep]
      · rename_i hv
        simp only [Bool.not_eq_true', Bool.not_eq_false, List.isEmpty_iff] at hv
        have hv' : (l.dropWhile (· == '=')).dropWhile (· == ' ') = [] := by
          cases hx : (l.dropWhile (· == '=')).dropWhile (· == ' ') with
          | nil => rfl
          | cons a b => simp [hx] at hv
        rw [hv', List.append_nil] at hsp
        split at h
        · rename_i hw
          right; left
          have hw' : (l.dropWhile (· == '=')).takeWhile (· == ' ') ≠ [] := by simpa using hw
          have hlast : (l.dropWhile (· == '=')).takeWhile (· == ' ') =
              ((l.dropWhile (· == '=')).takeWhile (· == ' ')).dropLast ++ [' '] := by
            conv => lhs; rw [← List.dropLast_concat_getLast hw']
            congr 2
            exact spaces_takeWhile _ (List.getLast_mem hw')
          refine ⟨n, ((l.dropWhile (· == '=')).takeWhile (· == ' ')).dropLast, ?_, ?_, ?_⟩
          · intro c hc; exact spaces_takeWhile c (List.dropLast_subset _ hc)
          · rw [List.append_assoc, ← hlast, hsp, ← hrep, hsplit]
          · simp at h; rw [← h, hrep]
        · rename_i hw
          split at h
          · rename_i hl2
            right; right
            have hw' : (l.dropWhile (· == '=')).takeWhile (· == ' ') = [] := by simpa using hw
            rw [hw'] at hsp
            rw [← hsp, List.append_nil] at hsplit
            obtain ⟨m, rfl⟩ : ∃ m, n = m + 1 := ⟨n - 1, by omega⟩
            refine ⟨m, ?_, ?_⟩
            · rw [← List.replicate_succ' (n := m + 1), ← hrep, hsplit]
            · simp at h; rw [← h, hrep]; simp
          · simp at h
  · rintro (⟨n, sp, v, h1, h2, h3, h4, rfl, rfl⟩ | ⟨n, sp, h1, rfl, rfl⟩ | ⟨n, rfl, rfl⟩)
    · have e1 := span_append (p := (· == '=')) (a := List.replicate (n + 1) '=')
        (by intro c hc; simp at hc; simp [hc]) h4
      have e2 := span_append (spaces_all h1) h3
      rw [← List.append_assoc] at e1
      simp only [matchHeader, e1, e2]
      simp [h2]
    · have hsp' : Spaces (sp ++ [' ']) := by
        intro c hc; simp at hc; rcases hc with hc | hc
        · exact h1 c hc
        · exact hc
      have e1 := span_append (p := (· == '=')) (a := List.replicate (n + 1) '=') (b := sp ++ [' '])
        (by intro c hc; simp at hc; simp [hc])
        (by
          intro c r he
          have := hsp' c (by rw [he]; simp)
          simp [this])
      have e2 := span_append (a := sp ++ [' ']) (b := []) (spaces_all hsp') (by intro c r he; simp at he)
      rw [← List.append_assoc] at e1
      rw [List.append_nil] at e2
      simp only [matchHeader, e1, e2]
      simp
    · have e1 := span_append (p := (· == '=')) (a := List.replicate (n + 1) '=' ++ ['=']) (b := [])
        (by
          intro c hc
          rcases List.mem_append.1 hc with hc | hc
          · simp at hc; simp [hc]
          · simp at hc; simp [hc])
        (by intro c r he; simp at he)
      rw [List.append_nil] at e1
      simp only [matchHeader, e1]
      simp

theorem matchRule_iff {l : Str} {ps} : matchHorizontalRule l = some ps ↔
    l = c%"---" ∧ ps = [.tok .HORIZONTAL_RULE c%"---"] := by
  simp only [matchHorizontalRule]
  constructor
  · intro h; split at h
    · rename_i e; simp at h; exact ⟨e, by rw [← h, e]⟩
    · simp at h
  · rintro ⟨rfl, rfl⟩; simp

theorem lineForm_iff {l : Str} {ps} : LineForm l ps ↔
    matchComment l = some ps ∨ matchHorizontalRule l = some ps ∨ matchControl l = some ps ∨
    matchInclude l = some ps ∨ matchVariable l = some ps ∨ matchArguments l = some ps ∨
    matchLabel l = some ps ∨ matchList l = some ps ∨ matchHeader l = some ps := by
  rw [matchComment_iff, matchRule_iff, matchControl_iff, matchInclude_iff, matchVariable_iff,
    matchArguments_iff, matchLabel_iff, matchList_iff, matchHeader_iff]
  constructor
  · intro h
    cases h with
    | comment r => exact .inl ⟨r, rfl, rfl⟩
    | rule => exact .inr (.inl ⟨rfl, rfl⟩)
    | control op sp v h1 h2 h3 h4 h5 =>
      exact .inr (.inr (.inl ⟨op, sp, v, h1, h2, h3, h4, h5, rfl, rfl⟩))
    | incl sp ty t ps h1 h2 h3 h4 h5 =>
      exact .inr (.inr (.inr (.inl ⟨sp, ty, t, ps, h1, h2, h3, h4, h5, rfl, rfl⟩)))
    | variable_ name t ps h1 h2 h3 h4 =>
      exact .inr (.inr (.inr (.inr (.inl ⟨name, t, ps, h1, h2, h3, h4, rfl, rfl⟩))))
    | arguments a => exact .inr (.inr (.inr (.inr (.inr (.inl ⟨a, rfl, rfl⟩)))))
    | label role sp v h1 h2 h3 h4 =>
      exact .inr (.inr (.inr (.inr (.inr (.inr (.inl ⟨role, sp, v, h1, h2, h3, h4, rfl, rfl⟩))))))
    | list ind mark sp v h1 h2 h3 h4 h5 h6 =>
      exact .inr (.inr (.inr (.inr (.inr (.inr (.inr (.inl
        ⟨ind, mark, sp, v, h1, h2, h3, h4, h5, h6, rfl, rfl⟩)))))))
    | header n sp v h1 h2 h3 h4 =>
      exact .inr (.inr (.inr (.inr (.inr (.inr (.inr (.inr (.inl
        ⟨n, sp, v, h1, h2, h3, h4, rfl, rfl⟩))))))))
    | headerSpace n sp h1 =>
      exact .inr (.inr (.inr (.inr (.inr (.inr (.inr (.inr (.inr (.inl ⟨n, sp, h1, rfl, rfl⟩)))))))))
    | headerSign n =>
      exact .inr (.inr (.inr (.inr (.inr (.inr (.inr (.inr (.inr (.inr ⟨n, rfl, rfl⟩)))))))))
  · rintro (⟨r, rfl, rfl⟩ | ⟨rfl, rfl⟩ | ⟨op, sp, v, h1, h2, h3, h4, h5, rfl, rfl⟩ |
      ⟨sp, ty, t, ps, h1, h2, h3, h4, h5, rfl, rfl⟩ | ⟨name, t, ps, h1, h2, h3, h4, rfl, rfl⟩ |
      ⟨a, rfl, rfl⟩ | ⟨role, sp, v, h1, h2, h3, h4, rfl, rfl⟩ |
      ⟨ind, mark, sp, v, h1, h2, h3, h4, h5, h6, rfl, rfl⟩ |
      (⟨n, sp, v, h1, h2, h3, h4, rfl, rfl⟩ | ⟨n, sp, h1, rfl, rfl⟩ | ⟨n, rfl, rfl⟩))
    · exact .comment r
    · exact .rule
    · exact .control op sp v h1 h2 h3 h4 h5
    · exact .incl sp ty t _ h1 h2 h3 h4 h5
    · exact .variable_ name t _ h1 h2 h3 h4
    · exact .arguments a
    · exact .label role sp v h1 h2 h3 h4
    · exact .list ind mark sp v h1 h2 h3 h4 h5 h6
    · exact .header n sp v h1 h2 h3 h4
    · exact .headerSpace n sp h1
    · exact .headerSign n

/-- The class of a line by its first non-space character: each form has its own. -/
def formKey (l : Str) : Option Char := (l.dropWhile (· == ' ')).head?

theorem head_of_list_form {ind mark r : Str} (h1 : Spaces ind) (h2 : mark ≠ [])
    (h3 : ∀ c ∈ mark, isListChar c = true) :
    ∃ c s, (ind ++ (mark ++ r)) = c :: s ∧ (c = ' ' ∨ isListChar c = true) := by
  cases ind with
  | cons c i => exact ⟨c, i ++ (mark ++ r), by simp, .inl (h1 c (by simp))⟩
  | nil =>
    cases mark with
    | nil => exact absurd rfl h2
    | cons c m => exact ⟨c, m ++ r, by simp, .inr (h3 c (by simp))⟩

/-- The kind of form a first character allows. -/
def headKind (l : Str) : Nat :=
  match l with
  | [] => 0
  | c :: _ =>
    if c == '/' then 1 else if c == '-' then 2 else if c == '@' then 3 else if c == '<' then 4
    else if c == ':' then 5 else if c == '[' then 6 else if c == '.' then 7
    else if c == ' ' || isListChar c then 8 else if c == '=' then 9 else 0

theorem kinds {l : Str} {ps} :
    (matchComment l = some ps → headKind l = 1) ∧ (matchHorizontalRule l = some ps → headKind l = 2) ∧
    (matchControl l = some ps → headKind l = 3) ∧ (matchInclude l = some ps → headKind l = 4) ∧
    (matchVariable l = some ps → headKind l = 5) ∧ (matchArguments l = some ps → headKind l = 6) ∧
    (matchLabel l = some ps → headKind l = 7) ∧ (matchList l = some ps → headKind l = 8) ∧
    (matchHeader l = some ps → headKind l = 9) := by
  rw [matchComment_iff, matchRule_iff, matchControl_iff, matchInclude_iff, matchVariable_iff,
    matchArguments_iff, matchLabel_iff, matchList_iff, matchHeader_iff]
  refine ⟨?_, ?_, ?_, ?_, ?_, ?_, ?_, ?_, ?_⟩
  · rintro ⟨r, rfl, _⟩; rfl
  · rintro ⟨rfl, _⟩; rfl
  · rintro ⟨op, sp, v, -, -, -, -, -, rfl, _⟩; rfl
  · rintro ⟨sp, ty, t, _, -, -, -, -, -, rfl, _⟩; rfl
  · rintro ⟨_, _, _, -, -, -, -, rfl, _⟩; rfl
  · rintro ⟨_, rfl, _⟩; rfl
  · rintro ⟨_, _, _, -, -, -, -, rfl, _⟩; rfl
  · rintro ⟨ind, mark, sp, v, h1, h2, h3, -, -, -, rfl, _⟩
    rw [List.append_assoc, List.append_assoc]
    obtain ⟨c, s, he, hc⟩ := head_of_list_form (r := sp ++ v) h1 h2 h3
    rw [he]
    rcases hc with rfl | hc
    · rfl
    · have : c = '*' ∨ c = '#' := by simpa [isListChar] using hc
      rcases this with rfl | rfl <;> rfl
  · rintro (⟨n, sp, v, -, -, -, -, rfl, _⟩ | ⟨n, sp, -, rfl, _⟩ | ⟨n, rfl, _⟩) <;>
      (rw [List.replicate_succ]; rfl)

/-- `linePieces` cuts a line by its documented form; a line of no form is one text. -/
theorem linePieces_iff {l : Str} {ps} : linePieces l = ps ↔
    LineForm l ps ∨ ((∀ qs, ¬ LineForm l qs) ∧ ps = [.tok .TEXT l]) := by
  have K := fun ps => kinds (l := l) (ps := ps)
  have key : ∀ ps, LineForm l ps → linePieces l = ps := by
    intro ps h
    rw [lineForm_iff] at h
    unfold linePieces
    have none_of : ∀ (o : Option (List Piece)) (k : Nat), (∀ qs, o = some qs → headKind l = k) →
        headKind l ≠ k → o = none := by
      intro o k ho hk
      cases o with
      | none => rfl
      | some qs => exact absurd (ho qs rfl) hk
    have n1 := none_of _ _ (fun qs h => (K qs).1 h)
    have n2 := none_of _ _ (fun qs h => (K qs).2.1 h)
    have n3 := none_of _ _ (fun qs h => (K qs).2.2.1 h)
    have n4 := none_of _ _ (fun qs h => (K qs).2.2.2.1 h)
    have n5 := none_of _ _ (fun qs h => (K qs).2.2.2.2.1 h)
    have n6 := none_of _ _ (fun qs h => (K qs).2.2.2.2.2.1 h)
    have n7 := none_of _ _ (fun qs h => (K qs).2.2.2.2.2.2.1 h)
    have n8 := none_of _ _ (fun qs h => (K qs).2.2.2.2.2.2.2.1 h)
    rcases h with h | h | h | h | h | h | h | h | h
    · simp [h]
    · have hk := (K ps).2.1 h
      simp [n1 (by omega), h]
    · have hk := (K ps).2.2.1 h
      simp [n1 (by omega), n2 (by omega), h]
    · have hk := (K ps).2.2.2.1 h
      simp [n1 (by omega), n2 (by omega), n3 (by omega), h]
    · have hk := (K ps).2.2.2.2.1 h
      simp [n1 (by omega), n2 (by omega), n3 (by omega), n4 (by omega), h]
    · have hk := (K ps).2.2.2.2.2.1 h
      simp [n1 (by omega), n2 (by omega), n3 (by omega), n4 (by omega), n5 (by omega), h]
    · have hk := (K ps).2.2.2.2.2.2.1 h
      simp [n1 (by omega), n2 (by omega), n3 (by omega), n4 (by omega), n5 (by omega),
        n6 (by omega), h]
    · have hk := (K ps).2.2.2.2.2.2.2.1 h
      simp [n1 (by omega), n2 (by omega), n3 (by omega), n4 (by omega), n5 (by omega),
        n6 (by omega), n7 (by omega), h]
    · have hk := (K ps).2.2.2.2.2.2.2.2 h
      simp [n1 (by omega), n2 (by omega), n3 (by omega), n4 (by omega), n5 (by omega),
        n6 (by omega), n7 (by omega), n8 (by omega), h]
  by_cases hex : ∃ qs, LineForm l qs
  · obtain ⟨qs, hq⟩ := hex
    rw [key qs hq]
    constructor
    · rintro rfl; exact .inl hq
    · rintro (h | h)
      · rw [← key qs hq, ← key ps h]
      · exact absurd hq (h.1 qs)
  · have hno : ∀ qs, ¬ LineForm l qs := fun qs h => hex ⟨qs, h⟩
    have hn : ∀ qs, ¬ (matchComment l = some qs ∨ matchHorizontalRule l = some qs ∨
      matchControl l = some qs ∨
      matchInclude l = some qs ∨ matchVariable l = some qs ∨ matchArguments l = some qs ∨
      matchLabel l = some qs ∨ matchList l = some qs ∨ matchHeader l = some qs) := by
      intro qs; rw [← lineForm_iff]; exact hno qs
    simp only [not_or] at hn
    have nn : ∀ (o : Option (List Piece)), (∀ qs, ¬ o = some qs) → o = none := by
      intro o ho; cases o with
      | none => rfl
      | some q => exact absurd rfl (ho q)
    have : linePieces l = [.tok .TEXT l] := by
      unfold linePieces
      rw [nn _ (fun q => (hn q).1), nn _ (fun q => (hn q).2.1), nn _ (fun q => (hn q).2.2.1),
        nn _ (fun q => (hn q).2.2.2.1), nn _ (fun q => (hn q).2.2.2.2.1),
        nn _ (fun q => (hn q).2.2.2.2.2.1), nn _ (fun q => (hn q).2.2.2.2.2.2.1),
        nn _ (fun q => (hn q).2.2.2.2.2.2.2.1), nn _ (fun q => (hn q).2.2.2.2.2.2.2.2)]
      rfl
    rw [this]
    constructor
    · rintro rfl; exact .inr ⟨hno, rfl⟩
    · rintro (h | h)
      · exact absurd h (hno ps)
      · exact h.2.symm

theorem tail_text {t : Str} {ps} (h : Tail t ps) : piecesText ps = t := by
  cases h <;> simp [piecesText, pieceText]

/-- The pieces of a line that is not a comment give the line back. -/
theorem lineForm_text {l : Str} {ps} (h : LineForm l ps) : ps = [] ∨ piecesText ps = l := by
  cases h with
  | comment r => exact .inl rfl
  | incl sp ty t ps h1 h2 h3 h4 h5 =>
    right; have := tail_text h5
    simp [piecesText, pieceText] at this ⊢; exact this
  | variable_ name t ps h1 h2 h3 h4 =>
    right; have := tail_text h4
    simp [piecesText, pieceText] at this ⊢; exact this
  | _ => right; simp [piecesText, pieceText]

end Mau
