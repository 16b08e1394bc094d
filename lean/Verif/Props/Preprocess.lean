import Verif.Lemmas.Preprocess
import Verif.Props.Lexing

set_option linter.unusedSimpArgs false

/-!
# C17–C21: variable preprocessing

`(preprocess env text …).map (·.value)` is the text `get_processed_text()` returns after
`PreprocessVariablesParser.lex_and_parse(text)` in the environment `env`, or the error raised.
The parsers of Mau only ever preprocess single-line texts, hence `'\n' ∉ text`.
-/

namespace Mau
open Spec

/-! ## Spaces at the end -/

theorem preCut_special (n : Nat) : ∀ (a : Str) (c : Char) (sp : Str), preSpecial c → Spaces sp →
    (a ++ c :: sp).length ≤ n → piecesText (cutLine preCut n (a ++ c :: sp)) = a ++ [c] := by
  induction n with
  | zero => intro a c sp _ _ hl; simp at hl
  | succ n ih =>
    intro a c sp hc hsp hl
    have hcs : c ≠ ' ' := by rintro rfl; simp [preSpecial] at hc
    have hnb : isBlank (a ++ c :: sp) = false := by
      rw [Bool.eq_false_iff]; intro hb
      exact hcs (isBlank_iff.1 hb c (by simp))
    simp only [cutLine, hnb, Bool.false_eq_true, if_false]
    cases a with
    | nil =>
      have hm := mem_preLiterals.2 hc
      have e : preCut (c :: sp) = (.LITERAL, 1) := by simp [preCut, hm]
      simp only [List.nil_append, e, List.take_succ_cons, List.take_zero, List.drop_succ_cons, List.drop_zero]
      have : cutLine preCut n sp = [] := by
        cases n with
        | zero => rfl
        | succ n => simp [cutLine, isBlank_iff.2 hsp]
      simp [this, piecesText, pieceText]
    | cons d a =>
      by_cases hd : preLiterals.contains d = true
      · have e : preCut (d :: a ++ c :: sp) = (.LITERAL, 1) := by simp only [List.cons_append, preCut, hd, if_true]
        rw [e]
        simp only [List.cons_append, List.take_succ_cons, List.take_zero, List.drop_succ_cons, List.drop_zero]
        have := ih a c sp hc hsp (by simp at hl ⊢; omega)
        simp only [piecesText, List.map_cons, List.flatten_cons, pieceText] at this ⊢
        rw [this]; rfl
      · have hd' : preLiterals.contains d = false := by simpa using hd
        have htw : (d :: a ++ c :: sp).takeWhile (fun c => !preLiterals.contains c) =
            (d :: a).takeWhile (fun c => !preLiterals.contains c) := by
          have hm := mem_preLiterals.2 hc
          clear ih hl hnb
          induction (d :: a) with
          | nil => simp [hm]
          | cons x xs ih => simp only [List.cons_append, List.takeWhile_cons, ih]
        have e : preCut (d :: a ++ c :: sp) = (.TEXT, ((d :: a).takeWhile fun c => !preLiterals.contains c).length) := by
          rw [← htw]
          simp only [List.cons_append, preCut, hd', Bool.false_eq_true, if_false]
        rw [e]
        have hk : ((d :: a).takeWhile fun c => !preLiterals.contains c).length ≤ (d :: a).length :=
          (List.takeWhile_sublist _).length_le
        have hk1 : 1 ≤ ((d :: a).takeWhile fun c => !preLiterals.contains c).length := by
          have hnm : d ∉ preLiterals := by simpa using hd'
          simp [List.takeWhile_cons, hnm]
        generalize ((d :: a).takeWhile fun c => !preLiterals.contains c).length = k at hk hk1 ⊢
        simp only
        rw [List.take_append_of_le_length hk, List.drop_append_of_le_length hk]
        have := ih ((d :: a).drop k) c sp hc hsp (by simp at hl hk ⊢; omega)
        simp only [piecesText, List.map_cons, List.flatten_cons, pieceText] at this ⊢
        rw [this, ← List.append_assoc, List.take_append_drop]

theorem preTrim_special {s sp : Str} {c : Char} (hc : preSpecial c) (hsp : Spaces sp) :
    preTrim (s ++ c :: sp) = s ++ [c] := by
  have hcs : c ≠ ' ' := by rintro rfl; simp [preSpecial] at hc
  have hnb : isBlank (s ++ c :: sp) = false := by
    rw [Bool.eq_false_iff]; intro hb
    exact hcs (isBlank_iff.1 hb c (by simp))
  rw [preTrim, hnb]
  exact preCut_special _ s c sp hc hsp (Nat.le_refl _)

theorem preCut_last_literal (n : Nat) (s : Str) : ∀ ty v, Piece.tok ty v ∈ cutLine preCut n s → ty = .LITERAL →
    ∃ c, v = [c] ∧ preSpecial c := by
  induction n generalizing s with
  | zero => intro ty v h; simp [cutLine] at h
  | succ n ih =>
    intro ty v h hty
    simp only [cutLine] at h
    split at h
    · simp at h
    · rename_i hb
      rcases List.mem_cons.1 h with h | h
      · obtain ⟨c, r, rfl⟩ := cons_of_not_blank (by simpa using hb)
        cases h
        by_cases hc : preLiterals.contains c = true
        · refine ⟨c, ?_, mem_preLiterals.1 (by simpa using hc)⟩
          simp only [preCut, hc, if_true]; rfl
        · have hc' : preLiterals.contains c = false := by simpa using hc
          simp only [preCut, hc', Bool.false_eq_true, if_false] at hty
          cases hty
      · exact ih _ ty v h hty

theorem preTrim_same {text : Str} (h : ¬ SpacesAfterSpecial text) : preTrim text = text := by
  unfold preTrim
  split
  · rfl
  · rename_i hb
    obtain ⟨sp, h1, h2, h3⟩ := preCut_line text.length text (Nat.le_refl _)
    by_cases hsp : sp = []
    · rw [hsp] at h2; simpa using h2
    · exfalso
      rcases h3 hsp with ⟨v, hv⟩ | h0
      · obtain ⟨c, rfl, hc⟩ := preCut_last_literal _ _ .LITERAL v (List.mem_of_getLast? hv) rfl
        rw [List.getLast?_eq_some_iff] at hv
        obtain ⟨q, hq⟩ := hv
        refine h ⟨piecesText q, c, sp, ?_, hc, hsp, h1⟩
        rw [← h2, hq]; simp [piecesText, pieceText]
      · rw [h0] at h2
        simp [piecesText] at h2
        apply hb; rw [← h2]; exact isBlank_iff.2 h1

theorem preTrim_cases (text : Str) : (¬ SpacesAfterSpecial text ∧ preTrim text = text) ∨
    ∃ s c sp, text = s ++ c :: sp ∧ preSpecial c ∧ sp ≠ [] ∧ Spaces sp ∧ preTrim text = s ++ [c] := by
  by_cases h : SpacesAfterSpecial text
  · right
    obtain ⟨s, c, sp, rfl, hc, h1, h2⟩ := h
    exact ⟨s, c, sp, rfl, hc, h1, h2, preTrim_special hc h2⟩
  · exact .inl ⟨h, preTrim_same h⟩

theorem not_spacesAfterSpecial {text : Str} (h : text.getLast? ≠ some ' ') : ¬ SpacesAfterSpecial text := by
  rintro ⟨s, c, sp, rfl, hc, h1, h2⟩
  apply h
  obtain ⟨d, hd⟩ : ∃ d, sp.getLast? = some d := by
    cases hl : sp.getLast? with
    | none => simp at hl; exact absurd hl h1
    | some d => exact ⟨d, rfl⟩
  rw [List.getLast?_append, List.getLast?_cons, hd]
  simp [h2 d (List.mem_of_getLast? hd)]

/-! ## The pieces -/

theorem preText_unit {env : Env} {s o : Str} (h : PreUnit env s o) (r : Str) :
    preText env (s ++ r) = before o (preText env r) := by
  cases h with
  | plain c h => exact preText_plain h r
  | brace => exact preText_close r
  | escBrace c h => simp [preText_esc, h]
  | escOther c h => simp [preText_esc, h]
  | span raw h =>
    rw [show '`' :: raw ++ ['`'] ++ r = '`' :: (raw ++ '`' :: r) by simp,
      preText_tick (closing_span (by decide) h r)]
  | ref raw v h hd hv =>
    rw [show '{' :: raw ++ ['}'] ++ r = '{' :: (raw ++ '}' :: r) by simp]
    exact preText_ref (closing_span (by decide) h r) hd hv
  | double raw h hd =>
    rw [show '{' :: raw ++ ['}', '}'] ++ r = '{' :: (raw ++ '}' :: ('}' :: r)) by simp,
      preText_double (closing_span (by decide) h _) hd]

theorem preText_units {env : Env} {s o : Str} (h : PreUnits env s o) (r : Str) :
    preText env (s ++ r) = before o (preText env r) := by
  induction h with
  | nil => simp [before_nil]
  | cons h _ ih => rw [List.append_assoc, preText_unit h, ih, before_before]

/-! ## C17 -/

/-- C17 (and the basis of C18, C20): a text made of self-contained pieces — ordinary characters,
escapes, closed backtick spans, references to defined variables, text in double braces — is
preprocessed piece by piece. In particular what a reference is replaced by is not scanned again. -/
theorem C17_pieces (env : Env) (text out : Str) (h : PreUnits env text out) (hn : '\n' ∉ text)
    (ht : ¬ SpacesAfterSpecial text) (sl sc : Nat) (src : Option Str) :
    (preprocess env text sl sc src).map (·.value) = .ok out := by
  apply unplaced_eq_ok.1
  rw [preprocess_eq env text hn, preTrim_same ht]
  have := preText_units h []
  rw [List.append_nil, preText_nil] at this
  rw [this]; simp [before, Except.map]

/-- A text written as literal pieces and references. -/
inductive RefPiece where
  | lit (s : Str)
  | ref (name : Str)

/-- How a piece is written. -/
def RefPiece.source : RefPiece → Str
  | .lit s => s
  | .ref name => c%"{" ++ name ++ c%"}"

/-- What a piece becomes. -/
def RefPiece.result (env : Env) : RefPiece → Str
  | .lit s => s
  | .ref name => ((Dict.get? env name).map Val.pyStr).getD []

/-- Literal pieces have no special characters, references name defined variables. -/
def RefPiece.Good (env : Env) : RefPiece → Prop
  | .lit s => '\\' ∉ s ∧ '`' ∉ s ∧ '{' ∉ s ∧ '}' ∉ s ∧ '\n' ∉ s
  | .ref name => '\\' ∉ name ∧ '{' ∉ name ∧ '}' ∉ name ∧ '\n' ∉ name ∧ (Dict.get? env name).isSome

theorem units_append {env : Env} {a a' b b' : Str} (h : PreUnits env a a') (h2 : PreUnits env b b') :
    PreUnits env (a ++ b) (a' ++ b') := by
  induction h with
  | nil => exact h2
  | cons h _ ih => rw [List.append_assoc, List.append_assoc]; exact .cons h ih

theorem units_one {env : Env} {a b : Str} (h : PreUnit env a b) : PreUnits env a b := by
  have := PreUnits.cons h .nil
  simpa using this

theorem units_plain {env : Env} {s : Str} (h : ∀ c ∈ s, ¬ preSpecial c) : PreUnits env s s := by
  induction s with
  | nil => exact .nil
  | cons c r ih => exact .cons (.plain c (h c (by simp))) (ih fun d hd => h d (by simp [hd]))

/-- C17: in a text written as literal pieces and references to defined variables, the literal pieces
are kept and each reference is replaced by the variable's value. -/
theorem C17_references (env : Env) (ps : List RefPiece) (h : ∀ p ∈ ps, p.Good env)
    (ht : ¬ SpacesAfterSpecial (ps.map RefPiece.source).flatten) (sl sc : Nat) (src : Option Str) :
    (preprocess env (ps.map RefPiece.source).flatten sl sc src).map (·.value) =
      .ok (ps.map (RefPiece.result env)).flatten := by
  apply C17_pieces env _ _ ?_ ?_ ht
  · clear ht
    induction ps with
    | nil => exact .nil
    | cons p ps ih =>
      simp only [List.map_cons, List.flatten_cons]
      refine units_append ?_ (ih fun q hq => h q (by simp [hq]))
      have := h p (by simp)
      cases p with
      | lit s =>
        simp only [RefPiece.Good] at this
        refine units_plain ?_
        intro c hc hs
        have hc : c ∈ s := hc
        rcases hs with rfl | rfl | rfl | rfl
        · exact this.1 hc
        · exact this.2.1 hc
        · exact this.2.2.1 hc
        · exact this.2.2.2.1 hc
      | ref name =>
        simp only [RefPiece.Good] at this
        obtain ⟨h1, h2, h3, _, h5⟩ := this
        obtain ⟨v, hv⟩ := Option.isSome_iff_exists.1 h5
        have := PreUnit.ref (env := env) name v (span_plain h3 h1) (by
          intro hh; exact h2 (List.mem_of_mem_head? hh)) (by rw [unescape_plain h1, hv])
        simp only [RefPiece.source, RefPiece.result, hv, Option.map_some, Option.getD_some]
        exact units_one (by simpa using this)
  · intro hm
    obtain ⟨l, hl, hm⟩ := List.mem_flatten.1 hm
    obtain ⟨p, hp, rfl⟩ := List.mem_map.1 hl
    have := h p hp
    cases p with
    | lit s => exact this.2.2.2.2 hm
    | ref name => exact this.2.2.2.1 (by simpa [RefPiece.source] using hm)

/-- C17: a text without special characters is returned unchanged. -/
theorem C17_no_special (env : Env) (text : Str) (h : ∀ c ∈ text, ¬ preSpecial c) (hn : '\n' ∉ text)
    (sl sc : Nat) (src : Option Str) : (preprocess env text sl sc src).map (·.value) = .ok text := by
  apply C17_pieces env _ _ (units_plain h) hn
  rintro ⟨s, c, sp, rfl, hc, _⟩
  exact h c (by simp) hc

/-- C17: spaces at the end of a text, directly after a special character, are ignored; no other
spaces are. -/
theorem C17_trailing_spaces (env : Env) (s sp : Str) (c : Char) (hc : preSpecial c) (hsp : Spaces sp)
    (hn : '\n' ∉ s) (sl sc : Nat) (src : Option Str) :
    unplaced ((preprocess env (s ++ c :: sp) sl sc src).map (·.value)) =
      unplaced ((preprocess env (s ++ [c]) sl sc src).map (·.value)) := by
  have hcn : '\n' ≠ c := by rintro rfl; simp [preSpecial] at hc
  have hsn : '\n' ∉ sp := fun h => absurd (hsp _ h) (by decide)
  rw [preprocess_eq env _ (by simp [hn, hcn, hsn]), preprocess_eq env _ (by simp [hn, hcn]),
    preTrim_special hc hsp, preTrim_special hc (by intro c h; simp at h)]

/-- The environment of the examples: the value of `a` itself contains a reference, and `b` is
undefined. -/
def preExampleEnv : Env := [(c%"a", .str c%"x{b}y"), (c%"n.m", .str c%"7")]

example : (∀ p ∈ [RefPiece.lit c%"Hi ", .ref c%"a", .lit c%"; ", .ref c%"n.m", .lit c%" ok  "],
      p.Good preExampleEnv) ∧
    ¬ SpacesAfterSpecial ([RefPiece.lit c%"Hi ", .ref c%"a", .lit c%"; ", .ref c%"n.m"].map RefPiece.source).flatten := by
  constructor
  · intro p hp
    simp only [List.mem_cons, List.not_mem_nil, or_false] at hp
    rcases hp with rfl | rfl | rfl | rfl | rfl <;> (unfold RefPiece.Good; decide)
  · exact not_spacesAfterSpecial (by decide)

example : (preprocess preExampleEnv c%"Hi {a}; {n.m} ok  ").map (·.value) = .ok c%"Hi x{b}y; 7 ok  " := by decide

example : (preprocess preExampleEnv c%"plain, with spaces  ").map (·.value) = .ok c%"plain, with spaces  " := by decide

example : (preprocess preExampleEnv c%"Hi {a}  ").map (·.value) = .ok c%"Hi x{b}y" := by decide

/-! ## C18 -/

/-- C18: a closed backtick span is kept, whatever it contains and whatever stands around it. -/
theorem C18_backticks (env : Env) (a a' raw b b' : Str) (ha : PreUnits env a a') (hraw : Span '`' raw)
    (hb : PreUnits env b b') (hn : '\n' ∉ a ++ c%"`" ++ raw ++ c%"`" ++ b)
    (ht : ¬ SpacesAfterSpecial (a ++ c%"`" ++ raw ++ c%"`" ++ b)) (sl sc : Nat) (src : Option Str) :
    (preprocess env (a ++ c%"`" ++ raw ++ c%"`" ++ b) sl sc src).map (·.value) =
      .ok (a' ++ c%"`" ++ raw ++ c%"`" ++ b') := by
  apply C17_pieces env _ _ ?_ hn ht
  have := units_append ha (.cons (.span raw hraw) hb)
  simpa using this

/-- C18: the content of a span may be any text without backticks and backslashes. -/
theorem C18_backticks_plain (env : Env) (raw : Str) (h1 : '`' ∉ raw) (h2 : '\\' ∉ raw) (hn : '\n' ∉ raw)
    (sl sc : Nat) (src : Option Str) :
    (preprocess env (c%"`" ++ raw ++ c%"`") sl sc src).map (·.value) = .ok (c%"`" ++ raw ++ c%"`") := by
  have := C18_backticks env [] [] raw [] [] .nil (span_plain h1 h2) .nil (by simpa using hn)
    (not_spacesAfterSpecial (by rw [List.append_nil, List.getLast?_append]; simp)) sl sc src
  simpa using this

example : (preprocess preExampleEnv c%"{a}`{b} \\` {` c").map (·.value) = .ok c%"x{b}y`{b} \\` {` c" := by decide

example : Span '`' c%"{b} \\` {" ∧ PreUnits preExampleEnv c%"{a}" c%"x{b}y" := by
  constructor
  · exact .plain _ _ (by decide) (by decide) (.plain _ _ (by decide) (by decide) (.plain _ _ (by decide) (by decide)
      (.plain _ _ (by decide) (by decide) (.esc _ _ (.plain _ _ (by decide) (by decide)
        (.plain _ _ (by decide) (by decide) .nil))))))
  · exact units_one (.ref c%"a" (.str c%"x{b}y") (span_plain (by decide) (by decide)) (by decide) rfl)

/-! ## C19 -/

/-- C19: a reference to an undefined variable is an error naming the variable, whatever follows. -/
theorem C19_undefined (env : Env) (a a' raw suffix : Str) (ha : PreUnits env a a') (hraw : Span '}' raw)
    (hd : raw.head? ≠ some '{') (hu : Dict.get? env (unescape '}' raw) = none)
    (hn : '\n' ∉ a ++ c%"{" ++ raw ++ c%"}" ++ suffix) (sl sc : Nat) (src : Option Str) :
    ∃ ctx, preprocess env (a ++ c%"{" ++ raw ++ c%"}" ++ suffix) sl sc src =
      .error (.parser (.undefinedVariable (unescape '}' raw)) ctx) := by
  have h := preprocess_eq env _ hn sl sc src
  have key : ∀ suf, preText env (a ++ c%"{" ++ raw ++ c%"}" ++ suf) =
      .error (.parser (.undefinedVariable (unescape '}' raw)) none) := by
    intro suf
    rw [show a ++ c%"{" ++ raw ++ c%"}" ++ suf = a ++ ('{' :: (raw ++ '}' :: suf)) by simp,
      preText_units ha, preText_undefined (closing_span (by decide) hraw suf) hd hu]
    rfl
  have hx : ∃ suf, preTrim (a ++ c%"{" ++ raw ++ c%"}" ++ suffix) = a ++ c%"{" ++ raw ++ c%"}" ++ suf := by
    rcases preTrim_cases (a ++ c%"{" ++ raw ++ c%"}" ++ suffix) with ⟨_, h1⟩ | ⟨s, c, sp, h1, hc, h2, h3, h4⟩
    · exact ⟨suffix, h1⟩
    · rw [h4]
      rcases List.append_eq_append_iff.1 h1 with ⟨x, hx, hy⟩ | ⟨x, hx, hy⟩
      · exact ⟨x ++ [c], by rw [hx]; simp⟩
      · -- the closing brace is not a space, so it is `c`
        cases x with
        | nil => simp at hx hy; exact ⟨[c], by rw [← hx]; simp⟩
        | cons d x =>
          simp at hy
          obtain ⟨rfl, hy⟩ := hy
          have hl : (s ++ c :: x).getLast? = some '}' := by
            rw [← hx]; rw [List.getLast?_append]; rfl
          cases x with
          | nil => exact ⟨[], by rw [hx]; simp⟩
          | cons d x =>
            exfalso
            obtain ⟨z, hz⟩ : ∃ z, (d :: x).getLast? = some z := ⟨_, List.getLast?_cons⟩
            rw [List.getLast?_append, List.getLast?_cons, hz] at hl
            have hz2 := h3 z (by rw [hy]; exact List.mem_append_left _ (List.mem_of_getLast? hz))
            subst hz2
            simp at hl
  obtain ⟨suf, hx⟩ := hx
  rw [hx, key] at h
  cases hp : preprocess env (a ++ c%"{" ++ raw ++ c%"}" ++ suffix) sl sc src with
  | error e =>
    rw [hp] at h
    obtain ⟨c, rfl⟩ := Err.bare_eq_parser (e := e) (by simpa [Except.map] using h)
    exact ⟨c, rfl⟩
  | ok v => rw [hp] at h; simp [Except.map] at h

example : preprocess preExampleEnv c%"{a} {b} {a} ` }" =
    .error (.parser (.undefinedVariable c%"b") (some ⟨0, 4, 0, 7, none⟩)) := by decide

example : ∃ ctx, preprocess preExampleEnv c%"{a} {b} {a} ` }" = .error (.parser (.undefinedVariable c%"b") ctx) :=
  C19_undefined preExampleEnv c%"{a} " c%"x{b}y " c%"b" c%" {a} ` }"
    (.cons (.ref c%"a" (.str c%"x{b}y") (span_plain (by decide) (by decide)) (by decide) rfl)
      (units_plain (s := c%" ") (by simp [preSpecial])))
    (span_plain (by decide) (by decide)) (by decide) (by decide) (by decide) 0 0 none

/-! ## C20 -/

/-- C20: an escaped brace yields the brace; any other escaped character is passed on with its
backslash. No variable is looked up: `b` may be any text made of self-contained pieces. -/
theorem C20_escape (env : Env) (a a' b b' : Str) (c : Char) (ha : PreUnits env a a') (hb : PreUnits env b b')
    (hn : '\n' ∉ a ++ '\\' :: c :: b) (ht : ¬ SpacesAfterSpecial (a ++ '\\' :: c :: b)) (sl sc : Nat) (src : Option Str) :
    (preprocess env (a ++ '\\' :: c :: b) sl sc src).map (·.value) =
      .ok (a' ++ (if c = '{' ∨ c = '}' then [c] else ['\\', c]) ++ b') := by
  apply C17_pieces env _ _ ?_ hn ht
  split
  · rename_i h
    have := units_append ha (.cons (.escBrace c h) hb)
    simpa using this
  · rename_i h
    have := units_append ha (.cons (.escOther c (by simpa using h)) hb)
    simpa using this

/-- C20: text in double braces loses one pair of braces; no variable is looked up. -/
theorem C20_double_braces (env : Env) (a a' t b b' : Str) (ha : PreUnits env a a') (hb : PreUnits env b b')
    (h1 : '}' ∉ t) (h2 : '\\' ∉ t) (hn : '\n' ∉ a ++ c%"{{" ++ t ++ c%"}}" ++ b)
    (ht : ¬ SpacesAfterSpecial (a ++ c%"{{" ++ t ++ c%"}}" ++ b)) (sl sc : Nat) (src : Option Str) :
    (preprocess env (a ++ c%"{{" ++ t ++ c%"}}" ++ b) sl sc src).map (·.value) =
      .ok (a' ++ c%"{" ++ t ++ c%"}" ++ b') := by
  apply C17_pieces env _ _ ?_ hn ht
  have hs : Span '}' ('{' :: t) := span_plain (by simp [h1]) (by simp [h2])
  have := units_append ha (.cons (.double ('{' :: t) hs rfl) hb)
  rw [unescape_plain (by simp [h2])] at this
  simpa using this

example : (preprocess preExampleEnv c%"a\\{b\\} \\* {{b}}.").map (·.value) = .ok c%"a{b} \\* {b}." := by decide

example : PreUnits preExampleEnv c%"{{b}}" c%"{b}" ∧ PreUnits preExampleEnv c%"\\{" c%"{" :=
  ⟨units_one (.double c%"{b" (span_plain (by decide) (by decide)) rfl), units_one (.escBrace '{' (by decide))⟩

/-! ## C21 -/

/-- The pieces of any text that is preprocessed without an error. -/
theorem preText_items {env : Env} (n : Nat) : ∀ (s v : Str), s.length ≤ n → preText env s = .ok v →
    ∃ items : List (Str × Str), (∀ i ∈ items, PreItem env i.1 i.2) ∧
      (s = (items.map (·.1)).flatten ∨ s = (items.map (·.1)).flatten ++ ['\\']) ∧ v = (items.map (·.2)).flatten := by
  have push : ∀ (s o r v : Str), PreItem env s o →
      (∀ w, preText env r = .ok w → ∃ items : List (Str × Str), (∀ i ∈ items, PreItem env i.1 i.2) ∧
        (r = (items.map (·.1)).flatten ∨ r = (items.map (·.1)).flatten ++ ['\\']) ∧ w = (items.map (·.2)).flatten) →
      before o (preText env r) = .ok v →
      ∃ items : List (Str × Str), (∀ i ∈ items, PreItem env i.1 i.2) ∧
        (s ++ r = (items.map (·.1)).flatten ∨ s ++ r = (items.map (·.1)).flatten ++ ['\\']) ∧
          v = (items.map (·.2)).flatten := by
    intro s o r v hi ih hv
    cases hr : preText env r with
    | error e => rw [hr] at hv; simp [before, Except.map] at hv
    | ok w =>
      rw [hr] at hv
      simp [before, Except.map] at hv
      obtain ⟨items, h1, h2, h3⟩ := ih w hr
      refine ⟨(s, o) :: items, ?_, ?_, ?_⟩
      · intro i hm
        rcases List.mem_cons.1 hm with rfl | hm
        · exact hi
        · exact h1 i hm
      · rcases h2 with h2 | h2
        · left; rw [h2]; simp
        · right; rw [h2]; simp
      · rw [← hv, h3]; simp
  induction n with
  | zero =>
    intro s v hl hv
    have : s = [] := List.eq_nil_of_length_eq_zero (by omega)
    subst this
    rw [preText_nil] at hv; cases hv
    exact ⟨[], by simp, by simp, rfl⟩
  | succ n ih =>
    intro s v hl hv
    have ih' : ∀ r : Str, r.length ≤ n → ∀ w, preText env r = .ok w →
        ∃ items : List (Str × Str), (∀ i ∈ items, PreItem env i.1 i.2) ∧
          (r = (items.map (·.1)).flatten ∨ r = (items.map (·.1)).flatten ++ ['\\']) ∧ w = (items.map (·.2)).flatten :=
      fun r hr w hw => ih r w hr hw
    cases s with
    | nil => rw [preText_nil] at hv; cases hv; exact ⟨[], by simp, by simp, rfl⟩
    | cons c r =>
      simp at hl
      by_cases hc : preSpecial c
      · rcases hc with rfl | rfl | rfl | rfl
        · cases r with
          | nil =>
            rw [preText_dangling] at hv; cases hv
            exact ⟨[], by simp, by simp, rfl⟩
          | cons d r =>
            simp at hl
            rw [preText_esc] at hv
            by_cases hd : d = '{' ∨ d = '}'
            · rw [if_pos hd] at hv
              exact push ['\\', d] [d] r v (.unit (.escBrace d hd)) (ih' r (by omega)) hv
            · rw [if_neg hd] at hv
              exact push ['\\', d] ['\\', d] r v (.unit (.escOther d (by simpa using hd))) (ih' r (by omega)) hv
        · cases hcl : closing '`' r with
          | none =>
            rw [preText_tick_open hcl] at hv
            exact push ['`'] ['`'] r v (.mark '`' (by simp)) (ih' r (by omega)) hv
          | some x =>
            obtain ⟨raw, rest⟩ := x
            rw [preText_tick hcl] at hv
            obtain ⟨h1, h2⟩ := span_of_closing hcl
            have := closing_length hcl
            have := push ('`' :: raw ++ ['`']) ('`' :: raw ++ ['`']) rest v (.unit (.span raw h1)) (ih' rest (by omega)) hv
            rw [h2]; simpa using this
        · cases hcl : closing '}' r with
          | none =>
            rw [preText_brace_open hcl] at hv
            exact push ['{'] ['{'] r v (.mark '{' (by simp)) (ih' r (by omega)) hv
          | some x =>
            obtain ⟨raw, rest⟩ := x
            obtain ⟨h1, h2⟩ := span_of_closing hcl
            have := closing_length hcl
            by_cases hd : raw.head? = some '{'
            · by_cases hr : rest.head? = some '}'
              · obtain ⟨rest, rfl⟩ : ∃ rr, rest = '}' :: rr := by
                  cases rest with
                  | nil => simp at hr
                  | cons a b => simp at hr; exact ⟨b, by rw [hr]⟩
                rw [preText_double hcl hd] at hv
                have := push ('{' :: raw ++ ['}', '}']) (unescape '}' raw ++ ['}']) rest v (.unit (.double raw h1 hd))
                  (ih' rest (by simp at this; omega)) hv
                rw [h2]; simpa using this
              · rw [preText_incomplete hcl hd hr] at hv; cases hv
            · cases hg : Dict.get? env (unescape '}' raw) with
              | none => rw [preText_undefined hcl hd hg] at hv; cases hv
              | some w =>
                rw [preText_ref hcl hd hg] at hv
                have := push ('{' :: raw ++ ['}']) w.pyStr rest v (.unit (.ref raw w h1 hd hg)) (ih' rest (by omega)) hv
                rw [h2]; simpa using this
        · rw [preText_close] at hv
          exact push ['}'] ['}'] r v (.unit .brace) (ih' r (by omega)) hv
      · rw [preText_plain hc] at hv
        exact push [c] [c] r v (.unit (.plain c hc)) (ih' r (by omega)) hv

/-- C21: any text that is preprocessed without an error consists of pieces — ordinary characters,
escapes, closed backtick spans, references, text in double braces, marks on their own — each of
which arrives in the output as `PreItem` says; only a lone backslash and spaces at the end of the
text go. -/
theorem C21_nothing_lost (env : Env) (text : Str) (hn : '\n' ∉ text) (sl sc : Nat) (src : Option Str) (t : Token)
    (h : preprocess env text sl sc src = .ok t) :
    ∃ (items : List (Str × Str)) (tail sp : Str), (∀ i ∈ items, PreItem env i.1 i.2) ∧
      text = (items.map (·.1)).flatten ++ tail ++ sp ∧ (tail = [] ∨ tail = c%"\\") ∧ Spaces sp ∧
      t.value = (items.map (·.2)).flatten := by
  have hp := preprocess_eq env text hn sl sc src
  rw [h] at hp
  obtain ⟨items, h1, h2, h3⟩ := preText_items _ (preTrim text) t.value (Nat.le_refl _) (by rw [← hp]; rfl)
  have htr : ∃ sp, Spaces sp ∧ text = preTrim text ++ sp := by
    rcases preTrim_cases text with ⟨_, h1⟩ | ⟨s, c, sp, h1, hc, h2, h3, h4⟩
    · exact ⟨[], by intro c hc; simp at hc, by rw [h1]; simp⟩
    · exact ⟨sp, h3, by rw [h4, h1]; simp⟩
  obtain ⟨sp, hs, ht⟩ := htr
  rcases h2 with h2 | h2
  · exact ⟨items, [], sp, h1, by rw [List.append_nil, ← h2]; exact ht, .inl rfl, hs, h3⟩
  · exact ⟨items, ['\\'], sp, h1, by rw [← h2]; exact ht, .inr rfl, hs, h3⟩

/-- Characters other than braces and backslashes. -/
def visible (c : Char) : Bool := c ≠ '\\' && c ≠ '{' && c ≠ '}'

theorem unescape_visible (raw : Str) : (unescape '}' raw).filter visible = raw.filter visible := by
  unfold unescape
  induction raw using upto_induct (stop := fun _ => false) (esc := escChar) with
  | nil => rfl
  | stopc t ts h => cases h
  | dangling t h1 h2 =>
    have : t = '\\' := by simpa [escChar] using h2
    subst this
    simp [unesc, escChar, visible]
  | esced t u us h1 h2 ih =>
    have : t = '\\' := by simpa [escChar] using h2
    subst this
    by_cases hu : u = '}'
    · subst hu
      simp only [unesc, h2, if_true, beq_self_eq_true, Bool.not_false, Bool.and_self, List.filter_cons, ih]
      simp [visible]
    · simp [unesc, h2, hu, List.filter_cons, ih]
  | plain t ts h1 h2 ih =>
    rw [unesc_plain h2, List.filter_cons, List.filter_cons, ih]

/-- C21: outside references, the characters other than braces and backslashes are exactly kept, in
order. -/
theorem C21_visible_kept (env : Env) (s o : Str) (h : PreItem env s o) :
    (∃ raw v, s = c%"{" ++ raw ++ c%"}" ∧ Dict.get? env (unescape '}' raw) = some v ∧ o = v.pyStr) ∨
      s.filter visible = o.filter visible := by
  cases h with
  | mark c h => exact .inr rfl
  | unit h =>
    cases h with
    | plain c h => exact .inr rfl
    | brace => exact .inr rfl
    | escBrace c h => right; simp [List.filter_cons]; simp [visible]
    | escOther c h => exact .inr rfl
    | span raw h => exact .inr rfl
    | ref raw v h hd hv => exact .inl ⟨raw, v, by simp, hv, rfl⟩
    | double raw h hd =>
      right
      simp only [List.filter_append, unescape_visible, List.cons_append, List.filter_cons]
      simp [visible]

example : (preprocess preExampleEnv c%"x ` } {b\\").map (·.value) = .ok c%"x ` } {b" := by decide

end Mau
