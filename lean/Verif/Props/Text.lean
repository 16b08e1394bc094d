import Verif.Spec.Text
import Verif.Lemmas.Macros
import Verif.Props.Preprocess

/-!
# Inline text (C28 - C34)
-/

set_option linter.unusedSimpArgs false

namespace Mau

open Spec

/-! ## Lines -/

theorem parses_line_spaces {env : Env} {R : Str → Str → List Node → Prop}
    (hR : ∀ name args ns, R name args ns → MacroMeans env name args (.ok ns)) {s sp : Str} {ns : List Node}
    (h : LineNodes R s ns) (hn : '\n' ∉ s) (hl : s.getLast? ≠ some ' ') (hne : s ≠ []) (hsp : Spaces sp) :
    ParsesTo env (s ++ sp) ns := by
  have hA : Agrees R (meaning env) := fun name args ns h => meaning_eq (hR _ _ _ h)
  have hb : isBlank (s ++ sp) = false := by
    cases hb : isBlank (s ++ sp) with
    | false => rfl
    | true =>
      rw [isBlank_iff] at hb
      have hb' : isBlank s = true := isBlank_iff.2 fun c hc => hb c (by simp [hc])
      rw [isBlank_last hne hl] at hb'
      cases hb'
  have : inlineText (meaning env) (s ++ sp) = some (.ok ns) := by
    unfold inlineText
    rw [if_neg (by rw [hb]; simp), trimEnd_eq hsp hl, inlineLoop_enough _ _ (s.length + 1) s (by simp; omega) (by omega)]
    exact loop_line hA h
  refine TextDenotes.parsesTo (text_sound (meaning_right env) ?_ this)
  intro hx
  rcases List.mem_append.1 hx with h1 | h1
  · exact hn h1
  · exact absurd (hsp _ h1) (by decide)

/-- C31: inline text is read piece by piece: the nodes of a line are those of its composition (`LineNodes`),
whatever comes before and after each piece. Spaces at the end of the line are ignored. -/
theorem C31_lines {env : Env} {s sp : Str} {ns : List Node} (h : LineNodes (MacroGives env) s ns) (hn : '\n' ∉ s)
    (hl : s.getLast? ≠ some ' ') (hne : s ≠ []) (hsp : Spaces sp) : ParsesTo env (s ++ sp) ns :=
  parses_line_spaces (fun _ _ _ => macro_gives) h hn hl hne hsp

theorem joinWords_chars (s : Str) (hne : s ≠ []) : joinWords none (charWords s) = [node (.text s)] := by
  cases s with
  | nil => exact absurd rfl hne
  | cons c s =>
    have := joinWords_charWords (c :: s) [] []
    have h2 : ∀ (v w : Str), joinWords (some w) (charWords v) = [node (.text (w ++ v))] := by
      intro v
      induction v with
      | nil => intro w; simp [charWords, joinWords]
      | cons d v ih => intro w; simp only [charWords, List.map_cons, joinWords_cons]; simp [node, Node.new, Node.data]; exact (ih _).trans (by simp [node, Node.new])
    have h3 := h2 s [c]
    simp only [charWords, List.map_cons, joinWords_cons] at h3 ⊢
    simpa [node, Node.new, Node.data] using h3

theorem inline_plain {R : Str → Str → List Node → Prop} {m : Option Char} (s : Str) (h : ∀ c ∈ s, c ∉ c%"~^_*`[\\$%") :
    Inline R m s (charWords s) := by
  induction s with
  | nil => exact .nil
  | cons c s ih => exact .char c (h c (by simp)) (ih fun d hd => h d (by simp [hd]))

theorem inline_append {R : Str → Str → List Node → Prop} {m : Option Char} {a b : Str} {na nb : List Node}
    (ha : Inline R m a na) (hb : Inline R m b nb) : Inline R m (a ++ b) (na ++ nb) := by
  induction ha with
  | nil => exact hb
  | char c hc h ih => exact .char c hc (ih hb)
  | esc c h ih => exact .esc c (ih hb)
  | verbatim hr h ih => rw [List.append_assoc]; exact .verbatim hr (ih hb)
  | literal c hc hr h ih => rw [List.append_assoc]; exact .literal c hc hr (ih hb)
  | style c k hc hm ht h iht ih => rw [List.append_assoc]; exact .style c k hc hm ht (ih hb)
  | call hn hc ha hx hne h ih => rw [List.append_assoc, List.append_assoc]; exact .call hn hc ha hx hne (ih hb)

theorem line_of_inline {R : Str → Str → List Node → Prop} {s : Str} {ns : List Node} (h : Inline R none s ns) : Line R s ns := by
  have := Line.pieces h .nil
  simpa using this

/-! ## C28 -/

theorem trimEnd_spec (s : Str) : ∃ sp, Spaces sp ∧ s = trimEnd s ++ sp ∧ (trimEnd s).getLast? ≠ some ' ' := by
  refine ⟨(s.reverse.takeWhile (· == ' ')).reverse, ?_, ?_, ?_⟩
  · intro c hc
    rw [List.mem_reverse] at hc
    have := mem_takeWhile _ hc
    simpa using this
  · unfold trimEnd
    rw [← List.reverse_append, List.takeWhile_append_dropWhile, List.reverse_reverse]
  · unfold trimEnd
    rw [List.getLast?_reverse]
    cases h : s.reverse.dropWhile (· == ' ') with
    | nil => simp
    | cons c r =>
      have : (c == ' ') = false := by
        have := List.head?_dropWhile_not (· == ' ') s.reverse
        rw [h] at this
        simpa using this
      simp at this
      simpa using this

/-- C28: a single-line text without special characters which is not blank gives one text node with the
text without the spaces at its end; a blank text is kept as it is; the empty text gives nothing. -/
theorem C28_plain_text (env : Env) (text : Str) (h : ∀ c ∈ text, c ∉ inlineSpecial) (hn : '\n' ∉ text) :
    ParsesTo env text (if text = [] then [] else if isBlank text = true then [node (.text text)]
      else [node (.text (trimEnd text))]) := by
  by_cases h0 : text = []
  · subst h0
    rw [if_pos rfl]
    have : inlineText (meaning env) [] = some (.ok []) := rfl
    exact TextDenotes.parsesTo (text_sound (meaning_right env) hn this)
  · rw [if_neg h0]
    by_cases hb : isBlank text = true
    · rw [if_pos hb]
      have : inlineText (meaning env) text = some (.ok [node (.text text)]) := by
        unfold inlineText
        rw [if_pos ⟨h0, hb⟩]
      exact TextDenotes.parsesTo (text_sound (meaning_right env) hn this)
    · rw [if_neg hb]
      obtain ⟨sp, h1, h2, h3⟩ := trimEnd_spec text
      have hne : trimEnd text ≠ [] := by
        intro hx
        rw [hx, List.nil_append] at h2
        exact hb (by rw [h2]; exact isBlank_iff.2 h1)
      have hsub : ∀ c ∈ trimEnd text, c ∈ text := by intro c hc; rw [h2]; simp [hc]
      have hi : Inline (MacroGives env) none (trimEnd text) (charWords (trimEnd text)) := by
        refine inline_plain _ fun c hc hx => h c (hsub c hc) ?_
        simp [inlineSpecial] at hx ⊢
        rcases hx with h | h | h | h | h | h | h | h | h <;> simp [h]
      have := C31_lines (.line (line_of_inline hi)) (fun hx => hn (hsub _ hx)) h3 hne h1
      rw [← h2, joinWords_chars _ hne] at this
      exact this

/-! ## C29 -/

theorem escape_inline {R : Str → Str → List Node → Prop} (t : Str) :
    Inline R none (t.flatMap fun c => if inlineSpecial.contains c then ['\\', c] else [c]) (charWords t) := by
  induction t with
  | nil => exact .nil
  | cons c t ih =>
    rw [List.flatMap_cons]
    by_cases hc : inlineSpecial.contains c = true
    · rw [if_pos hc]; exact .esc c ih
    · rw [if_neg hc]
      refine .char c (fun hx => hc ?_) ih
      simp [inlineSpecial] at hx ⊢
      rcases hx with h | h | h | h | h | h | h | h | h <;> simp [h]

theorem escape_units (env : Env) (t : Str) :
    PreUnits env (escapeText t) (t.flatMap fun c => if inlineSpecial.contains c then ['\\', c] else [c]) := by
  induction t with
  | nil => exact .nil
  | cons c t ih =>
    unfold escapeText at ih ⊢
    rw [List.flatMap_cons, List.flatMap_cons]
    refine .cons ?_ ih
    by_cases hb : c = '{' ∨ c = '}'
    · have h1 : inlineSpecial.contains c = false := by rcases hb with rfl | rfl <;> decide
      have h2 : (inlineSpecial.contains c || c == '{' || c == '}') = true := by rcases hb with rfl | rfl <;> decide
      rw [if_pos h2, if_neg (by simp only [h1, Bool.false_eq_true, not_false_eq_true])]
      exact .escBrace c hb
    · simp only [not_or] at hb
      by_cases hc : inlineSpecial.contains c = true
      · rw [if_pos (by simp only [hc, Bool.true_or]), if_pos hc]
        exact .escOther c hb
      · have h2 : ¬ (inlineSpecial.contains c || c == '{' || c == '}') = true := by
          simp only [Bool.or_eq_true, beq_iff_eq, hc, hb, or_self, not_false_eq_true, Bool.false_eq_true]
        rw [if_neg h2, if_neg hc]
        refine .plain c ?_
        rintro (rfl | rfl | rfl | rfl)
        · exact hc (by decide)
        · exact hc (by decide)
        · exact hb.1 rfl
        · exact hb.2 rfl

theorem getLast?_flatMap_ne {t : Str} {f : Char → Str} (hf : ∀ c, (f c).getLast? = some c) (h : t.getLast? ≠ some ' ') :
    (t.flatMap f).getLast? ≠ some ' ' := by
  rcases List.eq_nil_or_concat t with rfl | ⟨t, c, rfl⟩
  · simp
  · rw [List.concat_eq_append, List.flatMap_append, List.flatMap_singleton, List.getLast?_append]
    rw [List.concat_eq_append, List.getLast?_append] at h
    simpa [hf] using h

example : ParsesTo [] c%"plain text  " [node (.text c%"plain text")] :=
  C28_plain_text [] c%"plain text  " (by decide) (by decide)

/-- C29: for every single-line text that does not end in a space, the text with a backslash before every special character
goes through the preprocessing of variables and is then parsed as one text node with the original text. -/
theorem C29_escaping (env : Env) (t : Str) (hne : t ≠ []) (hn : '\n' ∉ t) (hl : t.getLast? ≠ some ' ')
    (sl sc : Nat) (src : Option Str) :
    ∃ tok, preprocess env (escapeText t) sl sc src = .ok tok ∧ ParsesTo env tok.value [node (.text t)] := by
  have hn2 : '\n' ∉ escapeText t := by
    unfold escapeText
    rw [List.mem_flatMap]
    rintro ⟨c, hc, h⟩
    split at h
    · simp at h; exact hn (h ▸ hc)
    · simp at h; exact hn (h ▸ hc)
  have hlast : (escapeText t).getLast? ≠ some ' ' := by
    refine getLast?_flatMap_ne (fun c => ?_) hl
    split <;> rfl
  have hsp : ¬ SpacesAfterSpecial (escapeText t) := by
    rintro ⟨s, c, sp, h1, h2, h3, h4⟩
    apply hlast
    rw [h1, List.getLast?_append, List.getLast?_cons]
    obtain ⟨sp', d, rfl⟩ : ∃ sp' d, sp = sp' ++ [d] := by
      rcases List.eq_nil_or_concat sp with rfl | ⟨a, b, rfl⟩
      · exact absurd rfl h3
      · exact ⟨a, b, List.concat_eq_append⟩
    have := h4 d (by simp)
    simp [this]
  have hp := C17_pieces env _ _ (escape_units env t) hn2 hsp sl sc src
  cases hpre : preprocess env (escapeText t) sl sc src with
  | error er => rw [hpre] at hp; cases hp
  | ok tok =>
    rw [hpre] at hp
    simp only [Except.map, Except.ok.injEq] at hp
    refine ⟨tok, rfl, ?_⟩
    rw [hp]
    have h3 : (t.flatMap fun c => if inlineSpecial.contains c then ['\\', c] else [c]) ≠ [] := by
      cases t with
      | nil => exact absurd rfl hne
      | cons c t => rw [List.flatMap_cons]; split <;> simp
    have := C31_lines (env := env) (sp := []) (.line (line_of_inline (escape_inline t))) (by
        rw [List.mem_flatMap]
        rintro ⟨c, hc, h⟩
        split at h
        · simp at h; exact hn (h ▸ hc)
        · simp at h; exact hn (h ▸ hc))
      (getLast?_flatMap_ne (fun c => by split <;> rfl) hl) h3 (by intro c hc; simp at hc)
    rw [List.append_nil, joinWords_chars _ hne] at this
    exact this

example : ∃ tok, preprocess [] c%"a\\*b\\{c\\}\\\\" 0 0 none = .ok tok ∧ ParsesTo [] tok.value [node (.text c%"a*b{c}\\")] :=
  C29_escaping [] c%"a*b{c}\\" (by decide) (by decide) (by decide) 0 0 none

/-! ## C30 -/

theorem joinWords_append_node (n : Node) (hn : ∀ v, n.data ≠ .word v) (b : List Node) : ∀ (a : List Node) (acc : Option Str),
    joinWords acc (a ++ n :: b) = joinWords acc a ++ n :: joinWords none b := by
  intro a
  induction a with
  | nil =>
    intro acc
    rw [List.nil_append, joinWords_cons]
    cases hd : n.data <;> cases acc <;> simp [joinWords, hd]
    all_goals exact absurd hd (hn _)
  | cons x a ih =>
    intro acc
    rw [List.cons_append, joinWords_cons, joinWords_cons]
    cases hd : x.data <;> cases acc <;> simp [ih]

theorem last_spaces_nil {c : Char} (hc : c ∈ ([] : Str)) : c = ' ' := by simp at hc

/-- A piece that is not a word, in a line. -/
theorem piece_parses {env : Env} {a x b : Str} {na nb : List Node} {n : Node} (hw : ∀ v, n.data ≠ .word v)
    (ha : Inline (MacroGives env) none a na) (hx : Inline (MacroGives env) none x [n]) (hb : Line (MacroGives env) b nb)
    (hn : '\n' ∉ a ++ x ++ b) (hl : (a ++ x ++ b).getLast? ≠ some ' ') :
    ParsesTo env (a ++ x ++ b) (joinWords none na ++ [n] ++ joinWords none nb) := by
  have h := Line.pieces (inline_append ha hx) hb
  have := parses_line (fun _ _ _ => macro_gives) (.line h) hn hl
  have e : na ++ [n] ++ nb = na ++ n :: nb := by simp
  rw [e, joinWords_append_node n hw] at this
  simpa using this

theorem inline_verbatim {R : Str → Str → List Node → Prop} {m : Option Char} {raw : Str} (h : Span '`' raw) :
    Inline R m (c%"`" ++ raw ++ c%"`") [node (.verbatim (unescape '`' raw))] := by
  have := Inline.verbatim (R := R) (m := m) h .nil
  simpa using this

theorem inline_literal {R : Str → Str → List Node → Prop} {m : Option Char} {raw : Str} {c : Char} (hc : c = '$' ∨ c = '%')
    (h : Span c raw) : Inline R m ([c] ++ raw ++ [c]) [node (.text (unescape c raw))] := by
  have := Inline.literal (R := R) (m := m) c hc h .nil
  simpa using this

/-- C30: a text in backticks gives one verbatim node with exactly that text, whatever is inside, and independently of the text
before and after it. -/
theorem C30_verbatim (env : Env) {a b raw : Str} {na nb : List Node} (h1 : '`' ∉ raw) (h2 : '\\' ∉ raw)
    (ha : Inline (MacroGives env) none a na) (hb : Line (MacroGives env) b nb)
    (hn : '\n' ∉ a ++ (c%"`" ++ raw ++ c%"`") ++ b) (hl : (a ++ (c%"`" ++ raw ++ c%"`") ++ b).getLast? ≠ some ' ') :
    ParsesTo env (a ++ (c%"`" ++ raw ++ c%"`") ++ b)
      (joinWords none na ++ [node (.verbatim raw)] ++ joinWords none nb) := by
  have := inline_verbatim (R := MacroGives env) (m := none) (span_plain h1 h2)
  rw [unescape_plain h2] at this
  exact piece_parses (by intro v; simp [node, Node.new, Node.data]) ha this hb hn hl

/-- C30: the same with escapes inside: `\`` stands for a backtick, other escapes are kept. -/
theorem C30_verbatim_escapes (env : Env) {a b raw : Str} {na nb : List Node} (h : Span '`' raw)
    (ha : Inline (MacroGives env) none a na) (hb : Line (MacroGives env) b nb)
    (hn : '\n' ∉ a ++ (c%"`" ++ raw ++ c%"`") ++ b) (hl : (a ++ (c%"`" ++ raw ++ c%"`") ++ b).getLast? ≠ some ' ') :
    ParsesTo env (a ++ (c%"`" ++ raw ++ c%"`") ++ b)
      (joinWords none na ++ [node (.verbatim (unescape '`' raw))] ++ joinWords none nb) :=
  piece_parses (by intro v; simp [node, Node.new, Node.data]) ha (inline_verbatim h) hb hn hl

/-- C30: a text in dollar or percent signs gives one text node with exactly that text. -/
theorem C30_literal (env : Env) {a b raw : Str} {na nb : List Node} {c : Char} (hc : c = '$' ∨ c = '%') (h1 : c ∉ raw)
    (h2 : '\\' ∉ raw) (ha : Inline (MacroGives env) none a na) (hb : Line (MacroGives env) b nb)
    (hn : '\n' ∉ a ++ ([c] ++ raw ++ [c]) ++ b) (hl : (a ++ ([c] ++ raw ++ [c]) ++ b).getLast? ≠ some ' ') :
    ParsesTo env (a ++ ([c] ++ raw ++ [c]) ++ b)
      (joinWords none na ++ [node (.text raw)] ++ joinWords none nb) := by
  have := inline_literal (R := MacroGives env) (m := none) hc (span_plain h1 h2)
  rw [unescape_plain h2] at this
  exact piece_parses (by intro v; simp [node, Node.new, Node.data]) ha this hb hn hl

/-- C30: the same with escapes inside. -/
theorem C30_literal_escapes (env : Env) {a b raw : Str} {na nb : List Node} {c : Char} (hc : c = '$' ∨ c = '%') (h : Span c raw)
    (ha : Inline (MacroGives env) none a na) (hb : Line (MacroGives env) b nb)
    (hn : '\n' ∉ a ++ ([c] ++ raw ++ [c]) ++ b) (hl : (a ++ ([c] ++ raw ++ [c]) ++ b).getLast? ≠ some ' ') :
    ParsesTo env (a ++ ([c] ++ raw ++ [c]) ++ b)
      (joinWords none na ++ [node (.text (unescape c raw))] ++ joinWords none nb) :=
  piece_parses (by intro v; simp [node, Node.new, Node.data]) ha (inline_literal hc h) hb hn hl

example : Inline (MacroGives []) none c%"a " (charWords c%"a ") ∧ Line (MacroGives []) c%" b" (charWords c%" b") ∧
    '`' ∉ c%"*x* [link](y) $ (" ∧ '\\' ∉ c%"*x* [link](y) $ (" :=
  ⟨inline_plain _ (by decide), line_of_inline (inline_plain _ (by decide)), by decide, by decide⟩

/-! ## C31 -/

theorem inline_style {R : Str → Str → List Node → Prop} {m : Option Char} {c : Char} {k t : Str} {ts : List Node}
    (hc : styleOf c = some k) (hm : m ≠ some c) (ht : Inline R (some c) t ts) :
    Inline R m ([c] ++ t ++ [c]) [node (.style k) (joinWords none ts)] := by
  have := Inline.style c k hc hm ht .nil
  simpa using this

/-- C31: a text in a pair of style markers gives one style node with the nodes of that text, independently of the text before
and after it. The text may contain other styles, spans and macros. -/
theorem C31_style (env : Env) {a b t k : Str} {na nb ts : List Node} {c : Char} (hc : styleOf c = some k)
    (ht : Inline (MacroGives env) (some c) t ts) (ha : Inline (MacroGives env) none a na) (hb : Line (MacroGives env) b nb)
    (hn : '\n' ∉ a ++ ([c] ++ t ++ [c]) ++ b) (hl : (a ++ ([c] ++ t ++ [c]) ++ b).getLast? ≠ some ' ') :
    ParsesTo env (a ++ ([c] ++ t ++ [c]) ++ b)
      (joinWords none na ++ [node (.style k) (joinWords none ts)] ++ joinWords none nb) :=
  piece_parses (by intro v; simp [node, Node.new, Node.data]) ha (inline_style hc (by simp) ht) hb hn hl

/-- C31: in particular, plain text between two markers. -/
theorem C31_plain (env : Env) {t k : Str} {c : Char} (hc : styleOf c = some k) (hne : t ≠ []) (ht : ∀ d ∈ t, d ∉ inlineSpecial)
    (hn : '\n' ∉ t) : ParsesTo env ([c] ++ t ++ [c]) [node (.style k) [node (.text t)]] := by
  have hi : Inline (MacroGives env) (some c) t (charWords t) := by
    refine inline_plain _ fun d hd hx => ht d hd ?_
    simp [inlineSpecial] at hx ⊢
    rcases hx with h | h | h | h | h | h | h | h | h <;> simp [h]
  have hcc := styleOf_cases hc
  have := C31_style env hc hi (.nil : Inline _ none [] []) .nil (by
      simp only [List.nil_append, List.append_nil, List.mem_append, List.mem_singleton, not_or]
      refine ⟨⟨?_, hn⟩, ?_⟩ <;> (rintro rfl; revert hcc; decide)) (by
      simp only [List.nil_append, List.append_nil, List.getLast?_append, List.getLast?_singleton, Option.some_or]
      rintro h
      cases h
      revert hcc; decide)
  rw [joinWords_chars t hne] at this
  simpa [joinWords] using this

/-- C31: a marker that is not paired in the rest of the line is literal. -/
theorem C31_unpaired (env : Env) {a b : Str} {na nb : List Node} {c : Char} {k : Str} (hc : styleOf c = some k) (hcb : c ∉ b)
    (ha : Inline (MacroGives env) none a na) (hb : Line (MacroGives env) b nb)
    (hn : '\n' ∉ a ++ [c] ++ b) (hl : (a ++ [c] ++ b).getLast? ≠ some ' ') :
    ParsesTo env (a ++ [c] ++ b) (joinWords none (na ++ [node (.word [c])] ++ nb)) := by
  have hcc : c ∈ c%"~^_*`$%" := by rcases styleOf_cases hc with rfl | rfl | rfl | rfl <;> decide
  have h := Line.pieces ha (Line.unpaired c hcc hcb hb)
  rw [List.append_assoc, List.append_assoc]
  refine parses_line (fun _ _ _ => macro_gives) (.line h) ?_ ?_
  · rw [List.append_assoc] at hn; exact hn
  · rw [List.append_assoc] at hl; exact hl

/-- For instance: `2 * 3`. -/
example : ParsesTo [] c%"2 * 3" [node (.text c%"2 * 3")] :=
  C31_unpaired [] (a := c%"2 ") (b := c%" 3") (c := '*') (k := c%"star") rfl (by decide)
    (inline_plain _ (by decide)) (line_of_inline (inline_plain _ (by decide))) (by decide) (by decide)

/-- For instance: `*a _b_ c*`. -/
example : ParsesTo [] c%"*a _b_ c*"
    [node (.style c%"star") [node (.text c%"a "), node (.style c%"underscore") [node (.text c%"b")], node (.text c%" c")]] :=
  C31_style [] (a := []) (b := []) (c := '*') (k := c%"star") (t := c%"a _b_ c") rfl
    (inline_append (a := c%"a ") (inline_plain _ (by decide))
      (.style '_' c%"underscore" (t := c%"b") (s := c%" c") rfl (by decide) (inline_plain _ (by decide)) (inline_plain _ (by decide))))
    .nil .nil (by decide) (by decide)

/-! ## C32 -/

theorem ordinary_append (a b : Str) : ordinary (a ++ b) = ordinary a ++ ordinary b := by simp [ordinary]

theorem ordinary_special {c : Char} (h : c ∈ inlineSpecial) (s : Str) : ordinary (c :: s) = ordinary s := by
  have : inlineSpecial.contains c = true := by simpa using h
  simp only [ordinary, List.filter_cons, this, Bool.not_true, Bool.false_eq_true, if_false]

theorem ordinary_unesc (stop : Char) : ∀ (n : Nat) (raw : Str), raw.length ≤ n →
    ordinary (unesc (· == stop) escChar false raw) = ordinary raw := by
  intro n
  induction n with
  | zero => intro raw h; cases raw with
    | nil => rfl
    | cons _ _ => simp at h
  | succ n ih =>
    intro raw h
    cases raw with
    | nil => rfl
    | cons c r =>
      simp only [List.length_cons] at h
      have cons : ∀ (x : Char) (s t : Str), ordinary s = ordinary t → ordinary (x :: s) = ordinary (x :: t) := by
        intro x s t he
        have := ordinary_append [x] s
        have h2 := ordinary_append [x] t
        simp only [List.singleton_append] at this h2
        rw [this, h2, he]
      by_cases hc : escChar c = true
      · cases r with
        | nil =>
          have : c = '\\' := by simpa [escChar] using hc
          subst this
          simp [unesc, escChar]
          decide
        | cons d r =>
          have hb : c = '\\' := by simpa [escChar] using hc
          subst hb
          have ih := ih r (by simp only [List.length_cons] at h; omega)
          simp only [unesc, hc, if_true]
          split
          · rw [ordinary_special (c := '\\') (by decide)]; exact cons _ _ _ ih
          · exact cons _ _ _ (cons _ _ _ ih)
      · have hc : escChar c = false := by simpa using hc
        rw [unesc_plain hc]
        exact cons _ _ _ (ih r (by omega))

theorem shownAll_append (a b : List Node) : shownAll (a ++ b) = shownAll a ++ shownAll b := by
  induction a with
  | nil => rfl
  | cons n a ih => simp [shownAll, ih]

theorem shownAll_joinWords : ∀ (ns : List Node) (acc : Option Str), shownAll (joinWords acc ns) = acc.getD [] ++ shownAll ns := by
  intro ns
  induction ns with
  | nil => intro acc; cases acc <;> simp [joinWords, shownAll, node, Node.new, shown]
  | cons n ns ih =>
    intro acc
    rw [joinWords_cons]
    obtain ⟨d, ar, cx, ct, lb, ex⟩ := n
    cases d <;> cases acc <;> simp [Node.data, ih, shownAll, shown, node, Node.new]

/-- Text without opening square brackets is always read to the end, and keeps its ordinary characters. -/
theorem run_ordinary (M : Macros) : ∀ (n : Nat) (m : Option Char) (s : Str), s.length ≤ n → '[' ∉ s →
    ∃ items rest, run M m s = some (.ok (items, rest)) ∧ (m = none → rest = []) ∧
      ordinary (shownAll items) ++ ordinary rest = ordinary s := by
  intro n
  induction n with
  | zero => intro m s h _; cases s with
    | nil => exact ⟨[], [], run_nil M m, fun _ => rfl, rfl⟩
    | cons _ _ => simp at h
  | succ n ih =>
    intro m s h hb
    cases s with
    | nil => exact ⟨[], [], run_nil M m, fun _ => rfl, rfl⟩
    | cons c r =>
      simp only [List.length_cons] at h
      have hbr : '[' ∉ r := fun hx => hb (by simp [hx])
      have hc3 : c ≠ '[' := by rintro rfl; exact hb (by simp)
      by_cases hm : m = some c
      · exact ⟨[], c :: r, run_stop M r hm, by simp [hm], rfl⟩
      · have ihs : ∀ m r', r' <:+ r → ∃ items rest, run M m r' = some (.ok (items, rest)) ∧ (m = none → rest = []) ∧
            ordinary (shownAll items) ++ ordinary rest = ordinary r' := by
          intro m r' hr'
          have := hr'.length_le
          exact ih m r' (by omega) (fun hx => hbr (hr'.subset hx))
        have step : ∀ (x : Node) (r' : Str) (o : Str), r' <:+ r → ordinary (shown x) ++ ordinary r' = o →
            ∃ items rest, prepend [x] (run M m r') = some (.ok (items, rest)) ∧ (m = none → rest = []) ∧
              ordinary (shownAll items) ++ ordinary rest = o := by
          intro x r' o hr' ho
          obtain ⟨items, rest, k1, k2, k3⟩ := ihs m r' hr'
          refine ⟨x :: items, rest, by rw [k1]; rfl, k2, ?_⟩
          rw [shownAll, ordinary_append, List.append_assoc, k3, ho]
        have word : ∃ items rest, prepend [node (.word [c])] (run M m r) = some (.ok (items, rest)) ∧ (m = none → rest = []) ∧
              ordinary (shownAll items) ++ ordinary rest = ordinary (c :: r) :=
          step _ r _ (List.suffix_refl _) (by rw [← ordinary_append]; rfl)
        rw [run_cons M r hm]
        by_cases h2 : c = '\\'
        · subst h2
          cases r with
          | nil => exact ⟨[node (.word [])], [], by simp, fun _ => rfl, by decide⟩
          | cons d r' =>
            simp only [if_true]
            refine step _ r' _ (List.suffix_cons _ _) ?_
            rw [ordinary_special (by decide), ← ordinary_append]; rfl
        · simp only [h2, hc3, if_false]
          by_cases h4 : c = '`'
          · subst h4
            simp only [if_true]
            cases hcl : closing '`' r with
            | none => exact word
            | some x =>
              obtain ⟨raw, r'⟩ := x
              obtain ⟨e1, e2⟩ := span_of_closing hcl
              refine step _ r' _ (closing_suffix hcl) ?_
              have : shown (node (.verbatim (unescape '`' raw))) = unescape '`' raw := by simp [node, Node.new, shown]
              rw [this, unescape, ordinary_unesc _ _ _ (Nat.le_refl _), e2, ordinary_special (by decide), ordinary_append,
                ordinary_special (by decide)]
          · simp only [h4, if_false]
            by_cases h5 : c = '$' ∨ c = '%'
            · simp only [h5, if_true]
              have hsp : c ∈ inlineSpecial := by rcases h5 with rfl | rfl <;> decide
              cases hcl : closing c r with
              | none => exact word
              | some x =>
                obtain ⟨raw, r'⟩ := x
                obtain ⟨e1, e2⟩ := span_of_closing hcl
                refine step _ r' _ (closing_suffix hcl) ?_
                have : shown (node (.text (unescape c raw))) = unescape c raw := by simp [node, Node.new, shown]
                rw [this, unescape, ordinary_unesc _ _ _ (Nat.le_refl _), e2, ordinary_special hsp, ordinary_append,
                  ordinary_special hsp]
            · simp only [h5, if_false]
              cases hst : styleOf c with
              | none => exact word
              | some k =>
                simp only
                have hsp : c ∈ inlineSpecial := by rcases styleOf_cases hst with rfl | rfl | rfl | rfl <;> decide
                obtain ⟨content, rest, k1, k2, k3⟩ := ihs (some c) r (List.suffix_refl _)
                rw [k1]
                cases rest with
                | nil => exact word
                | cons d r' =>
                  simp only
                  by_cases hd : d = c
                  · subst hd
                    simp only [if_true]
                    refine step _ r' _ ((List.suffix_cons _ _).trans (run_suffix k1)) ?_
                    have : shown (node (.style k) (joinWords none content)) = shownAll content := by
                      have := shownAll_joinWords content none
                      simpa [node, Node.new, shown] using this
                    rw [this, ordinary_special hsp, ← k3, ordinary_special hsp]
                  · simp only [hd, if_false]
                    exact word

/-- C32: a single-line text without `[` is always parsed, without error, and the ordinary characters of the nodes are exactly
the ordinary characters of the text, in order, however the markers are nested or unbalanced. Spaces at the end of the line
are dropped, unless the text is blank. -/
theorem C32_ordinary_characters (env : Env) (text : Str) (hb : '[' ∉ text) (hn : '\n' ∉ text) :
    ∃ ns, ParsesTo env text ns ∧ ordinary (shownAll ns) = ordinary (if isBlank text = true then text else trimEnd text) := by
  by_cases h0 : text = []
  · subst h0
    have : inlineText (meaning env) [] = some (.ok []) := rfl
    exact ⟨[], TextDenotes.parsesTo (text_sound (meaning_right env) hn this), rfl⟩
  by_cases hbl : isBlank text = true
  · have : inlineText (meaning env) text = some (.ok [node (.text text)]) := by
      unfold inlineText; rw [if_pos ⟨h0, hbl⟩]
    refine ⟨_, TextDenotes.parsesTo (text_sound (meaning_right env) hn this), ?_⟩
    simp [hbl, shownAll, shown, node, Node.new]
  · obtain ⟨sp, h1, h2, h3⟩ := trimEnd_spec text
    have hne : trimEnd text ≠ [] := by
      intro hx
      rw [hx, List.nil_append] at h2
      exact hbl (by rw [h2]; exact isBlank_iff.2 h1)
    have hb' : '[' ∉ trimEnd text := by intro hx; apply hb; rw [h2]; simp [hx]
    obtain ⟨items, rest, k1, k2, k3⟩ := run_ordinary (meaning env) _ none (trimEnd text) (Nat.le_refl _) hb'
    have hr := k2 rfl
    subst hr
    have : inlineText (meaning env) text = some (.ok (joinWords none items)) := by
      unfold inlineText
      have hlen : (trimEnd text).length ≤ text.length := by
        have := congrArg List.length h2
        simp only [List.length_append] at this
        omega
      rw [if_neg (by simp [hbl]), inlineLoop_enough _ _ ((trimEnd text).length + 1) _ (by omega) (by omega)]
      change loop _ _ = _
      rw [loop_ne _ hne, k1]
      simp [loop_nil, Except.map]
    refine ⟨_, TextDenotes.parsesTo (text_sound (meaning_right env) hn this), ?_⟩
    rw [if_neg hbl, ← k3, shownAll_joinWords]
    simp [ordinary]

/-! ## Macros in a line -/

theorem macroText_last (a name raw : Str) : (a ++ macroText name raw).getLast? = some ')' := by
  unfold macroText
  rw [← List.append_assoc]
  exact List.getLast?_concat

/-- A macro that is an error, in a line: the line is an error. -/
theorem fails_line {env : Env} {a name raw args b : Str} {na : List Node} {er : Err}
    (ha : Inline (MacroGives env) none a na) (hn : name ≠ []) (hc : ∀ c ∈ name, nameChar c) (hf : MacroArgsForm raw args)
    (hx : MacroFails env name args er) (hnl : '\n' ∉ a ++ macroText name raw ++ b) :
    ParseFails env (a ++ macroText name raw ++ b) er := by
  have hA : Agrees (MacroGives env) (meaning env) := fun name args ns h => meaning_eq (macro_gives h)
  obtain ⟨sp, h1, h2, h3⟩ := trimEnd_spec b
  have hlast : (a ++ macroText name raw ++ trimEnd b).getLast? ≠ some ' ' := by
    rw [List.getLast?_append, macroText_last]
    cases hb : (trimEnd b).getLast? with
    | none => simp
    | some c => rw [hb] at h3; simpa using h3
  have hne : a ++ macroText name raw ++ trimEnd b ≠ [] := by simp [macroText]
  have e : a ++ macroText name raw ++ trimEnd b = a ++ ('[' :: (name ++ c%"](" ++ raw ++ c%")" ++ trimEnd b)) := by
    simp [macroText]
  have e2 : a ++ macroText name raw ++ b = (a ++ macroText name raw ++ trimEnd b) ++ sp := by
    rw [List.append_assoc (a ++ macroText name raw), ← h2]
  have hrun : run (meaning env) none (a ++ macroText name raw ++ trimEnd b) = some (.error er) := by
    rw [e, run_inline hA ha (by intro k hk; cases hk), run_cons _ _ (by simp), macroAt_form hn hc hf]
    simp only [Char.reduceEq, if_false, if_true]
    rw [meaning_eq (macro_fails hx)]
    rfl
  have hb : isBlank (a ++ macroText name raw ++ b) = false := by
    cases hb : isBlank (a ++ macroText name raw ++ b) with
    | false => rfl
    | true =>
      rw [isBlank_iff] at hb
      exact absurd (hb '[' (by simp [macroText])) (by decide)
  have : inlineText (meaning env) (a ++ macroText name raw ++ b) = some (.error er) := by
    unfold inlineText
    rw [if_neg (by rw [hb]; simp), e2, trimEnd_eq h1 hlast,
      inlineLoop_enough _ _ ((a ++ macroText name raw ++ trimEnd b).length + 1) _ (by simp; omega) (by omega)]
    change loop _ _ = _
    rw [loop_ne _ hne, hrun]
  exact TextErrs.fails (text_sound (meaning_right env) hnl this)

/-- No node is a bare word. -/
def NoWords (ns : List Node) : Prop := ∀ n ∈ ns, ∀ v, n.data ≠ .word v

theorem joinWords_noWords : ∀ (ns : List Node) (acc : Option Str), NoWords (joinWords acc ns) := by
  intro ns
  induction ns with
  | nil => intro acc; cases acc <;> simp [NoWords, joinWords, node, Node.new, Node.data]
  | cons n ns ih =>
    intro acc
    rw [joinWords_cons]
    cases hd : n.data with
    | word v => exact ih _
    | _ =>
      cases acc with
      | none =>
        intro x hx v
        rcases List.mem_cons.1 hx with rfl | hx
        · rw [hd]; simp
        · exact ih _ x hx v
      | some w =>
        intro x hx v
        rcases List.mem_cons.1 hx with rfl | hx
        · simp [node, Node.new, Node.data]
        · rcases List.mem_cons.1 hx with rfl | hx
          · rw [hd]; simp
          · exact ih _ x hx v

theorem anonList_mem {ns : List Node} {x : Node} (h : x ∈ ns) : x.anon ∈ anonList ns := by
  induction ns with
  | nil => cases h
  | cons n ns ih =>
    rcases List.mem_cons.1 h with rfl | h
    · simp [anonList]
    · simp [anonList, ih h]

theorem noWords_anon {ns : List Node} (h : NoWords (anonList ns)) : NoWords ns := by
  intro x hx v hv
  refine h x.anon (anonList_mem hx) v ?_
  obtain ⟨d, ar, cx, ct, lb, ex⟩ := x
  simp only [Node.data] at hv
  subst hv
  rfl

theorem anonList_noWords {ns : List Node} (h : NoWords ns) : NoWords (anonList ns) := by
  induction ns with
  | nil => intro x hx; cases hx
  | cons n ns ih =>
    intro x hx v hv
    simp only [anonList, List.mem_cons] at hx
    rcases hx with rfl | hx
    · obtain ⟨d, ar, cx, ct, lb, ex⟩ := n
      simp only [Node.anon, Node.data] at hv
      exact h (Node.mk d ar cx ct lb ex) (by simp) v (NodeData.anon_word_iff.1 hv)
    · exact ih (fun y hy => h y (by simp [hy])) x hx v hv

theorem groupWords_noWords (ns : List Node) : NoWords (groupWords ns) := by
  apply noWords_anon
  rw [groupWords_anon]
  exact joinWords_noWords _ _

theorem textMain_noWords (env : Env) (toks : List Token) : ∀ (n : Nat) (last : Token) (s : TextSt) (acc : List Node) (r : List Node × TextSt),
    textMain env toks n last s acc = .ok r → NoWords acc → NoWords r.1 := by
  intro n
  induction n with
  | zero => intro last s acc r h; simp [textMain] at h
  | succ n ih =>
    intro last s acc r h hacc
    rw [textMain] at h
    split at h
    · cases h
    · cases h; exact hacc
    · split at h
      · cases h
      · split at h
        · cases h
        · split at h
          · refine ih _ _ _ _ h ?_
            intro x hx
            rcases List.mem_append.1 hx with h1 | h1
            · exact hacc x h1
            · exact groupWords_noWords _ x h1
          · cases h
          · cases h

/-- The nodes of a text contain no bare words. -/
theorem parses_noWords {env : Env} {text : Str} {ns : List Node} (h : ParsesTo env text ns) : NoWords ns := by
  obtain ⟨N, hN⟩ := h 0 0 none 0
  obtain ⟨res, h1, h2⟩ := hN N (Nat.le_refl _)
  rw [← h2]
  apply anonList_noWords
  unfold parseText at h1
  split at h1
  · cases h1
  · split at h1
    · cases h1
    · rename_i heq
      cases h1
      exact textMain_noWords _ _ _ _ _ _ _ heq (by intro x hx; cases hx)

theorem joinWords_split {ns : List Node} (hns : NoWords ns) (hne : ns ≠ []) (a b : List Node) :
    joinWords none (a ++ ns ++ b) = joinWords none a ++ ns ++ joinWords none b := by
  have key : ∀ (ns : List Node), NoWords ns → joinWords none (ns ++ b) = ns ++ joinWords none b := by
    intro ns
    induction ns with
    | nil => intro _; rfl
    | cons x ns ih =>
      intro hw
      have := joinWords_append_node x (hw x (by simp)) (ns ++ b) [] none
      simp only [List.nil_append] at this
      rw [List.cons_append, this, ih (fun y hy => hw y (by simp [hy]))]
      simp [joinWords]
  cases ns with
  | nil => exact absurd rfl hne
  | cons x ns =>
    have : a ++ x :: ns ++ b = a ++ x :: (ns ++ b) := by simp
    rw [this, joinWords_append_node x (hns x (by simp)), key ns (fun y hy => hns y (by simp [hy]))]
    simp

/-- A macro in a line: its nodes come between the nodes of the text before it and those of the text after it. -/
theorem macro_parses {env : Env} {a name raw args b : Str} {na ns nb : List Node} (ha : Inline (MacroGives env) none a na)
    (hn : name ≠ []) (hc : ∀ c ∈ name, nameChar c) (hf : MacroArgsForm raw args) (hx : MacroGives env name args ns)
    (hw : NoWords ns) (hb : Line (MacroGives env) b nb)
    (hnl : '\n' ∉ a ++ macroText name raw ++ b) (hl : (a ++ macroText name raw ++ b).getLast? ≠ some ' ') :
    ParsesTo env (a ++ macroText name raw ++ b) (joinWords none na ++ ns ++ joinWords none nb) := by
  by_cases hne : ns = []
  · subst hne
    have := LineNodes.gap ha hn hc hf hx (.line hb)
    have := parses_line (fun _ _ _ => macro_gives) this hnl hl
    simpa using this
  · have hi : Inline (MacroGives env) none (macroText name raw) ns := by
      have := Inline.call (m := none) hn hc hf hx hne .nil
      simpa using this
    have h := Line.pieces (inline_append ha hi) hb
    have := parses_line (fun _ _ _ => macro_gives) (.line h) hnl hl
    rwa [joinWords_split hw hne] at this

theorem noWords_one {n : Node} (h : ∀ v, n.data ≠ .word v) : NoWords [n] := by
  intro x hx v
  simp at hx
  subst hx
  exact h v

/-! ## C33 -/

theorem name_link : ∀ c ∈ c%"link", nameChar c := by unfold nameChar; decide
theorem name_mailto : ∀ c ∈ c%"mailto", nameChar c := by unfold nameChar; decide

/-- C33: a link with a target and a text: a link node with this target and the nodes of the text. -/
theorem C33_link (env : Env) {a b raw args target text : Str} {as : List Arg} {na ns nb : List Node} (hf : MacroArgsForm raw args)
    (h : PlainArgs args as) (h1 : argument [c%"target", c%"text"] as c%"target" = some target)
    (h2 : argument [c%"target", c%"text"] as c%"text" = some text) (hp : ParsesTo env text ns)
    (ha : Inline (MacroGives env) none a na) (hb : Line (MacroGives env) b nb)
    (hnl : '\n' ∉ a ++ macroText c%"link" raw ++ b) (hl : (a ++ macroText c%"link" raw ++ b).getLast? ≠ some ' ') :
    ParsesTo env (a ++ macroText c%"link" raw ++ b)
      (joinWords none na ++ [node (.macroLink target) ns] ++ joinWords none nb) :=
  macro_parses ha (by simp) name_link hf (.link h h1 h2 hp) (noWords_one (by simp [node, Node.new, Node.data])) hb hnl hl

/-- C33: a link without text shows the target. -/
theorem C33_link_plain (env : Env) {a b raw args target : Str} {as : List Arg} {na nb : List Node} (hf : MacroArgsForm raw args)
    (h : PlainArgs args as) (h1 : argument [c%"target", c%"text"] as c%"target" = some target)
    (h2 : argument [c%"target", c%"text"] as c%"text" = none)
    (ha : Inline (MacroGives env) none a na) (hb : Line (MacroGives env) b nb)
    (hnl : '\n' ∉ a ++ macroText c%"link" raw ++ b) (hl : (a ++ macroText c%"link" raw ++ b).getLast? ≠ some ' ') :
    ParsesTo env (a ++ macroText c%"link" raw ++ b)
      (joinWords none na ++ [node (.macroLink target) [node (.text target)]] ++ joinWords none nb) :=
  macro_parses ha (by simp) name_link hf (.linkPlain h h1 h2) (noWords_one (by simp [node, Node.new, Node.data])) hb hnl hl

/-- C33: a mail link adds the prefix to the target only. -/
theorem C33_mailto (env : Env) {a b raw args email text : Str} {as : List Arg} {na ns nb : List Node} (hf : MacroArgsForm raw args)
    (h : PlainArgs args as) (h1 : argument [c%"email", c%"text"] as c%"email" = some email)
    (h2 : argument [c%"email", c%"text"] as c%"text" = some text) (hp : ParsesTo env text ns)
    (ha : Inline (MacroGives env) none a na) (hb : Line (MacroGives env) b nb)
    (hnl : '\n' ∉ a ++ macroText c%"mailto" raw ++ b) (hl : (a ++ macroText c%"mailto" raw ++ b).getLast? ≠ some ' ') :
    ParsesTo env (a ++ macroText c%"mailto" raw ++ b)
      (joinWords none na ++ [node (.macroLink (c%"mailto:" ++ email)) ns] ++ joinWords none nb) :=
  macro_parses ha (by simp) name_mailto hf (.mailto h h1 h2 hp) (noWords_one (by simp [node, Node.new, Node.data])) hb hnl hl

/-- C33: a mail link without text shows the address. -/
theorem C33_mailto_plain (env : Env) {a b raw args email : Str} {as : List Arg} {na nb : List Node} (hf : MacroArgsForm raw args)
    (h : PlainArgs args as) (h1 : argument [c%"email", c%"text"] as c%"email" = some email)
    (h2 : argument [c%"email", c%"text"] as c%"text" = none)
    (ha : Inline (MacroGives env) none a na) (hb : Line (MacroGives env) b nb)
    (hnl : '\n' ∉ a ++ macroText c%"mailto" raw ++ b) (hl : (a ++ macroText c%"mailto" raw ++ b).getLast? ≠ some ' ') :
    ParsesTo env (a ++ macroText c%"mailto" raw ++ b)
      (joinWords none na ++ [node (.macroLink (c%"mailto:" ++ email)) [node (.text email)]] ++ joinWords none nb) :=
  macro_parses ha (by simp) name_mailto hf (.mailtoPlain h h1 h2) (noWords_one (by simp [node, Node.new, Node.data])) hb hnl hl

/-- C33: a link or a mail link without target is a Mau error, wherever it stands. -/
theorem C33_missing (env : Env) {a b name raw args : Str} {as : List Arg} {na : List Node} (hf : MacroArgsForm raw args)
    (h : PlainArgs args as)
    (hm : (name = c%"link" ∧ argument [c%"target", c%"text"] as c%"target" = none) ∨
      (name = c%"mailto" ∧ argument [c%"email", c%"text"] as c%"email" = none))
    (ha : Inline (MacroGives env) none a na) (hnl : '\n' ∉ a ++ macroText name raw ++ b) :
    ∃ what, ParseFails env (a ++ macroText name raw ++ b) (.parser (.text (c%"Missing mandatory " ++ what)) none) := by
  rcases hm with ⟨rfl, h1⟩ | ⟨rfl, h1⟩
  · exact ⟨_, fails_line ha (by simp) name_link hf (.link h h1) hnl⟩
  · exact ⟨_, fails_line ha (by simp) name_mailto hf (.mailto h h1) hnl⟩

theorem quotable_plain {text : Str} (h0 : '\\' ∉ text) : Quotable text := by
  induction text with
  | nil => exact .nil
  | cons c t ih => exact .plain c t (by rintro rfl; exact h0 (by simp)) (ih (fun h => h0 (by simp [h])))

theorem quoted_plain {text : Str} (h0 : '"' ∉ text) : quoted text = c%"\"" ++ text ++ c%"\"" := by
  have : escapeQuotes text = text := by
    unfold escapeQuotes
    induction text with
    | nil => rfl
    | cons c t ih =>
      rw [List.flatMap_cons, ih (fun h => h0 (by simp [h])), if_neg (by rintro rfl; exact h0 (by simp))]
      rfl
  rw [quoted, this]

/-- C33, as usually written: `[link](TARGET, "TEXT")`. -/
theorem C33_link_written (env : Env) (target text : Str) (ns : List Node) (hne : target ≠ [])
    (ht : ∀ c ∈ target, c ∉ c%",\\\"=) \n") (hm : target.head? ≠ some '#' ∧ target.head? ≠ some '*' ∧ target.head? ≠ some '@')
    (hx : ∀ c ∈ text, c ∉ c%"\\\")\n") (hxm : text.head? ≠ some '#' ∧ text.head? ≠ some '*' ∧ text.head? ≠ some '@')
    (hp : ParsesTo env text ns) :
    ParsesTo env (c%"[link](" ++ target ++ c%", \"" ++ text ++ c%"\")") [node (.macroLink target) ns] := by
  have t1 : ∀ d, d ∈ c%",\\\"=) \n" → d ∉ target := fun d hd h => ht d h hd
  have x1 : ∀ d, d ∈ c%"\\\")\n" → d ∉ text := fun d hd h => hx d h hd
  have hq : Quotable text := quotable_plain (x1 _ (by decide))
  have hquot : quoted text = c%"\"" ++ text ++ c%"\"" := quoted_plain (x1 _ (by decide))
  let args : Str := target ++ c%", \"" ++ text ++ c%"\""
  have hlast : target.getLast? ≠ some ' ' := by
    intro h; exact t1 ' ' (by decide) (List.mem_of_getLast? h)
  have hw : WritesAll [.pos target, .pos text] args := by
    have := WritesAll.cons (a := .pos target) (b := .pos text) (as := []) (s := target) (sp := c%" ") (r := quoted text)
      (.posBare ⟨t1 _ (by decide), t1 _ (by decide), t1 _ (by decide),
        fun h => t1 '"' (by decide) (List.mem_of_head? h), hlast⟩ hne (t1 _ (by decide))
        (fun h => t1 ' ' (by decide) (List.mem_of_head? h)))
      (by simp) (.one (.posQuoted hq (x1 _ (by decide))))
    rw [hquot] at this
    simpa [args] using this
  have hbs : '\\' ∉ args := by
    simp only [args, List.mem_append, not_or]
    exact ⟨⟨⟨t1 _ (by decide), by decide⟩, x1 _ (by decide)⟩, by decide⟩
  have hpar : ')' ∉ args := by
    simp only [args, List.mem_append, not_or]
    exact ⟨⟨⟨t1 _ (by decide), by decide⟩, x1 _ (by decide)⟩, by decide⟩
  have hf : MacroArgsForm args args := by
    have := MacroArgsForm.bare (raw := args) (span_plain hpar hbs) (by simp [args]) (by
      intro h
      cases target with
      | nil => exact hne rfl
      | cons c t => simp [args] at h; subst h; exact t1 '"' (by decide) (by simp))
    rwa [unescape_plain hbs] at this
  have hpl : PlainArgs args [.pos target, .pos text] := by
    refine ⟨hw, ⟨[target, text], [], by simp⟩, by simp [keyed], ?_⟩
    intro v hv
    simp [positional] at hv
    rcases hv with rfl | rfl
    · exact hm
    · exact hxm
  have := C33_link env (a := []) (b := []) hf hpl rfl rfl hp .nil .nil (by
      simp only [macroText, args, List.nil_append, List.append_nil, List.mem_append, not_or]
      exact ⟨⟨⟨⟨by decide, by decide⟩, by decide⟩, ⟨⟨t1 _ (by decide), by decide⟩, x1 _ (by decide)⟩, by decide⟩, by decide⟩)
    (by rw [List.append_nil, macroText_last]; decide)
  simpa [macroText, args, joinWords] using this

/-- For instance. -/
example : ParsesTo [] c%"[link](http://a.b/c, \"see *this*\")"
    [node (.macroLink c%"http://a.b/c") [node (.text c%"see "), node (.style c%"star") [node (.text c%"this")]]] :=
  C33_link_written [] c%"http://a.b/c" c%"see *this*" _ (by decide) (by decide) (by decide) (by decide) (by decide)
    (C31_style [] (a := c%"see ") (b := []) (c := '*') (k := c%"star") (t := c%"this") rfl (inline_plain _ (by decide))
      (inline_plain _ (by decide)) .nil (by decide) (by decide))

example : ∃ what, ParseFails [] c%"x [link]() y" (.parser (.text (c%"Missing mandatory " ++ what)) none) :=
  C33_missing [] (a := c%"x ") (b := c%" y") (name := c%"link") (as := []) .nil
    ⟨.nil, ⟨[], [], rfl⟩, by decide, by decide⟩ (.inl ⟨rfl, rfl⟩) (inline_plain _ (by decide)) (by decide)

/-! ## C34 -/

theorem condOp (neg : Bool) : ∀ c ∈ (if neg then c%"!=" else c%"=="), nameChar c ∧ c ≠ ':' ∧ c ≠ '\n' := by
  unfold nameChar; cases neg <;> decide

theorem condChar (c : Char) (h : c.isAlphanum ∨ c = '.' ∨ c = '+' ∨ c = '-') : nameChar c ∧ c ≠ ':' ∧ c ≠ '\n' := by
  rcases h with h | rfl | rfl | rfl
  · have : ∀ d : Char, d ∈ inlineSpecial ∨ d = ' ' ∨ d = ':' ∨ d = '\n' → d.isAlphanum = false := by
      intro d hd
      simp only [inlineSpecial, List.mem_cons, List.not_mem_nil, or_false] at hd
      rcases hd with hd | rfl | rfl | rfl
      · rcases hd with rfl | rfl | rfl | rfl | rfl | rfl | rfl | rfl | rfl | rfl | rfl | rfl | rfl <;> decide
      all_goals decide
    refine ⟨⟨?_, ?_⟩, ?_, ?_⟩ <;> intro hc <;> have := this c (by simp [hc]) <;> simp [this] at h
  all_goals (unfold nameChar; decide)

theorem name_if_letters : ∀ c ∈ c%"if:", nameChar c := by
  unfold nameChar; decide

theorem name_if {cond : Str} (h : ∀ c ∈ cond, nameChar c) : ∀ c ∈ c%"if:" ++ cond, nameChar c := by
  intro c hc
  rcases List.mem_append.1 hc with h1 | h1
  · exact name_if_letters c h1
  · exact h c h1

/-- C34: a conditional macro stands for the nodes of the text selected by the value of the condition; the other text has no
effect. -/
theorem C34_if (env : Env) {a b raw args cond var value yes text : Str} {neg v : Bool} {as : List Arg} {na ns nb : List Node}
    (hf : MacroArgsForm raw args) (h : PlainArgs args as) (hname : ∀ c ∈ cond, nameChar c)
    (hc : MacroCondition cond var neg value) (hv : conditionValue env var neg value = .ok v)
    (hy : argument [c%"true_case", c%"false_case"] as c%"true_case" = some yes)
    (ht : argument [c%"true_case", c%"false_case"] as (if v then c%"true_case" else c%"false_case") = some text)
    (hp : ParsesTo env text ns)
    (ha : Inline (MacroGives env) none a na) (hb : Line (MacroGives env) b nb)
    (hnl : '\n' ∉ a ++ macroText (c%"if:" ++ cond) raw ++ b) (hl : (a ++ macroText (c%"if:" ++ cond) raw ++ b).getLast? ≠ some ' ') :
    ParsesTo env (a ++ macroText (c%"if:" ++ cond) raw ++ b) (joinWords none na ++ ns ++ joinWords none nb) :=
  macro_parses ha (by simp) (name_if hname) hf (.choice h hc hv hy ht hp) (parses_noWords hp) hb hnl hl

/-- C34: if the condition does not hold and there is no second text, the macro stands for nothing. -/
theorem C34_if_nothing (env : Env) {a b raw args cond var value yes : Str} {neg : Bool} {as : List Arg} {na nb : List Node}
    (hf : MacroArgsForm raw args) (h : PlainArgs args as) (hname : ∀ c ∈ cond, nameChar c)
    (hc : MacroCondition cond var neg value) (hv : conditionValue env var neg value = .ok false)
    (hy : argument [c%"true_case", c%"false_case"] as c%"true_case" = some yes)
    (ht : argument [c%"true_case", c%"false_case"] as c%"false_case" = none)
    (ha : Inline (MacroGives env) none a na) (hb : Line (MacroGives env) b nb)
    (hnl : '\n' ∉ a ++ macroText (c%"if:" ++ cond) raw ++ b) (hl : (a ++ macroText (c%"if:" ++ cond) raw ++ b).getLast? ≠ some ' ') :
    ParsesTo env (a ++ macroText (c%"if:" ++ cond) raw ++ b) (joinWords none na ++ joinWords none nb) := by
  have := macro_parses ha (by simp) (name_if hname) hf (.choiceNothing h hc hv hy ht) (by intro x hx; cases hx) hb hnl hl
  simpa using this

/-- C34: an undefined variable in the condition is an error. -/
theorem C34_undefined (env : Env) {a b raw args cond var value yes : Str} {neg : Bool} {as : List Arg} {na : List Node}
    (hf : MacroArgsForm raw args) (h : PlainArgs args as) (hname : ∀ c ∈ cond, nameChar c)
    (hc : MacroCondition cond var neg value) (hv : Dict.get? env var = none)
    (hy : argument [c%"true_case", c%"false_case"] as c%"true_case" = some yes)
    (ha : Inline (MacroGives env) none a na)
    (hnl : '\n' ∉ a ++ macroText (c%"if:" ++ cond) raw ++ b) :
    ParseFails env (a ++ macroText (c%"if:" ++ cond) raw ++ b) (.parser (.undefinedVariable var) none) :=
  fails_line ha (by simp) (name_if hname) hf (.choiceUndefined (op := c%"if") h (.inl rfl) hc hv hy) hnl

/-- C34: a text that is not a condition is an error that quotes it. -/
theorem C34_malformed (env : Env) {a b raw args cond : Str} {as : List Arg} {na : List Node}
    (hf : MacroArgsForm raw args) (h : PlainArgs args as) (hname : ∀ c ∈ cond, nameChar c) (hne : cond ≠ [])
    (hc : ¬ ∃ var neg value, ConditionText cond var neg value) (h1 : ':' ∉ cond) (ha : Inline (MacroGives env) none a na)
    (hnl : '\n' ∉ a ++ macroText (c%"if:" ++ cond) raw ++ b) :
    ParseFails env (a ++ macroText (c%"if:" ++ cond) raw ++ b)
      (.parser (.text (c%"Wrong condition syntax: '" ++ cond ++ c%"' (probably missing or incorrect comparison).")) none) :=
  fails_line ha (by simp) (name_if hname) hf (.choiceMalformed (op := c%"if") h (.inl rfl) hne hc h1
    (fun hx => hnl (by simp [macroText, hx]))) hnl

/-- A text that is not a condition: the comparison is incomplete. -/
example : ¬ ∃ var neg value, ConditionText c%"flag=on" var neg value := by
  rintro ⟨var, neg, value, h⟩
  obtain ⟨ctx, hp⟩ := C27_reads h (by decide) 0 0 none
  have : parseCondition c%"flag=on" 0 0 none = .error (.lexer .lexCannotProcess 0 0 none) := by rfl
  rw [this] at hp
  cases hp

/-- C34, as usually written: `[if:VAR==VALUE]("YES", "NO")`, or with `!=`. -/
theorem C34_if_written (env : Env) (var value yes no : Str) (neg v : Bool) (ns : List Node) (hne : var ≠ [])
    (hvar : ∀ c ∈ var, c.isAlphanum ∨ c = '.' ∨ c = '+' ∨ c = '-')
    (hval : ∀ c ∈ value, nameChar c ∧ c ≠ ':' ∧ c ≠ '\n')
    (hv : conditionValue env var neg value = .ok v)
    (hy : ∀ c ∈ yes, c ∉ c%"\\\"\n") (hym : yes.head? ≠ some '#' ∧ yes.head? ≠ some '*' ∧ yes.head? ≠ some '@')
    (hn : ∀ c ∈ no, c ∉ c%"\\\")\n") (hnm : no.head? ≠ some '#' ∧ no.head? ≠ some '*' ∧ no.head? ≠ some '@')
    (hp : ParsesTo env (if v then yes else no) ns) :
    ParsesTo env (c%"[if:" ++ var ++ (if neg then c%"!=" else c%"==") ++ value ++ c%"](\"" ++ yes ++ c%"\", \"" ++ no ++ c%"\")")
      ns := by
  have y1 : ∀ d, d ∈ c%"\\\"\n" → d ∉ yes := fun d hd h => hy d h hd
  have n1 : ∀ d, d ∈ c%"\\\")\n" → d ∉ no := fun d hd h => hn d h hd
  let cond : Str := var ++ (if neg then c%"!=" else c%"==") ++ value
  have hcc : ∀ c ∈ cond, nameChar c ∧ c ≠ ':' ∧ c ≠ '\n' := by
    intro c hc
    simp only [cond, List.mem_append] at hc
    rcases hc with (hc | hc) | hc
    · exact condChar c (hvar c hc)
    · exact condOp neg c hc
    · exact hval c hc
  have hcond : MacroCondition cond var neg value := by
    refine ⟨?_, fun h => (hcc _ h).2.1 rfl, fun h => (hcc _ h).2.2 rfl⟩
    have := ConditionText.mk (var := var) (sp1 := []) (sp2 := []) (value := value) neg hne
      (by intro c hc; rcases hvar c hc with h | h | h | h <;> simp [h]) (by simp [Spaces]) (by simp [Spaces])
      (by intro h; exact (hval ' ' (List.mem_of_head? h)).1.2 rfl)
    simpa [cond] using this
  let args : Str := c%"\"" ++ yes ++ c%"\"" ++ (c%", \"" ++ no ++ c%"\"")
  have hw : WritesAll [.pos yes, .pos no] args := by
    have := WritesAll.cons (a := .pos yes) (b := .pos no) (as := []) (s := quoted yes) (sp := c%" ") (r := quoted no)
      (.posQuoted (quotable_plain (y1 _ (by decide))) (y1 _ (by decide)))
      (by simp) (.one (.posQuoted (quotable_plain (n1 _ (by decide))) (n1 _ (by decide))))
    rw [quoted_plain (n1 _ (by decide)), quoted_plain (y1 _ (by decide))] at this
    simpa [args] using this
  have hf : MacroArgsForm args args := by
    have hbs : '\\' ∉ c%", \"" ++ no ++ c%"\"" := by
      simp only [List.mem_append, not_or]
      exact ⟨⟨by decide, n1 _ (by decide)⟩, by decide⟩
    have hpar : ')' ∉ c%", \"" ++ no ++ c%"\"" := by
      simp only [List.mem_append, not_or]
      exact ⟨⟨by decide, n1 _ (by decide)⟩, by decide⟩
    have h1 := MacroArgsForm.bare (span_plain hpar hbs) (by simp) (by simp)
    rw [unescape_plain hbs] at h1
    have := MacroArgsForm.quoted (span_plain (y1 '"' (by decide)) (y1 _ (by decide))) h1
    rwa [unescape_plain (y1 _ (by decide))] at this
  have hpl : PlainArgs args [.pos yes, .pos no] := by
    refine ⟨hw, ⟨[yes, no], [], by simp⟩, by simp [keyed], ?_⟩
    intro w hw
    simp [positional] at hw
    rcases hw with rfl | rfl
    · exact hym
    · exact hnm
  have := C34_if env (a := []) (b := []) (text := if v then yes else no) (yes := yes) hf hpl (fun c hc => (hcc c hc).1) hcond hv rfl
    (by cases v <;> rfl) hp .nil .nil (by
      simp only [macroText, args, List.nil_append, List.append_nil, List.mem_append, not_or]
      exact ⟨⟨⟨⟨by decide, by decide, fun h => (hcc _ h).2.2 rfl⟩, by decide⟩, ⟨⟨by decide, y1 _ (by decide)⟩, by decide⟩, ⟨by decide,
        n1 _ (by decide)⟩, by decide⟩, by decide⟩)
    (by rw [List.append_nil, macroText_last]; decide)
  simpa [macroText, args, cond, joinWords] using this

/-- For instance, in an environment where `lang` is `en`. -/
example : ParsesTo [(c%"lang", .str c%"en")] c%"[if:lang==en](\"_hello_\", \"ciao\")" [node (.style c%"underscore") [node (.text c%"hello")]] :=
  C34_if_written _ c%"lang" c%"en" c%"_hello_" c%"ciao" false true _ (by decide) (by decide) (by unfold nameChar; decide) (by decide)
    (by decide) (by decide) (by decide) (by decide) 
    (C31_plain _ (c := '_') (t := c%"hello") rfl (by decide) (by decide) (by decide))

example : ParseFails [] c%"a [if:lang==en](\"b\") c" (.parser (.undefinedVariable c%"lang") none) :=
  C34_undefined [] (a := c%"a ") (b := c%" c") (cond := c%"lang==en") (yes := c%"b") (as := [.pos c%"b"])
    (.quoted (q := c%"b") (span_plain (by decide) (by decide)) .nil)
    ⟨.one (.posQuoted (.plain 'b' [] (by decide) .nil) (by decide)), ⟨[c%"b"], [], rfl⟩, by decide, by decide⟩ (by unfold nameChar; decide)
    ⟨.mk (var := c%"lang") (sp1 := []) (sp2 := []) (value := c%"en") false (by decide) (by decide) (by unfold Spaces; decide) (by unfold Spaces; decide)
      (by decide), by decide, by decide⟩ rfl rfl (inline_plain _ (by decide)) (by decide)

/-- The arguments of a macro are arguments like any others: a text starting with `*` is a subtype, not a text. -/
example : ¬ ∃ as, PlainArgs c%"\"*hello*\"" as ∧ positional as = [c%"*hello*"] := by
  rintro ⟨as, h, h1⟩
  exact absurd (h.plain c%"*hello*" (by rw [h1]; simp)) (by decide)

end Mau
