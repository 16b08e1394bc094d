import Verif.Lemmas.Arguments
import Verif.Lemmas.Dict

set_option linter.unusedSimpArgs false

/-!
# C22–C26: arguments

`parseArgs env text` is `ArgumentsParser.lex_and_parse(text)` in the environment `env`; its
`arguments` are what a node receives.
-/

namespace Mau
open Spec

/-! ## Every text has a meaning -/

theorem valueAt_length {s v rest : Str} (h : valueAt s = some (v, rest)) (hs : s ≠ []) :
    (afterValue rest).length < s.length := by
  have hd : ∀ r : Str, (r.dropWhile (· == ' ')).length ≤ r.length := fun r => (List.dropWhile_sublist _).length_le
  have hle : ∀ r : Str, (afterValue r).length ≤ r.length := by
    intro r; unfold afterValue
    split
    · have := hd r.tail; simp at this; omega
    · exact hd r
  unfold valueAt at h
  split at h
  · rename_i hq
    cases hc : closing '"' s.tail with
    | none => rw [hc] at h; cases h
    | some x =>
      rw [hc] at h; cases h
      have h1 := Spec.closing_length (raw := x.1) (rest := x.2) hc
      have := hle x.2
      simp at h1; omega
  · cases h
    obtain ⟨c, r, rfl⟩ := List.exists_cons_of_ne_nil hs
    have hap := congrArg List.length (upto_append (stop := (· == ',')) (esc := escChar) (c :: r))
    simp at hap
    by_cases hc : c = ','
    · subst hc
      rw [upto_stop (by rfl)]
      simp only [afterValue, List.head?_cons, if_true, List.tail_cons, List.length_cons]
      have := hd r; omega
    · have h1 : (upto (· == ',') escChar (c :: r)).1 ≠ [] := by
        have hcc : (c == ',') = false := by simpa using hc
        cases r with
        | nil => simp only [upto, hcc, Bool.false_eq_true, if_false]; split <;> simp
        | cons d r => simp only [upto, hcc, Bool.false_eq_true, if_false]; split <;> simp
      have h2 := List.length_pos_iff.2 h1
      have := hle (upto (· == ',') escChar (c :: r)).2
      simp; omega

/-- Every arguments text has a meaning. -/
theorem argsRun_total (n : Nat) : ∀ (on : Bool) (s : Str), s.length ≤ n → ∃ res, ArgsRun on s res := by
  induction n with
  | zero =>
    intro on s hs
    have : s = [] := List.eq_nil_of_length_eq_zero (by omega)
    subst this; exact ⟨_, .done on⟩
  | succ n ih =>
    intro on s hs
    by_cases hne : s = []
    · subst hne; exact ⟨_, .done on⟩
    by_cases hk : ∃ k v rest, KeyAt s k v rest
    · obtain ⟨k, v, rest, h⟩ := hk
      have hlen : (afterValue rest).length ≤ n := by
        obtain ⟨r, rfl, h1, _, h2⟩ := h
        by_cases hr : r = []
        · subst hr
          have : rest = [] := by simp [valueAt, upto] at h2; exact h2.2
          subst this; simp [afterValue]
        · have := valueAt_length h2 hr; simp at hs; omega
      obtain ⟨res, hres⟩ := ih true _ hlen
      exact ⟨_, .key h hres⟩
    · cases on with
      | true => exact ⟨_, .forbidden hne hk⟩
      | false =>
        cases hv : valueAt s with
        | none => exact ⟨_, .unclosed hne hk hv⟩
        | some x =>
          obtain ⟨v, rest⟩ := x
          obtain ⟨res, hres⟩ := ih false (afterValue rest) (by have := valueAt_length hv hne; omega)
          exact ⟨_, .pos hne hk hv hres⟩

theorem unplaced_locateArgs (ts : List Token) (x : Except Err ParsedArgs) : unplaced (locateArgs ts x) = unplaced x := by
  unfold locateArgs
  cases x with
  | ok p => rfl
  | error e => cases ts.head? <;> simp

/-- Parsing a single-line text that does not end with a space: what is found is what the text
means. -/
theorem parseArgs_run (env : Env) (text : Str) (hn : '\n' ∉ text) (hlast : text.getLast? ≠ some ' ')
    (sl sc : Nat) (src : Option Str) (res : Except Err (List Arg)) (h : ArgsRun false text res) :
    (∀ err, res = .error err → unplaced (parseArgs env text sl sc src) = .error err) ∧
    (∀ as, res = .ok as → ∃ items : List ArgItem, items.map eraseArg = as ∧
      unplaced (parseArgs env text sl sc src) = unplaced (isolateTagsAndSubtype env (unnamedOf items) (namedOf items))) := by
  have hb : text = [] ∨ isBlank text = false := by
    by_cases he : text = []
    · exact .inl he
    · right
      rw [Bool.eq_false_iff]
      intro hbl
      obtain ⟨z, hz⟩ : ∃ z, text.getLast? = some z := by
        cases hl : text.getLast? with
        | none => simp at hl; exact absurd hl he
        | some z => exact ⟨z, rfl⟩
      exact hlast (by rw [hz, isBlank_iff.1 hbl z (List.mem_of_getLast? hz)])
  obtain ⟨ts, e, s, sp, h1, h2, h3, h4, h5, h6, h7⟩ := args_single text hn hb sl sc src
  have hsp : sp = [] := by
    by_cases h0 : sp = []
    · exact h0
    · exfalso
      obtain ⟨z, hz⟩ : ∃ z, sp.getLast? = some z := by
        cases hl : sp.getLast? with
        | none => simp at hl; exact absurd hl h0
        | some z => exact ⟨z, rfl⟩
      apply hlast
      rw [h5, List.getLast?_append, hz, h6 z (List.mem_of_getLast? hz)]; rfl
  subst hsp
  rw [List.append_nil] at h5
  subst h5
  have hnd := h7.nodup
  have := argLoop_spec h ((ts ++ [e]).length + 2) ts e { tokens := ts ++ [e] } initialLast []
    (by simp; omega) (At.start ts e ⟨h2, h3⟩) h4 (by rw [List.nodup_append] at hnd; exact hnd.1)
    (fun hm => h4.toks.noEof argsKind_good _ hm rfl) rfl
  unfold parseArgs
  simp only [h1, Bind.bind, Except.bind]
  rw [unplaced_locateArgs]
  unfold parseArgTokens
  cases hp : parseLoop argFns ((ts ++ [e]).length + 2) initialLast { tokens := ts ++ [e] } [] with
  | error err =>
    rw [hp] at this
    refine ⟨?_, ?_⟩
    · rintro err' rfl; simpa [Except.map, Bind.bind, Except.bind] using this
    · rintro as rfl; simp [Except.map] at this
  | ok items =>
    rw [hp] at this
    refine ⟨?_, ?_⟩
    · rintro err' rfl; simp [Except.map] at this
    · rintro as rfl
      refine ⟨items, by simpa [Except.map] using this, rfl⟩

/-! ## Writing -/

theorem escapeQuotes_cons (c : Char) (r : Str) :
    escapeQuotes (c :: r) = (if c = '"' then ['\\', '"'] else [c]) ++ escapeQuotes r := by
  simp [escapeQuotes]

theorem quotable_span {v : Str} (h : Quotable v) : Span '"' (escapeQuotes v) ∧ unescape '"' (escapeQuotes v) = v := by
  induction h with
  | nil => exact ⟨.nil, rfl⟩
  | plain c r hc h ih =>
    rw [escapeQuotes_cons]
    by_cases hq : c = '"'
    · subst hq
      refine ⟨.esc _ _ ih.1, ?_⟩
      have := ih.2
      unfold unescape at this ⊢
      simp [unesc, escChar, this]
    · simp only [hq, if_false, List.cons_append, List.nil_append]
      refine ⟨.plain c _ hq hc ih.1, ?_⟩
      have := ih.2
      unfold unescape at this ⊢
      rw [unesc_plain (by simpa [escChar] using hc), this]
  | pair c r hc h ih =>
    rw [escapeQuotes_cons, escapeQuotes_cons]
    simp only [show ¬ ('\\' = '"') by decide, if_false, hc, List.cons_append, List.nil_append]
    refine ⟨.esc c _ ih.1, ?_⟩
    have := ih.2
    unfold unescape at this ⊢
    simp [unesc, escChar, this, hc]

/-- Values without backslashes can be written in quotes. -/
theorem quotable_of_no_backslash {v : Str} (h : '\\' ∉ v) : Quotable v := by
  induction v with
  | nil => exact .nil
  | cons c r ih =>
    simp at h
    exact .plain c r (Ne.symm h.1) (ih h.2)

theorem valueAt_quoted {v : Str} (h : Quotable v) (r : Str) : valueAt (quoted v ++ r) = some (v, r) := by
  obtain ⟨h1, h2⟩ := quotable_span h
  have e : quoted v ++ r = '"' :: (escapeQuotes v ++ '"' :: r) := by simp [quoted]
  rw [e, valueAt]
  simp only [List.head?_cons, if_true, List.tail_cons, closing_span (by decide) h1 r, Option.map_some, h2]

theorem valueAt_bare {v r : Str} (h : Bare v) (hr : r = [] ∨ r.head? = some ',') :
    valueAt (v ++ r) = some (v, r) := by
  obtain ⟨h1, h2, _, h4, _⟩ := h
  have hh : (v ++ r).head? ≠ some '"' := by
    cases v with
    | nil =>
      rcases hr with rfl | hr
      · simp
      · simp [hr]
    | cons c v => simpa using h4
  rw [valueAt, if_neg hh]
  have hv : ∀ c ∈ v, (c == ',') = false ∧ escChar c = false := by
    intro c hc
    refine ⟨?_, ?_⟩
    · rw [beq_eq_false_iff_ne]; rintro rfl; exact h1 hc
    · simp only [escChar, beq_eq_false_iff_ne]; rintro rfl; exact h2 hc
  have hup : upto (· == ',') escChar r = ([], r) := by
    rcases hr with rfl | hr
    · rfl
    · cases r with
      | nil => simp at hr
      | cons d r => simp at hr; subst hr; exact upto_stop (by rfl)
  rw [upto_plains hv, hup]
  simp only [List.append_nil]
  rw [unescape_plain h2]

theorem no_key_quote (s : Str) : ¬ ∃ k v rest, KeyAt ('"' :: s) k v rest := by
  rintro ⟨k, v, rest, r, h1, h2, h3, _⟩
  obtain ⟨c, k', rfl⟩ := List.exists_cons_of_ne_nil h2
  simp at h1
  have := h3 c (by simp)
  rw [← h1.1] at this
  exact absurd this (by decide)

theorem no_key_bare {v r : Str} (he : '=' ∉ v) (hr : r = [] ∨ r.head? = some ',') :
    ¬ ∃ k w rest, KeyAt (v ++ r) k w rest := by
  rintro ⟨k, w, rest, q, h1, h2, h3, _⟩
  rcases List.append_eq_append_iff.1 h1 with ⟨x, hx, hy⟩ | ⟨x, hx, hy⟩
  · -- `r` starts inside the key or at the equals sign
    cases x with
    | nil =>
      simp at hy
      rcases hr with rfl | hr
      · cases hy
      · rw [hy] at hr; simp at hr
    | cons c x =>
      rcases hr with rfl | hr
      · simp at hy
      · rw [hy] at hr
        simp at hr
        have := h3 c (by rw [hx]; simp)
        rw [hr] at this
        exact absurd this (by decide)
  · cases x with
    | nil =>
      simp at hy
      rcases hr with rfl | hr
      · simp at hy
      · rw [← hy] at hr; simp at hr
    | cons c x =>
      simp at hy
      apply he; rw [hx, ← hy.1]; simp

/-- The meaning of a list of arguments: those with keys must come last. -/
def allowed : (on : Bool) → List Arg → Except Err (List Arg)
  | _, [] => .ok []
  | _, .key k v :: as => (allowed true as).map (.key k v :: ·)
  | true, .pos _ :: _ => .error unnamedAfterNamed
  | false, .pos v :: as => (allowed false as).map (.pos v :: ·)

theorem writes_ne {a : Arg} {s : Str} (h : Writes a s) : s ≠ [] := by
  cases h <;> simp_all [quoted]

theorem writes_head {a : Arg} {s : Str} (h : Writes a s) : s.head? ≠ some ' ' := by
  cases h with
  | posQuoted h hn => simp [quoted]
  | posBare h hne he hs => exact hs
  | @keyQuoted k v hk hc hkn h hn hs =>
    obtain ⟨c, k', rfl⟩ := List.exists_cons_of_ne_nil hk
    have := (argChar_iff.1 (hc c (by simp))).2
    simpa using this
  | @keyBare k v hk hc hkn h hs =>
    obtain ⟨c, k', rfl⟩ := List.exists_cons_of_ne_nil hk
    have := (argChar_iff.1 (hc c (by simp))).2
    simpa using this

/-- One written argument followed by the end or by a comma. -/
theorem run_writes {a : Arg} {s r : Str} (h : Writes a s) (hr : r = [] ∨ r.head? = some ',') (on : Bool)
    (as : List Arg) (hrun : ∀ on, ArgsRun on (afterValue r) (allowed on as)) :
    ArgsRun on (s ++ r) (allowed on (a :: as)) := by
  cases h with
  | @posQuoted v h hn =>
    have e : quoted v ++ r = '"' :: (escapeQuotes v ++ '"' :: r) := by simp [quoted]
    have hk : ¬ ∃ k w rest, KeyAt (quoted v ++ r) k w rest := by rw [e]; exact no_key_quote _
    cases on with
    | true => exact .forbidden (by simp [quoted]) hk
    | false => exact .pos (by simp [quoted]) hk (valueAt_quoted h r) (hrun false)
  | posBare h hne he hs =>
    have hk := no_key_bare he hr
    cases on with
    | true => exact .forbidden (by simp [hne]) hk
    | false => exact .pos (by simp [hne]) hk (valueAt_bare h hr) (hrun false)
  | @keyQuoted k v hk hc hkn h hn hs =>
    have hka : KeyAt (k ++ c%"=" ++ quoted v ++ r) k v r := ⟨quoted v ++ r, by simp, hk, hc, valueAt_quoted h r⟩
    have := ArgsRun.key (on := on) hka (hrun true)
    rw [hs] at this
    cases on <;> exact this
  | @keyBare k v hk hc hkn h hs =>
    have hka : KeyAt (k ++ c%"=" ++ v ++ r) k v r := ⟨v ++ r, by simp, hk, hc, valueAt_bare h hr⟩
    have := ArgsRun.key (on := on) hka (hrun true)
    rw [hs] at this
    cases on <;> exact this

theorem run_writesAll {as : List Arg} {text : Str} (h : WritesAll as text) :
    ∀ on, ArgsRun on text (allowed on as) := by
  induction h with
  | nil => intro on; cases on <;> exact .done _
  | one h =>
    intro on
    have := run_writes h (r := []) (.inl rfl) on [] (fun on => by cases on <;> exact .done _)
    simpa using this
  | @cons a b as s sp r h hsp hr ih =>
    intro on
    have hr0 : r.head? ≠ some ' ' := by
      cases hr with
      | one h => exact writes_head h
      | cons h _ _ =>
        have h1 := writes_head h
        have h2 := writes_ne h
        obtain ⟨c, x, rfl⟩ := List.exists_cons_of_ne_nil h2
        simpa using h1
    have hav : afterValue (c%"," ++ sp ++ r) = r := by
      have e : c%"," ++ sp ++ r = ',' :: (sp ++ r) := by simp
      rw [e, afterValue]
      simp only [List.head?_cons, if_true, List.tail_cons]
      clear ih hr e
      induction sp with
      | nil =>
        cases r with
        | nil => rfl
        | cons c r => simp at hr0; simp [List.dropWhile_cons, hr0]
      | cons c sp ih =>
        rw [List.cons_append, List.dropWhile_cons, if_pos (by simp [hsp c (by simp)])]
        exact ih fun d hd => hsp d (by simp [hd])
    have := run_writes h (r := c%"," ++ sp ++ r) (.inr (by simp)) on (b :: as) (by rw [hav]; exact ih)
    simpa [List.append_assoc] using this

theorem escapeQuotes_newline {v : Str} (hn : '\n' ∉ v) : '\n' ∉ escapeQuotes v := by
  intro h
  simp only [escapeQuotes, List.mem_flatMap] at h
  obtain ⟨c, hc, h⟩ := h
  split at h
  · simp at h
  · simp at h; subst h; exact hn hc

theorem writes_newline {a : Arg} {s : Str} (h : Writes a s) : '\n' ∉ s := by
  cases h with
  | posQuoted h hn => simpa [quoted] using escapeQuotes_newline hn
  | posBare h hne he hs => exact h.2.2.1
  | keyQuoted hk hc hkn h hn hs =>
    have := escapeQuotes_newline hn
    simp [quoted, hkn, this]
  | keyBare hk hc hkn h hs =>
    have := h.2.2.1
    simp [hkn, this]

theorem writesAll_newline {as : List Arg} {text : Str} (h : WritesAll as text) : '\n' ∉ text := by
  induction h with
  | nil => simp
  | one h => exact writes_newline h
  | cons h hsp hr ih =>
    have := writes_newline h
    simp only [List.mem_append, not_or]
    exact ⟨⟨⟨this, by decide⟩, fun hm => absurd (hsp _ hm) (by decide)⟩, ih⟩

theorem writes_last {a : Arg} {s : Str} (h : Writes a s) : s.getLast? ≠ some ' ' := by
  cases h with
  | posQuoted h hn => rw [quoted, List.getLast?_append]; simp
  | posBare h hne he hs => exact h.2.2.2.2
  | keyQuoted hk hc hkn h hn hs => rw [quoted, ← List.append_assoc, List.getLast?_append]; simp
  | @keyBare k v hk hc hkn h hs =>
    rw [List.getLast?_append]
    cases hl : v.getLast? with
    | none => simp
    | some z =>
      have := h.2.2.2.2
      rw [hl] at this
      simpa using this

theorem writesAll_last {as : List Arg} {text : Str} (h : WritesAll as text) : text.getLast? ≠ some ' ' := by
  induction h with
  | nil => simp
  | one h => exact writes_last h
  | @cons a b as s sp r h hsp hr ih =>
    have hrne : r ≠ [] := by
      cases hr with
      | one h => exact writes_ne h
      | cons h _ _ => have := writes_ne h; simp [this]
    obtain ⟨z, hz⟩ : ∃ z, r.getLast? = some z := by
      cases hl : r.getLast? with
      | none => simp at hl; exact absurd hl hrne
      | some z => exact ⟨z, rfl⟩
    rw [hz] at ih
    rw [List.getLast?_append, hz]
    exact ih

/-! ## C22 -/

theorem unnamedOf_erase {items : List ArgItem} {as : List Arg} (h : items.map eraseArg = as) :
    (unnamedOf items).map (·.value) = positional as := by
  subst h
  induction items with
  | nil => rfl
  | cons i items ih =>
    cases i with
    | named k n => simpa [unnamedOf, positional, eraseArg] using ih
    | unnamed n =>
      have : unnamedOf (.unnamed n :: items) = n :: unnamedOf items := rfl
      rw [this]
      have : positional ((ArgItem.unnamed n :: items).map eraseArg) = n.value :: positional (items.map eraseArg) := rfl
      rw [this, List.map_cons, ih]

theorem namedOf_erase {items : List ArgItem} {as : List Arg} (h : items.map eraseArg = as)
    (hd : ((keyed as).map (·.1)).Nodup) :
    (namedOf items).map (fun kv => (kv.1, kv.2.value)) = keyed as := by
  subst h
  have key : ∀ (items : List ArgItem) (d : Dict CtxText),
      (d.keys ++ (keyed (items.map eraseArg)).map (·.1)).Nodup →
      ((items.foldl (fun d i => match i with | .named k n => Dict.set d k n | .unnamed _ => d) d).map
        fun kv => (kv.1, kv.2.value)) = d.map (fun kv => (kv.1, kv.2.value)) ++ keyed (items.map eraseArg) := by
    intro items
    induction items with
    | nil => intro d _; simp [keyed]
    | cons i items ih =>
      intro d hd
      cases i with
      | unnamed n =>
        have e : keyed ((ArgItem.unnamed n :: items).map eraseArg) = keyed (items.map eraseArg) := rfl
        rw [e] at hd ⊢
        simpa using ih d hd
      | named k n =>
        have e : keyed ((ArgItem.named k n :: items).map eraseArg) = (k, n.value) :: keyed (items.map eraseArg) := rfl
        rw [e] at hd ⊢
        have hk : k ∉ d.keys := by
          intro hm
          rw [List.nodup_append] at hd
          exact hd.2.2 k hm k (by simp) rfl
        simp only [List.foldl_cons]
        rw [ih (Dict.set d k n) (by
          rw [Dict.set_of_not_mem hk]
          simpa [Dict.keys] using hd), Dict.set_of_not_mem hk]
        simp
  have := key items [] (by simpa [Dict.keys] using hd)
  simp only [List.map_nil, List.nil_append] at this
  exact this

theorem allowed_ok {as : List Arg} : ∀ {on : Bool} {r : List Arg}, allowed on as = .ok r → r = as := by
  induction as with
  | nil => intro on r h; cases on <;> (simp [allowed] at h; exact h)
  | cons a as ih =>
    intro on r h
    cases a with
    | key k v =>
      have h : (allowed true as).map (Arg.key k v :: ·) = .ok r := by cases on <;> exact h
      cases hr : allowed true as with
      | error e => rw [hr] at h; simp [Except.map] at h
      | ok q => rw [hr] at h; simp [Except.map] at h; rw [← h, ih hr]
    | pos v =>
      cases on with
      | true => simp [allowed] at h
      | false =>
        simp only [allowed] at h
        cases hr : allowed false as with
        | error e => rw [hr] at h; simp [Except.map] at h
        | ok q => rw [hr] at h; simp [Except.map] at h; rw [← h, ih hr]

theorem allowed_first {as : List Arg} (h : PositionalFirst as) : allowed false as = .ok as := by
  obtain ⟨ps, ks, rfl⟩ := h
  have hk : ∀ on, allowed on (ks.map fun kv => Arg.key kv.1 kv.2) = .ok (ks.map fun kv => Arg.key kv.1 kv.2) := by
    induction ks with
    | nil => intro on; cases on <;> rfl
    | cons kv ks ih =>
      intro on
      simp only [List.map_cons]
      cases on <;> simp [allowed, ih, Except.map]
  induction ps with
  | nil => simpa using hk false
  | cons p ps ih => simp [allowed, Except.map] at ih ⊢; rw [ih]

/-- C22: a written list of arguments is found again. Its positional values, in order, and its
values with keys, in order, are handed to the next step (tags, subtype, alias). -/
theorem C22_found (env : Env) (as : List Arg) (text : Str) (hw : WritesAll as text) (hf : PositionalFirst as)
    (hk : ((keyed as).map (·.1)).Nodup) (sl sc : Nat) (src : Option Str) :
    ∃ us ns, us.map (·.value) = positional as ∧ ns.map (fun kv => (kv.1, kv.2.value)) = keyed as ∧
      unplaced (parseArgs env text sl sc src) = unplaced (isolateTagsAndSubtype env us ns) := by
  have hrun := run_writesAll hw false
  rw [allowed_first hf] at hrun
  obtain ⟨items, h1, h2⟩ := (parseArgs_run env text (writesAll_newline hw) (writesAll_last hw) sl sc src _ hrun).2 as rfl
  exact ⟨unnamedOf items, namedOf items, unnamedOf_erase h1, namedOf_erase h1 hk, h2⟩

theorem isoPass_skip {p : Char} {mark : IsoNode → IsoNode} {n : IsoNode} (h : n.node.value.head? ≠ some p) :
    isoPass p mark n = n := by
  unfold isoPass
  cases hv : n.node.value with
  | nil => rfl
  | cons c r =>
    rw [hv] at h; simp at h
    simp [h]

theorem isolate_plain {us : List CtxText} {ns : Dict CtxText}
    (h : ∀ u ∈ us, u.value.head? ≠ some '#' ∧ u.value.head? ≠ some '*' ∧ u.value.head? ≠ some '@') :
    isolate us ns = .ok { unnamed := us, named := ns } := by
  have hm : ∀ (p : Char) (mark : IsoNode → IsoNode), (p = '#' ∨ p = '*' ∨ p = '@') →
      (us.map fun n => ({ node := n } : IsoNode)).map (isoPass p mark) = us.map fun n => ({ node := n } : IsoNode) := by
    intro p mark hp
    rw [List.map_map]
    apply List.map_congr_left
    intro u hu
    have := h u hu
    refine isoPass_skip ?_
    rcases hp with rfl | rfl | rfl
    · exact this.1
    · exact this.2.1
    · exact this.2.2
  unfold isolate
  simp only [hm '#' _ (by simp), hm '*' _ (by simp), hm '@' _ (by simp)]
  have hf : ∀ g : IsoNode → Bool, (∀ n : CtxText, g { node := n } = false) →
      (us.map fun n => ({ node := n } : IsoNode)).filter g = [] := by
    intro g hg; rw [List.filter_eq_nil_iff]; intro a ha
    obtain ⟨u, _, rfl⟩ := List.mem_map.1 ha
    simp [hg]
  have hf2 : ((us.map fun n => ({ node := n } : IsoNode)).filter
      fun n => !(n.isTag || n.isSubtype || n.isAlias)) = us.map fun n => ({ node := n } : IsoNode) := by
    rw [List.filter_eq_self]; intro a ha
    obtain ⟨u, _, rfl⟩ := List.mem_map.1 ha
    rfl
  rw [hf (·.isTag) (fun _ => rfl), hf (·.isSubtype) (fun _ => rfl), hf (·.isAlias) (fun _ => rfl), hf2]
  simp [List.map_map, Function.comp_def]

/-- C22: writing positional and named values (in quotes, or bare where this is possible) and parsing
the text gives back exactly these values in order, and nothing else. -/
theorem C22_round_trip (env : Env) (as : List Arg) (text : Str) (hw : WritesAll as text) (hf : PositionalFirst as)
    (hk : ((keyed as).map (·.1)).Nodup)
    (hp : ∀ v ∈ positional as, v.head? ≠ some '#' ∧ v.head? ≠ some '*' ∧ v.head? ≠ some '@')
    (sl sc : Nat) (src : Option Str) :
    ∃ p, parseArgs env text sl sc src = .ok p ∧
      p.arguments = { unnamed := positional as, named := keyed as, tags := [], internalTags := [], subtype := none } := by
  obtain ⟨us, ns, h1, h2, h3⟩ := C22_found env as text hw hf hk sl sc src
  have hi := isolate_plain (us := us) (ns := ns) (by
    intro u hu
    exact hp u.value (by rw [← h1]; exact List.mem_map.2 ⟨u, hu, rfl⟩))
  refine ⟨{ unnamed := us, named := ns }, ?_, ?_⟩
  · refine unplaced_eq_ok.1 (h3.trans ?_)
    simp [isolateTagsAndSubtype, hi, Bind.bind, Except.bind, pure, Except.pure]
  · simp [ParsedArgs.arguments, h1, h2]

/-- Written: `"a, b", x y, k="c\"d", j=2`. -/
theorem argsExample : WritesAll [.pos c%"a, b", .pos c%"x y", .key c%"k" c%"c\"d", .key c%"j" c%"2"]
    c%"\"a, b\",x y,  k=\"c\\\"d\", j=2" := by
  refine .cons (sp := []) (.posQuoted (quotable_of_no_backslash (by decide)) (by decide)) (by simp) ?_
  refine .cons (sp := c%"  ") (.posBare (by unfold Bare; decide) (by decide) (by decide) (by decide)) (by simp) ?_
  refine .cons (s := c%"k=\"c\\\"d\"") (sp := c%" ")
    (.keyQuoted (k := c%"k") (by decide) (by decide) (by decide) (quotable_of_no_backslash (by decide)) (by decide) (by decide))
    (by simp) ?_
  exact .one (.keyBare (k := c%"j") (by decide) (by decide) (by decide) (by unfold Bare; decide) (by decide))

example : ∃ p, parseArgs [] c%"\"a, b\",x y,  k=\"c\\\"d\", j=2" = .ok p ∧
    p.arguments = { unnamed := [c%"a, b", c%"x y"], named := [(c%"k", c%"c\"d"), (c%"j", c%"2")] } :=
  C22_round_trip [] _ _ argsExample
    ⟨[c%"a, b", c%"x y"], [(c%"k", c%"c\"d"), (c%"j", c%"2")], rfl⟩ (by decide) (by decide) 0 0 none

/-- The value `\"` (an odd number of backslashes in front of quotes) is not `Quotable`: the quotes
after it would be taken as escaped. -/
example : ¬ Quotable c%"\\\"" := by
  intro h
  cases h with
  | plain c r hc h => exact hc rfl
  | pair c r hc h => exact hc rfl

/-! ## C23 -/

theorem allowed_after {a c : List Arg} {w : Str} (k v : Str) :
    ∀ on, allowed on (a ++ Arg.key k v :: c ++ [Arg.pos w]) = .error unnamedAfterNamed := by
  have h1 : ∀ (b : List Arg), allowed true (b ++ [Arg.pos w]) = .error unnamedAfterNamed := by
    intro b
    induction b with
    | nil => rfl
    | cons x b ih => cases x <;> simp [allowed, ih, Except.map]
  induction a with
  | nil => intro on; have := h1 c; cases on <;> simp [allowed, Except.map] at this ⊢ <;> rw [this]
  | cons x a ih =>
    intro on
    cases x with
    | key k' v' => have := ih true; cases on <;> simp [allowed, Except.map] at this ⊢ <;> rw [this]
    | pos u =>
      cases on with
      | true => rfl
      | false => have := ih false; simp [allowed, Except.map] at this ⊢; rw [this]

theorem allowed_append_error {a b : List Arg} {e : Err} : ∀ {on : Bool}, allowed on a = .error e →
    allowed on (a ++ b) = .error e := by
  induction a with
  | nil => intro on h; cases on <;> simp [allowed] at h
  | cons x a ih =>
    intro on h
    have hmap : ∀ (on' : Bool), (allowed on' a).map (x :: ·) = .error e → (allowed on' (a ++ b)).map (x :: ·) = .error e := by
      intro on' hh
      cases hr : allowed on' a with
      | ok q => rw [hr] at hh; simp [Except.map] at hh
      | error e' => rw [hr] at hh; simp [Except.map] at hh; subst hh; rw [ih hr]; rfl
    cases x with
    | key k v => cases on <;> exact hmap true h
    | pos v =>
      cases on with
      | true => exact h
      | false => exact hmap false h

/-- C23: a positional argument anywhere after a named one is an error, whatever stands before,
between and after them. -/
theorem C23_positional_after_named (env : Env) (before between after : List Arg) (k v w : Str) (text : Str)
    (hw : WritesAll (before ++ [Arg.key k v] ++ between ++ [Arg.pos w] ++ after) text)
    (sl sc : Nat) (src : Option Str) :
    ∃ ctx, parseArgs env text sl sc src =
      .error (.parser (.text c%"Unnamed arguments after named arguments are forbidden.") ctx) := by
  have hrun := run_writesAll hw false
  have h := allowed_append_error (b := after) (allowed_after (a := before) (c := between) (w := w) k v false)
  have e : before ++ [Arg.key k v] ++ between ++ [Arg.pos w] ++ after =
      before ++ Arg.key k v :: between ++ [Arg.pos w] ++ after := by simp
  rw [e, h] at hrun
  have := (parseArgs_run env text (writesAll_newline hw) (writesAll_last hw) sl sc src _ hrun).1 _ rfl
  obtain ⟨e', h1, h2⟩ := unplaced_eq_error.1 this
  obtain ⟨c, rfl⟩ := Err.bare_eq_parser h2
  exact ⟨c, h1⟩

example : ∃ ctx, parseArgs [] c%"a, k=1, j=2, b, l=3" =
    .error (.parser (.text c%"Unnamed arguments after named arguments are forbidden.") ctx) := by
  refine C23_positional_after_named [] [.pos c%"a"] [.key c%"j" c%"2"] [.key c%"l" c%"3"] c%"k" c%"1" c%"b" _ ?_ 0 0 none
  refine .cons (sp := c%" ") (.posBare (by unfold Bare; decide) (by decide) (by decide) (by decide)) (by simp) ?_
  refine .cons (s := c%"k=1") (sp := c%" ")
    (.keyBare (k := c%"k") (by decide) (by decide) (by decide) (by unfold Bare; decide) (by decide)) (by simp) ?_
  refine .cons (s := c%"j=2") (sp := c%" ")
    (.keyBare (k := c%"j") (by decide) (by decide) (by decide) (by unfold Bare; decide) (by decide)) (by simp) ?_
  refine .cons (sp := c%" ") (.posBare (by unfold Bare; decide) (by decide) (by decide) (by decide)) (by simp) ?_
  exact .one (.keyBare (k := c%"l") (by decide) (by decide) (by decide) (by unfold Bare; decide) (by decide))

/-! ## C24 -/

/-- The positional arguments that start with `p`. -/
def withPrefix (p : Char) (us : List CtxText) : List CtxText := us.filter fun u => u.value.head? = some p

/-- The argument without its first character. -/
def dropMark (u : CtxText) : CtxText := { u with value := u.value.tail }

/-- At most one of the marks `#`, `*`, `@` stands in front of the argument. -/
def OneMark (u : CtxText) : Prop :=
  (u.value.head? = some '#' → u.value.tail.head? ≠ some '*' ∧ u.value.tail.head? ≠ some '@') ∧
  (u.value.head? = some '*' → u.value.tail.head? ≠ some '@')

theorem isoPass_hit {p : Char} {mark : IsoNode → IsoNode} {n : IsoNode} (h : n.node.value.head? = some p) :
    isoPass p mark n = mark { n with node := dropMark n.node } := by
  unfold isoPass
  cases hv : n.node.value with
  | nil => rw [hv] at h; cases h
  | cons c r =>
    rw [hv] at h; simp at h
    simp [h, dropMark, hv]

/-- The three passes on one argument. -/
def iso2 (u : CtxText) : IsoNode :=
  isoPass '*' (fun n => { n with isSubtype := true }) (isoPass '#' (fun n => { n with isTag := true }) { node := u })

def iso3 (u : CtxText) : IsoNode := isoPass '@' (fun n => { n with isAlias := true }) (iso2 u)

theorem iso2_eq {u : CtxText} (h : OneMark u) :
    iso2 u = if u.value.head? = some '#' then { node := dropMark u, isTag := true }
      else if u.value.head? = some '*' then { node := dropMark u, isSubtype := true } else { node := u } := by
  unfold iso2
  by_cases h1 : u.value.head? = some '#'
  · rw [if_pos h1, isoPass_hit (p := '#') h1, isoPass_skip (h.1 h1).1]
  · rw [if_neg h1, isoPass_skip (p := '#') h1]
    by_cases h2 : u.value.head? = some '*'
    · rw [if_pos h2, isoPass_hit h2]
    · rw [if_neg h2, isoPass_skip h2]

theorem iso3_eq {u : CtxText} (h : OneMark u) :
    iso3 u = if u.value.head? = some '#' then { node := dropMark u, isTag := true }
      else if u.value.head? = some '*' then { node := dropMark u, isSubtype := true }
      else if u.value.head? = some '@' then { node := dropMark u, isAlias := true } else { node := u } := by
  unfold iso3
  rw [iso2_eq h]
  by_cases h1 : u.value.head? = some '#'
  · rw [if_pos h1, if_pos h1, isoPass_skip (h.1 h1).2]
  · rw [if_neg h1, if_neg h1]
    by_cases h2 : u.value.head? = some '*'
    · rw [if_pos h2, if_pos h2, isoPass_skip (h.2 h2)]
    · rw [if_neg h2, if_neg h2]
      by_cases h3 : u.value.head? = some '@'
      · rw [if_pos h3, isoPass_hit h3]
      · rw [if_neg h3, isoPass_skip h3]

theorem filter_iso {us : List CtxText} {f : CtxText → IsoNode} {g : IsoNode → Bool} {p : CtxText → Bool}
    {n : CtxText → IsoNode} (h : ∀ u ∈ us, g (f u) = p u ∧ (p u = true → f u = n u)) :
    (us.map f).filter g = (us.filter p).map n := by
  induction us with
  | nil => rfl
  | cons u us ih =>
    obtain ⟨h1, h2⟩ := h u (by simp)
    have ih := ih fun x hx => h x (by simp [hx])
    rw [List.map_cons, List.filter_cons, List.filter_cons, ih, h1]
    cases hp : p u with
    | true => simp [h2 hp]
    | false => simp

theorem isolate_eq (us : List CtxText) (ns : Dict CtxText) :
    isolate us ns =
      if ((us.map iso2).filter (·.isSubtype)).length > 1 then .error (.parser (msgMultiplePrefix '*') none)
      else if ((us.map iso3).filter (·.isAlias)).length > 1 then .error (.parser (msgMultiplePrefix '@') none)
      else .ok {
        unnamed := ((us.map iso3).filter fun n => !(n.isTag || n.isSubtype || n.isAlias)).map (·.node)
        named := ns
        tagNodes := ((us.map iso3).filter (·.isTag)).map (·.node.value)
        subtype := (((us.map iso3).filter (·.isSubtype)).map (·.node)).head?
        alias := (((us.map iso3).filter (·.isAlias)).map (·.node)).head? } := by
  have e2 : ((us.map fun n => ({ node := n } : IsoNode)).map (isoPass '#' fun n => { n with isTag := true })).map
      (isoPass '*' fun n => { n with isSubtype := true }) = us.map iso2 := by
    rw [List.map_map, List.map_map]; rfl
  have e3 : (us.map iso2).map (isoPass '@' fun n => { n with isAlias := true }) = us.map iso3 := by
    rw [List.map_map]; rfl
  simp only [isolate, e2, e3]

/-- C24: positional arguments starting with `#` become tags, the one starting with `*` the subtype,
the one starting with `@` the alias (all without the mark); the others stay positional in order,
and named arguments are untouched; more than one subtype or alias is an error. -/
theorem C24_marks (us : List CtxText) (ns : Dict CtxText) (h : ∀ u ∈ us, OneMark u) :
    isolate us ns =
      if (withPrefix '*' us).length > 1 then .error (.parser (.text c%"Multiple nodes with prefix '*' detected.") none)
      else if (withPrefix '@' us).length > 1 then .error (.parser (.text c%"Multiple nodes with prefix '@' detected.") none)
      else .ok {
        unnamed := us.filter fun u =>
          u.value.head? ≠ some '#' && u.value.head? ≠ some '*' && u.value.head? ≠ some '@'
        named := ns
        tagNodes := (withPrefix '#' us).map (·.value.tail)
        subtype := (withPrefix '*' us).head?.map dropMark
        alias := (withPrefix '@' us).head?.map dropMark } := by
  rw [isolate_eq]
  have f2 : (us.map iso2).filter (·.isSubtype) = (withPrefix '*' us).map fun u => { node := dropMark u, isSubtype := true } := by
    apply filter_iso
    intro u hu
    rw [iso2_eq (h u hu)]
    by_cases h1 : u.value.head? = some '#'
    · simp [h1]
    · by_cases h2 : u.value.head? = some '*' <;> simp [h1, h2]
  have f3 : ∀ u ∈ us, ∀ c, u.value.head? = some c → u.value.head? = some '#' ∨ u.value.head? ≠ some '#' := by
    intro u _ c _; exact Decidable.em _
  have ft : (us.map iso3).filter (·.isTag) = (withPrefix '#' us).map fun u => { node := dropMark u, isTag := true } := by
    apply filter_iso
    intro u hu
    rw [iso3_eq (h u hu)]
    by_cases h1 : u.value.head? = some '#'
    · simp [h1]
    · by_cases h2 : u.value.head? = some '*'
      · simp [h1, h2]
      · by_cases h3 : u.value.head? = some '@' <;> simp [h1, h2, h3]
  have fs : (us.map iso3).filter (·.isSubtype) = (withPrefix '*' us).map fun u => { node := dropMark u, isSubtype := true } := by
    apply filter_iso
    intro u hu
    rw [iso3_eq (h u hu)]
    by_cases h1 : u.value.head? = some '#'
    · simp [h1]
    · by_cases h2 : u.value.head? = some '*'
      · simp [h1, h2]
      · by_cases h3 : u.value.head? = some '@' <;> simp [h1, h2, h3]
  have fa : (us.map iso3).filter (·.isAlias) = (withPrefix '@' us).map fun u => { node := dropMark u, isAlias := true } := by
    apply filter_iso
    intro u hu
    rw [iso3_eq (h u hu)]
    by_cases h1 : u.value.head? = some '#'
    · simp [h1]
    · by_cases h2 : u.value.head? = some '*'
      · simp [h1, h2]
      · by_cases h3 : u.value.head? = some '@' <;> simp [h1, h2, h3]
  have fo : ((us.map iso3).filter fun n => !(n.isTag || n.isSubtype || n.isAlias)) =
      (us.filter fun u => u.value.head? ≠ some '#' && u.value.head? ≠ some '*' && u.value.head? ≠ some '@').map
        fun u => { node := u } := by
    apply filter_iso
    intro u hu
    rw [iso3_eq (h u hu)]
    by_cases h1 : u.value.head? = some '#'
    · simp [h1]
    · by_cases h2 : u.value.head? = some '*'
      · simp [h1, h2]
      · by_cases h3 : u.value.head? = some '@' <;> simp [h1, h2, h3]
  rw [f2, ft, fs, fa, fo]
  simp only [List.length_map, List.map_map, Function.comp_def, List.head?_map, List.map_id']
  rfl

/-- C24: tags starting with `mau:` become internal tags (without this prefix), the other tags stay
tags, both in order. -/
theorem C24_internal_tags (p : ParsedArgs) :
    p.arguments.tags = p.tagNodes.filter (fun t => !startsWith t c%"mau:") ∧
    (∀ i, i ∈ p.arguments.internalTags ↔ c%"mau:" ++ i ∈ p.tagNodes) ∧
    p.arguments.internalTags.map (c%"mau:" ++ ·) = p.tagNodes.filter (fun t => startsWith t c%"mau:") := by
  have hd : ∀ t : Str, startsWith t c%"mau:" = true → c%"mau:" ++ t.drop 4 = t := by
    intro t ht
    unfold startsWith at ht
    rw [List.isPrefixOf_iff_prefix] at ht
    obtain ⟨r, rfl⟩ := ht
    simp
  have h3 : p.arguments.internalTags.map (c%"mau:" ++ ·) = p.tagNodes.filter (fun t => startsWith t c%"mau:") := by
    simp only [ParsedArgs.arguments, List.map_map]
    have : ∀ l : List Str, (∀ t ∈ l, startsWith t c%"mau:" = true) →
        l.map ((c%"mau:" ++ ·) ∘ fun x => x.drop internalTagPrefix.length) = l := by
      intro l hl
      conv => rhs; rw [← List.map_id l]
      apply List.map_congr_left
      intro t ht
      exact hd t (hl t ht)
    exact this _ (by intro t ht; exact (List.mem_filter.1 ht).2)
  refine ⟨rfl, ?_, h3⟩
  intro i
  constructor
  · intro hi
    have : c%"mau:" ++ i ∈ p.arguments.internalTags.map (c%"mau:" ++ ·) := List.mem_map.2 ⟨i, hi, rfl⟩
    rw [h3] at this
    exact (List.mem_filter.1 this).1
  · intro hi
    have : c%"mau:" ++ i ∈ p.tagNodes.filter (fun t => startsWith t c%"mau:") :=
      List.mem_filter.2 ⟨hi, by unfold startsWith; rw [List.isPrefixOf_iff_prefix]; exact List.prefix_append _ _⟩
    rw [← h3] at this
    obtain ⟨j, hj, he⟩ := List.mem_map.1 this
    have := List.append_cancel_left he
    rwa [← this]

/-- Values that start with a mark, without it. -/
def marked (p : Char) (vs : List Str) : List Str := (vs.filter fun v => v.head? = some p).map (·.tail)

/-- C24 on texts: the arguments object of a written list of arguments without alias. -/
theorem C24_text (env : Env) (as : List Arg) (text : Str) (hw : WritesAll as text) (hf : PositionalFirst as)
    (hk : ((keyed as).map (·.1)).Nodup)
    (h1 : ∀ v ∈ positional as, (v.head? = some '#' → v.tail.head? ≠ some '*' ∧ v.tail.head? ≠ some '@'))
    (h2 : (marked '*' (positional as)).length ≤ 1) (h3 : marked '@' (positional as) = [])
    (h4 : ∀ v ∈ positional as, v.head? = some '*' → v.tail.head? ≠ some '@')
    (sl sc : Nat) (src : Option Str) :
    ∃ p, parseArgs env text sl sc src = .ok p ∧
      p.arguments.unnamed = (positional as).filter
        (fun v => v.head? ≠ some '#' && v.head? ≠ some '*' && v.head? ≠ some '@') ∧
      p.arguments.named = keyed as ∧
      p.arguments.tags = (marked '#' (positional as)).filter (fun t => !startsWith t c%"mau:") ∧
      p.arguments.internalTags.map (c%"mau:" ++ ·) = (marked '#' (positional as)).filter (fun t => startsWith t c%"mau:") ∧
      p.arguments.subtype = (marked '*' (positional as)).head? := by
  obtain ⟨us, ns, e1, e2, e3⟩ := C22_found env as text hw hf hk sl sc src
  have hmem : ∀ u ∈ us, u.value ∈ positional as := by
    intro u hu; rw [← e1]; exact List.mem_map.2 ⟨u, hu, rfl⟩
  have hone : ∀ u ∈ us, OneMark u := fun u hu => ⟨h1 _ (hmem u hu), h4 _ (hmem u hu)⟩
  have hmk : ∀ p, marked p (positional as) = (withPrefix p us).map (·.value.tail) := by
    intro p
    rw [← e1]
    simp only [marked, withPrefix, List.filter_map, List.map_map]
    rfl
  have hi := C24_marks us ns hone
  rw [if_neg (by
      have := h2
      rw [hmk, List.length_map] at this; omega),
    if_neg (by
      have := h3
      rw [hmk, List.map_eq_nil_iff] at this; rw [this]; simp)] at hi
  have hal : (withPrefix '@' us).head?.map dropMark = none := by
    have := h3
    rw [hmk, List.map_eq_nil_iff] at this; rw [this]; rfl
  rw [hal] at hi
  refine ⟨_, unplaced_eq_ok.1 (e3.trans (by simp only [isolateTagsAndSubtype, hi, Bind.bind, Except.bind, pure, Except.pure]; rfl)), ?_, ?_, ?_, ?_, ?_⟩
  · simp only [ParsedArgs.arguments]
    rw [← e1, List.filter_map]; rfl
  · exact e2
  · rw [hmk]; rfl
  · rw [hmk]; exact (C24_internal_tags _).2.2
  · rw [hmk]
    simp only [ParsedArgs.arguments, List.head?_map, Option.map_map]
    rfl

example : (parseArgs [] c%"#t1, *sub, a, #mau:raw, b").map (·.arguments) =
    .ok { unnamed := [c%"a", c%"b"], tags := [c%"t1"], internalTags := [c%"raw"], subtype := some c%"sub" } := by
  decide

example : parseArgs [] c%"*a, *b" = .error (.parser (.text c%"Multiple nodes with prefix '*' detected.") (some ⟨0, 0, 0, 2, none⟩)) := by
  decide

/-- Two marks: the argument is put both among the tags and in the subtype. -/
example : (parseArgs [] c%"#*foo").map (·.arguments) =
    .ok { tags := [c%"foo"], subtype := some c%"foo" } := by decide

/-! ## C26 -/

theorem zip_fst_sublist {α β : Type} (a : List α) (b : List β) : ((a.zip b).map Prod.fst).Sublist a := by
  induction a generalizing b with
  | nil => simp
  | cons x a ih =>
    cases b with
    | nil => simp
    | cons y b => simpa using ih b

/-- C26: naming positional values. The names not used yet (`free`) are paired with the values in
order; values given before keep their names; surplus values stay positional in order; nothing else
is in the result. -/
theorem C26_set_names {α : Type} (us : List α) (ns : Dict α) (names : List Str) (hn : names.Nodup) :
    let free := names.filter fun n => !Dict.has ns n
    let result := setNames us ns names
    (∀ k v, Dict.get? ns k = some v → Dict.get? result.2 k = some v) ∧
    (∀ (i : Nat) n v, free[i]? = some n → us[i]? = some v → Dict.get? result.2 n = some v) ∧
    (∀ k v, Dict.get? result.2 k = some v →
      Dict.get? ns k = some v ∨ ∃ i : Nat, free[i]? = some k ∧ us[i]? = some v) ∧
    result.1 = us.drop free.length := by
  intro free result
  have hfree : free.Nodup := hn.filter _
  have hz : Dict.Distinct (free.zip us) := by
    unfold Dict.Distinct Dict.keys
    exact hfree.sublist (zip_fst_sublist _ _)
  have hr : result.2 = Dict.update ns (free.zip us) := by
    change Dict.update ns (Dict.update [] (free.zip us)) = _
    rw [Dict.update_nil_left hz]
  have hget : ∀ k, Dict.get? result.2 k = (Dict.get? (free.zip us) k).or (Dict.get? ns k) := by
    intro k; rw [hr, Dict.get?_update _ hz]
  have hfn : ∀ n ∈ free, Dict.get? ns n = none := by
    intro n hn
    have := (List.mem_filter.1 hn).2
    simpa [Dict.has] using this
  refine ⟨?_, ?_, ?_, rfl⟩
  · intro k v hk
    rw [hget]
    have : Dict.get? (free.zip us) k = none := by
      rw [Dict.get?_none_iff]
      intro hm
      obtain ⟨kv, hkv, rfl⟩ := List.mem_map.1 hm
      have := hfn kv.1 (List.of_mem_zip (a := kv.1) (b := kv.2) hkv).1
      rw [this] at hk; cases hk
    rw [this, hk]; rfl
  · intro i n v h1 h2
    rw [hget]
    have hm : (n, v) ∈ free.zip us := by
      apply List.mem_of_getElem? (i := i)
      rw [List.getElem?_zip_eq_some]
      exact ⟨h1, h2⟩
    rw [(Dict.get?_iff_mem hz).2 hm]; rfl
  · intro k v hk
    rw [hget] at hk
    cases hz2 : Dict.get? (free.zip us) k with
    | none => rw [hz2] at hk; exact .inl hk
    | some w =>
      rw [hz2] at hk
      cases hk
      right
      obtain ⟨i, hi⟩ := List.getElem?_of_mem (Dict.mem_of_get? hz2)
      rw [List.getElem?_zip_eq_some] at hi
      exact ⟨i, hi⟩

/-- C26: no value is lost: all values are found, in order, among the named ones and the surplus. -/
theorem C26_nothing_lost {α : Type} (us : List α) (ns : Dict α) (names : List Str) (hn : names.Nodup) :
    let free := names.filter fun n => !Dict.has ns n
    (free.take us.length).map (fun n => Dict.get? (setNames us ns names).2 n) ++
      (setNames us ns names).1.map some = us.map some := by
  intro free
  obtain ⟨_, h2, _, h4⟩ := C26_set_names us ns names hn
  rw [h4]
  have : (free.take us.length).map (fun n => Dict.get? (setNames us ns names).2 n) = (us.take free.length).map some := by
    apply List.ext_getElem?
    intro i
    rw [List.getElem?_map, List.getElem?_map, List.getElem?_take, List.getElem?_take]
    by_cases h5 : i < us.length
    · by_cases h6 : i < free.length
      · rw [if_pos h5, if_pos h6]
        have e1 := List.getElem?_eq_getElem h6
        have e2 := List.getElem?_eq_getElem h5
        rw [e1, e2]
        have := h2 i _ _ e1 e2
        simp [this]
      · rw [if_pos h5, if_neg h6, List.getElem?_eq_none (by omega)]; rfl
    · rw [if_neg h5]
      split
      · rw [List.getElem?_eq_none (l := us) (by omega)]; rfl
      · rfl
  rw [this, ← List.map_append, List.take_append_drop]

example : setNames [1, 2, 3] [(c%"b", 9)] [c%"a", c%"b", c%"c"] =
    ([3], [(c%"b", 9), (c%"a", 1), (c%"c", 2)]) := by decide

/-! ## C25 -/

theorem get?_missing (al : CtxText) (args : Dict Str) (missing : List Str) (d : Dict CtxText) (k : Str) :
    Dict.get? (missing.foldl (fun d k => match Dict.get? args k with
      | some v => Dict.set d k ⟨v, al.ctx⟩
      | none => d) d) k =
      if k ∈ missing ∧ (Dict.get? args k).isSome then (Dict.get? args k).map (⟨·, al.ctx⟩) else Dict.get? d k := by
  induction missing generalizing d with
  | nil => simp
  | cons m missing ih =>
    simp only [List.foldl_cons]
    rw [ih]
    by_cases hk : k ∈ missing ∧ (Dict.get? args k).isSome
    · rw [if_pos hk, if_pos ⟨by simp [hk.1], hk.2⟩]
    · rw [if_neg hk]
      by_cases hm : k = m
      · subst hm
        cases hg : Dict.get? args k with
        | none => simp
        | some v => simp [Dict.get?_set]
      · have e : Dict.get? (match Dict.get? args m with
            | some v => Dict.set d m ⟨v, al.ctx⟩
            | none => d) k = Dict.get? d k := by
          cases Dict.get? args m with
          | none => rfl
          | some v => simp only [Dict.get?_set]; rw [if_neg]; exact fun h => hm h.symm
        rw [e, if_neg]
        rintro ⟨h1, h2⟩
        rcases List.mem_cons.1 h1 with h1 | h1
        · exact hm h1
        · exact hk ⟨h1, h2⟩

/-- The keys an alias adds, in any order: its keys that were not given explicitly. -/
def IsMissing (a : Alias) (named : Dict CtxText) (missing : List Str) : Prop :=
  ∀ k, k ∈ missing ↔ (Dict.get? a.args k).isSome ∧ Dict.get? named k = none

theorem missingKeys_isMissing (a : Alias) (named : Dict CtxText) : IsMissing a named (missingKeys a named) := by
  intro k
  simp only [missingKeys, List.mem_filter, Dict.has]
  have : k ∈ Dict.keys a.args ↔ (Dict.get? a.args k).isSome := by
    have h := Dict.get?_none_iff (d := a.args) (k := k)
    cases hg : Dict.get? a.args k with
    | none => rw [hg] at h; simpa using h.1 rfl
    | some v =>
      rw [hg] at h
      simp only [Option.isSome_some, iff_true]
      exact Decidable.not_not.1 fun hn => by have := h.2 hn; cases this
  rw [this]
  simp

/-- C25: what an alias does, for any order in which the missing keys are visited: values given
explicitly are kept; the missing ones are added with the alias's values; then positional values are
named; the subtype of the alias is used only if none was given; tags stay as they are. -/
theorem C25_alias (p : ParsedArgs) (al : CtxText) (a : Alias) (missing : List Str)
    (hm : IsMissing a p.named missing) (hn : a.names.Nodup) :
    let free := a.names.filter fun n => !(Dict.has p.named n || Dict.has a.args n)
    let result := applyAlias p al a missing
    (∀ k v, Dict.get? p.named k = some v → Dict.get? result.named k = some v) ∧
    (∀ k v, Dict.get? p.named k = none → Dict.get? a.args k = some v →
      Dict.get? result.named k = some ⟨v, al.ctx⟩) ∧
    (∀ (i : Nat) n v, free[i]? = some n → p.unnamed[i]? = some v → Dict.get? result.named n = some v) ∧
    (∀ k v, Dict.get? result.named k = some v →
      Dict.get? p.named k = some v ∨ Dict.get? a.args k = some v.value ∨
        ∃ i : Nat, free[i]? = some k ∧ p.unnamed[i]? = some v) ∧
    result.unnamed = p.unnamed.drop free.length ∧
    result.subtype.map (·.value) = (p.subtype.map (·.value)).or a.subtype ∧
    result.tagNodes = p.tagNodes := by
  intro free result
  let named1 := missing.foldl (fun d k => match Dict.get? a.args k with
      | some v => Dict.set d k ⟨v, al.ctx⟩
      | none => d) p.named
  have h1 : ∀ k, Dict.get? named1 k =
      if Dict.get? p.named k = none then (Dict.get? a.args k).map (⟨·, al.ctx⟩) else Dict.get? p.named k := by
    intro k
    simp only [named1]
    rw [get?_missing]
    by_cases hk : Dict.get? p.named k = none
    · rw [if_pos hk]
      cases hg : Dict.get? a.args k with
      | none => rw [if_neg (by simp)]; simp [hk]
      | some v => rw [if_pos ⟨(hm k).2 ⟨by simp [hg], hk⟩, by simp⟩]
    · rw [if_neg hk, if_neg]
      rintro ⟨h2, _⟩
      exact hk ((hm k).1 h2).2
  have hfree : (a.names.filter fun n => !Dict.has named1 n) = free := by
    apply List.filter_congr
    intro n _
    simp only [Dict.has, h1]
    cases hg : Dict.get? p.named n with
    | none => cases Dict.get? a.args n <;> rfl
    | some v => simp
  obtain ⟨s1, s2, s3, s4⟩ := C26_set_names p.unnamed named1 a.names hn
  rw [hfree] at s2 s3 s4
  have hr : result.named = (setNames p.unnamed named1 a.names).2 ∧ result.unnamed = (setNames p.unnamed named1 a.names).1 :=
    ⟨rfl, rfl⟩
  refine ⟨?_, ?_, ?_, ?_, ?_, ?_, rfl⟩
  · intro k v hk
    rw [hr.1]; apply s1; rw [h1, hk]; rfl
  · intro k v hk ha
    rw [hr.1]; apply s1; rw [h1, hk, ha]; rfl
  · intro i n v hi hu
    rw [hr.1]; exact s2 i n v hi hu
  · intro k v hk
    rw [hr.1] at hk
    rcases s3 k v hk with h | h
    · rw [h1] at h
      split at h
      · right; left
        cases hg : Dict.get? a.args k with
        | none => rw [hg] at h; cases h
        | some w => rw [hg] at h; cases h; rfl
      · exact .inl h
    · exact .inr (.inr h)
  · rw [hr.2]; exact s4
  · simp only [result, applyAlias]
    cases p.subtype <;> cases a.subtype <;> rfl

/-- C25: the order in which the set of missing keys is visited does not matter. -/
theorem C25_order_independent (p : ParsedArgs) (al : CtxText) (a : Alias) (m1 m2 : List Str)
    (h1 : IsMissing a p.named m1) (h2 : IsMissing a p.named m2) :
    (∀ k, Dict.get? (applyAlias p al a m1).named k = Dict.get? (applyAlias p al a m2).named k) ∧
    { applyAlias p al a m1 with named := [] } = { applyAlias p al a m2 with named := [] } := by
  let f : List Str → Dict CtxText := fun m => m.foldl (fun d k => match Dict.get? a.args k with
      | some v => Dict.set d k ⟨v, al.ctx⟩
      | none => d) p.named
  have hg : ∀ k, Dict.get? (f m1) k = Dict.get? (f m2) k := by
    intro k
    simp only [f]
    rw [get?_missing, get?_missing]
    have : k ∈ m1 ↔ k ∈ m2 := (h1 k).trans (h2 k).symm
    simp only [this]
  have hs : (a.names.filter fun n => !Dict.has (f m1) n) = a.names.filter fun n => !Dict.has (f m2) n := by
    apply List.filter_congr
    intro n _
    simp only [Dict.has, hg]
  have hr : ∀ m, (applyAlias p al a m).named = Dict.update (f m)
      (Dict.update [] ((a.names.filter fun n => !Dict.has (f m) n).zip p.unnamed)) := fun _ => rfl
  have hu : ∀ m, (applyAlias p al a m).unnamed =
      p.unnamed.drop (a.names.filter fun n => !Dict.has (f m) n).length := fun _ => rfl
  constructor
  · intro k
    rw [hr, hr, Dict.get?_update _ (Dict.distinct_update Dict.distinct_nil _),
      Dict.get?_update _ (Dict.distinct_update Dict.distinct_nil _), hs, hg]
  · have e : (applyAlias p al a m1).unnamed = (applyAlias p al a m2).unnamed := by rw [hu, hu, hs]
    have e2 : ∀ m, { applyAlias p al a m with named := [] } =
      { applyAlias p al a [] with named := [], unnamed := (applyAlias p al a m).unnamed } := fun _ => rfl
    rw [e2 m1, e2 m2, e]

/-- C25: an alias that is not defined is an error naming it. -/
theorem C25_unknown_alias (env : Env) (us : List CtxText) (ns : Dict CtxText) (p : ParsedArgs) (al : CtxText)
    (hp : isolate us ns = .ok p) (ha : p.alias = some al)
    (hu : Env.get env c%"mau.parser.aliases" = .default ∨
      ∃ e d, Env.get env c%"mau.parser.aliases" = .namespace e ∧ Env.asdict e = .ok d ∧ Dict.get? d al.value = none) :
    isolateTagsAndSubtype env us ns = .error (.parser (.unknownAlias al.value) none) := by
  unfold isolateTagsAndSubtype
  simp only [hp, ha, Bind.bind, Except.bind]
  have : lookupAlias env al.value = .error (.parser (.unknownAlias al.value) none) := by
    rcases hu with hu | ⟨e, d, hu, hd, hg⟩
    · simp [lookupAlias, hu, Bind.bind, Except.bind, pure, Except.pure, throw, throwThe, MonadExceptOf.throw]
    · simp [lookupAlias, hu, hd, hg, Bind.bind, Except.bind, pure, Except.pure, throw, throwThe, MonadExceptOf.throw]
  rw [this]

/-- An alias definition in the environment: `args` k=1, l=2; `names` n; subtype `s`. -/
def aliasEnv : Env :=
  [(c%"mau.parser.aliases.al.args.k", .str c%"1"), (c%"mau.parser.aliases.al.args.l", .str c%"2"),
   (c%"mau.parser.aliases.al.names", .list [c%"n"] c%""), (c%"mau.parser.aliases.al.subtype", .str c%"s")]

example : (parseArgs aliasEnv c%"@al, pos, more, l=given").map (·.arguments) =
    .ok { unnamed := [c%"more"], named := [(c%"l", c%"given"), (c%"k", c%"1"), (c%"n", c%"pos")], subtype := some c%"s" } := by
  decide

example : parseArgs aliasEnv c%"@other" = .error (.parser (.unknownAlias c%"other") (some ⟨0, 0, 0, 6, none⟩)) := by
  decide

example : IsMissing ⟨[(c%"k", c%"1"), (c%"l", c%"2")], [], none⟩ [(c%"l", ⟨[], ⟨0, 0, 0, 0, none⟩⟩)] [c%"k", c%"k"] := by
  intro k
  by_cases h1 : k = c%"k"
  · subst h1; decide
  · by_cases h2 : k = c%"l"
    · subst h2; decide
    · simp [Dict.get?, h1, h2, Ne.symm h1, Ne.symm h2, eq_comm (b := k)]

end Mau
