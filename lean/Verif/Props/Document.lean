import Verif.Lemmas.ListsSpec

set_option linter.unusedSimpArgs false

/-!
# Properties C36–C38, C58–C60: documents

The theorems speak about a parser `P` in an arbitrary state `s` (any history) that reads some lines; `P.run ... = .ok s'` is a
successful reading. `parseDocument_run` (Lemmas/DocLink.lean) says that parsing a document is `P.run` on its lines from the initial
state, followed by `finalise`.
-/

namespace Mau
open Spec

/-! ## C36 — variable definitions -/

theorem definition_line {name value : Str} (hn : VarName name) (hv : value ≠ []) :
    SpecialLine (definitionLine name value) [.tok .VARIABLE [':'], .tok .TEXT name, .tok .LITERAL [':'], .tok .TEXT value] := by
  refine ⟨?_, ?_, ?_⟩
  · exact LineForm.variable_ name (':' :: value) _ hn.1 hn.2 (by intro c r h; cases h; decide) (.colonText hv)
  · intro h; exact absurd (h ':' (by simp [definitionLine])) (by decide)
  · intro ch h
    unfold definitionLine at h
    cases name with
    | nil => exact hn.1 rfl
    | cons c name =>
      have h1 := hn.2 c (by simp)
      simp at h
      obtain ⟨e1, e2, _⟩ := h
      rw [e2, ← e1] at h1
      exact absurd h1 (by decide)

theorem flag_line {name : Str} (hn : VarName name) :
    SpecialLine (definitionLine name []) [.tok .VARIABLE [':'], .tok .TEXT name, .tok .LITERAL [':']] := by
  refine ⟨?_, ?_, ?_⟩
  · exact LineForm.variable_ name [':'] _ hn.1 hn.2 (by intro c r h; cases h; decide) .colon
  · intro h; exact absurd (h ':' (by simp [definitionLine])) (by decide)
  · intro ch h
    unfold definitionLine at h
    cases name with
    | nil => exact hn.1 rfl
    | cons c name =>
      have h1 := hn.2 c (by simp)
      simp at h
      obtain ⟨e1, e2, _⟩ := h
      rw [e2, ← e1] at h1
      exact absurd h1 (by decide)

theorem setitem_defines (env : Env) (name v : Str) : Defines env (Env.setitem env name (.leaf (.str v))) name v := by
  have : Env.setitem env name (.leaf (.str v)) = Dict.set env name (.str v) := rfl
  rw [this]
  refine ⟨?_, fun k hk => ?_⟩
  · rw [Dict.get?_set]; simp
  · rw [Dict.get?_set]; simp [Ne.symm hk]

theorem startsWith_ne {name : Str} {c : Char} (h : name.head? ≠ some c) : startsWith name [c] = false := by
  cases name with
  | nil => rfl
  | cons d r => simp [startsWith, List.isPrefixOf] at h ⊢; exact fun e => h e.symm

/-- The kinds of the nodes of a document. -/
def nodeKinds (x : Except Err DocSt) : Option (List NodeData) :=
  match x with
  | .ok s => some (s.nodes.map (·.data))
  | .error _ => none

theorem value_step {P : Parser} {ln col : Nat} {name value v : Str} {rest : List Str} {s : DocSt} (hn : VarName name)
    (hp : name.head? ≠ some '+') (hm : name.head? ≠ some '-') (hv : Replaced s.env value v) (hne : v ≠ []) :
    P.run ln col (definitionLine name value :: rest) s = P.run (ln + 1) 0 rest { s with env := Env.setitem s.env name (.leaf (.str v)) } := by
  have hval : value ≠ [] := by
    rintro rfl
    have h1 := hv 0 0 none
    have : preprocess s.env [] 0 0 none = .ok (processedText []) := rfl
    rw [this] at h1
    cases h1
    exact hne rfl
  have hr := reads_define (P := P) (ln := ln) (col := col) (rest := rest) (s := s) (definition_line hn hval)
  refine hr.ok _ ?_
  obtain ⟨tok, h1, h2⟩ := map_ok (hv ln col P.src)
  have hd : definition s.env name value (at_ P.src ln col (name.length + 2 + value.length)) = .ok (name, v) := by
    unfold definition
    rw [startsWith_ne hp, startsWith_ne hm]
    have s3 : value.isEmpty = false := by cases value <;> simp_all
    simp only [s3, at_, Bool.false_eq_true, ↓reduceIte, h1, ← h2]
    have s4 : v.isEmpty = false := by cases v <;> simp_all
    simp [s4]
  unfold defineStep
  rw [hd]
  rfl

/-- C36: `:name:value` defines exactly the variable `name`, as the value with its references replaced at this point; the rest of the
document is read with the new variable, and nothing else has changed. -/
theorem C36_value {P : Parser} {ln col : Nat} {name value v : Str} {rest : List Str} {s : DocSt} (hn : VarName name)
    (hp : name.head? ≠ some '+') (hm : name.head? ≠ some '-') (hv : Replaced s.env value v) (hne : v ≠ []) :
    ∃ env', Defines s.env env' name v ∧
      P.run ln col (definitionLine name value :: rest) s = P.run (ln + 1) 0 rest { s with env := env' } :=
  ⟨_, setitem_defines s.env name v, value_step hn hp hm hv hne⟩

/-- C36: a reference in the value that cannot be replaced is the result of the reading. -/
theorem C36_bad_value {P : Parser} {ln col : Nat} {name value : Str} {rest : List Str} {s : DocSt} {e : Err} (hn : VarName name)
    (hp : name.head? ≠ some '+') (hm : name.head? ≠ some '-') (hval : value ≠ [])
    (hv : preprocess s.env value ln col P.src = .error e) (hl : Lexes P.src (ln + 1) rest) :
    P.run ln col (definitionLine name value :: rest) s = .error e := by
  refine (reads_define (P := P) (ln := ln) (col := col) (rest := rest) (s := s) (definition_line hn hval)).err e ?_ hl
  unfold defineStep definition
  rw [startsWith_ne hp, startsWith_ne hm]
  have s3 : value.isEmpty = false := by cases value <;> simp_all
  simp only [s3, at_, Bool.false_eq_true, ↓reduceIte, hv]
  rfl

/-- C36: `:+name:` defines "true", `:-name:` defines "false", and nothing else changes. The full property says that the definition
consumes nothing but its own line; this holds unless an ordinary text line follows directly (see `C36_swallows`). -/
theorem C36_flag_partial {P : Parser} {ln col : Nat} {sign : Char} {name : Str} {rest : List Str} {s : DocSt}
    (hs : sign = '+' ∨ sign = '-') (hn : ∀ c ∈ name, isVarChar c = true) (hr : NoText rest) :
    ∃ env', Defines s.env env' name (if sign = '+' then c%"true" else c%"false") ∧
      P.run ln col (definitionLine (sign :: name) [] :: rest) s = P.run (ln + 1) 0 rest { s with env := env' } := by
  have hv : VarName (sign :: name) := by
    refine ⟨by simp, ?_⟩
    intro c hc
    rcases List.mem_cons.1 hc with rfl | hc
    · rcases hs with rfl | rfl <;> decide
    · exact hn c hc
  refine ⟨_, setitem_defines s.env name _, (reads_define_none hr (flag_line hv)).ok _ ?_⟩
  unfold defineStep definition
  rcases hs with rfl | rfl
  · rfl
  · rfl

/-- C36: a definition without value is an error (if an ordinary text line does not follow directly). -/
theorem C36_no_value_partial {P : Parser} {ln col : Nat} {name : Str} {rest : List Str} {s : DocSt} (hn : VarName name)
    (hp : name.head? ≠ some '+') (hm : name.head? ≠ some '-') (hr : NoText rest) (hl : Lexes P.src (ln + 1) rest) :
    P.run ln col (definitionLine name [] :: rest) s =
      .error (.parser (.text (c%"Error in variable definition. Variable '" ++ name ++ c%"' has no value.")) (some (at_ P.src ln col (name.length + 2)))) := by
  refine (reads_define_none hr (flag_line hn)).err _ ?_ hl
  unfold defineStep definition
  rw [startsWith_ne hp, startsWith_ne hm]
  rfl

/-- C36: the same if the value with its references replaced is empty. -/
theorem C36_empty_value {P : Parser} {ln col : Nat} {name value : Str} {rest : List Str} {s : DocSt} (hn : VarName name)
    (hp : name.head? ≠ some '+') (hm : name.head? ≠ some '-') (hval : value ≠ []) (hv : Replaced s.env value [])
    (hl : Lexes P.src (ln + 1) rest) :
    P.run ln col (definitionLine name value :: rest) s =
      .error (.parser (.text (c%"Error in variable definition. Variable '" ++ name ++ c%"' has no value.")) (some (at_ P.src ln col (name.length + 2 + value.length)))) := by
  refine (reads_define (P := P) (ln := ln) (col := col) (rest := rest) (s := s) (definition_line hn hval)).err _ ?_ hl
  obtain ⟨tok, h1, h2⟩ := map_ok (hv ln col P.src)
  unfold defineStep definition
  rw [startsWith_ne hp, startsWith_ne hm]
  have s3 : value.isEmpty = false := by cases value <;> simp_all
  simp only [s3, at_, Bool.false_eq_true, ↓reduceIte, h1, ← h2]
  rfl

/-- What happens if an ordinary text line follows directly: `:+name:` and `:-name:` define the same, and the text line is lost. -/
theorem C36_flag_swallows {P : Parser} {ln col : Nat} {sign : Char} {name t : Str} {rest : List Str} {s : DocSt}
    (hs : sign = '+' ∨ sign = '-') (hn : ∀ c ∈ name, isVarChar c = true) (ht : TextLine t) :
    ∃ env', Defines s.env env' name (if sign = '+' then c%"true" else c%"false") ∧
      P.run ln col (definitionLine (sign :: name) [] :: t :: rest) s = P.run (ln + 2) 0 rest { s with env := env' } := by
  have hv : VarName (sign :: name) := by
    refine ⟨by simp, ?_⟩
    intro c hc
    rcases List.mem_cons.1 hc with rfl | hc
    · rcases hs with rfl | rfl <;> decide
    · exact hn c hc
  refine ⟨_, setitem_defines s.env name _, (reads_define_next (flag_line hv) ht).ok _ ?_⟩
  unfold defineStep definition
  rcases hs with rfl | rfl
  · rfl
  · rfl

/-- What happens if an ordinary text line follows directly: `:name:` takes the text line as its value. -/
theorem C36_value_swallows {P : Parser} {ln col : Nat} {name t v : Str} {rest : List Str} {s : DocSt} (hn : VarName name)
    (hp : name.head? ≠ some '+') (hm : name.head? ≠ some '-') (ht : TextLine t) (hv : Replaced s.env t v) (hne : v ≠ []) :
    ∃ env', Defines s.env env' name v ∧
      P.run ln col (definitionLine name [] :: t :: rest) s = P.run (ln + 2) 0 rest { s with env := env' } := by
  refine ⟨_, setitem_defines s.env name v, (reads_define_next (flag_line hn) ht).ok _ ?_⟩
  obtain ⟨tok, h1, h2⟩ := map_ok (hv (min ln (ln + 1)) (min col 0) P.src)
  have hd : definition s.env name t ((at_ P.src ln col (name.length + 2)).merge (at_ P.src (ln + 1) 0 t.length)) = .ok (name, v) := by
    unfold definition
    rw [startsWith_ne hp, startsWith_ne hm]
    have s3 : t.isEmpty = false := by
      cases t with
      | nil => exact absurd (by unfold Spaces; simp) ht.1
      | cons c t => rfl
    have s4 : v.isEmpty = false := by cases v <;> simp_all
    simp [s3, at_, Context.merge] at h1 ⊢
    rw [h1]
    simp [← h2, s4, hne]
  unfold defineStep
  rw [hd]
  rfl

/-- The full C36 is false: the line after a definition without value is swallowed. Here the document is `:+flag:`, then a text
line, an empty line, another text line, and only one paragraph comes out. -/
theorem C36_swallows : nodeKinds (parseDoc {} 20 c%":+flag:\nlost\n\nkept") = some [.paragraph] ∧
    nodeKinds (parseDoc {} 20 c%":+flag:\n\nlost\n\nkept") = some [.paragraph, .paragraph] := by decide +kernel

/-- Concrete definitions. -/
example : VarName c%"a.b" ∧ c%"a.b".head? ≠ some '+' ∧ c%"a.b".head? ≠ some '-' ∧
    Replaced [(c%"x", .str c%"1")] c%"v{x}" c%"v1" ∧ NoText [c%"", c%"text"] :=
  ⟨⟨by decide, by decide⟩, by decide, by decide,
    fun l c src => C17_pieces [(c%"x", .str c%"1")] c%"v{x}" c%"v1"
      (units_append (units_plain (s := c%"v") (by unfold preSpecial; decide)) (units_one (.ref c%"x" (.str c%"1") (span_plain (by decide) (by decide)) (by decide) rfl)))
      (by decide) (not_spacesAfterSpecial (by decide)) l c src, .blank (by unfold Spaces; decide)⟩

/-! ## C37, C38 — arguments, labels and controls -/

/-- Reading the lines before a construct only attaches. -/
theorem prelude_run {P : Parser} {rest ls : List Str} {ln col : Nat} {s s1 : DocSt} {as : List Attached}
    (h : Prelude P rest ln col ls s as s1) : ls = [] ∨ P.run ln col (ls ++ rest) s = P.run (ln + ls.length) 0 rest s1 := by
  have key : ∀ {l : Str} {ls : List Str} {ln : Nat} {s s1 : DocSt} {as : List Attached}, Prelude P rest (ln + 1) 0 ls s as s1 →
      (ls = [] ∨ P.run (ln + 1) 0 (ls ++ rest) s = P.run (ln + 1 + ls.length) 0 rest s1) →
      P.run (ln + 1) 0 (ls ++ rest) s = P.run (ln + (l :: ls).length) 0 rest s1 := by
    intro l ls ln s s1 as h h'
    rcases h' with rfl | h'
    · cases h; rfl
    · rw [h']; simp [Nat.add_comm, Nat.add_left_comm]
  induction h with
  | nil => exact .inl rfl
  | blank h hs ih => exact .inr ((run_blank h).trans (key hs ih))
  | comment h hs ih => exact .inr ((run_comment h).trans (key hs ih))
  | @comments ln col cs ls s s1 as h hs ih =>
    refine .inr ?_
    simp only [List.cons_append, List.append_assoc]
    rw [run_comments h]
    rcases ih with rfl | ih
    · cases hs
      simp [Nat.add_assoc]
    · rw [ih]; simp [Nat.add_assoc, Nat.add_comm, Nat.add_left_comm]
  | arguments h hs ih =>
    refine .inr (((reads_arguments).ok _ ?_).trans (key hs ih))
    unfold argumentsStep
    rw [h]; rfl
  | label hl h hs ih =>
    refine .inr (((reads_label hl).ok _ ?_).trans (key hs ih))
    unfold Parser.labelStep
    rw [h]; rfl
  | @control ln col l sp v text var value neg ls s s1 as hl hv hn h hs ih =>
    refine .inr (((reads_control hl).ok _ ?_).trans (key hs ih))
    obtain ⟨tok, h1, h2⟩ := map_ok (hv _ _ P.src)
    obtain ⟨c, h3⟩ := C27_reads h hn _ _ P.src
    unfold controlStep processConditionWithVariables
    dsimp only [tokAt]
    rw [h1]
    dsimp only [Bind.bind, Except.bind]
    rw [← h2, h3]
    cases neg <;> simp [mkControl, pure, Except.pure]
  | define hl h hs ih => exact .inr (((reads_define hl).ok _ h).trans (key hs ih))
  | flag hl hr h hs ih => exact .inr (((reads_define_none hr hl).ok _ h).trans (key hs ih))

/-- What is pending after the lines before a construct. -/
theorem prelude_pending {P : Parser} {rest ls : List Str} {ln col : Nat} {s s1 : DocSt} {as : List Attached}
    (h : Prelude P rest ln col ls s as s1) : s1.argsBuf = lastArgs s.argsBuf as ∧ s1.controlBuf = lastControl s.controlBuf as ∧
      (∀ role, Dict.get? s1.labelBuf role = lastLabel role (Dict.get? s.labelBuf role) as) ∧ s1.nodes = s.nodes := by
  induction h with
  | nil => exact ⟨rfl, rfl, fun _ => rfl, rfl⟩
  | blank h hs ih => exact ih
  | comment h hs ih => exact ih
  | comments h hs ih => exact ih
  | arguments h hs ih => exact ih
  | label hl h hs ih =>
    have o := inline_only h
    obtain ⟨i1, i2, i3, i4⟩ := ih
    refine ⟨i1.trans (by rw [show lastArgs _ (Attached.label _ _ :: _) = lastArgs _ _ from rfl]; exact congrArg (lastArgs · _) o.argsBuf),
      i2.trans (congrArg (lastControl · _) o.controlBuf), fun role => (i3 role).trans ?_, i4.trans o.nodes⟩
    dsimp only
    rw [Dict.get?_set]
    rfl
  | control hl hv hn h hs ih => exact ih
  | define hl h hs ih => exact ih
  | flag hl hr h hs ih => exact ih

/-- C37, C38: lines that attach something, then a construct, in any state. A successful reading goes on after the construct in a
state `s2` in which neither arguments nor labels are pending. If the construct gives a node (`¬ Diverted`), no control is pending
either, and the node is appended to the document or dropped: `keep` is the value of the last control. The node has the arguments of
the last line of arguments (except the ones the construct used, and positional ones) and for each role the last label. -/
theorem attached_outcome {P : Parser} (hP : Clean P) {ln : Nat} {pre ls rest : List Str} {s s1 s' : DocSt} {as : List Attached} {k : Kind}
    {a : NodeArgs} {x : Except Err DocSt} (hpre : Prelude P (ls ++ rest) ln 0 pre s as s1)
    (hc : Construct P s1 (ln + pre.length) 0 ls rest k a x) (hr : P.run ln 0 (pre ++ ls ++ rest) s = .ok s') :
    ∃ s2, x = .ok s2 ∧ P.run (ln + pre.length + ls.length) 0 rest s2 = .ok s' ∧ Outcome s1 k a s2 := by
  have h1 : P.run ln 0 (pre ++ (ls ++ rest)) s = P.run (ln + pre.length) 0 (ls ++ rest) s1 := by
    rcases prelude_run hpre with rfl | h
    · cases hpre; rfl
    · exact h
  rw [List.append_assoc, h1] at hr
  obtain ⟨s2, h2, h3⟩ := Reads.success (construct_reads hP hc) hr
  exact ⟨s2, h2, h3, construct_outcome hc h2⟩

/-- Every construct except an include with its own arguments takes the pending arguments. -/
theorem construct_args {P : Parser} {s : DocSt} {ln col : Nat} {ls rest : List Str} {k : Kind} {a : NodeArgs} {x : Except Err DocSt}
    (h : Construct P s ln col ls rest k a x) : a = args s ∨ (k = .incl ∧ ∀ b, s.argsBuf = some b → ∃ ctx, x = .error (.parser msgBothArguments (some ctx))) := by
  cases h with
  | inclArgs hl ha =>
    refine .inr ⟨rfl, fun b hb => ?_⟩
    unfold Parser.includeInline
    rw [hb]
    exact ⟨_, rfl⟩
  | _ => exact .inl rfl

/-- C37: the arguments and labels before a construct go to its node, and only to it: afterwards none are pending. Of several
argument lines the last counts, of several labels of one role the last counts, whatever blank lines, comments, controls and
definitions stand between them. (If the construct is dropped because of its control, they are gone as well.) -/
theorem C37_attach {P : Parser} (hP : Clean P) {ln : Nat} {pre ls rest : List Str} {s s1 s' : DocSt} {as : List Attached} {k : Kind}
    {a : NodeArgs} {x : Except Err DocSt} (hpre : Prelude P (ls ++ rest) ln 0 pre s as s1)
    (hc : Construct P s1 (ln + pre.length) 0 ls rest k a x) (hr : P.run ln 0 (pre ++ ls ++ rest) s = .ok s') (hd : ¬ Diverted k a) :
    ∃ s2, P.run (ln + pre.length + ls.length) 0 rest s2 = .ok s' ∧ s2.argsBuf = none ∧ s2.labelBuf = [] ∧
      (s2.nodes = s.nodes ∨ ∃ n, s2.nodes = s.nodes ++ [n] ∧ (∀ role, Dict.get? n.labels role = lastLabel role (Dict.get? s.labelBuf role) as) ∧
        LeftOf k a n.args) ∧
      (∀ b, lastArgs s.argsBuf as = some b → a = b) := by
  obtain ⟨s2, h1, h2, h3⟩ := attached_outcome hP hpre hc hr
  obtain ⟨p1, p2, p3, p4⟩ := prelude_pending hpre
  refine ⟨s2, h2, h3.args, h3.labels, ?_, ?_⟩
  · obtain ⟨keep, _, _, h4, h5⟩ := h3.node hd
    cases keep with
    | false => exact .inl ((h4 rfl).trans p4)
    | true =>
      obtain ⟨n, h6, h7, h8⟩ := h5 rfl
      exact .inr ⟨n, by rw [h6, p4], fun role => by rw [h7]; exact p3 role, h8⟩
  · intro b hb
    rw [← p1] at hb
    rcases construct_args hc with h4 | ⟨_, h4⟩
    · rw [h4, args, hb]; rfl
    · obtain ⟨_, h5⟩ := h4 b hb
      rw [h5] at h1; cases h1

/-- C37: the text between the brackets of a line of arguments is read after its references are replaced: if it becomes the written
arguments `as`, exactly these are pending for the next node, whatever was pending before. -/
theorem C37_line {P : Parser} {ln : Nat} {rest : List Str} {s : DocSt} {a text : Str} {as : List Arg} (hv : Replaced s.env a text)
    (hw : WritesAll as text) (hf : PositionalFirst as) (hk : ((keyed as).map (·.1)).Nodup)
    (hp : ∀ v ∈ positional as, v.head? ≠ some '#' ∧ v.head? ≠ some '*' ∧ v.head? ≠ some '@') :
    P.run ln 0 (('[' :: (a ++ [']'])) :: rest) s =
      P.run (ln + 1) 0 rest { s with argsBuf := some { unnamed := positional as, named := keyed as, tags := [], internalTags := [], subtype := none } } := by
  refine reads_arguments.ok _ ?_
  obtain ⟨tok, h1, h2⟩ := map_ok (hv ln (0 + 1) P.src)
  obtain ⟨p, h3, h4⟩ := C22_round_trip s.env as text hw hf hk hp ln (0 + 1) P.src
  unfold argumentsStep processArgumentsWithVariables
  dsimp only [tokAt]
  rw [h1]
  dsimp only [Bind.bind, Except.bind]
  rw [← h2, h3]
  dsimp only [pure, Except.pure]
  rw [h4]

/-- A line of arguments whose value is the one of a variable. -/
example : Replaced [(c%"x", .str c%"1")] c%"v{x}" c%"v1" ∧ WritesAll [.pos c%"v1"] c%"v1" ∧ PositionalFirst [.pos c%"v1"] :=
  ⟨fun l c src => C17_pieces [(c%"x", .str c%"1")] c%"v{x}" c%"v1"
      (units_append (units_plain (s := c%"v") (by unfold preSpecial; decide)) (units_one (.ref c%"x" (.str c%"1") (span_plain (by decide) (by decide)) (by decide) rfl)))
      (by decide) (not_spacesAfterSpecial (by decide)) l c src,
    .one (.posBare (by unfold Bare; decide) (by decide) (by decide) (by decide)), ⟨[c%"v1"], [], rfl⟩⟩

/-- C27: the condition of a control line is read after its references are replaced, and the only operator is `if`. -/
theorem C27_control_line {P : Parser} {ln : Nat} {rest : List Str} {s : DocSt} {l op sp v text var value : Str} {neg : Bool}
    (hl : SpecialLine l [.tok .CONTROL ['@'], .tok .TEXT op, .skip sp, .tok .TEXT v]) (hv : Replaced s.env v text) (hn : '\n' ∉ text)
    (h : ConditionText text var neg value) :
    (op = c%"if" → P.run ln 0 (l :: rest) s = P.run (ln + 1) 0 rest { s with controlBuf := some ⟨var, neg, value, at_ P.src ln 0 (1 + op.length + sp.length + v.length)⟩ }) ∧
    (op ≠ c%"if" → Lexes P.src (ln + 1) rest → P.run ln 0 (l :: rest) s =
      .error (.parser (.text (c%"Control operator '" ++ op ++ c%"' is not supported.")) (some (at_ P.src ln 0 (1 + op.length + sp.length + v.length))))) := by
  obtain ⟨tok, h1, h2⟩ := map_ok (hv ln (0 + 1 + op.length + sp.length) P.src)
  obtain ⟨c, h3⟩ := C27_reads h hn ln (0 + 1 + op.length + sp.length) P.src
  have hr := reads_control (P := P) (ln := ln) (col := 0) (rest := rest) (s := s) hl
  constructor
  · intro ho
    refine hr.ok _ ?_
    unfold controlStep processConditionWithVariables
    dsimp only [tokAt]
    rw [h1]
    dsimp only [Bind.bind, Except.bind]
    rw [← h2, h3]
    cases neg <;> simp [mkControl, pure, Except.pure, ho]
  · intro ho hlex
    refine hr.err _ ?_ hlex
    unfold controlStep processConditionWithVariables
    dsimp only [tokAt]
    rw [h1]
    dsimp only [Bind.bind, Except.bind]
    rw [← h2, h3]
    simp [mkControl, msgControlOperator, ho]

/-- C37: a node without anything before it (nothing pending) has no labels and, unless it is an include with its own
arguments, no arguments. -/
theorem C37_nothing {P : Parser} (hP : Clean P) {ln : Nat} {ls rest : List Str} {s s' : DocSt} {k : Kind}
    {a : NodeArgs} {x : Except Err DocSt} (hc : Construct P s ln 0 ls rest k a x) (hr : P.run ln 0 (ls ++ rest) s = .ok s')
    (hk : k = .incl → a = {}) (h1 : s.argsBuf = none) (h2 : s.labelBuf = []) (h3 : s.controlBuf = none) :
    ∃ s2 n, P.run (ln + ls.length) 0 rest s2 = .ok s' ∧ s2.nodes = s.nodes ++ [n] ∧ n.labels = [] ∧ n.args = ({} : NodeArgs) := by
  obtain ⟨s2, h4, h5, h6⟩ := attached_outcome (pre := []) hP .nil (by simpa using hc) hr
  have ha : a = {} := by
    rcases construct_args hc with h | ⟨h, _⟩
    · rw [h, args, h1]; rfl
    · exact hk h
  have hd : ¬ Diverted k a := by
    rw [ha]
    rintro ⟨_, ⟨v, _, h⟩ | ⟨⟨v, _, h⟩, _⟩⟩ <;> cases h
  obtain ⟨keep, h7, _, h8, h9⟩ := h6.node hd
  unfold Spec.allowed at h7
  rw [show ({ s with env := s2.env } : DocSt).controlBuf = s.controlBuf from rfl, h3] at h7
  cases h7
  obtain ⟨n, h10, h11, h12⟩ := h9 rfl
  exact ⟨s2, n, by simpa using h5, h10, h11.trans h2, h12.none ha⟩

/-- C38: the last control before a construct decides about it. `truth` is the value of the condition when the construct is finished
(for all constructs but blocks the variables are still those before the construct; the content of a block is read first). If it is
true the node is appended, if it is false nothing is. In both cases no control (and nothing else) is pending afterwards.
What is missing to the full property: a block that is a footnote or the member of a group ignores its control and leaves it pending,
see `C38_leak` and `C38_diverted`. -/
theorem C38_control_partial {P : Parser} (hP : Clean P) {ln : Nat} {pre ls rest : List Str} {s s1 s' : DocSt} {as : List Attached} {k : Kind}
    {a : NodeArgs} {x : Except Err DocSt} {c : Control} (hpre : Prelude P (ls ++ rest) ln 0 pre s as s1)
    (hc : Construct P s1 (ln + pre.length) 0 ls rest k a x) (hr : P.run ln 0 (pre ++ ls ++ rest) s = .ok s') (hd : ¬ Diverted k a)
    (hcon : lastControl s.controlBuf as = some c) :
    ∃ s2 truth, P.run (ln + pre.length + ls.length) 0 rest s2 = .ok s' ∧ conditionValue s2.env c.var c.negated c.value (some c.ctx) = .ok truth ∧
      (k ≠ .block → s2.env = s1.env) ∧ s2.controlBuf = none ∧ s2.argsBuf = none ∧ s2.labelBuf = [] ∧
      (truth = true → ∃ n, s2.nodes = s.nodes ++ [n]) ∧ (truth = false → s2.nodes = s.nodes) := by
  obtain ⟨s2, h1, h2, h3⟩ := attached_outcome hP hpre hc hr
  obtain ⟨p1, p2, p3, p4⟩ := prelude_pending hpre
  obtain ⟨keep, h4, h5, h6, h7⟩ := h3.node hd
  refine ⟨s2, keep, h2, ?_, h3.env, h5, h3.args, h3.labels, ?_, ?_⟩
  · unfold Spec.allowed at h4
    rw [show ({ s1 with env := s2.env } : DocSt).controlBuf = s1.controlBuf from rfl, p2, hcon] at h4
    rw [← h4]
    unfold conditionValue Control.process
    dsimp only
    cases Dict.get? s2.env c.var with
    | none => rfl
    | some v => cases c.negated <;> simp
  · intro e
    obtain ⟨n, h8, _⟩ := h7 e
    exact ⟨n, by rw [h8, p4]⟩
  · intro e; rw [h6 e, p4]

/-- C38: a construct without control, pending or of its own, is kept. -/
theorem C38_uncontrolled {P : Parser} (hP : Clean P) {ln : Nat} {pre ls rest : List Str} {s s1 s' : DocSt} {as : List Attached} {k : Kind}
    {a : NodeArgs} {x : Except Err DocSt} (hpre : Prelude P (ls ++ rest) ln 0 pre s as s1)
    (hc : Construct P s1 (ln + pre.length) 0 ls rest k a x) (hr : P.run ln 0 (pre ++ ls ++ rest) s = .ok s') (hd : ¬ Diverted k a)
    (hcon : lastControl s.controlBuf as = none) :
    ∃ s2 n, P.run (ln + pre.length + ls.length) 0 rest s2 = .ok s' ∧ s2.nodes = s.nodes ++ [n] ∧ s2.controlBuf = none := by
  obtain ⟨s2, h1, h2, h3⟩ := attached_outcome hP hpre hc hr
  obtain ⟨p1, p2, p3, p4⟩ := prelude_pending hpre
  obtain ⟨keep, h4, h5, h6, h7⟩ := h3.node hd
  unfold Spec.allowed at h4
  rw [show ({ s1 with env := s2.env } : DocSt).controlBuf = s1.controlBuf from rfl, p2, hcon] at h4
  cases h4
  obtain ⟨n, h8, _⟩ := h7 rfl
  exact ⟨s2, n, h2, by rw [h8, p4], h5⟩

/-- The full C38 is false: a footnote or a member of a group leaves the control pending. -/
theorem C38_diverted {P : Parser} (hP : Clean P) {ln : Nat} {pre ls rest : List Str} {s s1 s' : DocSt} {as : List Attached} {k : Kind}
    {a : NodeArgs} {x : Except Err DocSt} (hpre : Prelude P (ls ++ rest) ln 0 pre s as s1)
    (hc : Construct P s1 (ln + pre.length) 0 ls rest k a x) (hr : P.run ln 0 (pre ++ ls ++ rest) s = .ok s') (hd : Diverted k a) :
    ∃ s2, P.run (ln + pre.length + ls.length) 0 rest s2 = .ok s' ∧ s2.nodes = s.nodes ∧
      s2.controlBuf = lastControl s.controlBuf as := by
  obtain ⟨s2, h1, h2, h3⟩ := attached_outcome hP hpre hc hr
  obtain ⟨p1, p2, p3, p4⟩ := prelude_pending hpre
  obtain ⟨h4, h5⟩ := h3.diverted hd
  exact ⟨s2, h2, h4.trans p4, h5.trans p2⟩

/-- A document in which the control of a footnote drops the paragraph after it. -/
theorem C38_leak : nodeKinds (parseDoc {} 20 c%":flag:yes\n@if flag==no\n[footnote=a]\n----\nx\n----\n\ny") = some [] ∧
    nodeKinds (parseDoc {} 20 c%":flag:yes\n[footnote=a]\n----\nx\n----\n\ny") = some [.paragraph] := by decide +kernel

/-- A line of arguments, a blank line, a control that holds, then a rule. -/
example : ∃ s1 as x, Prelude (parser {} 20 none) ([c%"---"] ++ []) 0 0 [c%"[k=v]", c%"", c%"@if x==1"] { env := [(c%"x", .str c%"1")] } as s1 ∧
    Construct (parser {} 20 none) s1 3 0 [c%"---"] [] .rule (args s1) x ∧ ¬ Diverted .rule (args s1) ∧
    lastControl none as = some ⟨c%"x", false, c%"1", ⟨2, 0, 2, 8, none⟩⟩ ∧ lastArgs none as ≠ none := by
  obtain ⟨p, hp⟩ : ∃ p, processArgumentsWithVariables [(c%"x", .str c%"1")] (tokAt .TEXT c%"k=v" 0 1 none) = .ok p := ⟨_, rfl⟩
  have hl : SpecialLine c%"@if x==1" [.tok .CONTROL ['@'], .tok .TEXT c%"if", .skip [' '], .tok .TEXT c%"x==1"] :=
    ⟨.control c%"if" [' '] c%"x==1" (by decide) (by decide) (by unfold Spaces; decide) (by unfold NoHead; intro c r h; cases h; decide)
      (by unfold NoHead; intro c r h; cases h; decide), by unfold Spaces; decide, by intro ch h; simp at h⟩
  have hv : Replaced [(c%"x", .str c%"1")] c%"x==1" c%"x==1" :=
    fun l c src => C17_pieces _ _ _ (units_plain (s := c%"x==1") (by unfold preSpecial; decide)) (by decide) (not_spacesAfterSpecial (by decide)) l c src
  exact ⟨_, _, _, .arguments (a := c%"k=v") hp (.blank (by unfold Spaces; decide) (.control hl hv (by decide)
    (.mk (var := c%"x") (sp1 := []) (sp2 := []) (value := c%"1") false (by decide) (by decide) (by unfold Spaces; decide) (by unfold Spaces; decide) (by decide)) .nil)),
    .rule, not_diverted (by simp), rfl, by simp [lastArgs]⟩

/-! ## C58 — paragraphs -/

theorem paragraphLines_span {P : Parser} {env : Env} {ln col : Nat} {ls : List Str} {ns : List Node} (h : ParagraphLines P env ln col ls ns) :
    ns.map (·.data) = ls.map (fun _ => .paragraphLine) ∧ (∀ n ∈ ns.head?, n.ctx.startLine = ln ∧ n.ctx.endLine = ln) ∧
      ∀ n ∈ ns.getLast?, n.ctx.startLine = ln + ls.length - 1 ∧ n.ctx.endLine = ln + ls.length - 1 := by
  induction h with
  | nil => simp
  | @cons ln col l ls content ns h hs ih =>
    obtain ⟨i1, i2, i3⟩ := ih
    refine ⟨?_, ?_, ?_⟩
    · rw [List.map_cons, i1]; rfl
    · intro n hn; cases hn; exact ⟨rfl, rfl⟩
    · intro n hn
      cases hs with
      | nil => cases hn; exact ⟨rfl, rfl⟩
      | @cons _ _ l' ls' content' ns' h' hs' =>
        rw [List.getLast?_cons_cons] at hn
        obtain ⟨e1, e2⟩ := i3 n hn
        rw [e1, e2]
        simp; omega

/-- C58: some text lines, followed by something that is not a text line (a blank line, for instance). If the document is read
successfully then one node is finished, a paragraph with one line per text line in order, each with the parse of its line, and
reading goes on after these lines. The paragraph starts at the first line and ends at the last one, and has the pending arguments
and labels; it is appended unless the pending control forbids it. -/
theorem C58_paragraph {P : Parser} {ln col : Nat} {ls rest : List Str} {s s' : DocSt} (hl : ∀ l ∈ ls, TextLine l) (hne : ls ≠ [])
    (hr : NoText rest) (h : P.run ln col (ls ++ rest) s = .ok s') :
    ∃ s1 ctx ns keep, OnlyMentions s s1 ∧ ParagraphLines P s.env ln col ls ns ∧ Spec.allowed s = .ok keep ∧
      ctx.startLine = ln ∧ ctx.endLine = ln + ls.length - 1 ∧
      P.run (ln + ls.length) 0 rest (put s1 keep (Node.new .paragraph ctx ns (args s) s.labelBuf)) = .ok s' := by
  obtain ⟨s2, h1, h2⟩ := Reads.success (reads_paragraph (P := P) (ln := ln) (col := col) (s := s) hl hne hr) h
  obtain ⟨r, h3, h4⟩ := bind_ok_except h1
  obtain ⟨c, h5, h6⟩ := bind_ok_except h4
  obtain ⟨keep, h7, h8⟩ := bind_ok_except h6
  cases h8
  obtain ⟨o, pl⟩ := inlineLines_spec h3
  obtain ⟨_, p2, p3⟩ := paragraphLines_span pl
  refine ⟨r.2, c, r.1, keep, o, pl, by rw [← o.allowed, h7], ?_, ?_, h2⟩
  all_goals
    unfold spanOf at h5
    split at h5
    · rename_i a b ha hb
      cases h5
      have q1 := p2 a ha
      have q2 := p3 b hb
      have q3 : 0 < ls.length := List.length_pos_iff.2 hne
      simp only [Context.merge, q1.1, q1.2, q2.1, q2.2]
      omega
    · cases h5

theorem inlineLines_of_inlines (src : Option Str) {env : Env} {ls : List Str} {nss : List (List Node)} (h : InlinesAll env ls nss) :
    ∀ (s : DocSt) (ln col : Nat), s.env = env → ∃ N ms s', anonList ms = lineNodes nss ∧ ∀ P : Parser, P.src = src → N ≤ P.fuel →
      P.inlineLines s (textToks P.src ln col ls) = .ok (ms, s') := by
  induction h with
  | nil => intro s ln col _; exact ⟨0, [], s, rfl, fun P _ _ => rfl⟩
  | @cons l ls ns nss h hs ih =>
    intro s ln col he
    subst he
    obtain ⟨N, ms, s1, a1, hN⟩ := inline_of_inlines h (at_ src ln col l.length)
    have o := inline_only (hN ⟨{}, fun _ => .error .fuel, N, src⟩ (Nat.le_refl _))
    obtain ⟨M, ms', s2, a2, hM⟩ := ih s1 (ln + 1) 0 o.env
    refine ⟨max N M, Node.new .paragraphLine (at_ src ln col l.length) ms :: ms', s2, ?_, fun P hsrc hP => ?_⟩
    · simp only [lineNodes, List.map_cons, anonList]
      rw [a2]
      simp only [lineNodes, Node.new, Node.anon, node, a1, NodeData.anon]
    · subst hsrc
      have e1 := hN P (by omega)
      have e2 := hM P rfl (by omega)
      have e3 : ∀ r rs, P.inline s l (at_ P.src ln col l.length) = .ok r → P.inlineLines r.2 (textToks P.src (ln + 1) 0 ls) = .ok rs →
          P.inlineLines s (textToks P.src ln col (l :: ls)) = .ok (Node.new .paragraphLine (at_ P.src ln col l.length) r.1 :: rs.1, rs.2) := by
        intro r rs h1 h2
        rw [textToks, Parser.inlineLines]
        change (do
          let r ← P.inline s l (at_ P.src ln col l.length)
          let rs ← P.inlineLines r.2 (textToks P.src (ln + 1) 0 ls)
          return (Node.new .paragraphLine (at_ P.src ln col l.length) r.1 :: rs.1, rs.2) : Except Err _) = _
        rw [h1]
        change (do
          let rs ← P.inlineLines r.2 (textToks P.src (ln + 1) 0 ls)
          return (Node.new .paragraphLine (at_ P.src ln col l.length) r.1 :: rs.1, rs.2) : Except Err _) = _
        rw [h2]; rfl
      exact e3 _ _ e1 e2

/-- C58: if each of the lines can be parsed, the paragraph comes out: its lines hold exactly these parses (up to positions and
identity numbers), for every large enough recursion budget. -/
theorem C58_parsed (src : Option Str) {ln col : Nat} {ls rest : List Str} {nss : List (List Node)} {s : DocSt} {keep : Bool}
    (hl : ∀ l ∈ ls, TextLine l) (hne : ls ≠ []) (hr : NoText rest) (h : InlinesAll s.env ls nss) (hk : Spec.allowed s = .ok keep) :
    ∃ N s1 ctx ns, anonList ns = lineNodes nss ∧ OnlyMentions s s1 ∧ ∀ P : Parser, P.src = src → N ≤ P.fuel →
      P.run ln col (ls ++ rest) s =
        P.run (ln + ls.length) 0 rest (put s1 keep (Node.new .paragraph ctx ns (args s) s.labelBuf)) := by
  obtain ⟨N, ns, s1, a1, hN⟩ := inlineLines_of_inlines src h s ln col rfl
  have o := (inlineLines_spec (hN ⟨{}, fun _ => .error .fuel, N, src⟩ rfl (Nat.le_refl _))).1
  have hns : ns ≠ [] := by
    rintro rfl
    cases h with
    | nil => exact hne rfl
    | cons _ _ => cases a1
  obtain ⟨ctx, hctx⟩ : ∃ ctx, spanOf ns = .ok ctx := by
    unfold spanOf
    cases ns with
    | nil => exact absurd rfl hns
    | cons n ns => rw [List.head?_cons, List.getLast?_cons]; exact ⟨_, rfl⟩
  refine ⟨N, s1, ctx, ns, a1, o, fun P hsrc hP => ?_⟩
  refine (reads_paragraph (P := P) (ln := ln) (col := col) (s := s) hl hne hr).ok _ ?_
  unfold Parser.paragraphStep
  rw [hN P hsrc hP]
  simp only [Bind.bind, Except.bind]
  rw [hctx]
  dsimp only
  rw [o.allowed, hk]
  rfl

/-! ## C59 — headers -/

theorem replicate_signs_ne {n : Nat} {sp text : Str} (h : HeaderText sp text) (ch : Char) : headerLine (n + 1) sp text ≠ [ch, ch, ch, ch] := by
  intro e
  have h0 : ch = '=' := by
    unfold headerLine at e
    rw [List.replicate_succ] at e
    simp at e
    exact e.1.symm
  subst h0
  have hall : ∀ c ∈ headerLine (n + 1) sp text, c = '=' := by rw [e]; simp
  obtain ⟨h1, h2, h3, h4⟩ := h
  cases text with
  | nil => exact h2 rfl
  | cons c r =>
    have hc : c = '=' := hall c (by simp [headerLine])
    cases sp with
    | nil => exact h4 rfl (by rw [hc]; rfl)
    | cons d sp =>
      have hd : d = '=' := hall d (by simp [headerLine])
      have := h1 d (by simp)
      rw [hd] at this
      exact absurd this (by decide)

theorem header_line {n : Nat} {sp text : Str} (h : HeaderText sp text) :
    SpecialLine (headerLine (n + 1) sp text) [.tok .HEADER (List.replicate (n + 1) '='), .skip sp, .tok .TEXT text] := by
  refine ⟨?_, ?_, replicate_signs_ne h⟩
  · refine .header n sp text h.spaces h.nonempty ?_ ?_
    · rintro c r rfl
      have := h.noSpace
      simp at this ⊢
      exact this
    · intro c r e
      cases sp with
      | nil =>
        have := h.noSign rfl
        rw [List.nil_append] at e
        subst e
        simp at this ⊢
        exact this
      | cons d sp =>
        have := h.spaces d (by simp)
        cases e
        subst this
        decide
  · intro hs
    exact absurd (hs '=' (by simp [headerLine])) (by decide)

/-- C59: a line of `n + 1` equal signs and a text, read successfully: the header has this level and the parse of the text (which is
not empty), the pending labels, and the pending arguments without the id and the name that it takes from them. If the pending control
(if any) allows it, it is appended to the document and registered as the last entry of the table of contents; otherwise neither happens.
Reading goes on with the next line. -/
theorem C59_header {P : Parser} {ln col n : Nat} {sp text : Str} {rest : List Str} {s s' : DocSt} (ht : HeaderText sp text)
    (h : P.run ln col (headerLine (n + 1) sp text :: rest) s = .ok s') :
    ∃ s1 ctx content keep, P.run (ln + 1) 0 rest s1 = .ok s' ∧ Spec.allowed s = .ok keep ∧
      HoldsParse P s.env text (at_ P.src ln (col + (n + 1) + sp.length) text.length) content ∧ content ≠ [] ∧
      (keep = true → s1.nodes = s.nodes ++ [Node.new (.header s.uid (n + 1) (Dict.get? (args s).named c%"internal_id") (Dict.get? (args s).named c%"name"))
          ctx content { args s with named := Dict.erase (Dict.erase (args s).named c%"internal_id") c%"name" } s.labelBuf] ∧
        s1.tocHeaders = s.tocHeaders ++ [(s.uid, n + 1)]) ∧
      (keep = false → s1.nodes = s.nodes ∧ s1.tocHeaders = s.tocHeaders) := by
  obtain ⟨s1, h1, h2⟩ := Reads.success (reads_header (P := P) (ln := ln) (col := col) (rest := rest) (s := s) (header_line ht)) h
  rw [List.length_replicate] at h1
  obtain ⟨r, h3, h4⟩ := bind_ok_except h1
  obtain ⟨c, h5, h6⟩ := bind_ok_except h4
  obtain ⟨keep, h7, h8⟩ := bind_ok_except h6
  have o := inline_only h3
  have hname : Dict.get? (Dict.erase (args s).named c%"internal_id") c%"name" = Dict.get? (args s).named c%"name" := by
    rw [Dict.get?_erase]; rfl
  rw [hname] at h8
  have hcontent : r.1 ≠ [] := by
    intro e
    rw [e] at h5
    cases h5
  have hkeep : Spec.allowed s = .ok keep := by
    have := o.allowed
    rw [h7] at this
    exact this.symm
  refine ⟨s1, (at_ P.src ln col (n + 1)).merge c, r.1, keep, h2, hkeep, ⟨{ s with uid := s.uid + 1 }, r.2, rfl, h3⟩, hcontent, ?_, ?_⟩
  · intro hk
    rw [hk] at h8
    obtain ⟨s2, h9, h10⟩ := bind_ok_except h8
    cases h10
    have e : s2.nodes = s.nodes ∧ s2.tocHeaders = s.tocHeaders := by
      have e1 : r.2.nodes = s.nodes := o.nodes
      have e2 : r.2.tocHeaders = s.tocHeaders := by rw [o.rest]
      unfold nameHeader at h9
      split at h9
      · cases h9; exact ⟨e1, e2⟩
      · split at h9
        · cases h9
        · cases h9; exact ⟨e1, e2⟩
    constructor
    · change s2.nodes ++ _ = _
      rw [e.1]
    · change s2.tocHeaders ++ _ = _
      rw [e.2]
  · intro hk
    rw [hk] at h8
    cases h8
    exact ⟨o.nodes, by change r.2.tocHeaders = _; rw [o.rest]⟩

/-- C59: if the text can be parsed and gives something, the header comes out (unless its name is taken): its content is exactly
this parse, up to positions and identity numbers. -/
theorem C59_parsed {ln col n : Nat} {src : Option Str} {sp text : Str} {ns : List Node} {rest : List Str} {s : DocSt} (ht : HeaderText sp text)
    (hp : Inlines s.env text ns) (hne : ns ≠ []) (hk : Spec.allowed s = .ok true)
    (hn : ∀ nm, Dict.get? (args s).named c%"name" = some nm → Dict.has s.linkHeaders nm = false) :
    ∃ N s1 ctx content, anonList content = ns ∧
      s1.nodes = s.nodes ++ [Node.new (.header s.uid (n + 1) (Dict.get? (args s).named c%"internal_id") (Dict.get? (args s).named c%"name"))
          ctx content { args s with named := Dict.erase (Dict.erase (args s).named c%"internal_id") c%"name" } s.labelBuf] ∧
      s1.tocHeaders = s.tocHeaders ++ [(s.uid, n + 1)] ∧
      ∀ P : Parser, P.src = src → N ≤ P.fuel → P.run ln col (headerLine (n + 1) sp text :: rest) s = P.run (ln + 1) 0 rest s1 := by
  obtain ⟨N, ms, s1, a1, hN⟩ := inline_of_inlines (s := { s with uid := s.uid + 1 }) hp (at_ src ln (col + (n + 1) + sp.length) text.length)
  have o := inline_only (hN ⟨{}, fun _ => .error .fuel, N, src⟩ (Nat.le_refl _))
  have hms : ms ≠ [] := by rintro rfl; exact hne a1.symm
  obtain ⟨ctx, hctx⟩ : ∃ ctx, spanOf ms = .ok ctx := by
    unfold spanOf
    cases ms with
    | nil => exact absurd rfl hms
    | cons n ns => rw [List.head?_cons, List.getLast?_cons]; exact ⟨_, rfl⟩
  have hname : Dict.get? (Dict.erase (args s).named c%"internal_id") c%"name" = Dict.get? (args s).named c%"name" := by
    rw [Dict.get?_erase]; rfl
  obtain ⟨s2, h2, e2⟩ : ∃ s2, nameHeader s1 (Dict.get? (args s).named c%"name") s.uid ((at_ src ln col (n + 1)).merge ctx) = .ok s2 ∧ s2 = { s1 with linkHeaders := s2.linkHeaders } := by
    unfold nameHeader
    cases htr : truthy (Dict.get? (args s).named c%"name") with
    | none => exact ⟨s1, rfl, rfl⟩
    | some nm =>
      have := hn nm (truthy_some.1 htr).2
      have e : s1.linkHeaders = s.linkHeaders := by rw [o.rest]
      dsimp only
      rw [e, this]
      exact ⟨_, rfl, rfl⟩
  refine ⟨N, { put s2 true (Node.new (.header s.uid (n + 1) (Dict.get? (args s).named c%"internal_id") (Dict.get? (args s).named c%"name"))
      ((at_ src ln col (n + 1)).merge ctx) ms { args s with named := Dict.erase (Dict.erase (args s).named c%"internal_id") c%"name" } s.labelBuf) with
      tocHeaders := s2.tocHeaders ++ [(s.uid, n + 1)], objs := s2.objs ++ [Node.new (.header s.uid (n + 1) (Dict.get? (args s).named c%"internal_id") (Dict.get? (args s).named c%"name"))
      ((at_ src ln col (n + 1)).merge ctx) ms { args s with named := Dict.erase (Dict.erase (args s).named c%"internal_id") c%"name" } s.labelBuf] },
    (at_ src ln col (n + 1)).merge ctx, ms, a1, ?_, ?_, fun P hsrc hP => ?_⟩
  · change s2.nodes ++ _ = _
    rw [e2]
    change s1.nodes ++ _ = _
    rw [o.nodes]
  · change s2.tocHeaders ++ _ = _
    rw [e2]
    change s1.tocHeaders ++ _ = _
    rw [o.rest]
  · subst hsrc
    refine (reads_header (P := P) (ln := ln) (col := col) (rest := rest) (s := s) (header_line ht)).ok _ ?_
    rw [List.length_replicate]
    unfold Parser.headerStep
    rw [hN P hP]
    simp only [Bind.bind, Except.bind]
    rw [hctx]
    dsimp only
    have : Spec.allowed s1 = .ok true := by rw [o.allowed]; exact hk
    rw [this, hname]
    dsimp only
    simp only [↓reduceIte]
    rw [h2]
    rfl

/-! ## C60 — the order of the nodes -/

/-- The nodes so far stay as they are, at the start. -/
theorem nodes_frame (nested : NestedParser) {ok : Option Str → Prop} : Frame (fun s s' => s.nodes <+: s'.nodes) nested ok where
  refl s := List.prefix_rfl
  trans h1 h2 := h1.trans h2
  args _ _ _ := List.prefix_rfl
  labels _ _ := List.prefix_rfl
  control _ _ := List.prefix_rfl
  latest _ _ := List.prefix_rfl
  env _ _ _ _ := List.prefix_rfl
  node _ _ := List.prefix_append _ _
  text _ _ _ _ _ _ _ _ := List.prefix_rfl
  fresh _ := List.prefix_rfl
  name _ _ := List.prefix_rfl
  header _ _ _ := List.prefix_rfl
  body _ _ := List.prefix_rfl
  group _ _ := List.prefix_rfl
  block _ _ _ _ _ _ _ _ _ := List.prefix_rfl
  merge _ _ _ _ := List.prefix_rfl
  forbid _ _ := List.prefix_rfl
  mau _ _ _ _ _ _ _ _ _ _ _ := List.prefix_rfl
  tocNode _ _ := List.prefix_rfl
  footnoteList _ _ := List.prefix_rfl
  groupNode _ _ _ := List.prefix_rfl

/-- C60: reading further lines never alters or removes nodes already produced: new ones are added after them. -/
theorem C60_append_only {P : Parser} {ln col : Nat} {ls : List Str} {s s' : DocSt} (h : P.run ln col ls s = .ok s') : s.nodes <+: s'.nodes :=
  run_keeps (nodes_frame P.nested) (fun _ _ => List.prefix_rfl) h

/-- C60: a document split at an empty line. The first part gives its nodes (the state `s1`), and the second part is read in this
state, so that its nodes come after those of the first part. -/
theorem C60_order {P : Parser} {ln col : Nat} {p q : List Str} {s s1 s' : DocSt} (hp : P.run ln col (p ++ [[]]) s = .ok s1)
    (h : P.run ln col (p ++ [] :: q) s = .ok s') :
    P.run (ln + p.length + 1) 0 q s1 = .ok s' ∧ s.nodes <+: s1.nodes ∧ s1.nodes <+: s'.nodes := by
  have e := (run_append hp).symm.trans h
  exact ⟨e, C60_append_only hp, C60_append_only e⟩

/-- C60: each construct adds at most one node, at the end. -/
theorem C60_construct {P : Parser} (hP : Clean P) {ln : Nat} {pre ls rest : List Str} {s s1 s' : DocSt} {as : List Attached} {k : Kind}
    {a : NodeArgs} {x : Except Err DocSt} (hpre : Prelude P (ls ++ rest) ln 0 pre s as s1)
    (hc : Construct P s1 (ln + pre.length) 0 ls rest k a x) (hr : P.run ln 0 (pre ++ ls ++ rest) s = .ok s') :
    ∃ s2, P.run (ln + pre.length + ls.length) 0 rest s2 = .ok s' ∧ s2.nodes <+: s'.nodes ∧
      (s2.nodes = s.nodes ∨ ∃ n, s2.nodes = s.nodes ++ [n]) := by
  obtain ⟨s2, h1, h2, h3⟩ := attached_outcome hP hpre hc hr
  obtain ⟨p1, p2, p3, p4⟩ := prelude_pending hpre
  refine ⟨s2, h2, C60_append_only h2, ?_⟩
  by_cases hd : Diverted k a
  · exact .inl ((h3.diverted hd).1.trans p4)
  · obtain ⟨keep, _, _, h4, h5⟩ := h3.node hd
    cases keep with
    | false => exact .inl ((h4 rfl).trans p4)
    | true =>
      obtain ⟨n, h6, _⟩ := h5 rfl
      exact .inr ⟨n, by rw [h6, p4]⟩

end Mau
