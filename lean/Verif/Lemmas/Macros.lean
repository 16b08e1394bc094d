import Verif.Spec.Macros
import Verif.Lemmas.InlineRun
import Verif.Props.Arguments
import Verif.Props.Conditions

/-!
# The macros mean what the specification says
-/

set_option linter.unusedSimpArgs false

namespace Mau

open Spec

theorem get?_lookup {α : Type} (d : Dict α) (k : Str) : Dict.get? d k = d.lookup k := by
  induction d with
  | nil => rfl
  | cons kv d ih =>
    obtain ⟨k', v⟩ := kv
    rw [Dict.get?, List.lookup_cons]
    by_cases h : k' = k
    · subst h; simp
    · have : (k == k') = false := by simpa using fun h' => h h'.symm
      simp only [h, if_false, this, ih]

theorem get?_map {α β : Type} (f : α → β) (d : Dict α) (k : Str) :
    Dict.get? (d.map fun kv => (kv.1, f kv.2)) k = (Dict.get? d k).map f := by
  induction d with
  | nil => rfl
  | cons kv d ih =>
    obtain ⟨k', v⟩ := kv
    simp only [List.map_cons, Dict.get?]
    split
    · rfl
    · exact ih

/-- The arguments of a macro, after the parameters were given their names. -/
theorem macro_args {env : Env} {args : Str} {as : List Arg} (h : PlainArgs args as) (t : Token) (ht : t.value = args) :
    ∃ p, processArguments env t = .ok p ∧ p.arguments = { unnamed := positional as, named := keyed as } ∧
      ∀ names : List Str, names.Nodup →
        (∀ n ∈ names, (Dict.get? (p.setNames names).named n).map (·.value) = argument names as n) ∧
        (p.setNames names).unnamed.map (·.value) = leftover names as := by
  obtain ⟨p, h1, h2⟩ := C22_round_trip env as args h.writes h.first h.keys h.plain t.ctx.startLine t.ctx.startColumn t.ctx.source
  refine ⟨p, by unfold processArguments; rw [ht]; exact h1, h2, ?_⟩
  have hu : p.unnamed.map (·.value) = positional as := congrArg NodeArgs.unnamed h2
  have hk : p.named.map (fun kv => (kv.1, kv.2.value)) = keyed as := congrArg NodeArgs.named h2
  have hget : ∀ n, (Dict.get? p.named n).map (·.value) = (keyed as).lookup n := by
    intro n
    rw [← get?_lookup, ← hk, get?_map (fun v : CtxText => v.value)]
  have hfree : ∀ names : List Str, names.filter (fun n => !Dict.has p.named n) = unkeyed names as := by
    intro names
    apply List.filter_congr
    intro n _
    rw [← hget n]
    simp only [Dict.has]
    cases Dict.get? p.named n <;> rfl
  intro names hn
  obtain ⟨k1, k2, k3, k4⟩ := C26_set_names p.unnamed p.named names hn
  rw [hfree] at k2 k3 k4
  have hnamed : (p.setNames names).named = (setNames p.unnamed p.named names).2 := rfl
  have hunnamed : (p.setNames names).unnamed = (setNames p.unnamed p.named names).1 := rfl
  constructor
  · intro n hnn
    rw [hnamed]
    unfold argument
    cases hl : (keyed as).lookup n with
    | some v =>
      have := hget n
      rw [hl] at this
      cases hg : Dict.get? p.named n with
      | none => rw [hg] at this; cases this
      | some w => rw [hg] at this; rw [k1 n w hg]; exact this
    | none =>
      have hg := hget n
      rw [hl] at hg
      have hg : Dict.get? p.named n = none := by
        cases hx : Dict.get? p.named n with
        | none => rfl
        | some w => rw [hx] at hg; cases hg
      have hmem : n ∈ unkeyed names as := by
        unfold unkeyed; rw [List.mem_filter]; exact ⟨hnn, by rw [hl]; rfl⟩
      have hidx : (unkeyed names as)[(unkeyed names as).idxOf n]? = some n := by
        have hlt := List.idxOf_lt_length_of_mem hmem
        rw [List.getElem?_eq_getElem hlt, List.getElem_idxOf]
      simp only
      rw [← hu, List.getElem?_map]
      cases hx : p.unnamed[(unkeyed names as).idxOf n]? with
      | some v => rw [k2 _ _ _ hidx hx]
      | none =>
        cases hy : Dict.get? (setNames p.unnamed p.named names).2 n with
        | none => rfl
        | some v =>
          exfalso
          rcases k3 n v hy with h' | ⟨i, h3, h4⟩
          · rw [hg] at h'; cases h'
          · have hnd : (unkeyed names as).Nodup := hn.filter _
            have : (unkeyed names as).idxOf n = i := by
              obtain ⟨hi, he⟩ := List.getElem?_eq_some_iff.1 h3
              rw [← he]
              exact List.Nodup.idxOf_getElem hnd i hi
            rw [this, h4] at hx
            cases hx
  · rw [hunnamed, k4, leftover, ← hu, List.map_drop]

theorem macroBody_eq {env : Env} {p : ParsedArgs} {nameTok argsTok : Token} {cx : Context} {st : TextSt}
    (h : processArguments env argsTok = .ok p) :
    macroBody env nameTok argsTok cx st = macroDispatch env (strP env) nameTok p cx st := by
  unfold macroBody
  rw [h]
  rfl

section dispatch
variable {env : Env} {sub : Str → Context → PM (List Node)} {p : ParsedArgs} {t : Token} {cx : Context}

theorem dispatch_link (h : t.value = c%"link") : macroDispatch env sub t p cx = macroLinkFn sub p cx := by
  simp [macroDispatch, h, startsWith]
theorem dispatch_mailto (h : t.value = c%"mailto") : macroDispatch env sub t p cx = macroMailtoFn sub p cx := by
  simp [macroDispatch, h, startsWith]
theorem dispatch_header (h : t.value = c%"header") : macroDispatch env sub t p cx = macroHeaderFn sub p cx := by
  simp [macroDispatch, h, startsWith]
theorem dispatch_class (h : t.value = c%"class") : macroDispatch env sub t p cx = macroClassFn sub p cx := by
  simp [macroDispatch, h, startsWith]
theorem dispatch_image (h : t.value = c%"image") : macroDispatch env sub t p cx = macroImageFn p cx := by
  simp [macroDispatch, h, startsWith]
theorem dispatch_unicode (h : t.value = c%"unicode") : macroDispatch env sub t p cx = macroUnicodeFn p cx := by
  simp [macroDispatch, h, startsWith]
theorem dispatch_raw (h : t.value = c%"raw") : macroDispatch env sub t p cx = macroRawFn p cx := by
  simp [macroDispatch, h, startsWith]
theorem dispatch_footnote (h : t.value = c%"footnote") : macroDispatch env sub t p cx = macroFootnoteFn p cx := by
  simp [macroDispatch, h, startsWith]
theorem dispatch_if {c : Str} (h : t.value = c%"if" ++ c) : macroDispatch env sub t p cx = macroControlFn env sub t p cx := by
  simp [macroDispatch, h, startsWith]
theorem dispatch_other (h1 : t.value ∉ macroNames) (h2 : startsWith t.value c%"if" = false) :
    macroDispatch env sub t p cx = pure [Node.new (.macro t.value) cx [] p.arguments] := by
  simp only [macroNames, List.mem_cons, List.not_mem_nil, or_false, not_or] at h1
  simp [macroDispatch, h1, h2]

end dispatch

theorem mandatory_some {p : ParsedArgs} {key : Str} {m : Msg} {cx : Context} {v : CtxText} (h : Dict.get? p.named key = some v) (st : TextSt) :
    mandatory p key m cx st = .ok v st := by
  unfold mandatory; rw [h]; rfl

theorem mandatory_none {p : ParsedArgs} {key : Str} {m : Msg} {cx : Context} (h : Dict.get? p.named key = none) (st : TextSt) :
    mandatory p key m cx st = .err (.parser m (some cx)) := by
  unfold mandatory; rw [h]; rfl

theorem map_value_some {o : Option CtxText} {v : Str} (h : o.map (·.value) = some v) : ∃ c, o = some ⟨v, c⟩ := by
  cases o with
  | none => cases h
  | some x => cases h; exact ⟨x.ctx, rfl⟩

theorem map_value_none {o : Option CtxText} (h : o.map (·.value) = none) : o = none := by
  cases o with
  | none => rfl
  | some x => cases h

/-- The optional text of a macro. -/
theorem textOr_parses {env : Env} {o : Option CtxText} {text : Str} {c : Context} {ns d : List Node} (ho : o = some ⟨text, c⟩)
    (h : ParsesTo env text ns) (st : TextSt) :
    ∃ ns' k, textOr (strP env) o d st = .ok ns' { st with uid := k } ∧ anonList ns' = ns := by
  subst ho
  exact (ParsesTo.denotes h).sub c st

theorem anon_new (d : NodeData) (cx : Context) (content : List Node) (a : NodeArgs) :
    (Node.new d cx content a).anon = node d.anon (anonList content) a := rfl

theorem conditionValue_ok {env : Env} {var value : Str} {neg b : Bool} (h : conditionValue env var neg value = .ok b)
    (place : Option Context) : conditionValue env var neg value place = .ok b := by
  unfold conditionValue at h ⊢
  split at h
  · cases h
  · exact h

theorem control_ok {env : Env} {op cond var value : Str} {neg : Bool} {nameTok : Token} {p : ParsedArgs} {cx : Context}
    (ho : op = c%"if" ∨ op = c%"ifeval")
    (hv : nameTok.value = op ++ c%":" ++ cond) (hc : MacroCondition cond var neg value) :
    controlCase env nameTok p cx = (match Dict.get? (p.setNames [c%"true_case", c%"false_case"]).named c%"true_case" with
      | none => .error (.parser msgNoTrueCase (some cx))
      | some trueCase =>
        match conditionValue env var neg value (some nameTok.ctx) with
        | .error e => .error e
        | .ok test =>
          let result := if test then some trueCase else
            Dict.get? (p.setNames [c%"true_case", c%"false_case"]).named c%"false_case"
          if op = c%"ifeval" then
            match result with
            | none => .error (.parser msgNoFalseCase (some cx))
            | some r =>
              match Env.get env r.value with
              | .default => .error (.parser (.undefinedVariable r.value) (some cx))
              | .value (.str v) => .ok (some (v, r.ctx))
              | .value _ => .error (.py .attributeError)
              | .namespace _ => .error (.py .attributeError)
          else .ok (result.map fun r => (r.value, r.ctx))) := by
  have hsplit : splitChar ':' (op ++ c%":" ++ cond) = [op, cond] := by
    have h1 : ':' ∉ op := by rcases ho with rfl | rfl <;> decide
    rw [List.append_assoc, List.singleton_append, splitChar_append_sep h1, splitChar_of_not_mem hc.colon]
  obtain ⟨c, control, k1, k2, k3⟩ := C27_value hc.text hc.newline env nameTok.ctx.startLine (nameTok.ctx.startColumn + 4)
    nameTok.ctx.source nameTok.ctx
  unfold controlCase
  simp only [hv, hsplit]
  have h2 : ¬ (op ≠ c%"if" ∧ op ≠ c%"ifeval") := by rcases ho with rfl | rfl <;> decide
  simp only [if_neg h2, k1, k2, k3, Bind.bind, Except.bind, pure, Except.pure, throw, throwThe, MonadExceptOf.throw]
  cases Dict.get? (p.setNames [c%"true_case", c%"false_case"]).named c%"true_case" with
  | none => rfl
  | some tc =>
    simp only
    cases conditionValue env var neg value (some nameTok.ctx) with
    | error e => rfl
    | ok b =>
      simp only
      rcases ho with rfl | rfl
      · simp
      · simp only [decide_true, if_true]
        cases (if b = true then some tc else
          Dict.get? (p.setNames [c%"true_case", c%"false_case"]).named c%"false_case") with
        | none => rfl
        | some r =>
          simp only
          cases Env.get env r.value with
          | default => rfl
          | «namespace» _ => rfl
          | value v => cases v <;> rfl

/-- The value of a parameter, found. -/
theorem param_some {p : ParsedArgs} {names : List Str} {as : List Arg} {n v : Str}
    (h : ∀ n ∈ names, (Dict.get? (p.setNames names).named n).map (·.value) = argument names as n) (hn : n ∈ names)
    (hv : argument names as n = some v) : ∃ c, Dict.get? (p.setNames names).named n = some ⟨v, c⟩ :=
  map_value_some ((h n hn).trans hv)

theorem param_none {p : ParsedArgs} {names : List Str} {as : List Arg} {n : Str}
    (h : ∀ n ∈ names, (Dict.get? (p.setNames names).named n).map (·.value) = argument names as n) (hn : n ∈ names)
    (hv : argument names as n = none) : Dict.get? (p.setNames names).named n = none :=
  map_value_none ((h n hn).trans hv)

theorem macro_gives {env : Env} {name args : Str} {ns : List Node} (h : MacroGives env name args ns) :
    MacroMeans env name args (.ok ns) := by
  intro nameTok argsTok cx st hn ha
  cases h with
  | @link _ target text as ns h h1 h2 hp =>
    obtain ⟨p, e1, e2, e3⟩ := macro_args (env := env) h argsTok ha
    rw [macroBody_eq e1, dispatch_link hn]
    obtain ⟨k1, _⟩ := e3 linkNames (by decide)
    obtain ⟨c1, g1⟩ := param_some k1 (by decide) h1
    obtain ⟨c2, g2⟩ := param_some k1 (by decide) h2
    obtain ⟨ns', k, q1, q2⟩ := textOr_parses (d := [Node.new (.text target) c1]) g2 hp st
    refine ⟨[Node.new (.macroLink target) cx ns'], { st with uid := k }, ?_, rfl, ?_⟩
    · unfold macroLinkFn
      change PM.bind _ _ st = _
      exact (pm_bind_ok (mandatory_some g1 st)).trans (pm_bind_ok q1)
    · simp [anonList, anon_new, q2, NodeData.anon]
  | @linkPlain _ target as h h1 h2 =>
    obtain ⟨p, e1, e2, e3⟩ := macro_args (env := env) h argsTok ha
    rw [macroBody_eq e1, dispatch_link hn]
    obtain ⟨k1, _⟩ := e3 linkNames (by decide)
    obtain ⟨c1, g1⟩ := param_some k1 (by decide) h1
    have g2 := param_none k1 (by decide) h2
    refine ⟨[Node.new (.macroLink target) cx [Node.new (.text target) c1]], st, ?_, rfl, rfl⟩
    unfold macroLinkFn
    change PM.bind _ _ st = _
    refine (pm_bind_ok (mandatory_some g1 st)).trans ?_
    exact pm_bind_ok (a := [Node.new (.text target) c1]) (s' := st) (by simp only [linkNames] at g2; rw [g2]; rfl)
  | @mailto _ target text as ns h h1 h2 hp =>
    obtain ⟨p, e1, e2, e3⟩ := macro_args (env := env) h argsTok ha
    rw [macroBody_eq e1, dispatch_mailto hn]
    obtain ⟨k1, _⟩ := e3 mailtoNames (by decide)
    obtain ⟨c1, g1⟩ := param_some k1 (by decide) h1
    obtain ⟨c2, g2⟩ := param_some k1 (by decide) h2
    obtain ⟨ns', k, q1, q2⟩ := textOr_parses (d := [Node.new (.text target) c1]) g2 hp st
    refine ⟨[Node.new (.macroLink (c%"mailto:" ++ target)) cx ns'], { st with uid := k }, ?_, rfl, ?_⟩
    · unfold macroMailtoFn
      change PM.bind _ _ st = _
      exact (pm_bind_ok (mandatory_some g1 st)).trans (pm_bind_ok q1)
    · simp [anonList, anon_new, q2, NodeData.anon]
  | @mailtoPlain _ target as h h1 h2 =>
    obtain ⟨p, e1, e2, e3⟩ := macro_args (env := env) h argsTok ha
    rw [macroBody_eq e1, dispatch_mailto hn]
    obtain ⟨k1, _⟩ := e3 mailtoNames (by decide)
    obtain ⟨c1, g1⟩ := param_some k1 (by decide) h1
    have g2 := param_none k1 (by decide) h2
    refine ⟨[Node.new (.macroLink (c%"mailto:" ++ target)) cx [Node.new (.text target) c1]], st, ?_, rfl, rfl⟩
    unfold macroMailtoFn
    change PM.bind _ _ st = _
    refine (pm_bind_ok (mandatory_some g1 st)).trans ?_
    exact pm_bind_ok (a := [Node.new (.text target) c1]) (s' := st) (by simp only [mailtoNames] at g2; rw [g2]; rfl)
  | @header _ id text as ns h h1 h2 hp =>
    obtain ⟨p, e1, e2, e3⟩ := macro_args (env := env) h argsTok ha
    rw [macroBody_eq e1, dispatch_header hn]
    obtain ⟨k1, _⟩ := e3 headerNames (by decide)
    obtain ⟨c1, g1⟩ := param_some k1 (by decide) h1
    obtain ⟨c2, g2⟩ := param_some k1 (by decide) h2
    obtain ⟨ns', k, q1, q2⟩ := textOr_parses (d := []) g2 hp { st with uid := st.uid + 1 }
    refine ⟨[Node.new (.macroHeader st.uid id none) cx ns'],
      { st with uid := k, headerLinks := st.headerLinks ++ [(st.uid, id)], places := st.places ++ [(st.uid, cx)] }, ?_, rfl, ?_⟩
    · unfold macroHeaderFn
      change PM.bind _ _ st = _
      refine (pm_bind_ok (mandatory_some g1 st)).trans ?_
      refine (pm_bind_ok (x := PM.fresh) (s := st) (a := st.uid) (s' := { st with uid := st.uid + 1 }) rfl).trans ?_
      exact pm_bind_ok q1
    · simp [anonList, anon_new, q2, NodeData.anon]
  | @headerPlain _ id as h h1 h2 =>
    obtain ⟨p, e1, e2, e3⟩ := macro_args (env := env) h argsTok ha
    rw [macroBody_eq e1, dispatch_header hn]
    obtain ⟨k1, _⟩ := e3 headerNames (by decide)
    obtain ⟨c1, g1⟩ := param_some k1 (by decide) h1
    have g2 := param_none k1 (by decide) h2
    refine ⟨[Node.new (.macroHeader st.uid id none) cx []],
      { st with uid := st.uid + 1, headerLinks := st.headerLinks ++ [(st.uid, id)], places := st.places ++ [(st.uid, cx)] }, ?_, rfl, rfl⟩
    unfold macroHeaderFn
    change PM.bind _ _ st = _
    refine (pm_bind_ok (mandatory_some g1 st)).trans ?_
    refine (pm_bind_ok (x := PM.fresh) (s := st) (a := st.uid) (s' := { st with uid := st.uid + 1 }) rfl).trans ?_
    exact pm_bind_ok (a := []) (s' := { st with uid := st.uid + 1 }) (by simp only [headerNames] at g2; rw [g2]; rfl)
  | @cls _ text as ns h h1 hp =>
    obtain ⟨p, e1, e2, e3⟩ := macro_args (env := env) h argsTok ha
    rw [macroBody_eq e1, dispatch_class hn]
    obtain ⟨k1, k2⟩ := e3 classNames (by decide)
    obtain ⟨c1, g1⟩ := param_some k1 (by decide) h1
    obtain ⟨ns', k, q1, q2⟩ := (ParsesTo.denotes hp).sub c1 st
    refine ⟨[Node.new (.macroClass (leftover classNames as)) cx ns'], { st with uid := k }, ?_, rfl, ?_⟩
    · rw [← k2]
      unfold macroClassFn
      change PM.bind _ _ st = _
      exact (pm_bind_ok (mandatory_some g1 st)).trans (pm_bind_ok q1)
    · simp [anonList, anon_new, q2, NodeData.anon]
  | @image _ uri as h h1 =>
    obtain ⟨p, e1, e2, e3⟩ := macro_args (env := env) h argsTok ha
    rw [macroBody_eq e1, dispatch_image hn]
    obtain ⟨k1, k2⟩ := e3 imageNames (by decide)
    obtain ⟨c1, g1⟩ := param_some k1 (by decide) h1
    refine ⟨[Node.new (.macroImage uri (argument imageNames as c%"alt_text")
        (argument imageNames as c%"width") (argument imageNames as c%"height")) cx], st, ?_, rfl, rfl⟩
    rw [← k1 _ (by decide : c%"alt_text" ∈ imageNames), ← k1 _ (by decide : c%"width" ∈ imageNames),
      ← k1 _ (by decide : c%"height" ∈ imageNames)]
    unfold macroImageFn
    change PM.bind _ _ st = _
    exact pm_bind_ok (mandatory_some g1 st)
  | @unicode _ value as h h1 =>
    obtain ⟨p, e1, e2, e3⟩ := macro_args (env := env) h argsTok ha
    rw [macroBody_eq e1, dispatch_unicode hn]
    obtain ⟨k1, k2⟩ := e3 valueNames (by decide)
    obtain ⟨c1, g1⟩ := param_some k1 (by decide) h1
    refine ⟨[Node.new (.macroUnicode value) cx], st, ?_, rfl, rfl⟩
    unfold macroUnicodeFn
    change PM.bind _ _ st = _
    exact pm_bind_ok (mandatory_some g1 st)
  | @raw _ value as h h1 =>
    obtain ⟨p, e1, e2, e3⟩ := macro_args (env := env) h argsTok ha
    rw [macroBody_eq e1, dispatch_raw hn]
    obtain ⟨k1, k2⟩ := e3 valueNames (by decide)
    obtain ⟨c1, g1⟩ := param_some k1 (by decide) h1
    refine ⟨[Node.new (.macroRaw value) cx], st, ?_, rfl, rfl⟩
    unfold macroRawFn
    change PM.bind _ _ st = _
    exact pm_bind_ok (mandatory_some g1 st)
  | @footnote _ fname as h h1 =>
    obtain ⟨p, e1, e2, e3⟩ := macro_args (env := env) h argsTok ha
    rw [macroBody_eq e1, dispatch_footnote hn]
    obtain ⟨k1, k2⟩ := e3 footnoteNames (by decide)
    obtain ⟨c1, g1⟩ := param_some k1 (by decide) h1
    refine ⟨[Node.new (.macroFootnote st.uid fname none) cx],
      { st with uid := st.uid + 1, footnoteMacros := st.footnoteMacros ++ [(st.uid, fname)], places := st.places ++ [(st.uid, cx)] }, ?_, rfl, rfl⟩
    unfold macroFootnoteFn
    change PM.bind _ _ st = _
    refine (pm_bind_ok (mandatory_some g1 st)).trans ?_
    exact pm_bind_ok (a := st.uid) (s' := { st with uid := st.uid + 1 }) rfl
  | @choice _ cond var value yes text neg b as ns h hc hb hy ht hp =>
    obtain ⟨p, e1, e2, e3⟩ := macro_args (env := env) h argsTok ha
    rw [macroBody_eq e1, dispatch_if (c := c%":" ++ cond) hn]
    obtain ⟨k1, k2⟩ := e3 caseNames (by decide)
    obtain ⟨c1, g1⟩ := param_some k1 (by decide) hy
    have hb := conditionValue_ok hb (some nameTok.ctx)
    have hcase := control_ok (env := env) (p := p) (cx := cx) (op := c%"if") (.inl rfl) (by simpa using hn) hc
    simp only [caseNames] at g1
    have : ∃ c2, controlCase env nameTok p cx = .ok (some (text, c2)) := by
      rw [hcase]
      simp only [if_true] at g1
      rw [g1, hb]
      cases b with
      | true =>
        simp [selectedCase] at ht hy
        rw [hy] at ht
        cases ht
        exact ⟨c1, rfl⟩
      | false =>
        obtain ⟨c2, g2⟩ := param_some k1 (by decide) ht
        simp [caseNames] at g2
        refine ⟨c2, ?_⟩
        simp [g2]
    obtain ⟨c2, hcc⟩ := this
    obtain ⟨ns', k, q1, q2⟩ := (ParsesTo.denotes hp).sub c2 st
    refine ⟨ns', { st with uid := k }, ?_, rfl, q2⟩
    unfold macroControlFn
    change PM.bind _ _ st = _
    exact (pm_bind_ok (a := some (text, c2)) (s' := st) (by rw [hcc]; rfl)).trans q1
  | @choiceNothing _ cond var value yes neg as h hc hb hy ht =>
    obtain ⟨p, e1, e2, e3⟩ := macro_args (env := env) h argsTok ha
    rw [macroBody_eq e1, dispatch_if (c := c%":" ++ cond) hn]
    obtain ⟨k1, k2⟩ := e3 caseNames (by decide)
    obtain ⟨c1, g1⟩ := param_some k1 (by decide) hy
    have hb := conditionValue_ok hb (some nameTok.ctx)
    have hcase := control_ok (env := env) (p := p) (cx := cx) (op := c%"if") (.inl rfl) (by simpa using hn) hc
    simp [caseNames] at g1
    have hcc : controlCase env nameTok p cx = .ok none := by
      rw [hcase]
      have g2 := param_none k1 (by decide) ht
      simp [caseNames] at g2
      simp [g1, hb, g2]
    refine ⟨[], st, ?_, rfl, rfl⟩
    unfold macroControlFn
    change PM.bind _ _ st = _
    exact (pm_bind_ok (a := none) (s' := st) (by rw [hcc]; rfl))
  | @choiceVariable _ cond var value yes v text neg b as ns h hc hb hy ht hv hp =>
    obtain ⟨p, e1, e2, e3⟩ := macro_args (env := env) h argsTok ha
    rw [macroBody_eq e1, dispatch_if (c := c%"eval:" ++ cond) hn]
    obtain ⟨k1, k2⟩ := e3 caseNames (by decide)
    obtain ⟨c1, g1⟩ := param_some k1 (by decide) hy
    have hb := conditionValue_ok hb (some nameTok.ctx)
    have hcase := control_ok (env := env) (p := p) (cx := cx) (op := c%"ifeval") (.inr rfl) (by simpa using hn) hc
    simp [caseNames] at g1
    have : ∃ c2, controlCase env nameTok p cx = .ok (some (text, c2)) := by
      rw [hcase]
      rw [g1, hb]
      cases b with
      | true =>
        simp [selectedCase] at ht hy
        rw [hy] at ht
        cases ht
        exact ⟨c1, by simp [hv]⟩
      | false =>
        obtain ⟨c2, g2⟩ := param_some k1 (by decide) ht
        simp [caseNames] at g2
        refine ⟨c2, ?_⟩
        simp [g2, hv]
    obtain ⟨c2, hcc⟩ := this
    obtain ⟨ns', k, q1, q2⟩ := (ParsesTo.denotes hp).sub c2 st
    refine ⟨ns', { st with uid := k }, ?_, rfl, q2⟩
    unfold macroControlFn
    change PM.bind _ _ st = _
    exact (pm_bind_ok (a := some (text, c2)) (s' := st) (by rw [hcc]; rfl)).trans q1
  | @other _ _ as h h1 h2 =>
    obtain ⟨p, e1, e2, e3⟩ := macro_args (env := env) h argsTok ha
    rw [macroBody_eq e1, dispatch_other (by rw [hn]; exact h1) (by rw [hn]; exact h2)]
    refine ⟨_, st, rfl, rfl, ?_⟩
    simp [anonList, anon_new, e2, NodeData.anon, hn]

theorem macro_fails {env : Env} {name args : Str} {er : Err} (h : MacroFails env name args er) :
    MacroMeans env name args (.error er) := by
  intro nameTok argsTok cx st hn ha
  have miss : ∀ {names : List Str} {as : List Arg} {n : Str} {what : Str} (f : CtxText → PM (List Node)) (p : ParsedArgs),
      (∀ n ∈ names, (Dict.get? (p.setNames names).named n).map (·.value) = argument names as n) → n ∈ names →
      argument names as n = none → ∃ er', PM.bind (mandatory (p.setNames names) n (msgMissing what) cx) f st = .err er' ∧ er'.bare = missing what := by
    intro names as n what f p k1 h1 h2
    exact ⟨_, pm_bind_err (mandatory_none (param_none k1 h1 h2) st), rfl⟩
  cases h with
  | @link _ as h h1 =>
    obtain ⟨p, e1, e2, e3⟩ := macro_args (env := env) h argsTok ha
    rw [macroBody_eq e1, dispatch_link hn]
    exact miss _ p (e3 linkNames (by decide)).1 (by decide) h1
  | @mailto _ as h h1 =>
    obtain ⟨p, e1, e2, e3⟩ := macro_args (env := env) h argsTok ha
    rw [macroBody_eq e1, dispatch_mailto hn]
    exact miss _ p (e3 mailtoNames (by decide)).1 (by decide) h1
  | @header _ as h h1 =>
    obtain ⟨p, e1, e2, e3⟩ := macro_args (env := env) h argsTok ha
    rw [macroBody_eq e1, dispatch_header hn]
    exact miss _ p (e3 headerNames (by decide)).1 (by decide) h1
  | @cls _ as h h1 =>
    obtain ⟨p, e1, e2, e3⟩ := macro_args (env := env) h argsTok ha
    rw [macroBody_eq e1, dispatch_class hn]
    exact miss _ p (e3 classNames (by decide)).1 (by decide) h1
  | @image _ as h h1 =>
    obtain ⟨p, e1, e2, e3⟩ := macro_args (env := env) h argsTok ha
    rw [macroBody_eq e1, dispatch_image hn]
    exact miss _ p (e3 imageNames (by decide)).1 (by decide) h1
  | @unicode _ as h h1 =>
    obtain ⟨p, e1, e2, e3⟩ := macro_args (env := env) h argsTok ha
    rw [macroBody_eq e1, dispatch_unicode hn]
    exact miss _ p (e3 valueNames (by decide)).1 (by decide) h1
  | @raw _ as h h1 =>
    obtain ⟨p, e1, e2, e3⟩ := macro_args (env := env) h argsTok ha
    rw [macroBody_eq e1, dispatch_raw hn]
    exact miss _ p (e3 valueNames (by decide)).1 (by decide) h1
  | @footnote _ as h h1 =>
    obtain ⟨p, e1, e2, e3⟩ := macro_args (env := env) h argsTok ha
    rw [macroBody_eq e1, dispatch_footnote hn]
    exact miss _ p (e3 footnoteNames (by decide)).1 (by decide) h1
  | @choiceUndefined _ cond var value yes op neg as h ho hc hb hy =>
    obtain ⟨p, e1, e2, e3⟩ := macro_args (env := env) h argsTok ha
    have hif : ∃ c, nameTok.value = c%"if" ++ c := by
      rcases ho with rfl | rfl
      · exact ⟨c%":" ++ cond, hn⟩
      · exact ⟨c%"eval:" ++ cond, hn⟩
    rw [macroBody_eq e1, dispatch_if hif.choose_spec]
    obtain ⟨k1, k2⟩ := e3 caseNames (by decide)
    obtain ⟨c1, g1⟩ := param_some k1 (by decide) hy
    have hcase := control_ok (env := env) (p := p) (cx := cx) ho hn hc
    simp [caseNames] at g1
    have hcc : controlCase env nameTok p cx = .error (.parser (.undefinedVariable var) (some nameTok.ctx)) := by
      rw [hcase, g1]
      simp [conditionValue, hb]
    unfold macroControlFn
    have key : PM.bind (PM.lift (controlCase env nameTok p cx)) (fun
      | none => pure []
      | some (v, vc) => strP env v vc) st = _ := pm_bind_err (by rw [hcc]; rfl)
    exact ⟨_, key, rfl⟩
  | @choiceMalformed _ cond op as h ho hne hc h1 h2 =>
    obtain ⟨p, e1, e2, e3⟩ := macro_args (env := env) h argsTok ha
    have hif : ∃ c, nameTok.value = c%"if" ++ c := by
      rcases ho with rfl | rfl
      · exact ⟨c%":" ++ cond, hn⟩
      · exact ⟨c%"eval:" ++ cond, hn⟩
    rw [macroBody_eq e1, dispatch_if hif.choose_spec]
    have hcc : controlCase env nameTok p cx = .error (.parser (msgWrongCondition cond) (some (conditionCtx nameTok))) := by
      have hs : splitChar ':' (op ++ c%":" ++ cond) = [op, cond] := by
        have h1' : ':' ∉ op := by rcases ho with rfl | rfl <;> decide
        rw [List.append_assoc, List.singleton_append, splitChar_append_sep h1', splitChar_of_not_mem h1]
      have h3 : ¬ (op ≠ c%"if" ∧ op ≠ c%"ifeval") := by rcases ho with rfl | rfl <;> decide
      have hp : ∃ er, parseCondition cond nameTok.ctx.startLine (nameTok.ctx.startColumn + 4) nameTok.ctx.source = .error er ∧ er.isMau = true := by
        cases hb : isBlank cond with
        | false => exact ⟨_, C27_malformed hc h2 hb _ _ _, rfl⟩
        | true => exact ⟨_, by rw [parseCondition_blank hb h2, if_neg hne], rfl⟩
      obtain ⟨er, hp, hm⟩ := hp
      unfold controlCase
      simp only [hn, hs, if_neg h3, hp, hm, if_true, Bind.bind, Except.bind, pure, Except.pure, throw, throwThe, MonadExceptOf.throw]
    unfold macroControlFn
    have key : PM.bind (PM.lift (controlCase env nameTok p cx)) (fun
      | none => pure []
      | some (v, vc) => strP env v vc) st = _ := pm_bind_err (by rw [hcc]; rfl)
    exact ⟨_, key, rfl⟩
  | @choiceNoCase _ cond var value op neg as h ho hc hy =>
    obtain ⟨p, e1, e2, e3⟩ := macro_args (env := env) h argsTok ha
    have hif : ∃ c, nameTok.value = c%"if" ++ c := by
      rcases ho with rfl | rfl
      · exact ⟨c%":" ++ cond, hn⟩
      · exact ⟨c%"eval:" ++ cond, hn⟩
    rw [macroBody_eq e1, dispatch_if hif.choose_spec]
    obtain ⟨k1, k2⟩ := e3 caseNames (by decide)
    have g1 := param_none k1 (by decide) hy
    have hcase := control_ok (env := env) (p := p) (cx := cx) ho hn hc
    simp [caseNames] at g1
    have hcc : controlCase env nameTok p cx = .error (.parser msgNoTrueCase (some cx)) := by
      rw [hcase, g1]
    unfold macroControlFn
    have key : PM.bind (PM.lift (controlCase env nameTok p cx)) (fun
      | none => pure []
      | some (v, vc) => strP env v vc) st = _ := pm_bind_err (by rw [hcc]; rfl)
    exact ⟨_, key, rfl⟩
  | @choiceText _ cond var value yes text neg b as er h hc hb hy ht hp =>
    obtain ⟨p, e1, e2, e3⟩ := macro_args (env := env) h argsTok ha
    rw [macroBody_eq e1, dispatch_if (c := c%":" ++ cond) hn]
    obtain ⟨k1, k2⟩ := e3 caseNames (by decide)
    obtain ⟨c1, g1⟩ := param_some k1 (by decide) hy
    have hb := conditionValue_ok hb (some nameTok.ctx)
    have hcase := control_ok (env := env) (p := p) (cx := cx) (op := c%"if") (.inl rfl) (by simpa using hn) hc
    simp [caseNames] at g1
    have : ∃ c2, controlCase env nameTok p cx = .ok (some (text, c2)) := by
      rw [hcase]
      rw [g1, hb]
      cases b with
      | true =>
        simp [selectedCase] at ht hy
        rw [hy] at ht
        cases ht
        exact ⟨c1, rfl⟩
      | false =>
        obtain ⟨c2, g2⟩ := param_some k1 (by decide) ht
        simp [caseNames] at g2
        refine ⟨c2, ?_⟩
        simp [g2]
    obtain ⟨c2, hcc⟩ := this
    unfold macroControlFn
    obtain ⟨er', hs, hbare⟩ := (ParseFails.errs hp).sub c2 st
    refine ⟨er', ?_, hbare⟩
    change PM.bind _ _ st = _
    exact (pm_bind_ok (a := some (text, c2)) (s' := st) (by rw [hcc]; rfl)).trans hs
  | @shown _ key _ text first names as er h hm h1 h2 hp =>
    obtain ⟨p, e1, e2, e3⟩ := macro_args (env := env) h argsTok ha
    simp only [List.mem_cons, Prod.mk.injEq, List.not_mem_nil, or_false] at hm
    rcases hm with ⟨rfl, rfl, rfl⟩ | ⟨rfl, rfl, rfl⟩ | ⟨rfl, rfl, rfl⟩ | ⟨rfl, rfl, rfl⟩
    · rw [macroBody_eq e1, dispatch_link hn]
      obtain ⟨k1, _⟩ := e3 linkNames (by decide)
      obtain ⟨c1, g1⟩ := param_some k1 (by decide) h1
      obtain ⟨c2, g2⟩ := param_some k1 (by decide) h2
      unfold macroLinkFn
      obtain ⟨er', hs, hbare⟩ := (ParseFails.errs hp).sub c2 st
      refine ⟨er', ?_, hbare⟩
      change PM.bind _ _ st = _
      refine (pm_bind_ok (mandatory_some g1 st)).trans (pm_bind_err ?_)
      simp only [linkNames] at g2
      rw [g2]; exact hs
    · rw [macroBody_eq e1, dispatch_mailto hn]
      obtain ⟨k1, _⟩ := e3 mailtoNames (by decide)
      obtain ⟨c1, g1⟩ := param_some k1 (by decide) h1
      obtain ⟨c2, g2⟩ := param_some k1 (by decide) h2
      unfold macroMailtoFn
      obtain ⟨er', hs, hbare⟩ := (ParseFails.errs hp).sub c2 st
      refine ⟨er', ?_, hbare⟩
      change PM.bind _ _ st = _
      refine (pm_bind_ok (mandatory_some g1 st)).trans (pm_bind_err ?_)
      simp only [mailtoNames] at g2
      rw [g2]; exact hs
    · rw [macroBody_eq e1, dispatch_header hn]
      obtain ⟨k1, _⟩ := e3 headerNames (by decide)
      obtain ⟨c1, g1⟩ := param_some k1 (by decide) h1
      obtain ⟨c2, g2⟩ := param_some k1 (by decide) h2
      unfold macroHeaderFn
      obtain ⟨er', hs, hbare⟩ := (ParseFails.errs hp).sub c2 { st with uid := st.uid + 1 }
      refine ⟨er', ?_, hbare⟩
      change PM.bind _ _ st = _
      refine (pm_bind_ok (mandatory_some g1 st)).trans ?_
      refine (pm_bind_ok (x := PM.fresh) (s := st) (a := st.uid) (s' := { st with uid := st.uid + 1 }) rfl).trans (pm_bind_err ?_)
      simp only [headerNames] at g2
      rw [g2]; exact hs
    · rw [macroBody_eq e1, dispatch_class hn]
      obtain ⟨k1, _⟩ := e3 classNames (by decide)
      obtain ⟨c2, g2⟩ := param_some k1 (by decide) h2
      unfold macroClassFn
      obtain ⟨er', hs, hbare⟩ := (ParseFails.errs hp).sub c2 st
      refine ⟨er', ?_, hbare⟩
      change PM.bind _ _ st = _
      exact (pm_bind_ok (mandatory_some g2 st)).trans (pm_bind_err hs)
  | @evalUndefined _ cond var value yes v neg b as h hc hb hy ht hv =>
    obtain ⟨p, e1, e2, e3⟩ := macro_args (env := env) h argsTok ha
    rw [macroBody_eq e1, dispatch_if (c := c%"eval:" ++ cond) hn]
    obtain ⟨k1, k2⟩ := e3 caseNames (by decide)
    obtain ⟨c1, g1⟩ := param_some k1 (by decide) hy
    have hb := conditionValue_ok hb (some nameTok.ctx)
    have hcase := control_ok (env := env) (p := p) (cx := cx) (op := c%"ifeval") (.inr rfl) (by simpa using hn) hc
    simp [caseNames] at g1
    have hcc : controlCase env nameTok p cx = .error (.parser (.undefinedVariable v) (some cx)) := by
      rw [hcase, g1, hb]
      cases b with
      | true =>
        simp [selectedCase] at ht hy
        rw [hy] at ht
        cases ht
        simp [hv]
      | false =>
        obtain ⟨c2, g2⟩ := param_some k1 (by decide) ht
        simp [caseNames] at g2
        simp [g2, hv]
    unfold macroControlFn
    have key : PM.bind (PM.lift (controlCase env nameTok p cx)) (fun
      | none => pure []
      | some (v, vc) => strP env v vc) st = _ := pm_bind_err (by rw [hcc]; rfl)
    exact ⟨_, key, rfl⟩
  | @evalNothing _ cond var value yes neg as h hc hb hy ht =>
    obtain ⟨p, e1, e2, e3⟩ := macro_args (env := env) h argsTok ha
    rw [macroBody_eq e1, dispatch_if (c := c%"eval:" ++ cond) hn]
    obtain ⟨k1, k2⟩ := e3 caseNames (by decide)
    obtain ⟨c1, g1⟩ := param_some k1 (by decide) hy
    have hb := conditionValue_ok hb (some nameTok.ctx)
    have hcase := control_ok (env := env) (p := p) (cx := cx) (op := c%"ifeval") (.inr rfl) (by simpa using hn) hc
    simp [caseNames] at g1
    have hcc : controlCase env nameTok p cx = .error (.parser msgNoFalseCase (some cx)) := by
      rw [hcase, g1, hb]
      have g2 := param_none k1 (by decide) ht
      simp [caseNames] at g2
      simp [g2]
    unfold macroControlFn
    have key : PM.bind (PM.lift (controlCase env nameTok p cx)) (fun
      | none => pure []
      | some (v, vc) => strP env v vc) st = _ := pm_bind_err (by rw [hcc]; rfl)
    exact ⟨_, key, rfl⟩
  | @evalText _ cond var value yes v text neg b as er h hc hb hy ht hv hp =>
    obtain ⟨p, e1, e2, e3⟩ := macro_args (env := env) h argsTok ha
    rw [macroBody_eq e1, dispatch_if (c := c%"eval:" ++ cond) hn]
    obtain ⟨k1, k2⟩ := e3 caseNames (by decide)
    obtain ⟨c1, g1⟩ := param_some k1 (by decide) hy
    have hb := conditionValue_ok hb (some nameTok.ctx)
    have hcase := control_ok (env := env) (p := p) (cx := cx) (op := c%"ifeval") (.inr rfl) (by simpa using hn) hc
    simp [caseNames] at g1
    have : ∃ c2, controlCase env nameTok p cx = .ok (some (text, c2)) := by
      rw [hcase, g1, hb]
      cases b with
      | true =>
        simp [selectedCase] at ht hy
        rw [hy] at ht
        cases ht
        exact ⟨c1, by simp [hv]⟩
      | false =>
        obtain ⟨c2, g2⟩ := param_some k1 (by decide) ht
        simp [caseNames] at g2
        exact ⟨c2, by simp [g2, hv]⟩
    obtain ⟨c2, hcc⟩ := this
    unfold macroControlFn
    obtain ⟨er', hs, hbare⟩ := (ParseFails.errs hp).sub c2 st
    refine ⟨er', ?_, hbare⟩
    change PM.bind _ _ st = _
    exact (pm_bind_ok (a := some (text, c2)) (s' := st) (by rw [hcc]; rfl)).trans hs
  | @noCondition _ _ as h hi hc =>
    obtain ⟨p, e1, e2, e3⟩ := macro_args (env := env) h argsTok ha
    rw [macroBody_eq e1, show macroDispatch env (strP env) nameTok p cx = macroControlFn env (strP env) nameTok p cx by
      simp only [macroDispatch, hn, hi, if_true]]
    have hcc : controlCase env nameTok p cx = .error (.parser (msgMacroName name) (some cx)) := by
      unfold controlCase
      simp only [hn, splitChar_of_not_mem hc]
      rfl
    unfold macroControlFn
    have key : PM.bind (PM.lift (controlCase env nameTok p cx)) (fun
      | none => pure []
      | some (v, vc) => strP env v vc) st = _ := pm_bind_err (by rw [hcc]; rfl)
    exact ⟨_, key, rfl⟩
  | @operator _ op cond as h hi ho he h1 h2 =>
    obtain ⟨p, e1, e2, e3⟩ := macro_args (env := env) h argsTok ha
    have hi' : startsWith (op ++ c%":" ++ cond) c%"if" = true := by
      obtain ⟨r, hr⟩ := List.isPrefixOf_iff_prefix.1 hi
      rw [startsWith, List.isPrefixOf_iff_prefix, ← hr]
      exact ⟨r ++ c%":" ++ cond, by simp⟩
    rw [macroBody_eq e1, show macroDispatch env (strP env) nameTok p cx = macroControlFn env (strP env) nameTok p cx by
      simp only [macroDispatch, hn, hi', if_true]]
    have hcc : controlCase env nameTok p cx = .error (.parser (msgControlOperator op) (some cx)) := by
      unfold controlCase
      have hs : splitChar ':' (op ++ c%":" ++ cond) = [op, cond] := by
        rw [List.append_assoc, List.singleton_append, splitChar_append_sep h1, splitChar_of_not_mem h2]
      simp only [hn, hs, ne_eq, ho, he, not_false_eq_true, and_self, if_true]
      rfl
    unfold macroControlFn
    have key : PM.bind (PM.lift (controlCase env nameTok p cx)) (fun
      | none => pure []
      | some (v, vc) => strP env v vc) st = _ := pm_bind_err (by rw [hcc]; rfl)
    exact ⟨_, key, rfl⟩

end Mau
