import Verif.Lemmas.SoundEnv
import Verif.Props.Managers
import Verif.Props.Lists

set_option linter.unusedSimpArgs false

/-!
# Well-formed documents: the steps

What the constructs of a well-formed document do to the state of the parser: no foreign errors, and the settings stay the same.
-/

namespace Mau
open Spec

variable {V : Project}

/-! ## Names of arguments -/

theorem safe_namedKey : TokSafe namedArgument fun pre i => ∀ k n, i = .named k n → MayOccur k (toksText pre) := by
  unfold namedArgument
  refine .bind safe_text fun p1 k h1 => ?_
  refine .bind (safe_lit _) fun p2 o h2 => ?_
  refine .bind safe_argValue fun p3 t h3 => ?_
  refine safe_opt_then _ _ fun p4 => ?_
  refine safe_opt_then _ _ fun p5 => ?_
  refine (TokSafe.pure _).mono fun p6 b h => ?_
  intro k' n' he
  rw [h.2] at he
  cases he
  simp only [toksText_append]
  refine occurs_left ?_
  rw [h1]
  simp only [toksText, List.flatMap_cons, List.flatMap_nil, List.append_nil, List.map_cons, List.map_nil, List.flatten_cons, List.flatten_nil]
  exact MayOccur.refl _

theorem safe_unnamedKey (on : Bool) : TokSafe (unnamedArgument on) fun pre i => ∀ k n, i = .named k n → MayOccur k (toksText pre) := by
  cases on with
  | true =>
    have : unnamedArgument true = fun _ => .error (.parser msgUnnamedAfterNamed none) := rfl
    rw [this]
    exact .error rfl _
  | false =>
    unfold unnamedArgument
    refine TokSafe.bind (f := argValue) safe_argValue fun p3 t h3 => ?_
    refine safe_opt_then _ _ fun p4 => ?_
    refine safe_opt_then _ _ fun p5 => ?_
    refine (TokSafe.pure _).mono fun p6 b h => ?_
    intro k' n' he
    rw [h.2] at he
    cases he

theorem args_keys {text : Str} {sl sc : Nat} {src : Option Str} {ts : List Token} (hl : lexArgs (TextBuffer.ofText text sl sc src) = .ok ts)
    {items : List ArgItem} (hi : parseLoop argFns (ts.length + 2) initialLast { tokens := ts } [] = .ok items) {k : Str} {n : CtxText}
    (hm : ArgItem.named k n ∈ items) : MayOccur k text := by
  obtain ⟨init, e, h1, h2, h3, h4⟩ := lexArgs_toks text sl sc src
  rw [hl] at h1
  injection h1 with h1
  subst h1
  have hfs : ∀ (acc : List ArgItem), ∀ f ∈ argFns acc, TokSafe f fun pre i => ∀ k n, i = .named k n → MayOccur k (toksText pre) := by
    intro acc f hf
    simp only [argFns, List.mem_cons, List.not_mem_nil, or_false] at hf
    rcases hf with rfl | rfl
    · exact safe_namedKey
    · exact safe_unnamedKey _
  have := parseLoop_safe hfs ((init ++ [e]).length + 2) { tokens := init ++ [e] } init e initialLast [] (At.start init e ⟨h2, h3⟩) (.inl (by simp))
  obtain ⟨new, hn, hr⟩ := this.2 items hi
  rw [List.nil_append] at hn
  subst hn
  obtain ⟨pre, hp, ho⟩ := hr _ hm
  exact (ho k n rfl).trans ((MayOccur.of_infix (infix_toksText hp)).trans h4)

theorem namedOf_keys (items : List ArgItem) : ∀ kn ∈ namedOf items, ArgItem.named kn.1 kn.2 ∈ items := by
  have : ∀ (l : List ArgItem) (d : Dict CtxText), (∀ kn ∈ d, ArgItem.named kn.1 kn.2 ∈ items) → (∀ i ∈ l, i ∈ items) →
      ∀ kn ∈ l.foldl (fun d i => match i with | .named k n => Dict.set d k n | .unnamed _ => d) d, ArgItem.named kn.1 kn.2 ∈ items := by
    intro l
    induction l with
    | nil => intro d hd _; exact hd
    | cons i l ih =>
      intro d hd hl
      refine ih _ ?_ (fun j hj => hl j (by simp [hj]))
      cases i with
      | unnamed n => exact hd
      | named k n =>
        intro kn hk
        rcases Dict.mem_set hk with rfl | hk
        · exact hl (.named k n) (by simp)
        · exact hd kn hk
  exact this items [] (by simp) (fun _ h => h)

theorem setNames_keys {α : Type} (u : List α) (n : Dict α) (names : List Str) : ∀ kn ∈ (setNames u n names).2, kn ∈ n ∨ kn.1 ∈ names := by
  unfold setNames
  intro kn hk
  rcases Dict.mem_update hk with hk | hk
  · exact .inl hk
  · rcases Dict.mem_update hk with hk | hk
    · cases hk
    · exact .inr ((List.mem_filter.1 (List.of_mem_zip hk).1).1)

theorem applyAlias_keys {p : ParsedArgs} {al : CtxText} {a : Alias} {missing : List Str} {kn : Str × CtxText} (h : kn ∈ (applyAlias p al a missing).named) :
    kn ∈ p.named ∨ (∃ v, Dict.get? a.args kn.1 = some v) ∨ kn.1 ∈ a.names := by
  have hfold : ∀ (l : List Str) (d : Dict CtxText), (∀ kn ∈ d, kn ∈ p.named ∨ ∃ v, Dict.get? a.args kn.1 = some v) →
      ∀ kn ∈ l.foldl (fun d k => match Dict.get? a.args k with | some v => Dict.set d k ⟨v, al.ctx⟩ | none => d) d,
        kn ∈ p.named ∨ ∃ v, Dict.get? a.args kn.1 = some v := by
    intro l
    induction l with
    | nil => intro d hd; exact hd
    | cons k l ih =>
      intro d hd
      refine ih _ ?_
      cases hk : Dict.get? a.args k with
      | none => simp only [hk]; exact hd
      | some w =>
        simp only [hk]
        intro kn hkn
        rcases Dict.mem_set hkn with rfl | hkn
        · exact .inr ⟨w, hk⟩
        · exact hd kn hkn
  unfold applyAlias at h
  dsimp only at h
  rcases setNames_keys _ _ _ kn h with h | h
  · rcases hfold missing p.named (fun kn hk => .inl hk) kn h with h | h
    · exact .inl h
    · exact .inr (.inl h)
  · exact .inr (.inr h)

/-- The names of arguments are in the text, or come from the alias `source`. -/
theorem parseArgs_keys {env : Env} (hs : Standard V env) {text : Str} {sl sc : Nat} {src : Option Str} {p : ParsedArgs} (h : parseArgs env text sl sc src = .ok p)
    {kn : Str × CtxText} (hm : kn ∈ p.named) : MayOccur kn.1 text ∨ kn.1 = c%"engine" ∨ kn.1 = c%"language" := by
  unfold parseArgs at h
  obtain ⟨ts, h1, h⟩ := bind_ok_except h
  have h := locateArgs_ok.1 h
  unfold parseArgTokens at h
  obtain ⟨items, h2, h⟩ := bind_ok_except h
  unfold isolateTagsAndSubtype at h
  obtain ⟨q, h3, h⟩ := bind_ok_except h
  have hq := (isolate_bounds.2 q h3).1
  have hin : ∀ kn ∈ q.named, MayOccur kn.1 text := by
    intro kn hk
    rw [hq] at hk
    exact args_keys h1 h2 (namedOf_keys items kn hk)
  split at h
  · cases h; exact .inl (hin kn hm)
  · rename_i al ha
    obtain ⟨a, h4, h⟩ := bind_ok_except h
    rw [standard_alias hs] at h4
    split at h4
    · injection h4 with h4
      subst h4
      cases h
      rcases applyAlias_keys hm with hm | ⟨v, hv⟩ | hm
      · exact .inl (hin kn hm)
      · simp only [Dict.get?] at hv
        split at hv
        · rename_i he; exact .inr (.inl he.symm)
        · cases hv
      · simp only [List.mem_singleton] at hm
        exact .inr (.inr hm)
    · cases h4

/-! ## States -/

/-- The arguments have no start of lists and no delimiter of markers that are refused. -/
structure ArgsOk (a : NodeArgs) : Prop where
  start : ∀ v, Dict.get? a.named c%"start" = some v → IsStart v
  delim : Dict.get? a.named c%"marker_delimiter" ≠ some []

/-- The states of a parser reading a well-formed document. -/
structure Orderly (V : Project) (s : DocSt) : Prop where
  settled : Standard V s.env
  args : ∀ a, s.argsBuf = some a → ArgsOk a

/-- A step without foreign errors. -/
structure Fair (V : Project) (x : Except Err DocSt) : Prop where
  err : ∀ e, x = .error e → Decent e
  ok : ∀ s, x = .ok s → Orderly V s

theorem ArgsOk.empty : ArgsOk {} := ⟨fun _ h => (nomatch h), (nomatch ·)⟩

theorem Orderly.ofArgs {s : DocSt} (h : Orderly V s) : ArgsOk (Spec.args s) := by
  unfold Spec.args
  cases ha : s.argsBuf with
  | none => exact .empty
  | some a => exact h.args a ha

theorem Fair.error {e : Err} (h : Decent e) : Fair V (.error e) := ⟨fun _ h' => (by cases h'; exact h), (fun _ h' => nomatch h')⟩
theorem Fair.good {s : DocSt} (h : Orderly V s) : Fair V (.ok s) := ⟨(fun _ h' => nomatch h'), fun _ h' => (by cases h'; exact h)⟩

theorem Fair.bind {α : Type} {x : Except Err α} {g : α → Except Err DocSt} (h1 : ∀ e, x = .error e → Decent e) (h2 : ∀ a, x = .ok a → Fair V (g a)) :
    Fair V (x >>= g) := by
  cases x with
  | error e => exact .error (h1 e rfl)
  | ok a => exact h2 a rfl

theorem mau_decent {e : Err} (h : e.isMau = true) : Decent e := .inl h

theorem allowed_decent {s : DocSt} {e : Err} (h : Spec.allowed s = .error e) : Decent e := by
  unfold Spec.allowed at h
  split at h
  · cases h
  · unfold Control.process at h
    split at h
    · cases h; exact .inl rfl
    · cases h

theorem Orderly.put {s : DocSt} (h : Orderly V s) (keep : Bool) (n : Node) : Orderly V (put s keep n) := by
  unfold Spec.put
  split
  · exact ⟨h.settled, (fun a ha => nomatch ha)⟩
  · exact ⟨h.settled, (fun a ha => nomatch ha)⟩

/-- Other parts of the state do not matter. -/
theorem Orderly.like {s s' : DocSt} (h : Orderly V s) (he : s'.env = s.env) (ha : s'.argsBuf = s.argsBuf) : Orderly V s' :=
  ⟨he ▸ h.settled, fun a h' => h.args a (ha ▸ h')⟩

theorem Orderly.noArgs {s s' : DocSt} (h : Orderly V s) (he : s'.env = s.env) (ha : s'.argsBuf = none) : Orderly V s' :=
  ⟨he ▸ h.settled, fun a h' => by rw [ha] at h'; cases h'⟩

theorem fair_rule {s : DocSt} (h : Orderly V s) (ctx : Context) : Fair V (ruleStep s ctx) :=
  .bind (fun _ => allowed_decent) fun _ _ => .good (h.put _ _)

/-! ## Definitions -/

theorem setitem_leaf (env : Env) (k : Str) (v : Val) : Env.setitem env k (.leaf v) = Dict.set env k v := by
  unfold Env.setitem Env.dupdate
  rfl

theorem settings_set {env : Env} {k : Str} {v : Val} (h : ¬ startsWith k c%"mau.parser." = true) : settings (Dict.set env k v) = settings env := by
  unfold settings
  induction env with
  | nil => simp only [Dict.set, List.filter_cons, h, if_false]; simp
  | cons kv env ih =>
    obtain ⟨k', v'⟩ := kv
    simp only [Dict.set]
    split
    · rename_i he
      subst he
      simp only [List.filter_cons, h]
      simp
    · simp only [List.filter_cons, ih]

theorem startsWith_one {name : Str} {c : Char} (h : startsWith name [c] = true) : name = c :: name.drop 1 := by
  cases name with
  | nil => cases h
  | cons d r => simp [startsWith] at h; simp [h]

theorem definition_name {env : Env} {name value : Str} {ctx : Context} {d : Str × Str} (h : definition env name value ctx = .ok d) : d.1 = declared name := by
  unfold definition at h
  split at h
  · rename_i hs
    cases h
    rw [startsWith_one hs]
    rfl
  · rename_i h1
    split at h
    · rename_i hs
      cases h
      rw [startsWith_one hs]
      rfl
    · rename_i h2
      split at h
      · cases h
      · split at h
        · cases h
        · split at h
          · cases h
          · cases h
            unfold declared
            split
            · exact absurd rfl h1
            · exact absurd rfl h2
            · rfl

theorem definition_decent {env : Env} {name value : Str} {ctx : Context} {e : Err} (h : definition env name value ctx = .error e) : Decent e := by
  unfold definition at h
  split at h
  · cases h
  · split at h
    · cases h
    · split at h
      · cases h; exact .inl rfl
      · split at h
        · rename_i e' hp
          cases h
          exact .inl ((preprocess_bounds _ _ _ _ _).1 _ hp)
        · split at h
          · cases h; exact .inl rfl
          · cases h

theorem fair_define {s : DocSt} (h : Orderly V s) {name value : Str} (hu : V.names (declared name)) (hv : '(' ∉ value) (ctx : Context) : Fair V (defineStep s name value ctx) := by
  refine .bind (fun _ => definition_decent) fun d hd => .good ⟨?_, h.args⟩
  show Standard V (Env.setitem s.env d.1 (.leaf (.str d.2)))
  rw [setitem_leaf]
  refine h.settled.set ?_ (definition_plain h.settled.plain hd (.inr (.inr hv)))
  rw [definition_name hd]
  exact hu

/-! ## Labels, controls, arguments -/

theorem Orderly.inline {P : Parser} {s s' : DocSt} (h : Orderly V s) {t : Str} {ctx : Context} {ns : List Node} (hi : P.inline s t ctx = .ok (ns, s')) : Orderly V s' := by
  have := inline_rest hi
  exact h.like (by rw [this]) (by rw [this])

theorem fair_label {P : Parser} {s : DocSt} (h : Orderly V s) {role t : Str} (ht : SafeText t) (hn : '\n' ∉ t) (ctx : Context) : Fair V (P.labelStep s role t ctx) :=
  .bind (fun _ he => inline_decent h.settled ht hn he) fun _ hr => .good ((h.inline hr).like rfl rfl)

theorem fair_control {s : DocSt} (h : Orderly V s) {op : Str} {t : Token} (hne : t.value ≠ []) (hp : Literal t.value)
    (hn : '\n' ∉ t.value) {cx : Context} : Fair V (controlStep s op t cx) := by
  have hpre := C17_no_special s.env t.value (fun c hc => by unfold preSpecial; have := hp c hc; simp_all) hn t.ctx.startLine t.ctx.startColumn t.ctx.source
  have hcond : processConditionWithVariables s.env t = parseCondition t.value t.ctx.startLine t.ctx.startColumn t.ctx.source := by
    unfold processConditionWithVariables
    cases hq : preprocess s.env t.value t.ctx.startLine t.ctx.startColumn t.ctx.source with
    | error e => rw [hq] at hpre; cases hpre
    | ok r =>
      rw [hq] at hpre
      injection hpre with hpre
      dsimp only at hpre
      show parseCondition r.value _ _ _ = _
      rw [hpre]
  unfold controlStep
  rw [hcond]
  rcases parseCondition_cases hn t.ctx.startLine t.ctx.startColumn t.ctx.source with ⟨h1, _⟩ | ⟨x, h1, h2⟩ | ⟨var, neg, value, ctx, h1⟩
  · exact absurd h1 hne
  · rw [h1]; exact .error (.inl h2)
  · rw [h1]
    refine Fair.bind (x := Except.ok (some _)) (fun _ h' => nomatch h') fun a ha => ?_
    cases ha
    refine .bind (fun e he => ?_) fun c _ => .good (h.like rfl rfl)
    unfold mkControl at he
    split at he
    · cases he; exact .inl rfl
    · cases neg <;> simp at he

theorem processArgs_decent {env : Env} (h : Standard V env) {t : Token} {e : Err} (he : processArgumentsWithVariables env t = .error e) : Decent e := by
  unfold processArgumentsWithVariables at he
  cases hp : preprocess env t.value t.ctx.startLine t.ctx.startColumn t.ctx.source with
  | error x => rw [hp] at he; cases he; exact .inl ((preprocess_bounds _ _ _ _ _).1 _ hp)
  | ok r =>
    rw [hp] at he
    rcases (parseArgs_bounds _ _ _ _ _).1 e he with h' | ⟨_, name, _, h'⟩
    · exact .inl h'
    · exact .inl (h.alias _ _ h')

theorem get?_map_none {d : Dict CtxText} {k : Str} (h : ∀ kn ∈ d, kn.1 ≠ k) : Dict.get? (d.map fun kv => (kv.1, kv.2.value)) k = none := by
  rw [Dict.get?_none_iff]
  intro hm
  simp only [Dict.keys, List.map_map] at hm
  obtain ⟨kn, h1, h2⟩ := List.mem_map.1 hm
  exact h kn h1 h2

theorem fair_arguments {s : DocSt} (h : Orderly V s) {t : Token} (ha : SafeArgs t.value) (hn : '\n' ∉ t.value) : Fair V (argumentsStep s t) := by
  refine .bind (fun _ => processArgs_decent h.settled) fun p hp => .good ⟨h.settled, fun a he => ?_⟩
  cases he
  unfold processArgumentsWithVariables at hp
  obtain ⟨r, h1, h2⟩ := bind_ok_except hp
  have hw := preprocess_written hn ha.written h1
  constructor
  · intro v hv
    have : Dict.get? p.arguments.named c%"start" = none := ?_
    · rw [hv] at this; cases this
    refine get?_map_none fun kn hk he => ?_
    rcases parseArgs_keys h.settled h2 hk with h' | h' | h'
    · exact ha.start (he ▸ h'.trans hw)
    · rw [h'] at he; exact absurd he (by decide)
    · rw [h'] at he; exact absurd he (by decide)
  · have : Dict.get? p.arguments.named c%"marker_delimiter" = none := ?_
    · rw [this]; exact (nomatch ·)
    refine get?_map_none fun kn hk he => ?_
    rcases parseArgs_keys h.settled h2 hk with h' | h' | h'
    · exact ha.delimiter (he ▸ h'.trans hw)
    · rw [h'] at he; exact absurd he (by decide)
    · rw [h'] at he; exact absurd he (by decide)

theorem processArgs_literal {env : Env} {t : Token} (hl : Literal t.value) (hn : '\n' ∉ t.value) :
    processArgumentsWithVariables env t = parseArgs env t.value t.ctx.startLine t.ctx.startColumn t.ctx.source := by
  have hpre := C17_no_special env t.value (fun c hc => by unfold preSpecial; have := hl c hc; simp_all) hn t.ctx.startLine t.ctx.startColumn t.ctx.source
  unfold processArgumentsWithVariables
  cases hq : preprocess env t.value t.ctx.startLine t.ctx.startColumn t.ctx.source with
  | error e => rw [hq] at hpre; cases hpre
  | ok r =>
    rw [hq] at hpre
    injection hpre with hpre
    dsimp only at hpre
    show parseArgs _ r.value _ _ _ = _
    rw [hpre]

theorem Spec.GoodArgs.named {as : List Arg} (h : GoodArgs as) {a : NodeArgs} (ha : ∀ k v, Dict.get? a.named k = some v → (k, v) ∈ keyed as ∨ k = c%"engine" ∨ k = c%"language") :
    ArgsOk a := by
  constructor
  · intro v hv
    rcases ha _ _ hv with h' | h' | h'
    · exact h.start v h'
    · exact absurd h' (by decide)
    · exact absurd h' (by decide)
  · intro hv
    rcases ha _ _ hv with h' | h' | h'
    · exact h.delimiter h'
    · exact absurd h' (by decide)
    · exact absurd h' (by decide)

theorem fair_plainArguments {s : DocSt} (h : Orderly V s) {t : Token} {as : List Arg} (ha : PlainArgs t.value as) (hl : Literal t.value) (hg : GoodArgs as) :
    ∃ a, argumentsStep s t = .ok { s with argsBuf := some a } ∧ ArgsOk a ∧ a.named = keyed as := by
  obtain ⟨p, h1, h2⟩ := C22_round_trip s.env as t.value ha.writes ha.first ha.keys ha.plain t.ctx.startLine t.ctx.startColumn t.ctx.source
  have h3 : argumentsStep s t = .ok { s with argsBuf := some p.arguments } := by
    unfold argumentsStep
    rw [processArgs_literal hl (writesAll_newline ha.writes), h1]
    rfl
  refine ⟨_, h3, hg.named fun k v hk => ?_, by rw [h2]⟩
  rw [h2] at hk
  exact .inl (Dict.mem_of_get? hk)

/-- The engine named by the arguments. -/
def engineOf (a : NodeArgs) : Str := (Dict.get? a.named c%"engine").getD c%"default"

theorem get?_mapValue (d : Dict CtxText) (k : Str) : Dict.get? (d.map fun kv => (kv.1, kv.2.value)) k = (Dict.get? d k).map (·.value) := by
  induction d with
  | nil => rfl
  | cons kv d ih =>
    obtain ⟨a, b⟩ := kv
    simp only [List.map_cons, Dict.get?]
    split
    · rfl
    · exact ih

theorem fair_code {s : DocSt} (h : Orderly V s) {t : Token} (hc : CodeArgs t.value) :
    ∃ a, argumentsStep s t = .ok { s with argsBuf := some a } ∧ ArgsOk a ∧ engineOf a ≠ c%"default" := by
  generalize ht : t.value = v at hc
  cases hc with
  | engine ha hl hg he hv =>
    subst ht
    obtain ⟨a, h1, h2, h3⟩ := fair_plainArguments h ha hl hg
    refine ⟨a, h1, h2, ?_⟩
    unfold engineOf
    rw [h3, Dict.get?_of_mem ha.keys he]
    exact hv
  | @source as hw hf hk hp hl hg he =>
    subst ht
    have hf' : PositionalFirst (.pos c%"@source" :: as) := by
      obtain ⟨ps, ks, rfl⟩ := hf
      exact ⟨c%"@source" :: ps, ks, rfl⟩
    obtain ⟨us, ns, h1, h2, h3⟩ := C22_found s.env _ t.value hw hf' hk t.ctx.startLine t.ctx.startColumn t.ctx.source
    have hpos : positional (.pos c%"@source" :: as) = c%"@source" :: positional as := rfl
    have hkey : keyed (.pos c%"@source" :: as) = keyed as := rfl
    rw [hpos] at h1
    rw [hkey] at h2
    obtain ⟨u0, us', rfl⟩ : ∃ u us', us = u :: us' := by
      cases us with
      | nil => cases h1
      | cons u us' => exact ⟨u, us', rfl⟩
    simp only [List.map_cons, List.cons.injEq] at h1
    have hu : ∀ u ∈ us', u.value.head? ≠ some '#' ∧ u.value.head? ≠ some '*' ∧ u.value.head? ≠ some '@' := by
      intro u hu
      exact hp u.value (by rw [← h1.2]; exact List.mem_map.2 ⟨u, hu, rfl⟩)
    have hone : ∀ u ∈ u0 :: us', OneMark u := by
      intro u hu'
      rcases List.mem_cons.1 hu' with rfl | hu'
      · unfold OneMark; rw [h1.1]; decide
      · have := hu u hu'
        exact ⟨fun h => absurd h this.1, fun h => absurd h this.2.1⟩
    have hw1 : withPrefix '*' (u0 :: us') = [] := by
      unfold withPrefix
      rw [List.filter_eq_nil_iff]
      intro u hu'
      rcases List.mem_cons.1 hu' with rfl | hu'
      · rw [h1.1]; decide
      · simpa using (hu u hu').2.1
    have hw2 : withPrefix '@' (u0 :: us') = [u0] := by
      unfold withPrefix
      rw [List.filter_cons, if_pos (by rw [h1.1]; decide), List.filter_eq_nil_iff.2]
      intro u hu'
      simpa using (hu u hu').2.2
    have hiso := C24_marks (u0 :: us') ns hone
    rw [hw1, hw2, if_neg (by simp), if_neg (by simp)] at hiso
    have hd : dropMark u0 = ⟨c%"source", u0.ctx⟩ := by unfold dropMark; rw [h1.1]; rfl
    let q : ParsedArgs := {
      unnamed := (u0 :: us').filter fun u => u.value.head? ≠ some '#' && u.value.head? ≠ some '*' && u.value.head? ≠ some '@'
      named := ns
      tagNodes := (withPrefix '#' (u0 :: us')).map (·.value.tail)
      subtype := none
      alias := some ⟨c%"source", u0.ctx⟩ }
    have hq : isolate (u0 :: us') ns = .ok q := by
      rw [hiso]; simp only [List.head?_cons, Option.map_some, hd]; rfl
    let al : Alias := ⟨[(c%"engine", c%"source")], [c%"language"], none⟩
    have hlook : lookupAlias s.env c%"source" = .ok al := by rw [standard_alias h.settled]; rfl
    have hpa : parseArgs s.env t.value t.ctx.startLine t.ctx.startColumn t.ctx.source = .ok (applyAlias q ⟨c%"source", u0.ctx⟩ al (missingKeys al ns)) := by
      refine unplaced_eq_ok.1 (h3.trans (unplaced_eq_ok.2 ?_))
      unfold isolateTagsAndSubtype
      rw [hq]
      simp only [Bind.bind, Except.bind]
      have hqa : q.alias = some ⟨c%"source", u0.ctx⟩ := rfl
      rw [hqa]
      dsimp only
      rw [hlook]
      rfl
    have halias := C25_alias q ⟨c%"source", u0.ctx⟩ al (missingKeys al ns) (missingKeys_isMissing al ns) (by decide)
    have hnone : Dict.get? ns c%"engine" = none := by
      cases hg' : Dict.get? ns c%"engine" with
      | none => rfl
      | some v =>
        exfalso
        apply he v.value
        rw [← h2]
        exact List.mem_map.2 ⟨_, Dict.mem_of_get? hg', rfl⟩
    have heng := halias.2.1 c%"engine" c%"source" hnone rfl
    refine ⟨(applyAlias q ⟨c%"source", u0.ctx⟩ al (missingKeys al ns)).arguments, ?_, ?_, ?_⟩
    · unfold argumentsStep
      rw [processArgs_literal hl (writesAll_newline hw), hpa]
      rfl
    · refine hg.named fun k v hk' => ?_
      change Dict.get? ((applyAlias q ⟨c%"source", u0.ctx⟩ al (missingKeys al ns)).named.map fun kv => (kv.1, kv.2.value)) k = some v at hk'
      rw [get?_mapValue] at hk'
      cases hg' : Dict.get? (applyAlias q ⟨c%"source", u0.ctx⟩ al (missingKeys al ns)).named k with
      | none => rw [hg'] at hk'; cases hk'
      | some w =>
        rw [hg'] at hk'
        simp only [Option.map_some, Option.some.injEq] at hk'
        subst hk'
        rcases applyAlias_keys (Dict.mem_of_get? hg') with hm | ⟨x, hx⟩ | hm
        · left
          rw [← h2]
          exact List.mem_map.2 ⟨_, hm, rfl⟩
        · simp only [al, Dict.get?] at hx
          split at hx
          · rename_i hx'; exact .inr (.inl hx'.symm)
          · cases hx
        · simp only [al, List.mem_singleton] at hm
          exact .inr (.inr hm)
    · unfold engineOf
      change (Dict.get? ((applyAlias q ⟨c%"source", u0.ctx⟩ al (missingKeys al ns)).named.map fun kv => (kv.1, kv.2.value)) c%"engine").getD _ ≠ _
      rw [get?_mapValue, heng]
      show c%"source" ≠ c%"default"
      decide

/-! ## Headers, paragraphs, lists -/

theorem spanOf_decent {ns : List Node} (h : ns ≠ []) {e : Err} (he : spanOf ns = .error e) : Decent e := by
  cases ns with
  | nil => exact absurd rfl h
  | cons a as =>
    unfold spanOf at he
    rw [List.head?_cons, List.getLast?_cons] at he
    cases he

theorem nameHeader_decent {s : DocSt} {nm : Option Str} {id : Nat} {cx : Context} {e : Err} (h : nameHeader s nm id cx = .error e) : Decent e := by
  unfold nameHeader at h
  split at h
  · cases h
  · split at h
    · cases h; exact .inl rfl
    · cases h

theorem nameHeader_like {s s' : DocSt} {nm : Option Str} {id : Nat} {cx : Context} (h : nameHeader s nm id cx = .ok s') : s'.env = s.env ∧ s'.argsBuf = s.argsBuf := by
  unfold nameHeader at h
  split at h
  · cases h; exact ⟨rfl, rfl⟩
  · split at h
    · cases h
    · cases h; exact ⟨rfl, rfl⟩

theorem fair_header {P : Parser} {s : DocSt} (h : Orderly V s) {t : Str} (ht : SafeText t) (hv : Visible t) (hn : '\n' ∉ t) (level : Nat) (signs ctx : Context) :
    Fair V (P.headerStep s level t signs ctx) := by
  unfold Parser.headerStep
  have h0 : Orderly V { s with uid := s.uid + 1 } := h.like rfl rfl
  refine .bind (fun _ he => inline_decent h0.settled ht hn he) fun r hr => ?_
  have h1 : Orderly V r.2 := h0.inline hr
  refine .bind (fun _ => spanOf_decent (inline_visible hv hn hr)) fun c _ => ?_
  refine .bind (fun _ => allowed_decent) fun keep _ => ?_
  split
  · refine .bind (fun _ => nameHeader_decent) fun s2 h2 => .good ?_
    obtain ⟨e1, e2⟩ := nameHeader_like h2
    exact (h1.like e1 e2).noArgs rfl rfl
  · exact .good (h1.noArgs rfl rfl)

theorem fair_lines {P : Parser} {src : Option Str} : ∀ {ls : List Str} {ln col : Nat} {s : DocSt}, Orderly V s → (∀ l ∈ ls, SafeText l ∧ '\n' ∉ l) →
    (∀ e, P.inlineLines s (textToks src ln col ls) = .error e → Decent e) ∧
    ∀ r, P.inlineLines s (textToks src ln col ls) = .ok r → Orderly V r.2 ∧ r.1.length = ls.length := by
  intro ls
  induction ls with
  | nil => exact fun h _ => ⟨(fun _ he => nomatch he), fun r hr => (by cases hr; exact ⟨h, rfl⟩)⟩
  | cons l ls ih =>
    intro ln col s h hl
    simp only [textToks, Parser.inlineLines]
    have hl1 := hl l (by simp)
    cases hi : P.inline s (tokAt .TEXT l ln col src).value (tokAt .TEXT l ln col src).ctx with
    | error e => exact ⟨fun e' he => (by cases he; exact inline_decent h.settled hl1.1 hl1.2 hi), (fun r hr => nomatch hr)⟩
    | ok r =>
      obtain ⟨h2, h3⟩ := ih (ln := ln + 1) (col := 0) (h.inline hi) (fun l' hl' => hl l' (by simp [hl']))
      cases hj : P.inlineLines r.2 (textToks src (ln + 1) 0 ls) with
      | error e => exact ⟨fun e' he => (by simp only [Bind.bind, Except.bind, hj] at he; cases he; exact h2 _ hj), fun r hr => (by simp only [Bind.bind, Except.bind, hj] at hr; cases hr)⟩
      | ok rs =>
        refine ⟨fun e' he => (by simp only [Bind.bind, Except.bind, hj] at he; cases he), fun r hr => ?_⟩
        simp only [Bind.bind, Except.bind, hj] at hr
        cases hr
        have := h3 rs hj
        exact ⟨this.1, by simp [this.2]⟩

theorem fair_paragraph {P : Parser} {s : DocSt} (h : Orderly V s) {ls : List Str} (hne : ls ≠ []) (hl : ∀ l ∈ ls, SafeText l ∧ '\n' ∉ l) (src : Option Str) (ln col : Nat) :
    Fair V (P.paragraphStep s (textToks src ln col ls)) := by
  obtain ⟨h1, h2⟩ := fair_lines (P := P) (src := src) (ln := ln) (col := col) h hl
  refine .bind h1 fun r hr => .bind (fun _ => spanOf_decent ?_) fun _ _ => .bind (fun _ => allowed_decent) fun _ _ => .good ((h2 r hr).1.put _ _)
  intro he
  have := (h2 r hr).2
  rw [he] at this
  cases ls with
  | nil => exact hne rfl
  | cons => cases this

theorem fair_items {P : Parser} {src : Option Str} : ∀ {is : List ItemLine} {ln col : Nat} {s : DocSt}, Orderly V s →
    (∀ j ∈ is, SafeText j.text ∧ Visible j.text ∧ '\n' ∉ j.text) →
    (∀ e, P.items s (itemToks src ln col is) = .error e → Decent e) ∧
    ∀ r, P.items s (itemToks src ln col is) = .ok r → Orderly V r.2 ∧ r.1.length = is.length := by
  intro is
  induction is with
  | nil => exact fun h _ => ⟨(fun _ he => nomatch he), fun r hr => (by cases hr; exact ⟨h, rfl⟩)⟩
  | cons i is ih =>
    intro ln col s h hl
    simp only [itemToks, Parser.items]
    have hl1 := hl i (by simp)
    generalize hT : tokAt .LIST i.mark ln (col + i.indent.length) src = T
    generalize hU : tokAt .TEXT i.text ln (col + i.indent.length + i.mark.length + i.spaces.length) src = U
    have hUv : U.value = i.text := by rw [← hU]; rfl
    have hitem : (∀ e, P.item s (T, U) = .error e → Decent e) ∧ ∀ r, P.item s (T, U) = .ok r → Orderly V r.2 := by
      unfold Parser.item
      dsimp only
      rw [hUv]
      cases hi : P.inline s i.text U.ctx with
      | error e => exact ⟨fun e' he => (by cases he; exact inline_decent h.settled hl1.1 hl1.2.2 hi), (fun r hr => nomatch hr)⟩
      | ok r =>
        have := inline_visible hl1.2.1 hl1.2.2 hi
        simp only [Bind.bind, Except.bind]
        cases hg : r.1.getLast? with
        | none => rw [List.getLast?_eq_none_iff] at hg; exact absurd hg this
        | some last => exact ⟨(fun e' he => nomatch he), fun r' hr => (by cases hr; exact h.inline hi)⟩
    cases hi : P.item s (T, U) with
    | error e => exact ⟨fun e' he => (by cases he; exact hitem.1 _ hi), (fun r hr => nomatch hr)⟩
    | ok r =>
      obtain ⟨h2, h3⟩ := ih (ln := ln + 1) (col := 0) (hitem.2 _ hi) (fun l' hl' => hl l' (by simp [hl']))
      cases hj : P.items r.2 (itemToks src (ln + 1) 0 is) with
      | error e => exact ⟨fun e' he => (by simp only [Bind.bind, Except.bind, hj] at he; cases he; exact h2 _ hj), fun r hr => (by simp only [Bind.bind, Except.bind, hj] at hr; cases hr)⟩
      | ok rs =>
        refine ⟨fun e' he => (by simp only [Bind.bind, Except.bind, hj] at he; cases he), fun r hr => ?_⟩
        simp only [Bind.bind, Except.bind, hj] at hr
        cases hr
        have := h3 rs hj
        exact ⟨this.1, by simp [this.2]⟩

theorem fair_list {s : DocSt} (h : Orderly V s) {mark : Token} {ns : List Node} (hne : ns ≠ []) : Fair V (listStep s mark ns) := by
  unfold listStep
  refine Fair.bind (x := listStart _ s.latest ns.length) (fun e he => ?_) fun r _ => ?_
  · unfold listStart at he
    split at he
    · cases he
    · rename_i v hv
      split at he
      · cases he
      · rename_i hau
        rcases h.ofArgs.start v hv with h1 | ⟨h1, h2⟩
        · exact absurd h1 hau
        · rw [pyInt_decimal (fun c hc => by
            have := h2 c hc
            unfold isDigitAscii
            simp only [decide_eq_true_eq, Bool.and_eq_true]
            exact this) h1] at he
          cases he
  have h1 : Orderly V { s with latest := r.2 } := h.like rfl rfl
  exact .bind (fun _ => spanOf_decent hne) fun _ _ => .bind (fun _ => allowed_decent) fun _ _ => .good (h1.put _ _)

/-! ## Blocks -/

theorem base_styles : Env.get baseSettings c%"mau.parser.source_highlight_style_aliases" =
    .namespace [(['+'], .str c%"add"), (['-'], .str c%"remove"), (['!'], .str c%"important"), (['x'], .str c%"error")] := by
  decide +kernel

theorem sourceLine_ok {p : SourceParams} (hd : p.delim ≠ []) (ha : ∀ s, ∃ v, styleAlias p.aliases s = .ok v) (line : Str) : ∃ r, sourceLine p line = .ok r := by
  unfold sourceLine
  split
  · exact ⟨_, rfl⟩
  · split
    · rename_i h; rw [List.isEmpty_iff] at h; exact absurd h hd
    · dsimp only
      split
      · exact ⟨_, rfl⟩
      · split
        · exact ⟨_, rfl⟩
        · split
          · rename_i marker _ _ _
            split
            · rename_i e he
              obtain ⟨v, hv⟩ := ha _
              rw [he] at hv; cases hv
            · exact ⟨_, rfl⟩
          · split
            · exact ⟨_, rfl⟩
            · exact ⟨_, rfl⟩

theorem sourceLines_ok {p : SourceParams} (hd : p.delim ≠ []) (ha : ∀ s, ∃ v, styleAlias p.aliases s = .ok v) (c : Context) : ∀ (ls : List Str) (i : Nat), ∃ r, sourceLines p c i ls = .ok r
  | [], _ => ⟨_, rfl⟩
  | l :: ls, i => by
    obtain ⟨r, hr⟩ := sourceLine_ok hd ha l
    obtain ⟨rs, hrs⟩ := sourceLines_ok hd ha c ls (i + 1)
    unfold sourceLines
    rw [hr]
    simp only [Bind.bind, Except.bind, hrs]
    exact ⟨_, rfl⟩

theorem source_standard {env : Env} (h : Standard V env) (t : Token) {a : NodeArgs} (hd : Dict.get? a.named c%"marker_delimiter" ≠ some []) : ∃ r, sourceEngine env t a = .ok r := by
  unfold sourceEngine
  rw [get_settings (env := env) (key := c%"mau.parser.source_highlight_style_aliases") (by decide), h.sett, base_styles]
  simp only [NodeArgs.pop]
  have : Env.asdict [(['+'], .str c%"add"), (['-'], .str c%"remove"), (['!'], .str c%"important"), (['x'], .str c%"error")] =
      .ok [(['+'], .leaf (.str c%"add")), (['-'], .leaf (.str c%"remove")), (['!'], .leaf (.str c%"important")), (['x'], .leaf (.str c%"error"))] := by rfl
  rw [this]
  simp only [Bind.bind, Except.bind]
  generalize hp : SourceParams.mk _ _ _ _ = p
  obtain ⟨r, hr⟩ := sourceLines_ok (p := p) (by
    rw [← hp]
    dsimp only
    cases hg : Dict.get? a.named c%"marker_delimiter" with
    | none => exact List.cons_ne_nil _ _
    | some v => intro he; exact hd (by rw [hg]; exact congrArg some he)) (fun s => by
    rw [← hp]
    unfold styleAlias
    dsimp only
    by_cases e1 : ['+'] = s
    · subst e1; exact ⟨_, rfl⟩
    by_cases e2 : ['-'] = s
    · subst e2; exact ⟨_, rfl⟩
    by_cases e3 : ['!'] = s
    · subst e3; exact ⟨_, rfl⟩
    by_cases e4 : ['x'] = s
    · subst e4; exact ⟨_, rfl⟩
    simp only [Dict.get?, e1, e2, e3, e4, if_false]
    exact ⟨_, rfl⟩) t.ctx (splitChar '\n' t.value) 0
  rw [hr]
  exact ⟨_, rfl⟩

/-- The parser of the content has no foreign errors. -/
structure FairInner (V : Project) (x : Except Err DocSt) : Prop where
  err : ∀ e, x = .error e → Decent e
  ok : ∀ s, x = .ok s → Standard V s.env

theorem addBlock_decent {g : Dict (Dict Node)} {a b : Str} {n : Node} {e : Err} (h : addBlock g a b n = .error e) : Decent e := by
  unfold addBlock at h
  dsimp only at h
  split at h
  · cases h; exact .inl rfl
  · cases h

theorem fair_place {s : DocSt} (h : Standard V s.env) (hb : s.argsBuf = none) (d : NodeData) (ns : List Node) (a : NodeArgs) (ls : Dict Node) (ctx own : Context) : Fair V (placeStep s d ns a ls ctx own) := by
  have ho : Orderly V s := ⟨h, fun a ha => by rw [hb] at ha; cases ha⟩
  unfold placeStep
  split
  · split
    · exact .error (.inl rfl)
    · exact .good (ho.like rfl rfl)
  · split
    · exact .bind (fun _ => addBlock_decent) fun _ _ => .good (ho.like rfl rfl)
    · exact .bind (fun _ => allowed_decent) fun _ _ => .good (ho.put _ _)

theorem fair_engine {P : Parser} {s : DocSt} (h : Standard V s.env) (hb : s.argsBuf = none) {engine : Str} {cl : List Str} {content : Option Token} {a : NodeArgs} {cx : Context}
    (hd : Dict.get? a.named c%"marker_delimiter" ≠ some [])
    (hn : engine = c%"default" → ∀ t, content = some t → FairInner V (P.nested ⟨t.value, s.env, t.ctx.startLine, t.ctx.startColumn, t.ctx.source, [], s.uid, s.objs⟩)) :
    (∀ e, P.engineStep s engine cl content a cx = .error e → Decent e) ∧ ∀ r, P.engineStep s engine cl content a cx = .ok r → Standard V r.2.env ∧ r.2.argsBuf = none := by
  unfold Parser.engineStep
  split
  · rename_i he
    split
    · exact ⟨fun _ he => (nomatch he), fun r hr => (by cases hr; exact ⟨h, hb⟩)⟩
    · rename_i t
      have hin := hn he t rfl
      unfold Parser.contentStep
      cases hx : P.nested ⟨t.value, s.env, t.ctx.startLine, t.ctx.startColumn, t.ctx.source, [], s.uid, s.objs⟩ with
      | error e => exact ⟨fun e' he => (by cases he; exact hin.err _ hx), fun r hr => (nomatch hr)⟩
      | ok inner =>
        simp only [Bind.bind, Except.bind, Pure.pure, Except.pure]
        refine ⟨fun _ he => (nomatch he), fun r hr => ?_⟩
        cases hr
        dsimp only
        split
        · exact ⟨hin.ok inner hx, hb⟩
        · exact ⟨hin.ok inner hx, hb⟩
  · split
    · split
      · exact ⟨fun _ he => (nomatch he), fun r hr => (by cases hr; exact ⟨h, hb⟩)⟩
      · exact ⟨fun _ he => (nomatch he), fun r hr => (by cases hr; exact ⟨h, hb⟩)⟩
    · split
      · split
        · exact ⟨fun _ he => (nomatch he), fun r hr => (by cases hr; exact ⟨h, hb⟩)⟩
        · rename_i t
          obtain ⟨r, hr⟩ := source_standard h t hd
          rw [hr]
          exact ⟨fun _ he => (nomatch he), fun r hr => (by cases hr; exact ⟨h, hb⟩)⟩
      · exact ⟨fun _ he => (by cases he; exact .inl rfl), fun r hr => (nomatch hr)⟩

theorem fair_block {P : Parser} {s : DocSt} (h : Orderly V s) {content : Option Token} (ctx : Context)
    (hn : engineOf (Spec.args s) = c%"default" → ∀ t, content = some t → t.value ≠ [] →
      FairInner V (P.nested ⟨t.value, s.env, t.ctx.startLine, t.ctx.startColumn, t.ctx.source, [], s.uid, s.objs⟩)) : Fair V (P.blockStep s content ctx) := by
  unfold Parser.blockStep
  have := fair_engine (P := P) (cx := ctx) (s := { s with argsBuf := none }) h.settled rfl (engine := (Dict.get? (Dict.erase (Spec.args s).named c%"classes") c%"engine").getD c%"default")
    (cl := classesOf (Dict.get? (Spec.args s).named c%"classes")) (content := content.filter fun t => !t.value.isEmpty)
    (a := { Spec.args s with named := Dict.erase (Dict.erase (Spec.args s).named c%"classes") c%"engine" }) (by
      rw [Dict.get?_erase, if_neg (by decide), Dict.get?_erase, if_neg (by decide)]; exact h.ofArgs.delim) (by
      rw [Dict.get?_erase, if_neg (by decide)]
      intro he t ht
      rw [Option.filter_eq_some_iff] at ht
      refine hn he t ht.1 ?_
      have := ht.2
      simp at this
      exact this)
  refine .bind this.1 fun r hr => ?_
  have h2 := this.2 r hr
  exact fair_place (s := { r.2 with labelBuf := [] }) h2.1 h2.2 _ _ _ _ _ _

/-! ## Includes -/

/-- Files can be read, or are not found. -/
def Readable (cfg : Config) : Prop := ∀ f, cfg.files f ≠ .error false

theorem readFile_decent {cfg : Config} (hf : Readable cfg) {uri : Str} {cx : Context} {e : Err} (h : readFile cfg uri cx = .error e) : Decent e := by
  unfold readFile at h
  split at h
  · cases h
  · cases h; exact .inl rfl
  · rename_i he; exact absurd he (hf uri)

theorem fair_include {P : Parser} (hf : Readable P.cfg) {s : DocSt} (h : Orderly V s) {ty : Str} (h1 : ty ≠ c%"mau") (h2 : ty ≠ c%"blockgroup") (a : NodeArgs) (ctx : Context) :
    Fair V (P.includeStep s ty a ctx) := by
  unfold Parser.includeStep
  have : (∀ e, P.includeNodeStep { s with argsBuf := none } ty a ctx = .error e → Decent e) ∧
      ∀ r, P.includeNodeStep { s with argsBuf := none } ty a ctx = .ok r → r.2.env = s.env ∧ r.2.argsBuf = none := by
    unfold Parser.includeNodeStep
    split
    · unfold includeImage
      dsimp only
      split
      · exact ⟨fun _ he => (by cases he; exact .inl rfl), fun r hr => (nomatch hr)⟩
      · exact ⟨fun _ he => (nomatch he), fun r hr => (by cases hr; exact ⟨rfl, rfl⟩)⟩
    · try rw [if_neg h1]
      split
      · unfold includeRaw
        dsimp only
        split
        · exact ⟨fun _ he => (by cases he; exact .inl rfl), fun r hr => (nomatch hr)⟩
        · split
          · rename_i hx
            exact ⟨fun _ he => (by cases he; exact readFile_decent hf hx), fun r hr => (nomatch hr)⟩
          · exact ⟨fun _ he => (nomatch he), fun r hr => (by cases hr; exact ⟨rfl, rfl⟩)⟩
      · split
        · exact ⟨fun _ he => (nomatch he), fun r hr => (by cases hr; exact ⟨rfl, rfl⟩)⟩
        · split
          · exact ⟨fun _ he => (nomatch he), fun r hr => (by cases hr; exact ⟨rfl, rfl⟩)⟩
          · try rw [if_neg h2]
            exact ⟨fun _ he => (nomatch he), fun r hr => (by cases hr; exact ⟨rfl, rfl⟩)⟩
  refine .bind this.1 fun r hr => .bind (fun _ => allowed_decent) fun _ _ => .good (Orderly.put ?_ _ _)
  exact h.noArgs (this.2 r hr).1 (this.2 r hr).2

theorem fair_includeInline {P : Parser} (hf : Readable P.cfg) {s : DocSt} (h : Orderly V s) {ty : Str} (h1 : ty ≠ c%"mau") (h2 : ty ≠ c%"blockgroup") (a : Token) (ctx : Context) :
    Fair V (P.includeInline s ty a ctx) := by
  unfold Parser.includeInline
  split
  · exact .error (.inl rfl)
  · exact .bind (fun _ => processArgs_decent h.settled) fun _ _ => fair_include hf h h1 h2 _ _

/-- Variables a parser may be started with. -/
def Starts (V : Project) (env : Env) : Prop := Standard V env ∨ EnvAll NoParen env ∧ ∀ k ∈ Dict.keys env, V.names k

theorem Starts.init {env : Env} (h : Starts V env) : Standard V (initEnv env) := by
  rcases h with h | h
  · exact h.init
  · exact standard_user h.1 h.2

theorem Starts.set {env : Env} (h : Starts V env) {k v : Str} (hk : V.names k) (hv : '(' ∉ v) : Starts V (Dict.set env k (.str v)) := by
  rcases h with h | h
  · exact .inl (h.set hk hv)
  · refine .inr ⟨h.1.setitem plain_empty k (v := .str v) hv, fun x hx => ?_⟩
    rcases mem_keys_set hx with hx | rfl
    · exact h.2 x hx
    · exact hk

theorem Starts.update {env x : Env} (h : Starts V env) (hx : ∀ kv ∈ x, ∃ w, kv.2 = .str w ∧ V.names kv.1 ∧ '(' ∉ w) : Starts V (Dict.update env x) := by
  unfold Dict.update
  induction x generalizing env with
  | nil => exact h
  | cons kv x ih =>
    obtain ⟨k, v⟩ := kv
    obtain ⟨w, h1, h2, h3⟩ := hx (k, v) (by simp)
    dsimp only at h1 h2
    subst h1
    rw [List.foldl_cons]
    exact ih (h.set h2 h3) fun kv hkv => hx kv (by simp [hkv])

theorem flatten_leaves (l : Dict Str) (flat : Dict Val) :
    flattenItems [] (l.map fun kv => (kv.1, Nested.leaf (.str kv.2))) flat = Dict.update flat (l.map fun kv => (kv.1, Val.str kv.2)) := by
  induction l generalizing flat with
  | nil => rfl
  | cons kv l ih =>
    rw [List.map_cons, flattenItems, ih]
    rfl

theorem Starts.call {env : Env} (h : Starts V env) {l : Dict Str} (hl : ∀ kv ∈ l, V.names kv.1 ∧ '(' ∉ kv.2) :
    Starts V (Env.dupdate env (l.map fun kv => (kv.1, .leaf (.str kv.2)))) := by
  unfold Env.dupdate flattenNested
  dsimp only
  rw [if_pos (by rfl), flatten_leaves]
  refine h.update fun kv hkv => ?_
  rcases Dict.mem_update hkv with hkv | hkv
  · cases hkv
  · obtain ⟨x, hx, rfl⟩ := List.mem_map.1 hkv
    exact ⟨x.2, rfl, (hl x hx).1, (hl x hx).2⟩

theorem setName_mem {a : NodeArgs} {n : Str} {kv : Str × Str} (h : kv ∈ (a.setNames [n]).named) : kv ∈ a.named ∨ kv.1 = n := by
  unfold NodeArgs.setNames setNames at h
  dsimp only at h
  rcases Dict.mem_update h with h | h
  · exact .inl h
  · rcases Dict.mem_update h with h | h
    · cases h
    · right
      have := (List.of_mem_zip (a := kv.1) (b := kv.2) h).1
      have := (List.mem_filter.1 this).1
      simpa using this

/-- The arguments for the included file are variables of the document. -/
def CallOk (V : Project) (a : NodeArgs) : Prop := ∀ x v, (c%"call:" ++ x, v) ∈ a.named → V.names x ∧ '(' ∉ v

theorem call_ok {a : NodeArgs} (h : CallOk V a) : ∀ kv ∈ (callArguments a).1, V.names kv.1 ∧ '(' ∉ kv.2 := by
  intro kv hkv
  unfold callArguments at hkv
  dsimp only at hkv
  rcases Dict.mem_update hkv with hkv | hkv
  · cases hkv
  · obtain ⟨x, hx, rfl⟩ := List.mem_map.1 hkv
    obtain ⟨h1, h2⟩ := List.mem_filter.1 hx
    obtain ⟨t, e⟩ := List.isPrefixOf_iff_prefix.1 h2
    refine h (x.1.drop callPrefix.length) x.2 ?_
    have : c%"call:" ++ x.1.drop callPrefix.length = x.1 := by
      rw [← e]; simp [callPrefix]
    rw [this]
    exact h1

theorem CallOk.erase {a : NodeArgs} (h : CallOk V a) (k : Str) : CallOk V { a with named := Dict.erase a.named k } := by
  intro x v hm
  exact h x v (List.mem_filter.1 hm).1

theorem CallOk.uri {a : NodeArgs} (h : CallOk V a) : CallOk V (a.setNames [c%"uri"]) := by
  intro x v hm
  rcases setName_mem hm with hm | hm
  · exact h x v hm
  · simp at hm

theorem uri_of {a : NodeArgs} {u : Str} (h : truthy (Dict.get? (a.setNames [c%"uri"]).named c%"uri") = some u) :
    a.unnamed.head? = some u ∨ Dict.get? a.named c%"uri" = some u := by
  have h1 : Dict.get? (a.setNames [c%"uri"]).named c%"uri" = some u := by
    unfold truthy at h
    split at h
    · cases h
    · exact h
  obtain ⟨_, _, h2, _⟩ := C26_set_names a.unnamed a.named [c%"uri"] (by simp)
  rcases h2 _ _ h1 with h2 | ⟨i, h2, h3⟩
  · exact .inr h2
  · left
    have hi : i = 0 := by
      obtain ⟨hl, _⟩ := List.getElem?_eq_some_iff.1 h2
      have := List.length_filter_le (fun n => !Dict.has a.named n) [c%"uri"]
      simp only [List.length_singleton] at this
      omega
    subst hi
    rw [List.head?_eq_getElem?]
    exact h3

/-- Including a Mau file. -/
theorem fair_includeMau {P : Parser} (hf : Readable P.cfg) {s : DocSt} (h : Standard V s.env) (hv : V.Apart)
    (hN : ∀ uri text req, V.files uri → P.cfg.files uri = .ok text → req.text = text → Starts V req.env → FairInner V (P.nested req)) {a : NodeArgs} (hc : CallOk V a)
    (hu : ∀ u, a.unnamed.head? = some u ∨ Dict.get? a.named c%"uri" = some u → V.files u) (ctx : Context) :
    Fair V (P.includeStep s c%"mau" a ctx) := by
  unfold Parser.includeStep
  have : (∀ e, P.includeNodeStep { s with argsBuf := none } c%"mau" a ctx = .error e → Decent e) ∧
      ∀ r, P.includeNodeStep { s with argsBuf := none } c%"mau" a ctx = .ok r → r.2.env = s.env ∧ r.2.argsBuf = none := by
    unfold Parser.includeNodeStep
    rw [if_neg (by decide), if_pos rfl]
    unfold Parser.includeMauStep
    dsimp only
    split
    · exact ⟨fun _ he => (by cases he; exact .inl rfl), fun r hr => (nomatch hr)⟩
    · rename_i uri hu'
      have hfile : V.files uri := hu uri (uri_of hu')
      split
      · exact ⟨fun _ he => (by cases he; exact .inl rfl), fun r hr => (nomatch hr)⟩
      · cases hr : readFile P.cfg uri ctx with
        | error e => exact ⟨fun _ he => (by cases he; exact readFile_decent hf hr), fun r hr => (nomatch hr)⟩
        | ok text =>
          have henv : ∃ e, includeEnv (Dict.get? (Dict.erase (a.setNames [c%"uri"]).named c%"uri") c%"pass_environment") s.env = .ok e ∧ Starts V e := by
            unfold includeEnv
            split
            · obtain ⟨e, h1, h2⟩ := h.fromEnvironment hv
              exact ⟨e, h1, .inl h2⟩
            · exact ⟨[], rfl, .inr ⟨fun _ _ hm => (nomatch hm), fun _ hm => (nomatch hm)⟩⟩
          obtain ⟨e, h1, h2⟩ := henv
          rw [h1]
          simp only [Bind.bind, Except.bind, Pure.pure, Except.pure]
          generalize hreq : NestedReq.mk text _ _ _ _ _ _ _ = req
          have hin : FairInner V (P.nested req) := by
            refine hN uri text req hfile ?_ (by rw [← hreq]) ?_
            · unfold readFile at hr
              split at hr
              · rename_i t ht; cases hr; exact ht
              · cases hr
              · cases hr
            · rw [← hreq]
              exact h2.call (call_ok ((hc.uri.erase _).erase _))
          cases hx : P.nested req with
          | error e => exact ⟨fun e' he => (by cases he; exact hin.err _ hx), fun r hr => (nomatch hr)⟩
          | ok inner => exact ⟨fun _ he => (nomatch he), fun r hr => (by cases hr; exact ⟨rfl, rfl⟩)⟩
  refine .bind this.1 fun r hr => .bind (fun _ => allowed_decent) fun _ _ => .good (Orderly.put ?_ _ _)
  exact ⟨(this.2 r hr).1 ▸ h, fun a ha => by rw [(this.2 r hr).2] at ha; cases ha⟩

/-- Including a block group. -/
theorem fair_group {P : Parser} {s : DocSt} (h : Standard V s.env) {a : NodeArgs} (hg : a.unnamed ≠ [] ∨ Dict.get? a.named c%"group" ≠ none) (ctx : Context) :
    Fair V (P.includeStep s c%"blockgroup" a ctx) := by
  unfold Parser.includeStep
  have hget : ∃ g, Dict.get? (a.setNames [c%"group"]).named c%"group" = some g := by
    obtain ⟨h1, h2, _⟩ := C26_set_names a.unnamed a.named [c%"group"] (by simp)
    by_cases hk : Dict.get? a.named c%"group" = none
    · rcases hg with hg | hg
      · obtain ⟨u, us, hu⟩ := List.exists_cons_of_ne_nil hg
        refine ⟨u, h2 0 _ u ?_ (by rw [hu]; rfl)⟩
        simp [Dict.has, hk]
      · exact absurd hk hg
    · obtain ⟨g, hg'⟩ := Option.ne_none_iff_exists'.1 hk
      exact ⟨g, h1 _ _ hg'⟩
  obtain ⟨g, hg'⟩ := hget
  have : P.includeNodeStep { s with argsBuf := none } c%"blockgroup" a ctx = .ok ((.blockgroup s.uid g, [], { a.setNames [c%"group"] with named := Dict.erase (a.setNames [c%"group"]).named c%"group" }),
        { s with argsBuf := none, uid := s.uid + 1, groupNodes := s.groupNodes ++ [(s.uid, g)], places := s.places ++ [(s.uid, ctx)] }) := by
    unfold Parser.includeNodeStep
    rw [if_neg (by decide), if_neg (by decide), if_neg (by decide), if_neg (by decide), if_neg (by decide), if_pos rfl]
    dsimp only
    rw [hg']
  rw [this]
  refine Fair.bind (fun _ h' => nomatch h') fun r hr => ?_
  injection hr with hr
  subst hr
  refine .bind (fun _ => allowed_decent) fun _ _ => .good (Orderly.put ?_ _ _)
  exact ⟨h, fun a ha => by cases ha⟩

/-- Arguments in a known form. -/
theorem plain_arguments {env : Env} {t : Token} {as : List Arg} (ha : PlainArgs t.value as) (hl : Literal t.value) :
    ∃ p, processArgumentsWithVariables env t = .ok p ∧ p.arguments.unnamed = positional as ∧ p.arguments.named = keyed as := by
  obtain ⟨p, h1, h2⟩ := C22_round_trip env as t.value ha.writes ha.first ha.keys ha.plain t.ctx.startLine t.ctx.startColumn t.ctx.source
  exact ⟨p, by rw [processArgs_literal hl (writesAll_newline ha.writes), h1], by rw [h2], by rw [h2]⟩

end Mau
