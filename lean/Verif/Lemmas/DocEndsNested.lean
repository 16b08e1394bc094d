import Verif.Lemmas.DocEndsProcs

set_option linter.unusedSimpArgs false

/-!
# The document parser ends, if the nested parsers do
-/

namespace Mau
open Spec

theorem drop_of_get {toks : List Token} {i : Nat} {a : Token} (h : toks[i]? = some a) : toks.drop i = a :: toks.drop (i + 1) := by
  obtain ⟨hi, h⟩ := List.getElem?_eq_some_iff.1 h
  rw [List.drop_eq_getElem_cons hi, h]

theorem plain_empty : NoParen .emptyDict := by unfold NoParen; decide

theorem base_plain : EnvAll NoParen (Env.fromDict baseEnvItems c%"mau.parser") := by
  have e : Env.fromDict baseEnvItems c%"mau.parser" =
      [(c%"mau.parser.source_highlight_style_aliases.+", .str c%"add"), (c%"mau.parser.source_highlight_style_aliases.-", .str c%"remove"),
       (c%"mau.parser.source_highlight_style_aliases.!", .str c%"important"), (c%"mau.parser.source_highlight_style_aliases.x", .str c%"error"),
       (c%"mau.parser.aliases.source.args.engine", .str c%"source"), (c%"mau.parser.aliases.source.names", .list [c%"language"] c%"['language']")] := by
    decide +kernel
  rw [e]
  intro k v hm
  simp only [List.mem_cons, Prod.mk.injEq, List.not_mem_nil, or_false] at hm
  unfold NoParen
  rcases hm with ⟨_, rfl⟩ | ⟨_, rfl⟩ | ⟨_, rfl⟩ | ⟨_, rfl⟩ | ⟨_, rfl⟩ | ⟨_, rfl⟩ <;> decide

theorem preprocess_plain {env : Env} (he : EnvAll NoParen env) {text : Str} {sl sc : Nat} {src : Option Str} {t : Token} (h : preprocess env text sl sc src = .ok t)
    (ht : '(' ∉ text) : '(' ∉ t.value := by
  intro hc
  rcases (preprocess_bounds env text sl sc src).2 t h '(' hc with h | ⟨kv, h1, h2⟩
  · exact ht h
  · exact he kv.1 kv.2 h1 h2

theorem definition_fuel (env : Env) (name value : Str) (ctx : Context) : definition env name value ctx ≠ .error .fuel := by
  unfold definition
  split
  · simp
  · split
    · simp
    · split
      · simp
      · split
        · rename_i e he
          intro h; cases h
          have := (preprocess_bounds _ _ _ _ _).1 _ he
          cases this
        · split <;> simp

theorem definition_plain {env : Env} (he : EnvAll NoParen env) {name value : Str} {ctx : Context} {d : Str × Str} (h : definition env name value ctx = .ok d)
    (hv : name.head? = some '+' ∨ name.head? = some '-' ∨ '(' ∉ value) : '(' ∉ d.2 := by
  unfold definition at h
  split at h
  · cases h; show '(' ∉ c%"true"; decide
  · rename_i h1
    split at h
    · cases h; show '(' ∉ c%"false"; decide
    · rename_i h2
      have hv : '(' ∉ value := by
        rcases hv with hv | hv | hv
        · exfalso; apply h1
          cases name with
          | nil => cases hv
          | cons c cs => cases hv; simp [startsWith]
        · exfalso; apply h2
          cases name with
          | nil => cases hv
          | cons c cs => cases hv; simp [startsWith]
        · exact hv
      split at h
      · cases h
      · split at h
        · cases h
        · rename_i p hp
          split at h
          · cases h
          · cases h; exact preprocess_plain he hp hv

theorem processArgs_fuel (env : Env) (t : Token) : processArgumentsWithVariables env t ≠ .error .fuel := by
  unfold processArgumentsWithVariables
  refine bind_fuel (fun h => ?_) fun a _ h => ?_
  · have := (preprocess_bounds _ _ _ _ _).1 _ h; cases this
  · rcases (parseArgs_bounds env _ _ _ _).1 _ h with h | ⟨_, name, _, h⟩
    · cases h
    · exact lookupAlias_fuel env name h

theorem processArgs_plain {env : Env} (he : EnvAll NoParen env) {t : Token} {p : ParsedArgs} (h : processArgumentsWithVariables env t = .ok p) (ht : '(' ∉ t.value) :
    ArgsPlain p.arguments := by
  unfold processArgumentsWithVariables at h
  obtain ⟨x, h1, h2⟩ := bind_ok_except h
  have hx := preprocess_plain he h1 ht
  have key : ∀ v, p.Has v → '(' ∉ v := by
    intro v hv hc
    rcases (parseArgs_bounds env _ _ _ _).2 p h2 v hv with h3 | ⟨_, name, a, k, h3, h4⟩
    · exact hx (h3.1.subset hc)
    · obtain ⟨key, hm⟩ := alias_value h3 h4
      exact he _ _ hm hc
  refine ⟨fun v hv => ?_, fun kv hkv => ?_⟩
  · simp only [ParsedArgs.arguments, List.mem_map] at hv
    obtain ⟨n, hn, rfl⟩ := hv
    exact key _ (.inl ⟨n, hn, rfl⟩)
  · simp only [ParsedArgs.arguments, List.mem_map] at hkv
    obtain ⟨kn, hn, rfl⟩ := hkv
    exact key _ (.inr ⟨kn, hn, rfl⟩)

theorem ArgsPlain.setNames {a : NodeArgs} (h : ArgsPlain a) (names : List Str) : ArgsPlain (a.setNames names) := by
  unfold NodeArgs.setNames Mau.setNames
  refine ⟨fun v hv => h.1 v (List.mem_of_mem_drop hv), fun kv hkv => ?_⟩
  rcases Dict.mem_update hkv with h1 | h1
  · exact h.2 kv h1
  · rcases Dict.mem_update h1 with h2 | h2
    · cases h2
    · exact h.1 _ (List.of_mem_zip (a := kv.1) (b := kv.2) h2).2

theorem ArgsPlain.pop {a : NodeArgs} (h : ArgsPlain a) (k : Str) : ArgsPlain (a.pop k).2 :=
  ⟨h.1, fun kv hkv => h.2 kv (by
    simp only [NodeArgs.pop, Dict.erase] at hkv
    exact (List.mem_filter.1 hkv).1)⟩

theorem ArgsPlain.call {a : NodeArgs} (h : ArgsPlain a) : ∀ kv ∈ (callArguments a).1, '(' ∉ kv.2 := by
  intro kv hkv
  unfold callArguments at hkv
  rcases Dict.mem_update hkv with h1 | h1
  · cases h1
  · obtain ⟨x, hx, rfl⟩ := List.mem_map.1 h1
    exact h.2 x (List.mem_filter.1 hx).1

theorem addForbidden_mem {l : List (Option Str)} {x y : Option Str} (h : y ∈ l) : y ∈ addForbidden l x := by
  unfold addForbidden
  split
  · exact h
  · simp [h]

theorem addForbidden_self (l : List (Option Str)) (x : Option Str) : x ∈ addForbidden l x := by
  unfold addForbidden
  split
  · rename_i h; simpa using h
  · simp

/-- Parsing the request ends, and the state after it is calm. -/
def NEnds (cfg : Config) (req : NestedReq) : Prop :=
  ∃ r, Ev (fun n => parseDocument cfg n req) r ∧ r ≠ .error .fuel ∧ ∀ st, r = .ok st → EnvAll NoParen st.env ∧ ∀ x ∈ req.forbidden, x ∈ st.forbidden

section
variable {M : Prop} {B : Str → Prop} {base : List (Option Str)} {toks : List Token} {cfg : Config}

theorem variableText_ends (hE : EndsWithEof toks) (ctx : Context) (s : DocSt) (hs : Calm M base s) :
    CEnds M base (fun _ => variableText toks ctx) s fun v s' => Calm M base s' ∧ s'.env = s.env ∧
      (v.1 = [] ∨ ∃ t, toks[s.next]? = some t ∧ t.type = .TEXT ∧ v.1 = t.value) := by
  unfold variableText
  refine Ends.bind (Q := fun t s' => s' = s ∧ TM.peek ⟨toks, s.next⟩ = .ok t) (Ends.peek hE hs (by simp) fun t hp _ => ⟨rfl, hp⟩) fun t s' h => ?_
  obtain ⟨rfl, hp⟩ := h
  refine Ends.ite (fun ht => ?_) fun _ => Ends.pure ⟨hs, rfl, .inl rfl⟩
  refine Ends.bind (Q := fun v s2 => Calm M base s2 ∧ s2.env = s'.env ∧ toks[s'.next]? = some v ∧ v.type = .TEXT) (Ends.next hE hs (fun u hu => ?_) fun u hu h1 _ => ?_) fun v s2 h => ?_
  · rw [hp] at hu; cases hu; rw [ht]; simp
  · refine ⟨hs.step _, rfl, h1, ?_⟩
    rw [hp] at hu; cases hu; exact ht
  · exact Ends.pure ⟨h.1, h.2.1, .inr ⟨v, h.2.2.1, h.2.2.2, rfl⟩⟩

theorem Fine.variableProc (hE : EndsWithEof toks) (hT : TokOk M B toks) : Fine M base (fun _ => Mau.variableProc toks) := by
  intro s hs
  unfold Mau.variableProc
  refine Ends.bind (Q := fun o s1 => s1 = { s with next := s.next + 1 } ∧ toks[s.next]? = some o ∧ o.type = .VARIABLE)
    (Ends.tok hE (by simp) hs fun t h1 h2 _ => ⟨rfl, h1, h2⟩) fun o s1 h => ?_
  obtain ⟨rfl, ho, hot⟩ := h
  refine Ends.bind (Q := fun n s1 => s1 = { s with next := s.next + 1 + 1 } ∧ toks[s.next + 1]? = some n)
    (Ends.tok hE (by simp) (hs.step _) fun t h1 h2 _ => ⟨rfl, h1⟩) fun n s1 h => ?_
  obtain ⟨rfl, hn⟩ := h
  refine Ends.bind (Q := fun c s1 => s1 = { s with next := s.next + 1 + 1 + 1 } ∧ toks[s.next + 1 + 1]? = some c ∧ c.type = .LITERAL)
    (Ends.tok hE (by simp) (hs.step _) fun t h1 h2 _ => ⟨rfl, h1, h2⟩) fun c s1 h => ?_
  obtain ⟨rfl, hc, hct⟩ := h
  refine Ends.bind (variableText_ends hE _ _ (hs.step _)) fun v s1 h => ?_
  obtain ⟨h1, h2, h3⟩ := h
  refine Ends.bind (Q := fun x s2 => x = s1 ∧ s2 = s1) (Ends.get ⟨rfl, rfl⟩) fun x s2 h => ?_
  obtain ⟨rfl, rfl⟩ := h
  refine Ends.bind (Q := fun d s3 => s3 = s2 ∧ '(' ∉ d.2) (Ends.lift h1 (fun e he => by rintro rfl; exact definition_fuel _ _ _ _ he) fun d hd => ⟨rfl, ?_⟩) fun d s3 h => ?_
  · refine definition_plain h1.env hd ?_
    rcases h3 with h3 | ⟨t, h3, h4, h5⟩
    · rw [h3]; exact .inr (.inr (by simp))
    · rw [h5]
      exact (hT s.next).var o n c t _ (by rw [drop_of_get ho, drop_of_get hn, drop_of_get hc, drop_of_get h3]) hot hct h4
  · obtain ⟨rfl, hd⟩ := h
    refine Ends.modify ?_
    refine ⟨h1.env.setitem plain_empty _ (v := .str d.2) hd, h1.args, h1.base⟩

theorem Fine.argumentsProc (hE : EndsWithEof toks) (hT : TokOk M B toks) : Fine M base (fun _ => Mau.argumentsProc toks) := by
  intro s hs
  unfold Mau.argumentsProc
  refine Ends.bind (Q := fun o s1 => s1 = { s with next := s.next + 1 } ∧ toks[s.next]? = some o ∧ o.type = .ARGUMENTS)
    (Ends.tok hE (by simp) hs fun t h1 h2 _ => ⟨rfl, h1, h2⟩) fun o s1 h => ?_
  obtain ⟨rfl, ho, hot⟩ := h
  refine Ends.bind (Q := fun n s1 => s1 = { s with next := s.next + 1 + 1 } ∧ toks[s.next + 1]? = some n)
    (Ends.tok hE (by simp) (hs.step _) fun t h1 h2 _ => ⟨rfl, h1⟩) fun n s1 h => ?_
  obtain ⟨rfl, hn⟩ := h
  refine Ends.bind (Fine.tok hE (by simp) _ (hs.step _)) fun c s1 h1 => ?_
  refine Ends.bind (Q := fun x s2 => x = s1 ∧ s2 = s1) (Ends.get ⟨rfl, rfl⟩) fun x s2 h => ?_
  obtain ⟨rfl, rfl⟩ := h
  refine Ends.bind (Q := fun d s3 => s3 = s2 ∧ (M → ArgsPlain d.arguments)) (Ends.lift h1 (fun e he => by rintro rfl; exact processArgs_fuel _ _ he) fun d hd => ⟨rfl, fun hm => ?_⟩) fun d s3 h => ?_
  · exact processArgs_plain h1.env hd ((hT s.next).args hm o n _ (by rw [drop_of_get ho, drop_of_get hn]) hot)
  · obtain ⟨rfl, hd⟩ := h
    refine Ends.modify ⟨h1.env, fun hm a ha => ?_, h1.base⟩
    cases ha
    exact hd hm

/-! ## Blocks -/

theorem blockContent_ends (hB : ∀ req, B req.text → EnvAll NoParen req.env → NEnds cfg req) (t : Token) (ht : B t.value) (a : NodeArgs) :
    Fine M base (fun n => blockContent (parseDocument cfg n) t a) := by
  intro s hs
  obtain ⟨r, ⟨N, hN⟩, h1, h2⟩ := hB ⟨t.value, s.env, t.ctx.startLine, t.ctx.startColumn, t.ctx.source, [], s.uid, s.objs⟩ ht hs.env
  refine ⟨blockContent (parseDocument cfg N) t a s, ⟨N, fun n hn => ?_⟩, ?_⟩
  · show blockContent (parseDocument cfg n) t a s = _
    unfold blockContent
    have e1 := hN n hn
    have e2 := hN N (Nat.le_refl _)
    dsimp only at e1 e2
    rw [e1, e2]
  · unfold blockContent
    have e2 := hN N (Nat.le_refl _)
    dsimp only at e2
    rw [e2]
    cases r with
    | error e =>
      cases e with
      | token => exact hs
      | fuel => exact absurd rfl h1
      | _ => intro h; cases h
    | ok st =>
      have h3 := (h2 st rfl).1
      dsimp only
      show Calm M base _
      split
      · exact ⟨h3, hs.args, hs.base⟩
      · exact ⟨h3, hs.args, hs.base⟩

theorem styleAlias_fuel (a : List (Str × Nested)) (k : Str) : styleAlias a k ≠ .error .fuel := by
  unfold styleAlias
  split <;> simp

theorem sourceLine_fuel (p : SourceParams) (l : Str) : sourceLine p l ≠ .error .fuel := by
  unfold sourceLine
  split
  · simp
  · split
    · simp
    · dsimp only
      split
      · simp
      · split
        · simp
        · split
          · split
            · rename_i e he; intro h; cases h; exact styleAlias_fuel _ _ he
            · simp
          · split <;> simp

theorem sourceLines_fuel (p : SourceParams) (c : Context) (ls : List Str) : ∀ i, sourceLines p c i ls ≠ .error .fuel := by
  induction ls with
  | nil => intro i; simp [sourceLines]
  | cons l ls ih =>
    intro i
    unfold sourceLines
    exact bind_fuel (sourceLine_fuel p l) fun _ _ => bind_fuel (ih _) fun _ _ h => nomatch h

theorem sourceEngine_fuel (env : Env) (t : Token) (a : NodeArgs) : sourceEngine env t a ≠ .error .fuel := by
  unfold sourceEngine
  dsimp only
  have hrest : ∀ (x : Except Err (List (Str × Nested))) (f : List (Str × Nested) → SourceParams) (g : List Node → Option Str × List Node × NodeArgs), x ≠ .error .fuel →
      (x >>= fun al => sourceLines (f al) t.ctx 0 (splitChar '\n' t.value) >>= fun ls => pure (g ls)) ≠ .error .fuel := by
    intro x f g hx
    exact bind_fuel hx fun _ _ => bind_fuel (sourceLines_fuel _ _ _ _) fun _ _ h => (by cases h)
  split
  · exact hrest (pure []) _ _ (by intro h; cases h)
  · exact hrest _ _ _ (nestFlat_fuel _ _)
  · exact hrest (throw (.py .attributeError)) _ _ (by intro h; cases h)

theorem addBlock_fuel (g : Dict (Dict Node)) (a b : Str) (n : Node) : addBlock g a b n ≠ .error .fuel := by
  unfold addBlock
  dsimp only
  split <;> simp

theorem Fine.blockEngine (hB : ∀ req, B req.text → EnvAll NoParen req.env → NEnds cfg req) (e : Str) (cls : List Str) (o : Option Token) (ho : ∀ t, o = some t → B t.value)
    (a : NodeArgs) (ctx : Context) : Fine M base (fun n => Mau.blockEngine (parseDocument cfg n) e cls o a ctx) := by
  unfold Mau.blockEngine
  dsimp only
  have hf : ∀ t, o.filter (fun t => !t.value.isEmpty) = some t → B t.value := by
    intro t ht
    rw [Option.filter_eq_some_iff] at ht
    exact ho t ht.1
  revert hf
  generalize o.filter (fun t => !t.value.isEmpty) = o'
  intro hf s hs
  refine Ends.ite (fun _ => ?_) fun _ => Ends.ite (fun _ => ?_) fun _ => Ends.ite (fun _ => ?_) fun _ => Ends.raise (by simp) (by simp)
  · cases o' with
    | none => exact Ends.pure hs
    | some t => exact Ends.bind (blockContent_ends hB t (hf t rfl) a s hs) fun _ _ h => Ends.pure h
  · cases o' with
    | none => exact Ends.pure hs
    | some t => exact Ends.pure hs
  · cases o' with
    | none => exact Ends.pure hs
    | some t => exact (CLike.bind .get fun _ => .bind (.lift (sourceEngine_fuel _ _ _)) fun _ => .pure _).fine s hs

theorem CLike.placeBlock (data : NodeData) (ns : List Node) (args : NodeArgs) (labels : Dict Node) (ctx own : Context) :
    CLike M base (fun _ => Mau.placeBlock data ns args labels ctx own) := by
  unfold Mau.placeBlock
  cases truthy (Dict.get? args.named c%"footnote") with
  | some name => exact .bind .get fun _ => .ite (.raise (by simp) (by simp)) (.modify fun _ => ⟨rfl, .inl rfl, rfl, rfl⟩)
  | none =>
    dsimp only
    cases truthy (Dict.get? args.named c%"group") with
    | none => exact .saveIfControl _
    | some g =>
      cases truthy (Dict.get? args.named c%"position") with
      | none => exact .saveIfControl _
      | some p => exact .bind .get fun _ => .bind (.lift (addBlock_fuel _ _ _ _)) fun _ => .modify fun _ => ⟨rfl, .inl rfl, rfl, rfl⟩

theorem Fine.blockProc (hE : EndsWithEof toks) (hT : TokOk M B toks) (hB : ∀ req, B req.text → EnvAll NoParen req.env → NEnds cfg req) :
    Fine M base (fun n => Mau.blockProc (parseDocument cfg n) toks) := by
  intro s hs
  unfold Mau.blockProc
  refine Ends.bind (Q := fun o s1 => s1 = { s with next := s.next + 1 } ∧ toks[s.next]? = some o ∧ o.type = .BLOCK)
    (Ends.tok hE (by simp) hs fun t h1 h2 _ => ⟨rfl, h1, h2⟩) fun o s1 h => ?_
  obtain ⟨rfl, ho, hot⟩ := h
  refine Ends.bind (Q := fun (o : Option Token) s1 => Calm M base s1 ∧ ∀ t, o = some t → B t.value) ?_ fun content s1 h => ?_
  · unfold blockText
    refine Ends.bind (Q := fun t s' => s' = { s with next := s.next + 1 }) (Ends.peek hE (hs.step _) (by simp) fun t hp _ => rfl) fun t s' h => ?_
    subst h
    refine Ends.ite (fun _ => ?_) fun _ => Ends.pure ⟨hs.step _, fun _ h => nomatch h⟩
    refine Ends.bind (Q := fun t s1 => Calm M base s1 ∧ B t.value) (Ends.tok hE (by simp) (hs.step _) fun t h1 h2 _ => ⟨hs.step _, ?_⟩) fun t s1 h => ?_
    · exact (hT s.next).block o t _ (by rw [drop_of_get ho, drop_of_get h1]) hot h2
    · exact Ends.pure ⟨h.1, fun u hu => by cases hu; exact h.2⟩
  · obtain ⟨h1, h2⟩ := h
    refine (Fine.bind (.tok hE (by simp)) fun c => Fine.bind CLike.popArgs.fine fun a => ?_) s1 h1
    refine Fine.bind (Fine.blockEngine hB _ _ content h2 _ _) fun r => Fine.bind CLike.popLabels.fine fun ls => (CLike.placeBlock _ _ _ _ _ _).fine

/-! ## Includes -/

theorem readFile_fuel (cfg : Config) (uri : Str) (cx : Context) : readFile cfg uri cx ≠ .error .fuel := by
  unfold readFile
  split <;> simp

theorem readFile_ok {uri text : Str} {cx : Context} (h : readFile cfg uri cx = .ok text) : cfg.files uri = .ok text := by
  unfold readFile at h
  split at h
  · rename_i h1; cases h; exact h1
  · cases h
  · cases h

theorem includeEnv_fuel (p : Option Str) (env : Env) : includeEnv p env ≠ .error .fuel := by
  unfold includeEnv
  split
  · unfold Env.fromEnvironment
    split
    · rename_i e he; intro h; cases h; exact nestFlat_fuel _ _ he
    · simp
  · simp

theorem includeEnv_plain {p : Option Str} {env e : Env} (he : EnvAll NoParen env) (h : includeEnv p env = .ok e) : EnvAll NoParen e := by
  unfold includeEnv at h
  split at h
  · exact he.fromEnvironment plain_empty h
  · cases h; exact .nil

theorem includeMau_ends
    (hI : ∀ uri req, cfg.files uri = .ok req.text → some uri ∉ base → (∀ x ∈ base, x ∈ req.forbidden) → some uri ∈ req.forbidden → EnvAll NoParen req.env → NEnds cfg req)
    (a : NodeArgs) (ha : ArgsPlain a) (ctx : Context) : Fine M base (fun n => includeMau cfg (parseDocument cfg n) a ctx) := by
  intro s hs
  unfold includeMau
  dsimp only
  have hp := ((ha.setNames [c%"uri"]).pop c%"uri").pop c%"pass_environment"
  generalize (((a.setNames [c%"uri"]).pop c%"uri").2.pop c%"pass_environment") = q at hp ⊢
  cases truthy ((a.setNames [c%"uri"]).pop c%"uri").1 with
  | none => exact Ends.raise (by simp) (by simp)
  | some uri =>
    dsimp only
    refine Ends.bind (Q := fun _ s1 => s1 = { s with forbidden := addForbidden s.forbidden ctx.source }) (Ends.modify rfl) fun _ s1 h => ?_
    subst h
    have hs1 : Calm M base { s with forbidden := addForbidden s.forbidden ctx.source } := ⟨hs.env, hs.args, fun x hx => addForbidden_mem (hs.base x hx)⟩
    revert hs1
    generalize ({ s with forbidden := addForbidden s.forbidden ctx.source } : DocSt) = s1
    intro hs1
    refine Ends.bind (Q := fun x s2 => x = s1 ∧ s2 = s1) (Ends.get ⟨rfl, rfl⟩) fun x s2 h => ?_
    obtain ⟨rfl, rfl⟩ := h
    refine Ends.ite (fun _ => Ends.raise (by simp) (by simp)) fun hnot => ?_
    have hnb : some uri ∉ base := fun h => hnot (by simpa using hs1.base _ h)
    refine Ends.bind (Q := fun _ s3 => s3 = { s2 with forbidden := addForbidden s2.forbidden (some uri) }) (Ends.modify rfl) fun _ s3 h => ?_
    subst h
    have hs3 : Calm M base { s2 with forbidden := addForbidden s2.forbidden (some uri) } := ⟨hs1.env, hs1.args, fun x hx => addForbidden_mem (hs1.base x hx)⟩
    refine Ends.bind (Q := fun t s3 => s3 = { s2 with forbidden := addForbidden s2.forbidden (some uri) } ∧ cfg.files uri = .ok t)
      (Ends.lift hs3 (fun e he => by rintro rfl; exact readFile_fuel _ _ _ he) fun t ht => ⟨rfl, readFile_ok ht⟩) fun text s3 h => ?_
    obtain ⟨rfl, hfile⟩ := h
    refine Ends.bind (Q := fun e s3 => s3 = { s2 with forbidden := addForbidden s2.forbidden (some uri) } ∧ EnvAll NoParen e)
      (Ends.lift hs3 (fun e he => by rintro rfl; exact includeEnv_fuel _ _ he) fun t ht => ⟨rfl, includeEnv_plain hs1.env ht⟩) fun e s3 h => ?_
    obtain ⟨rfl, henv⟩ := h
    refine Ends.bind (Q := fun x s3 => x = { s2 with forbidden := addForbidden s2.forbidden (some uri) } ∧ s3 = { s2 with forbidden := addForbidden s2.forbidden (some uri) }) (Ends.get ⟨rfl, rfl⟩)
      fun x s3 h => ?_
    obtain ⟨rfl, rfl⟩ := h
    have henv' : EnvAll NoParen (Env.dupdate e ((callArguments q.2).1.map fun kv => (kv.1, .leaf (.str kv.2)))) := by
      refine henv.dupdate plain_empty (fun k n hm => ?_) _
      obtain ⟨kv, hkv, hx⟩ := List.mem_map.1 hm
      injection hx with _ hx
      rw [← hx]
      exact .leaf (hp.call kv hkv)
    obtain ⟨r, ⟨N, hN⟩, h1, h2⟩ := hI uri ⟨text, Env.dupdate e ((callArguments q.2).1.map fun kv => (kv.1, .leaf (.str kv.2))), 0, 0, some uri,
      addForbidden s2.forbidden (some uri), s2.uid, s2.objs⟩ hfile hnb (fun x hx => hs3.base x hx) (addForbidden_self _ _) henv'
    refine Ends.bind (Q := fun st s3 => s3 = { s2 with forbidden := addForbidden s2.forbidden (some uri) } ∧ EnvAll NoParen st.env ∧
      ∀ x ∈ addForbidden s2.forbidden (some uri), x ∈ st.forbidden) ?_ fun st s3 h => ?_
    · refine ⟨DM.lift r { s2 with forbidden := addForbidden s2.forbidden (some uri) }, ⟨N, fun n hn => ?_⟩, ?_⟩
      · have := hN n hn
        dsimp only at this ⊢
        rw [this]
      · cases r with
        | error e =>
          cases e with
          | token => exact hs3
          | fuel => exact absurd rfl h1
          | _ => intro h; cases h
        | ok st => exact ⟨rfl, h2 st rfl⟩
    · obtain ⟨rfl, h3, h4⟩ := h
      refine Ends.bind (Q := fun _ s4 => Calm M base s4) (Ends.modify ⟨hs1.env, hs1.args, fun x hx => h4 x (hs3.base x hx)⟩) fun _ s4 h5 => Ends.pure h5

theorem includeImage_fuel (a : NodeArgs) (cx : Context) : includeImage a cx ≠ .error .fuel := by
  unfold includeImage
  dsimp only
  split <;> simp

theorem includeRaw_fuel (cfg : Config) (a : NodeArgs) (ctx : Context) : includeRaw cfg a ctx ≠ .error .fuel := by
  unfold includeRaw
  dsimp only
  split
  · simp
  · split
    · rename_i e he; intro h; cases h; exact readFile_fuel _ _ _ he
    · simp

theorem Fine.includeNode
    (hI : M → ∀ uri req, cfg.files uri = .ok req.text → some uri ∉ base → (∀ x ∈ base, x ∈ req.forbidden) → some uri ∈ req.forbidden → EnvAll NoParen req.env → NEnds cfg req)
    (ty : Str) (a : NodeArgs) (ha : ty = c%"mau" → M ∧ ArgsPlain a) (ctx : Context) : Fine M base (fun n => Mau.includeNode cfg (parseDocument cfg n) ty a ctx) := by
  intro s hs
  unfold Mau.includeNode
  refine Ends.ite (fun _ => ?_) fun _ => Ends.ite (fun h => includeMau_ends (hI (ha h).1) a (ha h).2 ctx s hs) fun _ => Ends.ite (fun _ => ?_) fun _ => Ends.ite (fun _ => ?_) fun _ =>
    Ends.ite (fun _ => ?_) fun _ => Ends.ite (fun _ => ?_) fun _ => Ends.pure hs
  · exact (CLike.bind (.lift (includeImage_fuel a _)) fun _ => .pure _).fine s hs
  · exact (CLike.lift (includeRaw_fuel _ _ _)).fine s hs
  · refine CLike.fine ?_ s hs
    exact .bind .fresh fun _ => .bind (.modify fun _ => ⟨rfl, .inl rfl, rfl, rfl⟩) fun _ => .pure _
  · refine CLike.fine ?_ s hs
    exact .bind .fresh fun _ => .bind (.modify fun _ => ⟨rfl, .inl rfl, rfl, rfl⟩) fun _ => .pure _
  · dsimp only
    cases ((a.setNames [c%"group"]).pop c%"group").1 with
    | none => exact Ends.raise (by simp) (by simp)
    | some g =>
      refine CLike.fine ?_ s hs
      exact .bind .fresh fun _ => .bind (.modify fun _ => ⟨rfl, .inl rfl, rfl, rfl⟩) fun _ => .pure _

theorem Fine.includeProc (hE : EndsWithEof toks) (hT : TokOk M B toks)
    (hI : M → ∀ uri req, cfg.files uri = .ok req.text → some uri ∉ base → (∀ x ∈ base, x ∈ req.forbidden) → some uri ∈ req.forbidden → EnvAll NoParen req.env → NEnds cfg req) :
    Fine M base (fun n => Mau.includeProc cfg (parseDocument cfg n) toks) := by
  intro s hs
  unfold Mau.includeProc
  refine Ends.bind (Q := fun o s1 => s1 = { s with next := s.next + 1 } ∧ toks[s.next]? = some o ∧ o.type = .INCLUDE)
    (Ends.tok hE (by simp) hs fun t h1 h2 _ => ⟨rfl, h1, h2⟩) fun o s1 h => ?_
  obtain ⟨rfl, ho, hot⟩ := h
  refine Ends.bind (Q := fun n s1 => s1 = { s with next := s.next + 1 + 1 } ∧ toks[s.next + 1]? = some n)
    (Ends.tok hE (by simp) (hs.step _) fun t h1 h2 _ => ⟨rfl, h1⟩) fun ty s1 h => ?_
  obtain ⟨rfl, hty⟩ := h
  refine Ends.bind (Q := fun x s1 => x = { s with next := s.next + 1 + 1 } ∧ s1 = { s with next := s.next + 1 + 1 }) (Ends.get ⟨rfl, rfl⟩) fun x s1 h => ?_
  obtain ⟨rfl, rfl⟩ := h
  refine Ends.bind (Q := fun _ s1 => s1 = { s with next := s.next + 1 + 1, argsBuf := none }) (Ends.modify rfl) fun _ s1 h => ?_
  subst h
  have hs1 : Calm M base { s with next := s.next + 1 + 1, argsBuf := none } := hs.congr rfl (.inr rfl) rfl
  have hincl : ty.value = c%"mau" → _ := (hT s.next).incl o ty _ (by rw [drop_of_get ho, drop_of_get hty]) hot
  refine Ends.bind (Q := fun a s2 => Calm M base s2 ∧ (ty.value = c%"mau" → M ∧ ArgsPlain a)) ?_ fun a s2 h => ?_
  · unfold includeArgs
    refine Ends.bind (Q := fun _ s2 => s2 = { s with next := s.next + 1 + 1, argsBuf := none }) ?_ fun b s2 h => ?_
    · refine Ends.lift hs1 (fun e he => ?_) fun _ _ => rfl
      rintro rfl
      unfold TM.peekIs at he
      dsimp only at he
      split at he
      · cases he
      · cases he
      · rename_i hp hx
        cases he
        cases peek_err hE hx
    · subst h
      refine Ends.ite (fun _ => Ends.ite (fun _ => Ends.raise (by simp) (by simp)) fun _ => ?_) fun _ => Ends.pure ⟨hs1, fun hm => ?_⟩
      · refine Ends.bind (Q := fun c s1 => s1 = { s with next := s.next + 1 + 1 + 1, argsBuf := none } ∧ toks[s.next + 1 + 1]? = some c ∧ c.type = .LITERAL)
          (Ends.tok hE (by simp) hs1 fun t h1 h2 _ => ⟨rfl, h1, h2⟩) fun c s1 h => ?_
        obtain ⟨rfl, hc, hct⟩ := h
        refine Ends.bind (Q := fun t s1 => s1 = { s with next := s.next + 1 + 1 + 1 + 1, argsBuf := none } ∧ toks[s.next + 1 + 1 + 1]? = some t ∧ t.type = .TEXT)
          (Ends.tok hE (by simp) (hs1.step _) fun t h1 h2 _ => ⟨rfl, h1, h2⟩) fun t s1 h => ?_
        obtain ⟨rfl, ht, htt⟩ := h
        refine Ends.bind (Q := fun x s1 => x = { s with next := s.next + 1 + 1 + 1 + 1, argsBuf := none } ∧ s1 = { s with next := s.next + 1 + 1 + 1 + 1, argsBuf := none })
          (Ends.get ⟨rfl, rfl⟩) fun x s1 h => ?_
        obtain ⟨rfl, rfl⟩ := h
        have hs4 := hs1.step (s.next + 1 + 1 + 1 + 1)
        refine Ends.bind (Q := fun d s3 => Calm M base s3 ∧ ('(' ∉ t.value → ArgsPlain d.arguments))
          (Ends.lift hs4 (fun e he => by rintro rfl; exact processArgs_fuel _ _ he) fun d hd => ⟨hs4, fun hp => ?_⟩) fun d s3 h => ?_
        · exact processArgs_plain hs.env hd hp
        · refine Ends.pure ⟨h.1, fun hm => ⟨(hincl hm).1, h.2 ?_⟩⟩
          exact (hincl hm).2 c t _ (by rw [drop_of_get hc, drop_of_get ht]) hct htt
      · refine ⟨(hincl hm).1, ?_⟩
        cases hb : s.argsBuf with
        | none => exact ⟨(fun _ h => nomatch h), (fun _ h => nomatch h)⟩
        | some a => exact hs.args (hincl hm).1 a hb
  · exact (Fine.bind (.includeNode hI _ a h.2 _) fun r => (CLike.bind .popLabels fun _ => .saveIfControl _).fine) s2 h.1

/-! ## The loop -/

theorem tryDocFns_ends {next : Token} {Fs : List (Nat → DM Unit)} (h : ∀ F ∈ Fs, Fine M base F) : Fine M base (fun n => tryDocFns next (Fs.map (· n))) := by
  induction Fs with
  | nil => exact (CLike.raise (by simp) (by simp)).fine
  | cons F Fs ih =>
    intro s hs
    obtain ⟨r, ⟨N, hN⟩, h1⟩ := h F (by simp) s hs
    cases r with
    | ok a s' => exact ⟨.ok a s', ⟨N, fun n hn => by have := hN n hn; simp only [List.map_cons, tryDocFns, this]⟩, h1⟩
    | err e => exact ⟨.err e, ⟨N, fun n hn => by have := hN n hn; simp only [List.map_cons, tryDocFns, this]⟩, h1⟩
    | fail s' =>
      obtain ⟨r', ⟨N', hN'⟩, h2⟩ := ih (fun G hG => h G (by simp [hG])) { s' with next := s.next } (Calm.step h1 _)
      refine ⟨r', ⟨max N N', fun n hn => ?_⟩, h2⟩
      have e1 := hN n (by omega)
      have e2 := hN' n (by omega)
      dsimp only at e2
      simp only [List.map_cons, tryDocFns, e1, e2]

theorem docFns_ends {next : Token} (hE : EndsWithEof toks) (hT : TokOk M B toks) (hB : ∀ req, B req.text → EnvAll NoParen req.env → NEnds cfg req)
    (hI : M → ∀ uri req, cfg.files uri = .ok req.text → some uri ∉ base → (∀ x ∈ base, x ∈ req.forbidden) → some uri ∈ req.forbidden → EnvAll NoParen req.env → NEnds cfg req) :
    Fine M base (fun n => tryDocFns next (docFns cfg (parseDocument cfg n) n toks)) := by
  refine tryDocFns_ends (Fs := [fun _ => eolProc toks, fun _ => ruleProc toks, fun _ => variableProc toks, fun n => labelProc n toks, fun _ => controlProc toks,
    fun _ => argumentsProc toks, fun n => headerProc n toks, fun n => blockProc (parseDocument cfg n) toks, fun n => includeProc cfg (parseDocument cfg n) toks,
    fun n => listProc n toks, fun n => paragraphProc n toks]) ?_
  intro F hF
  simp only [List.mem_cons, List.not_mem_nil, or_false] at hF
  rcases hF with rfl | rfl | rfl | rfl | rfl | rfl | rfl | rfl | rfl | rfl | rfl
  · exact .eolProc hE
  · exact .ruleProc hE
  · exact .variableProc hE hT
  · exact .labelProc hE
  · exact .controlProc hE
  · exact .argumentsProc hE hT
  · exact .headerProc hE
  · exact .blockProc hE hT hB
  · exact .includeProc hE hT hI
  · exact .listProc hE
  · exact .paragraphProc hE

theorem docLoop_ends (hE : EndsWithEof toks) (hT : TokOk M B toks) (hB : ∀ req, B req.text → EnvAll NoParen req.env → NEnds cfg req)
    (hI : M → ∀ uri req, cfg.files uri = .ok req.text → some uri ∉ base → (∀ x ∈ base, x ∈ req.forbidden) → some uri ∈ req.forbidden → EnvAll NoParen req.env → NEnds cfg req)
    (k : Nat) : ∀ last s, Calm M base s → toks.length - s.next < k →
      ∃ r, Ev (fun n => docLoop (docFns cfg (parseDocument cfg n) n toks) toks k last s) r ∧ r ≠ .error .fuel ∧ ∀ s', r = .ok s' → Calm M base s' := by
  induction k with
  | zero => intro _ s _ h; omega
  | succ k ih =>
    intro last s hs hk
    unfold docLoop
    cases hp : TM.peekIs ⟨toks, s.next⟩ .EOF with
    | error e =>
      refine ⟨.error e, .const _, ?_, fun _ h => nomatch h⟩
      rintro h; cases h
      unfold TM.peekIs at hp
      split at hp
      · cases hp
      · cases hp
      · rename_i hx
        cases hp
        cases peek_err hE hx
    | ok b =>
      cases b with
      | true => exact ⟨.ok s, .const _, (by simp), fun s' h => by cases h; exact hs⟩
      | false =>
        dsimp only
        cases hq : TM.peek ⟨toks, s.next⟩ with
        | error e =>
          refine ⟨.error e, .const _, ?_, fun _ h => nomatch h⟩
          rintro h; cases h
          cases peek_err hE hq
        | ok t =>
          dsimp only
          by_cases hl : t = last
          · simp only [hl, if_true]
            exact ⟨_, .const _, (by simp), fun _ h => nomatch h⟩
          · simp only [hl, if_false]
            have hne : t.type ≠ .EOF := by
              intro ht
              have := peekIs_of_peek (ty := .EOF) hq
              rw [hp, ht] at this
              cases this
            have hin := (peek_inside hE hq hne).2
            obtain ⟨r, ⟨N, hN⟩, h1⟩ := docFns_ends hE hT hB hI s hs
            cases r with
            | err e =>
              refine ⟨.error e, ⟨N, fun n hn => ?_⟩, (fun h => by cases h; exact h1 rfl), fun _ h => nomatch h⟩
              have e1 := hN n hn
              dsimp only at e1 ⊢
              rw [e1]
            | fail s' =>
              refine ⟨.error .token, ⟨N, fun n hn => ?_⟩, (by simp), fun _ h => nomatch h⟩
              have e1 := hN n hn
              dsimp only at e1 ⊢
              rw [e1]
            | ok a s' =>
              have hadv := Adv.docFns toks cfg (parseDocument cfg N) N t s a s' (hN N (Nat.le_refl _)) (by omega)
              obtain ⟨r', ⟨N', hN'⟩, h2, h3⟩ := ih t s' h1 (by omega)
              refine ⟨r', ⟨max N N', fun n hn => ?_⟩, h2, h3⟩
              have e1 := hN n (by omega)
              have e2 := hN' n (by omega)
              dsimp only at e1 e2 ⊢
              rw [e1]
              exact e2

end

end Mau
