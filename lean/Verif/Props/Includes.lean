import Verif.Lemmas.Tidy
import Verif.Lemmas.DocNodes
import Verif.Props.Cli
import Verif.Props.Managers

set_option linter.unusedSimpArgs false

/-!
# C49, C50: included files
-/

namespace Mau
open Spec

/-! ## C50 — the variables an included file sees -/

theorem setNames_uri (a : NodeArgs) :
    (∀ u, Dict.get? (a.setNames [c%"uri"]).named c%"uri" = some u ↔ Names a u) ∧
      (∀ k, k ≠ c%"uri" → Dict.get? (a.setNames [c%"uri"]).named k = Dict.get? a.named k) := by
  cases hl : Dict.get? a.named c%"uri" with
  | some v =>
    have hf : ([c%"uri"] : List Str).filter (fun n => !Dict.has a.named n) = [] := by
      simp [Dict.has, hl]
    unfold NodeArgs.setNames Mau.setNames
    simp only [hf, List.length_nil, List.drop_zero, List.zip_nil_left]
    refine ⟨fun u => ?_, fun k _ => rfl⟩
    show Dict.get? a.named c%"uri" = some u ↔ _
    simp [Names, hl]
  | none =>
    have hf : ([c%"uri"] : List Str).filter (fun n => !Dict.has a.named n) = [c%"uri"] := by
      simp [Dict.has, hl]
    cases hu : a.unnamed with
    | nil =>
      unfold NodeArgs.setNames Mau.setNames
      simp only [hf, hu, List.drop_nil, List.zip_nil_right]
      refine ⟨fun u => ?_, fun k _ => rfl⟩
      show Dict.get? a.named c%"uri" = some u ↔ _
      simp [Names, hl, hu]
    | cons v vs =>
      unfold NodeArgs.setNames Mau.setNames
      simp only [hf, hu]
      refine ⟨fun u => ?_, fun k hk => ?_⟩
      · show Dict.get? (Dict.set a.named c%"uri" v) c%"uri" = some u ↔ _
        rw [Dict.get?_set, if_pos rfl]
        simp [Names, hl, hu]
      · show Dict.get? (Dict.set a.named c%"uri" v) k = _
        rw [Dict.get?_set, if_neg (Ne.symm hk)]

theorem distinct_filter {α : Type} {d : Dict α} (h : Dict.Distinct d) (f : Str × α → Bool) : Dict.Distinct (d.filter f) := by
  unfold Dict.Distinct Dict.keys at *
  exact List.Nodup.sublist (List.Sublist.map _ List.filter_sublist) h

theorem startsWith_iff {s p : Str} : startsWith s p = true ↔ ∃ r, p ++ r = s := by
  unfold startsWith
  rw [List.isPrefixOf_iff_prefix]
  rfl

theorem call_eq (k : Str) : callPrefix ++ k = c%"call:" ++ k := rfl

theorem distinct_calls {d : Dict Str} (h : Dict.Distinct d) :
    Dict.Distinct ((d.filter fun kv => startsWith kv.1 callPrefix).map fun kv => (kv.1.drop callPrefix.length, kv.2)) := by
  unfold Dict.Distinct Dict.keys at *
  rw [List.map_map, List.nodup_iff_pairwise_ne, List.pairwise_map]
  rw [List.nodup_iff_pairwise_ne, List.pairwise_map] at h
  refine (h.sublist List.filter_sublist).imp_of_mem ?_
  intro x y hx hy hne he
  have px := (List.mem_filter.1 hx).2
  have py := (List.mem_filter.1 hy).2
  simp only [startsWith_iff] at px py
  obtain ⟨r, hr⟩ := px
  obtain ⟨q, hq⟩ := py
  simp only [Function.comp, ← hr, ← hq, List.drop_left] at he
  exact hne (by rw [← hr, ← hq, he])

theorem get?_callArguments {a : NodeArgs} (h : Dict.Distinct a.named) (k : Str) :
    Dict.get? (callArguments a).1 k = Dict.get? a.named (c%"call:" ++ k) := by
  unfold callArguments
  dsimp only
  rw [Dict.update_nil_left (distinct_calls h)]
  apply Option.ext
  intro v
  rw [Dict.get?_iff_mem (distinct_calls h), Dict.get?_iff_mem h]
  simp only [List.mem_map, List.mem_filter, startsWith_iff, Prod.mk.injEq]
  constructor
  · rintro ⟨⟨x, y⟩, ⟨hm, r, hr⟩, h1, h2⟩
    dsimp only at hr h1 h2
    rw [← hr, List.drop_left] at h1
    rw [← h2, ← h1, ← call_eq, hr]
    exact hm
  · intro hm
    exact ⟨_, ⟨hm, k, rfl⟩, List.drop_left, rfl⟩


theorem setNames_distinct {a : NodeArgs} (h : Dict.Distinct a.named) (names : List Str) : Dict.Distinct (a.setNames names).named :=
  Dict.distinct_update h _

theorem distinct_dupdate {e : Env} (h : e.Distinct) (d : List (Str × Nested)) : (Env.dupdate e d).Distinct :=
  Dict.distinct_update h _

theorem get?_calls {d : Dict Str} (h : Dict.Distinct d) (e : Env) (k : Str) :
    Dict.get? (Env.dupdate e (d.map fun kv => (kv.1, Nested.leaf (.str kv.2)))) k = ((Dict.get? d k).map Val.str).or (Dict.get? e k) := by
  have hd : Dict.Distinct (d.map fun kv => (kv.1, Val.str kv.2)) := distinct_mapVals h _
  have he : (d.map fun kv => (kv.1, Nested.leaf (.str kv.2))) = Env.asItems (d.map fun kv => (kv.1, Val.str kv.2)) := by
    simp [Env.asItems, List.map_map, Function.comp]
  rw [get?_dupdate, he, (fromDict_asItems hd k).2]
  congr 1
  clear he hd h
  induction d with
  | nil => rfl
  | cons kv d ih =>
    simp only [List.map_cons, Dict.get?]
    split
    · rfl
    · exact ih

theorem distinct_fromDict (d : List (Str × Nested)) (ns : Str) : Dict.Distinct (Env.fromDict d ns) :=
  Dict.distinct_update Dict.distinct_nil _

/-- C50 (defaults): a parser starts with the variables it is given; the ones it defines itself are added only where nothing is given. -/
theorem C50_defaults {env : Env} (h : env.Distinct) (k : Str) : Dict.get? (initEnv env) k = (Dict.get? env k).or (builtin k) := by
  have hb : Dict.get? (Env.fromDict baseEnvItems c%"mau.parser") k = builtin k := by
    have e : Env.fromDict baseEnvItems c%"mau.parser" =
      [(c%"mau.parser.source_highlight_style_aliases.+", .str c%"add"), (c%"mau.parser.source_highlight_style_aliases.-", .str c%"remove"),
       (c%"mau.parser.source_highlight_style_aliases.!", .str c%"important"), (c%"mau.parser.source_highlight_style_aliases.x", .str c%"error"),
       (c%"mau.parser.aliases.source.args.engine", .str c%"source"), (c%"mau.parser.aliases.source.names", .list [c%"language"] c%"['language']")] := by
      decide +kernel
    rw [e]
    simp only [Dict.get?, builtin, eq_comm]
  unfold initEnv
  rw [C15_update_keep env _ h (distinct_fromDict _ _) k, hb]


theorem get?_includeEnv {env e : Env} {pass : Option Str} (hd : env.Distinct) (hs : Separate env) (h : includeEnv pass env = .ok e) :
    e.Distinct ∧ ∀ k, Dict.get? e k = if pass.getD c%"true" = c%"true" then Dict.get? env k else none := by
  unfold includeEnv at h
  split at h
  · rename_i hp
    obtain ⟨d, h1, _, _, e', h2, h3⟩ := C14_flat_round_trip env hd hs.1 hs.2
    rw [h] at h2
    cases h2
    unfold Env.fromEnvironment at h
    rw [h1] at h
    cases h
    exact ⟨distinct_fromDict _ _, fun k => by rw [if_pos hp, h3]⟩
  · rename_i hp
    cases h
    exact ⟨Dict.distinct_nil, fun k => by rw [if_neg hp]; rfl⟩

theorem handsOver_iff {a : NodeArgs} : HandsOver a ↔ (Dict.get? a.named c%"pass_environment").getD c%"true" = c%"true" := by
  unfold HandsOver
  cases Dict.get? a.named c%"pass_environment" with
  | none => simp
  | some v => simp

/-- The step of an include of a Mau file. -/
theorem mau_step {P : Parser} {s s1 : DocSt} {a : NodeArgs} {ctx : Context} (hd : s.env.Distinct) (ha : Dict.Distinct a.named) (hs : Separate s.env)
    (h : P.includeStep s c%"mau" a ctx = .ok s1) :
    ∃ uri text e file call, Names a uri ∧ uri ≠ [] ∧ P.cfg.files uri = .ok text ∧ Sees s.env a (initEnv e) ∧
      some uri ∉ addForbidden s.forbidden ctx.source ∧
      P.nested ⟨text, e, 0, 0, some uri, addForbidden (addForbidden s.forbidden ctx.source) (some uri), s.uid, s.objs⟩ = .ok file ∧
      s1.env = s.env ∧ s1.includeCalls = s.includeCalls ++ [⟨ctx.source, uri, call, ctx⟩] ++ file.includeCalls ∧ (∀ k v, Dict.get? call k = some v ↔ Passes a k v) ∧
      s1.forbidden = file.forbidden ∧
      ∃ n, n.data = .includeMau uri ∧ n.content = file.nodes ∧ (s1.nodes = s.nodes ++ [n] ∨ s1.nodes = s.nodes) := by
  obtain ⟨r, h1, h2⟩ := bind_ok_except h
  obtain ⟨keep, h3, h4⟩ := bind_ok_except h2
  cases h4
  unfold Parser.includeNodeStep at h1
  rw [if_neg (by decide), if_pos rfl] at h1
  unfold Parser.includeMauStep at h1
  dsimp only at h1
  obtain ⟨n1, n2⟩ := setNames_uri a
  have da := setNames_distinct ha [c%"uri"]
  generalize hb : a.setNames [c%"uri"] = b at h1 n1 n2 da
  split at h1
  · cases h1
  rename_i uri hu
  split at h1
  · cases h1
  rename_i hf
  obtain ⟨text, t1, h1⟩ := bind_ok_except h1
  obtain ⟨e, e1, h1⟩ := bind_ok_except h1
  obtain ⟨file, f1, h1⟩ := bind_ok_except h1
  cases h1
  obtain ⟨u1, u2⟩ := truthy_some.1 hu
  have hpass : Dict.get? (Dict.erase b.named c%"uri") c%"pass_environment" = Dict.get? a.named c%"pass_environment" := by
    rw [Dict.get?_erase, if_neg (by decide), n2 _ (by decide)]
  rw [hpass] at e1
  obtain ⟨de, ge⟩ := get?_includeEnv hd hs e1
  have hcall : ∀ k, Dict.get? (callArguments { b with named := Dict.erase (Dict.erase b.named c%"uri") c%"pass_environment" }).1 k = Dict.get? a.named (c%"call:" ++ k) := by
    intro k
    rw [get?_callArguments (distinct_filter (distinct_filter da _) _)]
    show Dict.get? (Dict.erase (Dict.erase b.named c%"uri") c%"pass_environment") _ = _
    rw [Dict.get?_erase, if_neg (by simp), Dict.get?_erase, if_neg (by simp), n2 _ (by simp)]
  have hdc : Dict.Distinct (callArguments { b with named := Dict.erase (Dict.erase b.named c%"uri") c%"pass_environment" }).1 :=
    Dict.distinct_update Dict.distinct_nil _
  have hfile : P.cfg.files uri = .ok text := by
    unfold readFile at t1
    split at t1
    · rename_i t ht; cases t1; exact ht
    · cases t1
    · cases t1
  have hget : ∀ k, Dict.get? (initEnv (Env.dupdate e ((callArguments { b with named := Dict.erase (Dict.erase b.named c%"uri") c%"pass_environment" }).1.map
      fun kv => (kv.1, Nested.leaf (.str kv.2))))) k =
      (((Dict.get? a.named (c%"call:" ++ k)).map Val.str).or (Dict.get? e k)).or (builtin k) := by
    intro k
    rw [C50_defaults (distinct_dupdate de _), get?_calls hdc, hcall]
  have hno : ∀ k, (∀ v, ¬ Passes a k v) → Dict.get? a.named (c%"call:" ++ k) = none := by
    intro k hk
    cases hv : Dict.get? a.named (c%"call:" ++ k) with
    | none => rfl
    | some v => exact absurd hv (hk v)
  refine ⟨uri, text, _, file, _, (n1 uri).1 u2, u1, hfile, ⟨?_, ?_, ?_⟩, by simpa using hf, f1, by cases keep <;> rfl, by cases keep <;> rfl, ?_, by cases keep <;> rfl, ?_⟩
  · intro k v hk
    rw [hget, hk]; rfl
  · intro hh k hk
    rw [hget, hno k hk, ge, if_pos (handsOver_iff.1 hh)]; rfl
  · intro hh k hk
    rw [hget, hno k hk, ge, if_neg (fun c => hh (handsOver_iff.2 c))]; rfl
  · intro k v
    rw [hcall]; exact Iff.rfl
  · refine ⟨Node.new (.includeMau uri) ctx file.nodes (callArguments { b with named := Dict.erase (Dict.erase b.named c%"uri") c%"pass_environment" }).2 s.labelBuf, rfl, rfl, ?_⟩
    unfold put
    cases keep
    · exact .inr rfl
    · exact .inl rfl

/-- The line of an include of a Mau file is read by the step of the include. -/
theorem mau_reads {P : Parser} (hP : Clean P) {s s' : DocSt} {ln col : Nat} {l : Str} {rest : List Str} {a : NodeArgs} (hl : MauLine P s ln col l a)
    (hr : P.run ln col (l :: rest) s = .ok s') :
    ∃ s1 ctx, ctx.source = P.src ∧ P.includeStep s c%"mau" a ctx = .ok s1 ∧ P.run (ln + 1) 0 rest s1 = .ok s' := by
  cases hl with
  | pending hl =>
    obtain ⟨s1, h1, h2⟩ := Reads.success (reads_include hP hl) hr
    exact ⟨s1, _, rfl, h1, h2⟩
  | own hl hb ha =>
    obtain ⟨s1, h1, h2⟩ := Reads.success (reads_include_args hP hl) hr
    unfold Parser.includeInline at h1
    split at h1
    · cases h1
    · obtain ⟨p, hp, h3⟩ := bind_ok_except h1
      rw [show col + 2 + _ + (c%"mau" : Str).length + 1 = col + 2 + _ + 3 + 1 from rfl, ha] at hp
      cases hp
      exact ⟨s1, _, rfl, h3, h2⟩

theorem mauLine_distinct {P : Parser} {s : DocSt} {ln col : Nat} {l : Str} {a : NodeArgs} (ht : Tidy s) (hl : MauLine P s ln col l a) : Dict.Distinct a.named := by
  cases hl with
  | pending hl => exact ht.args'
  | own hl hb ha => exact distinct_arguments ha

/-- C50: a line that includes a Mau file. The file is the one the arguments name, and its lines are read, from its first one on, starting with the variables
passed by the include, those of the includer (unless `pass_environment` says otherwise) and the parser's own ones. Whatever the file
defines, the lines after the include are read with the variables there were before it. (`Tidy`: the dictionaries of the state have
distinct keys, which holds in all states a parser reaches, `tidy_run`.) -/
theorem C50_variables {cfg : Config} {n : Nat} {src : Option Str} {ln col : Nat} {l : Str} {rest : List Str} {s s' : DocSt} {a : NodeArgs} (ht : Tidy s)
    (hs : Separate s.env) (hl : MauLine (parser cfg n src) s ln col l a) (hr : (parser cfg n src).run ln col (l :: rest) s = .ok s') :
    ∃ uri text m first last file s1,
      Names a uri ∧ uri ≠ [] ∧ cfg.files uri = .ok text ∧
      Sees s.env a first.env ∧ first.nodes = [] ∧
      n = m + 1 ∧ (parser cfg m (some uri)).run 0 0 (splitChar '\n' text) first = .ok last ∧ finalise cfg last = .ok file ∧
      (∃ nd, nd.data = .includeMau uri ∧ nd.content = file.nodes ∧ (s1.nodes = s.nodes ++ [nd] ∨ s1.nodes = s.nodes)) ∧
      s1.env = s.env ∧ (parser cfg n src).run (ln + 1) 0 rest s1 = .ok s' := by
  obtain ⟨s1, ctx, _, h1, h2⟩ := mau_reads (clean_parser cfg n src) hl hr
  obtain ⟨uri, text, e, file, call, u1, u2, u3, u4, _, u5, u6, _, _, _, nd, u7, u8, u9⟩ := mau_step ht.env (mauLine_distinct ht hl) hs h1
  obtain ⟨m, last, hm, hrun, hfin⟩ := parseDocument_ok u5
  exact ⟨uri, text, m, _, last, _, s1, u1, u2, u3, u4, rfl, hm, hrun, hfin, ⟨nd, u7, u8, u9⟩, u6, h2⟩

/-- C50: no include line of any type changes a variable. -/
theorem C50_after {cfg : Config} {n : Nat} {src : Option Str} {ln col : Nat} {l : Str} {rest : List Str} {s s' : DocSt} {a : NodeArgs} {x : Except Err DocSt}
    (hl : Construct (parser cfg n src) s ln col [l] rest .incl a x) (hr : (parser cfg n src).run ln col (l :: rest) s = .ok s') :
    ∃ s1, s1.env = s.env ∧ (parser cfg n src).run (ln + 1) 0 rest s1 = .ok s' := by
  have hP := clean_parser cfg n src
  have key : ∃ s1, x = .ok s1 ∧ (parser cfg n src).run (ln + 1) 0 rest s1 = .ok s' := by
    generalize hq : [l] = ls at hl
    cases hl with
    | incl hl => cases hq; exact Reads.success (reads_include hP hl) hr
    | inclArgs hl ha => cases hq; exact Reads.success (reads_include_args hP hl) hr
  obtain ⟨s1, h1, h2⟩ := key
  exact ⟨s1, (construct_outcome hl h1).env (by simp), h2⟩


/-! ## C49 — include calls -/

theorem Spec.Once.anti {seen known : List (Option Str)} {cs : List IncludeCall} (h : Once seen cs) (hs : ∀ x ∈ known, x ∈ seen) : Once known cs := by
  induction h generalizing known with
  | nil => exact .nil
  | cons h1 h2 h ih =>
    refine .cons h1 (fun hm => h2 (hs _ hm)) (ih fun x hx => ?_)
    simp only [List.mem_cons] at hx ⊢
    rcases hx with rfl | rfl | hx
    · exact .inl rfl
    · exact .inr (.inl rfl)
    · exact .inr (.inr (hs x hx))

theorem Spec.Once.append {seen later : List (Option Str)} {cs ds : List IncludeCall} (h1 : Once seen cs) (h2 : Once later ds) (hs : ∀ x ∈ seen, x ∈ later)
    (hc : ∀ c ∈ cs, c.caller ∈ later ∧ some c.callee ∈ later) : Once seen (cs ++ ds) := by
  induction h1 with
  | nil => exact h2.anti hs
  | cons g1 g2 h ih =>
    refine .cons g1 g2 (ih ?_ fun c hm => hc c (List.mem_cons_of_mem _ hm))
    intro x hx
    simp only [List.mem_cons] at hx
    rcases hx with rfl | rfl | hx
    · exact (hc _ List.mem_cons_self).1
    · exact (hc _ List.mem_cons_self).2
    · exact hs x hx

theorem Spec.From.mono {known more : List (Option Str)} {cs : List IncludeCall} (h : From known cs) (hs : ∀ x ∈ known, x ∈ more) : From more cs := by
  induction h generalizing more with
  | nil => exact .nil
  | cons h1 h ih =>
    refine .cons (hs _ h1) (ih fun x hx => ?_)
    rcases List.mem_cons.1 hx with rfl | hx
    · exact List.mem_cons_self
    · exact List.mem_cons_of_mem _ (hs x hx)

theorem Spec.From.append {known : List (Option Str)} {cs ds : List IncludeCall} (h1 : From known cs) (h2 : From known ds) : From known (cs ++ ds) := by
  have key : ∀ {k : List (Option Str)}, From k cs → (∀ x ∈ known, x ∈ k) → From k (cs ++ ds) := by
    intro k h
    clear h1
    induction h with
    | nil => intro hk; exact h2.mono hk
    | cons g1 h ih => intro hk; exact .cons g1 (ih fun x hx => List.mem_cons_of_mem _ (hk x hx))
  exact key h1 fun _ h => h

theorem mem_addForbidden {l : List (Option Str)} {x y : Option Str} : y ∈ addForbidden l x ↔ y ∈ l ∨ y = x := by
  unfold addForbidden
  split
  · rename_i h
    simp only [List.contains_iff_mem] at h
    constructor
    · exact .inl
    · rintro (h' | rfl)
      · exact h'
      · exact h
  · simp

/-- What reading lines of the file `src` adds to the include calls. -/
structure Calls (src : Option Str) (s s' : DocSt) (new : List IncludeCall) : Prop where
  calls : s'.includeCalls = s.includeCalls ++ new
  once : Once (src :: s.forbidden) new
  callers : From [src] new
  grows : ∀ x ∈ s.forbidden, x ∈ s'.forbidden
  forbidden : ∀ c ∈ new, c.caller ∈ s'.forbidden ∧ some c.callee ∈ s'.forbidden

theorem Calls.refl {src : Option Str} {s s' : DocSt} (h1 : s'.includeCalls = s.includeCalls) (h2 : ∀ x ∈ s.forbidden, x ∈ s'.forbidden) : Calls src s s' [] :=
  ⟨by simp [h1], .nil, .nil, h2, by simp⟩

theorem Calls.same {src : Option Str} {s s' : DocSt} (h1 : s'.includeCalls = s.includeCalls) (h2 : s'.forbidden = s.forbidden) : ∃ new, Calls src s s' new :=
  ⟨[], .refl h1 (by rw [h2]; exact fun _ h => h)⟩

/-- A parser for included files that obeys the rules. -/
def NestedOnce (nested : NestedParser) : Prop := ∀ req inner, nested req = .ok inner →
  Once (req.source :: req.forbidden) inner.includeCalls ∧ From [req.source] inner.includeCalls ∧ (∀ x ∈ req.forbidden, x ∈ inner.forbidden) ∧
    ∀ c ∈ inner.includeCalls, c.caller ∈ inner.forbidden ∧ some c.callee ∈ inner.forbidden

theorem calls_frame {nested : NestedParser} (hn : NestedOnce nested) (src : Option Str) :
    Frame (fun s s' => ∃ new, Calls src s s' new) nested (· = src) where
  refl _ := Calls.same rfl rfl
  trans := by
    rintro a b c ⟨n1, h1⟩ ⟨n2, h2⟩
    have key : ∀ x ∈ n1, x.caller ∈ src :: b.forbidden ∧ some x.callee ∈ src :: b.forbidden := fun x hx =>
      ⟨List.mem_cons_of_mem _ (h1.forbidden x hx).1, List.mem_cons_of_mem _ (h1.forbidden x hx).2⟩
    refine ⟨n1 ++ n2, by rw [h2.calls, h1.calls, List.append_assoc], h1.once.append h2.once ?_ key, h1.callers.append h2.callers,
      fun x hx => h2.grows x (h1.grows x hx), ?_⟩
    · intro x hx
      rcases List.mem_cons.1 hx with rfl | hx
      · exact List.mem_cons_self
      · exact List.mem_cons_of_mem _ (h1.grows x hx)
    · intro x hx
      rcases List.mem_append.1 hx with hx | hx
      · exact ⟨h2.grows _ (h1.forbidden x hx).1, h2.grows _ (h1.forbidden x hx).2⟩
      · exact h2.forbidden x hx
  args _ _ _ := Calls.same rfl rfl
  labels _ _ := Calls.same rfl rfl
  control _ _ := Calls.same rfl rfl
  latest _ _ := Calls.same rfl rfl
  env _ _ _ _ := Calls.same rfl rfl
  node _ _ := Calls.same rfl rfl
  text _ _ _ _ _ _ _ _ := Calls.same rfl rfl
  fresh _ := Calls.same rfl rfl
  name _ _ := Calls.same rfl rfl
  header _ _ _ := Calls.same rfl rfl
  body _ _ := Calls.same rfl rfl
  group _ _ := Calls.same rfl rfl
  block _ _ _ _ _ _ _ _ _ := Calls.same rfl rfl
  merge _ _ _ _ := Calls.same rfl rfl
  forbid _ _ := ⟨[], .refl rfl fun _ h => mem_addForbidden.2 (.inl h)⟩
  mau := by
    intro s req inner c hc hi _ _ hsrc hnew hf
    obtain ⟨i1, i2, i3, i4⟩ := hn req inner hi
    have hcal : c.caller ∈ inner.forbidden := i3 _ (by rw [hf]; simp [mem_addForbidden])
    have hce : some c.callee ∈ inner.forbidden := i3 _ (by rw [hf]; simp [mem_addForbidden])
    simp only [mem_addForbidden, not_or] at hnew
    refine ⟨c :: inner.includeCalls, by simp, .cons hnew.2 ?_ (i1.anti ?_), .cons (by simp [hc]) (i2.mono ?_), ?_, ?_⟩
    · simp only [List.mem_cons, not_or]
      exact ⟨by rw [← hc]; exact hnew.2, hnew.1⟩
    · rw [hf]
      simp only [List.mem_cons, mem_addForbidden]
      rintro x (rfl | rfl | rfl | h)
      · exact .inr (.inl (.inr rfl))
      · exact .inr (.inr rfl)
      · exact .inr (.inl (.inr hc.symm))
      · exact .inr (.inl (.inl h))
    · rw [hsrc]
      simp
    · intro x hx
      exact i3 x (by rw [hf]; simp [mem_addForbidden, hx])
    · intro x hx
      rcases List.mem_cons.1 hx with rfl | hx
      · exact ⟨hcal, hce⟩
      · exact i4 x hx
  tocNode _ _ := Calls.same rfl rfl
  footnoteList _ _ := Calls.same rfl rfl
  groupNode _ _ _ := Calls.same rfl rfl

theorem nestedOnce (cfg : Config) (n : Nat) : NestedOnce (parseDocument cfg n) := by
  induction n with
  | zero => intro req inner h; cases h
  | succ n ih =>
    intro req inner h
    obtain ⟨m, s, hm, hr, hf⟩ := parseDocument_ok h
    cases hm
    obtain ⟨new, hc⟩ := run_keeps (P := parser cfg n req.source) (calls_frame (nested := (parser cfg n req.source).nested) ih req.source) (fun s k => Calls.same rfl rfl) hr
    have e1 : inner.includeCalls = s.includeCalls := (rest_finalise hf).calls
    have e2 : inner.forbidden = s.forbidden := (rest_finalise hf).forbidden
    have e3 : s.includeCalls = new := by rw [hc.calls]; rfl
    rw [e1, e2, e3]
    exact ⟨hc.once, hc.callers, hc.grows, hc.forbidden⟩

/-- C49 (partial): the include calls of a parsed document, in the order in which they are made. Every include line stands in the document or in a file that
was included before, and no file is included that was seen before: neither the document itself, nor a file that is being included, nor a
file that was included completely. (Missing: include lines in blocks are not among these calls, see `C49_blocks_recurse`.) -/
theorem C49_calls_partial {cfg : Config} {n : Nat} {text : Str} {env : Env} {src : Option Str} {d : DocSt} (h : parseDoc cfg n text env src = .ok d) :
    Once [src] d.includeCalls ∧ From [src] d.includeCalls :=
  let x := nestedOnce cfg n _ d h
  ⟨x.1, x.2.1⟩

/-- C49 (partial): in a parsed document the files included (outside blocks) are pairwise different, and none of them is the document. -/
theorem C49_distinct_partial {cfg : Config} {n : Nat} {text : Str} {env : Env} {src : Option Str} {d : DocSt} (h : parseDoc cfg n text env src = .ok d) :
    (d.includeCalls.map (·.callee)).Nodup ∧ ∀ c ∈ d.includeCalls, some c.callee ≠ src := by
  have key : ∀ {seen : List (Option Str)} {cs : List IncludeCall}, Once seen cs → (cs.map (·.callee)).Nodup ∧ ∀ c ∈ cs, some c.callee ∉ seen := by
    intro seen cs h
    induction h with
    | nil => exact ⟨List.nodup_nil, by simp⟩
    | cons h1 h2 h ih =>
      refine ⟨?_, ?_⟩
      · rw [List.map_cons, List.nodup_cons]
        refine ⟨fun hm => ?_, ih.1⟩
        obtain ⟨x, hx, he⟩ := List.mem_map.1 hm
        exact ih.2 x hx (by rw [he]; simp)
      · intro x hx
        rcases List.mem_cons.1 hx with rfl | hx
        · exact h2
        · intro hm
          exact ih.2 x hx (List.mem_cons_of_mem _ (List.mem_cons_of_mem _ hm))
  have := key (C49_calls_partial h).1
  exact ⟨this.1, fun c hc e => this.2 c hc (by simp [e])⟩

theorem mau_rejected {P : Parser} {s : DocSt} {a : NodeArgs} {ctx : Context} {uri : Str} (hu : Names a uri) (hne : uri ≠ [])
    (hf : some uri = ctx.source ∨ some uri ∈ s.forbidden) : P.includeStep s c%"mau" a ctx =
      .error (.parser (.includeLoop (addForbidden s.forbidden ctx.source)) (some ctx)) := by
  unfold Parser.includeStep Parser.includeNodeStep
  rw [if_neg (by decide), if_pos rfl]
  unfold Parser.includeMauStep
  have h1 : truthy (Dict.get? (a.setNames [c%"uri"]).named c%"uri") = some uri := truthy_some.2 ⟨hne, ((setNames_uri a).1 uri).2 hu⟩
  dsimp only
  rw [h1]
  dsimp only
  rw [if_pos]
  · rfl
  · simp only [List.contains_iff_mem, mem_addForbidden]
    exact hf.symm

/-- C49: a line that includes the file it stands in, a file that is being included, or one that was included before (outside blocks), is a Mau error that
points at the line and lists the files that cannot be included. (If the lines after it cannot be lexed the error is reported for those.) -/
theorem C49_rejected {P : Parser} (hP : Clean P) {s : DocSt} {ln col : Nat} {l uri : Str} {rest : List Str} {a : NodeArgs} (hl : MauLine P s ln col l a)
    (hu : Names a uri) (hne : uri ≠ []) (hf : some uri = P.src ∨ some uri ∈ s.forbidden) (hr : Lexes P.src (ln + 1) rest) :
    ∃ files c, (∀ f, f ∈ files ↔ f = P.src ∨ f ∈ s.forbidden) ∧ c.source = P.src ∧ c.startLine = ln ∧ c.startColumn = col ∧ c.endLine = ln ∧
      P.run ln col (l :: rest) s = .error (.parser (.includeLoop files) (some c)) := by
  have hm : ∀ f, f ∈ addForbidden s.forbidden P.src ↔ f = P.src ∨ f ∈ s.forbidden := fun f => by rw [mem_addForbidden, or_comm]
  have hc : ∀ k : Nat, ((at_ P.src ln col 2).merge (at_ P.src ln (col + 2 + k) (c%"mau" : Str).length)).startLine = ln ∧
      ((at_ P.src ln col 2).merge (at_ P.src ln (col + 2 + k) (c%"mau" : Str).length)).startColumn = col ∧
      ((at_ P.src ln col 2).merge (at_ P.src ln (col + 2 + k) (c%"mau" : Str).length)).endLine = ln := by
    intro k
    simp only [Context.merge, at_]
    omega
  cases hl with
  | pending hl => exact ⟨_, _, hm, rfl, (hc _).1, (hc _).2.1, (hc _).2.2, (reads_include hP hl).err _ (mau_rejected hu hne hf) hr⟩
  | @own sp _ _ hl hb ha =>
    refine ⟨_, _, hm, rfl, (hc sp.length).1, (hc sp.length).2.1, (hc sp.length).2.2, (reads_include_args hP hl).err _ ?_ hr⟩
    unfold Parser.includeInline
    rw [hb]
    dsimp only
    rw [show col + 2 + _ + (c%"mau" : Str).length + 1 = col + 2 + _ + 3 + 1 from rfl, ha]
    exact mau_rejected hu hne hf

/-- Files for the examples. -/
def exampleFiles (fs : List (Str × Str)) : Config := { files := fun u => match Dict.get? fs u with | some t => .ok t | none => .error true }

/-! ### Includes in blocks -/

/-- Two files, each of which includes the other one in a block. -/
def loopFiles : Config :=
  exampleFiles [(c%"a", c%"----\n<< mau:b\n----\n"), (c%"b", c%"----\n<< mau:a\n----\n")]

theorem parseDocument_error {cfg : Config} {n : Nat} {req : NestedReq} {e : Err} (hk : parserObjects (initEnv req.env) = .ok ())
    (h : (parser cfg n req.source).run req.startLine req.startColumn (splitChar '\n' req.text) (initial req) = .error e) :
    parseDocument cfg (n + 1) req = .error e := by
  have := parseDocument_run cfg n req hk
  rw [h] at this
  cases hp : parseDocument cfg (n + 1) req with
  | error x => rw [hp] at this; exact congrArg _ (by injection this)
  | ok d => rw [hp] at this; cases this

/-- The environment of a parser that is given no variables. -/
def bareEnv : Env := initEnv []

theorem bare_objects : parserObjects (initEnv bareEnv) = .ok () := by decide +kernel

theorem block_error {P : Parser} {s : DocSt} {t : Token} {ctx : Context} {e : Err} (hb : s.argsBuf = none) (ht : t.value ≠ [])
    (h : P.nested ⟨t.value, s.env, t.ctx.startLine, t.ctx.startColumn, t.ctx.source, [], s.uid, s.objs⟩ = .error e) :
    P.blockStep s (some t) ctx = .error e := by
  have ha : args s = ({} : NodeArgs) := by unfold args; rw [hb]; rfl
  have hf : (some t).filter (fun t => !t.value.isEmpty) = some t := by
    cases hv : t.value with
    | nil => exact absurd hv ht
    | cons c cs => simp [Option.filter, hv]
  unfold Parser.blockStep
  rw [ha, hf]
  have : P.engineStep { s with argsBuf := none } c%"default" [] (some t) {} ctx = .error e := by
    unfold Parser.engineStep
    rw [if_pos rfl]
    dsimp only
    unfold Parser.contentStep
    dsimp only
    rw [h]
    rfl
  exact (congrArg (fun x => x >>= fun r => placeStep { r.2 with labelBuf := [] } r.1.1 r.1.2.1 r.1.2.2 s.labelBuf ctx _) this)

theorem loop_block (x y : Str) (hx : x = c%"a" ∨ x = c%"b") (n uid : Nat) (objs : List Node) (fb : List (Option Str))
    (h : parseDocument loopFiles n ⟨c%"<< mau:" ++ x, bareEnv, 1, 0, some y, [], uid, objs⟩ = .error .fuel) :
    parseDocument loopFiles (n + 1) ⟨c%"----\n<< mau:" ++ x ++ c%"\n----\n", bareEnv, 0, 0, some y, fb, uid, objs⟩ = .error .fuel := by
  refine parseDocument_error bare_objects ?_
  have hs : splitChar '\n' (c%"----\n<< mau:" ++ x ++ c%"\n----\n") = c%"----" :: ([c%"<< mau:" ++ x] ++ c%"----" :: [[]]) := by
    rcases hx with rfl | rfl <;> decide
  dsimp only
  rw [hs]
  have hi : initEnv bareEnv = bareEnv := by decide +kernel
  refine (reads_block (clean_parser loopFiles n (some y)) (ch := '-') (by decide) (by decide) ?_).err _ ?_ ⟨[tokAt .EOF [] (0 + 1 + 2) 0 (some y)], ?_⟩
  · rcases hx with rfl | rfl <;> decide
  · refine block_error (t := ⟨.TEXT, c%"<< mau:" ++ x, ⟨1, 0, 1, 8, some y⟩⟩) rfl (by simp) ?_
    show parseDocument loopFiles n ⟨c%"<< mau:" ++ x, initEnv bareEnv, 1, 0, some y, [], uid, objs⟩ = _
    rw [hi]
    exact h
  · rw [docTokens]
    rfl

theorem loop_include (x y : Str) (hx : (x = c%"a" ∧ y = c%"b") ∨ (x = c%"b" ∧ y = c%"a")) (n uid : Nat) (objs : List Node)
    (h : ∀ fb, parseDocument loopFiles n ⟨c%"----\n<< mau:" ++ y ++ c%"\n----\n", bareEnv, 0, 0, some x, fb, uid, objs⟩ = .error .fuel) :
    parseDocument loopFiles (n + 1) ⟨c%"<< mau:" ++ x, bareEnv, 1, 0, some y, [], uid, objs⟩ = .error .fuel := by
  refine parseDocument_error bare_objects ?_
  have hs : splitChar '\n' (c%"<< mau:" ++ x) = [c%"<< mau:" ++ x] := by
    rcases hx with ⟨rfl, _⟩ | ⟨rfl, _⟩ <;> decide
  dsimp only
  rw [hs]
  have hl : SpecialLine (c%"<< mau:" ++ x) [.tok .INCLUDE c%"<<", .skip [' '], .tok .TEXT c%"mau", .tok .LITERAL [':'], .tok .TEXT x] := by
    rcases hx with ⟨rfl, _⟩ | ⟨rfl, _⟩
    · refine ⟨.incl [' '] c%"mau" (':' :: c%"a") _ (by unfold Spaces; decide) (by decide) (by decide) (by intro c r h; cases h; decide) (Tail.colonText (by decide)), by unfold Spaces; decide, ?_⟩
      intro ch e
      simp at e
    · refine ⟨.incl [' '] c%"mau" (':' :: c%"b") _ (by unfold Spaces; decide) (by decide) (by decide) (by intro c r h; cases h; decide) (Tail.colonText (by decide)), by unfold Spaces; decide, ?_⟩
      intro ch e
      simp at e
  have hp : ∃ p, processArgumentsWithVariables bareEnv (tokAt .TEXT x 1 7 (some y)) = .ok p ∧ p.arguments = { unnamed := [x] } := by
    rcases hx with ⟨rfl, rfl⟩ | ⟨rfl, rfl⟩
    · exact ⟨⟨[⟨c%"a", ⟨1, 7, 1, 8, some c%"b"⟩⟩], [], [], none, none⟩, by decide +kernel, rfl⟩
    · exact ⟨⟨[⟨c%"b", ⟨1, 7, 1, 8, some c%"a"⟩⟩], [], [], none, none⟩, by decide +kernel, rfl⟩
  have hi : initEnv bareEnv = bareEnv := by decide +kernel
  have he : Env.fromEnvironment bareEnv = .ok bareEnv := by decide +kernel
  obtain ⟨p, hp, ha⟩ := hp
  refine (reads_include_args (clean_parser loopFiles n (some y)) hl).err _ ?_ ⟨[tokAt .EOF [] (1 + 1) 0 (some y)], ?_⟩
  · show Parser.includeInline _ (initial ⟨c%"<< mau:" ++ x, bareEnv, 1, 0, some y, [], uid, objs⟩) _ _ _ = _
    unfold Parser.includeInline
    have e : (initial ⟨c%"<< mau:" ++ x, bareEnv, 1, 0, some y, [], uid, objs⟩).env = bareEnv := hi
    rw [e]
    dsimp only [initial]
    have hp' : processArgumentsWithVariables bareEnv
        (tokAt .TEXT x 1 (0 + 2 + [' '].length + ['m', 'a', 'u'].length + 1) (parser loopFiles n (some y)).src) = .ok p := hp
    rw [hp']
    show Parser.includeStep _ _ _ p.arguments _ = _
    rw [ha, hi]
    generalize hc : ((at_ (parser loopFiles n (some y)).src 1 0 2).merge
            (at_ (parser loopFiles n (some y)).src 1 (0 + 2 + [' '].length) ['m', 'a', 'u'].length)) = c
    have hsrc : c.source = some y := by subst hc; rfl
    have : (parser loopFiles n (some y)).includeMauStep { uid := uid, env := bareEnv, objs := objs } { unnamed := [x] } c = .error .fuel := by
      unfold Parser.includeMauStep
      rw [hsrc]
      rcases hx with ⟨rfl, rfl⟩ | ⟨rfl, rfl⟩
      · show (Except.ok _ >>= fun _ => includeEnv none bareEnv >>= fun _ => _) = _
        have h1 : includeEnv none bareEnv = .ok bareEnv := he
        rw [h1]
        show (parseDocument loopFiles n ⟨c%"----\n<< mau:" ++ c%"b" ++ c%"\n----\n", bareEnv, 0, 0, some c%"a", _, uid, objs⟩ >>= _) = _
        rw [h]; rfl
      · show (Except.ok _ >>= fun _ => includeEnv none bareEnv >>= fun _ => _) = _
        have h1 : includeEnv none bareEnv = .ok bareEnv := he
        rw [h1]
        show (parseDocument loopFiles n ⟨c%"----\n<< mau:" ++ c%"a" ++ c%"\n----\n", bareEnv, 0, 0, some c%"b", _, uid, objs⟩ >>= _) = _
        rw [h]; rfl
    show ((parser loopFiles n (some y)).includeMauStep { uid := uid, env := bareEnv, objs := objs } { unnamed := [x] } c >>= _) = _
    rw [this]; rfl
  · rw [docTokens]; rfl

theorem loop_forever (n : Nat) : ∀ (x y : Str) (_ : (x = c%"a" ∧ y = c%"b") ∨ (x = c%"b" ∧ y = c%"a")) (uid : Nat) (objs : List Node)
    (fb : List (Option Str)),
    parseDocument loopFiles n ⟨c%"<< mau:" ++ x, bareEnv, 1, 0, some y, [], uid, objs⟩ = .error .fuel ∧
      parseDocument loopFiles n ⟨c%"----\n<< mau:" ++ x ++ c%"\n----\n", bareEnv, 0, 0, some y, fb, uid, objs⟩ = .error .fuel := by
  induction n with
  | zero => intro x y _ uid objs fb; exact ⟨rfl, rfl⟩
  | succ n ih =>
    intro x y hx uid objs fb
    refine ⟨loop_include x y hx n uid objs ?_, loop_block x y ?_ n uid objs fb (ih x y hx uid objs []).1⟩
    · intro fb'
      exact (ih y x (hx.symm.imp (fun h => ⟨h.2, h.1⟩) fun h => ⟨h.2, h.1⟩) uid objs fb').2
    · exact hx.imp (fun h => h.1) fun h => h.1

theorem parseDocument_env {cfg : Config} {n : Nat} {text : Str} {e1 e2 : Env} {l c uid : Nat} {src : Option Str} {fb : List (Option Str)} {objs : List Node}
    (h : initEnv e1 = initEnv e2) : parseDocument cfg n ⟨text, e1, l, c, src, fb, uid, objs⟩ = parseDocument cfg n ⟨text, e2, l, c, src, fb, uid, objs⟩ := by
  cases n with
  | zero => rfl
  | succ n =>
    rw [parseDocument, parseDocument]
    dsimp only
    rw [h]

/-- **C49, violated.** Two files that include each other in a block recurse forever: whatever the depth of recursion the reader
allows, it is used up. (The content of a block is read with an empty list of forbidden files.) -/
theorem C49_blocks_recurse (n : Nat) : parseDoc loopFiles n c%"----\n<< mau:b\n----\n" [] (some c%"a") = .error .fuel := by
  have h := (loop_forever n c%"b" c%"a" (.inr ⟨rfl, rfl⟩) 1 [] []).2
  exact (parseDocument_env (by decide +kernel)).trans h

/-! ### Examples -/

/-- The text of the paragraphs of a document, and of the paragraphs of the files it includes. -/
def readTexts (x : Except Err DocSt) : Option (List Str) :=
  match x with
  | .ok s => some (s.nodes.flatMap fun n => match n.data with
      | .includeMau u => (c%"include " ++ u) :: n.content.map fun m => extractText m.content
      | _ => [extractText n.content])
  | .error _ => none

/-- The file sees `x` and what is passed to it, redefines `x`, and the includer does not notice. -/
example : readTexts (parseDoc (exampleFiles [(c%"f", c%"{x} {k}\n\n:x:3\n{x}\n")]) 20 c%":x:1\n<< mau:f,call:k=2\n{x}\n") =
    some [c%"include f", c%"1 2", c%"3", c%"1"] := by
  decide +kernel

/-- The error of a failed reading. -/
def failure (x : Except Err DocSt) : Option Err :=
  match x with
  | .ok _ => none
  | .error e => some e

/-- With `pass_environment=false` the file does not see `x`. -/
example : (failure (parseDoc (exampleFiles [(c%"f", c%"{x}\n")]) 20 c%":x:1\n<< mau:f,pass_environment=false\n")).isSome = true ∧
    readTexts (parseDoc (exampleFiles [(c%"f", c%"{k}\n")]) 20 c%":x:1\n<< mau:f,pass_environment=false,call:k=2\n") = some [c%"include f", c%"2"] := by
  decide +kernel

/-- Files that include each other outside blocks are an error, and so is a second include of the same file. -/
example : failure (parseDoc (exampleFiles [(c%"a", c%"<< mau:b\n"), (c%"b", c%"<< mau:a\n")]) 20 c%"<< mau:b\n" [] (some c%"a")) =
      some (.parser (.includeLoop [some c%"a", some c%"b"]) (some ⟨0, 0, 0, 6, some c%"b"⟩)) ∧
    failure (parseDoc (exampleFiles [(c%"b", c%"text\n")]) 20 c%"<< mau:b\n<< mau:b\n") =
      some (.parser (.includeLoop [none, some c%"b"]) (some ⟨1, 0, 1, 6, none⟩)) := by
  decide +kernel

/-- What C50 excludes: variable names one of which is a namespace of the other. Defined in this order the include crashes. -/
theorem C50_namespace_crash : failure (parseDoc (exampleFiles [(c%"f", c%"text\n")]) 20 c%":a:1\n:a.b:2\n<< mau:f\n") = some (.py .typeError) := by
  decide +kernel

/-- What C50 excludes: in the other order the file does not see `a.b`. -/
theorem C50_namespace_lost :
    readTexts (parseDoc (exampleFiles [(c%"f", c%"{a}\n")]) 20 c%":a.b:2\n:a:1\n<< mau:f\n{a.b}\n") = some [c%"include f", c%"1", c%"2"] ∧
    (failure (parseDoc (exampleFiles [(c%"f", c%"{a.b}\n")]) 20 c%":a.b:2\n:a:1\n<< mau:f\n")).isSome = true := by
  decide +kernel

theorem example_names : Separate [(c%"x", .str c%"1"), (c%"ns.y", .str c%"2")] := by
  refine ⟨by simp [Dict.keys], ?_⟩
  intro p hp q hq ⟨r, h⟩
  simp only [Dict.keys, List.map_cons, List.map_nil, List.mem_cons, List.not_mem_nil, or_false] at hp hq
  rcases hp with rfl | rfl <;> rcases hq with rfl | rfl <;> simp at h

/-- The hypotheses of `C50_variables` are met: a line with its own arguments, in a state with variables. -/
example : ∃ a s', MauLine (parser (exampleFiles [(c%"f", c%"{x} {k}\n")]) 20 none) { env := [(c%"x", .str c%"1"), (c%"ns.y", .str c%"2")] } 0 0 c%"<< mau:f,call:k=2" a ∧
    Names a c%"f" ∧ Passes a c%"k" c%"2" ∧ HandsOver a ∧ Tidy { env := [(c%"x", .str c%"1"), (c%"ns.y", .str c%"2")] } ∧
    Separate [(c%"x", .str c%"1"), (c%"ns.y", .str c%"2")] ∧
    (parser (exampleFiles [(c%"f", c%"{x} {k}\n")]) 20 none).run 0 0 [c%"<< mau:f,call:k=2"] { env := [(c%"x", .str c%"1"), (c%"ns.y", .str c%"2")] } = .ok s' := by
  obtain ⟨p, hp, ha⟩ : ∃ p, processArgumentsWithVariables [(c%"x", .str c%"1"), (c%"ns.y", .str c%"2")] (tokAt .TEXT c%"f,call:k=2" 0 7 none) = .ok p ∧
      p.arguments = { unnamed := [c%"f"], named := [(c%"call:k", c%"2")] } := ⟨_, rfl, by decide +kernel⟩
  obtain ⟨s', hs⟩ : ∃ s', (parser (exampleFiles [(c%"f", c%"{x} {k}\n")]) 20 none).run 0 0 [c%"<< mau:f,call:k=2"]
      { env := [(c%"x", .str c%"1"), (c%"ns.y", .str c%"2")] } = .ok s' := by
    have : failure ((parser (exampleFiles [(c%"f", c%"{x} {k}\n")]) 20 none).run 0 0 [c%"<< mau:f,call:k=2"]
      { env := [(c%"x", .str c%"1"), (c%"ns.y", .str c%"2")] }) = none := by decide +kernel
    cases h : (parser (exampleFiles [(c%"f", c%"{x} {k}\n")]) 20 none).run 0 0 [c%"<< mau:f,call:k=2"]
      { env := [(c%"x", .str c%"1"), (c%"ns.y", .str c%"2")] } with
    | ok s => exact ⟨s, rfl⟩
    | error e => rw [h] at this; cases this
  have hl : SpecialLine c%"<< mau:f,call:k=2" [.tok .INCLUDE c%"<<", .skip [' '], .tok .TEXT c%"mau", .tok .LITERAL [':'], .tok .TEXT c%"f,call:k=2"] :=
    ⟨.incl [' '] c%"mau" c%":f,call:k=2" _ (by unfold Spaces; decide) (by decide) (by decide) (by intro c r h; cases h; decide) (Tail.colonText (by decide)),
      by unfold Spaces; decide, by intro ch h; simp at h⟩
  refine ⟨p.arguments, s', .own hl rfl hp, ?_, ?_, ?_, ⟨by unfold Dict.Distinct; decide, (fun _ h => nomatch h)⟩, example_names, hs⟩
  · rw [ha]; right; decide
  · rw [ha]; show Dict.get? _ _ = _; decide
  · rw [ha]; intro v h; cases h

end Mau
