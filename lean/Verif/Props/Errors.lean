import Verif.Lemmas.TextErrs
import Verif.Lemmas.Endless
import Verif.Lemmas.PreBounds
import Verif.Lemmas.DocFuel

set_option linter.unusedSimpArgs false

/-!
# Termination and errors of the text parser (C35, C51)
-/

namespace Mau
open Spec

/-! ## C35: parsing a text ends -/

theorem nestInsert_fuel (path : List Str) (v : Val) : ∀ out, nestInsert path v out ≠ .error .fuel := by
  induction path with
  | nil => intro out h; cases h
  | cons k ks ih =>
    intro out
    cases ks with
    | nil => intro h; unfold nestInsert at h; cases h
    | cons k2 ks =>
      intro h
      unfold nestInsert at h
      split at h
      · cases h
      · split at h
        · rename_i sub _ _ _ he
          cases h
          exact ih _ he
        · cases h

theorem nestFlat_fuel (d : Dict Val) : ∀ out, nestFlat d out ≠ .error .fuel := by
  induction d with
  | nil => intro out h; cases h
  | cons kv d ih =>
    intro out h
    unfold nestFlat at h
    split at h
    · rename_i e he
      cases h
      exact nestInsert_fuel _ _ _ he
    · exact ih _ h

theorem aliasArgs_fuel (l : List (Str × Nested)) : aliasArgs l ≠ .error .fuel := by
  induction l with
  | nil => intro h; cases h
  | cons x xs ih =>
    intro h
    obtain ⟨k, v⟩ := x
    cases v with
    | dict d => cases h
    | leaf v =>
      cases v with
      | str s =>
        unfold aliasArgs at h
        cases hr : aliasArgs xs with
        | error e => rw [hr] at h; cases h; exact ih hr
        | ok d => rw [hr] at h; cases h
      | list => cases h
      | emptyDict => cases h
      | other => cases h

theorem bind_fuel {α β : Type} {x : Except Err α} {f : α → Except Err β} (h : x ≠ .error .fuel) (hf : ∀ a, x = .ok a → f a ≠ .error .fuel) :
    (x >>= f) ≠ .error .fuel := by
  cases x with
  | error e => intro he; cases he; exact h rfl
  | ok a => exact hf a rfl

theorem lookupAlias_fuel (env : Env) (name : Str) : lookupAlias env name ≠ .error .fuel := by
  unfold lookupAlias
  dsimp only
  repeat' first
    | (intro h; cases h; done)
    | exact nestFlat_fuel _ _
    | exact aliasArgs_fuel _
    | split
    | refine bind_fuel ?_ fun _ _ => ?_

/-- The conditions of `Errors` for running out of recursion. -/
theorem errors_fuel {env : Env} {text : Str} (h : ∀ v c s, Leads env text v → strP env v c s ≠ .err .fuel) : Errors (· ≠ .fuel) env text where
  mau := by rintro x hx rfl; cases hx
  alias := by rintro x name _ _ hx rfl; exact lookupAlias_fuel env name hx
  empty := by intro _ _ h; cases h
  notText := by intro k _ _ _ _ h; cases h
  sub := by rintro v c s x hv hx rfl; exact h v c s hv hx

theorem strP_noBracket {env : Env} {v : Str} (h : ¬ Brackets v) (c : Context) (s : TextSt) : strP env v c s ≠ .err .fuel := by
  intro hx
  exact strP_errors (E := (· ≠ .fuel)) (errors_fuel fun w c s hw => absurd hw.1 h) c s _ hx rfl

/-- The parts of a tame text can be parsed. -/
theorem tame_parts {env : Env} {text : Str} (h : Tame env text) : ∀ (n : Nat) (v : Str), v.length ≤ n → MayOccur v text →
    Errors (· ≠ .fuel) env v := by
  induction h with
  | @mk text _ _ ihe iha =>
    intro n
    induction n with
    | zero =>
      intro v hn _
      refine errors_fuel fun w c s hw => ?_
      have := List.length_pos_of_mem hw.1.1
      omega
    | succ n ih =>
      intro v hn hv
      refine errors_fuel fun w c s hw => ?_
      obtain ⟨_, ⟨h1, h2⟩ | ⟨h1, key, h2⟩ | ⟨h1, k, h2, h3⟩⟩ := hw
      · intro hx
        exact strP_errors (ih w (by omega) (h1.trans hv)) c s _ hx rfl
      · by_cases hb : Brackets w
        · intro hx
          exact strP_errors (iha (hv.mem h1) key w h2 hb w.length w (Nat.le_refl _) (.refl w)) c s _ hx rfl
        · exact strP_noBracket hb c s
      · by_cases hb : Brackets w
        · intro hx
          refine strP_errors (ihe (h1.trans hv) k w h2 ?_ hb w.length w (Nat.le_refl _) (.refl w)) c s _ hx rfl
          rcases h3 with h3 | h3
          · exact .inl (h3.trans hv)
          · exact .inr (hv.mem h3)
        · exact strP_noBracket hb c s

/-- C35 (partial: only for tame texts, see `C35_ifeval_endless` and `C35_alias_endless` for others): parsing the text ends, with a result or an error. -/
theorem C35_terminates_partial {env : Env} {text : Str} (h : Tame env text) (sl sc : Nat) (src : Option Str) (uid : Nat) :
    ∃ N r, r ≠ .error .fuel ∧ ∀ n ≥ N, parseText n env text sl sc src uid = r := by
  obtain ⟨N, hN⟩ := textP_ev env text sl sc src uid
  refine ⟨N, _, ?_, hN⟩
  intro hx
  exact textP_errors (tame_parts h text.length text (Nat.le_refl _) (.refl text)) hx rfl

/-- If no variable has brackets (so no macro), every text is tame. -/
theorem C35_plain_variables_partial {env : Env} (henv : ∀ k v, (k, Val.str v) ∈ env → ¬ Brackets v) (text : Str) (sl sc : Nat) (src : Option Str) (uid : Nat) :
    ∃ N r, r ≠ .error .fuel ∧ ∀ n ≥ N, parseText n env text sl sc src uid = r :=
  C35_terminates_partial (.mk (fun _ k v hm _ hb => absurd hb (henv k v hm)) (fun _ _ v hm hb => absurd hb (henv _ v hm))) sl sc src uid

/-- A text without the macro `ifeval` and without aliases is tame in every environment. -/
theorem C35_no_evaluation_partial {text : Str} (h1 : ¬ MayOccur c%"[ifeval:" text) (h2 : '@' ∉ text) (env : Env) (sl sc : Nat) (src : Option Str) (uid : Nat) :
    ∃ N r, r ≠ .error .fuel ∧ ∀ n ≥ N, parseText n env text sl sc src uid = r :=
  C35_terminates_partial (.mk (fun h => absurd h h1) (fun h => absurd h h2)) sl sc src uid

/-- A text may mention a variable whose value mentions another one. -/
example : Tame [(c%"on", .str c%"1"), (c%"name", .str c%"_[class](Mau, big)_"), (c%"greeting", .str c%"Hello [ifeval:on==1](name)")]
    c%"*[ifeval:on==1](greeting)*!" := by
  have hname : Tame [(c%"on", .str c%"1"), (c%"name", .str c%"_[class](Mau, big)_"), (c%"greeting", .str c%"Hello [ifeval:on==1](name)")] c%"_[class](Mau, big)_" :=
    .mk (fun h => absurd (h.2 (by decide) (by decide)) (by decide)) (fun h => absurd h (by decide))
  have hgreeting : Tame [(c%"on", .str c%"1"), (c%"name", .str c%"_[class](Mau, big)_"), (c%"greeting", .str c%"Hello [ifeval:on==1](name)")]
      c%"Hello [ifeval:on==1](name)" := by
    refine .mk (fun _ k v hm hk hb => ?_) (fun h => absurd h (by decide))
    simp only [List.mem_cons, Prod.mk.injEq, Val.str.injEq, List.not_mem_nil, or_false] at hm
    rcases hm with ⟨rfl, rfl⟩ | ⟨rfl, rfl⟩ | ⟨rfl, rfl⟩
    · exact absurd hb.2 (by decide)
    · exact hname
    · rcases hk with hk | hk
      · exact absurd (hk.2 (by decide) (by decide)) (by decide)
      · exact absurd hk (by decide)
  refine .mk (fun _ k v hm hk hb => ?_) (fun h => absurd h (by decide))
  simp only [List.mem_cons, Prod.mk.injEq, Val.str.injEq, List.not_mem_nil, or_false] at hm
  rcases hm with ⟨rfl, rfl⟩ | ⟨rfl, rfl⟩ | ⟨rfl, rfl⟩
  · exact absurd hb.2 (by decide)
  · exact hname
  · exact hgreeting

/-- The property C35 does not hold: a variable may contain the macro `ifeval` with its own name. -/
theorem C35_ifeval_endless (n sl sc : Nat) (src : Option Str) (uid : Nat) :
    parseText n [(c%"on", .str c%"1"), (c%"x", .str c%"[ifeval:on==1](x)")] c%"[ifeval:on==1](x)" sl sc src uid = .error .fuel := by
  refine endless (fun n ih c s => ?_) n sl sc src uid
  refine parseStr_macro (r := c%"ifeval:on==1](x)") (name := c%"ifeval:on==1") (args := c%"x") (rest := []) (by decide) (by decide) (by decide) ?_ c s
  intro nameTok argsTok cx st h1 h2
  obtain ⟨p, h3, _, h4⟩ := macro_args (env := [(c%"on", .str c%"1"), (c%"x", .str c%"[ifeval:on==1](x)")]) (as := [.pos c%"x"]) (args := c%"x")
    ⟨.one (.posBare (by unfold Bare; decide) (by decide) (by decide) (by decide)), ⟨[c%"x"], [], rfl⟩, by decide, by decide⟩ argsTok h2
  obtain ⟨cc, h5⟩ := param_some (h4 [c%"true_case", c%"false_case"] (by decide)).1 (n := c%"true_case") (v := c%"x") (by decide) (by decide)
  rw [pm_bind_ok (x := PM.lift (processArguments _ argsTok)) (a := p) (s' := st) (by rw [h3]; rfl), dispatch_if (c := c%"eval:on==1") (by rw [h1]; rfl)]
  unfold macroControlFn
  have hc := control_ok (env := [(c%"on", .str c%"1"), (c%"x", .str c%"[ifeval:on==1](x)")]) (op := c%"ifeval") (cond := c%"on==1") (var := c%"on") (value := c%"1") (neg := false)
    (nameTok := nameTok) (p := p) (cx := cx) (.inr rfl) (by rw [h1]; rfl)
    ⟨.mk (var := c%"on") (sp1 := []) (sp2 := []) (value := c%"1") false (by decide) (by decide) (by unfold Spaces; decide) (by unfold Spaces; decide) (by decide), by decide, by decide⟩
  rw [h5] at hc
  have hc' : controlCase [(c%"on", .str c%"1"), (c%"x", .str c%"[ifeval:on==1](x)")] nameTok p cx = .ok (some (c%"[ifeval:on==1](x)", cc)) := by
    rw [hc]; rfl
  rw [pm_bind_ok (x := PM.lift _) (a := some (c%"[ifeval:on==1](x)", cc)) (s' := st) (by rw [hc']; rfl)]
  exact ih _ _

/-- The same for the arguments of an alias. -/
theorem C35_alias_endless (n sl sc : Nat) (src : Option Str) (uid : Nat) :
    parseText n [(c%"mau.parser.aliases.a.args.text", .str c%"[class](@a)")] c%"[class](@a)" sl sc src uid = .error .fuel := by
  refine endless (fun n ih c s => ?_) n sl sc src uid
  refine parseStr_macro (r := c%"class](@a)") (name := c%"class") (args := c%"@a") (rest := []) (by decide) (by decide) (by decide) ?_ c s
  intro nameTok argsTok cx st h1 h2
  obtain ⟨us, ns, h3, h4, h5⟩ := C22_found [(c%"mau.parser.aliases.a.args.text", .str c%"[class](@a)")] [.pos c%"@a"] c%"@a"
    (.one (.posBare (by unfold Bare; decide) (by decide) (by decide) (by decide))) ⟨[c%"@a"], [], rfl⟩ (by decide) argsTok.ctx.startLine argsTok.ctx.startColumn argsTok.ctx.source
  obtain ⟨cu, rfl⟩ : ∃ cu, us = [⟨c%"@a", cu⟩] := by
    match us, h3 with
    | [⟨v, cu⟩], h => simp [positional] at h; exact ⟨cu, by rw [h]⟩
  have : ns = [] := by simpa [keyed] using h4
  subst this
  have hp : processArguments [(c%"mau.parser.aliases.a.args.text", .str c%"[class](@a)")] argsTok =
      .ok { unnamed := [], named := [(c%"text", ⟨c%"[class](@a)", cu⟩)], alias := some ⟨c%"a", cu⟩ } := by
    unfold processArguments
    rw [h2]
    exact unplaced_eq_ok.1 (h5.trans rfl)
  rw [pm_bind_ok (x := PM.lift (processArguments _ argsTok)) (s' := st) (by rw [hp]; rfl), dispatch_class h1]
  unfold macroClassFn
  rw [pm_bind_ok (a := ⟨c%"[class](@a)", cu⟩) (s' := st) (by rfl)]
  rw [pm_bind_err (ih _ _)]

/-! ## C51: errors are Mau errors -/

theorem Spec.Careful.part {env : Env} {v t : Str} (h : Careful env t) (hv : MayOccur v t) : Careful env v where
  alias := fun hx => h.alias (hv.mem hx)
  condition := fun hx => h.condition ⟨hx.1.trans hv, hx.2.trans hv⟩
  eval := fun hx k hk hkv => h.eval (hx.trans hv) k hk (hkv.trans hv)

theorem Spec.Careful.errors {env : Env} {t : Str} (h : Careful env t) (hsub : ∀ v c s x, Leads env t v → strP env v c s = .err x → x.isMau = true) :
    Errors (·.isMau = true) env t where
  mau := fun _ hx => hx
  alias := fun _ _ _ hx => absurd hx h.alias
  empty := fun h1 h2 => absurd ⟨h2, h1⟩ h.condition
  notText := fun k _ h1 h2 hk => by
    rcases h2 with h2 | h2
    · exact absurd h2 (h.eval h1 k hk)
    · exact absurd h2 h.alias
  sub := hsub

/-- Texts without brackets have no errors other than Mau errors. -/
theorem strP_noBracket_mau {env : Env} {v : Str} (h : ¬ Brackets v) (c : Context) (s : TextSt) (x : Err) (hx : strP env v c s = .err x) : x.isMau = true :=
  strP_errors (E := (·.isMau = true)) (text := v)
    { mau := fun _ hx => hx
      alias := fun _ _ hb _ _ => absurd hb h
      empty := fun h1 h2 => absurd ⟨h2.mem (by simp), h1.mem (by simp)⟩ h
      notText := fun _ hb _ _ _ => absurd hb h
      sub := fun _ _ _ _ hv _ => absurd hv.1 h } c s x hx

/-- The errors of the parts of a tame and careful text. -/
theorem careful_parts {env : Env} {text : Str} (h : Tame env text)
    (henv : MayOccur c%"[ifeval:" text → ∀ k v, (k, Val.str v) ∈ env → Brackets v → Careful env v) : Careful env text →
    ∀ (n : Nat) (v : Str), v.length ≤ n → MayOccur v text → Errors (·.isMau = true) env v := by
  induction h with
  | @mk text _ _ ihe iha =>
    intro hs n
    induction n with
    | zero =>
      intro v hn hv
      refine (hs.part hv).errors fun w c s x hw => ?_
      have := List.length_pos_of_mem hw.1.1
      omega
    | succ n ih =>
      intro v hn hv
      refine (hs.part hv).errors fun w c s x hw hx => ?_
      obtain ⟨_, ⟨h1, h2⟩ | ⟨h1, key, h2⟩ | ⟨h1, k, h2, h3⟩⟩ := hw
      · exact strP_errors (ih w (by omega) (h1.trans hv)) c s _ hx
      · exact absurd (hv.mem h1) hs.alias
      · by_cases hb : Brackets w
        · refine strP_errors (ihe (h1.trans hv) k w h2 ?_ hb (fun _ => henv (h1.trans hv)) (henv (h1.trans hv) k w h2 hb) w.length w (Nat.le_refl _) (.refl w)) c s _ hx
          rcases h3 with h3 | h3
          · exact .inl (h3.trans hv)
          · exact .inr (hv.mem h3)
        · exact strP_noBracket_mau hb c s x hx

/-- C51 (partial: for texts, which are tame and careful): an error of parsing the text is a Mau error. -/
theorem C51_text_partial {env : Env} {text : Str} (ht : Tame env text) (hc : Careful env text)
    (henv : MayOccur c%"[ifeval:" text → ∀ k v, (k, Val.str v) ∈ env → Brackets v → Careful env v) (sl sc : Nat) (src : Option Str) (uid : Nat) :
    ∃ N r, (∀ n ≥ N, parseText n env text sl sc src uid = r) ∧ ∀ x, r = .error x → x.isMau = true := by
  obtain ⟨N, hN⟩ := textP_ev env text sl sc src uid
  exact ⟨N, _, hN, fun x hx => textP_errors (careful_parts ht henv hc text.length text (Nat.le_refl _) (.refl text)) hx⟩

/-- C51 (partial): in every environment, a text without the sign `@`, the macro `ifeval` and empty conditions is parsed, or rejected with a Mau error. -/
theorem C51_simple_text_partial {text : Str} (h1 : '@' ∉ text) (h2 : ¬ MayOccur c%"[ifeval:" text) (h3 : ¬ MayOccur c%":](" text) (env : Env) (sl sc : Nat)
    (src : Option Str) (uid : Nat) :
    ∃ N r, (∀ n ≥ N, parseText n env text sl sc src uid = r) ∧ ∀ x, r = .error x → x.isMau = true :=
  C51_text_partial (.mk (fun h => absurd h h2) (fun h => absurd h h1)) ⟨h1, fun h => h3 h.2, fun h => absurd h h2⟩ (fun h => absurd h h2) sl sc src uid

example : Careful [(c%"on", .str c%"1"), (c%"items", .list [] []), (c%"name", .str c%"_[class](Mau, big)_")] c%"Hello [ifeval:on==1](name), [link](https://x.y)" := by
  refine ⟨by decide, fun h => absurd (h.2.2 (by decide) (by decide)) (by decide), ?_⟩
  intro _ k hk ho
  have ho := ho.2 (by decide) (by decide)
  rcases hk with ⟨e, he⟩ | ⟨v, hv, ht⟩
  · unfold Env.get at he
    split at he
    · cases he
    · dsimp only at he
      split at he
      · cases he
      · rename_i hne
        apply hne
        rw [List.isEmpty_iff, List.map_eq_nil_iff, List.filter_eq_nil_iff]
        intro kv hkv hp
        unfold startsWith at hp
        have := (List.isPrefixOf_iff_prefix.1 hp).mem (a := '.') (by simp)
        simp only [List.mem_cons, List.not_mem_nil, or_false] at hkv
        rcases hkv with rfl | rfl | rfl <;> exact absurd this (by decide)
  · unfold Env.get at hv
    split at hv
    · rename_i w hw
      injection hv with hv
      subst hv
      have := Dict.mem_of_get? hw
      simp only [List.mem_cons, Prod.mk.injEq, List.not_mem_nil, or_false] at this
      rcases this with ⟨rfl, rfl⟩ | ⟨rfl, rfl⟩ | ⟨rfl, rfl⟩
      · exact ht _ rfl
      · exact absurd ho (by decide)
      · exact ht _ rfl
    · dsimp only at hv
      split at hv <;> cases hv

end Mau
