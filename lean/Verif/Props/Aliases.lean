import Verif.Spec.Aliases
import Verif.Props.Environment
import Verif.Props.Arguments
import Verif.Lemmas.Macros

/-!
# C25: aliases, from the variables that define them to the arguments of a text
-/

set_option linter.unusedSimpArgs false

namespace Mau
open Spec

/-- Each nested configuration holds a value somewhere. -/
theorem holds_value : ∀ n : Nested, ∃ p v, at? p n = some v
  | .leaf v => ⟨[], v, rfl⟩
  | .dict [] => ⟨[], .emptyDict, rfl⟩
  | .dict ((k, n) :: d) => by
    obtain ⟨p, v, h⟩ := holds_value n
    exact ⟨k :: p, v, by simp [at?, Dict.get?, h]⟩

theorem aliasArgs_ok : ∀ (l : List (Str × Nested)), (∀ kn ∈ l, ∃ s, kn.2 = .leaf (.str s)) →
    ∃ d, aliasArgs l = .ok d ∧ ∀ k, Dict.get? d k = (Dict.get? l k).bind fun | .leaf (.str s) => some s | _ => none
  | [], _ => ⟨[], rfl, fun _ => rfl⟩
  | (k0, n) :: l, h => by
    obtain ⟨s, hs⟩ := h (k0, n) (by simp)
    simp only at hs
    subst hs
    obtain ⟨d, h1, h2⟩ := aliasArgs_ok l fun kn hm => h kn (by simp [hm])
    refine ⟨(k0, s) :: d, by simp [aliasArgs, h1, Bind.bind, Except.bind, pure, Except.pure], ?_⟩
    intro k
    simp only [Dict.get?]
    split
    · rfl
    · exact h2 k

theorem setting_prefix : c%"mau.parser.aliases." = c%"mau.parser.aliases" ++ ['.'] := rfl

/-- The aliases as a nested configuration. -/
theorem aliases_nested {env : Env} (h : AliasSettings env) {x : Str} (hx : Dict.get? env (c%"mau.parser.aliases." ++ x) ≠ none) :
    ∃ sub d, Env.get env c%"mau.parser.aliases" = .namespace sub ∧ Env.asdict sub = .ok d ∧ DistinctN (.dict d) ∧
      ∀ p v, p ≠ [] → (at? p (.dict d) = some v ↔ ∃ k, Dict.get? env (c%"mau.parser.aliases." ++ k) = some v ∧ keyPath k = p) := by
  obtain ⟨sub, h1, h2, h3⟩ := C16_namespace env h.distinct _ h.free x (by simpa using hx)
  have hkeys : ∀ a, a ∈ Dict.keys sub → c%"mau.parser.aliases." ++ a ∈ Dict.keys env := by
    intro a ha
    have : Dict.get? sub a ≠ none := fun hn => Dict.get?_none_iff.1 hn ha
    rw [h3] at this
    exact Decidable.not_not.1 fun hn => this (Dict.get?_none_iff.2 (by simpa using hn))
  have hpw : sub.Pairwise fun a b => ¬ Comp (keyPath a.1) (keyPath b.1) := by
    have hd' : sub.Pairwise fun a b => a.1 ≠ b.1 := by
      unfold Dict.Distinct Dict.keys List.Nodup at h2
      rwa [List.pairwise_map] at h2
    refine hd'.imp_of_mem ?_
    intro a b ha hb hne hc
    have ha' := hkeys _ (List.mem_map.2 ⟨a, ha, rfl⟩)
    have hb' := hkeys _ (List.mem_map.2 ⟨b, hb, rfl⟩)
    rcases hc with hc | hc
    · rcases dotted_of_prefix hc with e | e
      · exact hne e
      · exact h.apart _ _ ha' hb' e
    · rcases dotted_of_prefix hc with e | e
      · exact hne e.symm
      · exact h.apart _ _ hb' ha' e
  obtain ⟨d, e1, e2, e3⟩ := nestFlat_spec sub [] (.dict _ Dict.distinct_nil (by simp)) (fun kv _ p hp _ => at?_empty hp) hpw
  refine ⟨sub, d, h1, e1, e2, ?_⟩
  intro p v hp
  rw [e3 p v hp, at?_empty hp]
  simp only [reduceCtorEq, or_false, ← Dict.get?_iff_mem h2, h3]
  rfl

theorem keyPath_plain {s : Str} (h : '.' ∉ s) : keyPath s = [s] := splitChar_of_not_mem h

/-- What an alias's own configuration holds. -/
theorem alias_nested {env : Env} {name : Str} (h : AliasSettings env) (hp : '.' ∉ name)
    (hf : ∃ rest, aliasSetting env name rest ≠ none) :
    ∃ sub d dn, Env.get env c%"mau.parser.aliases" = .namespace sub ∧ Env.asdict sub = .ok d ∧
      Dict.get? d name = some (.dict dn) ∧ DistinctN (.dict dn) ∧
      ∀ p v, p ≠ [] → (at? p (.dict dn) = some v ↔ ∃ k, aliasSetting env name k = some v ∧ keyPath k = p) := by
  obtain ⟨rest, hr⟩ := hf
  obtain ⟨sub, d, h1, h2, h3, h4⟩ := aliases_nested h (x := name ++ c%"." ++ rest) (by simpa [aliasSetting] using hr)
  have hpath : ∀ r, keyPath (name ++ c%"." ++ r) = name :: keyPath r := by
    intro r
    have := keyPath_append name r
    rw [keyPath_plain hp] at this
    simpa using this
  obtain ⟨v, hv⟩ := Option.ne_none_iff_exists'.1 hr
  have hat := (h4 (name :: keyPath rest) v (by simp)).2 ⟨name ++ c%"." ++ rest, by simpa [aliasSetting] using hv, hpath rest⟩
  rw [at?_cons] at hat
  obtain ⟨n, hn, hat⟩ := Option.bind_eq_some_iff.1 hat
  cases n with
  | leaf w =>
    cases hk : keyPath rest with
    | nil => exact absurd hk (keyPath_ne_nil rest)
    | cons a b => rw [hk] at hat; simp [at?] at hat
  | dict dn =>
    refine ⟨sub, d, dn, h1, h2, hn, distinctN_of_get? h3 hn, ?_⟩
    intro p v hp'
    have e := h4 (name :: p) v (by simp)
    rw [at?_cons, hn] at e
    simp only [Option.bind_some] at e
    rw [e]
    constructor
    · rintro ⟨k, hk, hkp⟩
      -- the key is `name.REST`
      have hjoin : k = joinWith ['.'] (name :: p) := by rw [← hkp]; exact (join_split '.' k).symm
      rw [joinWith_cons_of_ne hp'] at hjoin
      refine ⟨joinWith ['.'] p, ?_, ?_⟩
      · rw [aliasSetting, ← hk, hjoin]; simp
      · have e2 := hpath (joinWith ['.'] p)
        have : name ++ c%"." ++ joinWith ['.'] p = k := by rw [hjoin]
        rw [this, hkp] at e2
        exact (List.cons.inj e2).2.symm
    · rintro ⟨k, hk, hkp⟩
      exact ⟨name ++ c%"." ++ k, by simpa [aliasSetting] using hk, by rw [hpath, hkp]⟩

/-- The alias is found as it is defined by the variables. -/
theorem lookupAlias_defined {env : Env} {name : Str} {args : Dict Str} {names : List Str} {subtype : Option Str}
    (h : DefinesAlias env name args names subtype) :
    ∃ as, lookupAlias env name = .ok ⟨as, names, subtype⟩ ∧ ∀ k, Dict.get? as k = Dict.get? args k := by
  obtain ⟨sub, d, dn, h1, h2, h3, h4, h5⟩ := alias_nested h.toAliasSettings h.plain h.found
  have one : ∀ (x : Str), '.' ∉ x → (∀ k, aliasSetting env name (x ++ '.' :: k) = none) →
      ∀ n, Dict.get? dn x = some n → (∃ v, (n = .leaf v ∨ (n = .dict [] ∧ v = .emptyDict)) ∧ aliasSetting env name x = some v) := by
    intro x hx hno n hn
    obtain ⟨p, v, hv⟩ := holds_value n
    have hat : at? (x :: p) (.dict dn) = some v := by rw [at?_cons, hn]; exact hv
    obtain ⟨k, hk, hkp⟩ := (h5 _ v (by simp)).1 hat
    have hj : k = joinWith ['.'] (x :: p) := by rw [← hkp]; exact (join_split '.' k).symm
    cases p with
    | nil =>
      have : k = x := by simpa [joinWith] using hj
      subst this
      refine ⟨v, ?_, hk⟩
      cases n with
      | leaf w => simp [at?] at hv; exact .inl (by rw [hv])
      | dict l => cases l with
        | nil => simp [at?] at hv; exact .inr ⟨rfl, hv.symm⟩
        | cons => simp [at?] at hv
    | cons a b =>
      rw [joinWith_cons_of_ne (by simp)] at hj
      have := hno (joinWith ['.'] (a :: b))
      rw [hj] at hk
      rw [show x ++ ['.'] ++ joinWith ['.'] (a :: b) = x ++ '.' :: joinWith ['.'] (a :: b) by simp] at hk
      rw [this] at hk; cases hk
  have absent : ∀ (x : Str), '.' ∉ x → Dict.get? dn x = none → ∀ v, aliasSetting env name x ≠ some v := by
    intro x hx hn v hv
    have := (h5 [x] v (by simp)).2 ⟨x, hv, keyPath_plain hx⟩
    rw [at?_cons, hn] at this; cases this
  have hargs : ∃ as, (match Dict.get? dn c%"args" with
        | none => pure []
        | some (.dict a) => aliasArgs a
        | some (.leaf _) => throw (.py .attributeError) : Except Err (Dict Str)) = .ok as ∧ ∀ k, Dict.get? as k = Dict.get? args k := by
    have below : ∀ k v, aliasSetting env name (c%"args." ++ k) = some v →
        ∃ a, Dict.get? dn c%"args" = some (.dict a) ∧ Dict.get? a k = some (.leaf v) ∧ ∃ s, v = .str s := by
      intro k v hv
      have hk := h.flat k (by rw [hv]; simp)
      have hs : ∃ s, v = .str s := by
        rw [h.values] at hv
        obtain ⟨s, _, hs⟩ := Option.map_eq_some_iff.1 hv
        exact ⟨s, hs.symm⟩
      have hat := (h5 [c%"args", k] v (by simp)).2 ⟨_, hv, by
        have e := keyPath_append c%"args" k
        rw [keyPath_plain hk] at e
        exact e⟩
      rw [at?_cons] at hat
      obtain ⟨n, hn, hat⟩ := Option.bind_eq_some_iff.1 hat
      cases n with
      | leaf w => simp [at?] at hat
      | dict a =>
        rw [at?_cons] at hat
        obtain ⟨n2, hn2, hat⟩ := Option.bind_eq_some_iff.1 hat
        refine ⟨a, hn, ?_, hs⟩
        obtain ⟨s, rfl⟩ := hs
        cases n2 with
        | leaf w => simp [at?] at hat; rw [hn2, hat]
        | dict l => cases l with
          | nil => simp [at?] at hat
          | cons => simp [at?] at hat
    cases hd : Dict.get? dn c%"args" with
    | none =>
      refine ⟨[], rfl, ?_⟩
      intro k
      cases hk : Dict.get? args k with
      | none => rfl
      | some v =>
        obtain ⟨a, ha, _⟩ := below k (.str v) (by rw [h.values, hk]; rfl)
        rw [hd] at ha; cases ha
    | some n =>
      cases n with
      | leaf w =>
        exfalso
        have : at? [c%"args"] (.dict dn) = some w := by rw [at?_cons, hd]; rfl
        obtain ⟨k, hk, hkp⟩ := (h5 _ w (by simp)).1 this
        have hj : k = joinWith ['.'] [c%"args"] := by rw [← hkp]; exact (join_split '.' k).symm
        have : k = c%"args" := by simpa [joinWith] using hj
        rw [this, h.noArgs] at hk; cases hk
      | dict a =>
        have ha := distinctN_of_get? h4 hd
        have hda : Dict.Distinct a := by cases ha with | dict _ hd _ => exact hd
        have hall : ∀ kn ∈ a, ∃ s, kn.2 = .leaf (.str s) ∧ aliasSetting env name (c%"args." ++ kn.1) = some (.str s) := by
          rintro ⟨k, n⟩ hm
          have hget := Dict.get?_of_mem hda hm
          obtain ⟨p, v, hv⟩ := holds_value n
          have hat : at? (c%"args" :: k :: p) (.dict dn) = some v := by
            rw [at?_cons, hd]; simp only [Option.bind_some]; rw [at?_cons, hget]; exact hv
          obtain ⟨x, hx, hxp⟩ := (h5 _ v (by simp)).1 hat
          have hj : x = joinWith ['.'] (c%"args" :: k :: p) := by rw [← hxp]; exact (join_split '.' x).symm
          rw [joinWith_cons_of_ne (by simp)] at hj
          have hx2 : aliasSetting env name (c%"args." ++ joinWith ['.'] (k :: p)) = some v := by
            rw [← hx, hj]; rfl
          have hnd := h.flat _ (by rw [hx2]; simp)
          cases p with
          | cons b c =>
            rw [joinWith_cons_of_ne (by simp)] at hnd
            simp at hnd
          | nil =>
            have e : joinWith ['.'] [k] = k := by simp [joinWith]
            rw [e] at hx2
            obtain ⟨a', h6, h7, s, rfl⟩ := below k v hx2
            rw [hd] at h6; cases h6
            rw [hget] at h7; cases h7
            exact ⟨s, rfl, hx2⟩
        obtain ⟨as, h6, h7⟩ := aliasArgs_ok a fun kn hm => (hall kn hm).imp fun _ x => x.1
        refine ⟨as, h6, ?_⟩
        intro k
        rw [h7]
        cases hk : Dict.get? a k with
        | none =>
          cases hk2 : Dict.get? args k with
          | none => rfl
          | some v =>
            obtain ⟨a', h8, h9, _⟩ := below k (.str v) (by rw [h.values, hk2]; rfl)
            rw [hd] at h8; cases h8
            rw [hk] at h9; cases h9
        | some n =>
          obtain ⟨s, h8, h9⟩ := hall _ (Dict.mem_of_get? hk)
          simp only at h8 h9
          subst h8
          rw [h.values] at h9
          obtain ⟨s', h10, h11⟩ := Option.map_eq_some_iff.1 h9
          cases h11
          simp [h10]
  have hnames : (match Dict.get? dn c%"names" with
        | none => pure []
        | some (.leaf (.list xs _)) => pure xs
        | some (.leaf (.str s)) => pure (s.map fun c => [c])
        | some (.dict kvs) => pure (Dict.keys kvs)
        | some (.leaf _) => throw .unmodelled : Except Err (List Str)) = .ok names := by
    cases hd : Dict.get? dn c%"names" with
    | none =>
      rcases h.order with ⟨_, hn⟩ | ⟨r, hn⟩
      · rw [hn]; rfl
      · exact absurd hn (absent _ (by decide) hd _)
    | some n =>
      obtain ⟨v, hv, hg⟩ := one c%"names" (by decide) (fun k => h.noNames k) n hd
      rcases h.order with ⟨hn, _⟩ | ⟨r, hn⟩
      · rw [hn] at hg; cases hg
      · rw [hn] at hg; cases hg
        rcases hv with rfl | ⟨_, hv⟩
        · rfl
        · cases hv
  have hsub : (match Dict.get? dn c%"subtype" with
        | none => pure none
        | some (.leaf (.str s)) => pure (if s.isEmpty then none else some s)
        | some (.dict []) => pure none
        | _ => throw .unmodelled : Except Err (Option Str)) = .ok subtype := by
    cases hd : Dict.get? dn c%"subtype" with
    | none =>
      cases hs : subtype with
      | none => rfl
      | some s => exact absurd (by rw [h.kind, hs]; rfl) (absent _ (by decide) hd (.str s))
    | some n =>
      obtain ⟨v, hv, hg⟩ := one c%"subtype" (by decide) (fun k => h.noSubtype k) n hd
      rw [h.kind] at hg
      obtain ⟨s, hs, hsv⟩ := Option.map_eq_some_iff.1 hg
      subst hsv
      rcases hv with rfl | ⟨_, hv⟩
      · have : s ≠ [] := fun e => h.nonempty (by rw [hs, e])
        cases s with
        | nil => exact absurd rfl this
        | cons => rw [hs]; rfl
      · cases hv
  obtain ⟨as, ha1, ha2⟩ := hargs
  refine ⟨as, ?_, ha2⟩
  unfold lookupAlias
  simp only [h1, h2, Bind.bind, Except.bind, h3]
  clear h h1 h2 h3 h4 h5 one absent ha2
  generalize Dict.get? dn c%"args" = x at ha1 ⊢
  generalize Dict.get? dn c%"names" = y at hnames ⊢
  generalize Dict.get? dn c%"subtype" = z at hsub ⊢
  split at ha1 <;> split at hnames <;> split at hsub <;>
    simp_all [pure, Except.pure, throw, throwThe, MonadExceptOf.throw]

/-- An alias without settings is not found. -/
theorem lookupAlias_unknown {env : Env} {name : Str} (h : NoAlias env name) :
    lookupAlias env name = .error (.parser (.unknownAlias name) none) := by
  cases hg : Env.get env c%"mau.parser.aliases" with
  | default => simp [lookupAlias, hg, Bind.bind, Except.bind, pure, Except.pure, throw, throwThe, MonadExceptOf.throw, Dict.get?]
  | value v =>
    have := C16_default env c%"mau.parser.aliases"
    simp [Env.get, h.free] at hg
    split at hg <;> cases hg
  | «namespace» e =>
    have hx : ∃ x, Dict.get? env (c%"mau.parser.aliases." ++ x) ≠ none := by
      apply Classical.byContradiction
      intro hn
      have : Env.get env c%"mau.parser.aliases" = .default := by
        rw [C16_default]
        refine ⟨h.free, ?_⟩
        intro x
        apply Decidable.not_not.1
        intro hne
        exact hn ⟨x, by simpa using hne⟩
      rw [hg] at this; cases this
    obtain ⟨x, hx⟩ := hx
    obtain ⟨sub, d, h1, h2, h3, h4⟩ := aliases_nested h.toAliasSettings hx
    have hd : Dict.get? d name = none := by
      cases hn : Dict.get? d name with
      | none => rfl
      | some n =>
        exfalso
        obtain ⟨p, v, hv⟩ := holds_value n
        have hat : at? (name :: p) (.dict d) = some v := by rw [at?_cons, hn]; exact hv
        obtain ⟨k, hk, hkp⟩ := (h4 _ v (by simp)).1 hat
        have hj : k = joinWith ['.'] (name :: p) := by rw [← hkp]; exact (join_split '.' k).symm
        cases p with
        | nil =>
          have : k = name := by simpa [joinWith] using hj
          rw [this, h.absent] at hk; cases hk
        | cons a b =>
          rw [joinWith_cons_of_ne (by simp)] at hj
          have := h.none (joinWith ['.'] (a :: b))
          rw [aliasSetting] at this
          rw [hj] at hk
          rw [show c%"mau.parser.aliases." ++ (name ++ ['.'] ++ joinWith ['.'] (a :: b)) =
            c%"mau.parser.aliases." ++ name ++ c%"." ++ joinWith ['.'] (a :: b) by simp, this] at hk
          cases hk
    simp [lookupAlias, h1, h2, hd, Bind.bind, Except.bind, pure, Except.pure, throw, throwThe, MonadExceptOf.throw]

/-- C25 on texts: the arguments of a text with an alias that the variables define. A value given by key stays; the alias adds
the missing ones; positional values get the names that are still free, in order, and the surplus stays positional; the subtype of
the alias is used if the text has none; tags stay as they are. -/
theorem C25_text (env : Env) (as : List Arg) (text : Str) (hw : WritesAll as text) (hf : PositionalFirst as)
    (hk : ((keyed as).map (·.1)).Nodup)
    (h1 : ∀ v ∈ positional as, (v.head? = some '#' → v.tail.head? ≠ some '*' ∧ v.tail.head? ≠ some '@'))
    (h2 : (marked '*' (positional as)).length ≤ 1)
    (h4 : ∀ v ∈ positional as, v.head? = some '*' → v.tail.head? ≠ some '@')
    {name : Str} (h3 : marked '@' (positional as) = [name])
    {args : Dict Str} {names : List Str} {subtype : Option Str} (hd : DefinesAlias env name args names subtype)
    (hn : names.Nodup) (sl sc : Nat) (src : Option Str) :
    ∃ p, parseArgs env text sl sc src = .ok p ∧
      (∀ k, Dict.get? p.arguments.named k = aliasedArgument as args names k) ∧
      p.arguments.unnamed = (unmarked (positional as)).drop (freeNames as args names).length ∧
      p.arguments.tags = (marked '#' (positional as)).filter (fun t => !startsWith t c%"mau:") ∧
      p.arguments.internalTags.map (c%"mau:" ++ ·) = (marked '#' (positional as)).filter (fun t => startsWith t c%"mau:") ∧
      p.arguments.subtype = (marked '*' (positional as)).head?.or subtype := by
  obtain ⟨us, ns, e1, e2, e3⟩ := C22_found env as text hw hf hk sl sc src
  have hmem : ∀ u ∈ us, u.value ∈ positional as := by
    intro u hu; rw [← e1]; exact List.mem_map.2 ⟨u, hu, rfl⟩
  have hone : ∀ u ∈ us, OneMark u := fun u hu => ⟨h1 _ (hmem u hu), h4 _ (hmem u hu)⟩
  have hmk : ∀ p, marked p (positional as) = (withPrefix p us).map (·.value.tail) := by
    intro p
    rw [← e1]
    simp only [marked, withPrefix, List.filter_map, List.map_map]
    rfl
  have hi := C24_marks us ns hone
  have hal : ∃ u, withPrefix '@' us = [u] ∧ u.value.tail = name := by
    rw [hmk] at h3
    obtain ⟨u, hu, hv⟩ := List.map_eq_singleton_iff.1 h3
    exact ⟨u, hu, hv⟩
  obtain ⟨u, hu, huv⟩ := hal
  rw [if_neg (by
      have := h2
      rw [hmk, List.length_map] at this; omega),
    if_neg (by rw [hu]; simp), hu] at hi
  obtain ⟨as', hl1, hl2⟩ := lookupAlias_defined hd
  generalize hp : ({ unnamed := us.filter fun u =>
          u.value.head? ≠ some '#' && u.value.head? ≠ some '*' && u.value.head? ≠ some '@'
                     named := ns
                     tagNodes := (withPrefix '#' us).map (·.value.tail)
                     subtype := (withPrefix '*' us).head?.map dropMark
                     alias := [u].head?.map dropMark } : ParsedArgs) = p at hi
  have pal : p.alias = some (dropMark u) := by rw [← hp]; rfl
  have pval : (dropMark u).value = name := huv
  have hiso : isolateTagsAndSubtype env us ns =
      .ok (applyAlias p (dropMark u) ⟨as', names, subtype⟩ (missingKeys ⟨as', names, subtype⟩ p.named)) := by
    simp only [isolateTagsAndSubtype, hi, Bind.bind, Except.bind, pal, pval, hl1]
    rfl
  refine ⟨_, unplaced_eq_ok.1 (e3.trans (by rw [hiso]; rfl)), ?_⟩
  obtain ⟨r1, r2, r3, r4, r5, r6, r7⟩ := C25_alias p (dropMark u) ⟨as', names, subtype⟩ _ (missingKeys_isMissing _ p.named) hn
  generalize applyAlias p (dropMark u) ⟨as', names, subtype⟩ (missingKeys ⟨as', names, subtype⟩ p.named) = q at r1 r2 r3 r4 r5 r6 r7
  have hnamed : ∀ k, (Dict.get? p.named k).map (·.value) = (keyed as).lookup k := by
    intro k
    rw [← get?_lookup, ← e2, ← hp, get?_map]
  have hfree : (names.filter fun n => !(Dict.has p.named n || Dict.has as' n)) = freeNames as args names := by
    apply List.filter_congr
    intro n _
    simp only [Dict.has, hl2, ← hnamed]
    cases Dict.get? p.named n <;> cases Dict.get? args n <;> rfl
  have hun : p.unnamed.map (·.value) = unmarked (positional as) := by
    rw [← e1, unmarked, List.filter_map, ← hp]; rfl
  simp only [hfree, hl2] at r1 r2 r3 r4 r5 r6 r7
  have hfn : (freeNames as args names).Nodup := hn.filter _
  refine ⟨?_, ?_, ?_, ?_, ?_⟩
  · intro k
    simp only [ParsedArgs.arguments, get?_map]
    unfold aliasedArgument
    rw [← hnamed]
    cases hg : Dict.get? p.named k with
    | some v => rw [r1 k v hg]; rfl
    | none =>
      simp only [Option.map_none]
      cases ha : Dict.get? args k with
      | some v => rw [r2 k v hg ha]; rfl
      | none =>
        simp only
        have hz : Dict.Distinct ((freeNames as args names).zip p.unnamed) := by
          unfold Dict.Distinct Dict.keys
          exact hfn.sublist (zip_fst_sublist _ _)
        have hzip : ((freeNames as args names).zip (unmarked (positional as))).lookup k =
            (Dict.get? ((freeNames as args names).zip p.unnamed) k).map (·.value) := by
          rw [← get?_lookup, ← hun, ← get?_map, List.zip_map_right]
          rfl
        rw [hzip]
        cases hv : Dict.get? ((freeNames as args names).zip p.unnamed) k with
        | some v =>
          obtain ⟨i, hi⟩ := List.getElem?_of_mem (Dict.mem_of_get? hv)
          rw [List.getElem?_zip_eq_some] at hi
          rw [r3 i k v hi.1 hi.2]
        | none =>
          cases hq : Dict.get? q.named k with
          | none => rfl
          | some v =>
            exfalso
            rcases r4 k v hq with h | h | ⟨i, h, h'⟩
            · rw [hg] at h; cases h
            · rw [ha] at h; cases h
            · have hm : (k, v) ∈ (freeNames as args names).zip p.unnamed := by
                apply List.mem_of_getElem? (i := i)
                rw [List.getElem?_zip_eq_some]
                exact ⟨h, h'⟩
              rw [Dict.get?_of_mem hz hm] at hv; cases hv
  · simp only [ParsedArgs.arguments, r5, List.map_drop, hun]
  · simp only [ParsedArgs.arguments, r7, hmk, ← hp]; rfl
  · rw [(C24_internal_tags q).2.2, r7, hmk, ← hp]
  · simp only [ParsedArgs.arguments, r6, hmk, ← hp, List.head?_map, Option.map_map]
    rfl

/-- C25 on texts: an alias without settings is an error naming it. -/
theorem C25_unknown_text (env : Env) (as : List Arg) (text : Str) (hw : WritesAll as text) (hf : PositionalFirst as)
    (hk : ((keyed as).map (·.1)).Nodup)
    (h1 : ∀ v ∈ positional as, (v.head? = some '#' → v.tail.head? ≠ some '*' ∧ v.tail.head? ≠ some '@'))
    (h2 : (marked '*' (positional as)).length ≤ 1)
    (h4 : ∀ v ∈ positional as, v.head? = some '*' → v.tail.head? ≠ some '@')
    {name : Str} (h3 : marked '@' (positional as) = [name]) (hd : NoAlias env name) (sl sc : Nat) (src : Option Str) :
    ∃ ctx, parseArgs env text sl sc src = .error (.parser (.unknownAlias name) ctx) := by
  obtain ⟨us, ns, e1, e2, e3⟩ := C22_found env as text hw hf hk sl sc src
  have hmem : ∀ u ∈ us, u.value ∈ positional as := by
    intro u hu; rw [← e1]; exact List.mem_map.2 ⟨u, hu, rfl⟩
  have hone : ∀ u ∈ us, OneMark u := fun u hu => ⟨h1 _ (hmem u hu), h4 _ (hmem u hu)⟩
  have hmk : ∀ p, marked p (positional as) = (withPrefix p us).map (·.value.tail) := by
    intro p
    rw [← e1]
    simp only [marked, withPrefix, List.filter_map, List.map_map]
    rfl
  have hi := C24_marks us ns hone
  obtain ⟨u, hu, huv⟩ : ∃ u, withPrefix '@' us = [u] ∧ u.value.tail = name := by
    rw [hmk] at h3
    obtain ⟨u, hu, hv⟩ := List.map_eq_singleton_iff.1 h3
    exact ⟨u, hu, hv⟩
  rw [if_neg (by
      have := h2
      rw [hmk, List.length_map] at this; omega),
    if_neg (by rw [hu]; simp), hu] at hi
  have hiso : isolateTagsAndSubtype env us ns = .error (.parser (.unknownAlias name) none) := by
    have pval : (dropMark u).value = name := huv
    simp only [isolateTagsAndSubtype, hi, Bind.bind, Except.bind, List.head?_cons, Option.map_some, pval, lookupAlias_unknown hd]
  rw [hiso] at e3
  obtain ⟨e, he, hb⟩ := unplaced_eq_error.1 (show unplaced (parseArgs env text sl sc src) = .error (.parser (.unknownAlias name) none) from e3)
  cases e with
  | parser m c => simp only [Err.bare] at hb; cases hb; exact ⟨c, he⟩
  | _ => simp [Err.bare] at hb

/-- An environment where the settings of aliases are in order, by looking at its names. -/
theorem Spec.AliasSettings.of_keys {env : Env} (h1 : Dict.Distinct env) (h2 : Dict.get? env c%"mau.parser.aliases" = none)
    (h3 : ∀ x ∈ Dict.keys env, startsWith x c%"mau.parser.aliases." = true → ∀ y ∈ Dict.keys env, startsWith y (x ++ c%".") = false) :
    AliasSettings env := by
  refine ⟨h1, h2, ?_⟩
  rintro a b ha hb ⟨r, rfl⟩
  have := h3 _ ha (by simp [startsWith, List.isPrefixOf_iff_prefix]) _ hb
  have hp : startsWith (c%"mau.parser.aliases." ++ (a ++ '.' :: r)) (c%"mau.parser.aliases." ++ a ++ c%".") = true := by
    rw [startsWith, List.isPrefixOf_iff_prefix]
    exact ⟨r, by simp⟩
  rw [this] at hp; cases hp

theorem aliasEnv_settings : AliasSettings aliasEnv :=
  .of_keys (by unfold Dict.Distinct; decide) (by decide) (by decide)

/-- The variables of `aliasEnv` define the alias `al`. -/
theorem aliasEnv_defines : DefinesAlias aliasEnv c%"al" [(c%"k", c%"1"), (c%"l", c%"2")] [c%"n"] (some c%"s") := by
  refine ⟨aliasEnv_settings, by decide, ⟨c%"names", by decide⟩, ?_, ?_, by decide, .inr ⟨_, rfl⟩, ?_, by decide, by decide, ?_⟩
  · intro k
    simp [aliasSetting, aliasEnv, Dict.get?]
    split
    · rfl
    · split <;> rfl
  · intro k hk hd
    apply hk
    have h1 : ¬ c%"k" = k := by intro h; rw [← h] at hd; simp at hd
    have h2 : ¬ c%"l" = k := by intro h; rw [← h] at hd; simp at hd
    simp [aliasSetting, aliasEnv, Dict.get?, h1, h2]
  · intro k; simp [aliasSetting, aliasEnv, Dict.get?]
  · intro k; simp [aliasSetting, aliasEnv, Dict.get?]

example : NoAlias aliasEnv c%"other" :=
  { toAliasSettings := aliasEnv_settings, absent := by decide, plain := by decide, none := fun r => by simp [aliasSetting, aliasEnv, Dict.get?] }

/-- A text with the alias, a tag, two positional values and a value given by key. -/
def aliasText : List Arg := [.pos c%"@al", .pos c%"#t", .pos c%"pos", .pos c%"more", .key c%"l" c%"given"]

example : marked '@' (positional aliasText) = [c%"al"] ∧ aliasedArgument aliasText [(c%"k", c%"1"), (c%"l", c%"2")] [c%"n"] c%"l" = some c%"given" ∧
    aliasedArgument aliasText [(c%"k", c%"1"), (c%"l", c%"2")] [c%"n"] c%"k" = some c%"1" ∧
    aliasedArgument aliasText [(c%"k", c%"1"), (c%"l", c%"2")] [c%"n"] c%"n" = some c%"pos" := by decide

example : ∃ p, parseArgs aliasEnv c%"@al, #t, pos, more, l=given" = .ok p ∧ p.arguments.unnamed = [c%"more"] ∧
    Dict.get? p.arguments.named c%"n" = some c%"pos" := by
  have hw : WritesAll aliasText c%"@al, #t, pos, more, l=given" :=
    .cons (sp := c%" ") (s := c%"@al") (.posBare ⟨by decide, by decide, by decide, by decide, by decide⟩ (by decide) (by decide) (by decide)) (by simp) (
    .cons (sp := c%" ") (s := c%"#t") (.posBare ⟨by decide, by decide, by decide, by decide, by decide⟩ (by decide) (by decide) (by decide)) (by simp) (
    .cons (sp := c%" ") (s := c%"pos") (.posBare ⟨by decide, by decide, by decide, by decide, by decide⟩ (by decide) (by decide) (by decide)) (by simp) (
    .cons (sp := c%" ") (s := c%"more") (.posBare ⟨by decide, by decide, by decide, by decide, by decide⟩ (by decide) (by decide) (by decide)) (by simp) (
    .one (s := c%"l=given") (.keyBare (k := c%"l") (v := c%"given") (by decide) (by decide) (by decide) ⟨by decide, by decide, by decide, by decide, by decide⟩ (by decide))))))
  obtain ⟨p, h1, h2, h3, _⟩ := C25_text aliasEnv aliasText _ hw ⟨[c%"@al", c%"#t", c%"pos", c%"more"], [(c%"l", c%"given")], rfl⟩
    (by decide) (by decide) (by decide) (by decide) (name := c%"al") (by decide) aliasEnv_defines (by decide) 0 0 none
  exact ⟨p, h1, h3, (h2 _).trans (by decide)⟩

end Mau
