import Verif.Lemmas.Environment

set_option linter.unusedSimpArgs false

/-!
# C14–C16: the environment

An environment is a flat dictionary (`Dict Val`) with distinct keys; `Dict.get? e name` is the
value of the variable `name` (`e[name]`). `C15_distinct` shows that every operation keeps the
keys distinct.
-/

namespace Mau
open Spec

/-! ## C14 -/

/-- C14: an environment in which no name is a dotted prefix of another one (and no name starts with
a dot) can be converted to a nested dictionary. The nested dictionary holds exactly the
variables, each at the path its name spells, and converting back gives the same variables. -/
theorem C14_flat_round_trip (e : Env) (hd : e.Distinct) (hdot : ∀ k ∈ e.keys, k.head? ≠ some '.')
    (hpre : ∀ p ∈ e.keys, ∀ q ∈ e.keys, ¬ DottedPrefix p q) :
    ∃ d, e.asdict = .ok d ∧
      (∀ p v, p ≠ [] → (at? p (.dict d) = some v ↔
        ∃ k, Dict.get? e k = some v ∧ splitChar '.' k = p)) ∧
      (∀ k, Dict.get? (Env.fromDict d) k = Dict.get? e k) ∧
      ∃ e', Env.fromEnvironment e = .ok e' ∧ ∀ k, Dict.get? e' k = Dict.get? e k := by
  have hpw : e.Pairwise fun a b => ¬ Comp (keyPath a.1) (keyPath b.1) := by
    have hd' : e.Pairwise fun a b => a.1 ≠ b.1 := by
      unfold Dict.Distinct Dict.keys List.Nodup at hd
      rwa [List.pairwise_map] at hd
    refine hd'.imp_of_mem ?_
    intro a b ha hb hne hc
    have ha' : a.1 ∈ Dict.keys e := List.mem_map.2 ⟨a, ha, rfl⟩
    have hb' : b.1 ∈ Dict.keys e := List.mem_map.2 ⟨b, hb, rfl⟩
    rcases hc with hc | hc
    · rcases dotted_of_prefix hc with h | h
      · exact hne h
      · exact hpre _ ha' _ hb' h
    · rcases dotted_of_prefix hc with h | h
      · exact hne h.symm
      · exact hpre _ hb' _ ha' h
  obtain ⟨d, h1, h2, h3⟩ := nestFlat_spec e [] (.dict _ Dict.distinct_nil (by simp))
    (fun kv _ p hp _ => at?_empty hp) hpw
  have h3' : ∀ p v, p ≠ [] → (at? p (.dict d) = some v ↔
      ∃ k, Dict.get? e k = some v ∧ splitChar '.' k = p) := by
    intro p v hp
    rw [h3 p v hp, at?_empty hp]
    simp only [reduceCtorEq, or_false, Dict.get?_iff_mem hd]
    rfl
  have hne : ∀ q v, at? q (.dict d) = some v → q = [] → d = [] := by
    rintro q v h rfl
    cases d with
    | nil => rfl
    | cons a b => simp [at?] at h
  have hinj : InjOn [] (.dict d) := by
    intro p q v w hp hq hj
    by_cases hp0 : p = []
    · have := hne p v hp hp0
      subst this
      by_cases hq0 : q = []
      · rw [hp0, hq0]
      · rw [at?_empty hq0] at hq; cases hq
    · by_cases hq0 : q = []
      · have := hne q w hq hq0
        subst this
        rw [at?_empty hp0] at hp; cases hp
      · obtain ⟨k, hk, rfl⟩ := (h3' p v hp0).1 hp
        obtain ⟨k', hk', rfl⟩ := (h3' q w hq0).1 hq
        have a := pjoin_keyPath (hdot k (List.mem_map.2 ⟨_, Dict.mem_of_get? hk, rfl⟩))
        have b := pjoin_keyPath (hdot k' (List.mem_map.2 ⟨_, Dict.mem_of_get? hk', rfl⟩))
        unfold keyPath at a b
        rw [a, b] at hj
        rw [hj]
  have hback : ∀ k, Dict.get? (Env.fromDict d) k = Dict.get? e k := by
    intro k
    have hs := flattenNested_spec d h2 hinj
    have he : Env.fromDict d = flattenNested d := by
      simp only [Env.fromDict, Env.dupdate]
      exact Dict.update_nil_left hs.1
    rw [he]
    apply Option.ext
    intro v
    rw [hs.2 k v]
    constructor
    · rintro ⟨p, hp, h4, rfl⟩
      obtain ⟨k', hk', rfl⟩ := (h3' p v hp).1 h4
      have a := pjoin_keyPath (hdot k' (List.mem_map.2 ⟨_, Dict.mem_of_get? hk', rfl⟩))
      unfold keyPath at a
      rw [a]; exact hk'
    · intro h
      refine ⟨keyPath k, keyPath_ne_nil k, (h3' _ v (keyPath_ne_nil k)).2 ⟨k, h, rfl⟩, ?_⟩
      exact pjoin_keyPath (hdot k (List.mem_map.2 ⟨_, Dict.mem_of_get? h, rfl⟩))
  refine ⟨d, h1, h3', hback, Env.fromDict d, ?_, hback⟩
  have : Env.asdict e = .ok d := h1
  simp [Env.fromEnvironment, this]

/-- Three variables, two below a common namespace and interleaved with a third. -/
example :
    let e : Env := [(c%"a.x", .str c%"1"), (c%"b", .list [c%"p"] c%"['p']"), (c%"a.y.z", .str c%"2")]
    e.Distinct ∧ (∀ k ∈ e.keys, k.head? ≠ some '.') ∧
      (e.asdict.map fun d => d.map (·.1)) = .ok [c%"a", c%"b"] := by
  refine ⟨by unfold Dict.Distinct; decide, by decide, by rfl⟩

/-- The proviso of C14 cannot be dropped: with a name that starts with a dot the variable changes
its name. -/
example :
    (Env.fromEnvironment [(c%".a", .str c%"1")]) = .ok [(c%"a", .str c%"1")] := by rfl

/-- The proviso of C14 cannot be dropped: with `a` and `a.b` the conversion crashes. -/
example : Env.fromEnvironment [(c%"a", .str c%"1"), (c%"a.b", .str c%"2")] = .error (.py .typeError) := by
  rfl

theorem clean_distinct {n : Nested} (h : Clean n) : DistinctN n := by
  induction h with
  | leaf v _ => exact .leaf v
  | dict d hd _ _ ih => exact .dict d hd ih

theorem clean_segs {n : Nested} (h : Clean n) : ∀ p v, at? p n = some v → ∀ s ∈ p, s ≠ [] ∧ '.' ∉ s := by
  intro p
  induction p generalizing n with
  | nil => simp
  | cons k p ih =>
    intro v hv s hs
    cases h with
    | leaf w _ => simp [at?] at hv
    | dict d hd hk hsub =>
      rw [at?_cons] at hv
      cases hg : Dict.get? d k with
      | none => simp [hg] at hv
      | some m =>
        simp [hg] at hv
        have hm := Dict.mem_of_get? hg
        rcases List.mem_cons.1 hs with rfl | hs
        · exact hk _ hm
        · exact ih (hsub _ hm) v hv s hs

/-- A stored path has no stored proper extension. -/
theorem at?_ext {n : Nested} {p r : List Str} {v w : Val} (h1 : at? p n = some v)
    (h2 : at? (p ++ r) n = some w) : r = [] := by
  induction p generalizing n with
  | nil =>
    cases r with
    | nil => rfl
    | cons a r =>
      cases n with
      | leaf x => simp [at?] at h2
      | dict d =>
        cases d with
        | nil => simp [at?] at h2
        | cons kv d => simp [at?] at h1
  | cons k p ih =>
    cases n with
    | leaf x => simp [at?] at h1
    | dict d =>
      rw [List.cons_append, at?_cons] at h2
      rw [at?_cons] at h1
      cases hg : Dict.get? d k with
      | none => simp [hg] at h1
      | some m => simp [hg] at h1 h2; exact ih h1 h2

theorem pjoin_good {p : List Str} (hp : p ≠ []) (h : ∀ s ∈ p, s ≠ [] ∧ '.' ∉ s) :
    pjoin [] p = joinWith ['.'] p := by
  cases p with
  | nil => exact absurd rfl hp
  | cons s p =>
    rw [pjoin_cons, joinKey_nil, pjoin_of_ne (h s (by simp)).1]

/-- C14: a nested configuration (as written in a configuration file: keys without dots) becomes
exactly the variables named by its paths, and converting these variables back to a nested
dictionary gives the same value at every path. -/
theorem C14_nested_round_trip (d : List (Str × Nested)) (h : Clean (.dict d)) :
    (∀ k v, Dict.get? (Env.fromDict d) k = some v ↔
      ∃ p, p ≠ [] ∧ at? p (.dict d) = some v ∧ joinWith ['.'] p = k) ∧
    ∃ d', (Env.fromDict d).asdict = .ok d' ∧ ∀ p, p ≠ [] → at? p (.dict d') = at? p (.dict d) := by
  have hseg := clean_segs h
  have hinj : InjOn [] (.dict d) := by
    intro p q v w hp hq hj
    by_cases hp0 : p = []
    · subst hp0
      by_cases hq0 : q = []
      · exact hq0.symm
      · exact (at?_ext (p := []) (r := q) hp (by simpa using hq)).symm
    · by_cases hq0 : q = []
      · subst hq0; exact at?_ext (p := []) (r := p) hq (by simpa using hp)
      · rw [pjoin_good hp0 (hseg p v hp), pjoin_good hq0 (hseg q w hq)] at hj
        have a := split_join (sep := '.') hp0 (fun l hl => (hseg p v hp l hl).2)
        have b := split_join (sep := '.') hq0 (fun l hl => (hseg q w hq l hl).2)
        rw [← a, hj, b]
  have hs := flattenNested_spec d (clean_distinct h) hinj
  have he : Env.fromDict d = flattenNested d := by
    simp only [Env.fromDict, Env.dupdate]
    exact Dict.update_nil_left hs.1
  have hchar : ∀ k v, Dict.get? (Env.fromDict d) k = some v ↔
      ∃ p, p ≠ [] ∧ at? p (.dict d) = some v ∧ joinWith ['.'] p = k := by
    intro k v
    rw [he, hs.2]
    constructor
    · rintro ⟨p, h1, h2, h3⟩; exact ⟨p, h1, h2, by rw [← pjoin_good h1 (hseg p v h2)]; exact h3⟩
    · rintro ⟨p, h1, h2, h3⟩; exact ⟨p, h1, h2, by rw [pjoin_good h1 (hseg p v h2)]; exact h3⟩
  refine ⟨hchar, ?_⟩
  have hdist : (Env.fromDict d).Distinct := by rw [he]; exact hs.1
  have hkey : ∀ k ∈ (Env.fromDict d).keys, ∃ p v, p ≠ [] ∧ at? p (.dict d) = some v ∧ joinWith ['.'] p = k ∧
      splitChar '.' k = p := by
    intro k hk
    cases hg : Dict.get? (Env.fromDict d) k with
    | none => exact absurd hk (Dict.get?_none_iff.1 hg)
    | some v =>
      obtain ⟨p, h1, h2, h3⟩ := (hchar k v).1 hg
      refine ⟨p, v, h1, h2, h3, ?_⟩
      rw [← h3]
      exact split_join (sep := '.') h1 (fun l hl => (hseg p v h2 l hl).2)
  obtain ⟨d', h1, h2, h3, _⟩ := C14_flat_round_trip (Env.fromDict d) hdist (by
      intro k hk
      obtain ⟨p, v, hp, hv, rfl, _⟩ := hkey k hk
      cases p with
      | nil => exact absurd rfl hp
      | cons s p =>
        have := hseg _ v hv s (by simp)
        cases s with
        | nil => exact absurd rfl this.1
        | cons c s =>
          have hc : c ≠ '.' := fun h => this.2 (by simp [h])
          cases p <;> simp [joinWith, hc]) (by
      intro a ha b hb hab
      obtain ⟨r, hr⟩ := hab
      obtain ⟨p, v, hp, hv, hpa, hpa'⟩ := hkey a ha
      obtain ⟨q, w, hq, hw, hqb, hqb'⟩ := hkey b hb
      have : q = p ++ keyPath r := by
        rw [← hqb', ← hpa', hr]; exact keyPath_append a r
      rw [this] at hw
      exact keyPath_ne_nil r (at?_ext hv hw))
  refine ⟨d', h1, ?_⟩
  intro p hp
  apply Option.ext
  intro v
  rw [h2 p v hp]
  constructor
  · rintro ⟨k, hk, rfl⟩
    obtain ⟨q, hq0, hq, hqk⟩ := (hchar k v).1 hk
    rw [← hqk, split_join (sep := '.') hq0 (fun l hl => (hseg q v hq l hl).2)]
    exact hq
  · intro hv
    exact ⟨joinWith ['.'] p, (hchar _ v).2 ⟨p, hp, hv, rfl⟩,
      split_join (sep := '.') hp (fun l hl => (hseg p v hv l hl).2)⟩

/-- A configuration with an inner dictionary, an empty dictionary and a plain value. -/
example : Clean (.dict [(c%"mau", .dict [(c%"visitor", .dict [(c%"x", .leaf (.str c%"1"))]), (c%"y", .dict [])]),
    (c%"z", .leaf (.str c%"2"))]) := by
  have h1 : ∀ v, v ≠ Val.emptyDict → ∀ k, k ≠ [] → '.' ∉ k → Clean (.dict [(k, .leaf v)]) := by
    intro v hv k hk hk'
    exact .dict _ (by simp [Dict.Distinct, Dict.keys]) (by simpa using ⟨hk, hk'⟩) (by simpa using Clean.leaf v hv)
  refine .dict _ (by unfold Dict.Distinct; decide) (by simp) ?_
  simp only [List.mem_cons, List.not_mem_nil, or_false, forall_eq_or_imp, forall_eq]
  refine ⟨.dict _ (by unfold Dict.Distinct; decide) (by simp) ?_, .leaf _ (by decide)⟩
  simp only [List.mem_cons, List.not_mem_nil, or_false, forall_eq_or_imp, forall_eq]
  exact ⟨h1 _ (by decide) _ (by decide) (by decide), .dict _ Dict.distinct_nil (by simp) (by simp)⟩

/-! ## C15 -/

theorem distinct_asItems {e : Dict Val} (h : e.Distinct) : Dict.Distinct (Env.asItems e) := by
  unfold Dict.Distinct Dict.keys at *
  simpa [Env.asItems, List.map_map, Function.comp_def] using h

theorem get?_asItems (e : Dict Val) (k : Str) :
    Dict.get? (Env.asItems e) k =
      (Dict.get? e k).map fun v => match v with | .emptyDict => Nested.dict [] | v => .leaf v := by
  induction e with
  | nil => rfl
  | cons kv e ih =>
    obtain ⟨a, b⟩ := kv
    simp only [Env.asItems, List.map_cons, Dict.get?_cons] at ih ⊢
    by_cases h : a = k
    · simp only [h, if_true]; rfl
    · simp only [h, if_false]; exact ih

theorem at?_asItems {e : Dict Val} {p : List Str} {v : Val} :
    p ≠ [] → (at? p (.dict (Env.asItems e)) = some v ↔ ∃ k, p = [k] ∧ Dict.get? e k = some v) := by
  intro hp
  cases p with
  | nil => exact absurd rfl hp
  | cons k ks =>
    rw [at?_cons, get?_asItems]
    cases hg : Dict.get? e k with
    | none =>
      simp
      rintro _ h; rw [hg] at h; cases h
    | some w =>
      simp only [Option.map_some, Option.bind_some]
      cases ks with
      | nil =>
        simp
        cases w <;> simp [at?, hg]
      | cons a as => cases w <;> simp [at?]

theorem distinctN_asItems {e : Dict Val} (h : e.Distinct) : DistinctN (.dict (Env.asItems e)) := by
  refine .dict _ (distinct_asItems h) ?_
  rintro ⟨k, n⟩ hm
  simp only [Env.asItems, List.mem_map] at hm
  obtain ⟨⟨k', v⟩, _, hv⟩ := hm
  cases hv
  cases v <;> first | exact .leaf _ | exact .dict _ Dict.distinct_nil (by simp)

theorem at?_nil_asItems {e : Dict Val} {v : Val} (h : at? [] (.dict (Env.asItems e)) = some v) : e = [] := by
  cases e with
  | nil => rfl
  | cons a b => simp [Env.asItems, at?] at h

/-- The variables of an environment seen as a dictionary are the variables. -/
theorem fromDict_asItems {e : Dict Val} (h : e.Distinct) (k : Str) :
    (Env.fromDict (Env.asItems e)).Distinct ∧
    Dict.get? (Env.fromDict (Env.asItems e)) k = Dict.get? e k := by
  have hinj : InjOn [] (.dict (Env.asItems e)) := by
    intro p q v w hp hq hj
    by_cases hp0 : p = []
    · subst hp0
      have := at?_nil_asItems hp
      subst this
      by_cases hq0 : q = []
      · exact hq0.symm
      · exact absurd (at?_ext (p := []) (r := q) hp (by simpa using hq)) hq0
    · by_cases hq0 : q = []
      · subst hq0; exact absurd (at?_ext (p := []) (r := p) hq (by simpa using hp)) hp0
      · obtain ⟨a, rfl, _⟩ := (at?_asItems hp0).1 hp
        obtain ⟨b, rfl, _⟩ := (at?_asItems hq0).1 hq
        simpa [joinKey_nil] using hj
  have hs := flattenNested_spec _ (distinctN_asItems h) hinj
  have he : Env.fromDict (Env.asItems e) = flattenNested (Env.asItems e) := by
    simp only [Env.fromDict, Env.dupdate]
    exact Dict.update_nil_left hs.1
  rw [he]
  refine ⟨hs.1, Option.ext fun v => ?_⟩
  rw [hs.2 k v]
  constructor
  · rintro ⟨p, hp, h1, h2⟩
    obtain ⟨a, rfl, h3⟩ := (at?_asItems hp).1 h1
    simp [joinKey_nil] at h2; subst h2; exact h3
  · intro hk
    exact ⟨[k], by simp, (at?_asItems (by simp)).2 ⟨k, rfl, hk⟩, rfl⟩

/-- The variables of an environment stored under a namespace. -/
theorem fromDict_namespace {e : Dict Val} (h : e.Distinct) (he : e ≠ []) {ns : Str} (hns : ns ≠ []) :
    (Env.fromDict (Env.asItems e) ns).Distinct ∧ ∀ k v,
    (Dict.get? (Env.fromDict (Env.asItems e) ns) k = some v ↔
      ∃ x, k = ns ++ '.' :: x ∧ Dict.get? e x = some v) := by
  have hat : ∀ p v, at? p (.dict [(ns, .dict (Env.asItems e))]) = some v ↔
      ∃ x, p = [ns, x] ∧ Dict.get? e x = some v := by
    intro p v
    cases p with
    | nil => simp [at?]
    | cons a p =>
      rw [at?_cons, Dict.get?_cons]
      by_cases ha : ns = a
      · subst ha
        simp only [if_true, Option.bind_some]
        by_cases hp : p = []
        · subst hp
          constructor
          · intro h1; exact absurd (at?_nil_asItems h1) he
          · rintro ⟨x, h1, _⟩; simp at h1
        · rw [at?_asItems hp]; simp
      · simp [ha]
        intro x h1
        exact absurd h1.symm ha
  have hinj : InjOn [] (.dict [(ns, .dict (Env.asItems e))]) := by
    intro p q v w hp hq hj
    obtain ⟨x, rfl, _⟩ := (hat p v).1 hp
    obtain ⟨y, rfl, _⟩ := (hat q w).1 hq
    simp [joinKey_nil, joinKey_ne hns] at hj
    rw [hj]
  have hd : DistinctN (.dict [(ns, .dict (Env.asItems e))]) :=
    .dict _ (by simp [Dict.Distinct, Dict.keys]) (by simp [distinctN_asItems h])
  have hs := flattenNested_spec _ hd hinj
  have heq : Env.fromDict (Env.asItems e) ns = flattenNested [(ns, .dict (Env.asItems e))] := by
    simp only [Env.fromDict, Env.dupdate]
    rw [if_neg (by simpa using hns)]
    exact Dict.update_nil_left hs.1
  rw [heq]
  refine ⟨hs.1, fun k v => ?_⟩
  rw [hs.2 k v]
  constructor
  · rintro ⟨p, _, h1, h2⟩
    obtain ⟨x, rfl, h3⟩ := (hat p v).1 h1
    exact ⟨x, by rw [← h2]; simp [joinKey_nil, joinKey_ne hns], h3⟩
  · rintro ⟨x, rfl, h3⟩
    exact ⟨[ns, x], by simp, (hat _ v).2 ⟨x, rfl, h3⟩, by simp [joinKey_nil, joinKey_ne hns]⟩

/-- C15: after `e.update(other)` every variable of `other` has the value of `other`, every other
variable is unchanged. -/
theorem C15_update (e other : Env) (ho : other.Distinct) (k : Str) :
    Dict.get? (Env.update e other) k = (Dict.get? other k).or (Dict.get? e k) := by
  have h := fromDict_asItems ho k
  simp only [Env.update, if_true]
  rw [Dict.get?_update _ h.1, h.2]

/-- C15: after `e.update(other, namespace)` the variables `namespace.x` are those of `other`, every
other variable is unchanged. -/
theorem C15_update_namespace (e other : Env) (ho : other.Distinct) (hne : other ≠ []) (ns : Str) (hns : ns ≠ []) :
    (∀ x v, Dict.get? other x = some v → Dict.get? (Env.update e other ns) (ns ++ '.' :: x) = some v) ∧
    (∀ k, (∀ x, k = ns ++ '.' :: x → Dict.get? other x = none) →
      Dict.get? (Env.update e other ns) k = Dict.get? e k) := by
  have h := fromDict_namespace ho hne hns
  simp only [Env.update, if_true]
  constructor
  · intro x v hx
    rw [Dict.get?_update _ h.1, (h.2 _ v).2 ⟨x, rfl, hx⟩]; rfl
  · intro k hk
    rw [Dict.get?_update _ h.1]
    cases hg : Dict.get? (Env.fromDict (Env.asItems other) ns) k with
    | none => rfl
    | some w =>
      obtain ⟨x, h1, h2⟩ := (h.2 k w).1 hg
      rw [hk x h1] at h2; cases h2

/-- C15: with `overwrite=False` the existing variables win. -/
theorem C15_update_keep (e other : Env) (he : e.Distinct) (ho : other.Distinct) (k : Str) :
    Dict.get? (Env.update e other [] false) k = (Dict.get? e k).or (Dict.get? other k) := by
  have h := fromDict_asItems ho k
  simp only [Env.update, Bool.false_eq_true, if_false]
  rw [Dict.get?_update _ he, h.2]

/-- C15: with `overwrite=False` and a namespace the existing variables win. -/
theorem C15_update_namespace_keep (e other : Env) (he : e.Distinct) (ho : other.Distinct) (hne : other ≠ [])
    (ns : Str) (hns : ns ≠ []) :
    (∀ k v, Dict.get? e k = some v → Dict.get? (Env.update e other ns false) k = some v) ∧
    (∀ x v, Dict.get? e (ns ++ '.' :: x) = none → (Dict.get? (Env.update e other ns false) (ns ++ '.' :: x) = some v ↔
      Dict.get? other x = some v)) ∧
    (∀ k, (∀ x, k ≠ ns ++ '.' :: x) → Dict.get? (Env.update e other ns false) k = Dict.get? e k) := by
  have h := fromDict_namespace ho hne hns
  simp only [Env.update, Bool.false_eq_true, if_false]
  refine ⟨?_, ?_, ?_⟩
  · intro k v hk
    rw [Dict.get?_update _ he, hk]; rfl
  · intro x v hx
    rw [Dict.get?_update _ he, hx, Option.none_or, h.2]
    constructor
    · rintro ⟨y, h1, h2⟩; simp at h1; rw [h1]; exact h2
    · intro h1; exact ⟨x, rfl, h1⟩
  · intro k hk
    rw [Dict.get?_update _ he]
    cases hg : Dict.get? (Env.fromDict (Env.asItems other) ns) k with
    | none => simp
    | some w =>
      obtain ⟨x, h1, h2⟩ := (h.2 k w).1 hg
      exact absurd h1 (hk x)

/-- C15: setting a variable (`e[key] = value`) makes exactly that variable readable with the new
value. -/
theorem C15_set (e : Env) (key : Str) (v : Val) (k : Str) :
    Dict.get? (e.setitem key (.leaf v)) k = if key = k then some v else Dict.get? e k := by
  have : Env.setitem e key (.leaf v) = Dict.set e key v := by
    simp [Env.setitem, Env.dupdate, flattenNested, flattenItems, flattenVal, joinKey_nil, Dict.update, Dict.set]
  rw [this, Dict.get?_set]

/-- C15: `e.dupdate(d)` with a nested configuration `d` sets exactly the variables named by the
paths of `d`. -/
theorem C15_dupdate (e : Env) (d : List (Str × Nested)) (h : Clean (.dict d)) (k : Str) :
    (∀ p v, p ≠ [] → at? p (.dict d) = some v → joinWith ['.'] p = k → Dict.get? (e.dupdate d) k = some v) ∧
    ((∀ p v, p ≠ [] → at? p (.dict d) = some v → joinWith ['.'] p ≠ k) →
      Dict.get? (e.dupdate d) k = Dict.get? e k) := by
  have h1 := (C14_nested_round_trip d h).1
  have hseg := clean_segs h
  have hinj : InjOn [] (.dict d) := by
    intro p q v w hp hq hj
    by_cases hp0 : p = []
    · subst hp0
      by_cases hq0 : q = []
      · exact hq0.symm
      · exact (at?_ext (p := []) (r := q) hp (by simpa using hq)).symm
    · by_cases hq0 : q = []
      · subst hq0; exact at?_ext (p := []) (r := p) hq (by simpa using hp)
      · rw [pjoin_good hp0 (hseg p v hp), pjoin_good hq0 (hseg q w hq)] at hj
        have a := split_join (sep := '.') hp0 (fun l hl => (hseg p v hp l hl).2)
        have b := split_join (sep := '.') hq0 (fun l hl => (hseg q w hq l hl).2)
        rw [← a, hj, b]
  have hs := flattenNested_spec d (clean_distinct h) hinj
  have he : Env.fromDict d = flattenNested d := by
    simp only [Env.fromDict, Env.dupdate]
    exact Dict.update_nil_left hs.1
  rw [he] at h1
  have hdu : e.dupdate d = Dict.update e (flattenNested d) := by simp [Env.dupdate]
  rw [hdu, Dict.get?_update _ hs.1]
  constructor
  · intro p v hp hv hk
    rw [(h1 k v).2 ⟨p, hp, hv, hk⟩]; rfl
  · intro hno
    cases hg : Dict.get? (flattenNested d) k with
    | none => rfl
    | some v =>
      obtain ⟨p, hp, hv, hk⟩ := (h1 k v).1 hg
      exact absurd hk (hno p v hp hv)

/-- C15: every operation keeps the names distinct. -/
theorem C15_distinct (e other : Env) (he : e.Distinct) (ns : Str) (d : List (Str × Nested)) :
    (e.dupdate d ns).Distinct ∧ (Env.update e other ns true).Distinct ∧ (Env.update e other ns false).Distinct ∧
      (Env.fromDict d ns).Distinct := by
  have h : ∀ d ns, (Env.fromDict d ns).Distinct := fun d ns => Dict.distinct_update Dict.distinct_nil _
  refine ⟨Dict.distinct_update he _, ?_, ?_, h d ns⟩
  · simp only [Env.update, if_true]; exact Dict.distinct_update he _
  · simp only [Env.update, Bool.false_eq_true, if_false]; exact Dict.distinct_update (h _ _) _

/-- C15, histories: after any sequence of updates a variable has the value of the last environment
in the sequence that defines it, or its initial value. -/
theorem C15_history (e : Env) (others : List Env) (h : ∀ o ∈ others, o.Distinct) (k : Str) :
    Dict.get? (others.foldl (fun e o => Env.update e o) e) k =
      ((others.reverse.findSome? fun o => Dict.get? o k).or (Dict.get? e k)) := by
  induction others generalizing e with
  | nil => simp
  | cons o os ih =>
    rw [List.foldl_cons, ih _ (fun o ho => h o (by simp [ho])), C15_update _ _ (h o (by simp))]
    simp only [List.reverse_cons, List.findSome?_append, List.findSome?_cons, List.findSome?_nil]
    cases List.findSome? (fun o => Dict.get? o k) os.reverse <;> cases Dict.get? o k <;> simp

/-- An update with and without overwriting, and under a namespace. -/
example :
    let e : Env := [(c%"a", .str c%"1"), (c%"b", .str c%"2")]
    let o : Env := [(c%"b", .str c%"3"), (c%"c", .str c%"4")]
    Dict.get? (Env.update e o) c%"b" = some (.str c%"3") ∧
    Dict.get? (Env.update e o [] false) c%"b" = some (.str c%"2") ∧
    Dict.get? (Env.update e o c%"n") c%"n.c" = some (.str c%"4") ∧
    Dict.get? (Env.update e o c%"n") c%"b" = some (.str c%"2") := by
  refine ⟨by rfl, by rfl, by rfl, by rfl⟩

/-- The case left out of `C15_update_namespace`: an empty environment under a namespace is stored
as an empty dictionary. -/
example : (Env.update [] [] c%"n") = [(c%"n", .emptyDict)] := by rfl

/-! ## C16 -/

/-- C16: a variable that exists is returned. -/
theorem C16_variable (e : Env) (key : Str) (v : Val) (h : Dict.get? e key = some v) :
    e.get key = .value v := by
  simp [Env.get, h]

/-- C16: `get` returns the default exactly if there is neither the variable nor a variable below
the namespace. -/
theorem C16_default (e : Env) (key : Str) :
    e.get key = .default ↔ Dict.get? e key = none ∧ ∀ x, Dict.get? e (key ++ '.' :: x) = none := by
  unfold Env.get
  cases hk : Dict.get? e key with
  | some v => simp
  | none =>
    simp only [true_and]
    have hiff : (e.filter (fun kv => startsWith kv.1 (key ++ ['.']))) = [] ↔
        ∀ x, Dict.get? e (key ++ '.' :: x) = none := by
      rw [List.filter_eq_nil_iff]
      constructor
      · intro h x
        rw [Dict.get?_none_iff]
        intro hm
        obtain ⟨kv, hm1, hm2⟩ := List.mem_map.1 hm
        apply h kv hm1
        rw [hm2]
        simp [startsWith, List.isPrefixOf_iff_prefix]
      · rintro h ⟨k, v⟩ hm hs
        simp only [startsWith, List.isPrefixOf_iff_prefix] at hs
        obtain ⟨x, hx⟩ := hs
        have := Dict.get?_none_iff.1 (h x)
        apply this
        exact List.mem_map.2 ⟨(k, v), hm, by rw [← hx]; simp⟩
    rw [← hiff]
    constructor
    · intro h
      by_cases hne : (List.filter (fun kv => startsWith kv.1 (key ++ ['.'])) e) = []
      · exact hne
      · simp [hne] at h
    · intro h
      simp [h]

/-- C16: otherwise `get` returns an environment that has exactly the variables below the
namespace, under their names without the namespace. -/
theorem C16_namespace (e : Env) (he : e.Distinct) (key : Str) (hk : Dict.get? e key = none)
    (x : Str) (hx : Dict.get? e (key ++ '.' :: x) ≠ none) :
    ∃ sub, e.get key = .namespace sub ∧ sub.Distinct ∧
      ∀ y, Dict.get? sub y = Dict.get? e (key ++ '.' :: y) := by
  have hnd : e.get key ≠ .default := fun h => hx (((C16_default e key).1 h).2 x)
  unfold Env.get at hnd ⊢
  rw [hk] at hnd ⊢
  simp only at hnd ⊢
  rw [if_neg (by intro h; rw [if_pos h] at hnd; exact hnd rfl)]
  generalize hs : (List.map (fun kv : Str × Val => (List.drop (key ++ ['.']).length kv.1, kv.2))
    (List.filter (fun kv => startsWith kv.1 (key ++ ['.'])) e)) = sub
  have hmem : ∀ y v, (y, v) ∈ sub ↔ (key ++ '.' :: y, v) ∈ e := by
    intro y v
    rw [← hs]
    simp only [List.mem_map, List.mem_filter, startsWith, List.isPrefixOf_iff_prefix]
    constructor
    · rintro ⟨⟨k, w⟩, ⟨h1, ⟨t, h2⟩⟩, h3⟩
      simp only at h2 h3
      rw [← h2] at h3 h1
      simp at h3
      rw [h3.1, h3.2] at h1
      simpa using h1
    · intro h
      refine ⟨(key ++ '.' :: y, v), ⟨h, ⟨y, by simp⟩⟩, ?_⟩
      simp
  have hdist : Dict.Distinct sub := by
    rw [← hs]
    unfold Dict.Distinct Dict.keys List.Nodup at *
    rw [List.map_map, List.pairwise_map]
    rw [List.pairwise_map] at he
    have h2 := List.Pairwise.filter (fun kv => startsWith kv.1 (key ++ ['.'])) he
    refine h2.imp_of_mem ?_
    intro a b ha hb hne
    simp only [List.mem_filter, startsWith, List.isPrefixOf_iff_prefix] at ha hb
    obtain ⟨t, ht⟩ := ha.2
    obtain ⟨u, hu⟩ := hb.2
    simp only [Function.comp_def]
    rw [← ht, ← hu] at hne ⊢
    simp at hne ⊢
    exact hne
  refine ⟨_, rfl, (fromDict_asItems hdist []).1, ?_⟩
  intro y
  rw [(fromDict_asItems hdist y).2]
  apply Option.ext
  intro v
  rw [Dict.get?_iff_mem hdist, Dict.get?_iff_mem he, hmem]

/-- A namespace, a variable and an unknown name. -/
example :
    let e : Env := [(c%"a.b", .str c%"1"), (c%"a.c.d", .str c%"2"), (c%"ab", .str c%"3")]
    e.get c%"a" = .namespace [(c%"b", .str c%"1"), (c%"c.d", .str c%"2")] ∧
    e.get c%"ab" = .value (.str c%"3") ∧ e.get c%"a.c" = .namespace [(c%"d", .str c%"2")] ∧
    e.get c%"b" = .default := by
  refine ⟨by rfl, by rfl, by rfl, by rfl⟩

end Mau
