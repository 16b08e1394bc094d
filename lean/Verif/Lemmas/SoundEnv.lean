import Verif.Lemmas.SoundText
import Verif.Props.Environment
import Verif.Lemmas.DocEndsNested
import Verif.Lemmas.Tidy

set_option linter.unusedSimpArgs false

/-!
# The variables of well-formed documents
-/

namespace Mau
open Spec

variable {V : Project}

theorem set_append_right {e rest : Env} {k : Str} (v : Val) (h : k ∉ Dict.keys e) : Dict.set (e ++ rest) k v = e ++ Dict.set rest k v := by
  induction e with
  | nil => rfl
  | cons kv e ih =>
    obtain ⟨k', v'⟩ := kv
    simp only [Dict.keys, List.map_cons, List.mem_cons, not_or] at h
    show Dict.set ((k', v') :: (e ++ rest)) k v = _
    simp only [Dict.set]
    rw [if_neg (fun he => h.1 he.symm), ih h.2]
    rfl

theorem base_keys {k : Str} (h : startsWith k c%"mau.parser." = false) : k ∉ Dict.keys baseSettings := by
  intro hk
  have : ∀ k ∈ Dict.keys baseSettings, startsWith k c%"mau.parser." = true := by rw [base_eq]; decide
  rw [this k hk] at h
  cases h

theorem BaseFirst.set {e : Env} (h : BaseFirst e) {k : Str} {v : Val} (hk : startsWith k c%"mau.parser." = false) : BaseFirst (Dict.set e k v) := by
  obtain ⟨rest, rfl, hr⟩ := h
  refine ⟨Dict.set rest k v, set_append_right v (base_keys hk), fun k' hk' => ?_⟩
  rw [Dict.keys_set] at hk'
  split at hk'
  · exact hr k' hk'
  · rw [List.mem_append, List.mem_singleton] at hk'
    rcases hk' with h | rfl
    · exact hr k' h
    · exact hk

theorem BaseFirst.update {e x : Env} (h : BaseFirst e) (hk : ∀ k ∈ Dict.keys x, startsWith k c%"mau.parser." = false) : BaseFirst (Dict.update e x) := by
  unfold Dict.update
  induction x generalizing e with
  | nil => exact h
  | cons kv x ih =>
    rw [List.foldl_cons]
    exact ih (h.set (hk _ (by simp [Dict.keys]))) fun k hk' => hk k (by simp [Dict.keys] at hk' ⊢; exact .inr hk')

theorem base_first : BaseFirst baseSettings := ⟨[], by simp, by simp [Dict.keys]⟩

theorem update_base : Dict.update baseSettings baseSettings = baseSettings ∧ Dict.update [] baseSettings = baseSettings := by rw [base_eq]; decide

theorem update_append_right (e a b : Env) : Dict.update e (a ++ b) = Dict.update (Dict.update e a) b := by
  unfold Dict.update
  rw [List.foldl_append]

theorem BaseFirst.over {e : Env} (h : BaseFirst e) : BaseFirst (Dict.update baseSettings e) ∧ BaseFirst (Dict.update [] e) := by
  obtain ⟨rest, rfl, hr⟩ := h
  rw [update_append_right, update_append_right, update_base.1, update_base.2]
  exact ⟨base_first.update hr, base_first.update hr⟩

/-! ## Nesting and flattening -/

/-- The built-in settings of the parser, nested. -/
def baseNested : Nested := .dict [(c%"source_highlight_style_aliases", .dict [(['+'], .leaf (.str c%"add")), (['-'], .leaf (.str c%"remove")),
    (['!'], .leaf (.str c%"important")), (['x'], .leaf (.str c%"error"))]),
  (c%"aliases", .dict [(c%"source", .dict [(c%"args", .dict [(c%"engine", .leaf (.str c%"source"))]), (c%"names", .leaf (.list [c%"language"] c%"['language']"))])])]

/-- The nested variables, with the built-in settings first. -/
structure NestedFirst (out : List (Str × Nested)) : Prop where
  form : ∃ more others, out = (c%"mau", .dict ((c%"parser", baseNested) :: more)) :: others ∧
    (∀ k ∈ more.map (·.1), '.' ∉ k ∧ k ≠ c%"parser") ∧ ∀ k ∈ others.map (·.1), '.' ∉ k ∧ k ≠ c%"mau" ∧ k ≠ []

theorem nestFlat_append (a b : Dict Val) (out : List (Str × Nested)) : nestFlat (a ++ b) out = (nestFlat a out).bind (nestFlat b) := by
  induction a generalizing out with
  | nil => rfl
  | cons kv a ih =>
    obtain ⟨k, v⟩ := kv
    simp only [List.cons_append, nestFlat]
    cases nestInsert (keyPath k) v out with
    | error e => rfl
    | ok o => exact ih o

theorem base_nested : nestFlat baseSettings [] = .ok [(c%"mau", .dict [(c%"parser", baseNested)])] := by rw [base_eq]; rfl

theorem mem_keys_set {α : Type} {d : Dict α} {k x : Str} {v : α} (h : x ∈ (Dict.set d k v).map (·.1)) : x ∈ d.map (·.1) ∨ x = k := by
  have := Dict.keys_set d k v
  unfold Dict.keys at this
  rw [this] at h
  split at h
  · exact .inl h
  · rwa [List.mem_append, List.mem_singleton] at h

theorem join_path (k : Str) : joinWith ['.'] (keyPath k) = k := join_split '.' k

theorem path_piece {k x : Str} (h : x ∈ keyPath k) : '.' ∉ x := sep_not_mem_of_mem_split h

theorem NestedFirst.insert {out out' : List (Str × Nested)} (h : NestedFirst out) {k : Str} {v : Val} (h0 : ∃ c r, k = c :: r ∧ c ≠ '.') (h1 : k ≠ c%"mau") (h2 : k ≠ c%"mau.parser")
    (h3 : startsWith k c%"mau.parser." = false) (hi : nestInsert (keyPath k) v out = .ok out') : NestedFirst out' := by
  obtain ⟨more, others, rfl, hm, ho⟩ := h
  have hp : ∀ x ∈ keyPath k, '.' ∉ x := fun x => path_piece
  have hj := join_path k
  revert hp hj hi
  generalize keyPath k = p
  intro hi hp hj
  match p, hi, hp, hj with
  | [], hi, _, _ => cases hi; exact ⟨more, others, rfl, hm, ho⟩
  | [a], hi, hp, hj =>
    simp only [joinWith] at hj
    subst hj
    have hne : a ≠ [] := by rintro rfl; obtain ⟨c, r, h, _⟩ := h0; cases h
    simp only [nestInsert] at hi
    injection hi with hi
    subst hi
    rw [Dict.set, if_neg (fun he => h1 he.symm)]
    exact ⟨more, _, rfl, hm, fun x hx => (mem_keys_set hx).elim (ho x) fun e => by subst e; exact ⟨hp _ (by simp), h1, hne⟩⟩
  | a :: b :: ks, hi, hp, hj =>
    have hne : a ≠ [] := by
      rintro rfl
      rw [joinWith_cons_of_ne (List.cons_ne_nil _ _)] at hj
      obtain ⟨c, r, h, hc⟩ := h0
      rw [h] at hj
      simp at hj
      exact hc hj.1.symm
    have hset : ∀ w, NestedFirst (Dict.set ((c%"mau", .dict ((c%"parser", baseNested) :: more)) :: others) a w) ∨ a = c%"mau" := by
      intro w
      by_cases ha : a = c%"mau"
      · exact .inr ha
      · left
        rw [Dict.set, if_neg (fun he => ha he.symm)]
        exact ⟨more, _, rfl, hm, fun x hx => (mem_keys_set hx).elim (ho x) fun e => by subst e; exact ⟨hp _ (by simp), ha, hne⟩⟩
    rw [nestInsert] at hi
    split at hi
    · cases hi
    · rename_i sub hsub
      split at hi
      · cases hi
      · rename_i sub' hs'
        injection hi with hi
        subst hi
        rcases hset (.dict sub') with h' | ha
        · exact h'
        · subst ha
          rw [Dict.get?, if_pos rfl] at hsub
          simp only [Option.getD_some] at hsub
          injection hsub with hsub
          subst hsub
          rw [Dict.set, if_pos rfl]
          have hb : b ≠ c%"parser" := by
            rintro rfl
            cases ks with
            | nil => exact h2 hj.symm
            | cons c ks =>
              rw [← hj] at h3
              simp only [joinWith_cons_of_ne (List.cons_ne_nil _ _)] at h3
              simp [startsWith] at h3
          cases ks with
          | nil =>
            simp only [nestInsert] at hs'
            injection hs' with hs'
            subst hs'
            rw [Dict.set, if_neg (fun he => hb he.symm)]
            exact ⟨_, others, rfl, fun x hx => (mem_keys_set hx).elim (hm x) fun e => by subst e; exact ⟨hp _ (by simp), hb⟩, ho⟩
          | cons c ks =>
            rw [nestInsert] at hs'
            split at hs'
            · cases hs'
            · split at hs'
              · cases hs'
              · injection hs' with hs'
                subst hs'
                rw [Dict.set, if_neg (fun he => hb he.symm)]
                exact ⟨_, others, rfl, fun x hx => (mem_keys_set hx).elim (hm x) fun e => by subst e; exact ⟨hp _ (by simp), hb⟩, ho⟩

theorem NestedFirst.insertAll {e : Dict Val} {out out' : List (Str × Nested)} (h : NestedFirst out)
    (hk : ∀ k ∈ Dict.keys e, (∃ c r, k = c :: r ∧ c ≠ '.') ∧ k ≠ c%"mau" ∧ k ≠ c%"mau.parser" ∧ startsWith k c%"mau.parser." = false) (hi : nestFlat e out = .ok out') : NestedFirst out' := by
  induction e generalizing out with
  | nil => cases hi; exact h
  | cons kv e ih =>
    obtain ⟨k, v⟩ := kv
    have h1 := hk k (by simp [Dict.keys])
    rw [nestFlat] at hi
    split at hi
    · cases hi
    · rename_i o hio
      exact ih (h.insert h1.1 h1.2.1 h1.2.2.1 h1.2.2.2 hio) (fun k hk' => hk k (by simp [Dict.keys] at hk' ⊢; exact .inr hk')) hi

/-- A key or something below it. -/
def Below (key k : Str) : Prop := k = key ∨ ∃ r, k = key ++ '.' :: r

theorem mem_keys_update {d e : Dict Val} {x : Str} (h : x ∈ Dict.keys (Dict.update d e)) : x ∈ Dict.keys d ∨ x ∈ Dict.keys e := by
  unfold Dict.update at h
  induction e generalizing d with
  | nil => exact .inl h
  | cons kv e ih =>
    rw [List.foldl_cons] at h
    rcases ih h with h | h
    · rcases mem_keys_set h with h | h
      · exact .inl h
      · exact .inr (by simp [Dict.keys, h])
    · exact .inr (by simp [Dict.keys] at h ⊢; exact .inr h)

mutual
theorem flattenVal_below (key : Str) (hk : key ≠ []) : ∀ n k, k ∈ Dict.keys (flattenVal key n) → Below key k
  | .leaf v, k, h => by simp [flattenVal, Dict.keys] at h; exact .inl h
  | .dict [], k, h => by simp [flattenVal, Dict.keys] at h; exact .inl h
  | .dict (kv :: kvs), k, h => by
    rw [flattenVal] at h
    rcases flattenItems_below key hk (kv :: kvs) [] k h with h | h
    · cases h
    · exact h
theorem flattenItems_below (key : Str) (hk : key ≠ []) : ∀ kvs flat k, k ∈ Dict.keys (flattenItems key kvs flat) → k ∈ Dict.keys flat ∨ Below key k
  | [], flat, k, h => by rw [flattenItems] at h; exact .inl h
  | (a, n) :: rest, flat, k, h => by
    rw [flattenItems] at h
    rcases flattenItems_below key hk rest _ k h with h | h
    · rcases mem_keys_update h with h | h
      · exact .inl h
      · right
        have := flattenVal_below (joinKey key a) (by rw [joinKey_ne hk]; simp) n k h
        rw [joinKey_ne hk] at this
        rcases this with rfl | ⟨r, rfl⟩
        · exact .inr ⟨a, rfl⟩
        · exact .inr ⟨a ++ '.' :: r, by simp⟩
    · exact .inr h
end

theorem BaseFirst.flattenItems {parent : Str} {items : List (Str × Nested)}
    (hi : ∀ kn ∈ items, ∀ k ∈ Dict.keys (flattenVal (joinKey parent kn.1) kn.2), startsWith k c%"mau.parser." = false) {flat : Dict Val} (h : BaseFirst flat) :
    BaseFirst (flattenItems parent items flat) := by
  induction items generalizing flat with
  | nil => rw [Mau.flattenItems]; exact h
  | cons kn items ih =>
    obtain ⟨a, n⟩ := kn
    rw [Mau.flattenItems]
    exact ih (fun kn hkn => hi kn (by simp [hkn])) (h.update (hi (a, n) (by simp)))

theorem below_other {key : Str} (hd : '.' ∉ key) (hk : key ≠ c%"mau") {k : Str} (h : Below key k) : startsWith k c%"mau.parser." = false := by
  cases hs : startsWith k c%"mau.parser." with
  | false => rfl
  | true =>
    exfalso
    obtain ⟨t, e⟩ := List.isPrefixOf_iff_prefix.1 hs
    rcases h with rfl | ⟨r, rfl⟩
    · exact hd (by rw [← e]; simp)
    · have := congrArg (List.takeWhile (fun c => c != '.')) e
      have h2 : ∀ (a r : Str), '.' ∉ a → (a ++ '.' :: r).takeWhile (fun c => c != '.') = a := by
        intro a r ha
        rw [List.takeWhile_append_of_pos (by intro c hc; simp; rintro rfl; exact ha hc)]
        simp
      rw [h2 key r hd] at this
      exact hk this.symm

theorem NestedFirst.flatten {out : List (Str × Nested)} (h : NestedFirst out) : BaseFirst (flattenNested out) := by
  obtain ⟨more, others, rfl, hm, ho⟩ := h
  unfold flattenNested
  rw [flattenItems]
  refine BaseFirst.flattenItems ?_ ?_
  · intro kn hkn k hk
    have h1 := ho kn.1 (List.mem_map.2 ⟨_, hkn, rfl⟩)
    rw [joinKey_nil] at hk
    exact below_other h1.1 h1.2.1 (flattenVal_below _ h1.2.2 _ _ hk)
  · rw [joinKey_nil, flattenVal, flattenItems]
    have e : Dict.update [] (flattenVal (joinKey c%"mau" c%"parser") baseNested) = baseSettings := by rw [base_eq]; decide +kernel
    rw [e]
    refine BaseFirst.over ?_ |>.2
    refine BaseFirst.flattenItems ?_ base_first
    intro kn hkn k hk
    have h1 := hm kn.1 (List.mem_map.2 ⟨_, hkn, rfl⟩)
    have := flattenVal_below (joinKey c%"mau" kn.1) (by rw [joinKey_ne (by decide)]; simp) _ _ hk
    rw [joinKey_ne (by decide)] at this
    cases hs : startsWith k c%"mau.parser." with
    | false => rfl
    | true =>
      exfalso
      have hb : Below kn.1 (k.drop 4) := by
        rcases this with rfl | ⟨r, rfl⟩
        · exact .inl rfl
        · exact .inr ⟨r, rfl⟩
      obtain ⟨t, e⟩ := List.isPrefixOf_iff_prefix.1 hs
      subst e
      rcases hb with hb | ⟨r, hb⟩
      · exact h1.1 (by rw [← hb]; simp)
      · have h3 := congrArg (List.takeWhile (fun c => c != '.')) hb
        have h2 : ∀ (a r : Str), '.' ∉ a → (a ++ '.' :: r).takeWhile (fun c => c != '.') = a := by
          intro a r ha
          rw [List.takeWhile_append_of_pos (by intro c hc; simp; rintro rfl; exact ha hc)]
          simp
        rw [h2 _ r h1.1] at h3
        exact h1.2 h3.symm

/-! ## Standard variables -/

theorem user_starts {k : Str} (h : V.names k) : startsWith k c%"mau.parser." = false := by
  cases hs : startsWith k c%"mau.parser." with
  | false => rfl
  | true => exact absurd (List.isPrefixOf_iff_prefix.1 hs) (V.user k h)

theorem names_update {d e : Env} (h1 : ∀ k ∈ Dict.keys d, startsWith k c%"mau.parser." = true ∨ V.names k)
    (h2 : ∀ k ∈ Dict.keys e, startsWith k c%"mau.parser." = true ∨ V.names k) :
    ∀ k ∈ Dict.keys (Dict.update d e), startsWith k c%"mau.parser." = true ∨ V.names k :=
  fun k hk => (mem_keys_update hk).elim (h1 k) (h2 k)

theorem initEnv_eq (env : Env) : initEnv env = Dict.update baseSettings env := by
  unfold initEnv Env.update
  dsimp only
  rw [if_neg (by simp)]
  rfl

theorem base_names : ∀ k ∈ Dict.keys baseSettings, startsWith k c%"mau.parser." = true ∨ V.names k := by
  intro k hk
  have : ∀ k ∈ Dict.keys baseSettings, startsWith k c%"mau.parser." = true := by rw [base_eq]; decide
  exact .inl (this k hk)

theorem base_distinct : Dict.Distinct baseSettings := by unfold Dict.Distinct; rw [base_eq]; decide

/-- A parser that is started with such variables. -/
theorem standard_user {env : Env} (hp : EnvAll NoParen env) (hn : ∀ k ∈ Dict.keys env, V.names k) : Standard V (initEnv env) := by
  refine ⟨EnvAll.initEnv plain_empty base_plain hp, ?_, ?_, ?_⟩
  · rw [initEnv_eq]; exact base_first.update fun k hk => user_starts (hn k hk)
  · rw [initEnv_eq]; exact names_update base_names fun k hk => .inr (hn k hk)
  · rw [initEnv_eq]; exact Dict.distinct_update base_distinct _

theorem Standard.init {env : Env} (h : Standard V env) : Standard V (initEnv env) := by
  refine ⟨EnvAll.initEnv plain_empty base_plain h.plain, ?_, ?_, ?_⟩
  · rw [initEnv_eq]; exact h.base.over.1
  · rw [initEnv_eq]; exact names_update base_names h.names
  · rw [initEnv_eq]; exact Dict.distinct_update base_distinct _

theorem Standard.set {env : Env} (h : Standard V env) {k v : Str} (hk : V.names k) (hv : '(' ∉ v) : Standard V (Dict.set env k (.str v)) := by
  refine ⟨?_, h.base.set (user_starts hk), ?_, Dict.distinct_set h.distinct _ _⟩
  · exact h.plain.setitem plain_empty k hv
  · intro x hx
    rcases mem_keys_set hx with hx | rfl
    · exact h.names x hx
    · exact .inr hk

/-- The variables handed over to an included file. -/
theorem Standard.fromEnvironment {env : Env} (h : Standard V env) (ha : V.Apart) : ∃ e, Env.fromEnvironment env = .ok e ∧ Standard V e := by
  have hb : ∀ k ∈ Dict.keys env, k ∈ Dict.keys baseSettings ∨ V.names k := by
    intro k hk
    rcases h.names k hk with h' | h'
    · left
      obtain ⟨rest, rfl, hr⟩ := h.base
      unfold Dict.keys at hk
      rw [List.map_append, List.mem_append] at hk
      rcases hk with hk | hk
      · exact hk
      · rw [hr k hk] at h'; cases h'
    · exact .inr h'
  have hbase : ∀ k ∈ Dict.keys baseSettings, startsWith k c%"mau.parser." = true := by rw [base_eq]; decide
  have hdot : ∀ k ∈ Dict.keys env, k.head? ≠ some '.' := by
    intro k hk
    rcases hb k hk with h' | h'
    · have : ∀ k ∈ Dict.keys baseSettings, k.head? ≠ some '.' := by rw [base_eq]; decide
      exact this k h'
    · obtain ⟨c, r, rfl, hc⟩ := ha.dot k h'
      simpa using hc
  have hpre : ∀ p ∈ Dict.keys env, ∀ q ∈ Dict.keys env, ¬ DottedPrefix p q := by
    intro p hp q hq hd
    rcases hb p hp with h1 | h1 <;> rcases hb q hq with h2 | h2
    · have : ∀ p ∈ Dict.keys baseSettings, ∀ q ∈ Dict.keys baseSettings, (p ++ ['.']).isPrefixOf q = false := by rw [base_eq]; decide
      obtain ⟨r, rfl⟩ := hd
      have h3 := this p h1 _ h2
      rw [show p ++ '.' :: r = (p ++ ['.']) ++ r by simp] at h3
      rw [List.isPrefixOf_iff_prefix.2 (List.prefix_append _ _)] at h3
      cases h3
    · obtain ⟨r, rfl⟩ := hd
      exact V.user _ h2 ((List.isPrefixOf_iff_prefix.1 (hbase p h1)).trans (List.prefix_append _ _))
    · obtain ⟨r, rfl⟩ := hd
      have h3 := List.isPrefixOf_iff_prefix.1 (hbase _ h2)
      have h4 : c%"mau.parser." <+: p ∨ p ++ ['.'] <+: c%"mau.parser." := by
        have h5 : p ++ ['.'] <+: p ++ '.' :: r := ⟨r, by simp⟩
        rcases Nat.le_total (p ++ ['.']).length c%"mau.parser.".length with hl | hl
        · exact .inr (List.prefix_of_prefix_length_le h5 h3 hl)
        · have h6 := List.prefix_of_prefix_length_le h3 h5 hl
          rcases List.prefix_concat_iff.1 h6 with h7 | h7
          · right; rw [h7]; exact List.prefix_refl _
          · exact .inl h7
      rcases h4 with h4 | h4
      · exact V.user _ h1 h4
      · have : ∀ n ≤ 11, ∀ q, q ++ ['.'] = c%"mau.parser.".take n → q = c%"mau" ∨ q = c%"mau.parser" := by
          intro n hn q hq
          have hq2 := congrArg List.dropLast hq
          have hq3 := congrArg List.getLast? hq
          rw [List.dropLast_concat] at hq2
          rw [List.getLast?_concat] at hq3
          have : n = 0 ∨ n = 1 ∨ n = 2 ∨ n = 3 ∨ n = 4 ∨ n = 5 ∨ n = 6 ∨ n = 7 ∨ n = 8 ∨ n = 9 ∨ n = 10 ∨ n = 11 := by omega
          rcases this with rfl | rfl | rfl | rfl | rfl | rfl | rfl | rfl | rfl | rfl | rfl | rfl <;>
            first | (exact absurd hq3 (by decide)) | (exact .inl hq2) | (exact .inr hq2)
        have hp2 := List.prefix_iff_eq_take.1 h4
        have hl : (p ++ ['.']).length ≤ 11 := h4.length_le
        rcases this _ hl p hp2 with rfl | rfl
        · exact ha.mau h1
        · exact ha.parser h1
    · exact ha.free p q h1 h2 hd
  obtain ⟨d, h1, _, _, e, h2, h3⟩ := C14_flat_round_trip env h.distinct hdot hpre
  have he : e = Env.fromDict d := by
    unfold Env.fromEnvironment at h2
    rw [h1] at h2
    injection h2 with h2
    exact h2.symm
  have hdist : Dict.Distinct e := by rw [he]; exact Dict.distinct_update Dict.distinct_nil _
  refine ⟨e, h2, EnvAll.fromEnvironment plain_empty h.plain h2, ?_, ?_, hdist⟩
  · have hn : NestedFirst d := by
      obtain ⟨rest, rfl, hr⟩ := h.base
      unfold Env.asdict at h1
      rw [nestFlat_append, base_nested] at h1
      change nestFlat rest _ = _ at h1
      refine NestedFirst.insertAll ⟨[], [], rfl, by simp, by simp⟩ ?_ h1
      intro k hk
      have hk' : V.names k := by
        rcases h.names k (by unfold Dict.keys at hk ⊢; rw [List.map_append]; exact List.mem_append_right _ hk) with h' | h'
        · rw [hr k hk] at h'; cases h'
        · exact h'
      exact ⟨ha.dot k hk', fun e => ha.mau (e ▸ hk'), fun e => ha.parser (e ▸ hk'), hr k hk⟩
    rw [he]
    exact hn.flatten.over.2
  · intro k hk
    obtain ⟨⟨k', v⟩, hm, rfl⟩ := List.mem_map.1 hk
    have := Dict.get?_of_mem hdist hm
    rw [h3] at this
    exact h.names k' (List.mem_map.2 ⟨_, Dict.mem_of_get? this, rfl⟩)

end Mau
