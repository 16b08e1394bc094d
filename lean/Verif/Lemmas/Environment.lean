import Verif.Spec.Environment
import Verif.Lemmas.Str

set_option linter.unusedSimpArgs false

/-! # Lemmas about flattening and nesting -/

namespace Mau
open Spec

/-- The flat key of a path below a parent key. -/
def pjoin (parent : Str) (p : List Str) : Str := p.foldl joinKey parent

@[simp] theorem pjoin_nil (k : Str) : pjoin k [] = k := rfl
@[simp] theorem pjoin_cons (k s : Str) (p : List Str) : pjoin k (s :: p) = pjoin (joinKey k s) p := rfl

theorem joinKey_ne {k : Str} (h : k ≠ []) (s : Str) : joinKey k s = k ++ '.' :: s := by
  simp [joinKey, h]

theorem joinKey_nil (s : Str) : joinKey [] s = s := rfl

theorem pjoin_of_ne {k : Str} (h : k ≠ []) (p : List Str) : pjoin k p = joinWith ['.'] (k :: p) := by
  induction p generalizing k with
  | nil => rfl
  | cons s p ih =>
    have h1 : joinKey k s ≠ [] := by simp [joinKey_ne h]
    rw [pjoin_cons, ih h1, joinKey_ne h]
    cases p with
    | nil => simp [joinWith]
    | cons a p => simp [joinWith]

theorem pjoin_keyPath {k : Str} (h : k.head? ≠ some '.') : pjoin [] (keyPath k) = k := by
  unfold keyPath
  have hj := join_split '.' k
  cases hs : splitChar '.' k with
  | nil => exact absurd hs (splitChar_ne_nil _ _)
  | cons s ss =>
    rw [hs] at hj
    rw [pjoin_cons, joinKey_nil]
    by_cases h0 : s = []
    · subst h0
      cases ss with
      | nil => simpa [joinWith] using hj
      | cons a as => simp [joinWith] at hj; rw [← hj] at h; simp at h
    · rw [pjoin_of_ne h0, hj]

theorem keyPath_ne_nil (k : Str) : keyPath k ≠ [] := splitChar_ne_nil _ _

theorem keyPath_inj {a b : Str} (h : keyPath a = keyPath b) : a = b := by
  rw [← join_split '.' a, ← join_split '.' b]
  exact congrArg _ h

theorem keyPath_append (p r : Str) : keyPath (p ++ '.' :: r) = keyPath p ++ keyPath r := by
  unfold keyPath
  induction p with
  | nil => simp
  | cons c p ih =>
    by_cases h : c = '.'
    · subst h; simp [ih]
    · obtain ⟨l, ls, h1, h2⟩ := splitChar_cons_ne h p
      obtain ⟨l', ls', h3, h4⟩ := splitChar_cons_ne h (p ++ '.' :: r)
      rw [List.cons_append, h4, h2]
      rw [ih, h1] at h3
      simp at h3
      simp [h3]

theorem joinWith_append {a b : List Str} (ha : a ≠ []) (hb : b ≠ []) :
    joinWith ['.'] (a ++ b) = joinWith ['.'] a ++ '.' :: joinWith ['.'] b := by
  induction a with
  | nil => exact absurd rfl ha
  | cons x a ih =>
    cases a with
    | nil =>
      rw [List.singleton_append, joinWith_cons_of_ne hb]
      simp [joinWith]
    | cons y a =>
      have := ih (by simp)
      rw [List.cons_append, joinWith_cons_of_ne (by simp), this, joinWith_cons_of_ne (l := x) (ls := y :: a) (by simp)]
      simp

/-- A proper prefix of a path is a dotted prefix of the name. -/
theorem dotted_of_prefix {a b : Str} (h : keyPath a <+: keyPath b) : a = b ∨ DottedPrefix a b := by
  obtain ⟨t, ht⟩ := h
  by_cases h0 : t = []
  · subst h0; exact .inl (keyPath_inj (by simpa using ht))
  · right
    refine ⟨joinWith ['.'] t, ?_⟩
    have hb := join_split '.' b
    have ha := join_split '.' a
    change joinWith ['.'] (keyPath b) = b at hb
    change joinWith ['.'] (keyPath a) = a at ha
    rw [← hb, ← ht, joinWith_append (keyPath_ne_nil a) h0, ha]

/-- All keys of a nested value are distinct, at every level. -/
inductive DistinctN : Nested → Prop
  | leaf (v : Val) : DistinctN (.leaf v)
  | dict (d : List (Str × Nested)) (hd : Dict.Distinct d) (hs : ∀ kv ∈ d, DistinctN kv.2) :
      DistinctN (.dict d)

theorem distinctN_of_get? {d : List (Str × Nested)} (h : DistinctN (.dict d)) {k : Str} {n : Nested}
    (hk : Dict.get? d k = some n) : DistinctN n := by
  cases h with
  | dict _ _ hs => exact hs _ (Dict.mem_of_get? hk)

theorem distinctN_set {d : List (Str × Nested)} (h : DistinctN (.dict d)) (k : Str) {n : Nested}
    (hn : DistinctN n) : DistinctN (.dict (Dict.set d k n)) := by
  cases h with
  | dict _ hd hs =>
    refine .dict _ (Dict.distinct_set hd _ _) ?_
    rintro ⟨k', n'⟩ hm
    have := Dict.get?_of_mem (Dict.distinct_set hd k n) hm
    rw [Dict.get?_set] at this
    split at this
    · cases this; exact hn
    · exact hs _ (Dict.mem_of_get? this)

theorem at?_cons (k : Str) (ks : List Str) (d : List (Str × Nested)) :
    at? (k :: ks) (.dict d) = (Dict.get? d k).bind (at? ks) := by
  simp only [at?]; cases Dict.get? d k <;> rfl

/-- `p` and `q` are comparable: one is a prefix of the other one. -/
def Comp (p q : List Str) : Prop := p <+: q ∨ q <+: p

theorem comp_cons {k : Str} {p q : List Str} : Comp (k :: p) (k :: q) ↔ Comp p q := by
  simp [Comp]

theorem at?_empty {p : List Str} (h : p ≠ []) : at? p (.dict []) = none := by
  cases p with
  | nil => exact absurd rfl h
  | cons k p => simp [at?]

/-- Inserting a value at a path with which no stored path is comparable. -/
theorem nestInsert_spec (path : List Str) (v : Val) (out : List (Str × Nested)) (hp : path ≠ [])
    (hout : DistinctN (.dict out))
    (hfree : ∀ p, p ≠ [] → Comp p path → at? p (.dict out) = none) :
    ∃ out', nestInsert path v out = .ok out' ∧ DistinctN (.dict out') ∧
      ∀ p, p ≠ [] → at? p (.dict out') = if p = path then some v else at? p (.dict out) := by
  induction path generalizing out with
  | nil => exact absurd rfl hp
  | cons k ks ih =>
    cases ks with
    | nil =>
      refine ⟨_, rfl, distinctN_set hout _ ?_, ?_⟩
      · cases v <;> first | exact .leaf _ | exact .dict _ Dict.distinct_nil (by simp)
      · intro p hp0
        cases p with
        | nil => exact absurd rfl hp0
        | cons k' ks' =>
          rw [at?_cons, Dict.get?_set]
          by_cases h : k = k'
          · subst h
            cases ks' with
            | nil => cases v <;> simp [at?]
            | cons a as =>
              have := hfree (k :: a :: as) (by simp) (.inr (by simp))
              rw [this]
              cases v <;> simp [at?]
          · simp only [h, if_false]
            have h' : ¬ k' = k := fun h2 => h h2.symm
            simp [at?_cons, h']
    | cons k2 ks =>
      simp only [nestInsert]
      cases hg : (Dict.get? out k).getD (.dict []) with
      | leaf w =>
        cases hg2 : Dict.get? out k with
        | none => simp [hg2] at hg
        | some n =>
          simp [hg2] at hg
          subst hg
          have := hfree [k] (by simp) (.inl (by simp))
          simp [at?, hg2] at this
      | dict sub =>
        have hsub : DistinctN (.dict sub) := by
          cases hg2 : Dict.get? out k with
          | none => simp [hg2] at hg; subst hg; exact .dict _ Dict.distinct_nil (by simp)
          | some n => simp [hg2] at hg; subst hg; exact distinctN_of_get? hout hg2
        have hat : ∀ p, p ≠ [] → at? (k :: p) (.dict out) = at? p (.dict sub) := by
          intro p hp0
          rw [at?_cons]
          cases hg2 : Dict.get? out k with
          | none => simp [hg2] at hg; subst hg; simp [at?_empty hp0]
          | some n => simp [hg2] at hg; subst hg; simp
        obtain ⟨sub', h1, h2, h3⟩ := ih sub (by simp) hsub (by
          intro p hp0 hc
          rw [← hat p hp0]
          exact hfree _ (by simp) (comp_cons.2 hc))
        refine ⟨_, by simp only [h1]; rfl, distinctN_set hout _ h2, ?_⟩
        intro p hp0
        cases p with
        | nil => exact absurd rfl hp0
        | cons k' ks' =>
          rw [at?_cons, Dict.get?_set]
          by_cases h : k = k'
          · subst h
            cases ks' with
            | nil =>
              have := hfree [k] (by simp) (.inl (by simp))
              rw [this]
              have hne : sub' ≠ [] := by
                rintro rfl
                have := h3 (k2 :: ks) (by simp)
                simp [at?] at this
              cases sub' with
              | nil => exact absurd rfl hne
              | cons a as => simp [at?]
            | cons a as =>
              simp only [if_true, Option.bind_some]
              rw [h3 _ (by simp), hat _ (by simp)]
              simp
          · simp only [h, if_false]
            have h' : ¬ k' = k := fun h2 => h h2.symm
            simp [at?_cons, h']

/-- Nesting variables of which no two are comparable. -/
theorem nestFlat_spec (e : Dict Val) (out : List (Str × Nested)) (hout : DistinctN (.dict out))
    (hfree : ∀ kv ∈ e, ∀ p, p ≠ [] → Comp p (keyPath kv.1) → at? p (.dict out) = none)
    (hpw : e.Pairwise fun a b => ¬ Comp (keyPath a.1) (keyPath b.1)) :
    ∃ out', nestFlat e out = .ok out' ∧ DistinctN (.dict out') ∧
      ∀ p v, p ≠ [] → (at? p (.dict out') = some v ↔
        (∃ k, (k, v) ∈ e ∧ keyPath k = p) ∨ at? p (.dict out) = some v) := by
  induction e generalizing out with
  | nil => exact ⟨out, rfl, hout, by simp⟩
  | cons kv e ih =>
    obtain ⟨k, w⟩ := kv
    obtain ⟨out1, h1, h2, h3⟩ := nestInsert_spec (keyPath k) w out (keyPath_ne_nil k) hout
      (hfree (k, w) (by simp))
    rw [List.pairwise_cons] at hpw
    obtain ⟨out2, h4, h5, h6⟩ := ih out1 h2 (by
      intro kv hm p hp hc
      rw [h3 p hp]
      split
      · rename_i h; subst h
        exact absurd hc (hpw.1 kv hm)
      · exact hfree kv (by simp [hm]) p hp hc) hpw.2
    refine ⟨out2, ?_, h5, ?_⟩
    · simp [nestFlat, h1, h4]
    · intro p v hp
      rw [h6 p v hp, h3 p hp]
      constructor
      · rintro (⟨k', hm, rfl⟩ | h)
        · exact .inl ⟨k', by simp [hm], rfl⟩
        · split at h
          · rename_i h'; cases h; exact .inl ⟨k, by simp, h'.symm⟩
          · exact .inr h
      · rintro (⟨k', hm, rfl⟩ | h)
        · rcases List.mem_cons.1 hm with hm | hm
          · cases hm; exact .inr (by simp)
          · exact .inl ⟨k', hm, rfl⟩
        · right
          split
          · rename_i h'; subst h'
            rw [hfree (k, w) (by simp) _ hp (.inl (by simp))] at h
            cases h
          · exact h

/-- `pjoin` does not identify two stored paths. -/
def InjOn (parent : Str) (n : Nested) : Prop :=
  ∀ p q v w, at? p n = some v → at? q n = some w → pjoin parent p = pjoin parent q → p = q

theorem at?_dict_cons (k : Str) (n : Nested) (d : List (Str × Nested)) (p : List Str) (hp : p ≠ []) :
    at? p (.dict ((k, n) :: d)) =
      if p.head? = some k then at? p.tail n else at? p (.dict d) := by
  cases p with
  | nil => exact absurd rfl hp
  | cons a p =>
    simp only [at?_cons, Dict.get?_cons, List.head?_cons, Option.some.injEq, List.tail_cons]
    by_cases h : k = a
    · subst h; simp
    · have : ¬ a = k := fun h2 => h h2.symm
      simp [h, this]

mutual
/-- Flattening a value: exactly its paths. -/
theorem flattenVal_spec (key : Str) (n : Nested) (hn : DistinctN n) (hi : InjOn key n) :
    Dict.Distinct (flattenVal key n) ∧
    ∀ k v, Dict.get? (flattenVal key n) k = some v ↔ ∃ p, at? p n = some v ∧ pjoin key p = k := by
  match n with
  | .leaf w =>
    refine ⟨by simp [flattenVal, Dict.Distinct, Dict.keys], ?_⟩
    intro k v
    simp only [flattenVal, Dict.get?_cons, Dict.get?_nil]
    constructor
    · intro h
      split at h
      · rename_i hk; cases h; exact ⟨[], rfl, hk⟩
      · cases h
    · rintro ⟨p, h1, h2⟩
      cases p with
      | nil => simp [at?] at h1; simp at h2; simp [h1, h2]
      | cons a p => simp [at?] at h1
  | .dict [] =>
    refine ⟨by simp [flattenVal, Dict.Distinct, Dict.keys], ?_⟩
    intro k v
    simp only [flattenVal, Dict.get?_cons, Dict.get?_nil]
    constructor
    · intro h
      split at h
      · rename_i hk; cases h; exact ⟨[], rfl, hk⟩
      · cases h
    · rintro ⟨p, h1, h2⟩
      cases p with
      | nil => simp [at?] at h1; simp at h2; simp [h1, h2]
      | cons a p => simp [at?] at h1
  | .dict (kv :: kvs) =>
    have := flattenItems_spec key (kv :: kvs) [] hn hi Dict.distinct_nil
    refine ⟨this.1, ?_⟩
    intro k v
    rw [flattenVal, this.2 k v]
    constructor
    · rintro (⟨p, _, h, h'⟩ | ⟨_, h⟩)
      · exact ⟨p, h, h'⟩
      · cases h
    · rintro ⟨p, h1, h2⟩
      refine .inl ⟨p, ?_, h1, h2⟩
      rintro rfl
      simp [at?] at h1
theorem flattenItems_spec (parent : Str) (d : List (Str × Nested)) (flat : Dict Val)
    (hn : DistinctN (.dict d)) (hi : InjOn parent (.dict d)) (hf : Dict.Distinct flat) :
    Dict.Distinct (flattenItems parent d flat) ∧
    ∀ k v, Dict.get? (flattenItems parent d flat) k = some v ↔
      (∃ p, p ≠ [] ∧ at? p (.dict d) = some v ∧ pjoin parent p = k) ∨
      ((∀ p w, p ≠ [] → at? p (.dict d) = some w → pjoin parent p ≠ k) ∧ Dict.get? flat k = some v) := by
  match d with
  | [] =>
    refine ⟨by simpa [flattenItems] using hf, ?_⟩
    intro k v
    simp only [flattenItems]
    constructor
    · intro h
      exact .inr ⟨fun p w hp hat => (by rw [at?_empty hp] at hat; cases hat), h⟩
    · rintro (⟨p, hp, hat, _⟩ | ⟨_, h⟩)
      · rw [at?_empty hp] at hat; cases hat
      · exact h
  | (k0, n0) :: rest =>
    have hd0 : Dict.Distinct ((k0, n0) :: rest) := by cases hn; assumption
    have hnot : k0 ∉ Dict.keys rest := by
      simp only [Dict.Distinct, Dict.keys, List.map_cons, List.nodup_cons] at hd0
      exact hd0.1
    have hn0 : DistinctN n0 := by cases hn with | dict _ _ hs => exact hs (k0, n0) (by simp)
    have hnr : DistinctN (.dict rest) := by
      cases hn with
      | dict _ hd hs =>
        refine .dict _ ?_ (fun kv h => hs kv (by simp [h]))
        simp only [Dict.Distinct, Dict.keys, List.map_cons, List.nodup_cons] at hd
        exact hd.2
    have hat0 : ∀ p, at? (k0 :: p) (.dict ((k0, n0) :: rest)) = at? p n0 := by
      intro p; rw [at?_dict_cons _ _ _ _ (by simp)]; simp
    have hhead : ∀ p v, p ≠ [] → at? p (.dict rest) = some v → p.head? ≠ some k0 := by
      intro p v hp h
      cases p with
      | nil => exact absurd rfl hp
      | cons a p =>
        simp only [List.head?_cons]
        rintro ⟨⟩
        rw [at?_cons, Dict.get?_none_iff.2 hnot] at h
        cases h
    have hatr : ∀ p v, p ≠ [] → at? p (.dict rest) = some v →
        at? p (.dict ((k0, n0) :: rest)) = some v := by
      intro p v hp h
      rw [at?_dict_cons _ _ _ _ hp, if_neg (hhead p v hp h), h]
    have hi0 : InjOn (joinKey parent k0) n0 := by
      intro p q v w h1 h2 h3
      have := hi (k0 :: p) (k0 :: q) v w (by rw [hat0]; exact h1) (by rw [hat0]; exact h2) h3
      simpa using this
    have hir : InjOn parent (.dict rest) := by
      intro p q v w h1 h2 h3
      by_cases hp : p = []
      · by_cases hq : q = []
        · rw [hp, hq]
        · subst hp
          cases rest with
          | nil => rw [at?_empty hq] at h2; cases h2
          | cons a b => simp [at?] at h1
      · by_cases hq : q = []
        · subst hq
          cases rest with
          | nil => rw [at?_empty hp] at h1; cases h1
          | cons a b => simp [at?] at h2
        · exact hi p q v w (hatr p v hp h1) (hatr q w hq h2) h3
    have hv := flattenVal_spec (joinKey parent k0) n0 hn0 hi0
    have hI := flattenItems_spec parent rest (flat.update (flattenVal (joinKey parent k0) n0)) hnr hir
      (Dict.distinct_update hf _)
    rw [flattenItems]
    refine ⟨hI.1, ?_⟩
    intro k v
    rw [hI.2 k v, Dict.get?_update _ hv.1]
    constructor
    · rintro (⟨p, hp, h1, h2⟩ | ⟨hno, h⟩)
      · exact .inl ⟨p, hp, hatr p v hp h1, h2⟩
      · cases hg : Dict.get? (flattenVal (joinKey parent k0) n0) k with
        | some w =>
          simp only [hg, Option.some_or, Option.some.injEq] at h
          subst h
          obtain ⟨p, h1, h2⟩ := (hv.2 k w).1 hg
          exact .inl ⟨k0 :: p, by simp, by rw [hat0]; exact h1, h2⟩
        | none =>
          simp only [hg, Option.none_or] at h
          refine .inr ⟨?_, h⟩
          intro p w hp hat hj
          rw [at?_dict_cons _ _ _ _ hp] at hat
          split at hat
          · rename_i hh
            cases p with
            | nil => exact hp rfl
            | cons a p =>
              simp at hh; subst hh
              have := (hv.2 k w).2 ⟨p, hat, hj⟩
              rw [hg] at this; cases this
          · exact hno p w hp hat hj
    · rintro (⟨p, hp, h1, h2⟩ | ⟨hno, h⟩)
      · have h1' := h1
        rw [at?_dict_cons _ _ _ _ hp] at h1
        split at h1
        · rename_i hh
          right
          refine ⟨?_, ?_⟩
          · intro q w hq hatq hj
            have := hi p q v w h1' (hatr q w hq hatq) (by rw [h2, hj])
            subst this
            exact hhead p w hq hatq hh
          · cases p with
            | nil => exact absurd rfl hp
            | cons a p =>
              simp at hh; subst hh
              rw [(hv.2 k v).2 ⟨p, h1, h2⟩]; rfl
        · exact .inl ⟨p, hp, h1, h2⟩
      · right
        refine ⟨fun p w hp hat => hno p w hp (hatr p w hp hat), ?_⟩
        cases hg : Dict.get? (flattenVal (joinKey parent k0) n0) k with
        | none => simpa using h
        | some w =>
          obtain ⟨p, h1, h2⟩ := (hv.2 k w).1 hg
          exact absurd h2 (hno (k0 :: p) w (by simp) (by rw [hat0]; exact h1))
end

theorem flattenNested_spec (d : List (Str × Nested)) (hn : DistinctN (.dict d)) (hi : InjOn [] (.dict d)) :
    Dict.Distinct (flattenNested d) ∧ ∀ k v, Dict.get? (flattenNested d) k = some v ↔
      ∃ p, p ≠ [] ∧ at? p (.dict d) = some v ∧ pjoin [] p = k := by
  have := flattenItems_spec [] d [] hn hi Dict.distinct_nil
  refine ⟨this.1, fun k v => ?_⟩
  rw [flattenNested, this.2]
  simp

end Mau
