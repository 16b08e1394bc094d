import Verif.Lemmas.AliasBounds
import Verif.Model.DocumentParser

set_option linter.unusedSimpArgs false

/-!
# Conditions on all values of an environment

The operations on environments keep every condition which holds for all values (and for the empty dictionary).
-/

namespace Mau

/-- Every value satisfies the condition. -/
def EnvAll (P : Val → Prop) (env : Env) : Prop := ∀ k v, (k, v) ∈ env → P v

/-- Every leaf satisfies the condition. -/
inductive NAll (P : Val → Prop) : Nested → Prop where
  | leaf {v : Val} (h : P v) : NAll P (.leaf v)
  | dict {d : List (Str × Nested)} (h : ∀ k n, (k, n) ∈ d → NAll P n) : NAll P (.dict d)

section
variable {P : Val → Prop}

theorem NAll.mem {d : List (Str × Nested)} (h : NAll P (.dict d)) {k : Str} {n : Nested} (hm : (k, n) ∈ d) : NAll P n := by
  cases h with | dict h => exact h k n hm

theorem NAll.val {v : Val} (h : NAll P (.leaf v)) : P v := by cases h; assumption

theorem EnvAll.nil : EnvAll P [] := fun _ _ h => nomatch h

theorem EnvAll.update {a b : Env} (ha : EnvAll P a) (hb : EnvAll P b) : EnvAll P (Dict.update a b) := by
  intro k v hm
  rcases Dict.mem_update hm with h | h
  · exact ha k v h
  · exact hb k v h

mutual
theorem flattenVal_all (he : P .emptyDict) (key : Str) : ∀ n : Nested, NAll P n → EnvAll P (flattenVal key n)
  | .leaf w, h => by
    intro k v hm
    simp only [flattenVal, List.mem_singleton, Prod.mk.injEq] at hm
    rw [hm.2]; exact h.val
  | .dict [], _ => by
    intro k v hm
    simp only [flattenVal, List.mem_singleton, Prod.mk.injEq] at hm
    rw [hm.2]; exact he
  | .dict (kv :: kvs), h => by
    rw [flattenVal]
    exact flattenItems_all he key (kv :: kvs) [] (fun k n hm => h.mem hm) .nil
theorem flattenItems_all (he : P .emptyDict) (parent : Str) : ∀ (d : List (Str × Nested)) (flat : Dict Val), (∀ k n, (k, n) ∈ d → NAll P n) → EnvAll P flat →
    EnvAll P (flattenItems parent d flat)
  | [], flat, _, hf => by rw [flattenItems]; exact hf
  | (k0, n0) :: rest, flat, hd, hf => by
    rw [flattenItems]
    exact flattenItems_all he parent rest _ (fun k n hm => hd k n (List.mem_cons_of_mem _ hm))
      (hf.update (flattenVal_all he _ n0 (hd k0 n0 (List.mem_cons_self ..))))
end

theorem EnvAll.dupdate (he : P .emptyDict) {env : Env} (h : EnvAll P env) {d : List (Str × Nested)} (hd : ∀ k n, (k, n) ∈ d → NAll P n) (ns : Str) :
    EnvAll P (Env.dupdate env d ns) := by
  unfold Env.dupdate
  refine h.update (flattenItems_all he _ _ _ ?_ .nil)
  intro k n hm
  split at hm
  · exact hd k n hm
  · simp only [List.mem_singleton, Prod.mk.injEq] at hm
    rw [hm.2]; exact .dict hd

theorem EnvAll.setitem (he : P .emptyDict) {env : Env} (h : EnvAll P env) (k : Str) {v : Val} (hv : P v) : EnvAll P (Env.setitem env k (.leaf v)) := by
  refine h.dupdate he (fun k' n hm => ?_) _
  simp only [List.mem_singleton, Prod.mk.injEq] at hm
  rw [hm.2]; exact .leaf hv

theorem EnvAll.asItems {env : Env} (h : EnvAll P env) : ∀ k n, (k, n) ∈ Env.asItems env → NAll P n := by
  intro k n hm
  unfold Env.asItems at hm
  obtain ⟨⟨k', v⟩, hx, hxe⟩ := List.mem_map.1 hm
  injection hxe with h1 h2
  subst h2
  dsimp only
  split
  · exact .dict fun _ _ h => nomatch h
  · exact .leaf (h _ _ hx)

theorem nestInsert_all (path : List Str) {w : Val} (hw : P w) : ∀ (out out' : List (Str × Nested)), nestInsert path w out = .ok out' →
    NAll P (.dict out) → NAll P (.dict out') := by
  induction path with
  | nil => intro out out' h ho; cases h; exact ho
  | cons k path ih =>
    intro out out' h ho
    have hset : ∀ {n : Nested}, NAll P n → NAll P (.dict (Dict.set out k n)) := by
      intro n hn
      refine .dict fun k' n' hm => ?_
      rcases Dict.mem_set hm with h | h
      · injection h with _ h; rw [h]; exact hn
      · exact ho.mem h
    cases path with
    | nil =>
      unfold nestInsert at h
      cases h
      refine hset ?_
      split
      · exact .dict fun _ _ h => nomatch h
      · exact .leaf hw
    | cons k2 ks =>
      unfold nestInsert at h
      split at h
      · cases h
      · rename_i sub hsub
        split at h
        · cases h
        · rename_i sub' hs'
          cases h
          refine hset (ih sub sub' hs' ?_)
          cases hg : Dict.get? out k with
          | none =>
            rw [hg] at hsub
            cases hsub
            exact .dict fun _ _ h => nomatch h
          | some n =>
            rw [hg] at hsub
            cases hsub
            exact ho.mem (Dict.mem_of_get? hg)

theorem nestFlat_all : ∀ (e : Dict Val) (out out' : List (Str × Nested)), EnvAll P e → nestFlat e out = .ok out' →
    NAll P (.dict out) → NAll P (.dict out') := by
  intro e
  induction e with
  | nil => intro out out' _ h ho; cases h; exact ho
  | cons kv e ih =>
    intro out out' he h ho
    obtain ⟨k, w⟩ := kv
    unfold nestFlat at h
    split at h
    · cases h
    · rename_i out1 h1
      exact ih out1 out' (fun k' v hm => he k' v (List.mem_cons_of_mem _ hm)) h
        (nestInsert_all _ (he k w (List.mem_cons_self ..)) out out1 h1 ho)

theorem EnvAll.fromEnvironment (he : P .emptyDict) {env e : Env} (h : EnvAll P env) {ns : Str} (hf : Env.fromEnvironment env ns = .ok e) : EnvAll P e := by
  unfold Env.fromEnvironment at hf
  split at hf
  · cases hf
  · rename_i d hd
    cases hf
    have := nestFlat_all env [] d h hd (.dict fun _ _ h => nomatch h)
    exact EnvAll.nil.dupdate he (fun k n hm => this.mem hm) ns

theorem EnvAll.envUpdate (he : P .emptyDict) {env o : Env} (h : EnvAll P env) (ho : EnvAll P o) (ns : Str) (b : Bool) : EnvAll P (Env.update env o ns b) := by
  have hn : EnvAll P (Env.fromDict (Env.asItems o) ns) := EnvAll.nil.dupdate he ho.asItems ns
  unfold Env.update
  dsimp only
  split
  · exact h.update hn
  · exact hn.update h

theorem EnvAll.initEnv (he : P .emptyDict) (hb : EnvAll P (Env.fromDict baseEnvItems c%"mau.parser")) {env : Env} (h : EnvAll P env) : EnvAll P (initEnv env) :=
  h.envUpdate he hb _ _

end

end Mau
