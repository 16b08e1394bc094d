import Verif.Lemmas.ArgBounds

set_option linter.unusedSimpArgs false

/-!
# The arguments of an alias are values of variables
-/

namespace Mau
open Spec

/-- The text `v` is somewhere in a nested dictionary. -/
inductive StrLeaf (v : Str) : Nested → Prop where
  | here : StrLeaf v (.leaf (.str v))
  | deep {k : Str} {n : Nested} {d : List (Str × Nested)} (hm : (k, n) ∈ d) (h : StrLeaf v n) : StrLeaf v (.dict d)

mutual
theorem flattenVal_leaf (v : Str) (key : Str) : ∀ (n : Nested), ∀ k, (k, Val.str v) ∈ flattenVal key n → StrLeaf v n
  | .leaf w, k, h => by
    simp only [flattenVal, List.mem_singleton, Prod.mk.injEq] at h
    rw [← h.2]; exact .here
  | .dict [], k, h => by
    simp only [flattenVal, List.mem_singleton, Prod.mk.injEq, reduceCtorEq, and_false] at h
  | .dict (kv :: kvs), k, h => by
    rw [flattenVal] at h
    rcases flattenItems_leaf v key (kv :: kvs) [] k h with h | ⟨k', n, hm, hl⟩
    · cases h
    · exact .deep hm hl
theorem flattenItems_leaf (v : Str) (parent : Str) : ∀ (d : List (Str × Nested)) (flat : Dict Val), ∀ k, (k, Val.str v) ∈ flattenItems parent d flat →
    (k, Val.str v) ∈ flat ∨ ∃ k' n, (k', n) ∈ d ∧ StrLeaf v n
  | [], flat, k, h => .inl h
  | (k0, n0) :: rest, flat, k, h => by
    rw [flattenItems] at h
    rcases flattenItems_leaf v parent rest _ k h with h | ⟨k', n, hm, hl⟩
    · rcases Dict.mem_update h with h | h
      · exact .inl h
      · exact .inr ⟨k0, n0, by simp, flattenVal_leaf v _ n0 k h⟩
    · exact .inr ⟨k', n, by simp [hm], hl⟩
end

theorem nestInsert_leaf (v : Str) (path : List Str) (w : Val) : ∀ (out out' : List (Str × Nested)), nestInsert path w out = .ok out' →
    StrLeaf v (.dict out') → w = .str v ∨ StrLeaf v (.dict out) := by
  induction path with
  | nil => intro out out' h hl; cases h; exact .inr hl
  | cons k path ih =>
    intro out out' h hl
    cases path with
    | nil =>
      unfold nestInsert at h
      injection h with h
      subst h
      cases hl with
      | deep hm hl =>
        rcases Dict.mem_set hm with e | hm
        · injection e with e1 e2
          subst e2
          cases w with
          | str s => cases hl; exact .inl rfl
          | emptyDict => cases hl with | deep hm _ => cases hm
          | list _ _ => cases hl
          | other _ => cases hl
        · exact .inr (.deep hm hl)
    | cons k2 ks =>
      rw [nestInsert] at h
      split at h
      · cases h
      · rename_i sub hsub
        split at h
        · cases h
        · rename_i sub' hs
          cases h
          cases hl with
          | deep hm hl =>
            rcases Dict.mem_set hm with e | hm
            · injection e with e1 e2
              subst e2
              rcases ih sub sub' hs hl with h | h
              · exact .inl h
              · right
                cases hg : Dict.get? out k with
                | none => rw [hg] at hsub; cases hsub; cases h with | deep hm _ => cases hm
                | some n =>
                  rw [hg] at hsub
                  cases hsub
                  exact .deep (Dict.mem_of_get? hg) h
            · exact .inr (.deep hm hl)

theorem nestFlat_leaf (v : Str) : ∀ (e : Dict Val) (out out' : List (Str × Nested)), nestFlat e out = .ok out' →
    StrLeaf v (.dict out') → (∃ k, (k, Val.str v) ∈ e) ∨ StrLeaf v (.dict out) := by
  intro e
  induction e with
  | nil => intro out out' h hl; cases h; exact .inr hl
  | cons kv e ih =>
    intro out out' h hl
    obtain ⟨k, w⟩ := kv
    rw [nestFlat] at h
    split at h
    · cases h
    · rename_i out1 h1
      rcases ih out1 out' h hl with ⟨k', hk⟩ | hl
      · exact .inl ⟨k', by simp [hk]⟩
      · rcases nestInsert_leaf v _ w out out1 h1 hl with rfl | hl
        · exact .inl ⟨k, by simp⟩
        · exact .inr hl

theorem aliasArgs_leaf : ∀ (l : List (Str × Nested)) (d : Dict Str), aliasArgs l = .ok d → ∀ k v, (k, v) ∈ d → StrLeaf v (.dict l) := by
  intro l
  induction l with
  | nil => intro d h k v hm; cases h; cases hm
  | cons x l ih =>
    intro d h k v hm
    obtain ⟨k0, n0⟩ := x
    cases n0 with
    | dict _ => cases h
    | leaf w =>
      cases w with
      | str s =>
        unfold aliasArgs at h
        cases hr : aliasArgs l with
        | error e => rw [hr] at h; cases h
        | ok d' =>
          rw [hr] at h
          cases h
          rcases List.mem_cons.1 hm with e | hm
          · injection e with e1 e2
            subst e2
            exact .deep (k := k0) (List.mem_cons_self ..) .here
          · cases ih d' hr k v hm with
            | deep hm' hl => exact .deep (List.mem_cons_of_mem _ hm') hl
      | emptyDict => cases h
      | list _ _ => cases h
      | other _ => cases h

theorem get_namespace_mem {env e : Env} {key v : Str} (h : Env.get env key = .namespace e) {k : Str} (hm : (k, Val.str v) ∈ e) :
    ∃ k', (key ++ '.' :: k', Val.str v) ∈ env := by
  unfold Env.get at h
  split at h
  · cases h
  · dsimp only at h
    split at h
    · cases h
    · injection h with h
      subst h
      unfold Env.fromDict Env.dupdate at hm
      rcases Dict.mem_update hm with hm | hm
      · cases hm
      · simp only [List.isEmpty_nil, if_true] at hm
        unfold flattenNested at hm
        rcases flattenItems_leaf v _ _ _ _ hm with hm | ⟨k', n, hm, hl⟩
        · cases hm
        · unfold Env.asItems at hm
          obtain ⟨x, hx, hxe⟩ := List.mem_map.1 hm
          obtain ⟨y, hy, rfl⟩ := List.mem_map.1 hx
          obtain ⟨hy1, hy2⟩ := List.mem_filter.1 hy
          injection hxe with h1 h2
          subst h2
          obtain ⟨yk, yv⟩ := y
          dsimp only at hl hy1 hy2
          have : yv = .str v := by
            cases yv with
            | str s => cases hl; rfl
            | emptyDict => cases hl with | deep hm _ => cases hm
            | list _ _ => cases hl
            | other _ => cases hl
          subst this
          unfold startsWith at hy2
          rw [List.isPrefixOf_iff_prefix] at hy2
          obtain ⟨r, hr⟩ := hy2
          refine ⟨r, ?_⟩
          rw [show key ++ '.' :: r = yk by rw [← hr]; simp]
          exact hy1

/-- The arguments of an alias are values of variables below `mau.parser.aliases`. -/
theorem alias_value {env : Env} {name k v : Str} {a : Alias} (h : lookupAlias env name = .ok a) (hk : Dict.get? a.args k = some v) :
    ∃ key, (c%"mau.parser.aliases." ++ key, Val.str v) ∈ env := by
  have hm := Dict.mem_of_get? hk
  unfold lookupAlias at h
  cases hg : Env.get env c%"mau.parser.aliases" with
  | default =>
    rw [hg] at h
    cases h
  | value w =>
    rw [hg] at h
    cases h
  | «namespace» e =>
    rw [hg] at h
    dsimp only at h
    cases had : Env.asdict e with
    | error x => rw [had] at h; cases h
    | ok repl =>
      rw [had] at h
      simp only [Bind.bind, Except.bind] at h
      split at h
      · cases h
      · cases h
      · rename_i d hd
        have hargs : StrLeaf v (.dict d) := by
          cases hq : Dict.get? d c%"args" with
          | none =>
            rw [hq] at h
            dsimp only [Pure.pure, Except.pure] at h
            exfalso
            revert h
            repeat' split
            all_goals first | (intro h; cases h; done) | (intro h; cases h; cases hm)
          | some n =>
            rw [hq] at h
            cases n with
            | leaf w => cases h
            | dict a' =>
              dsimp only at h
              cases ha : aliasArgs a' with
              | error x => rw [ha] at h; cases h
              | ok args =>
                rw [ha] at h
                dsimp only [Pure.pure, Except.pure, Bind.bind, Except.bind] at h
                have : a.args = args := by
                  revert h
                  repeat' split
                  all_goals first | (intro h; cases h; done) | (intro h; cases h; rfl)
                exact .deep (Dict.mem_of_get? hq) (aliasArgs_leaf a' args ha k v (this ▸ hm))
        rcases nestFlat_leaf v e [] repl had (.deep (Dict.mem_of_get? hd) hargs) with ⟨k', hk'⟩ | hl
        · obtain ⟨k'', hk''⟩ := get_namespace_mem hg hk'
          exact ⟨k'', by simpa using hk''⟩
        · cases hl with | deep hm _ => cases hm

end Mau
