import Verif.Model.Environment

set_option linter.unusedSimpArgs false

/-! # Lemmas about ordered dictionaries -/

namespace Mau
namespace Dict

variable {α : Type}

/-- The keys of a Python dictionary are distinct. -/
def Distinct (d : Dict α) : Prop := d.keys.Nodup

@[simp] theorem get?_nil (k : Str) : get? ([] : Dict α) k = none := rfl

theorem get?_cons (k' : Str) (v : α) (d : Dict α) (k : Str) :
    get? ((k', v) :: d) k = if k' = k then some v else get? d k := rfl

theorem get?_set (d : Dict α) (k : Str) (v : α) (k' : Str) :
    get? (set d k v) k' = if k = k' then some v else get? d k' := by
  induction d with
  | nil => simp [set, get?]
  | cons kv d ih =>
    obtain ⟨a, b⟩ := kv
    simp only [set]
    split
    · rename_i h; subst h
      simp only [get?]
      split <;> rfl
    · rename_i h
      simp only [get?, ih]
      by_cases h1 : a = k' <;> by_cases h2 : k = k' <;> simp [h1, h2]
      subst h1; subst h2; exact absurd rfl h

theorem mem_of_get? {d : Dict α} {k : Str} {v : α} (h : get? d k = some v) : (k, v) ∈ d := by
  induction d with
  | nil => cases h
  | cons kv d ih =>
    obtain ⟨a, b⟩ := kv
    simp only [get?] at h
    split at h
    · rename_i h1; cases h; subst h1; simp
    · exact List.mem_cons_of_mem _ (ih h)

theorem get?_none_iff {d : Dict α} {k : Str} : get? d k = none ↔ k ∉ d.keys := by
  induction d with
  | nil => simp [keys]
  | cons kv d ih =>
    obtain ⟨a, b⟩ := kv
    simp only [get?, keys, List.map_cons, List.mem_cons]
    split
    · rename_i h1; subst h1; simp
    · rename_i h1
      rw [ih]
      simp only [keys, not_or]
      exact ⟨fun h => ⟨fun h2 => h1 h2.symm, h⟩, fun h => h.2⟩

theorem get?_of_mem {d : Dict α} (hd : Distinct d) {k : Str} {v : α} (h : (k, v) ∈ d) :
    get? d k = some v := by
  induction d with
  | nil => cases h
  | cons kv d ih =>
    obtain ⟨a, b⟩ := kv
    simp only [Distinct, keys, List.map_cons, List.nodup_cons] at hd
    simp only [get?]
    split
    · rename_i h1; subst h1
      rcases List.mem_cons.1 h with h | h
      · cases h; rfl
      · exact absurd (List.mem_map.2 ⟨_, h, rfl⟩) hd.1
    · rename_i h1
      rcases List.mem_cons.1 h with h | h
      · cases h; exact absurd rfl h1
      · exact ih hd.2 h

theorem get?_iff_mem {d : Dict α} (hd : Distinct d) {k : Str} {v : α} :
    get? d k = some v ↔ (k, v) ∈ d := ⟨mem_of_get?, get?_of_mem hd⟩

theorem keys_set (d : Dict α) (k : Str) (v : α) :
    (set d k v).keys = if k ∈ d.keys then d.keys else d.keys ++ [k] := by
  induction d with
  | nil => simp [set, keys]
  | cons kv d ih =>
    obtain ⟨a, b⟩ := kv
    simp only [set]
    split
    · rename_i h; subst h; simp [keys]
    · rename_i h
      simp only [keys, List.map_cons] at ih ⊢
      rw [ih]
      have : ¬ k = a := fun h2 => h h2.symm
      by_cases hk : k ∈ List.map (fun x => x.1) d <;> simp only [List.mem_cons, this, false_or, hk, if_true, if_false] <;> rfl

theorem distinct_nil : Distinct ([] : Dict α) := by simp [Distinct, keys]

theorem distinct_set {d : Dict α} (hd : Distinct d) (k : Str) (v : α) : Distinct (set d k v) := by
  unfold Distinct
  rw [keys_set]
  split
  · exact hd
  · rename_i h
    rw [List.nodup_append]
    exact ⟨hd, by simp, by
      intro a ha b hb
      simp at hb; subst hb
      rintro rfl; exact h ha⟩

theorem distinct_update {d : Dict α} (hd : Distinct d) (e : Dict α) : Distinct (update d e) := by
  unfold update
  induction e generalizing d with
  | nil => exact hd
  | cons kv e ih => exact ih (distinct_set hd _ _)

theorem get?_append (d e : Dict α) (k : Str) :
    get? (d ++ e) k = (get? d k).or (get? e k) := by
  induction d with
  | nil => simp
  | cons kv d ih =>
    obtain ⟨a, b⟩ := kv
    simp only [List.cons_append, get?]
    split <;> simp [ih]

/-- `d.update(e)`: the keys of `e` have the values of `e`, the others are unchanged. -/
theorem get?_update (d : Dict α) {e : Dict α} (he : Distinct e) (k : Str) :
    get? (update d e) k = (get? e k).or (get? d k) := by
  unfold update
  induction e generalizing d with
  | nil => simp
  | cons kv e ih =>
    obtain ⟨a, b⟩ := kv
    simp only [Distinct, keys, List.map_cons, List.nodup_cons] at he
    rw [List.foldl_cons, ih _ he.2, get?_set]
    simp only [get?]
    by_cases h : a = k
    · subst h
      have : get? e a = none := get?_none_iff.2 he.1
      simp [this]
    · simp [h]

theorem set_of_not_mem {d : Dict α} {k : Str} (h : k ∉ d.keys) (v : α) : set d k v = d ++ [(k, v)] := by
  induction d with
  | nil => rfl
  | cons kv d ih =>
    obtain ⟨a, b⟩ := kv
    simp only [keys, List.map_cons, List.mem_cons, not_or] at h
    simp only [set]
    rw [if_neg (fun h2 => h.1 h2.symm), ih h.2]
    rfl

theorem update_append {d e : Dict α} (h : Distinct (d ++ e)) : update d e = d ++ e := by
  unfold update
  induction e generalizing d with
  | nil => simp
  | cons kv e ih =>
    obtain ⟨a, b⟩ := kv
    have h1 : a ∉ d.keys := by
      simp only [Distinct, keys, List.map_append, List.map_cons, List.nodup_append] at h
      intro h2
      exact h.2.2 a h2 a (by simp) rfl
    rw [List.foldl_cons, set_of_not_mem h1, ih (by simpa using h)]
    simp

theorem update_nil_left {e : Dict α} (h : Distinct e) : update [] e = e := by
  rw [update_append (by simpa using h)]; rfl

theorem get?_erase (d : Dict α) (k k' : Str) :
    get? (erase d k) k' = if k = k' then none else get? d k' := by
  induction d with
  | nil => simp [erase]
  | cons kv d ih =>
    obtain ⟨a, b⟩ := kv
    simp only [erase, List.filter_cons] at ih ⊢
    by_cases h : a = k
    · subst h
      simp only [ne_eq, not_true_eq_false, decide_false, Bool.false_eq_true, if_false, ih, get?]
      split <;> simp_all
    · simp only [ne_eq, h, not_false_eq_true, decide_true, if_true, get?, ih]
      by_cases h1 : a = k'
      · subst h1; simp [Ne.symm h, h]
      · simp [h1]

end Dict
theorem Dict.mem_set {α : Type} {d : Dict α} {k : Str} {v : α} {e : Str × α} (h : e ∈ Dict.set d k v) : e = (k, v) ∨ e ∈ d := by
  induction d with
  | nil =>
    unfold Dict.set at h
    rw [List.mem_singleton] at h
    exact .inl h
  | cons x d ih =>
    obtain ⟨k', v'⟩ := x
    unfold Dict.set at h
    split at h
    · rename_i hk
      subst hk
      rcases List.mem_cons.1 h with h | h
      · exact .inl h
      · exact .inr (List.mem_cons_of_mem _ h)
    · rcases List.mem_cons.1 h with h | h
      · exact .inr (h ▸ List.mem_cons_self)
      · rcases ih h with h | h
        · exact .inl h
        · exact .inr (List.mem_cons_of_mem _ h)

theorem Dict.mem_update {α : Type} {d e : Dict α} {x : Str × α} (h : x ∈ Dict.update d e) : x ∈ d ∨ x ∈ e := by
  unfold Dict.update at h
  induction e generalizing d with
  | nil => exact .inl h
  | cons y e ih =>
    rcases ih h with h | h
    · rcases Dict.mem_set h with rfl | h
      · exact .inr List.mem_cons_self
      · exact .inl h
    · exact .inr (List.mem_cons_of_mem _ h)

end Mau
