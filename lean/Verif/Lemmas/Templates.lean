import Verif.Spec.Templates
import Verif.Lemmas.Dict
import Verif.Lemmas.Str

set_option linter.unusedSimpArgs false

/-!
# Lemmas about templates
-/

namespace Mau
open Spec

theorem specificity_rank (t : Template) : t.specificity = rank t := by
  have one : ∀ c : Option Str, (if truthyOpt c = true then 1 else 0) = countOne c := by
    intro c
    rcases c with _ | _ | ⟨a, b⟩ <;> rfl
  unfold Template.specificity rank
  rw [one, one, one, one]

theorem claimMatch_iff (c v : Option Str) : claimMatch c v = true ↔ Claims c v := by
  unfold claimMatch Claims
  rcases c with _ | _ | ⟨a, b⟩
  · simp [truthyOpt]
  · simp [truthyOpt]
  · have : truthyOpt (some (a :: b)) = true := rfl
    rw [this]
    simp only [Bool.not_true, Bool.false_or, beq_iff_eq]
    constructor
    · rintro rfl s hs _; exact hs
    · intro h; exact (h _ rfl (by simp)).symm

theorem customMatch_iff (c f : Dict Str) :
    customMatch c f = true ↔ ∀ kv ∈ c, Dict.get? f kv.1 = some kv.2 := by
  unfold customMatch
  rw [List.all_eq_true]
  simp only [beq_iff_eq]

theorem claims_none {c : Option Str} : Claims c none ↔ truthyOpt c = false := by
  unfold Claims
  rcases c with _ | _ | ⟨a, b⟩ <;> simp [truthyOpt]

/-- A template is considered for a node and a prefix exactly if it fits and has the prefix. -/
theorem considered_iff (t : Template) (n : NodeFacts) (parent : Option NodeFacts) (pref : Option Str) :
    (t.type == n.type && t.matches n parent pref) = true ↔ FitsNode t n parent ∧ t.pref = pref := by
  constructor
  · intro h
    simp only [Bool.and_eq_true, beq_iff_eq] at h
    obtain ⟨ht, hm⟩ := h
    unfold Template.matches at hm
    split at hm <;> try cases hm
    split at hm <;> try cases hm
    split at hm <;> try cases hm
    split at hm <;> try cases hm
    rename_i h1 h2 h3 h4
    simp only [Bool.not_eq_true', Bool.not_eq_false, bne_iff_ne, ne_eq, Decidable.not_not] at h2 h3 h4
    simp only [Bool.and_eq_true] at hm
    obtain ⟨hp, htags⟩ := hm
    refine ⟨⟨ht, (claimMatch_iff _ _).1 h4, ?_, (customMatch_iff _ _).1 h2, ?_, ?_, ?_⟩, h3⟩
    · simpa [List.all_eq_true] using htags
    · cases parent with
      | none =>
        simp only [Bool.and_eq_true, Bool.not_eq_true'] at hp
        exact claims_none.2 hp.1.2
      | some p =>
        simp only [Bool.and_eq_true] at hp
        exact (claimMatch_iff _ _).1 hp.1.2
    · cases parent with
      | none =>
        simp only [Bool.and_eq_true, Bool.not_eq_true'] at hp
        exact claims_none.2 hp.2
      | some p =>
        simp only [Bool.and_eq_true] at hp
        exact (claimMatch_iff _ _).1 hp.2
    · cases parent with
      | none =>
        simp only [Bool.and_eq_true, List.isEmpty_iff] at hp
        rw [hp.1.1]; simp
      | some p =>
        simp only [Bool.and_eq_true] at hp
        intro kv hkv
        exact ⟨p, rfl, (customMatch_iff _ _).1 hp.1.1 kv hkv⟩
  · rintro ⟨h, rfl⟩
    have h2 := (customMatch_iff _ _).2 h.custom
    have h4 := (claimMatch_iff _ _).2 h.subtype
    have htags : t.tags.all (fun tag => n.tags.contains tag) = true := by
      simpa [List.all_eq_true] using h.tags
    unfold Template.matches
    simp only [h.type, h2, h4, htags, beq_self_eq_true, bne_self_eq_false, Bool.and_false,
      Bool.not_true, Bool.true_and, Bool.and_true, Bool.false_eq_true, if_false]
    cases parent with
    | none =>
      have h5 := claims_none.1 h.parentType
      have h6 := claims_none.1 h.parentSubtype
      have h7 : t.parentCustom = [] := by
        cases hc : t.parentCustom with
        | nil => rfl
        | cons kv r =>
          obtain ⟨p, hp, _⟩ := h.parentCustom kv (by rw [hc]; simp)
          cases hp
      simp [h5, h6, h7]
    | some p =>
      have h5 := (claimMatch_iff _ _).2 h.parentType
      have h6 := (claimMatch_iff _ _).2 h.parentSubtype
      have h7 := (customMatch_iff t.parentCustom p.custom).2 (fun kv hkv => by
        obtain ⟨q, hq, hv⟩ := h.parentCustom kv hkv
        cases hq; exact hv)
      simp only [Option.map_some, Option.bind_some] at h5 h6
      simp [h5, h6, h7]

/-! ## Sorting -/

/-- In descending order. -/
def Descending : List Template → Prop
  | [] => True
  | t :: ts => (∀ u ∈ ts, rank u ≤ rank t) ∧ Descending ts

theorem mem_insertTemplate {t u : Template} {ts : List Template} :
    u ∈ insertTemplate t ts ↔ u = t ∨ u ∈ ts := by
  induction ts with
  | nil => simp [insertTemplate]
  | cons a ts ih =>
    unfold insertTemplate
    split
    · simp only [List.mem_cons, ih]
      constructor
      · rintro (h | h | h) <;> simp [h]
      · rintro (h | h | h) <;> simp [h]
    · simp

theorem mem_sortTemplates {u : Template} {ts : List Template} : u ∈ sortTemplates ts ↔ u ∈ ts := by
  unfold sortTemplates
  induction ts with
  | nil => simp
  | cons a ts ih => simp [mem_insertTemplate, ih]

theorem descending_insert {t : Template} {ts : List Template} (h : Descending ts) :
    Descending (insertTemplate t ts) := by
  induction ts with
  | nil => exact ⟨by simp, trivial⟩
  | cons a ts ih =>
    unfold insertTemplate
    split
    · rename_i hlt
      refine ⟨?_, ih h.2⟩
      intro u hu
      rcases mem_insertTemplate.1 hu with rfl | hu'
      · rw [specificity_rank, specificity_rank] at hlt; exact List.le_of_lt hlt
      · exact h.1 u hu'
    · rename_i hlt
      rw [specificity_rank, specificity_rank] at hlt
      refine ⟨?_, h⟩
      intro u hu
      rcases List.mem_cons.1 hu with rfl | hu'
      · exact hlt
      · exact List.le_trans (h.1 u hu') hlt

theorem descending_sort (ts : List Template) : Descending (sortTemplates ts) := by
  unfold sortTemplates
  induction ts with
  | nil => trivial
  | cons a ts ih => exact descending_insert ih

theorem find_insert_not {P : Template → Bool} {t : Template} (h : P t = false) (ts : List Template) :
    (insertTemplate t ts).find? P = ts.find? P := by
  induction ts with
  | nil => simp [insertTemplate, h]
  | cons a ts ih =>
    unfold insertTemplate
    split
    · simp only [List.find?_cons, ih]
    · simp only [List.find?_cons, h]

theorem find_insert {P : Template → Bool} {t : Template} (h : P t = true) {ts : List Template}
    (hd : Descending ts) :
    (insertTemplate t ts).find? P =
      match ts.find? P with
      | none => some t
      | some u => if rank t < rank u then some u else some t := by
  induction ts with
  | nil => simp [insertTemplate, h]
  | cons a ts ih =>
    unfold insertTemplate
    rw [specificity_rank, specificity_rank]
    split
    · rename_i hlt
      simp only [List.find?_cons]
      cases ha : P a with
      | true => simp [hlt]
      | false => exact ih hd.2
    · rename_i hlt
      rw [List.find?_cons]
      simp only [h]
      cases hf : List.find? P (a :: ts) with
      | none => rfl
      | some u =>
        have hu := List.mem_of_find?_eq_some hf
        have : rank u ≤ rank a := by
          rcases List.mem_cons.1 hu with rfl | hu'
          · exact List.le_refl _
          · exact hd.1 u hu'
        have hle : ¬ rank t < rank u := List.le_trans this hlt
        simp [hle]

/-- `t` is the first of the most specific ones. -/
def Top (P : Template → Bool) (defs : List Template) (t : Template) : Prop :=
  P t = true ∧ ∃ earlier later, defs = earlier ++ t :: later ∧
    (∀ u ∈ earlier, P u = true → rank u < rank t) ∧ (∀ u ∈ later, P u = true → rank u ≤ rank t)

theorem find_sort (P : Template → Bool) (defs : List Template) (t : Template) :
    (sortTemplates defs).find? P = some t ↔ Top P defs t := by
  induction defs generalizing t with
  | nil =>
    simp [sortTemplates, Top]
  | cons x xs ih =>
    have hs : sortTemplates (x :: xs) = insertTemplate x (sortTemplates xs) := rfl
    rw [hs]
    cases hx : P x with
    | false =>
      rw [find_insert_not hx, ih]
      constructor
      · rintro ⟨hp, e, l, rfl, h1, h2⟩
        refine ⟨hp, x :: e, l, rfl, ?_, h2⟩
        intro u hu hpu
        rcases List.mem_cons.1 hu with rfl | hu'
        · rw [hx] at hpu; cases hpu
        · exact h1 u hu' hpu
      · rintro ⟨hp, e, l, heq, h1, h2⟩
        cases e with
        | nil =>
          simp only [List.nil_append, List.cons.injEq] at heq
          rw [← heq.1, hx] at hp; cases hp
        | cons y e =>
          simp only [List.cons_append, List.cons.injEq] at heq
          exact ⟨hp, e, l, heq.2, fun u hu => h1 u (by simp [hu]), h2⟩
    | true =>
      rw [find_insert hx (descending_sort xs)]
      cases hf : (sortTemplates xs).find? P with
      | none =>
        have hnone : ∀ u ∈ xs, ¬ P u = true := by
          intro u hu
          exact List.find?_eq_none.1 hf u (mem_sortTemplates.2 hu)
        simp only [Option.some.injEq]
        constructor
        · rintro rfl
          exact ⟨hx, [], xs, rfl, by simp, fun u hu hp => absurd hp (hnone u hu)⟩
        · rintro ⟨hp, e, l, heq, _, _⟩
          cases e with
          | nil => simp only [List.nil_append, List.cons.injEq] at heq; exact heq.1
          | cons y e =>
            simp only [List.cons_append, List.cons.injEq] at heq
            exact absurd hp (hnone t (by rw [heq.2]; simp))
      | some w =>
        have hw := (ih w).1 hf
        have htop : ∀ u ∈ xs, P u = true → rank u ≤ rank w := by
          obtain ⟨_, e, l, rfl, h1, h2⟩ := hw
          intro u hu hpu
          rcases List.mem_append.1 hu with h | h
          · exact List.le_of_lt (h1 u h hpu)
          · rcases List.mem_cons.1 h with rfl | h'
            · exact List.le_refl _
            · exact h2 u h' hpu
        have hwm : w ∈ xs := by
          obtain ⟨_, e, l, rfl, _, _⟩ := hw; simp
        dsimp only
        by_cases hlt : rank x < rank w
        · rw [if_pos hlt]
          simp only [Option.some.injEq]
          constructor
          · rintro rfl
            obtain ⟨hp, e, l, rfl, h1, h2⟩ := hw
            refine ⟨hp, x :: e, l, rfl, ?_, h2⟩
            intro u hu hpu
            rcases List.mem_cons.1 hu with rfl | hu'
            · exact hlt
            · exact h1 u hu' hpu
          · rintro ⟨hp, e, l, heq, h1, h2⟩
            cases e with
            | nil =>
              simp only [List.nil_append, List.cons.injEq] at heq
              obtain ⟨rfl, rfl⟩ := heq
              exact absurd hlt (h2 w hwm hw.1)
            | cons y e =>
              simp only [List.cons_append, List.cons.injEq] at heq
              have : Top P xs t := ⟨hp, e, l, heq.2, fun u hu => h1 u (by simp [hu]), h2⟩
              have := (ih t).2 this
              rw [hf] at this
              exact Option.some.inj this
        · rw [if_neg hlt]
          simp only [Option.some.injEq]
          constructor
          · rintro rfl
            exact ⟨hx, [], xs, rfl, by simp, fun u hu hp => List.le_trans (htop u hu hp) hlt⟩
          · rintro ⟨hp, e, l, heq, h1, h2⟩
            cases e with
            | nil =>
              simp only [List.nil_append, List.cons.injEq] at heq
              exact heq.1
            | cons y e =>
              simp only [List.cons_append, List.cons.injEq] at heq
              have : Top P xs t := ⟨hp, e, l, heq.2, fun u hu => h1 u (by simp [hu]), h2⟩
              have := (ih t).2 this
              rw [hf] at this
              cases this
              exact absurd (h1 x (by simp [heq.1]) hx) hlt

theorem head_flatMap {α β} (g : α → List β) (qs : List α) (t : β) :
    (qs.flatMap g).head? = some t ↔
      ∃ before q after, qs = before ++ q :: after ∧ (∀ b ∈ before, g b = []) ∧ (g q).head? = some t := by
  induction qs with
  | nil => simp
  | cons a qs ih =>
    rw [List.flatMap_cons]
    cases hg : g a with
    | nil =>
      rw [List.nil_append, ih]
      constructor
      · rintro ⟨b, q, af, rfl, h1, h2⟩
        refine ⟨a :: b, q, af, rfl, ?_, h2⟩
        intro x hx
        rcases List.mem_cons.1 hx with rfl | hx'
        · exact hg
        · exact h1 x hx'
      · rintro ⟨b, q, af, heq, h1, h2⟩
        cases b with
        | nil =>
          simp only [List.nil_append, List.cons.injEq] at heq
          rw [← heq.1, hg] at h2; simp at h2
        | cons y b =>
          simp only [List.cons_append, List.cons.injEq] at heq
          exact ⟨b, q, af, heq.2, fun x hx => h1 x (by simp [hx]), h2⟩
    | cons y ys =>
      simp only [List.cons_append, List.head?_cons, Option.some.injEq]
      constructor
      · rintro rfl
        exact ⟨[], a, qs, rfl, by simp, by rw [hg]; rfl⟩
      · rintro ⟨b, q, af, heq, h1, h2⟩
        cases b with
        | nil =>
          simp only [List.nil_append, List.cons.injEq] at heq
          rw [← heq.1, hg] at h2
          simpa using h2
        | cons z b =>
          simp only [List.cons_append, List.cons.injEq] at heq
          have := h1 a (by simp [heq.1])
          rw [hg] at this; cases this

/-! ## Splitting at double underscores -/

theorem not_prefix_of {s : Str} (h : ¬ DoubleUnderscore s) : c%"__".isPrefixOf s = false := by
  cases hp : c%"__".isPrefixOf s with
  | false => rfl
  | true =>
    obtain ⟨r, hr⟩ := List.isPrefixOf_iff_prefix.1 hp
    exact absurd ⟨[], r, by simpa using hr.symm⟩ h

theorem double_cons {c : Char} {s : Str} (h : ¬ DoubleUnderscore (c :: s)) : ¬ DoubleUnderscore s := by
  rintro ⟨a, b, rfl⟩
  exact h ⟨c :: a, b, rfl⟩

theorem splitAux_none {s : Str} (h : ¬ DoubleUnderscore s) (cur : Str) (n : Nat) (hn : s.length ≤ n) :
    splitStrAux c%"__" n cur s = [cur.reverse ++ s] := by
  induction s generalizing cur n with
  | nil => cases n <;> simp [splitStrAux]
  | cons c s ih =>
    cases n with
    | zero => simp at hn
    | succ n =>
      unfold splitStrAux
      rw [not_prefix_of h]
      simp only [Bool.false_eq_true, if_false]
      rw [ih (double_cons h) (c :: cur) n (by simpa using hn)]
      simp

theorem splitStr_none {s : Str} (h : ¬ DoubleUnderscore s) : splitStr c%"__" s = [s] := by
  unfold splitStr
  rw [splitAux_none h [] _ (by omega)]
  rfl

theorem splitAux_two {k v : Str} (hk : ¬ DoubleUnderscore (k ++ c%"_")) (hv : ¬ DoubleUnderscore v)
    (cur : Str) (n : Nat) (hn : k.length + v.length + 2 ≤ n) :
    splitStrAux c%"__" n cur (k ++ c%"__" ++ v) = [cur.reverse ++ k, v] := by
  induction k generalizing cur n with
  | nil =>
    cases n with
    | zero => omega
    | succ n =>
      simp only [List.nil_append, List.cons_append]
      unfold splitStrAux
      have : c%"__".isPrefixOf ('_' :: '_' :: v) = true := by simp [List.isPrefixOf]
      rw [this]
      simp only [if_true, List.length_cons, List.length_nil, List.drop_succ_cons, List.drop_zero]
      rw [splitAux_none hv [] n (by simp at hn; omega)]
      simp
  | cons c k ih =>
    cases n with
    | zero => omega
    | succ n =>
      simp only [List.cons_append]
      unfold splitStrAux
      have hnp : c%"__".isPrefixOf (c :: (k ++ c%"__" ++ v)) = false := by
        cases hp : c%"__".isPrefixOf (c :: (k ++ c%"__" ++ v)) with
        | false => rfl
        | true =>
          obtain ⟨r, hr⟩ := List.isPrefixOf_iff_prefix.1 hp
          simp only [List.cons_append, List.nil_append, List.cons.injEq] at hr
          obtain ⟨rfl, hr⟩ := hr
          refine absurd ?_ hk
          cases k with
          | nil => exact ⟨[], [], rfl⟩
          | cons d k =>
            simp only [List.cons_append, List.cons.injEq] at hr
            obtain ⟨rfl, _⟩ := hr
            exact ⟨[], k ++ c%"_", by simp⟩
      have hnp' : c%"__".isPrefixOf (c :: (k ++ '_' :: '_' :: ([] ++ v))) = false := by
        simpa using hnp
      rw [show k ++ c%"__" ++ v = k ++ '_' :: '_' :: ([] ++ v) by simp] 
      rw [hnp']
      simp only [Bool.false_eq_true, if_false]
      have := ih (fun ⟨a, b, h⟩ => hk ⟨c :: a, b, by simp at h ⊢; exact h⟩) (c :: cur) n
        (by simp at hn; omega)
      rw [show k ++ c%"__" ++ v = k ++ '_' :: '_' :: ([] ++ v) by simp] at this
      rw [this]
      simp

theorem splitStr_two {k v : Str} (hk : ¬ DoubleUnderscore (k ++ c%"_")) (hv : ¬ DoubleUnderscore v) :
    splitStr c%"__" (k ++ c%"__" ++ v) = [k, v] := by
  unfold splitStr
  rw [splitAux_two hk hv [] _ (by simp; omega)]
  rfl

end Mau
