import Verif.Lemmas.DocNodes

set_option linter.unusedSimpArgs false

/-!
# The specification of lists is functional
-/

namespace Mau
open Spec

theorem lists_level {L : Nat} {es : List Entry} {ns : List Node} (h : Lists L es ns) : ∀ f ∈ es, L ≤ f.level := by
  induction h with
  | nil => simp
  | item h _ ih =>
    intro f hf
    rcases List.mem_cons.1 hf with rfl | hf
    · omega
    · exact ih f hf
  | sub h hi ha hmax hl ih1 ih2 =>
    intro f hf
    rcases List.mem_append.1 hf with hf | hf
    · have := ih1 f hf; omega
    · exact ih2 f hf

theorem split_unique {M : Nat} {a b c d : List Entry} (h : a ++ b = c ++ d) (ha : ∀ f ∈ a, M ≤ f.level) (hc : ∀ f ∈ c, M ≤ f.level)
    (hb : ∀ f ∈ b.head?, f.level < M) (hd : ∀ f ∈ d.head?, f.level < M) : a = c ∧ b = d := by
  induction a generalizing c with
  | nil =>
    cases c with
    | nil => exact ⟨rfl, h⟩
    | cons x c =>
      rw [List.nil_append] at h
      rw [h] at hb
      have := hb x (by simp)
      have := hc x (by simp)
      omega
  | cons x a ih =>
    cases c with
    | nil =>
      rw [List.nil_append] at h
      rw [← h] at hd
      have := hd x (by simp)
      have := ha x (by simp)
      omega
    | cons y c =>
      simp only [List.cons_append, List.cons.injEq] at h
      obtain ⟨rfl, h⟩ := h
      obtain ⟨h1, h2⟩ := ih h (fun f hf => ha f (by simp [hf])) (fun f hf => hc f (by simp [hf]))
      exact ⟨by rw [h1], h2⟩

theorem lists_unique {L : Nat} {es : List Entry} {ns ms : List Node} (h : Lists L es ns) (h' : Lists L es ms) : ns = ms := by
  induction h generalizing ms with
  | nil => cases h'; rfl
  | item he hs ih =>
    cases h' with
    | item he' hs' => rw [ih hs']
    | sub hl _ _ _ _ => omega
  | @sub L e inside after subs ns last hlt hi ha hmax hl ih1 ih2 =>
    generalize hq : e :: inside ++ after = q at h'
    cases h' with
    | nil => cases hq
    | item he' hs' =>
      simp only [List.cons_append, List.cons.injEq] at hq
      rw [hq.1] at hlt
      omega
    | @sub _ e' inside' after' subs' ns' last' hlt' hi' ha' hmax' hl' =>
      simp only [List.cons_append, List.cons.injEq] at hq
      obtain ⟨rfl, hq⟩ := hq
      have hin : ∀ f ∈ inside, e.level ≤ f.level := fun f hf => lists_level hi f (by simp [hf])
      have hin' : ∀ f ∈ inside', e.level ≤ f.level := fun f hf => lists_level hi' f (by simp [hf])
      obtain ⟨rfl, rfl⟩ := split_unique hq hin hin' hmax hmax'
      have e1 := ih1 hi'
      have e2 := ih2 ha'
      subst e1 e2
      rw [hl] at hl'
      cases hl'
      rfl

theorem construct_reads {P : Parser} (hP : Clean P) {s : DocSt} {ln col : Nat} {ls rest : List Str} {k : Kind} {a : NodeArgs} {x : Except Err DocSt}
    (h : Construct P s ln col ls rest k a x) : Reads P ln col (ls ++ rest) s x (ln + ls.length) rest := by
  cases h with
  | rule => exact reads_rule
  | header hl => exact reads_header hl
  | paragraph hl hne hr => exact reads_paragraph hl hne hr
  | @list i is _ s1 es ns hi hr hits hns =>
    obtain ⟨ms, h1, h2⟩ := reads_list hi hr hits
    rw [lists_unique hns h1]
    simpa using h2
  | @block ch cs _ h1 h2 hc =>
    have := reads_block hP (ln := ln) (col := col) (rest := rest) (s := s) h1 h2 hc
    simp only [List.cons_append, List.append_assoc, List.singleton_append, List.length_cons, List.length_append, List.length_nil, List.nil_append] at this ⊢
    simpa [Nat.add_assoc] using this
  | incl hl => exact reads_include hP hl
  | inclArgs hl ha => exact reads_include_args hP hl

end Mau
