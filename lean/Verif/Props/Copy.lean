import Verif.Spec.Copy

/-!
# C55 — copies of nodes
-/

set_option linter.unusedSimpArgs false

namespace Mau
open Spec

theorem copyFields_type (d : NodeData) : className (copyFields d) = className d := by cases d <;> rfl
theorem copyFields_fields (d : NodeData) : fields (copyFields d) = fields d := by cases d <;> rfl
theorem copyFields_reference (d : NodeData) : reference (copyFields d) = reference d := by cases d <;> rfl
theorem copiesContent_eq (d : NodeData) : copiesContent d = hasChildren d := by cases d <;> rfl
theorem copiesLabels_eq (d : NodeData) : copiesLabels d = hasLabels d := by cases d <;> rfl
theorem copiesExtra_eq (d : NodeData) : copiesExtra d = hasEntries d := by cases d <;> rfl

mutual
theorem copy_deepcopy : ∀ (n : PNode) (p : Option Nat) (next : Nat), Proper n →
    CopyOf n (n.deepcopy p next).1 ∧ (n.deepcopy p next).1.parent = p
  | .mk o p0 data args ctx content labels extra, p, next, hp => by
    cases hp with
    | mk _ _ _ _ _ _ _ _ hc hl he pc pl pe =>
    rw [← copiesContent_eq] at hc
    rw [← copiesLabels_eq] at hl
    rw [← copiesExtra_eq] at he
    refine ⟨?_, rfl⟩
    have E : ∀ k, (if copiesExtra data then deepcopyList (some next) extra k else ([], k)).1 =
        (deepcopyList (some next) extra k).1 := by
      intro k; cases h : copiesExtra data
      · rw [he h]; rfl
      · rfl
    have C : ∀ k, (if copiesContent data then deepcopyList (some next) content k else ([], k)).1 =
        (deepcopyList (some next) content k).1 := by
      intro k; cases h : copiesContent data
      · rw [hc h]; rfl
      · rfl
    have L : ∀ k, (if copiesLabels data then deepcopyLabels (some next) labels k else ([], k)).1 =
        (deepcopyLabels (some next) labels k).1 := by
      intro k; cases h : copiesLabels data
      · rw [hl h]; rfl
      · rfl
    unfold PNode.deepcopy
    dsimp only
    rw [E, C, L]
    generalize next + 1 = k0
    generalize (if copiesExtra data then deepcopyList (some next) extra k0 else ([], k0)).2 = k1
    generalize (if copiesContent data then deepcopyList (some next) content k1 else ([], k1)).2 = k2
    obtain ⟨a1, a2, a3⟩ := copy_list extra (some next) k0 pe
    obtain ⟨b1, b2, b3⟩ := copy_list content (some next) k1 pc
    obtain ⟨c1, c2, c3⟩ := copy_labels labels (some next) k2 pl
    exact CopyOf.mk _ _ (copyFields_type _) (copyFields_fields _) (copyFields_reference _) rfl rfl b1 a1 c1
      b2 b3 a2 a3 c2 c3
theorem copy_list : ∀ (ns : List PNode) (p : Option Nat) (next : Nat), (∀ n ∈ ns, Proper n) →
    (deepcopyList p ns next).1.length = ns.length ∧
    (∀ (i : Nat) (x y : PNode), ns[i]? = some x → (deepcopyList p ns next).1[i]? = some y → CopyOf x y) ∧
    ∀ y ∈ (deepcopyList p ns next).1, y.parent = p
  | [], p, next, _ => ⟨rfl, (by intro i x y h; simp at h), (by intro y h; cases h)⟩
  | n :: ns, p, next, hp => by
    obtain ⟨h1, h2⟩ := copy_deepcopy n p next (hp n (List.mem_cons_self ..))
    obtain ⟨a1, a2, a3⟩ := copy_list ns p (n.deepcopy p next).2 (fun m hm => hp m (List.mem_cons_of_mem _ hm))
    unfold deepcopyList
    dsimp only
    refine ⟨by simp [a1], ?_, ?_⟩
    · intro i x y hx hy
      cases i with
      | zero => simp at hx hy; subst hx; subst hy; exact h1
      | succ i => simp at hx hy; exact a2 i x y hx hy
    · intro y hy
      rcases List.mem_cons.1 hy with rfl | hy'
      · exact h2
      · exact a3 y hy'
theorem copy_labels : ∀ (ns : List (Str × PNode)) (p : Option Nat) (next : Nat), (∀ kn ∈ ns, Proper kn.2) →
    (deepcopyLabels p ns next).1.map (·.1) = ns.map (·.1) ∧
    (∀ (i : Nat) (x y : Str × PNode), ns[i]? = some x → (deepcopyLabels p ns next).1[i]? = some y →
      CopyOf x.2 y.2) ∧
    ∀ y ∈ (deepcopyLabels p ns next).1, y.2.parent = p
  | [], p, next, _ => ⟨rfl, (by intro i x y h; simp at h), (by intro y h; cases h)⟩
  | (k, n) :: ns, p, next, hp => by
    obtain ⟨h1, h2⟩ := copy_deepcopy n p next (hp (k, n) (List.mem_cons_self ..))
    obtain ⟨a1, a2, a3⟩ := copy_labels ns p (n.deepcopy p next).2 (fun m hm => hp m (List.mem_cons_of_mem _ hm))
    unfold deepcopyLabels
    dsimp only
    refine ⟨by simp [a1], ?_, ?_⟩
    · intro i x y hx hy
      cases i with
      | zero => simp at hx hy; subst hx; subst hy; exact h1
      | succ i => simp at hx hy; exact a2 i x y hx hy
    · intro y hy
      rcases List.mem_cons.1 hy with rfl | hy'
      · exact h2
      · exact a3 y hy'
end

/-- C55 (equality): the copy of a node, at every depth, has the same class, fields, arguments, position, children and
labels; its parent is the one asked for and it is the parent of its own children. -/
theorem C55_equal (n : PNode) (parent : Option Nat) (next : Nat) (hp : Proper n) :
    CopyOf n (n.deepcopy parent next).1 ∧ (n.deepcopy parent next).1.parent = parent :=
  copy_deepcopy n parent next hp

/-! ## The objects of a copy are new -/

theorem range'_cut (a b c : Nat) (h1 : a ≤ b) (h2 : b ≤ c) :
    List.range' a (b - a) ++ List.range' b (c - b) = List.range' a (c - a) := by
  have h : b = a + (b - a) := by omega
  have h3 : c - a = (b - a) + (c - b) := by omega
  rw [h3]
  conv => lhs; arg 2; rw [h]
  rw [show c - (a + (b - a)) = c - b by omega]
  rw [← List.range'_append_1]

mutual
theorem ids_deepcopy : ∀ (n : PNode) (p : Option Nat) (next : Nat),
    next < (n.deepcopy p next).2 ∧
    (n.deepcopy p next).1.ids = List.range' next ((n.deepcopy p next).2 - next)
  | .mk o p0 data args ctx content labels extra, p, next => by
    have E : ∀ k, k ≤ (if copiesExtra data then deepcopyList (some next) extra k else ([], k)).2 ∧
        idsList (if copiesExtra data then deepcopyList (some next) extra k else ([], k)).1 =
        List.range' k ((if copiesExtra data then deepcopyList (some next) extra k else ([], k)).2 - k) := by
      intro k; split
      · exact ids_list extra (some next) k
      · simp [idsList]
    have C : ∀ k, k ≤ (if copiesContent data then deepcopyList (some next) content k else ([], k)).2 ∧
        idsList (if copiesContent data then deepcopyList (some next) content k else ([], k)).1 =
        List.range' k ((if copiesContent data then deepcopyList (some next) content k else ([], k)).2 - k) := by
      intro k; split
      · exact ids_list content (some next) k
      · simp [idsList]
    have L : ∀ k, k ≤ (if copiesLabels data then deepcopyLabels (some next) labels k else ([], k)).2 ∧
        idsLabels (if copiesLabels data then deepcopyLabels (some next) labels k else ([], k)).1 =
        List.range' k ((if copiesLabels data then deepcopyLabels (some next) labels k else ([], k)).2 - k) := by
      intro k; split
      · exact ids_labels labels (some next) k
      · simp [idsLabels]
    unfold PNode.deepcopy
    dsimp only
    obtain ⟨e1, e2⟩ := E (next + 1)
    generalize (if copiesExtra data then deepcopyList (some next) extra (next + 1) else ([], next + 1)) = ek at *
    obtain ⟨c1, c2⟩ := C ek.2
    generalize (if copiesContent data then deepcopyList (some next) content ek.2 else ([], ek.2)) = ck at *
    obtain ⟨l1, l2⟩ := L ck.2
    generalize (if copiesLabels data then deepcopyLabels (some next) labels ck.2 else ([], ck.2)) = lk at *
    refine ⟨by omega, ?_⟩
    unfold PNode.ids
    rw [e2, c2, l2, range'_cut _ _ _ e1 c1, range'_cut _ _ _ (by omega) l1]
    rw [show lk.2 - next = (lk.2 - (next + 1)) + 1 by omega, List.range'_succ]
theorem ids_list : ∀ (ns : List PNode) (p : Option Nat) (next : Nat),
    next ≤ (deepcopyList p ns next).2 ∧
    idsList (deepcopyList p ns next).1 = List.range' next ((deepcopyList p ns next).2 - next)
  | [], p, next => by simp [deepcopyList, idsList]
  | n :: ns, p, next => by
    obtain ⟨a1, a2⟩ := ids_deepcopy n p next
    obtain ⟨b1, b2⟩ := ids_list ns p (n.deepcopy p next).2
    unfold deepcopyList
    dsimp only
    refine ⟨by omega, ?_⟩
    unfold idsList
    rw [a2, b2, range'_cut _ _ _ (by omega) b1]
theorem ids_labels : ∀ (ns : List (Str × PNode)) (p : Option Nat) (next : Nat),
    next ≤ (deepcopyLabels p ns next).2 ∧
    idsLabels (deepcopyLabels p ns next).1 = List.range' next ((deepcopyLabels p ns next).2 - next)
  | [], p, next => by simp [deepcopyLabels, idsLabels]
  | (k, n) :: ns, p, next => by
    obtain ⟨a1, a2⟩ := ids_deepcopy n p next
    obtain ⟨b1, b2⟩ := ids_labels ns p (n.deepcopy p next).2
    unfold deepcopyLabels
    dsimp only
    refine ⟨by omega, ?_⟩
    unfold idsLabels
    rw [a2, b2, range'_cut _ _ _ (by omega) b1]
end

/-- C55 (no sharing): the objects of a copy are pairwise different, and none of them existed before (all objects
that existed have identities below `next`, the next free one). -/
theorem C55_fresh (n : PNode) (parent : Option Nat) (next : Nat) :
    (n.deepcopy parent next).1.ids.Nodup ∧
    (∀ i ∈ (n.deepcopy parent next).1.ids, next ≤ i ∧ i < (n.deepcopy parent next).2) ∧
    ((∀ i ∈ n.ids, i < next) → ∀ i ∈ n.ids, i ∉ (n.deepcopy parent next).1.ids) := by
  obtain ⟨h1, h2⟩ := ids_deepcopy n parent next
  rw [h2]
  refine ⟨List.nodup_range', ?_, ?_⟩
  · intro i hi
    have := List.mem_range'_1.1 hi
    omega
  · intro h i hi hc
    have := List.mem_range'_1.1 hc
    have := h i hi
    omega

/-- A paragraph with two words and a label, inside a document. -/
def copyExample : PNode :=
  .mk 3 (some 9) .paragraph { tags := [c%"t"] } Context.empty
    [.mk 4 (some 3) .paragraphLine {} Context.empty
      [.mk 5 (some 4) (.text c%"abc") {} Context.empty [] [] [],
       .mk 6 (some 4) (.style c%"star") {} Context.empty
        [.mk 7 (some 6) (.text c%"d") {} Context.empty [] [] []] [] []] [] []]
    [(c%"title", .mk 8 (some 3) (.label c%"title") {} Context.empty [] [] [])] []

/-- The example has only the attributes of its classes. -/
example : Proper copyExample := by
  unfold copyExample
  repeat (first
    | (refine Proper.mk _ _ _ _ _ _ _ _ (by decide) (by decide) (by decide) ?_ ?_ ?_)
    | (intro n hn; simp at hn; try (rcases hn with rfl | rfl); try subst hn))

/-- Its copy: new objects, children of the copies. -/
example : (copyExample.deepcopy (some 1) 20).1.ids = [20, 21, 22, 23, 24, 25] ∧
    (copyExample.deepcopy (some 1) 20).1.content.map (·.parent) = [some 20] := by decide

end Mau
