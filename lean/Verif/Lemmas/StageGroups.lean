import Verif.Lemmas.Stages

set_option linter.unusedSimpArgs false
set_option linter.unusedVariables false

/-!
# Finalisation: groups
-/

namespace Mau
open Spec

theorem kid_size {c m : Node} (h : c ∈ kids m) : sizeOf c < sizeOf m := by
  cases m with
  | mk d a ctx cs ls ex =>
    simp only [kids, Node.content, Node.labels, Node.extra, List.mem_append, List.mem_map] at h
    simp only [Node.mk.sizeOf_spec]
    rcases h with (h | ⟨kv, h, rfl⟩) | h
    · have := List.sizeOf_lt_of_mem h; omega
    · have := List.sizeOf_lt_of_mem h
      have h2 : sizeOf kv = 1 + sizeOf kv.1 + sizeOf kv.2 := by cases kv; rfl
      omega
    · have := List.sizeOf_lt_of_mem h; omega

theorem sub_size {n m : Node} (h : Sub n m) : sizeOf n ≤ sizeOf m := by
  induction h with
  | refl => exact Nat.le_refl _
  | kid hk _ ih => have := kid_size hk; omega

theorem not_sub_kid {m c : Node} (h : c ∈ kids m) : ¬ Sub m c := fun hs => by
  have := kid_size h; have := sub_size hs; omega

/-- Fill the group node `i`. -/
def fillOne (i : Nat) (cs : List Node) (n : Node) : Node := if n.data.id = i then n.setContent cs else n

theorem data_fillOne (i : Nat) (cs : List Node) (n : Node) : (fillOne i cs n).data = n.data := by unfold fillOne; split <;> rfl

theorem occ_fill {objs : List Node} {lo uid : Nat} {res : List Nat} {reg : List (Nat × Tag)} {tops rest cs : List Node} (h : Core objs lo uid res reg tops rest) {i : Nat} {g : Str}
    (hi : (i, Tag.group g) ∈ reg) (hcs : ∀ c ∈ cs, c ∈ rest) {x : Node} (hx : Occ x (tops.map (fillOne i cs) ++ rest)) :
    (∃ t ∈ tops, t.data.id = i ∧ x = t.setContent cs) ∨ Occ x (tops ++ rest) ∧ x.data.id ≠ i := by
  rcases occ_append.1 hx with hx | hx
  · obtain ⟨m, hm, hs⟩ := hx
    obtain ⟨t, ht, rfl⟩ := List.mem_map.1 hm
    unfold fillOne at hs
    split at hs
    · rename_i e
      rcases sub_cases hs with rfl | ⟨c, hc, hs1⟩
      · exact .inl ⟨t, ht, e, rfl⟩
      · right
        rcases (inserts_setContent (id := i) cs).kids t c hc with hc | hc
        · refine ⟨occ_append.2 (.inl ⟨t, ht, .kid hc hs1⟩), fun e2 => ?_⟩
          have := h.groupTops i g hi t ht x (.kid hc hs1) e2
          subst this
          exact not_sub_kid hc hs1
        · have hr : Occ x rest := ⟨c, hcs c hc, hs1⟩
          exact ⟨occ_append.2 (.inr hr), h.groupRest i g hi x hr⟩
    · rename_i e
      right
      refine ⟨occ_append.2 (.inl ⟨t, ht, hs⟩), fun e2 => ?_⟩
      have := h.groupTops i g hi t ht x hs e2
      subst this
      exact e e2
  · exact .inr ⟨occ_append.2 (.inr hx), h.groupRest i g hi x hx⟩

theorem Core.fill {objs : List Node} {lo uid : Nat} {res : List Nat} {reg : List (Nat × Tag)} {tops rest cs : List Node} (h : Core objs lo uid res reg tops rest) {i : Nat} {g : Str}
    (hi : (i, Tag.group g) ∈ reg) (hcs : ∀ c ∈ cs, c ∈ rest) : Core objs lo uid res reg (tops.map (fillOne i cs)) rest := by
  have ho := fun x => occ_fill h hi hcs (x := x)
  have hd : ∀ x, Occ x (tops.map (fillOne i cs) ++ rest) → ∃ y, Occ y (tops ++ rest) ∧ x.data = y.data := by
    intro x hx
    rcases ho x hx with ⟨t, ht, e, rfl⟩ | ⟨hx, -⟩
    · exact ⟨t, occ_append.2 (.inl (occ_of_mem ht)), rfl⟩
    · exact ⟨x, hx, rfl⟩
  exact {
    pos := h.pos
    le := h.le
    range := fun x hx => by
      obtain ⟨y, hy, e⟩ := hd x hx
      rw [e]; exact h.range y hy
    same := fun x y hx hy h0 he => by
      rcases ho x hx with ⟨t, ht, e, rfl⟩ | ⟨hx, nx⟩
      · rcases ho y hy with ⟨t2, ht2, e2, rfl⟩ | ⟨hy, ny⟩
        · rw [h.same t t2 (occ_append.2 (.inl (occ_of_mem ht))) (occ_append.2 (.inl (occ_of_mem ht2))) h0 he]
        · exact absurd (he.symm.trans e) ny
      · rcases ho y hy with ⟨t2, ht2, e2, rfl⟩ | ⟨hy, ny⟩
        · exact absurd (he.trans e2) nx
        · exact h.same x y hx hy h0 he
    regRange := h.regRange
    fits := fun e he x hx hx' => by
      obtain ⟨y, hy, e1⟩ := hd x hx
      rw [e1] at hx' ⊢
      exact h.fits e he y hy hx'
    resRange := h.resRange
    resNodup := h.resNodup
    resReg := h.resReg
    resOcc := fun j hj x hx => by
      obtain ⟨y, hy, e1⟩ := hd x hx
      rw [e1]
      exact h.resOcc j hj y hy
    headers := fun x hx j l nm hdat => by
      obtain ⟨y, hy, e1⟩ := hd x hx
      rw [e1] at hdat
      exact h.headers y hy j l nm hdat
    groupRest := h.groupRest
    groupTops := fun j g' hg m hm x hx hx' => by
      obtain ⟨t, ht, rfl⟩ := List.mem_map.1 hm
      unfold fillOne at hx ⊢
      split at hx
      · rename_i e
        rw [if_pos e]
        rcases sub_cases hx with rfl | ⟨c, hc, hs⟩
        · rfl
        · rcases (inserts_setContent (id := i) cs).kids t c hc with hc | hc
          · have := h.groupTops j g' hg t ht x (.kid hc hs) hx'
            subst this
            exact absurd hs (not_sub_kid hc)
          · exact absurd hx' (h.groupRest j g' hg x ⟨c, hcs c hc, hs⟩)
      · rename_i e
        rw [if_neg e]
        exact h.groupTops j g' hg t ht x hx hx'
    refs := fun x hx => by
      obtain ⟨y, hy, e1⟩ := hd x hx
      rw [e1]; exact h.refs y hy }

theorem mapId_top {objs : List Node} {lo uid : Nat} {res : List Nat} {reg : List (Nat × Tag)} {tops rest : List Node} (h : Core objs lo uid res reg tops rest) {i : Nat} {g : Str}
    (hi : (i, Tag.group g) ∈ reg) (cs : List Node) {t : Node} (ht : t ∈ tops) : t.mapId i (·.setContent cs) = fillOne i cs t := by
  have hb : below i (·.setContent cs) t = t := by
    cases t with
    | mk d a c cs' ls ex =>
      have hk : ∀ k ∈ kids (.mk d a c cs' ls ex), ∀ m, Sub m k → m.data.id ≠ i := by
        intro k hk m hm e
        have := h.groupTops i g hi _ ht m (.kid hk hm) e
        subst this
        exact not_sub_kid hk hm
      unfold below
      simp only [Node.data, Node.args, Node.ctx, Node.content, Node.labels, Node.extra]
      rw [mapIdList_none, mapIdLabels_none, mapIdList_none]
      · rintro m ⟨k, hk', hs⟩; exact hk k (by simp [kids, Node.extra, hk']) m hs
      · rintro m ⟨k, hk', hs⟩; exact hk k (by simp only [kids, Node.labels, List.mem_append]; exact .inl (.inr hk')) m hs
      · rintro m ⟨k, hk', hs⟩; exact hk k (by simp [kids, Node.content, hk']) m hs
  rw [mapId_eq, hb]
  rfl

/-- Filling one group node changes only it. -/
theorem update_group {lo : Nat} {base : List Node} {s : DocSt} {os : List Node} (h : FW lo base s os) {i : Nat} {g : Str} (hi : (i, g) ∈ s.groupNodes) (cs : List Node) :
    s.updateNode i (·.setContent cs) = { s with nodes := s.nodes.map (fillOne i cs) } := by
  have hreg : (i, Tag.group g) ∈ dreg s := mem_dreg.2 hi
  have hrest := h.core.groupRest i g hreg
  have e1 : mapIdList i (·.setContent cs) s.nodes = s.nodes.map (fillOne i cs) := by
    rw [mapIdList_eq]
    exact List.map_congr_left fun t ht => mapId_top h.core hreg cs ht
  have e2 : mapIdLabels i (·.setContent cs) s.bodies = s.bodies :=
    mapIdLabels_none i _ _ fun m hm => hrest m (occ_append.2 (.inl (occ_append.2 (.inl hm))))
  have e3 : (s.groups.map fun g => (g.1, mapIdLabels i (·.setContent cs) g.2)) = s.groups := by
    refine (List.map_congr_left ?_).trans (List.map_id _)
    intro gr hgr
    rw [mapIdLabels_none i _ _ (fun m hm => hrest m (occ_append.2 (.inl (occ_append.2 (.inr (occ_mono (by
      intro k hk
      obtain ⟨e, he, rfl⟩ := List.mem_map.1 hk
      exact DGood.mem_members.2 ⟨gr.1, gr.2, hgr, e.1, he⟩) hm))))))]
    rfl
  have e4 : mapIdList i (·.setContent cs) s.objs = s.objs := by
    rw [h.objs]
    refine mapIdList_none i _ _ ?_
    intro m hm
    rcases occ_append.1 hm with hm | hm
    · have := h.old m hm; have := (h.range hreg).1; omega
    · exact hrest m (occ_append.2 (.inr hm))
  unfold DocSt.updateNode
  rw [e1, e2, e3, e4]

theorem FW.fill {lo : Nat} {base : List Node} {s : DocSt} {os : List Node} (h : FW lo base s os) {i : Nat} {g : Str} (hi : (i, g) ∈ s.groupNodes) {items : Dict Node} (hg : Dict.get? s.groups g = some items) :
    FW lo base { s with nodes := s.nodes.map (fillOne i (items.map (·.2))) } os := by
  have hreg : (i, Tag.group g) ∈ dreg s := mem_dreg.2 hi
  have hcs : ∀ c ∈ items.map (·.2), c ∈ vals s.bodies ++ members s.groups ++ os := by
    intro c hc
    obtain ⟨e, he, rfl⟩ := List.mem_map.1 hc
    exact List.mem_append_left _ (List.mem_append_right _ (DGood.mem_members.2 ⟨g, items, Dict.mem_of_get? hg, e.1, he⟩))
  refine ⟨h.old, h.bodies, ⟨?_, ?_⟩, h.toc, h.groups, h.objs, h.core.fill hreg hcs, h.heads⟩
  · have : (s.nodes.map (fillOne i (items.map (·.2)))).filterMap headerOf = s.nodes.filterMap headerOf := by
      rw [List.filterMap_map]
      refine filterMap_congr' fun n hn => ?_
      unfold Function.comp headerOf
      rw [data_fillOne]
    change ((s.nodes.map (fillOne i (items.map (·.2)))).filterMap headerOf).Sublist _
    rw [this]
    exact h.order.1
  · intro n hn e he
    obtain ⟨t, ht, rfl⟩ := List.mem_map.1 hn
    rw [data_fillOne] at he
    exact h.order.2 t ht e he

/-- A top level node with its group. -/
def filled (gs : Dict (Dict Node)) (l : List (Nat × Str)) (n : Node) : Node :=
  match n.data with
  | .blockgroup i g => if (i, g) ∈ l then n.setContent (((Dict.get? gs g).getD []).map (·.2)) else n
  | _ => n

theorem processGroups_eq {lo : Nat} {base : List Node} (l : List (Nat × Str)) {s s' : DocSt} {os : List Node} (h : FW lo base s os) (hl : ∀ e ∈ l, e ∈ s.groupNodes)
    (he : processGroups l s = .ok s') :
    s' = { s with nodes := s.nodes.map (filled s.groups l) } ∧ FW lo base s' os ∧ (∀ e ∈ l, ∃ items, Dict.get? s.groups e.2 = some items) ∧
      ∀ x, Occ x (trees s' os) → Occ x (trees s os) ∨ ∃ t ∈ s.nodes, ∃ i g, t.data = .blockgroup i g ∧ ∃ cs, x = t.setContent cs := by
  induction l generalizing s with
  | nil =>
    unfold processGroups at he
    injection he with he
    subst he
    refine ⟨?_, h, fun _ h => (nomatch h), fun x hx => .inl hx⟩
    have : s.nodes.map (filled s.groups []) = s.nodes := by
      refine (List.map_congr_left ?_).trans (List.map_id _)
      intro n _
      unfold filled
      split <;> simp
    rw [this]
  | cons e l ih =>
    obtain ⟨i, g⟩ := e
    unfold processGroups at he
    cases hg : Dict.get? s.groups g with
    | none => rw [hg] at he; cases he
    | some items =>
      rw [hg] at he
      dsimp only at he
      have hin := hl (i, g) (by simp)
      have hreg : (i, Tag.group g) ∈ dreg s := mem_dreg.2 hin
      rw [update_group h hin] at he
      obtain ⟨r1, r2, r3, r4⟩ := ih (h.fill hin hg) (fun e he => hl e (List.mem_cons_of_mem _ he)) he
      refine ⟨?_, r2, ?_, ?_⟩
      · rw [r1]
        have : (s.nodes.map (fillOne i (items.map (·.2)))).map (filled s.groups l) = s.nodes.map (filled s.groups ((i, g) :: l)) := by
          rw [List.map_map]
          refine List.map_congr_left fun n hn => ?_
          have hf : n.data.id = i → n.data = .blockgroup i g := fun e => h.core.fits _ hreg n (occ_append.2 (.inl (occ_of_mem hn))) e
          unfold Function.comp fillOne
          by_cases c : n.data.id = i
          · rw [if_pos c]
            have hd := hf c
            have hd' : (n.setContent (items.map (·.2))).data = .blockgroup i g := hd
            unfold filled
            simp only [hd, hd', hg, Option.getD_some, List.mem_cons, true_or, if_true]
            split <;> rfl
          · rw [if_neg c]
            unfold filled
            cases hd : n.data <;> first | rfl | skip
            rename_i j g'
            dsimp only
            have hj : j ≠ i := by rw [hd] at c; exact c
            simp [hj]
        dsimp only
        rw [this]
      · intro e he'
        rcases List.mem_cons.1 he' with rfl | he'
        · exact ⟨items, hg⟩
        · exact r3 e he'
      · intro x hx
        rcases r4 x hx with hx | ⟨t, ht, j, g', hd, cs, rfl⟩
        · rcases occ_fill h.core hreg (cs := items.map (·.2)) (by
            intro c hc
            obtain ⟨e, he, rfl⟩ := List.mem_map.1 hc
            exact List.mem_append_left _ (List.mem_append_right _ (DGood.mem_members.2 ⟨g, items, Dict.mem_of_get? hg, e.1, he⟩))) hx with ⟨t, ht, e, rfl⟩ | ⟨hx, -⟩
          · right
            exact ⟨t, ht, i, g, h.core.fits _ hreg t (occ_append.2 (.inl (occ_of_mem ht))) e, _, rfl⟩
          · exact .inl hx
        · right
          obtain ⟨t', ht', rfl⟩ := List.mem_map.1 ht
          rw [data_fillOne] at hd
          refine ⟨t', ht', j, g', hd, cs, ?_⟩
          unfold fillOne
          split <;> rfl

end Mau
