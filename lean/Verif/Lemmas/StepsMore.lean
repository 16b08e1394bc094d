import Verif.Lemmas.StageGroups
import Verif.Spec.Managers

set_option linter.unusedSimpArgs false
set_option linter.unusedVariables false

/-!
# More about sequences of completions
-/

namespace Mau
open Spec

theorem Completion.refl : Completion (fun n => n) where
  id := fun _ => rfl
  args := fun _ => rfl
  ctx := fun _ => rfl
  plain := by
    intro n _
    cases n
    simp [Node.data, Node.args, Node.ctx, Node.content, Node.labels, Node.extra]

theorem Completion.trans {F G : Node → Node} (hF : Completion F) (hG : Completion G) : Completion (G ∘ F) where
  id := fun n => by rw [Function.comp, hG.id, hF.id]
  args := fun n => by rw [Function.comp, hG.args, hF.args]
  ctx := fun n => by rw [Function.comp, hG.ctx, hF.ctx]
  plain := by
    intro n hn
    have h1 := hF.plain n hn
    have h2 := hG.plain (F n) (by rw [hF.id]; exact hn)
    rw [Function.comp, h2, h1]
    simp [Node.data, Node.args, Node.ctx, Node.content, Node.labels, Node.extra, List.map_map]

theorem Completion.mapId {i : Nat} {f : Node → Node} {cs : List Node} (hf : Inserts i f cs) (hi : i ≠ 0) : Completion (Node.mapId i f) where
  id := mapId_id hf
  args := by intro n; rw [mapId_eq]; split; exact (hf.same _).1; rfl
  ctx := by intro n; rw [mapId_eq]; split; exact (hf.same _).2; rfl
  plain := by
    intro n hn
    rw [mapId_eq, if_neg (by rw [hn]; exact Ne.symm hi)]
    unfold below
    rw [mapIdList_eq, mapIdList_eq, mapIdLabels_eq]

namespace Steps
variable {lo : Nat} {base : List Node} {K : Nat → Prop} {s s' : DocSt} {os os' : List Node}

/-- A sequence of completions is a completion of all trees. -/
theorem completion (hs : Steps lo base K s os s' os') (h : FW lo base s os) : ∃ F, Completion F ∧ s'.nodes = s.nodes.map F ∧ os' = os.map F ∧
    s'.bodies = s.bodies.map (fun e => (e.1, F e.2)) ∧ s'.groups = s.groups.map fun g => (g.1, g.2.map fun e => (e.1, F e.2)) := by
  induction hs with
  | refl => exact ⟨fun n => n, .refl, by simp, by simp, by simp, by simp⟩
  | @step s s' os os' cs i t f hi hK hf hcs hc hx rest ih =>
    obtain ⟨F, hF, h1, h2, h3, h4⟩ := ih (h.update (h.range hi).1 hf hcs hc)
    refine ⟨F ∘ Node.mapId i f, (Completion.mapId hf (h.range hi).2).trans hF, ?_, ?_, ?_, ?_⟩
    · rw [h1]; change (mapIdList i f s.nodes).map F = _; rw [mapIdList_eq, List.map_map]
    · rw [h2, List.map_map]
    · rw [h3]; change (mapIdLabels i f s.bodies).map _ = _; rw [mapIdLabels_eq, List.map_map]; rfl
    · rw [h4]
      change (s.groups.map fun g => (g.1, mapIdLabels i f g.2)).map _ = _
      rw [List.map_map]
      refine List.map_congr_left fun g _ => ?_
      simp only [Function.comp]
      rw [mapIdLabels_eq, List.map_map]
      rfl

/-- What a node contains has identities that it contained before. -/
theorem subs (hs : Steps lo base K s os s' os') (h : FW lo base s os) {n' : Node} (hn : Occ n' (trees s' os')) (h0 : n'.data.id ≠ 0) :
    ∃ n, Occ n (trees s os) ∧ n.data.id = n'.data.id ∧ ∀ x', Sub x' n' → x'.data.id = 0 ∨ ∃ x, Sub x n ∧ x.data.id = x'.data.id := by
  induction hs with
  | refl => exact ⟨n', hn, rfl, fun x hx => .inr ⟨x, hx, rfl⟩⟩
  | @step s s' os os' cs i t f hi hK hf hcs hc hx rest ih =>
    obtain ⟨m, hm, hmid, hsub⟩ := ih (h.update (h.range hi).1 hf hcs hc) hn
    rw [trees_update] at hm
    rcases occ_map hf hm with ⟨n, hn, rfl⟩ | hm
    · rw [mapId_id hf] at hmid
      refine ⟨n, hn, hmid, ?_⟩
      intro x' hx'
      rcases hsub x' hx' with h0' | ⟨x, hx, e⟩
      · exact .inl h0'
      · rcases sub_mapId hf hx with ⟨y, hy, rfl⟩ | hx
        · rw [mapId_id hf] at e
          exact .inr ⟨y, hy, e⟩
        · left; rw [← e]; exact (hcs x hx).1
    · rw [(hcs m hm).1] at hmid
      exact absurd hmid.symm h0

/-- Nodes of other kinds keep their fields, and what they contain if nothing in it is registered for `K`. -/
theorem other' (hs : Steps lo base K s os s' os') (h : FW lo base s os) {k : Nat} {T : Tag} (hk : (k, T) ∈ dreg s) (hT : ¬ K T.kind) {n' : Node} (hn : Occ n' (trees s' os'))
    (hid : n'.data.id = k) : ∃ n, Occ n (trees s os) ∧ n.data.id = k ∧ n'.data = n.data ∧ (n.content = [] ↔ n'.content = []) ∧
      ((∀ x, Occ x n.content → ∀ T, (x.data.id, T) ∈ dreg s → ¬ K T.kind) → n'.content = n.content) := by
  induction hs with
  | refl => exact ⟨n', hn, hid, rfl, Iff.rfl, fun _ => rfl⟩
  | @step s s' os os' cs i t f hi hK hf hcs hc hx rest ih =>
    have h1 := h.update (h.range hi).1 hf hcs hc
    obtain ⟨m, hm, hmid, hmd, hme, hmc⟩ := ih h1 hk hn
    obtain ⟨n, hn, hnid, rfl⟩ := other1 h hi hf hcs hk (fun e => hT (e ▸ hK)) hm hmid
    refine ⟨n, hn, hnid, hmd, ?_, fun hc0 => ?_⟩
    · rw [← hme]
      exact (mapIdList_nil_iff (i := i) (f := f)).symm
    · have e : (Mau.below i f n).content = n.content := mapIdList_none i f _ fun m hm e => hc0 m hm t (e ▸ hi) hK
      rw [e] at hmc
      exact hmc hc0

end Steps
end Mau
