import Verif.Spec.Tree

set_option linter.unusedSimpArgs false

/-!
# Occurrences, completion and copies
-/

namespace Mau
open Spec

theorem Spec.Sub.trans {a b c : Node} (h : Sub a b) (h' : Sub b c) : Sub a c := by
  induction h' with
  | refl => exact h
  | kid hk _ ih => exact .kid hk ih

theorem Spec.Sub.of_kid {c m : Node} (h : c ∈ kids m) : Sub c m := .kid h .refl

theorem occ_nil {n : Node} : ¬ Occ n [] := by rintro ⟨_, h, _⟩; cases h

theorem occ_cons {n m : Node} {l : List Node} : Occ n (m :: l) ↔ Sub n m ∨ Occ n l := by
  unfold Occ
  simp only [List.mem_cons, exists_eq_or_imp]

theorem occ_append {n : Node} {l l' : List Node} : Occ n (l ++ l') ↔ Occ n l ∨ Occ n l' := by
  unfold Occ
  constructor
  · rintro ⟨m, h, hs⟩
    rcases List.mem_append.1 h with h | h
    · exact .inl ⟨m, h, hs⟩
    · exact .inr ⟨m, h, hs⟩
  · rintro (⟨m, h, hs⟩ | ⟨m, h, hs⟩)
    · exact ⟨m, by simp [h], hs⟩
    · exact ⟨m, by simp [h], hs⟩

theorem occ_mono {n : Node} {l l' : List Node} (h : ∀ m ∈ l, m ∈ l') : Occ n l → Occ n l' := by
  rintro ⟨m, hm, hs⟩; exact ⟨m, h m hm, hs⟩

theorem occ_of_mem {n : Node} {l : List Node} (h : n ∈ l) : Occ n l := ⟨n, h, .refl⟩

theorem occ_sub {n m : Node} {l : List Node} (h : Sub n m) (hm : Occ m l) : Occ n l := by
  obtain ⟨k, hk, hs⟩ := hm
  exact ⟨k, hk, h.trans hs⟩

theorem sub_cases {n m : Node} (h : Sub n m) : n = m ∨ Occ n (kids m) := by
  cases h with
  | refl => exact .inl rfl
  | kid hk hs => exact .inr ⟨_, hk, hs⟩

theorem occ_kids {n m : Node} (h : Occ n (kids m)) : Sub n m := by
  obtain ⟨c, hc, hs⟩ := h
  exact .kid hc hs

/-! ## Completion -/

theorem mapIdList_eq (id : Nat) (f : Node → Node) (l : List Node) : mapIdList id f l = l.map (Node.mapId id f) := by
  induction l with
  | nil => rfl
  | cons n l ih => rw [mapIdList, ih]; rfl

theorem mapIdLabels_eq (id : Nat) (f : Node → Node) (l : List (Str × Node)) :
    mapIdLabels id f l = l.map fun kv => (kv.1, Node.mapId id f kv.2) := by
  induction l with
  | nil => rfl
  | cons n l ih => obtain ⟨k, m⟩ := n; rw [mapIdLabels, ih]; rfl

/-- Complete the nodes below a node. -/
def below (id : Nat) (f : Node → Node) (n : Node) : Node :=
  .mk n.data n.args n.ctx (mapIdList id f n.content) (mapIdLabels id f n.labels) (mapIdList id f n.extra)

theorem mapId_eq (id : Nat) (f : Node → Node) (n : Node) : n.mapId id f = if n.data.id = id then f (below id f n) else below id f n := by
  cases n with
  | mk d a c cs ls ex => rw [Node.mapId]; rfl

theorem kids_below (id : Nat) (f : Node → Node) (n : Node) : kids (below id f n) = (kids n).map (Node.mapId id f) := by
  unfold kids below
  simp only [Node.content, Node.labels, Node.extra, mapIdList_eq, mapIdLabels_eq, List.map_append, List.map_map]
  rfl

/-- What completing by `f` can insert: the nodes `cs`. -/
structure Inserts (id : Nat) (f : Node → Node) (cs : List Node) : Prop where
  kids : ∀ x c, c ∈ kids (f x) → c ∈ Spec.kids x ∨ c ∈ cs
  id : ∀ x, x.data.id = id → (f x).data.id = id
  same : ∀ x, (f x).args = x.args ∧ (f x).ctx = x.ctx
  labels : ∀ x, (f x).labels = x.labels

theorem mapId_id {id : Nat} {f : Node → Node} {cs : List Node} (h : Inserts id f cs) (n : Node) : (n.mapId id f).data.id = n.data.id := by
  rw [mapId_eq]
  split
  · rename_i e; rw [h.id (below id f n) e, e]
  · rfl

theorem sub_mapId {id : Nat} {f : Node → Node} {cs : List Node} (h : Inserts id f cs) {n' m : Node} (hs : Sub n' (m.mapId id f)) :
    (∃ n, Sub n m ∧ n' = n.mapId id f) ∨ Occ n' cs := by
  generalize hM : m.mapId id f = M at hs
  induction hs generalizing m with
  | refl => exact .inl ⟨m, .refl, hM.symm⟩
  | @kid c M hc hs ih =>
    have hc' : c ∈ Spec.kids (below id f m) ∨ c ∈ cs := by
      rw [← hM, mapId_eq] at hc
      split at hc
      · exact h.kids _ _ hc
      · exact .inl hc
    rcases hc' with hc' | hc'
    · rw [kids_below] at hc'
      obtain ⟨k, hk, rfl⟩ := List.mem_map.1 hc'
      rcases ih rfl with ⟨n, hn, rfl⟩ | h'
      · exact .inl ⟨n, .kid hk hn, rfl⟩
      · exact .inr h'
    · exact .inr ⟨c, hc', hs⟩

theorem occ_map {id : Nat} {f : Node → Node} {cs : List Node} (h : Inserts id f cs) {n' : Node} {l : List Node} (ho : Occ n' (l.map (Node.mapId id f))) :
    (∃ n, Occ n l ∧ n' = n.mapId id f) ∨ Occ n' cs := by
  obtain ⟨M, hM, hs⟩ := ho
  obtain ⟨m, hm, rfl⟩ := List.mem_map.1 hM
  rcases sub_mapId h hs with ⟨n, hn, rfl⟩ | h'
  · exact .inl ⟨n, ⟨m, hm, hn⟩, rfl⟩
  · exact .inr h'

mutual
/-- Completing a node which does not occur changes nothing. -/
theorem mapId_none (id : Nat) (f : Node → Node) : ∀ (n : Node), (∀ m, Sub m n → m.data.id ≠ id) → n.mapId id f = n
  | .mk d a c cs ls ex, h => by
    rw [Node.mapId, mapIdList_none id f cs (fun m hm => h m (by
        obtain ⟨k, hk, hs⟩ := hm; exact .kid (by simp [kids, Node.content, hk]) hs)),
      mapIdLabels_none id f ls (fun m hm => h m (by
        obtain ⟨k, hk, hs⟩ := hm; exact .kid (by simp only [kids, Node.labels, List.mem_append]; exact .inl (.inr hk)) hs)),
      mapIdList_none id f ex (fun m hm => h m (by
        obtain ⟨k, hk, hs⟩ := hm; exact .kid (by simp [kids, Node.extra, hk]) hs))]
    exact if_neg (h _ .refl)
theorem mapIdList_none (id : Nat) (f : Node → Node) : ∀ (l : List Node), (∀ m, Occ m l → m.data.id ≠ id) → mapIdList id f l = l
  | [], _ => rfl
  | n :: ns, h => by
    rw [mapIdList, mapId_none id f n (fun m hm => h m (occ_cons.2 (.inl hm))), mapIdList_none id f ns (fun m hm => h m (occ_cons.2 (.inr hm)))]
theorem mapIdLabels_none (id : Nat) (f : Node → Node) : ∀ (l : List (Str × Node)), (∀ m, Occ m (l.map (·.2)) → m.data.id ≠ id) → mapIdLabels id f l = l
  | [], _ => rfl
  | (k, n) :: ns, h => by
    rw [mapIdLabels, mapId_none id f n (fun m hm => h m (occ_cons.2 (.inl hm))),
      mapIdLabels_none id f ns (fun m hm => h m (occ_cons.2 (.inr hm)))]
end

/-! ## Copies -/

theorem detach_data_id (d : NodeData) : d.detach.id = 0 := by cases d <;> rfl

theorem detachList_eq (l : List Node) : detachList l = l.map Node.detach := by
  induction l with
  | nil => rfl
  | cons n l ih => rw [detachList, ih]; rfl

theorem detachLabels_eq (l : List (Str × Node)) : detachLabels l = l.map fun kv => (kv.1, kv.2.detach) := by
  induction l with
  | nil => rfl
  | cons n l ih => obtain ⟨k, m⟩ := n; rw [detachLabels, ih]; rfl

theorem kids_detach (n : Node) : kids n.detach = (kids n).map Node.detach := by
  cases n with
  | mk d a c cs ls ex =>
    rw [Node.detach]
    unfold kids
    simp only [Node.content, Node.labels, Node.extra, detachList_eq, detachLabels_eq, List.map_append, List.map_map]
    rfl

theorem data_detach (n : Node) : n.detach.data = n.data.detach := by
  cases n with
  | mk d a c cs ls ex => rw [Node.detach]; rfl

theorem sub_detach {n' m : Node} (hs : Sub n' m.detach) : ∃ n, Sub n m ∧ n' = n.detach := by
  generalize hM : m.detach = M at hs
  induction hs generalizing m with
  | refl => exact ⟨m, .refl, hM.symm⟩
  | @kid c M hc hs ih =>
    rw [← hM, kids_detach] at hc
    obtain ⟨k, hk, rfl⟩ := List.mem_map.1 hc
    obtain ⟨n, hn, rfl⟩ := ih rfl
    exact ⟨n, .kid hk hn, rfl⟩

theorem occ_detach {n' : Node} {l : List Node} (h : Occ n' (detachList l)) : ∃ n, Occ n l ∧ n' = n.detach := by
  rw [detachList_eq] at h
  obtain ⟨M, hM, hs⟩ := h
  obtain ⟨m, hm, rfl⟩ := List.mem_map.1 hM
  obtain ⟨n, hn, rfl⟩ := sub_detach hs
  exact ⟨n, ⟨m, hm, hn⟩, rfl⟩

theorem occ_detach_id {n' : Node} {l : List Node} (h : Occ n' (detachList l)) : n'.data.id = 0 := by
  obtain ⟨n, _, rfl⟩ := occ_detach h
  rw [data_detach, detach_data_id]

/-! ## Completions used by the managers -/

theorem inserts_setData {id : Nat} {d : NodeData} (h : d.id = id) : Inserts id (·.setData d) [] where
  kids := by intro x c hc; exact .inl (by simpa [Spec.kids, Node.setData, Node.content, Node.labels, Node.extra] using hc)
  id := by intro x _; exact h
  same := fun _ => ⟨rfl, rfl⟩
  labels := fun _ => rfl

theorem inserts_setContent {id : Nat} (cs : List Node) : Inserts id (·.setContent cs) cs where
  kids := by
    intro x c hc
    simp only [Spec.kids, Node.setContent, Node.content, Node.labels, Node.extra, List.mem_append] at hc ⊢
    rcases hc with (hc | hc) | hc
    · exact .inr hc
    · exact .inl (.inl (.inr hc))
    · exact .inl (.inr hc)
  id := by intro x h; exact h
  same := fun _ => ⟨rfl, rfl⟩
  labels := fun _ => rfl

end Mau
