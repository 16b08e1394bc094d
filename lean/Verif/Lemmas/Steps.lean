import Verif.Lemmas.Finalise

set_option linter.unusedSimpArgs false
set_option linter.unusedVariables false

/-!
# Sequences of completions
-/

namespace Mau
open Spec

/-- The kind of a registration. -/
def Tag.kind : Tag → Nat
  | .mention _ => 0
  | .link _ => 1
  | .header _ => 2
  | .toc => 3
  | .footnotes => 4
  | .group _ => 5

theorem fits_kind {T T' : Tag} {i : Nat} {d : NodeData} (h : T.Fits i d) (h' : T'.Fits i d) : T.kind = T'.kind := by
  cases T <;> cases T' <;> simp only [Tag.Fits] at h h' <;> first | rfl | skip
  all_goals
    exfalso
    first
      | (obtain ⟨_, _, h⟩ := h; obtain ⟨_, _, h'⟩ := h'; rw [h] at h'; cases h'; done)
      | (obtain ⟨_, _, h⟩ := h; obtain ⟨_, h'⟩ := h'; rw [h] at h'; cases h'; done)
      | (obtain ⟨_, _, h⟩ := h; rw [h] at h'; cases h'; done)
      | (obtain ⟨_, h⟩ := h; obtain ⟨_, _, h'⟩ := h'; rw [h] at h'; cases h'; done)
      | (obtain ⟨_, h⟩ := h; obtain ⟨_, h'⟩ := h'; rw [h] at h'; cases h'; done)
      | (obtain ⟨_, h⟩ := h; rw [h] at h'; cases h'; done)
      | (obtain ⟨_, _, h'⟩ := h'; rw [h] at h'; cases h'; done)
      | (obtain ⟨_, h'⟩ := h'; rw [h] at h'; cases h'; done)
      | (rw [h] at h'; cases h'; done)

/-- A node fitting two links is a link to the one target. -/
theorem fits_link {a b : Str} {i : Nat} {d : NodeData} (h : (Tag.link a).Fits i d) (h' : (Tag.link b).Fits i d) : a = b := by
  obtain ⟨_, h⟩ := h; obtain ⟨_, h'⟩ := h'; rw [h] at h'; cases h'; rfl

theorem fits_mention {a b : Str} {i : Nat} {d : NodeData} (h : (Tag.mention a).Fits i d) (h' : (Tag.mention b).Fits i d) : a = b := by
  obtain ⟨_, h⟩ := h; obtain ⟨_, h'⟩ := h'; rw [h] at h'; cases h'; rfl

theorem Completes.of_data {objs : List Node} {i : Nat} {f : Node → Node} {x y : Node} (h : (f y).data = x.data) (hr : Resolves objs x.data) (hg : Gathers x.data) :
    Completes objs i f x y where
  fits := fun T hT => by rw [h]; exact hT
  special := by rw [h]
  settled := fun i l nm e => by rw [← h]; exact e
  refs := by rw [h]; exact hr
  kept := by rw [h]; exact ⟨fun _ _ a _ e => ⟨a, e⟩, fun _ _ _ _ _ => rfl⟩
  content := fun h => absurd hg h

/-- A sequence of completions of nodes registered for `K`. -/
inductive Steps (lo : Nat) (base : List Node) (K : Nat → Prop) : DocSt → List Node → DocSt → List Node → Prop where
  | refl {s : DocSt} {os : List Node} : Steps lo base K s os s os
  | step {s s' : DocSt} {os os' cs : List Node} {i : Nat} {t : Tag} {f : Node → Node} (hi : (i, t) ∈ dreg s) (hK : K t.kind) (hf : Inserts i f cs)
      (hcs : ∀ n, Occ n cs → Inert s.objs n) (hc : ∀ x y, Occ x (trees s os) → x.data.id = i → y.data = x.data → Completes s.objs i f x y)
      (hx : t.kind ≠ 1 → ∀ y, t.Fits i y.data → extractNode (f y) = extractNode y)
      (rest : Steps lo base K (s.updateNode i f) (os.map (Node.mapId i f)) s' os') : Steps lo base K s os s' os'

namespace Steps
variable {lo : Nat} {base : List Node} {K : Nat → Prop} {s s' s'' : DocSt} {os os' os'' : List Node}

theorem trans (h : Steps lo base K s os s' os') (h' : Steps lo base K s' os' s'' os'') : Steps lo base K s os s'' os'' := by
  induction h with
  | refl => exact h'
  | step hi hK hf hcs hc hx rest ih => exact .step hi hK hf hcs hc hx (ih h')

theorem mono {K' : Nat → Prop} (h : Steps lo base K s os s' os') (hk : ∀ k, K k → K' k) : Steps lo base K' s os s' os' := by
  induction h with
  | refl => exact .refl
  | step hi hK hf hcs hc hx rest ih => exact .step hi (hk _ hK) hf hcs hc hx ih

theorem fw (hs : Steps lo base K s os s' os') (h : FW lo base s os) : FW lo base s' os' := by
  induction hs with
  | refl => exact h
  | step hi hK hf hcs hc hx rest ih => exact ih (h.update (h.range hi).1 hf hcs hc)

/-- Only trees change. -/
theorem same (hs : Steps lo base K s os s' os') : s' = { s with nodes := s'.nodes, bodies := s'.bodies, groups := s'.groups, objs := s'.objs } := by
  induction hs with
  | refl => rfl
  | step hi hK hf hcs hc hx rest ih => rw [ih]; rfl

theorem reg (hs : Steps lo base K s os s' os') : dreg s' = dreg s := by rw [hs.same]; rfl

/-- One completion, seen from a node of another kind. -/
theorem other1 (h : FW lo base s os) {cs : List Node} {i k : Nat} {t T : Tag} {f : Node → Node} (hi : (i, t) ∈ dreg s) (hf : Inserts i f cs)
    (hcs : ∀ n, Occ n cs → Inert s.objs n) (hk : (k, T) ∈ dreg s) (hT : t.kind ≠ T.kind) {n' : Node} (hn : Occ n' (trees (s.updateNode i f) (os.map (Node.mapId i f))))
    (hid : n'.data.id = k) : ∃ n, Occ n (trees s os) ∧ n.data.id = k ∧ n' = Mau.below i f n := by
  rw [trees_update] at hn
  rcases occ_map hf hn with ⟨n, hn1, rfl⟩ | hn
  · rw [mapId_id hf] at hid
    refine ⟨n, hn1, hid, ?_⟩
    rw [mapId_eq, if_neg]
    intro e
    have h1 := h.core.fits _ hi n hn1 e
    have h2 := h.core.fits _ hk n hn1 hid
    have : i = k := by rw [← e, hid]
    dsimp only at h1 h2
    rw [this] at h1
    exact hT (fits_kind h1 h2)
  · rw [(hcs n' hn).1] at hid
    exact absurd hid.symm (h.range hk).2

/-- Nodes of other kinds keep their fields, and what they contain if it has no identities. -/
theorem other (hs : Steps lo base K s os s' os') (h : FW lo base s os) {k : Nat} {T : Tag} (hk : (k, T) ∈ dreg s) (hT : ¬ K T.kind) {n' : Node} (hn : Occ n' (trees s' os'))
    (hid : n'.data.id = k) : ∃ n, Occ n (trees s os) ∧ n.data.id = k ∧ n'.data = n.data ∧ ((∀ x, Occ x n.content → x.data.id = 0) → n'.content = n.content) ∧
      ((∀ x, Occ x n.extra → x.data.id = 0) → n'.extra = n.extra) := by
  induction hs with
  | refl => exact ⟨n', hn, hid, rfl, fun _ => rfl, fun _ => rfl⟩
  | @step s s' os os' cs i t f hi hK hf hcs hc hx rest ih =>
    have h1 := h.update (h.range hi).1 hf hcs hc
    obtain ⟨m, hm, hmid, hmd, hmc, hme⟩ := ih h1 hk hn
    obtain ⟨n, hn, hnid, rfl⟩ := other1 h hi hf hcs hk (fun e => hT (e ▸ hK)) hm hmid
    have hi0 := (h.range hi).2
    refine ⟨n, hn, hnid, hmd, fun hc0 => ?_, fun hc0 => ?_⟩
    · have e : (Mau.below i f n).content = n.content := mapIdList_none i f _ fun m hm e => hi0 (by rw [← e, hc0 m hm])
      rw [e] at hmc
      exact hmc hc0
    · have e : (Mau.below i f n).extra = n.extra := mapIdList_none i f _ fun m hm e => hi0 (by rw [← e, hc0 m hm])
      rw [e] at hme
      exact hme hc0

/-- Every node with an identity comes from a node with this identity. -/
theorem back (hs : Steps lo base K s os s' os') (h : FW lo base s os) {n' : Node} (hn : Occ n' (trees s' os')) (hid : n'.data.id ≠ 0) :
    ∃ n, Occ n (trees s os) ∧ n.data.id = n'.data.id := by
  induction hs with
  | refl => exact ⟨n', hn, rfl⟩
  | @step s s' os os' cs i t f hi hK hf hcs hc hx rest ih =>
    obtain ⟨m, hm, hmid⟩ := ih (h.update (h.range hi).1 hf hcs hc) hn
    rw [trees_update] at hm
    rcases occ_map hf hm with ⟨n, hn, rfl⟩ | hm
    · rw [mapId_id hf] at hmid
      exact ⟨n, hn, hmid⟩
    · rw [(hcs m hm).1] at hmid
      exact absurd hmid.symm hid

/-- If every header has an internal id this remains so. -/
theorem settled (hs : Steps lo base K s os s' os') (h : FW lo base s os) (hset : ∀ n, Occ n (trees s os) → Settled n) : ∀ n, Occ n (trees s' os') → Settled n := by
  induction hs with
  | refl => exact hset
  | @step s s' os os' cs i t f hi hK hf hcs hc hx rest ih =>
    refine ih (h.update (h.range hi).1 hf hcs hc) ?_
    intro n hn
    rw [trees_update] at hn
    rcases occ_map hf hn with ⟨m, hm, rfl⟩ | hn
    · by_cases e : m.data.id = i
      · intro j l nm hd
        rw [mapId_eq, if_pos e] at hd
        exact hset m hm j l nm ((hc m (Mau.below i f m) hm e rfl).settled j l nm hd)
      · intro j l nm hd
        rw [data_mapId_ne e] at hd
        exact hset m hm j l nm hd
    · exact (hcs n hn).2.1

/-- An object that contains nothing registered for `K` remains. -/
theorem object (hs : Steps lo base K s os s' os') {o : Node} (ho : o ∈ os) (hfree : ∀ x, Sub x o → ∀ T, (x.data.id, T) ∈ dreg s → ¬ K T.kind) : o ∈ os' := by
  induction hs with
  | refl => exact ho
  | @step s s' os os' cs i t f hi hK hf hcs hc hx rest ih =>
    refine ih ?_ hfree
    have : o.mapId i f = o := mapId_none i f o fun m hm e => hfree m hm t (e ▸ hi) hK
    exact List.mem_map.2 ⟨o, ho, this⟩

/-- An object of another kind remains with its fields, and with what it contains if this contains nothing registered for `K`. -/
theorem content (hs : Steps lo base K s os s' os') (h : FW lo base s os) {o : Node} (ho : o ∈ os) {k : Nat} {T : Tag} (hk : (k, T) ∈ dreg s) (hT : ¬ K T.kind) (hid : o.data.id = k) :
    ∃ o' ∈ os', o'.data = o.data ∧ ((∀ x, Occ x o.content → ∀ T, (x.data.id, T) ∈ dreg s → ¬ K T.kind) → o'.content = o.content) := by
  induction hs generalizing o with
  | refl => exact ⟨o, ho, rfl, fun _ => rfl⟩
  | @step s s' os os' cs i t f hi hK hf hcs hc hx rest ih =>
    have ne : o.data.id ≠ i := by
      intro e
      have hoc : Occ o (trees s os) := occ_append.2 (.inr (occ_append.2 (.inr (occ_of_mem ho))))
      have h1 := h.core.fits _ hi o hoc e
      have h2 := h.core.fits _ hk o hoc hid
      have : i = k := by rw [← e, hid]
      dsimp only at h1 h2
      rw [this] at h1
      exact hT ((fits_kind h1 h2) ▸ hK)
    have e : o.mapId i f = Mau.below i f o := by rw [mapId_eq, if_neg ne]
    obtain ⟨o', ho', h1, h2⟩ := ih (h.update (h.range hi).1 hf hcs hc) (o := Mau.below i f o) (List.mem_map.2 ⟨o, ho, e⟩) hk hid
    refine ⟨o', ho', h1, fun hfree => ?_⟩
    have e2 : (Mau.below i f o).content = o.content := mapIdList_none i f _ fun m hm e => hfree m hm t (e ▸ hi) hK
    rw [e2] at h2
    exact h2 hfree

mutual
theorem extract_mapId {i : Nat} {f : Node → Node} {P : Node → Prop} (hf : ∀ y, P y → extractNode (f y) = extractNode y) : ∀ (n : Node), (∀ m, Sub m n → m.data.id = i → ∀ y, y.data = m.data → P y) →
    extractNode (n.mapId i f) = extractNode n
  | .mk d a c cs ls ex, h => by
    have hcs := extractText_mapId hf cs (fun m hm => h m (by
        obtain ⟨k, hk, hs⟩ := hm; exact .kid (by simp [kids, Node.content, hk]) hs))
    have : extractNode (.mk d a c (mapIdList i f cs) (mapIdLabels i f ls) (mapIdList i f ex)) = extractNode (.mk d a c cs ls ex) := by
      rw [extractNode, extractNode, hcs]
    rw [Node.mapId]
    split
    · rename_i e
      rw [hf _ (h (.mk d a c cs ls ex) .refl e (.mk d a c (mapIdList i f cs) (mapIdLabels i f ls) (mapIdList i f ex)) rfl), this]
    · exact this
theorem extractText_mapId {i : Nat} {f : Node → Node} {P : Node → Prop} (hf : ∀ y, P y → extractNode (f y) = extractNode y) : ∀ (l : List Node), (∀ m, Occ m l → m.data.id = i → ∀ y, y.data = m.data → P y) →
    extractText (mapIdList i f l) = extractText l
  | [], _ => rfl
  | n :: ns, h => by
    rw [mapIdList, extractText, extractText, extract_mapId hf n (fun m hm => h m (occ_cons.2 (.inl hm))), extractText_mapId hf ns (fun m hm => h m (occ_cons.2 (.inr hm)))]
end

/-- The text of a node does not change unless links are filled. -/
theorem text' (hs : Steps lo base K s os s' os') (h : FW lo base s os) (hK : ¬ K 1) {n' : Node} (hn' : Occ n' (trees s' os')) (hid' : n'.data.id ≠ 0) :
    ∃ n, Occ n (trees s os) ∧ n.data.id = n'.data.id ∧ extractNode n' = extractNode n := by
  induction hs with
  | refl => exact ⟨n', hn', rfl, rfl⟩
  | @step s s' os os' cs i t f hi hKt hf hcs hc hx rest ih =>
    obtain ⟨m, hm, hmid, e⟩ := ih (h.update (h.range hi).1 hf hcs hc) hn'
    rw [trees_update] at hm
    rcases occ_map hf hm with ⟨n, hn, rfl⟩ | hm
    · rw [mapId_id hf] at hmid
      refine ⟨n, hn, hmid, e.trans ?_⟩
      refine extract_mapId (P := fun y => t.Fits i y.data) (fun y hy => hx (fun e => hK (e ▸ hKt)) y hy) n ?_
      intro m hm e y hy
      rw [hy]
      exact h.core.fits _ hi m (occ_sub hm hn) e
    · rw [(hcs m hm).1] at hmid
      exact absurd hmid.symm hid'

theorem text (hs : Steps lo base K s os s' os') (h : FW lo base s os) (hK : ¬ K 1) {k : Nat} (hk0 : k ≠ 0) {n n' : Node} (hn : Occ n (trees s os)) (hid : n.data.id = k)
    (hn' : Occ n' (trees s' os')) (hid' : n'.data.id = k) : extractNode n' = extractNode n := by
  obtain ⟨m, hm, hmid, e⟩ := hs.text' h hK hn' (by rw [hid']; exact hk0)
  rw [e, h.core.same n m hn hm (by rw [hid]; exact hk0) (by rw [hid, hmid, hid'])]

end Steps
end Mau
