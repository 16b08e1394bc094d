import Verif.Lemmas.DocWhole
import Verif.Spec.Positions

set_option linter.unusedSimpArgs false

/-!
# Completing a document keeps the positions of its nodes
-/

namespace Mau
open Spec

variable {files : Str → Except Bool Str} {exact : Bool} {src : Option Str} {last : Nat}

/-- A node that starts in the range `lo` to `hi` starts in every larger range. -/
theorem Spec.Located.widen {lo hi lo' hi' last' : Nat} {n : Node} (h : Located files exact src last lo hi n) (h1 : exact = true → lo' ≤ lo) (h2 : hi ≤ hi') (h3 : last ≤ last') :
    Located files exact src last' lo' hi' n := by
  have hb : ∀ {e : Bool} {s : Option Str} {c : Context} {l l' a b a' b' : Nat}, Begins e s l a b c → (e = true → a' ≤ a) → b ≤ b' → l ≤ l' → Begins e s l' a' b' c :=
    fun h k1 k2 k3 => ⟨h.source, fun hx => Nat.le_trans (k1 hx) (h.lower hx), Nat.le_trans h.upper k2, Nat.le_trans h.inside k3, h.ends⟩
  have same : ∀ {a : Nat} {e : Bool}, e = true → a ≤ a := fun _ => Nat.le_refl _
  induction h generalizing lo' hi' last' with
  | empty hd hk => exact .empty hd hk
  | vague hd => exact .vague hd
  | label hd hc hk ih => exact .label hd hc fun c hc => ih c hc h1 h2 h3
  | included hd hb' hf hc hl he _ ih => exact .included hd (hb hb' h1 h2 h3) hf hc (fun e he => ih e he same (Nat.le_refl _) h3) he
  | gathered hd hb' hl ih => exact .gathered hd (hb hb' h1 h2 h3) (fun e he => ih e he same (Nat.le_refl _) h3)
  | read hd hb' ho hc hl he ih1 ih2 => exact .read hd (hb hb' h1 h2 h3) ho (fun c hc => ih1 c hc same (Nat.le_refl _) h3) (fun e he => ih2 e he same (Nat.le_refl _) h3) he

theorem Spec.Located.mono {lo hi lo' hi' : Nat} {n : Node} (h : Located files exact src last lo hi n) (h1 : exact = true → lo' ≤ lo) (h2 : hi ≤ hi') :
    Located files exact src last lo' hi' n := h.widen h1 h2 (Nat.le_refl _)

theorem fits_id {t : Tag} {i : Nat} {d : NodeData} (h : t.Fits i d) : d.id = i := by
  cases t <;> simp only [Tag.Fits] at h
  · obtain ⟨_, rfl⟩ := h; rfl
  · obtain ⟨_, rfl⟩ := h; rfl
  · obtain ⟨_, _, rfl⟩ := h; rfl
  · subst h; rfl
  · subst h; rfl
  · subst h; rfl

/-- Two nodes of the same class, as far as positions are concerned. -/
theorem fits_class {t : Tag} {i : Nat} {d d' : NodeData} (h : t.Fits i d) (h' : t.Fits i d') :
    (Gathers d ↔ Gathers d') ∧ (InlineClass d ↔ InlineClass d') ∧ (∀ u, d' ≠ .includeMau u) ∧ (∀ r, d ≠ .label r) ∧ (∀ u, d ≠ .includeMau u) ∧ d ≠ .text [] := by
  cases t <;> simp only [Tag.Fits] at h h'
  · obtain ⟨_, rfl⟩ := h; obtain ⟨_, rfl⟩ := h'; simp [Gathers, InlineClass]
  · obtain ⟨_, rfl⟩ := h; obtain ⟨_, rfl⟩ := h'; simp [Gathers, InlineClass]
  · obtain ⟨_, _, rfl⟩ := h; obtain ⟨_, _, rfl⟩ := h'; simp [Gathers, InlineClass]
  · subst h; subst h'; simp [Gathers, InlineClass]
  · subst h; subst h'; simp [Gathers, InlineClass]
  · subst h; subst h'; simp [Gathers, InlineClass]

/-- What completing the nodes with the identity `i` by `f` does to a node `m`. -/
def Apt (i : Nat) (f : Node → Node) (m : Node) : Prop :=
  m.data.id = i → ∀ y, y.data = m.data → ∃ t : Tag, t.Fits i m.data ∧ t.Fits i (f y).data ∧ (¬ Gathers m.data → (f y).content = y.content ∧ (f y).extra = y.extra)

theorem mapId_ctx {i : Nat} {f : Node → Node} {cs : List Node} (hf : Inserts i f cs) (n : Node) : (n.mapId i f).ctx = n.ctx := by
  rw [mapId_eq]
  split
  · rw [(hf.same _).2]; rfl
  · rfl

theorem mapId_labels {i : Nat} {f : Node → Node} {cs : List Node} (hf : Inserts i f cs) (n : Node) : (n.mapId i f).labels = n.labels.map fun kv => (kv.1, Node.mapId i f kv.2) := by
  rw [mapId_eq]
  split
  · rw [hf.labels]; exact mapIdLabels_eq _ _ _
  · exact mapIdLabels_eq _ _ _

theorem mapId_other {i : Nat} {f : Node → Node} {n : Node} (ha : Apt i f n) (h : ∀ t : Tag, ¬ t.Fits i n.data) : n.mapId i f = below i f n := by
  rw [mapId_eq]
  split
  · rename_i e
    obtain ⟨t, h1, _⟩ := ha e n rfl
    exact absurd h1 (h t)
  · rfl

theorem inOrder_mapId {i : Nat} {f : Node → Node} {cs : List Node} (hf : Inserts i f cs) {ns : List Node} (ha : ∀ n ∈ ns, Apt i f n) (h : InOrder ns) :
    InOrder (mapIdList i f ns) := by
  rw [mapIdList_eq]
  unfold InOrder at h ⊢
  rw [List.pairwise_map]
  have hempty : ∀ n ∈ ns, n.data = .text [] → (n.mapId i f).data = .text [] := by
    intro n hn he
    rw [mapId_other (ha n hn) fun t ht => (fits_class ht ht).2.2.2.2.2 he]
    exact he
  refine List.Pairwise.imp_of_mem ?_ h
  intro a b h1 h2 hab
  rcases hab with hab | hab | hab
  · exact .inl (hempty a h1 hab)
  · exact .inr (.inl (hempty b h2 hab))
  · rw [mapId_ctx hf, mapId_ctx hf]; exact .inr (.inr hab)

theorem located_mapId {i : Nat} {f : Node → Node} {cs : List Node} (hf : Inserts i f cs) {lo hi : Nat} {n : Node} (h : Located files exact src last lo hi n)
    (ha : ∀ m, Sub m n → Apt i f m) : Located files exact src last lo hi (n.mapId i f) := by
  induction h with
  | @empty exact src last lo hi n hd hk =>
    rw [mapId_other (ha n .refl) fun t ht => (fits_class ht ht).2.2.2.2.2 hd]
    exact .empty hd (by rw [kids_below, hk]; rfl)
  | @vague src last lo hi n hd =>
    refine .vague ?_
    rw [mapId_eq]
    split
    · rename_i e
      obtain ⟨t, h1, h2, _⟩ := ha n .refl e (below i f n) rfl
      exact (fits_class h1 h2).2.1.1 hd
    · exact hd
  | @label exact src last lo hi n role hd hc hk ih =>
    rw [mapId_other (ha n .refl) fun t ht => (fits_class ht ht).2.2.2.1 role hd]
    refine .label hd hc ?_
    rw [kids_below]
    intro c hc'
    obtain ⟨k, hk', rfl⟩ := List.mem_map.1 hc'
    exact ih k hk' fun m hm => ha m (.kid hk' hm)
  | @included exact src last lo hi n uri text hd hb hfl hc hl he ih1 ih2 =>
    rw [mapId_other (ha n .refl) fun t ht => (fits_class ht ht).2.2.2.2.1 uri hd]
    refine .included hd hb hfl ?_ ?_ ?_
    · intro c hc'
      have hc' : c ∈ mapIdList i f n.content := hc'
      rw [mapIdList_eq] at hc'
      obtain ⟨k, hk', rfl⟩ := List.mem_map.1 hc'
      exact ih1 k hk' fun m hm => ha m (.kid (by simp [kids, hk']) hm)
    · intro e he'
      have he' : e ∈ mapIdLabels i f n.labels := he'
      rw [mapIdLabels_eq] at he'
      obtain ⟨k, hk', rfl⟩ := List.mem_map.1 he'
      exact ih2 k hk' fun m hm => ha m (.kid (by simp only [kids, List.mem_append]; exact .inl (.inr (List.mem_map.2 ⟨k, hk', rfl⟩))) hm)
    · show mapIdList i f n.extra = []
      rw [he]; rfl
  | @gathered exact src last lo hi n hd hb hl ih =>
    refine .gathered ?_ (by rw [mapId_ctx hf]; exact hb) ?_
    · rw [mapId_eq]
      split
      · rename_i e
        obtain ⟨t, h1, h2, _⟩ := ha n .refl e (below i f n) rfl
        exact (fits_class h1 h2).1.1 hd
      · exact hd
    · intro e he'
      rw [mapId_labels hf] at he'
      obtain ⟨k, hk', rfl⟩ := List.mem_map.1 he'
      rw [mapId_ctx hf]
      exact ih k hk' fun m hm => ha m (.kid (by simp only [kids, List.mem_append]; exact .inl (.inr (List.mem_map.2 ⟨k, hk', rfl⟩))) hm)
  | @read exact src last lo hi n hd hb ho hc hl he ih1 ih2 =>
    have hlabels : ∀ e ∈ (n.mapId i f).labels, Located files exact src last 0 (n.mapId i f).ctx.endLine e.2 := by
      intro e he'
      rw [mapId_labels hf] at he'
      obtain ⟨k, hk', rfl⟩ := List.mem_map.1 he'
      rw [mapId_ctx hf]
      exact ih2 k hk' fun m hm => ha m (.kid (by simp only [kids, List.mem_append]; exact .inl (.inr (List.mem_map.2 ⟨k, hk', rfl⟩))) hm)
    have hcontent : ∀ c ∈ mapIdList i f n.content, Located files exact src last n.ctx.startLine n.ctx.endLine c := by
      intro c hc'
      rw [mapIdList_eq] at hc'
      obtain ⟨k, hk', rfl⟩ := List.mem_map.1 hc'
      exact ih1 k hk' fun m hm => ha m (.kid (by simp [kids, hk']) hm)
    have horder : exact = true → InOrder (mapIdList i f n.content) := fun hx =>
      inOrder_mapId hf (fun m hm => ha m (.kid (by simp [kids, hm]) .refl)) (ho hx)
    by_cases e : n.data.id = i
    · obtain ⟨t, h1, h2, h3⟩ := ha n .refl e (below i f n) rfl
      have hm : n.mapId i f = f (below i f n) := by rw [mapId_eq, if_pos e]
      by_cases hg : Gathers n.data
      · refine .gathered ?_ (by rw [mapId_ctx hf]; exact hb) hlabels
        rw [hm]
        exact (fits_class h1 h2).1.1 hg
      · obtain ⟨h4, h5⟩ := h3 hg
        have h4' : (n.mapId i f).content = mapIdList i f n.content := by rw [hm, h4]; rfl
        have h5' : (n.mapId i f).extra = [] := by rw [hm, h5]; show mapIdList i f n.extra = []; rw [he]; rfl
        refine .read ?_ (by rw [mapId_ctx hf]; exact hb) ?_ ?_ hlabels h5'
        · rw [hm]; exact (fits_class h1 h2).2.2.1
        · rw [h4']; exact horder
        · rw [h4', mapId_ctx hf]; exact hcontent
    · have hm : n.mapId i f = below i f n := by rw [mapId_eq, if_neg e]
      rw [hm] at hlabels ⊢
      refine .read hd hb horder hcontent hlabels ?_
      show mapIdList i f n.extra = []
      rw [he]; rfl

/-- Completions keep the positions. -/
theorem Steps.located {lo : Nat} {base : List Node} {K : Nat → Prop} {s s' : DocSt} {os os' : List Node} (hs : Steps lo base K s os s' os') (h : FW lo base s os) :
    ∃ F : Node → Node, s'.nodes = s.nodes.map F ∧ ∀ n ∈ s.nodes, (F n).ctx = n.ctx ∧ (n.data = .text [] → (F n).data = .text []) ∧
      ∀ a b, Located files exact src last a b n → Located files exact src last a b (F n) := by
  induction hs with
  | refl => exact ⟨id, by simp, fun _ _ => ⟨rfl, fun h => h, fun _ _ h => h⟩⟩
  | @step s s' os os' cs i t f hi hK hf hcs hc hx rest ih =>
    obtain ⟨F, h1, h2⟩ := ih (h.update (h.range hi).1 hf hcs hc)
    have hn : (s.updateNode i f).nodes = s.nodes.map (Node.mapId i f) := mapIdList_eq i f s.nodes
    refine ⟨F ∘ Node.mapId i f, by rw [h1, hn, List.map_map], fun n hm => ?_⟩
    have hap : ∀ m, Sub m n → Apt i f m := by
      intro m hs e y hy
      have ho : Occ m (trees s os) := occ_append.2 (.inl ⟨n, hm, hs⟩)
      have hfit := h.core.fits _ hi m ho e
      have hco := hc m y ho e hy
      exact ⟨t, hfit, hco.fits t hfit, hco.content⟩
    obtain ⟨k1, k2, k3⟩ := h2 (n.mapId i f) (by rw [hn]; exact List.mem_map.2 ⟨n, hm, rfl⟩)
    refine ⟨by rw [Function.comp, k1, mapId_ctx hf], fun he => k2 ?_, fun a b hl => k3 a b (located_mapId hf hl hap)⟩
    rw [mapId_other (hap n .refl) fun t ht => (fits_class ht ht).2.2.2.2.2 he]
    exact he

theorem located_filled {gs : Dict (Dict Node)} {l : List (Nat × Str)} {n : Node} {a b : Nat} (h : Located files exact src last a b n) : Located files exact src last a b (filled gs l n) := by
  unfold filled
  split
  · rename_i i g hd
    split
    · cases h with
      | empty hd' hk => rw [hd'] at hd; cases hd
      | vague hd' => rw [hd] at hd'; exact hd'.elim
      | label hd' => rw [hd'] at hd; cases hd
      | included hd' => rw [hd'] at hd; cases hd
      | gathered hd' hb hl => exact .gathered (by show Gathers n.data; exact hd') hb hl
      | read hd' hb ho hc hl he => exact .gathered (by show Gathers n.data; rw [hd]; trivial) hb hl
    · exact h
  · exact h

/-- Finalisation keeps the positions. -/
theorem Finalised.located {cfg : Config} {lo : Nat} {base : List Node} {s s' : DocSt} {os os' : List Node} (h : Finalised cfg lo base s os s' os') :
    ∃ F : Node → Node, s'.nodes = s.nodes.map F ∧ ∀ n ∈ s.nodes, (F n).ctx = n.ctx ∧ (n.data = .text [] → (F n).data = .text []) ∧
      ∀ a b, Located files exact src last a b n → Located files exact src last a b (F n) := by
  obtain ⟨s6, os1, os6, h1, h2, h3, -⟩ := h.steps
  obtain ⟨F, k1, k2⟩ := h2.located (files := files) (exact := exact) (src := src) h1
  have k1 : s6.nodes = s.nodes.map F := k1
  refine ⟨fun n => filled s'.groups s.groupNodes (F n), by rw [h3, k1, List.map_map]; rfl, fun n hn => ?_⟩
  obtain ⟨k3, k4, k5⟩ := k2 n hn
  refine ⟨?_, ?_, fun a b hl => located_filled (k5 a b hl)⟩
  · rw [← k3]
    unfold filled
    dsimp only
    split
    · split <;> rfl
    · rfl
  · intro he
    have := k4 he
    unfold filled
    dsimp only
    rw [this]
    exact this

end Mau
