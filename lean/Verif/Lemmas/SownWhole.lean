import Verif.Lemmas.SownBlocks

set_option linter.unusedSimpArgs false
set_option linter.unusedVariables false

/-!
# All mentions in the text of a document are completed
-/

namespace Mau
open Spec

theorem opens_header {d : NodeData} {i : Nat} {t : Tag} (h : t.Fits i d) (ht : t.kind ≠ 5) (ho : Opens d) : ∃ l a b, d = .header i l a b ∧ t = .header l := by
  cases t <;> simp only [Tag.Fits] at h
  · obtain ⟨_, rfl⟩ := h; exact ho.elim
  · obtain ⟨_, rfl⟩ := h; exact ho.elim
  · obtain ⟨a, b, rfl⟩ := h; exact ⟨_, _, _, rfl, rfl⟩
  · subst h; exact ho.elim
  · subst h; exact ho.elim
  · exact absurd rfl ht

/-- What is reached after a completion was reached before. -/
theorem reached_map {lo : Nat} {base : List Node} {s : DocSt} {os cs : List Node} {i : Nat} {t : Tag} {f : Node → Node} (h : FW lo base s os) (hi : (i, t) ∈ dreg s) (ht : t.kind ≠ 5) (hf : Inserts i f cs)
    (hc : ∀ x y, Occ x (trees s os) → x.data.id = i → y.data = x.data → Completes s.objs i f x y) {x' : Node} {ms : List Node} (hr : Reached x' ms) :
    ∀ {ns : List Node}, (∀ n, Occ n ns → Occ n (trees s os)) → ms = ns.map (Node.mapId i f) → ∃ x, Reached x ns ∧ x' = x.mapId i f := by
  induction hr with
  | here hx =>
    intro ns hns e
    subst e
    obtain ⟨x, hx0, rfl⟩ := List.mem_map.1 hx
    exact ⟨x, .here hx0, rfl⟩
  | @content ms n' hn ho hr ih =>
    intro ns hns e
    subst e
    obtain ⟨n, hn0, rfl⟩ := List.mem_map.1 hn
    have hocc := hns n ⟨n, hn0, .refl⟩
    have key : Opens n.data ∧ (n.mapId i f).content = n.content.map (Node.mapId i f) := by
      rw [mapId_eq] at ho ⊢
      by_cases e : n.data.id = i
      · rw [if_pos e] at ho ⊢
        have hcc := hc n (Mau.below i f n) hocc e rfl
        have hfit := h.core.fits _ hi n hocc e
        obtain ⟨l, a, b, e1, e2⟩ := opens_header (hcc.fits t hfit) ht ho
        rw [e2] at hfit
        obtain ⟨a', b', e3⟩ := hfit
        refine ⟨by rw [e3]; exact trivial, ?_⟩
        have hg : ¬ Gathers n.data := by rw [e3]; exact id
        rw [(hcc.content hg).1]
        unfold Mau.below
        simp only [Node.content, mapIdList_eq]
      · rw [if_neg e] at ho ⊢
        refine ⟨ho, ?_⟩
        unfold Mau.below
        simp only [Node.content, mapIdList_eq]
    obtain ⟨x, hx, rfl⟩ := ih (ns := n.content) (fun m hm => by
      obtain ⟨k, hk, hs⟩ := hm
      exact hns m ⟨n, hn0, .kid (by simp [kids, hk]) hs⟩) key.2
    exact ⟨x, .content hn0 key.1 hx, rfl⟩
  | @label ms n' e hn he hr ih =>
    intro ns hns e'
    subst e'
    obtain ⟨n, hn0, rfl⟩ := List.mem_map.1 hn
    have key : (n.mapId i f).labels = n.labels.map fun kv => (kv.1, Node.mapId i f kv.2) := by
      rw [mapId_eq]
      split
      · rw [hf.labels]; unfold Mau.below; simp only [Node.labels, mapIdLabels_eq]
      · unfold Mau.below; simp only [Node.labels, mapIdLabels_eq]
    rw [key] at he
    obtain ⟨kv, hkv, rfl⟩ := List.mem_map.1 he
    obtain ⟨x, hx, rfl⟩ := ih (ns := [kv.2]) (fun m hm => by
      obtain ⟨k, hk, hs⟩ := hm
      simp only [List.mem_singleton] at hk
      subst hk
      refine hns m ⟨n, hn0, .kid ?_ hs⟩
      unfold kids
      exact List.mem_append_left _ (List.mem_append_right _ (List.mem_map.2 ⟨_, hkv, rfl⟩))) rfl
    exact ⟨x, .label hn0 hkv hx, rfl⟩

/-- A node that is not registered is reached unchanged. -/
theorem Steps.reached {lo : Nat} {base : List Node} {K : Nat → Prop} {s s' : DocSt} {os os' : List Node} (hK5 : ∀ k, K k → k ≠ 5) (hs : Steps lo base K s os s' os')
    (h : FW lo base s os) {x' : Node} (hr : Reached x' (s'.nodes ++ members s'.groups)) (hn : ∀ T, (x'.data.id, T) ∉ dreg s) :
    ∃ x, Reached x (s.nodes ++ members s.groups) ∧ x.data = x'.data := by
  induction hs with
  | refl => exact ⟨x', hr, rfl⟩
  | @step s s' os os' cs i t f hi hK hf hcs hc hx rest ih =>
    obtain ⟨y, hy, e⟩ := ih (h.update (h.range hi).1 hf hcs hc) hr hn
    obtain ⟨x, hx, rfl⟩ := reached_map h hi (hK5 _ hK) hf hc hy (ns := s.nodes ++ members s.groups)
      (fun n hn => by
        unfold trees
        rcases occ_append.1 hn with hn | hn
        · exact occ_append.2 (.inl hn)
        · exact occ_append.2 (.inr (occ_append.2 (.inl (occ_append.2 (.inr hn))))))
      (by
        unfold DocSt.updateNode
        dsimp only
        rw [mapIdList_eq, members_map, List.map_append])
    refine ⟨x, hx, ?_⟩
    rw [← e, data_mapId_ne]
    intro e'
    refine hn t ?_
    rw [← e, mapId_id hf, e']
    exact hi

theorem reached_filled {gs : Dict (Dict Node)} {l : List (Nat × Str)} {ns : List Node} {x' : Node} (h : Reached x' (ns.map (filled gs l))) : ∃ x, Reached x (ns ++ members gs) ∧ x.data = x'.data := by
  have same : ∀ n, (filled gs l n).data = n.data ∧ (filled gs l n).labels = n.labels ∧ ((filled gs l n).content = n.content ∨ ∀ m ∈ (filled gs l n).content, m ∈ members gs) := by
    intro n
    unfold filled
    split
    · rename_i i g hd
      rw [hd]
      split
      · refine ⟨hd ▸ ?_, ?_, .inr ?_⟩
        · cases n; rfl
        · cases n; rfl
        · intro m hm
          have hm : m ∈ ((Dict.get? gs g).getD []).map (·.2) := by cases n; exact hm
          cases hg : Dict.get? gs g with
          | none => rw [hg] at hm; cases hm
          | some d =>
            rw [hg] at hm
            obtain ⟨e, he, rfl⟩ := List.mem_map.1 hm
            exact DGood.mem_members.2 ⟨g, d, Dict.mem_of_get? hg, e.1, he⟩
      · exact ⟨hd, rfl, .inl rfl⟩
    · exact ⟨rfl, rfl, .inl rfl⟩
  obtain ⟨n', hn, h⟩ := h.split
  obtain ⟨n, hn0, rfl⟩ := List.mem_map.1 hn
  obtain ⟨h1, h2, h3⟩ := same n
  rcases h with rfl | ⟨ho, h⟩ | ⟨e, he, h⟩
  · exact ⟨n, .here (List.mem_append_left _ hn0), h1.symm⟩
  · rw [h1] at ho
    rcases h3 with h3 | h3
    · rw [h3] at h
      exact ⟨x', .content (List.mem_append_left _ hn0) ho h, rfl⟩
    · exact ⟨x', h.mono fun m hm => List.mem_append_right _ (h3 m hm), rfl⟩
  · rw [h2] at he
    exact ⟨x', .label (List.mem_append_left _ hn0) he h, rfl⟩

/-- When the document is finished the mentions which are collected are completed. -/
theorem Finalised.complete {cfg : Config} {lo : Nat} {base : List Node} {s s' : DocSt} {os os' : List Node} (hF : Finalised cfg lo base s os s' os') (hk : Known s (s.nodes ++ members s.groups)) : Complete s'.nodes := by
  intro x' hx'
  have hocc : Occ x' (Mau.trees s' os') := by unfold Mau.trees; exact occ_append.2 (.inl hx'.occ)
  obtain ⟨s6, os1, os6, hfw, hst, hnodes, hgroups⟩ := hF.steps
  have key : ∀ (T : Tag), T.Fits x'.data.id x'.data → (∀ T', (x'.data.id, T') ∈ dreg s → False) → ∃ x, Reached x (s.nodes ++ members s.groups) ∧ x.data = x'.data := by
    intro T _ hno
    have h1 := hx'
    rw [hnodes] at h1
    obtain ⟨y, hy, e1⟩ := reached_filled h1
    rw [hgroups] at hy
    obtain ⟨x, hx, e2⟩ := hst.reached (fun _ h => h) hfw hy (fun T' hT => hno T' (by rw [← e1]; exact hT))
    exact ⟨x, hx, e2.trans e1⟩
  constructor
  · intro i nm e
    have hid : x'.data.id = i := by rw [e]; rfl
    by_cases hreg : ∃ T', (x'.data.id, T') ∈ dreg s
    · obtain ⟨T', hT'⟩ := hreg
      have hfit := hF.after.core.fits _ (by rw [hF.same] ; exact hT') x' hocc rfl
      have hT : T' = .mention nm := by
        dsimp only at hfit
        rw [e] at hfit
        cases T' <;> simp only [Tag.Fits] at hfit
        · obtain ⟨_, h⟩ := hfit; injection h with _ h; rw [h]
        · obtain ⟨_, h⟩ := hfit; cases h
        · obtain ⟨_, _, h⟩ := hfit; cases h
        · cases hfit
        · cases hfit
        · cases hfit
      rw [hT, hid] at hT'
      obtain ⟨fn, -, hlink⟩ := hF.mentions _ (mem_dreg.1 hT')
      have := hlink x' hocc hid
      rw [e] at this
      cases this
    · obtain ⟨x, hx, e2⟩ := key (.mention nm) (by rw [e]; exact ⟨none, rfl⟩) fun T' h => hreg ⟨T', h⟩
      have := (hk x hx).1 i nm (e2.trans e)
      exact hreg ⟨.mention nm, by rw [hid]; exact mem_dreg.2 this⟩
  · intro i nm e
    have hid : x'.data.id = i := by rw [e]; rfl
    by_cases hreg : ∃ T', (x'.data.id, T') ∈ dreg s
    · obtain ⟨T', hT'⟩ := hreg
      have hfit := hF.after.core.fits _ (by rw [hF.same] ; exact hT') x' hocc rfl
      have hT : T' = .link nm := by
        dsimp only at hfit
        rw [e] at hfit
        cases T' <;> simp only [Tag.Fits] at hfit
        · obtain ⟨_, h⟩ := hfit; cases h
        · obtain ⟨_, h⟩ := hfit; injection h with _ h; rw [h]
        · obtain ⟨_, _, h⟩ := hfit; cases h
        · cases hfit
        · cases hfit
        · cases hfit
      rw [hT, hid] at hT'
      obtain ⟨hd, -, hlink⟩ := hF.links _ (mem_dreg.1 hT')
      have := (hlink x' hocc hid).1
      rw [e] at this
      cases this
    · obtain ⟨x, hx, e2⟩ := key (.link nm) (by rw [e]; exact ⟨none, rfl⟩) fun T' h => hreg ⟨T', h⟩
      have := (hk x hx).2 i nm (e2.trans e)
      exact hreg ⟨.link nm, by rw [hid]; exact mem_dreg.2 this⟩

theorem base_harmless : EnvAll Harmless (Env.fromDict baseEnvItems c%"mau.parser") := by
  have h : ∀ kv ∈ Env.fromDict baseEnvItems c%"mau.parser", Harmless kv.2 := by unfold Harmless; decide
  exact fun k v hm => h _ hm

theorem parseDocument_sown (cfg : Config) (n : Nat) : NestedSown (parseDocument cfg n) := by
  induction n with
  | zero => exact fun req s' _ _ _ h => (nomatch h)
  | succ n ih =>
    intro req s' hfr hc hd h
    obtain ⟨m, s0, os, os', hm, h1, h2, h3⟩ := parsed_spec h hfr.1 hfr.2
    cases hm
    have hs : Sown s0 := by
      unfold Parser.run at h1
      cases hd' : docTokens req.source req.startLine req.startColumn (splitChar '\n' req.text) with
      | error e => simp only [parser, hd'] at h1; cases h1
      | ok toks =>
        simp only [parser, hd'] at h1
        have hn : ∀ l ∈ splitChar '\n' req.text, '\n' ∉ l := fun l hl => sep_not_mem_of_mem_split hl
        have hE := docTokens_ends _ _ _ _ _ hd'
        have hw : WF req.uid req.objs (start (initial req)) [] [] := (WF.initial hfr.1 hfr.2).started
        obtain ⟨s1, h4, rfl⟩ := map_ok h1
        have hp := sown_loop (sown_fns hE ih) (DGood.docFns (parseDocument_good cfg n) cfg n (docTokens_headers _ _ _ _ _ hd')) (toks.length + 2) (t := initialLast)
          (s := start (initial req)) ⟨⟨EnvAll.initEnv harmless_empty base_harmless hc, .nil, .nil, fun _ h => (nomatch h)⟩, stock_lines hn hd hd'⟩ hw s1 h4
        exact hp.1.of
    refine ⟨h3.complete (hs.nodes.append hs.groups), ?_⟩
    have e' : s'.env = s0.env := (rest_finalise h2).env
    rw [e']
    exact hs.env

end Mau
