import Verif.Lemmas.StepsMore

set_option linter.unusedSimpArgs false
set_option linter.unusedVariables false

/-!
# What finalisation does
-/

namespace Mau
open Spec

/-- The collected headers of `s`, with the fields they have in `s'` and the text they had in `s`. -/
def headerGists (s s' : DocSt) : List (NodeData × Str) :=
  s.tocHeaders.filterMap fun e => (s'.obj? e.1).bind fun o' => (s.obj? e.1).map fun o => (o'.data.detach, extractNode o)

/-- `Finalised cfg lo base s os s' os'`: the parser was in the state `s` with the objects `os` of its own when it was finalised, and is now in the state `s'`. -/
structure Finalised (cfg : Config) (lo : Nat) (base : List Node) (s : DocSt) (os : List Node) (s' : DocSt) (os' : List Node) : Prop where
  before : FW lo base s os
  after : FW lo base s' os'
  settled : ∀ n, Occ n (trees s' os') → Settled n
  same : s' = { s with uid := s'.uid, nodes := s'.nodes, bodies := s'.bodies, groups := s'.groups, objs := s'.objs }
  footnotes : ∀ kv ∈ (makeFootnotes cfg 1 s.uid s.bodies).1, kv.2 ∈ os'
  mentions : Linked s' os' (makeFootnotes cfg 1 s.uid s.bodies).1 s.footnoteMacros
  lists : ∀ i ∈ s.footnoteLists, ∀ n, Occ n (trees s' os') → n.data.id = i →
    n.content = (makeFootnotes cfg 1 s.uid s.bodies).1.map fun kv => Node.new (.footnotesItem kv.2.data.id) Context.empty
  headers : HaveIds cfg os s' os' s.tocHeaders
  tocs : s.tocHeaders ≠ [] → ∀ i ∈ s.tocNodes, ∀ n, Occ n (trees s' os') → n.data.id = i →
    n.content = outlineNodes (outline s.tocHeaders) ∧ n.extra.map gist = headerGists s s'
  links : ∀ e ∈ s.linkMacros, ∃ h, Dict.get? s.linkHeaders e.2 = some h ∧ ∀ n', Occ n' (trees s' os') → n'.data.id = e.1 → n'.data = .macroHeader e.1 e.2 (some h) ∧
    ∃ n, Occ n (trees s os) ∧ n.data.id = e.1 ∧ (n.content ≠ [] → n'.content ≠ [] ∧ ((∀ x, Occ x n.content → ∀ T, (x.data.id, T) ∉ dreg s) → n'.content = n.content)) ∧
      (n.content = [] → ∀ o, Occ o (trees s os) → o.data.id = h → (∀ x, Sub x o → ∀ tg, (x.data.id, tg) ∉ s.linkMacros) →
        ∀ o', Occ o' (trees s' os') → o'.data.id = h → n'.content = detachList o'.content)
  groups : (∀ e ∈ s.groupNodes, ∃ items, Dict.get? s'.groups e.2 = some items) ∧ ∀ n ∈ s'.nodes, ∀ i g, n.data = .blockgroup i g → n.content = ((Dict.get? s'.groups g).getD []).map (·.2)
  trees : ∃ F, Completion F ∧ s'.nodes = (s.nodes.map F).map (filled s'.groups s.groupNodes) ∧ s'.bodies = s.bodies.map (fun e => (e.1, F e.2)) ∧
    s'.groups = s.groups.map fun g => (g.1, g.2.map fun e => (e.1, F e.2))
  steps : ∃ s6 os1 os6, FW lo base (withFootnotes cfg s) os1 ∧ Steps lo base (· ≠ 5) (withFootnotes cfg s) os1 s6 os6 ∧
    s'.nodes = s6.nodes.map (filled s'.groups s.groupNodes) ∧ s'.groups = s6.groups

theorem outline_nil : outlineNodes (outline []) = [] := rfl

/-- The entries of a list of footnotes. -/
def footnoteItems (fns : Dict Node) : List Node := fns.map fun kv => Node.new (.footnotesItem kv.2.data.id) Context.empty

theorem processFootnotes_ok {cfg : Config} {s s' : DocSt} (h : processFootnotes cfg s = .ok s') :
    ∃ s2, linkFootnotes (makeFootnotes cfg 1 s.uid s.bodies).1 s.footnoteMacros (withFootnotes cfg s) = .ok s2 ∧
      s' = s2.footnoteLists.foldl (fun t id => t.updateNode id (·.setContent (footnoteItems (makeFootnotes cfg 1 s.uid s.bodies).1))) s2 := by
  unfold processFootnotes at h
  dsimp only at h
  change (match linkFootnotes (makeFootnotes cfg 1 s.uid s.bodies).1 s.footnoteMacros (withFootnotes cfg s) with | .error e => _ | .ok s => _) = _ at h
  cases hl : linkFootnotes (makeFootnotes cfg 1 s.uid s.bodies).1 s.footnoteMacros (withFootnotes cfg s) with
  | error e => rw [hl] at h; cases h
  | ok s2 =>
    rw [hl] at h
    cases h
    exact ⟨s2, rfl, rfl⟩


theorem FW.mem1 {cfg : Config} {lo : Nat} {base : List Node} {s : DocSt} {os : List Node} (h : FW lo base s os) {n : Node}
    (hn : Occ n (trees (withFootnotes cfg s) (os ++ vals (makeFootnotes cfg 1 s.uid s.bodies).1))) (h0 : n.data.id ≠ 0) (hlt : n.data.id < s.uid) : Occ n (trees s os) := by
  have hn' : Occ n (s.nodes ++ (vals s.bodies ++ members s.groups ++ (os ++ vals (makeFootnotes cfg 1 s.uid s.bodies).1))) := hn
  rcases occ_append.1 hn' with hn | hn
  · exact occ_append.2 (.inl hn)
  · rcases occ_append.1 hn with hn | hn
    · exact occ_append.2 (.inr (occ_append.2 (.inl hn)))
    · rcases occ_append.1 hn with hn | hn
      · exact occ_append.2 (.inr (occ_append.2 (.inr hn)))
      · exfalso
        obtain ⟨m, hm, hs⟩ := hn
        rw [(makeFootnotes_eq cfg s.bodies 1 s.uid).2] at hm
        obtain ⟨kv, hkv, rfl⟩ := List.mem_map.1 hm
        obtain ⟨j, hj, e⟩ := List.mem_iff_getElem.1 hkv
        rw [List.getElem_mapIdx] at e
        rw [← e] at hs
        rcases sub_cases hs with e | hs
        · rw [e] at hlt
          change s.uid + j < s.uid at hlt
          omega
        · rw [kids_footnoteOf] at hs
          exact h0 (occ_detach_id hs)

theorem FW.mono1 {cfg : Config} {s : DocSt} {os os' : List Node} {n : Node}
    (hn : Occ n (trees s os)) : Occ n (trees (withFootnotes cfg s) (os ++ os')) := by
  have hn' : Occ n (s.nodes ++ (vals s.bodies ++ members s.groups ++ os)) := hn
  rcases occ_append.1 hn' with hn | hn
  · exact occ_append.2 (.inl hn)
  · rcases occ_append.1 hn with hn | hn
    · exact occ_append.2 (.inr (occ_append.2 (.inl hn)))
    · exact occ_append.2 (.inr (occ_append.2 (.inr (occ_append.2 (.inl hn)))))

/-- The part of finalisation that gives headers their ids and fills the tables of contents. -/
theorem processToc_spec {cfg : Config} {lo : Nat} {base : List Node} {s : DocSt} {os : List Node} (h : FW lo base s os) :
    ∃ s4 os4 os5, Steps lo base (· = 2) s os s4 os4 ∧ HaveIds cfg os s4 os4 s.tocHeaders ∧ Steps lo base (· = 3) s4 os4 (processToc cfg s) os5 ∧
      (s.tocHeaders ≠ [] → ∀ i ∈ s.tocNodes, ∀ n, Occ n (trees (processToc cfg s) os5) → n.data.id = i →
        n.content = outlineNodes (outline s.tocHeaders) ∧ n.extra.map gist = (plainHeaders s4).map gist ∧ ∀ x, Occ x n.extra → x.data.id = 0) := by
  unfold processToc
  by_cases hc : s.tocHeaders = []
  · rw [if_pos (by rw [hc]; rfl), hc]
    exact ⟨s, os, os, .refl, fun _ h => (nomatch h), .refl, fun h => absurd rfl h⟩
  · rw [if_neg (by simpa using hc)]
    dsimp only
    obtain ⟨os4, st4, h4⟩ := setHeaderIds_steps (cfg := cfg) h s.tocHeaders [] .refl (by simp) (by simpa using h.toc.1) (fun _ h => (nomatch h)) (by
      intro e he n hn hid o ho hid'
      have h0 : e.1 ≠ 0 := (h.range ((mem_dreg (t := .header e.2)).2 he)).2
      rw [h.core.same n o hn (occ_obj ho) (by rw [hid]; exact h0) (by rw [hid, hid'])])
    generalize s.tocHeaders.foldl (fun s h => setHeaderId cfg s h.1) s = s4 at st4 h4
    have hf4 := st4.fw h
    have ht : s4.tocHeaders = s.tocHeaders := by rw [st4.same]
    have hn : s4.tocNodes = s.tocNodes := by rw [st4.same]
    obtain ⟨os5, st5, h5⟩ := tocNodes_steps hf4 (settled_of_ids hf4 (by rw [ht]; exact h4)) s4.tocNodes [] .refl (fun _ h => h) (fun _ h => (nomatch h)) (fun _ h => (nomatch h))
    rw [ht, List.nil_append] at h5
    refine ⟨s4, os4, os5, st4, h4, ?_, fun _ => ?_⟩
    · exact st5
    · rw [← hn]
      have e : ∀ l : List Nat, ∀ t : DocSt, List.foldl (fun s id => s.updateNode id fun n => (n.setContent (outlineNodes (outline s4.tocHeaders))).setExtra (s.tocHeaders.filterMap fun h => (s.obj? h.1).map Node.detach)) t l =
        List.foldl (fun s id => s.updateNode id fun n => (n.setContent (outlineNodes (outline s4.tocHeaders))).setExtra (plainHeaders s)) t l := fun _ _ => rfl
      rw [e, ht]
      exact h5


theorem finalise_spec {cfg : Config} {lo : Nat} {base : List Node} {s s' : DocSt} (hw : WF lo base s [] []) (he : finalise cfg s = .ok s') :
    ∃ os os', Finalised cfg lo base s os s' os' := by
  obtain ⟨os, h0, hbs⟩ := hw.fw
  have h1 := fw_footnotes cfg h0 hbs
  have hmem1 : ∀ n, Occ n (Mau.trees (withFootnotes cfg s) (os ++ vals (makeFootnotes cfg 1 s.uid s.bodies).1)) → n.data.id ≠ 0 → n.data.id < s.uid → Occ n (Mau.trees s os) :=
    fun n hn h0' hlt => h0.mem1 hn h0' hlt
  -- the stages
  unfold finalise at he
  obtain ⟨s3, hp1, he⟩ := bind_ok_except he
  dsimp only at he
  obtain ⟨s6, hp3, hp4⟩ := bind_ok_except he
  clear he
  obtain ⟨s2, hl, e3⟩ := processFootnotes_ok hp1
  have hfnsObj : ∀ nm fn, (nm, fn) ∈ (makeFootnotes cfg 1 s.uid s.bodies).1 → (∃ pub int, fn.data = .footnote fn.data.id nm pub int) ∧ ∀ x, Sub x fn → x.data.id = 0 ∨ s.uid ≤ x.data.id := by
    intro nm fn hm
    rw [(makeFootnotes_eq cfg s.bodies 1 s.uid).2] at hm
    obtain ⟨j, hj, e⟩ := List.mem_iff_getElem.1 hm
    rw [List.getElem_mapIdx] at e
    injection e with e1 e2
    rw [← e2, ← e1]
    refine ⟨⟨_, _, rfl⟩, ?_⟩
    intro x hx
    rcases sub_cases hx with rfl | hx
    · exact .inr (Nat.le_add_right _ _)
    · rw [kids_footnoteOf] at hx
      exact .inl (occ_detach_id hx)
  have hres1 : ∀ nm fn, (nm, fn) ∈ (makeFootnotes cfg 1 s.uid s.bodies).1 → ∃ o ∈ (withFootnotes cfg s).objs, ∃ pub int, o.data = .footnote fn.data.id nm pub int := by
    intro nm fn hm
    obtain ⟨⟨pub, int, e⟩, -⟩ := hfnsObj nm fn hm
    exact ⟨fn, List.mem_append_right _ (List.mem_map.2 ⟨(nm, fn), hm, rfl⟩), pub, int, e⟩
  generalize hos1 : os ++ vals (makeFootnotes cfg 1 s.uid s.bodies).1 = os1 at h1 hmem1
  have hsub1 : ∀ o ∈ os, o ∈ os1 := fun o ho => by rw [← hos1]; exact List.mem_append_left _ ho
  have hocc1 : ∀ n, Occ n (Mau.trees s os) → Occ n (Mau.trees (withFootnotes cfg s) os1) := fun n hn => by rw [← hos1]; exact FW.mono1 hn
  have hfn1 : ∀ kv ∈ (makeFootnotes cfg 1 s.uid s.bodies).1, kv.2 ∈ os1 := fun kv hkv => by
    rw [← hos1]; exact List.mem_append_right _ (List.mem_map.2 ⟨kv, hkv, rfl⟩)
  generalize hfns : (makeFootnotes cfg 1 s.uid s.bodies).1 = fns at *
  -- mentions
  obtain ⟨os2, st2, f2⟩ := linkFootnotes_steps s.footnoteMacros [] h1 (fun _ h => h) (fun _ h => (nomatch h)) (fun nm fn hg => hres1 nm fn (Dict.mem_of_get? hg)) (fun _ h => (nomatch h)) hl
  rw [List.nil_append] at f2
  have h2 := st2.fw h1
  -- lists of footnotes
  have hres2 : ∀ nm fn, (nm, fn) ∈ fns → Resolves s2.objs (.footnotesItem fn.data.id) := by
    intro nm fn hm
    refine st2.resolves h1 ?_
    obtain ⟨o, ho, pub, int, e⟩ := hres1 nm fn hm
    exact ⟨o, ho, nm, pub, int, e⟩
  obtain ⟨os3, st3, f3⟩ := footnoteLists_steps (items := footnoteItems fns) s2.footnoteLists [] h2 (fun _ h => h) (fun _ h => (nomatch h)) (by
    intro n hn
    obtain ⟨kv, hkv, rfl⟩ := List.mem_map.1 hn
    exact ⟨rfl, rfl, fun _ _ _ e => (nomatch e), hres2 kv.1 kv.2 hkv⟩) (fun _ h => (nomatch h))
  rw [← e3] at st3 f3
  rw [List.nil_append] at f3
  have h3 := st3.fw h2
  -- headers and tables of contents
  obtain ⟨s4, os4, os5, st4, f4, st5, f5⟩ := processToc_spec (cfg := cfg) h3
  generalize processToc cfg s3 = s5 at st5 f5 hp3
  have h4 := st4.fw h3
  have h5 := st5.fw h4
  have hset4 := settled_of_ids h4 (by rw [show s4.tocHeaders = s3.tocHeaders from by rw [st4.same]]; exact f4)
  have hset5 := st5.settled h4 hset4
  -- header links
  have f5' : LinkTexts s5 os5 s5 os5 := by
    intro e he n hn hid
    exact ⟨n, hn, hid, fun h => ⟨h, fun _ => rfl⟩, fun h => .inl h⟩
  obtain ⟨os6, st6, f6⟩ := linkHeaders_steps h5 hset5 s5.linkMacros [] .refl (fun _ h => h) (fun _ h => (nomatch h)) f5' (fun _ h => (nomatch h)) hp3
  rw [List.nil_append] at f6
  have h6 := st6.fw h5
  have hset6 := st6.settled h5 hset5
  -- groups
  obtain ⟨e7, h7, f7, o7⟩ := processGroups_eq s6.groupNodes h6 (fun _ h => h) hp4
  -- compositions
  have st13 : Steps lo base (fun k => k = 0 ∨ k = 4) (withFootnotes cfg s) os1 s3 os3 := (st2.mono fun _ h => .inl h).trans (st3.mono fun _ h => .inr h)
  have st14 : Steps lo base (fun k => k = 0 ∨ k = 2 ∨ k = 4) (withFootnotes cfg s) os1 s4 os4 := (st13.mono fun _ h => by omega).trans (st4.mono fun _ h => .inr (.inl h))
  have st15 : Steps lo base (fun k => k ≠ 1 ∧ k ≠ 5) (withFootnotes cfg s) os1 s5 os5 := (st14.mono fun _ h => by omega).trans (st5.mono fun _ h => by omega)
  have st16 : Steps lo base (fun k => k ≠ 5) (withFootnotes cfg s) os1 s6 os6 := (st15.mono fun _ h => by omega).trans (st6.mono fun _ h => by omega)
  have st26 : Steps lo base (fun k => k ≠ 0) s2 os2 s6 os6 := (((st3.mono fun _ h => by omega).trans (st4.mono fun _ h => by omega)).trans (st5.mono fun _ h => by omega)).trans (st6.mono fun _ h => by omega)
  have st36 : Steps lo base (fun k => k ≠ 4) s3 os3 s6 os6 := ((st4.mono fun _ h => by omega).trans (st5.mono fun _ h => by omega)).trans (st6.mono fun _ h => by omega)
  have st46 : Steps lo base (fun k => k = 3 ∨ k = 1) s4 os4 s6 os6 := (st5.mono fun _ h => by omega).trans (st6.mono fun _ h => by omega)
  have hreg1 : dreg (withFootnotes cfg s) = dreg s := rfl
  have hreg2 : dreg s2 = dreg s := by rw [st2.reg]; rfl
  have hreg3 : dreg s3 = dreg s := by rw [st13.reg]; rfl
  have hreg4 : dreg s4 = dreg s := by rw [st14.reg]; rfl
  have hreg5 : dreg s5 = dreg s := by rw [st15.reg]; rfl
  have hreg6 : dreg s6 = dreg s := by rw [st16.reg]; rfl
  have same6 : s6 = { s with uid := s6.uid, nodes := s6.nodes, bodies := s6.bodies, groups := s6.groups, objs := s6.objs } := by
    have := st16.same
    rw [this]
    rfl
  -- the last stage
  have last : ∀ {n : Node} {k : Nat} {T : Tag}, (k, T) ∈ dreg s → T.kind ≠ 5 → Occ n (Mau.trees s' os6) → n.data.id = k → Occ n (Mau.trees s6 os6) := by
    intro n k T hk hT hn hid
    rcases o7 n hn with hn | ⟨t, ht, i, g, hd, cs, rfl⟩
    · exact hn
    · exfalso
      have hti : t.data.id = k := hid
      have hf := h6.core.fits (k, T) (hreg6 ▸ hk) t (occ_append.2 (.inl (occ_of_mem ht))) hti
      have hik : i = k := by rw [← hti, hd]; rfl
      exact hT (fits_kind hf (T' := .group g) (by rw [← hik]; exact hd))
  refine ⟨os, os6, ?_⟩
  have same' : s' = { s with uid := s'.uid, nodes := s'.nodes, bodies := s'.bodies, groups := s'.groups, objs := s'.objs } := by
    rw [e7]
    rw [same6]
  have hg6 : s6.groups = s'.groups := by rw [e7]
  have hgn6 : s6.groupNodes = s.groupNodes := by rw [same6]
  have hlh5 : s5.linkHeaders = s.linkHeaders := by rw [st15.same]; rfl
  have hlm5 : s5.linkMacros = s.linkMacros := by rw [st15.same]; rfl
  have htoc3 : s3.tocHeaders = s.tocHeaders := by rw [st13.same]; rfl
  have htocn3 : s3.tocNodes = s.tocNodes := by rw [st13.same]; rfl
  refine ⟨h0, h7, ?_, same', ?_, ?_, ?_, ?_, ?_, ?_, ⟨?_, ?_⟩, ?_, ⟨s6, os1, os6, h1, st16, by rw [← hg6, ← hgn6, e7], hg6.symm⟩⟩
  · intro n hn
    rcases o7 n hn with hn | ⟨t, ht, i, g, hd, cs, rfl⟩
    · exact hset6 n hn
    · intro i' l nm e
      have : t.data = .header i' l none nm := e
      rw [hd] at this
      cases this
  · rw [hfns]
    intro kv hkv
    refine st16.object (hfn1 kv hkv) ?_
    intro x hx T hT
    exfalso
    rw [hreg1] at hT
    have hr := h0.core.regRange _ hT
    have := h0.core.pos
    dsimp only at hr
    rcases (hfnsObj kv.1 kv.2 hkv).2 x hx with h | h <;> omega
  · rw [hfns]
    intro e he
    obtain ⟨fn, hg, hall⟩ := f2 e he
    refine ⟨fn, hg, ?_⟩
    intro n' hn' hid
    have hk : (e.1, Tag.mention e.2) ∈ dreg s := mem_dreg.2 he
    obtain ⟨n, hn, hnid, hnd, -, -⟩ := st26.other h2 (hreg2 ▸ hk) (by simp [Tag.kind]) (last hk (by simp [Tag.kind]) hn' hid) hid
    rw [hnd]
    exact hall n hn hnid
  · rw [hfns]
    intro i hi n' hn' hid
    have hk : (i, Tag.footnotes) ∈ dreg s := mem_dreg.2 hi
    obtain ⟨n, hn, hnid, -, hc, -⟩ := st36.other h3 (hreg3 ▸ hk) (by simp [Tag.kind]) (last hk (by simp [Tag.kind]) hn' hid) hid
    have hcn := f3 i (by rw [show s2.footnoteLists = s.footnoteLists from by rw [st2.same]; rfl]; exact hi) n hn hnid
    rw [hc, hcn]
    · rfl
    · rw [hcn]
      intro x hx
      obtain ⟨m, hm, hs⟩ := hx
      obtain ⟨kv, hkv, rfl⟩ := List.mem_map.1 hm
      rcases sub_cases hs with rfl | hs
      · rfl
      · exact absurd hs occ_nil
  · intro e he
    obtain ⟨o3, ho3, a, nm, hod, hh, hhd, hht, hall⟩ := f4 e (by rw [htoc3]; exact he)
    have hk : (e.1, Tag.header e.2) ∈ dreg s := mem_dreg.2 he
    have h00 := (h0.range hk).2
    obtain ⟨o, ho, -, hoid, -⟩ := h0.head (i := e.1) (l := e.2) he
    have hid3 : o3.data.id = e.1 := by rw [hod]; rfl
    obtain ⟨n, hn, hnid, hnd, -, -⟩ := st13.other h1 hk (by simp [Tag.kind]) (occ_obj ho3) hid3
    have e2 : n = o := h1.core.same n o hn (occ_obj (hsub1 o ho)) (by rw [hnid]; exact h00) (by rw [hnid, hoid])
    subst e2
    have htx := st13.text h1 (by decide) h00 hn hnid (occ_obj ho3) hid3
    refine ⟨n, ho, a, nm, by rw [← hnd, hod], hh, by rw [hhd, hnd], by rw [hht, htx], ?_⟩
    intro n' hn' hid
    obtain ⟨m, hm, hmid, hmd, -, -⟩ := st46.other h4 (hreg4 ▸ hk) (by simp [Tag.kind]) (last hk (by simp [Tag.kind]) hn' hid) hid
    rw [hmd]
    exact hall m hm hmid
  · intro hne i hi n' hn' hid
    have hk : (i, Tag.toc) ∈ dreg s := mem_dreg.2 hi
    obtain ⟨n, hn, hnid, -, hc, hx⟩ := st6.other h5 (hreg5 ▸ hk) (by simp [Tag.kind]) (last hk (by simp [Tag.kind]) hn' hid) hid
    obtain ⟨c1, c2, c3⟩ := f5 (by rw [htoc3]; exact hne) i (by rw [htocn3]; exact hi) n hn hnid
    rw [htoc3] at c1
    refine ⟨?_, ?_⟩
    · rw [hc, c1]
      rw [c1]
      intro x hx'
      obtain ⟨j, -, e⟩ := occ_outline _ hx'
      rw [e]; rfl
    · rw [hx c3, c2]
      unfold plainHeaders headerGists
      rw [show s4.tocHeaders = s.tocHeaders from by rw [st14.same]; rfl, List.map_filterMap]
      refine filterMap_congr' fun e he => ?_
      have hk : (e.1, Tag.header e.2) ∈ dreg s := mem_dreg.2 he
      have h00 := (h0.range hk).2
      obtain ⟨o, ho, hob, hoid, -⟩ := h0.head (i := e.1) (l := e.2) he
      obtain ⟨o4, ho4, hob4, hoid4, -⟩ := h4.head (i := e.1) (l := e.2) (by rw [show s4.tocHeaders = s.tocHeaders from by rw [st14.same]; rfl]; exact he)
      obtain ⟨o', ho', hob', hoid', -⟩ := h7.head (i := e.1) (l := e.2) (by rw [same']; exact he)
      obtain ⟨m, hm, hmid, hmd, -, -⟩ := st46.other h4 (hreg4 ▸ hk) (by simp [Tag.kind]) (last hk (by simp [Tag.kind]) (occ_obj ho') hoid') hoid'
      have e4 : m = o4 := h4.core.same m o4 hm (occ_obj ho4) (by rw [hmid]; exact h00) (by rw [hmid, hoid4])
      have htx := st14.text h1 (by decide) h00 (occ_obj (hsub1 o ho)) hoid (occ_obj ho4) hoid4
      rw [hob, hob4, hob']
      simp only [Option.map_some, Option.bind_some, gist_detach]
      unfold gist
      rw [htx, hmd, e4]
  · intro e he
    obtain ⟨h, hg, hall⟩ := f6 e (by rw [hlm5]; exact he)
    rw [hlh5] at hg
    refine ⟨h, hg, ?_⟩
    intro n' hn' hid
    have hk : (e.1, Tag.link e.2) ∈ dreg s := mem_dreg.2 he
    have hkr := h0.core.regRange _ hk
    dsimp only at hkr
    have h00 := (h0.range hk).2
    obtain ⟨hd', nC, hnC, hnCid, k1, k2⟩ := hall n' (last hk (by simp [Tag.kind]) hn' hid) hid
    refine ⟨hd', ?_⟩
    obtain ⟨n, hn, hnid, -, hnil, hcont⟩ := st15.other' h1 hk (by simp [Tag.kind]) hnC hnCid
    refine ⟨n, hmem1 n hn (by rw [hnid]; exact h00) (by rw [hnid]; exact hkr.2), hnid, ?_, ?_⟩
    · intro hne
      obtain ⟨q1, q2⟩ := k1 (fun e => hne (hnil.2 e))
      refine ⟨q1, fun hfree => ?_⟩
      have e1 := hcont (fun x hx T hT => absurd hT (hfree x hx T))
      rw [q2, e1]
      rw [e1]
      intro x hx tg htg
      rw [hlm5] at htg
      exact hfree x hx (.link tg) (mem_dreg.2 htg)
    · intro hnil' o ho hoid hno o' ho' hoid'
      have kc := k2 (hnil.1 hnil')
      obtain ⟨o5, ho5, hob5, hh0, hoid5, l5, a5, hod5⟩ := h5.named (hid := h) (tg := e.2) (by rw [hlh5]; exact hg)
      obtain ⟨o1, ho1, hoid1, hsubs⟩ := st15.subs h1 (occ_obj ho5) (by rw [hoid5]; exact hh0)
      have e1 : o1 = o := h1.core.same o1 o ho1 (hocc1 o ho) (by rw [hoid1, hoid5]; exact hh0) (by rw [hoid1, hoid5, hoid])
      subst e1
      have hno5 : ∀ x, Sub x o5 → ∀ tg, (x.data.id, tg) ∉ s.linkMacros := by
        intro x hx tg htg
        rcases hsubs x hx with e0 | ⟨y, hy, ey⟩
        · exact (h0.range ((mem_dreg (t := .link tg)).2 htg)).2 e0
        · rw [← ey] at htg
          exact hno y hy tg htg
      have hno5c : NoLinks s5 o5.content := by
        intro x hx tg htg
        rw [hlm5] at htg
        obtain ⟨c, hc, hs⟩ := hx
        exact hno5 x (.kid (by simp [kids, hc]) hs) tg htg
      have r1 := kc h (by rw [hlh5]; exact hg) o5 ho5 hoid5 hno5c
      -- the final header
      obtain ⟨o6, ho6, e6, c6⟩ := st6.content' ho5 (by
        intro j t hj ht e6
        cases t <;> first | (cases ht; done) | skip
        obtain ⟨r, hr⟩ := h5.core.fits _ hj o5 (occ_obj ho5) e6
        rw [hod5] at hr
        cases hr)
      obtain ⟨oo, hoo, l, a, eo, ht⟩ := h0.heads.2 _ (Dict.mem_of_get? hg)
      dsimp only at ht
      have ho6' := last (k := h) (T := .header l) (mem_dreg.2 ht) (by decide : ¬ (2 = 5)) ho' hoid'
      have e8 : o' = o6 := h6.core.same o' o6 ho6' (occ_obj ho6) (by rw [hoid']; exact hh0) (by rw [hoid', e6, hoid5])
      rw [r1, e8, c6]
      intro x hx T hT hk'
      cases T <;> first | (cases hk'; done) | skip
      exact hno5c x hx _ (mem_dreg.1 hT)
  · intro e he
    rw [← hg6]
    exact f7 e (by rw [hgn6]; exact he)
  · intro n hn i g hd
    have hn6 : n ∈ s6.nodes.map (filled s6.groups s6.groupNodes) := by rw [e7] at hn; exact hn
    obtain ⟨t, ht, rfl⟩ := List.mem_map.1 hn6
    have htd : t.data = .blockgroup i g := by
      unfold filled at hd
      split at hd
      · split at hd <;> exact hd
      · exact hd
    have hsp := h6.order.2 t ht (i, .group g) (by rw [htd]; rfl)
    have := mem_dreg.1 hsp
    dsimp only at this
    unfold filled
    rw [htd]
    dsimp only
    rw [if_pos this, ← hg6]
    rfl
  · obtain ⟨F, hF, c1, c2, c3, c4⟩ := st16.completion h1
    refine ⟨F, hF, ?_, ?_, ?_⟩
    · rw [← hg6, ← hgn6]
      rw [e7]
      dsimp only
      rw [c1]
      rfl
    · rw [e7]; exact c3
    · rw [← hg6]; exact c4

end Mau
