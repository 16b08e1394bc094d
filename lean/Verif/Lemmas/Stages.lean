import Verif.Lemmas.Steps

set_option linter.unusedSimpArgs false
set_option linter.unusedVariables false

/-!
# The stages of finalisation
-/

namespace Mau
open Spec

/-! ## More about sequences of completions -/

namespace Steps
variable {lo : Nat} {base : List Node} {K : Nat → Prop} {s s' s'' : DocSt} {os os' os'' : List Node}

/-- References remain valid. -/
theorem resolves (hs : Steps lo base K s os s' os') (h : FW lo base s os) {d : NodeData} (hd : Resolves s.objs d) : Resolves s'.objs d := by
  induction hs with
  | refl => exact hd
  | @step s s' os os' cs i t f hi hK hf hcs hc hx rest ih =>
    refine ih (h.update (h.range hi).1 hf hcs hc) ?_
    refine resolves_update hd ?_
    intro o ho e
    have ho' : o ∈ os := by
      rw [h.objs] at ho
      rcases List.mem_append.1 ho with ho | ho
      · have := h.old o (occ_of_mem ho); have := (h.range hi).1; omega
      · exact ho
    exact (hc o (Mau.below i f o) (occ_append.2 (.inr (occ_append.2 (.inr (occ_of_mem ho'))))) e rfl).kept

/-- One completion. -/
theorem one {cs : List Node} {i : Nat} {t : Tag} {f : Node → Node} (hi : (i, t) ∈ dreg s) (hK : K t.kind) (hf : Inserts i f cs)
    (hcs : ∀ n, Occ n cs → Inert s.objs n) (hc : ∀ x y, Occ x (trees s os) → x.data.id = i → y.data = x.data → Completes s.objs i f x y)
    (hx : t.kind ≠ 1 → ∀ y, t.Fits i y.data → extractNode (f y) = extractNode y) : Steps lo base K s os (s.updateNode i f) (os.map (Node.mapId i f)) :=
  .step hi hK hf hcs hc hx .refl

end Steps

/-- An occurrence after one completion. -/
theorem occ_updated {s : DocSt} {os cs : List Node} {i : Nat} {f : Node → Node} (hf : Inserts i f cs) {n' : Node}
    (h : Occ n' (trees (s.updateNode i f) (os.map (Node.mapId i f)))) (h0 : n'.data.id ≠ 0) (hcs : ∀ n, Occ n cs → n.data.id = 0) :
    ∃ n, Occ n (trees s os) ∧ n.data.id = n'.data.id ∧ n' = if n.data.id = i then f (below i f n) else below i f n := by
  rw [trees_update] at h
  rcases occ_map hf h with ⟨n, hn, rfl⟩ | h
  · exact ⟨n, hn, (mapId_id hf n).symm, by rw [mapId_eq]⟩
  · exact absurd (hcs n' h) h0

/-! ## Footnotes -/

/-- The footnote made of a body. -/
def footnoteOf (cfg : Config) (uid number : Nat) (name : Str) (body : Node) : Node :=
  Node.new (.footnote uid name (some (natStr number)) (some (cfg.footnoteId (Node.new (.footnote uid name (some (natStr number)) none) Context.empty (detachList body.content))))) Context.empty
    (detachList body.content)

theorem makeFootnotes_cons (cfg : Config) (number uid : Nat) (name : Str) (body : Node) (rest : Dict Node) :
    makeFootnotes cfg number uid ((name, body) :: rest) =
      ((name, footnoteOf cfg uid number name body) :: (makeFootnotes cfg (number + 1) (uid + 1) rest).1, (makeFootnotes cfg (number + 1) (uid + 1) rest).2) := rfl

theorem kids_footnoteOf (cfg : Config) (uid number : Nat) (name : Str) (body : Node) : kids (footnoteOf cfg uid number name body) = detachList body.content := by
  unfold footnoteOf kids Node.new
  simp [Node.content, Node.labels, Node.extra]

/-- The footnotes are made of the bodies in their order. -/
theorem makeFootnotes_eq (cfg : Config) (bodies : Dict Node) (number uid : Nat) :
    (makeFootnotes cfg number uid bodies).2 = uid + bodies.length ∧
    (makeFootnotes cfg number uid bodies).1 = bodies.mapIdx fun j kv => (kv.1, footnoteOf cfg (uid + j) (number + j) kv.1 kv.2) := by
  induction bodies generalizing number uid with
  | nil => exact ⟨rfl, rfl⟩
  | cons kv rest ih =>
    obtain ⟨name, body⟩ := kv
    rw [makeFootnotes_cons]
    obtain ⟨h1, h2⟩ := ih (number + 1) (uid + 1)
    refine ⟨by rw [h1, List.length_cons]; omega, ?_⟩
    rw [h2, List.mapIdx_cons]
    have : (fun (j : Nat) (kv : Str × Node) => (kv.1, footnoteOf cfg (uid + 1 + j) (number + 1 + j) kv.1 kv.2)) =
        fun j kv => (kv.1, footnoteOf cfg (uid + (j + 1)) (number + (j + 1)) kv.1 kv.2) := by
      funext j kv
      rw [Nat.add_right_comm uid, Nat.add_assoc uid, Nat.add_right_comm number, Nat.add_assoc number]
    rw [this]
    rfl

theorem core_footnotes {cfg : Config} {objs : List Node} {lo : Nat} {reg : List (Nat × Tag)} {tops rest : List Node} (bodies : Dict Node) (number uid : Nat)
    (h : Core objs lo uid [] reg tops rest) (hb : ∀ b ∈ vals bodies, b ∈ rest) (hs : ∀ b ∈ vals bodies, ∀ n, Occ n b.content → Settled n) :
    Core objs lo (makeFootnotes cfg number uid bodies).2 [] reg tops (rest ++ vals (makeFootnotes cfg number uid bodies).1) := by
  induction bodies generalizing number uid rest with
  | nil =>
    change Core objs lo uid [] reg tops (rest ++ [])
    rw [List.append_nil]
    exact h
  | cons kv bodies ih =>
    obtain ⟨name, body⟩ := kv
    rw [makeFootnotes_cons]
    have h1 : Core objs lo uid [] reg tops (detachList body.content ++ rest) := by
      refine h.inert (inert_detach ?_)
      intro n hn
      have hm : body ∈ rest := hb body (by simp [vals])
      refine ⟨hs body (by simp [vals]) n hn, h.refs n (occ_append.2 (.inr ?_))⟩
      obtain ⟨k, hk, hsub⟩ := hn
      exact ⟨body, hm, .kid (by simp [kids, hk]) hsub⟩
    have h2 := h1.useFree (n := footnoteOf cfg uid number name body) (by
        intro c hc
        rw [kids_footnoteOf] at hc
        exact List.mem_append_left _ hc) rfl (by intro i l nm e; cases e) (by trivial)
    have h3 : Core objs lo (uid + 1) [] reg tops (footnoteOf cfg uid number name body :: rest) := h2.forget (by
      intro m hm
      rcases List.mem_cons.1 hm with rfl | hm
      · simp
      · simp [hm])
    have h4 := ih (number + 1) (uid + 1) h3 (fun b hb' => List.mem_cons_of_mem _ (hb b (by simp only [vals, List.map_cons, List.mem_cons]; exact .inr hb')))
      (fun b hb' => hs b (by simp only [vals, List.map_cons, List.mem_cons]; exact .inr hb'))
    refine h4.forget ?_
    intro m hm
    simp only [vals, List.map_cons, List.mem_append, List.mem_cons] at hm ⊢
    rcases hm with hm | hm | hm
    · exact .inl (.inr hm)
    · exact .inl (.inl hm)
    · exact .inr hm

/-- The state after the footnotes have been made. -/
def withFootnotes (cfg : Config) (s : DocSt) : DocSt :=
  { s with uid := (makeFootnotes cfg 1 s.uid s.bodies).2, objs := s.objs ++ (makeFootnotes cfg 1 s.uid s.bodies).1.map (·.2) }

theorem fw_footnotes (cfg : Config) {lo : Nat} {base : List Node} {s : DocSt} {os : List Node} (h : FW lo base s os)
    (hs : ∀ b ∈ vals s.bodies, ∀ n, Occ n b.content → Settled n) : FW lo base (withFootnotes cfg s) (os ++ vals (makeFootnotes cfg 1 s.uid s.bodies).1) := by
  have hc := core_footnotes (cfg := cfg) s.bodies 1 s.uid h.core (fun b hb => by simp [hb]) hs
  refine ⟨h.old, h.bodies, h.order, h.toc, h.groups, ?_, ?_, ?_⟩
  · change s.objs ++ _ = _
    rw [h.objs, List.append_assoc]
    rfl
  · have hm : ∀ o ∈ s.objs, o ∈ (withFootnotes cfg s).objs := fun o ho => List.mem_append_left _ ho
    have := hc
    rw [List.append_assoc] at this
    exact { this with refs := fun n hn => resolves_mono hm (this.refs n hn) }
  · refine ⟨fun x hx => ?_, fun x hx => ?_⟩
    · obtain ⟨o, ho, e⟩ := h.heads.1 x hx
      exact ⟨o, List.mem_append_left _ ho, e⟩
    · obtain ⟨o, ho, e⟩ := h.heads.2 x hx
      exact ⟨o, List.mem_append_left _ ho, e⟩

/-- The finished parser without the pending labels. -/
theorem WF.fw {lo : Nat} {base : List Node} {s : DocSt} (h : WF lo base s [] []) : ∃ os, FW lo base s os ∧ ∀ b ∈ vals s.bodies, ∀ n, Occ n b.content → Settled n := by
  obtain ⟨h1, h2, h2a, h2b, h2c, os, h3, h4, h5⟩ := h
  refine ⟨os, ⟨h1, h2.1, h2a, h2b, h2c, h3, h4.forget ?_, h5⟩, h2.2⟩
  intro m hm
  simp only [held, List.mem_append] at hm ⊢
  rcases hm with (hm | hm) | hm
  · exact .inl (.inl (.inl (.inl hm)))
  · exact .inl (.inl (.inl (.inr hm)))
  · exact .inl (.inr hm)

/-- Linking one mention. -/
theorem link_mention {lo : Nat} {base : List Node} {s : DocSt} {os : List Node} (h : FW lo base s os) {i f : Nat} {nm : Str} (hi : (i, nm) ∈ s.footnoteMacros)
    (hr : Resolves s.objs (.macroFootnote i nm (some f))) :
    Steps lo base (· = 0) s os (s.updateNode i fun n => n.setData (.macroFootnote i nm (some f))) (os.map (Node.mapId i fun n => n.setData (.macroFootnote i nm (some f)))) := by
  have hreg : (i, Tag.mention nm) ∈ dreg s := mem_dreg.2 hi
  refine Steps.one hreg rfl (inserts_setData rfl) (fun n hn => absurd hn occ_nil) ?_ ?_
  · intro x y hx hid hy
    have hfit := h.core.fits _ hreg x hx hid
    obtain ⟨r, hd⟩ := hfit
    dsimp only at hd
    exact {
      fits := by
        intro T hT
        have hk := fits_kind hT (T' := .mention nm) ⟨r, hd⟩
        cases T <;> first | (cases hk; done) | skip
        have := fits_mention hT ⟨r, hd⟩
        subst this
        exact ⟨_, rfl⟩
      special := by rw [hd]; rfl
      settled := by intro _ _ _ e; cases e
      refs := hr
      kept := by
        rw [hd]
        exact ⟨fun _ _ _ _ e => (nomatch e), fun _ _ _ _ e => (nomatch e)⟩
      content := fun _ => ⟨rfl, rfl⟩ }
  · rintro - y ⟨r, hy⟩
    cases y with
    | mk d a c cs ls ex =>
      simp only [Node.data] at hy
      subst hy
      simp [Node.setData, extractNode, NodeData.value?, NodeData.hasContent]

/-- The mentions are linked to the footnote of their name. -/
def Linked (s : DocSt) (os : List Node) (fns : Dict Node) (l : List (Nat × Str)) : Prop :=
  ∀ e ∈ l, ∃ fn, Dict.get? fns e.2 = some fn ∧ ∀ n, Occ n (trees s os) → n.data.id = e.1 → n.data = .macroFootnote e.1 e.2 (some fn.data.id)

theorem linkFootnotes_steps {lo : Nat} {base : List Node} {fns : Dict Node} (l : List (Nat × Str)) {s s' : DocSt} {os : List Node} (done : List (Nat × Str)) (h : FW lo base s os)
    (hl : ∀ e ∈ l, e ∈ s.footnoteMacros) (hd : ∀ e ∈ done, e ∈ s.footnoteMacros)
    (hfns : ∀ nm fn, Dict.get? fns nm = some fn → Resolves s.objs (.macroFootnote 0 nm (some fn.data.id))) (hdone : Linked s os fns done)
    (he : linkFootnotes fns l s = .ok s') : ∃ os', Steps lo base (· = 0) s os s' os' ∧ Linked s' os' fns (done ++ l) := by
  induction l generalizing s os done with
  | nil =>
    cases he
    exact ⟨os, .refl, by rw [List.append_nil]; exact hdone⟩
  | cons e l ih =>
    obtain ⟨i, nm⟩ := e
    unfold linkFootnotes at he
    cases hg : Dict.get? fns nm with
    | none => rw [hg] at he; cases he
    | some fn =>
      rw [hg] at he
      have hin := hl (i, nm) (by simp)
      have hst := link_mention h hin (f := fn.data.id) (hfns nm fn hg)
      have hfw := hst.fw h
      obtain ⟨os', h1, h2⟩ := ih (done ++ [(i, nm)]) hfw (fun e he => hl e (List.mem_cons_of_mem _ he))
        (by
          intro e he
          rcases List.mem_append.1 he with he | he
          · exact hd e he
          · rw [List.mem_singleton.1 he]; exact hin)
        (fun nm fn hg => hst.resolves h (hfns nm fn hg)) (by
          intro e he
          have hreg : (i, Tag.mention nm) ∈ dreg s := mem_dreg.2 hin
          have hi0 := (h.range hreg).2
          rcases List.mem_append.1 he with he | he
          · obtain ⟨fn', hg', hall⟩ := hdone e he
            refine ⟨fn', hg', ?_⟩
            intro n hn hid
            have her : (e.1, Tag.mention e.2) ∈ dreg s := mem_dreg.2 (hd e he)
            obtain ⟨m, hm, hmid, rfl⟩ := occ_updated (inserts_setData (id := i) (d := .macroFootnote i nm (some fn.data.id)) rfl) hn (by rw [hid]; exact (h.range her).2) (fun n hn => absurd hn occ_nil)
            rw [hid] at hmid
            by_cases c : m.data.id = i
            · rw [if_pos c]
              have h1 := h.core.fits _ hreg m hm c
              have h2 := h.core.fits _ her m hm hmid
              dsimp only at h1 h2
              have e1 : e.1 = i := by rw [← c, hmid]
              rw [e1] at h2
              have := fits_mention h1 h2
              rw [this, hg'] at hg
              cases hg
              change NodeData.macroFootnote i nm _ = _
              rw [e1, this]
            · rw [if_neg c]
              exact hall m hm hmid
          · rw [List.mem_singleton.1 he]
            refine ⟨fn, hg, ?_⟩
            intro n hn hid
            rw [List.mem_singleton.1 he] at *
            obtain ⟨m, hm, hmid, rfl⟩ := occ_updated (inserts_setData (id := i) (d := .macroFootnote i nm (some fn.data.id)) rfl) hn (by rw [hid]; exact hi0) (fun n hn => absurd hn occ_nil)
            rw [hid] at hmid
            rw [if_pos hmid]
            rfl) he
      exact ⟨os', hst.trans h1, by simpa using h2⟩


theorem inserts_setBoth {id : Nat} (cs ex : List Node) : Inserts id (fun n => (n.setContent cs).setExtra ex) (cs ++ ex) where
  kids := by
    intro x c hc
    simp only [Spec.kids, Node.setContent, Node.setExtra, Node.content, Node.labels, Node.extra, List.mem_append] at hc ⊢
    rcases hc with (hc | hc) | hc
    · exact .inr (.inl hc)
    · exact .inl (.inl (.inr hc))
    · exact .inr (.inr hc)
  id := by intro x h; exact h
  same := fun _ => ⟨rfl, rfl⟩
  labels := fun _ => rfl

/-- Filling the lists of footnotes. -/
theorem footnoteLists_steps {lo : Nat} {base : List Node} {items : List Node} (l : List Nat) {s : DocSt} {os : List Node} (done : List Nat) (h : FW lo base s os)
    (hl : ∀ i ∈ l, i ∈ s.footnoteLists) (hd : ∀ i ∈ done, i ∈ s.footnoteLists) (hitems : ∀ n ∈ items, n.data.id = 0 ∧ kids n = [] ∧ Settled n ∧ Resolves s.objs n.data)
    (hdone : ∀ i ∈ done, ∀ n, Occ n (trees s os) → n.data.id = i → n.content = items) :
    ∃ os', Steps lo base (· = 4) s os (l.foldl (fun s id => s.updateNode id (·.setContent items)) s) os' ∧
      ∀ i ∈ done ++ l, ∀ n, Occ n (trees (l.foldl (fun s id => s.updateNode id (·.setContent items)) s) os') → n.data.id = i → n.content = items := by
  induction l generalizing s os done with
  | nil => exact ⟨os, .refl, by rw [List.append_nil]; exact hdone⟩
  | cons i l ih =>
    have hin := hl i (by simp)
    have hreg : (i, Tag.footnotes) ∈ dreg s := mem_dreg.2 hin
    have hi0 := (h.range hreg).2
    have hins : ∀ n, Occ n items → Inert s.objs n := by
      intro n hn
      obtain ⟨m, hm, hs⟩ := hn
      obtain ⟨h1, h2, h3, h4⟩ := hitems m hm
      rcases sub_cases hs with rfl | hs
      · exact ⟨h1, h3, h4⟩
      · rw [h2] at hs; exact absurd hs occ_nil
    have hst : Steps lo base (· = 4) s os (s.updateNode i (·.setContent items)) (os.map (Node.mapId i (·.setContent items))) := by
      refine Steps.one hreg rfl (inserts_setContent items) hins ?_ ?_
      · intro x y hx hid hy
        refine Completes.of_data hy (h.core.refs x hx) ?_
        have := h.core.fits _ hreg x hx hid
        dsimp only [Tag.Fits] at this
        rw [this]
        trivial
      · intro _ y hy
        cases y with
        | mk d a c cs ls ex =>
          change d = _ at hy
          subst hy
          simp [Node.setContent, extractNode, Node.data, NodeData.value?, NodeData.hasContent]
    have hfw := hst.fw h
    obtain ⟨os', h1, h2⟩ := ih (done ++ [i]) hfw (fun j hj => hl j (List.mem_cons_of_mem _ hj))
      (by
        intro j hj
        rcases List.mem_append.1 hj with hj | hj
        · exact hd j hj
        · rw [List.mem_singleton.1 hj]; exact hin)
      (by
        intro n hn
        obtain ⟨a, b, c, d⟩ := hitems n hn
        exact ⟨a, b, c, hst.resolves h d⟩)
      (by
        intro j hj n hn hid
        have hj' : j ∈ s.footnoteLists := by
          rcases List.mem_append.1 hj with hj | hj
          · exact hd j hj
          · rw [List.mem_singleton.1 hj]; exact hin
        have hj0 := (h.range ((mem_dreg (t := .footnotes)).2 hj')).2
        obtain ⟨m, hm, hmid, rfl⟩ := occ_updated (inserts_setContent (id := i) items) hn (by rw [hid]; exact hj0) (fun n hn => (hins n hn).1)
        rw [hid] at hmid
        by_cases c : m.data.id = i
        · rw [if_pos c]; rfl
        · rw [if_neg c]
          rcases List.mem_append.1 hj with hj | hj
          · have := hdone j hj m hm hmid
            change mapIdList i _ m.content = items
            rw [this]
            refine mapIdList_none i _ _ ?_
            intro m hm e
            rw [(hins m hm).1] at e
            exact hi0 e.symm
          · rw [List.mem_singleton.1 hj] at hmid; exact absurd hmid c)
    exact ⟨os', hst.trans h1, by simpa using h2⟩

/-! ## Objects -/

theorem obj?_some {s : DocSt} {i : Nat} {o : Node} (h : s.obj? i = some o) : o ∈ s.objs ∧ o.data.id = i := by
  unfold DocSt.obj? at h
  exact ⟨List.mem_of_find?_eq_some h, by simpa using List.find?_some h⟩

/-- An object of the parser is found by its identity. -/
theorem FW.obj {lo : Nat} {base : List Node} {s : DocSt} {os : List Node} (h : FW lo base s os) {o : Node} (ho : o ∈ os) (h0 : o.data.id ≠ 0) : s.obj? o.data.id = some o := by
  have hoc : ∀ {x}, x ∈ os → Occ x (trees s os) := fun hx => occ_append.2 (.inr (occ_append.2 (.inr (occ_of_mem hx))))
  cases hf : s.obj? o.data.id with
  | none =>
    unfold DocSt.obj? at hf
    have := List.find?_eq_none.1 hf o (by rw [h.objs]; simp [ho])
    simp at this
  | some o' =>
    obtain ⟨h1, h2⟩ := obj?_some hf
    rw [h.objs] at h1
    have hr := h.core.range o (hoc ho)
    rcases List.mem_append.1 h1 with h1 | h1
    · have := h.old o' (occ_of_mem h1)
      omega
    · rw [h.core.same o o' (hoc ho) (hoc h1) h0 h2.symm]

/-- The object of a collected header. -/
theorem FW.head {lo : Nat} {base : List Node} {s : DocSt} {os : List Node} (h : FW lo base s os) {i l : Nat} (hi : (i, l) ∈ s.tocHeaders) :
    ∃ o ∈ os, s.obj? i = some o ∧ o.data.id = i ∧ ∃ a b, o.data = .header i l a b := by
  obtain ⟨o, ho, e⟩ := h.heads.1 _ hi
  have hreg : (i, Tag.header l) ∈ dreg s := mem_dreg.2 hi
  dsimp only at e
  have := h.obj ho (by rw [e]; exact (h.range hreg).2)
  rw [e] at this
  exact ⟨o, ho, this, e, h.core.fits _ hreg o (occ_append.2 (.inr (occ_append.2 (.inr (occ_of_mem ho))))) e⟩


theorem occ_obj {s : DocSt} {os : List Node} {o : Node} (h : o ∈ os) : Occ o (trees s os) := occ_append.2 (.inr (occ_append.2 (.inr (occ_of_mem h))))

/-! ## Header ids -/

theorem fits_header {a b : Nat} {i : Nat} {d : NodeData} (h : (Tag.header a).Fits i d) (h' : (Tag.header b).Fits i d) : a = b := by
  obtain ⟨_, _, h⟩ := h; obtain ⟨_, _, h'⟩ := h'; rw [h] at h'; cases h'; rfl

/-- The headers have their ids: the given one, or one computed from a node with the same fields and text. -/
def HaveIds (cfg : Config) (osA : List Node) (s : DocSt) (os : List Node) (l : List (Nat × Nat)) : Prop :=
  ∀ e ∈ l, ∃ o ∈ osA, ∃ a nm, o.data = .header e.1 e.2 a nm ∧ ∃ h : Node, h.data = o.data ∧ extractNode h = extractNode o ∧
    ∀ n, Occ n (trees s os) → n.data.id = e.1 → n.data = .header e.1 e.2 (some (a.getD (cfg.headerId h))) nm

/-- Giving one header its id. -/
theorem set_header {lo : Nat} {base : List Node} {s : DocSt} {os : List Node} (h : FW lo base s os) {i l : Nat} {v : Str} {nm : Option Str} (hi : (i, l) ∈ s.tocHeaders)
    (hnm : ∀ n, Occ n (trees s os) → n.data.id = i → ∃ a, n.data = .header i l a nm) :
    Steps lo base (· = 2) s os (s.updateNode i fun n => n.setData (.header i l (some v) nm)) (os.map (Node.mapId i fun n => n.setData (.header i l (some v) nm))) := by
  have hreg : (i, Tag.header l) ∈ dreg s := mem_dreg.2 hi
  refine Steps.one hreg rfl (inserts_setData rfl) (fun n hn => absurd hn occ_nil) ?_ ?_
  · intro x y hx hid hy
    obtain ⟨a, hd⟩ := hnm x hx hid
    exact {
      fits := by
        intro T hT
        have hk := fits_kind hT (T' := .header l) ⟨a, nm, hd⟩
        cases T <;> first | (cases hk; done) | skip
        have := fits_header hT ⟨a, nm, hd⟩
        subst this
        exact ⟨_, _, rfl⟩
      special := by rw [hd]; rfl
      settled := by intro _ _ _ e; cases e
      refs := by trivial
      kept := by
        rw [hd]
        refine ⟨fun _ _ _ _ e => ?_, fun _ _ _ _ e => (nomatch e)⟩
        cases e
        exact ⟨_, rfl⟩
      content := fun _ => ⟨rfl, rfl⟩ }
  · rintro - y ⟨a, b, hy⟩
    cases y with
    | mk d a c cs ls ex =>
      simp only [Node.data] at hy
      subst hy
      simp [Node.setData, extractNode, NodeData.value?, NodeData.hasContent, Node.content]

theorem setHeaderIds_steps {cfg : Config} {lo : Nat} {base : List Node} {sA : DocSt} {osA : List Node} (hA : FW lo base sA osA) (l : List (Nat × Nat)) {s : DocSt} {os : List Node}
    (done : List (Nat × Nat)) (hs : Steps lo base (· = 2) sA osA s os) (hl : ∀ e ∈ done ++ l, e ∈ sA.tocHeaders) (hnd : ((done ++ l).map (·.1)).Nodup)
    (hdone : HaveIds cfg osA s os done) (hpend : ∀ e ∈ l, ∀ n, Occ n (trees s os) → n.data.id = e.1 → ∀ o ∈ osA, o.data.id = e.1 → n.data = o.data) :
    ∃ os', Steps lo base (· = 2) sA osA (l.foldl (fun s h => setHeaderId cfg s h.1) s) os' ∧ HaveIds cfg osA (l.foldl (fun s h => setHeaderId cfg s h.1) s) os' (done ++ l) := by
  induction l generalizing s os done with
  | nil => exact ⟨os, hs, by rw [List.append_nil]; exact hdone⟩
  | cons e l ih =>
    obtain ⟨i, lv⟩ := e
    have h := hs.fw hA
    have hin : (i, lv) ∈ sA.tocHeaders := hl (i, lv) (by simp)
    have hin' : (i, lv) ∈ s.tocHeaders := by rw [hs.same]; exact hin
    have hreg : (i, Tag.header lv) ∈ dreg s := mem_dreg.2 hin'
    have hi0 := (h.range hreg).2
    obtain ⟨o, ho, hob, hoid, a, nm, hod⟩ := h.head hin'
    obtain ⟨oA, hoA, -, hoAid, aA, nmA, hoAd⟩ := hA.head hin
    have hsd : o.data = oA.data := hpend (i, lv) (by simp) o (occ_obj ho) hoid oA hoA hoAid
    rw [hod, hoAd] at hsd
    cases hsd
    have htext : extractNode o = extractNode oA := hs.text hA (by decide) hi0 (occ_obj hoA) hoAid (occ_obj ho) hoid
    have hne : ∀ e ∈ done ++ l, e.1 ≠ i := by
      intro e he e1
      have h2 : (i :: (done ++ l).map (·.1)).Nodup := by
        refine List.Perm.nodup ?_ hnd
        rw [List.map_append, List.map_append, List.map_cons]
        exact List.perm_middle
      exact (List.nodup_cons.1 h2).1 (e1 ▸ List.mem_map_of_mem he)
    -- the data of all occurrences before
    have hall : ∀ n, Occ n (trees s os) → n.data.id = i → n.data = .header i lv a nm := by
      intro n hn hid
      rw [h.core.same n o hn (occ_obj ho) (by rw [hid]; exact hi0) (by rw [hid, hoid]), hod]
    rw [List.foldl_cons]
    have key : ∃ os2, Steps lo base (· = 2) sA osA (setHeaderId cfg s i) os2 ∧ HaveIds cfg osA (setHeaderId cfg s i) os2 (done ++ [(i, lv)]) ∧
        ∀ e ∈ l, ∀ n, Occ n (trees (setHeaderId cfg s i) os2) → n.data.id = e.1 → ∀ o ∈ osA, o.data.id = e.1 → n.data = o.data := by
      cases a with
      | some v =>
        have e : setHeaderId cfg s i = s := by
          unfold setHeaderId
          rw [hob]
          dsimp only
          rw [hod]
        rw [e]
        refine ⟨os, hs, ?_, fun e he => hpend e (List.mem_cons_of_mem _ he)⟩
        intro e he
        rcases List.mem_append.1 he with he | he
        · exact hdone e he
        · rw [List.mem_singleton.1 he]
          exact ⟨oA, hoA, some v, nm, hoAd, o, by rw [hod, hoAd], htext, hall⟩
      | none =>
        have e : setHeaderId cfg s i = s.updateNode i fun n => n.setData (.header i lv (some (cfg.headerId o)) nm) := by
          unfold setHeaderId
          rw [hob]
          dsimp only
          rw [hod]
        rw [e]
        have hst := set_header h (v := cfg.headerId o) (nm := nm) hin' (fun n hn hid => ⟨none, hall n hn hid⟩)
        have hocc : ∀ n', Occ n' (trees (s.updateNode i fun n => n.setData (.header i lv (some (cfg.headerId o)) nm)) (os.map (Node.mapId i fun n => n.setData (.header i lv (some (cfg.headerId o)) nm)))) →
            n'.data.id ≠ 0 → ∃ n, Occ n (trees s os) ∧ n.data.id = n'.data.id ∧ n' = if n.data.id = i then
              (below i (fun n => n.setData (.header i lv (some (cfg.headerId o)) nm)) n).setData (.header i lv (some (cfg.headerId o)) nm) else below i (fun n => n.setData (.header i lv (some (cfg.headerId o)) nm)) n :=
          fun n' hn' h0 => occ_updated (inserts_setData (id := i) (d := .header i lv (some (cfg.headerId o)) nm) rfl) hn' h0 (fun n hn => absurd hn occ_nil)
        have hr0 : ∀ e ∈ done ++ l, e.1 ≠ 0 := by
          intro e he
          have : e ∈ sA.tocHeaders := hl e (by
            rcases List.mem_append.1 he with he | he
            · exact List.mem_append_left _ he
            · exact List.mem_append_right _ (List.mem_cons_of_mem _ he))
          exact (hA.range ((mem_dreg (t := .header e.2)).2 this)).2
        refine ⟨_, hs.trans hst, ?_, ?_⟩
        · intro e he
          rcases List.mem_append.1 he with he | he
          · obtain ⟨o2, ho2, a2, nm2, hd2, h2, hh1, hh2, hh3⟩ := hdone e he
            refine ⟨o2, ho2, a2, nm2, hd2, h2, hh1, hh2, ?_⟩
            intro n' hn' hid
            have hne' := hne e (List.mem_append_left _ he)
            obtain ⟨n, hn, hnid, rfl⟩ := hocc n' hn' (by rw [hid]; exact hr0 e (List.mem_append_left _ he))
            rw [hid] at hnid
            rw [if_neg (by rw [hnid]; exact hne')]
            exact hh3 n hn hnid
          · rw [List.mem_singleton.1 he]
            refine ⟨oA, hoA, none, nm, hoAd, o, by rw [hod, hoAd], htext, ?_⟩
            intro n' hn' hid
            obtain ⟨n, hn, hnid, rfl⟩ := hocc n' hn' (by rw [hid]; exact hi0)
            rw [hid] at hnid
            rw [if_pos hnid]
            rfl
        · intro e he n' hn' hid o' ho' hid'
          obtain ⟨n, hn, hnid, rfl⟩ := hocc n' hn' (by rw [hid]; exact hr0 e (List.mem_append_right _ he))
          rw [hid] at hnid
          rw [if_neg (by rw [hnid]; exact hne e (List.mem_append_right _ he))]
          exact hpend e (List.mem_cons_of_mem _ he) n hn hnid o' ho' hid'
    obtain ⟨os2, k1, k2, k3⟩ := key
    obtain ⟨os', h1, h2⟩ := ih (done ++ [(i, lv)]) k1 (by simpa using hl) (by simpa using hnd) k2 k3
    exact ⟨os', h1, by simpa using h2⟩


/-- With their ids all headers are settled. -/
theorem settled_of_ids {cfg : Config} {lo : Nat} {base : List Node} {s : DocSt} {os osA : List Node} (h : FW lo base s os) (hi : HaveIds cfg osA s os s.tocHeaders) :
    ∀ n, Occ n (trees s os) → Settled n := by
  intro n hn i l nm e
  obtain ⟨l', hreg⟩ := h.core.headers n hn i l nm e
  obtain ⟨o, ho, a, b, -, hd, -, -, hall⟩ := hi (i, l') (mem_dreg.1 hreg)
  have := hall n hn (by rw [e]; rfl)
  rw [e] at this
  cases this

/-! ## Tables of contents -/

mutual
theorem extract_detach : ∀ n : Node, extractNode n.detach = extractNode n
  | .mk d a c cs ls ex => by
    have h1 : d.detach.value? = d.value? := by cases d <;> rfl
    have h2 : d.detach.hasContent = d.hasContent := by cases d <;> rfl
    rw [Node.detach, extractNode, extractNode, h1, h2, extractText_detach cs]
theorem extractText_detach : ∀ l : List Node, extractText (detachList l) = extractText l
  | [] => rfl
  | n :: ns => by rw [detachList, extractText, extractText, extract_detach n, extractText_detach ns]
end

mutual
/-- The headers of an outline. -/
def Outline.ids : Outline → List Nat
  | .mk i es => i :: outlineIds es
/-- The headers of a list of outlines. -/
def outlineIds : List Outline → List Nat
  | [] => []
  | o :: os => o.ids ++ outlineIds os
end

theorem nestHeaders_ids (fuel level : Nat) (hs : List (Nat × Nat)) :
    outlineIds (nestHeaders fuel level hs).1 ++ (nestHeaders fuel level hs).2.map (·.1) = hs.map (·.1) := by
  induction fuel generalizing level hs with
  | zero => rfl
  | succ n ih =>
    cases hs with
    | nil => rfl
    | cons e hs =>
      obtain ⟨i, l⟩ := e
      unfold nestHeaders
      split
      · rfl
      · dsimp only
        rw [outlineIds, Outline.ids, List.append_assoc, ih level, List.cons_append, ih l]
        rfl

mutual
theorem occ_toNode : ∀ (o : Outline) {n : Node}, Sub n o.toNode → ∃ i ∈ o.ids, n.data = .tocItem i
  | .mk i es, n, h => by
    rw [Outline.toNode] at h
    rcases sub_cases h with rfl | h
    · exact ⟨i, by simp [Outline.ids], rfl⟩
    · have : kids (Node.new (.tocItem i) Context.empty (outlineNodes es)) = outlineNodes es := by
        simp [kids, Node.new, Node.content, Node.labels, Node.extra]
      rw [this] at h
      obtain ⟨j, hj, e⟩ := occ_outline es h
      exact ⟨j, by simp [Outline.ids, hj], e⟩
theorem occ_outline : ∀ (os : List Outline) {n : Node}, Occ n (outlineNodes os) → ∃ i ∈ outlineIds os, n.data = .tocItem i
  | [], n, h => absurd h occ_nil
  | o :: os, n, h => by
    rw [outlineNodes] at h
    rcases occ_cons.1 h with h | h
    · obtain ⟨i, hi, e⟩ := occ_toNode o h
      exact ⟨i, by simp [outlineIds, hi], e⟩
    · obtain ⟨i, hi, e⟩ := occ_outline os h
      exact ⟨i, by simp [outlineIds, hi], e⟩
end

theorem outline_mem {hs : List (Nat × Nat)} {i : Nat} (h : i ∈ outlineIds (outline hs)) : ∃ l, (i, l) ∈ hs := by
  have := nestHeaders_ids (hs.length + 1) 0 hs
  have : i ∈ hs.map (·.1) := by rw [← this]; exact List.mem_append_left _ h
  obtain ⟨e, he, rfl⟩ := List.mem_map.1 this
  exact ⟨e.2, he⟩

theorem inert_outline {lo : Nat} {base : List Node} {s : DocSt} {os : List Node} (h : FW lo base s os) : ∀ n, Occ n (outlineNodes (outline s.tocHeaders)) → Inert s.objs n := by
  intro n hn
  obtain ⟨i, hi, e⟩ := occ_outline _ hn
  obtain ⟨l, hl⟩ := outline_mem hi
  obtain ⟨o, ho, hob, -, a, b, hd⟩ := h.head hl
  unfold Inert Settled
  rw [e]
  refine ⟨rfl, fun _ _ _ e => (nomatch e), ?_⟩
  exact ⟨o, (obj?_some hob).1, l, a, b, hd⟩

/-- The copies of the headers. -/
def plainHeaders (s : DocSt) : List Node := s.tocHeaders.filterMap fun h => (s.obj? h.1).map Node.detach

/-- Fields and text of a node. -/
def gist (n : Node) : NodeData × Str := (n.data.detach, extractNode n)

theorem gist_detach (n : Node) : gist n.detach = gist n := by
  unfold gist
  rw [extract_detach, data_detach]
  cases n.data <;> rfl

theorem plainHeaders_gist {lo : Nat} {base : List Node} {sB s : DocSt} {osB os : List Node} {K : Nat → Prop} (hB : FW lo base sB osB) (hs : Steps lo base K sB osB s os) (hK1 : ¬ K 1) (hK2 : ¬ K 2) :
    (plainHeaders s).map gist = (plainHeaders sB).map gist := by
  have h := hs.fw hB
  unfold plainHeaders
  rw [List.map_filterMap, List.map_filterMap]
  have ht : s.tocHeaders = sB.tocHeaders := by rw [hs.same]
  rw [ht]
  refine filterMap_congr' fun e he => ?_
  obtain ⟨i, l⟩ := e
  obtain ⟨oB, hoB, hobB, hidB, a, b, hdB⟩ := hB.head he
  obtain ⟨o, ho, hob, hid, a', b', hd⟩ := h.head (ht ▸ he)
  have hreg : (i, Tag.header l) ∈ dreg sB := mem_dreg.2 he
  have hi0 := (hB.range hreg).2
  obtain ⟨n, hn, hnid, hnd, -, -⟩ := hs.other hB hreg hK2 (occ_obj ho) hid
  have := hB.core.same n oB hn (occ_obj hoB) (by rw [hnid]; exact hi0) (by rw [hnid, hidB])
  rw [this] at hnd
  have htext := hs.text hB hK1 hi0 (occ_obj hoB) hidB (occ_obj ho) hid
  dsimp only
  rw [hob, hobB]
  simp only [Option.map_some, gist_detach]
  unfold gist
  rw [hnd, htext]

theorem tocNodes_steps {lo : Nat} {base : List Node} {sB : DocSt} {osB : List Node} (hB : FW lo base sB osB) (hsetB : ∀ n, Occ n (trees sB osB) → Settled n) (l : List Nat) {s : DocSt} {os : List Node}
    (done : List Nat) (hs : Steps lo base (· = 3) sB osB s os) (hl : ∀ i ∈ l, i ∈ sB.tocNodes) (hd : ∀ i ∈ done, i ∈ sB.tocNodes)
    (hdone : ∀ i ∈ done, ∀ n, Occ n (trees s os) → n.data.id = i → n.content = outlineNodes (outline sB.tocHeaders) ∧ n.extra.map gist = (plainHeaders sB).map gist ∧ ∀ x, Occ x n.extra → x.data.id = 0) :
    ∃ os', Steps lo base (· = 3) sB osB (l.foldl (fun s id => s.updateNode id fun n => (n.setContent (outlineNodes (outline sB.tocHeaders))).setExtra (plainHeaders s)) s) os' ∧
      ∀ i ∈ done ++ l, ∀ n, Occ n (trees (l.foldl (fun s id => s.updateNode id fun n => (n.setContent (outlineNodes (outline sB.tocHeaders))).setExtra (plainHeaders s)) s) os') → n.data.id = i →
        n.content = outlineNodes (outline sB.tocHeaders) ∧ n.extra.map gist = (plainHeaders sB).map gist ∧ ∀ x, Occ x n.extra → x.data.id = 0 := by
  induction l generalizing s os done with
  | nil => exact ⟨os, hs, by rw [List.append_nil]; exact hdone⟩
  | cons i l ih =>
    have h := hs.fw hB
    have hset := hs.settled hB hsetB
    have hin : i ∈ s.tocNodes := by rw [hs.same]; exact hl i (by simp)
    have hreg : (i, Tag.toc) ∈ dreg s := mem_dreg.2 hin
    have hi0 := (h.range hreg).2
    have htoc : s.tocHeaders = sB.tocHeaders := by rw [hs.same]
    have hplain0 : ∀ n, Occ n (plainHeaders s) → Inert s.objs n := by
      intro n hn
      obtain ⟨m, hm, hsub⟩ := hn
      obtain ⟨e, he, e2⟩ := List.mem_filterMap.1 hm
      obtain ⟨o, ho, hob, -, -⟩ := h.head he
      rw [hob] at e2
      cases e2
      have : Occ n (detachList [o]) := ⟨o.detach, by simp [detachList], hsub⟩
      refine inert_detach ?_ n this
      intro x hx
      have hx' : Occ x (trees s os) := by
        obtain ⟨y, hy, hs⟩ := hx
        rw [List.mem_singleton.1 hy] at hs
        exact occ_sub hs (occ_obj ho)
      exact ⟨hset x hx', h.core.refs x hx'⟩
    have hins : ∀ n, Occ n (outlineNodes (outline sB.tocHeaders) ++ plainHeaders s) → Inert s.objs n := by
      intro n hn
      rcases occ_append.1 hn with hn | hn
      · rw [← htoc] at hn
        exact inert_outline h n hn
      · exact hplain0 n hn
    have hst : Steps lo base (· = 3) s os (s.updateNode i fun n => (n.setContent (outlineNodes (outline sB.tocHeaders))).setExtra (plainHeaders s))
        (os.map (Node.mapId i fun n => (n.setContent (outlineNodes (outline sB.tocHeaders))).setExtra (plainHeaders s))) := by
      refine Steps.one hreg rfl (inserts_setBoth _ _) hins ?_ ?_
      · intro x y hx hid hy
        refine Completes.of_data hy (h.core.refs x hx) ?_
        have := h.core.fits _ hreg x hx hid
        dsimp only [Tag.Fits] at this
        rw [this]
        trivial
      · intro _ y hy
        cases y with
        | mk d a c cs ls ex =>
          change d = _ at hy
          subst hy
          simp [Node.setContent, Node.setExtra, extractNode, Node.data, NodeData.value?, NodeData.hasContent]
    obtain ⟨os', h1, h2⟩ := ih (done ++ [i]) (hs.trans hst) (fun j hj => hl j (List.mem_cons_of_mem _ hj))
      (by
        intro j hj
        rcases List.mem_append.1 hj with hj | hj
        · exact hd j hj
        · rw [List.mem_singleton.1 hj]; exact hl i (by simp))
      (by
        intro j hj n hn hid
        have hj' : j ∈ s.tocNodes := by
          rw [hs.same]
          rcases List.mem_append.1 hj with hj | hj
          · exact hd j hj
          · rw [List.mem_singleton.1 hj]; exact hl i (by simp)
        have hj0 := (h.range ((mem_dreg (t := .toc)).2 hj')).2
        obtain ⟨m, hm, hmid, rfl⟩ := occ_updated (inserts_setBoth (id := i) _ _) hn (by rw [hid]; exact hj0) (fun n hn => (hins n hn).1)
        rw [hid] at hmid
        by_cases c : m.data.id = i
        · rw [if_pos c]
          exact ⟨rfl, plainHeaders_gist hB hs (by decide) (by decide), fun x hx => (hplain0 x hx).1⟩
        · rw [if_neg c]
          rcases List.mem_append.1 hj with hj | hj
          · obtain ⟨e1, e2, e3⟩ := hdone j hj m hm hmid
            refine ⟨?_, ?_, ?_⟩
            · change mapIdList i _ m.content = _
              rw [e1]
              refine mapIdList_none i _ _ ?_
              intro m hm e
              rw [(hins m (occ_append.2 (.inl hm))).1] at e
              exact hi0 e.symm
            · change (mapIdList i _ m.extra).map gist = _
              rw [mapIdList_none i _ _ (by
                intro m hm e
                rw [e3 m hm] at e
                exact hi0 e.symm)]
              exact e2
            · change ∀ x, Occ x (mapIdList i _ m.extra) → _
              rw [mapIdList_none i _ _ (by
                intro m hm e
                rw [e3 m hm] at e
                exact hi0 e.symm)]
              exact e3
          · rw [List.mem_singleton.1 hj] at hmid; exact absurd hmid c)
    exact ⟨os', h1, by simpa using h2⟩


/-! ## Header links -/

/-- An object that is not registered for `K` remains with its fields, and with what it contains if this contains nothing registered for `K`. -/
theorem Steps.content' {lo : Nat} {base : List Node} {K : Nat → Prop} {s s' : DocSt} {os os' : List Node} (hs : Steps lo base K s os s' os') {o : Node} (ho : o ∈ os)
    (hne : ∀ i t, (i, t) ∈ dreg s → K t.kind → o.data.id ≠ i) :
    ∃ o' ∈ os', o'.data = o.data ∧ ((∀ x, Occ x o.content → ∀ T, (x.data.id, T) ∈ dreg s → ¬ K T.kind) → o'.content = o.content) := by
  induction hs generalizing o with
  | refl => exact ⟨o, ho, rfl, fun _ => rfl⟩
  | @step s s' os os' cs i t f hi hK hf hcs hc hx rest ih =>
    have e : o.mapId i f = Mau.below i f o := by rw [mapId_eq, if_neg (hne i t hi hK)]
    obtain ⟨o', ho', h1, h2⟩ := ih (o := Mau.below i f o) (List.mem_map.2 ⟨o, ho, e⟩) hne
    refine ⟨o', ho', h1, fun hfree => ?_⟩
    have e2 : (Mau.below i f o).content = o.content := mapIdList_none i f _ fun m hm e => hfree m hm t (e ▸ hi) hK
    rw [e2] at h2
    exact h2 hfree

/-- No collected link occurs in the trees. -/
def NoLinks (s : DocSt) (l : List Node) : Prop := ∀ x, Occ x l → ∀ tg, (x.data.id, tg) ∉ s.linkMacros

/-- The text of a link without own text: the content of the header of its name. -/
def Copies (sC : DocSt) (osC : List Node) (tg : Str) (n : Node) : Prop :=
  ∀ h, Dict.get? sC.linkHeaders tg = some h → ∀ o ∈ osC, o.data.id = h → NoLinks sC o.content → n.content = detachList o.content

/-- A link with text keeps it. -/
def KeepsText (sC : DocSt) (nC n : Node) : Prop := nC.content ≠ [] → n.content ≠ [] ∧ (NoLinks sC nC.content → n.content = nC.content)

/-- The content of the collected links, with respect to the state `sC` before linking. -/
def LinkTexts (sC : DocSt) (osC : List Node) (s : DocSt) (os : List Node) : Prop :=
  ∀ e ∈ sC.linkMacros, ∀ n, Occ n (trees s os) → n.data.id = e.1 →
    ∃ nC, Occ nC (trees sC osC) ∧ nC.data.id = e.1 ∧ KeepsText sC nC n ∧ (nC.content = [] → n.content = [] ∨ Copies sC osC e.2 n)

/-- The links `l` refer to the headers of their names; in the state `sC` before linking they had the content given. -/
def LinksTo (sC : DocSt) (osC : List Node) (s : DocSt) (os : List Node) (l : List (Nat × Str)) : Prop :=
  ∀ e ∈ l, ∃ h, Dict.get? sC.linkHeaders e.2 = some h ∧ ∀ n, Occ n (trees s os) → n.data.id = e.1 → n.data = .macroHeader e.1 e.2 (some h) ∧
    ∃ nC, Occ nC (trees sC osC) ∧ nC.data.id = e.1 ∧ KeepsText sC nC n ∧ (nC.content = [] → Copies sC osC e.2 n)

theorem inserts_fill {id : Nat} (cs : List Node) : Inserts id (fun n => if n.content.isEmpty then n.setContent cs else n) cs where
  kids := by
    intro x c hc
    split at hc
    · exact (inserts_setContent (id := id) cs).kids x c hc
    · exact .inl hc
  id := by intro x h; split <;> exact h
  same := by intro x; split <;> exact ⟨rfl, rfl⟩
  labels := by intro x; split <;> rfl

theorem data_fill (n : Node) (cs : List Node) : (if n.content.isEmpty then n.setContent cs else n).data = n.data := by split <;> rfl

theorem content_fill (n : Node) (cs : List Node) : (if n.content.isEmpty then n.setContent cs else n).content = if n.content.isEmpty then cs else n.content := by split <;> rfl

/-- Linking one header link. -/
theorem link_header {lo : Nat} {base : List Node} {s : DocSt} {os : List Node} (h : FW lo base s os) (hset : ∀ n, Occ n (trees s os) → Settled n) {i hid : Nat} {tg : Str} (hi : (i, tg) ∈ s.linkMacros)
    (hg : Dict.get? s.linkHeaders tg = some hid) :
    Steps lo base (· = 1) s os (s.updateNode i fun n => n.setData (.macroHeader i tg (some hid))) (os.map (Node.mapId i fun n => n.setData (.macroHeader i tg (some hid)))) := by
  have hreg : (i, Tag.link tg) ∈ dreg s := mem_dreg.2 hi
  refine Steps.one hreg rfl (inserts_setData rfl) (fun n hn => absurd hn occ_nil) ?_ (fun h => absurd rfl h)
  intro x y hx hid' hy
  obtain ⟨r, hd⟩ := h.core.fits _ hreg x hx hid'
  dsimp only at hd
  exact {
    fits := by
      intro T hT
      have hk := fits_kind hT (T' := .link tg) ⟨r, hd⟩
      cases T <;> first | (cases hk; done) | skip
      have := fits_link hT ⟨r, hd⟩
      subst this
      exact ⟨_, rfl⟩
    special := by rw [hd]; rfl
    settled := by intro _ _ _ e; cases e
    refs := by
      obtain ⟨o, ho, l, a, e, -⟩ := h.heads.2 _ (Dict.mem_of_get? hg)
      exact ⟨o, by rw [h.objs]; simp [ho], l, a, e⟩
    kept := by
      rw [hd]
      exact ⟨fun _ _ _ _ e => (nomatch e), fun _ _ _ _ e => (nomatch e)⟩
    content := fun _ => ⟨rfl, rfl⟩ }

theorem fill_header {lo : Nat} {base : List Node} {s : DocSt} {os : List Node} (h : FW lo base s os) (hset : ∀ n, Occ n (trees s os) → Settled n) {i : Nat} {tg : Str} (hi : (i, tg) ∈ s.linkMacros)
    {o : Node} (ho : o ∈ os) :
    Steps lo base (· = 1) s os (s.updateNode i fun n => if n.content.isEmpty then n.setContent (detachList o.content) else n)
      (os.map (Node.mapId i fun n => if n.content.isEmpty then n.setContent (detachList o.content) else n)) := by
  have hreg : (i, Tag.link tg) ∈ dreg s := mem_dreg.2 hi
  refine Steps.one hreg rfl (inserts_fill _) (inert_detach ?_) ?_ (fun h => absurd rfl h)
  · intro n hn
    have : Occ n (trees s os) := by
      obtain ⟨c, hc, hs⟩ := hn
      exact occ_sub (.kid (by simp [kids, hc]) hs) (occ_obj ho)
    exact ⟨hset n this, h.core.refs n this⟩
  · intro x y hx hid hy
    refine Completes.of_data ?_ (h.core.refs x hx) ?_
    · rw [data_fill, hy]
    · obtain ⟨r, hd⟩ := h.core.fits _ hreg x hx hid
      rw [hd]
      trivial


/-- The header a link refers to. -/
theorem FW.named {lo : Nat} {base : List Node} {s : DocSt} {os : List Node} (h : FW lo base s os) {hid : Nat} {tg : Str} (hg : Dict.get? s.linkHeaders tg = some hid) :
    ∃ o ∈ os, s.obj? hid = some o ∧ hid ≠ 0 ∧ o.data.id = hid ∧ ∃ l a, o.data = .header hid l a (some tg) := by
  obtain ⟨o, ho, l, a, e, ht⟩ := h.heads.2 _ (Dict.mem_of_get? hg)
  dsimp only at e ht
  have h0 := (h.range ((mem_dreg (t := .header l)).2 ht)).2
  have hid' : o.data.id = hid := by rw [e]; rfl
  have := h.obj ho (by rw [hid']; exact h0)
  rw [hid'] at this
  exact ⟨o, ho, this, h0, hid', l, a, e⟩

theorem mapIdList_nil_iff {i : Nat} {f : Node → Node} {l : List Node} : mapIdList i f l = [] ↔ l = [] := by
  rw [mapIdList_eq, List.map_eq_nil_iff]

theorem noLinks_mapId {s : DocSt} {i : Nat} {tg : Str} {f : Node → Node} {l : List Node} (h : NoLinks s l) (hi : (i, tg) ∈ s.linkMacros) : mapIdList i f l = l :=
  mapIdList_none i f l fun m hm e => h m hm tg (e ▸ hi)

theorem detached_mapId {i : Nat} {f : Node → Node} {l : List Node} (h : i ≠ 0) : mapIdList i f (detachList l) = detachList l :=
  mapIdList_none i f _ fun m hm e => h (by rw [← e, occ_detach_id hm])

/-- A completion of a link elsewhere keeps the texts. -/
theorem texts_elsewhere {sC : DocSt} {osC : List Node} {i : Nat} {tg tg' : Str} {f : Node → Node} {nC n n' : Node} (hi : (i, tg') ∈ sC.linkMacros) (hi0 : i ≠ 0)
    (hc : n'.content = mapIdList i f n.content) : (KeepsText sC nC n → KeepsText sC nC n') ∧ (Copies sC osC tg n → Copies sC osC tg n') := by
  refine ⟨?_, ?_⟩
  · intro h hne
    obtain ⟨h1, h2⟩ := h hne
    refine ⟨by rw [hc]; exact fun e => h1 (mapIdList_nil_iff.1 e), fun hn => ?_⟩
    rw [hc, h2 hn, noLinks_mapId hn hi]
  · intro h x hx o ho hid hn
    rw [hc, h x hx o ho hid hn, detached_mapId hi0]

theorem linkHeaders_steps {lo : Nat} {base : List Node} {sC : DocSt} {osC : List Node} (hC : FW lo base sC osC) (hsetC : ∀ n, Occ n (trees sC osC) → Settled n) (l : List (Nat × Str)) {s s' : DocSt} {os : List Node}
    (done : List (Nat × Str)) (hs : Steps lo base (· = 1) sC osC s os) (hl : ∀ e ∈ l, e ∈ sC.linkMacros) (hd : ∀ e ∈ done, e ∈ sC.linkMacros)
    (htexts : LinkTexts sC osC s os) (hdone : LinksTo sC osC s os done) (he : linkHeaders l s = .ok s') :
    ∃ os', Steps lo base (· = 1) sC osC s' os' ∧ LinksTo sC osC s' os' (done ++ l) := by
  induction l generalizing s os done with
  | nil =>
    cases he
    exact ⟨os, hs, by rw [List.append_nil]; exact hdone⟩
  | cons e l ih =>
    obtain ⟨i, tg⟩ := e
    have hlh : s.linkHeaders = sC.linkHeaders := by rw [hs.same]
    have hlm : s.linkMacros = sC.linkMacros := by rw [hs.same]
    unfold linkHeaders at he
    cases hg : Dict.get? s.linkHeaders tg with
    | none => rw [hg] at he; cases he
    | some hid =>
      rw [hg] at he
      dsimp only at he
      have hin : (i, tg) ∈ sC.linkMacros := hl (i, tg) (by simp)
      have hreg : (i, Tag.link tg) ∈ dreg sC := mem_dreg.2 hin
      have hi0 := (hC.range hreg).2
      have h := hs.fw hC
      have hset := hs.settled hC hsetC
      have st1 := link_header h hset (hlm ▸ hin) hg
      generalize hf1 : (fun n : Node => n.setData (.macroHeader i tg (some hid))) = f1 at he st1
      have h1 := st1.fw h
      have hset1 := st1.settled h hset
      have hs1 := hs.trans st1
      have hlh1 : (s.updateNode i f1).linkHeaders = sC.linkHeaders := by rw [hs1.same]
      obtain ⟨o1, ho1, hob1, hid0, hoid1, lv, a, hod1⟩ := h1.named (hid := hid) (tg := tg) (by rw [hlh1, ← hlh]; exact hg)
      rw [hob1] at he
      simp only [Option.map_some, Option.getD_some] at he
      have st2 := fill_header h1 hset1 (i := i) (tg := tg) (by rw [hs1.same]; exact hin) ho1
      have hs2 := hs1.trans st2
      -- the copy is the content of the header
      have hcopy : ∀ n : Node, n.content = detachList o1.content → Copies sC osC tg n := by
        intro n hn h2 hg2 o ho hoid hno
        have e2 : h2 = hid := by rw [hlh, hg2] at hg; cases hg; rfl
        subst e2
        have hCo := hC.named hg2
        obtain ⟨oC, hoC, -, -, hoCid, lC, aC, hoCd⟩ := hCo
        have e3 : o = oC := hC.core.same o oC (occ_obj ho) (occ_obj hoC) (by rw [hoid]; exact hid0) (by rw [hoid, hoCid])
        subst e3
        obtain ⟨o', ho', e4, e5⟩ := hs1.content' ho (by
          intro j t hj ht e6
          cases t <;> first | (cases ht; done) | skip
          obtain ⟨r, hr⟩ := hC.core.fits _ hj o (occ_obj ho) e6
          rw [hoCd] at hr
          cases hr)
        have e7 : o' = o1 := h1.core.same o' o1 (occ_obj ho') (occ_obj ho1) (by rw [e4, hoid]; exact hid0) (by rw [e4, hoid, hoid1])
        subst e7
        rw [hn, e5]
        intro x hx T hT hk
        cases T <;> first | (cases hk; done) | skip
        exact hno x hx _ (mem_dreg.1 hT)
      generalize hf2 : (fun n : Node => if n.content.isEmpty = true then n.setContent (detachList o1.content) else n) = f2 at he st2 hs2
      -- an occurrence after both completions
      have hocc : ∀ n', Occ n' (trees ((s.updateNode i f1).updateNode i f2) ((os.map (Node.mapId i f1)).map (Node.mapId i f2))) → n'.data.id ≠ 0 →
          ∃ n, Occ n (trees s os) ∧ n.data.id = n'.data.id ∧ (n.data.id ≠ i → n'.data = n.data ∧ n'.content = mapIdList i f2 (mapIdList i f1 n.content)) ∧
            (n.data.id = i → n'.data = .macroHeader i tg (some hid) ∧ n'.content = if n.content = [] then detachList o1.content else mapIdList i f2 (mapIdList i f1 n.content)) := by
        intro n' hn' h0
        obtain ⟨n1, hn1, hid1, e1⟩ := occ_updated (i := i) (f := f2) (by rw [← hf2]; exact inserts_fill _) hn' h0 (fun n hn => occ_detach_id hn)
        obtain ⟨n, hn, hid2, e2⟩ := occ_updated (i := i) (f := f1) (by rw [← hf1]; exact inserts_setData rfl) hn1 (by rw [hid1]; exact h0) (fun n hn => absurd hn occ_nil)
        refine ⟨n, hn, by rw [hid2, hid1], ?_, ?_⟩
        · intro hne
          rw [if_neg hne] at e2
          subst e2
          rw [if_neg (by rw [data_below]; exact hne)] at e1
          subst e1
          exact ⟨rfl, rfl⟩
        · intro heq
          rw [if_pos heq] at e2
          have hn1i : n1.data.id = i := by rw [← hid2, heq]
          rw [if_pos hn1i] at e1
          have e1' : n' = if (below i f2 n1).content.isEmpty then (below i f2 n1).setContent (detachList o1.content) else below i f2 n1 :=
            e1.trans (congrFun hf2 (below i f2 n1)).symm
          rw [e1', data_fill, content_fill]
          have hb : (below i f2 n1).content = mapIdList i f2 (mapIdList i f1 n.content) := by
            rw [e2, ← hf1]
            rfl
          refine ⟨?_, ?_⟩
          · rw [data_below, e2, ← hf1]
            rfl
          · rw [hb]
            by_cases hc : n.content = []
            · rw [if_pos hc, if_pos]
              rw [hc]; rfl
            · rw [if_neg hc, if_neg]
              intro e
              exact hc (mapIdList_nil_iff.1 (mapIdList_nil_iff.1 (List.isEmpty_iff.1 e)))
      have hm0 : ∀ e ∈ sC.linkMacros, e.1 ≠ 0 := fun e he => (hC.range ((mem_dreg (t := .link e.2)).2 he)).2
      have twice : ∀ {tg'} {nC n n' : Node}, n'.content = mapIdList i f2 (mapIdList i f1 n.content) →
          (KeepsText sC nC n → KeepsText sC nC n') ∧ (Copies sC osC tg' n → Copies sC osC tg' n') := by
        intro tg' nC n n' hc
        have p1 := texts_elsewhere (osC := osC) (tg := tg') (f := f1) (nC := nC) (n := n) (n' := n.setContent (mapIdList i f1 n.content)) hin hi0 rfl
        have p2 := texts_elsewhere (osC := osC) (tg := tg') (f := f2) (nC := nC) (n := n.setContent (mapIdList i f1 n.content)) (n' := n') hin hi0 hc
        exact ⟨fun h => p2.1 (p1.1 h), fun h => p2.2 (p1.2 h)⟩
      -- the name of a link with this identity
      have hname : ∀ e ∈ sC.linkMacros, ∀ n, Occ n (trees s os) → n.data.id = i → e.1 = i → e.2 = tg := by
        intro e he n hn hni e1
        have f1 := h.core.fits (i, Tag.link tg) (by rw [hs.reg]; exact hreg) n hn hni
        have f2 := h.core.fits (e.1, Tag.link e.2) (by rw [hs.reg]; exact mem_dreg.2 he) n hn (by rw [hni, e1])
        dsimp only at f1 f2
        rw [e1] at f2
        exact fits_link f2 f1
      have htexts' : LinkTexts sC osC ((s.updateNode i f1).updateNode i f2) ((os.map (Node.mapId i f1)).map (Node.mapId i f2)) := by
        intro e he n' hn' hid'
        obtain ⟨n, hn, hnid, hne, heq⟩ := hocc n' hn' (by rw [hid']; exact hm0 e he)
        rw [hid'] at hnid
        obtain ⟨nC, hnC, hnCid, k1, k2⟩ := htexts e he n hn hnid
        refine ⟨nC, hnC, hnCid, ?_⟩
        by_cases c : n.data.id = i
        · obtain ⟨-, hc⟩ := heq c
          by_cases c2 : n.content = []
          · rw [if_pos c2] at hc
            refine ⟨fun hne => absurd c2 (k1 hne).1, fun _ => .inr ?_⟩
            rw [hname e he n hn c (by rw [← hnid, c])]
            exact hcopy n' hc
          · rw [if_neg c2] at hc
            refine ⟨(twice hc (tg' := tg)).1 k1, fun h => ?_⟩
            rcases k2 h with k | k
            · exact absurd k c2
            · exact .inr ((twice (nC := nC) hc).2 k)
        · obtain ⟨-, hc⟩ := hne c
          refine ⟨(twice hc (tg' := tg)).1 k1, fun h => ?_⟩
          rcases k2 h with k | k
          · left; rw [hc, k]; rfl
          · exact .inr ((twice (nC := nC) hc).2 k)
      have hdone' : LinksTo sC osC ((s.updateNode i f1).updateNode i f2) ((os.map (Node.mapId i f1)).map (Node.mapId i f2)) (done ++ [(i, tg)]) := by
        have new : ∀ e ∈ sC.linkMacros, ∀ n' n, Occ n (trees s os) → n.data.id = e.1 → n.data.id = i →
            n'.data = .macroHeader i tg (some hid) ∧ (n'.content = if n.content = [] then detachList o1.content else mapIdList i f2 (mapIdList i f1 n.content)) →
            n'.data = .macroHeader e.1 e.2 (some hid) ∧ ∃ nC, Occ nC (trees sC osC) ∧ nC.data.id = e.1 ∧ KeepsText sC nC n' ∧ (nC.content = [] → Copies sC osC e.2 n') := by
          intro e he n' n hn hnid c heq
          obtain ⟨nC, hnC, hnCid, k1, k2⟩ := htexts e he n hn hnid
          have e1 : e.1 = i := by rw [← hnid, c]
          have e2 := hname e he n hn c e1
          refine ⟨by rw [e1, e2]; exact heq.1, nC, hnC, hnCid, ?_⟩
          have hc := heq.2
          by_cases c2 : n.content = []
          · rw [if_pos c2] at hc
            refine ⟨fun hne => absurd c2 (k1 hne).1, fun _ => ?_⟩
            rw [e2]
            exact hcopy n' hc
          · rw [if_neg c2] at hc
            refine ⟨(twice hc (tg' := tg)).1 k1, fun h => ?_⟩
            rcases k2 h with k | k
            · exact absurd k c2
            · exact (twice (nC := nC) hc).2 k
        intro e he
        rcases List.mem_append.1 he with he | he
        · obtain ⟨h', hg', hall⟩ := hdone e he
          refine ⟨h', hg', ?_⟩
          intro n' hn' hid'
          obtain ⟨n, hn, hnid, hne, heq⟩ := hocc n' hn' (by rw [hid']; exact hm0 e (hd e he))
          rw [hid'] at hnid
          by_cases c : n.data.id = i
          · have e2 := hname e (hd e he) n hn c (by rw [← hnid, c])
            have e3 : h' = hid := by
              rw [e2, ← hlh, hg] at hg'
              cases hg'; rfl
            rw [e3]
            exact new e (hd e he) n' n hn hnid c (heq c)
          · obtain ⟨d1, nC, hnC, hnCid, k1, k2⟩ := hall n hn hnid
            obtain ⟨e4, hc⟩ := hne c
            exact ⟨e4.trans d1, nC, hnC, hnCid, (twice hc (tg' := tg)).1 k1, fun h => (twice (nC := nC) hc).2 (k2 h)⟩
        · rw [List.mem_singleton.1 he]
          refine ⟨hid, by rw [← hlh]; exact hg, ?_⟩
          intro n' hn' hid'
          obtain ⟨n, hn, hnid, hne, heq⟩ := hocc n' hn' (by rw [hid']; exact hi0)
          rw [hid'] at hnid
          exact new (i, tg) hin n' n hn hnid hnid (heq hnid)
      obtain ⟨os', r1, r2⟩ := ih (done ++ [(i, tg)]) hs2 (fun e he => hl e (List.mem_cons_of_mem _ he))
        (by
          intro e he
          rcases List.mem_append.1 he with he | he
          · exact hd e he
          · rw [List.mem_singleton.1 he]; exact hin) htexts' hdone' he
      exact ⟨os', r1, by simpa using r2⟩

end Mau
