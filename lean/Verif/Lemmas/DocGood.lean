import Verif.Lemmas.DocCore

set_option linter.unusedSimpArgs false
set_option linter.unusedVariables false

/-!
# Headers, blocks and includes keep the invariant of identities
-/

namespace Mau
open Spec

theorem mem_vals {α : Type} {d : Dict α} {x : α} : x ∈ vals d ↔ ∃ k, (k, x) ∈ d := by
  unfold vals
  simp only [List.mem_map]
  constructor
  · rintro ⟨⟨k, v⟩, h, rfl⟩; exact ⟨k, h⟩
  · rintro ⟨k, h⟩; exact ⟨_, h, rfl⟩

/-- Trees without identities, references and headers can be added. -/
theorem Core.plain {objs : List Node} {lo uid : Nat} {res : List Nat} {reg : List (Nat × Tag)} {tops rest ns : List Node}
    (h : Core objs lo uid res reg tops rest) (hp : ∀ n, Occ n ns → Plain n) : Core objs lo uid res reg tops (ns ++ rest) := by
  have hr0 : ∀ e ∈ reg, e.1 ≠ 0 := fun e he e0 => by have := (h.regRange e he).1; have := h.pos; omega
  have ho : ∀ x, Occ x (tops ++ (ns ++ rest)) → Plain x ∨ Occ x (tops ++ rest) := by
    intro x hx
    rw [occ_append, occ_append] at hx
    rcases hx with hx | hx | hx
    · exact .inr (occ_append.2 (.inl hx))
    · exact .inl (hp x hx)
    · exact .inr (occ_append.2 (.inr hx))
  exact {
    pos := h.pos
    le := h.le
    range := fun x hx => by
      rcases ho x hx with hx | hx
      · exact .inl hx.id
      · exact h.range x hx
    same := fun x y hx hy h0 he => by
      rcases ho x hx with hx | hx
      · exact absurd hx.id h0
      · rcases ho y hy with hy | hy
        · rw [hy.id] at he; exact absurd he h0
        · exact h.same x y hx hy h0 he
    regRange := h.regRange
    fits := fun e he x hx hx' => by
      rcases ho x hx with hx | hx
      · rw [hx.id] at hx'; exact absurd hx'.symm (hr0 e he)
      · exact h.fits e he x hx hx'
    resRange := h.resRange
    resNodup := h.resNodup
    resReg := h.resReg
    resOcc := fun i hi x hx => by
      rcases ho x hx with hx | hx
      · rw [hx.id]; have := (h.resRange i hi).1; have := h.pos; omega
      · exact h.resOcc i hi x hx
    headers := fun x hx i l nm hd => by
      rcases ho x hx with hx | hx
      · have : i = 0 := by have := hx.id; rw [hd] at this; exact this
        subst this
        exact absurd hd (hx.noHeader l nm)
      · exact h.headers x hx i l nm hd
    groupRest := fun i g hg x hx => by
      rcases occ_append.1 hx with hx | hx
      · rw [(hp x hx).id]; exact Ne.symm (hr0 _ hg)
      · exact h.groupRest i g hg x hx
    groupTops := h.groupTops
    refs := fun x hx => by
      rcases ho x hx with hx | hx
      · exact hx.free _
      · exact h.refs x hx }

namespace WF
variable {lo : Nat} {base : List Node} {s : DocSt} {res res' : List Nat} {ps ps' : List Node}

/-- All identities of the objects are below the counter. -/
theorem below (h : WF lo base s res ps) : 0 < s.uid ∧ ∀ n, Occ n s.objs → n.data.id < s.uid := by
  obtain ⟨h1, h2, h2a, h2b, h2c, os, h3, h4, h5⟩ := h
  refine ⟨Nat.lt_of_lt_of_le h4.pos h4.le, ?_⟩
  intro n hn
  rw [h3, occ_append] at hn
  rcases hn with hn | hn
  · exact Nat.lt_of_lt_of_le (h1 n hn) h4.le
  · have := h4.range n (occ_append.2 (.inr (occ_append.2 (.inl (occ_append.2 (.inr hn))))))
    have := h4.pos; have := h4.le
    omega

theorem plain {ns : List Node} (h : WF lo base s res ps) (hp : ∀ n, Occ n ns → Plain n) : WF lo base s res (ns ++ ps) := by
  obtain ⟨h1, h2, h2a, h2b, h2c, os, h3, h4, h5⟩ := h
  refine ⟨h1, h2, h2a, h2b, h2c, os, h3, (h4.plain hp).forget ?_, h5⟩
  intro m hm
  simp only [List.mem_append] at hm ⊢
  rcases hm with hm | hm | hm
  · exact .inr (.inl hm)
  · exact .inl hm
  · exact .inr (.inr hm)

/-- Take in the result of a nested parser, without its managers. -/
theorem nested {inner s' : DocSt} (h : WF lo base s res ps) (hi : Finished s.uid s.objs inner)
    (e1 : s'.nodes = s.nodes) (e2 : s'.bodies = s.bodies) (e3 : s'.groups = s.groups) (e4 : s'.labelBuf = s.labelBuf) (e5 : dreg s' = dreg s)
    (e6 : s'.tocHeaders = s.tocHeaders) (e7 : s'.linkHeaders = s.linkHeaders) (e8 : s'.uid = inner.uid) (e9 : s'.objs = inner.objs) :
    WF lo base s' res (inner.nodes ++ ps) := by
  obtain ⟨h1, h2, h2a, h2b, h2c, os, h3, h4, h5⟩ := h
  obtain ⟨i1, i2, i3, i4, os2, i5, i6, i7, i8⟩ := hi
  have ho : s'.objs = s.objs ++ os2 := e9.trans i5
  refine ⟨h1, ⟨e2 ▸ h2.1, e2 ▸ h2.2⟩, ⟨by rw [e1, e6]; exact h2a.1, by rw [e1, e5]; exact h2a.2⟩, ⟨by rw [e6]; exact h2b.1, by rw [e6]; exact h2b.2⟩, e3 ▸ h2c, os ++ os2, by rw [ho, h3, List.append_assoc], ?_, ?_, ?_⟩
  · rw [e5, e1, e8, e9]
    have hj := h4.join (news := inner.nodes ++ os2) (regs := dreg s) i6 (by rw [i5]; exact fun o ho => List.mem_append_left _ ho) i7 (by
      intro n hn
      simp only [List.mem_append] at hn ⊢
      rcases hn with hn | hn
      · exact .inl hn
      · exact .inr (.inr hn)) (fun e he => .inl he) (fun _ _ h => h)
    refine hj.forget ?_
    intro m hm
    simp only [held, e2, e3, e4, List.mem_append] at hm ⊢
    rcases hm with (hm | hm | hm) | hm | hm
    · exact .inr (.inl (.inl hm))
    · exact .inr (.inl (.inr hm))
    · exact .inl (.inr hm)
    · exact .inl (.inl hm)
    · exact .inr (.inr hm)
  · intro x hx
    rw [e6] at hx
    obtain ⟨o, ho, h⟩ := h5.1 x hx
    exact ⟨o, List.mem_append_left _ ho, h⟩
  · intro x hx
    rw [e7] at hx
    obtain ⟨o, ho, l, i, h, ht⟩ := h5.2 x hx
    exact ⟨o, List.mem_append_left _ ho, l, i, h, e6 ▸ ht⟩

/-- Take in the result of a nested parser with its managers. -/
theorem merged {inner : DocSt} {env : Env} (h : WF lo base s res ps) (hi : Finished s.uid s.objs inner) :
    WF lo base (mergeManagers { s with env := env, uid := inner.uid, objs := inner.objs } inner) res (inner.nodes ++ ps) := by
  obtain ⟨h1, h2, h2a, h2b, h2c, os, h3, h4, h5⟩ := h
  obtain ⟨i1, i2, i3, i4, os2, i5, i6, i7, i8⟩ := hi
  refine ⟨h1, ⟨Dict.distinct_update h2.1 _, ?_⟩, ⟨?_, ?_⟩, ⟨?_, ?_⟩, h2c, os ++ os2, ?_, ?_, ?_, ?_⟩
  · intro b hb
    obtain ⟨k, hk⟩ := mem_vals.1 hb
    rcases Dict.mem_update hk with hk | hk
    · exact h2.2 b (mem_vals.2 ⟨k, hk⟩)
    · exact i1.2 b (mem_vals.2 ⟨k, hk⟩)
  · exact h2a.1.trans (List.sublist_append_left _ _)
  · rintro m hm ⟨i, t⟩ he
    have := h2a.2 m hm _ he
    rw [mem_dreg] at this ⊢
    cases t <;> dsimp only at this ⊢ <;> first | exact this | exact List.mem_append_left _ this
  · change ((s.tocHeaders ++ inner.tocHeaders).map (·.1)).Nodup
    rw [List.map_append, List.nodup_append]
    refine ⟨h2b.1, i3.1, ?_⟩
    intro a ha b hb
    obtain ⟨⟨a', l⟩, ha2, rfl⟩ := List.mem_map.1 ha
    obtain ⟨⟨b', l'⟩, hb2, rfl⟩ := List.mem_map.1 hb
    have ra := h4.regRange (a', .header l) (mem_dreg.2 ha2)
    have rb := i6.regRange (b', .header l') (mem_dreg.2 hb2)
    dsimp only at ra rb ⊢
    omega
  · intro h hh
    rcases List.mem_append.1 hh with hh | hh
    · exact h2b.2 h hh
    · exact i3.2 h hh
  · change inner.objs = _
    rw [i5, h3, List.append_assoc]
  · change Core inner.objs lo inner.uid res _ s.nodes _
    have hj := h4.join (news := inner.nodes ++ vals inner.bodies ++ os2) (regs := dreg (mergeManagers { s with env := env, uid := inner.uid, objs := inner.objs } inner)) i6
      (by rw [i5]; exact fun o ho => List.mem_append_left _ ho) i7 (by
      intro n hn
      simp only [List.mem_append] at hn ⊢
      rcases hn with (hn | hn) | hn
      · exact .inl hn
      · exact .inr (.inl (.inl hn))
      · exact .inr (.inr hn)) (by
        rintro ⟨i, t⟩ he
        rw [mem_dreg] at he
        rw [mem_dreg, mem_dreg]
        cases t <;> simp only [mergeManagers] at he ⊢ <;> first
          | (rcases List.mem_append.1 he with he | he
             · exact .inl he
             · exact .inr ⟨he, by intro g h; cases h⟩)
          | exact .inl he) (by
        intro i l hi
        rw [mem_dreg] at hi ⊢
        exact List.mem_append_left _ hi)
    refine hj.forget ?_
    intro m hm
    simp only [held, mergeManagers, List.mem_append] at hm ⊢
    rcases hm with (((hm | hm) | hm) | hm | hm) | hm | hm
    · obtain ⟨k, hk⟩ := mem_vals.1 hm
      rcases Dict.mem_update hk with hk | hk
      · exact .inr (.inl (.inl (.inl (.inl (mem_vals.2 ⟨k, hk⟩)))))
      · exact .inl (.inl (.inr (mem_vals.2 ⟨k, hk⟩)))
    · exact .inr (.inl (.inl (.inl (.inr hm))))
    · exact .inr (.inl (.inl (.inr hm)))
    · exact .inr (.inl (.inr hm))
    · exact .inl (.inr hm)
    · exact .inl (.inl (.inl hm))
    · exact .inr (.inr hm)
  · intro x hx
    rcases List.mem_append.1 hx with hx | hx
    · obtain ⟨o, ho, h⟩ := h5.1 x hx
      exact ⟨o, List.mem_append_left _ ho, h⟩
    · obtain ⟨o, ho, h⟩ := i8.1 x hx
      exact ⟨o, List.mem_append_right _ ho, h⟩
  · intro x hx
    obtain ⟨o, ho, l, i, h, ht⟩ := h5.2 x hx
    exact ⟨o, List.mem_append_left _ ho, l, i, h, List.mem_append_left _ ht⟩

end WF

/-! ## Headers -/

theorem truthy_eq {o : Option Str} {x : Str} (h : truthy o = some x) : o = some x := by
  unfold truthy at h
  split at h
  · cases h
  · exact h

namespace DGood
variable {α β : Type} {lo : Nat} {base : List Node} {pr : List Nat} {pn : List Node} {R : α → List Nat} {N : α → List Node}

theorem fresh : DGood lo base pr pn DM.fresh (fun id => id :: pr) (fun _ => pn) := by
  intro s res ps hw
  refine ⟨?_, by intro _ h; cases h⟩
  intro a s' h
  cases h
  obtain ⟨h1, h2, h2a, h2b, h2c, os, h3, h4, h5⟩ := hw
  exact ⟨h1, h2, h2a, h2b, h2c, os, h3, h4.fresh, h5⟩

/-- A header is registered and saved. -/
theorem header {i l : Nat} (hl : 1 ≤ l) {iid name : Option Str} {node : Node} (hd : node.data = .header i l iid name) (hk : ∀ c ∈ kids node, c ∈ pn) :
    DGood lo base [i] pn (Mau.registerHeader i l name node >>= fun _ => Mau.save node) (fun _ => []) (fun _ => []) := by
  intro s res ps hw
  have key : ∀ lh : Dict Nat, (∀ kv ∈ lh, kv ∈ s.linkHeaders ∨ kv.2 = i ∧ name = some kv.1) →
      WF lo base { s with linkHeaders := lh, tocHeaders := s.tocHeaders ++ [(i, l)], objs := s.objs ++ [node], nodes := s.nodes ++ [node] } res ps := by
    intro lh hlh
    obtain ⟨h1, h2, h2a, h2b, h2c, os, h3, h4, h5⟩ := hw
    have h4' := h4.more (objs2 := s.objs ++ [node]) fun o ho => List.mem_append_left _ ho
    have hu := h4'.use (n := node) (t := .header l) (by
      intro c hc
      exact List.mem_append_right _ (List.mem_append_left _ (hk c hc))) (by rw [hd]; rfl) ⟨iid, name, hd⟩ (by intro g h; cases h) (by rw [hd]; trivial)
    refine ⟨h1, h2, ⟨?_, ?_⟩, ⟨?_, ?_⟩, h2c, os ++ [node], ?_, hu.mono ?_ ?_ ?_ ?_, ?_, ?_⟩
    · change ((s.nodes ++ [node]).filterMap headerOf).Sublist (s.tocHeaders ++ [(i, l)])
      rw [List.filterMap_append]
      have : [node].filterMap headerOf = [(i, l)] := by simp [headerOf, hd]
      rw [this]
      exact h2a.1.append (List.Sublist.refl _)
    · rintro m hm ⟨j, t⟩ he
      rcases List.mem_append.1 hm with hm | hm
      · have := h2a.2 m hm _ he
        rw [mem_dreg] at this ⊢
        cases t <;> dsimp only at this ⊢ <;> first | exact this | exact List.mem_append_left _ this
      · rw [List.mem_singleton] at hm
        subst hm
        rw [hd] at he
        cases he
        rw [mem_dreg]
        exact List.mem_append_right _ List.mem_cons_self
    · change ((s.tocHeaders ++ [(i, l)]).map (·.1)).Nodup
      rw [List.map_append, List.nodup_append]
      refine ⟨h2b.1, by simp, ?_⟩
      intro a ha b hb
      obtain ⟨⟨a', l'⟩, ha2, rfl⟩ := List.mem_map.1 ha
      simp only [List.map_cons, List.map_nil, List.mem_cons, List.not_mem_nil, or_false] at hb
      subst hb
      exact h4.resReg _ (by simp) (a', .header l') (mem_dreg.2 ha2)
    · intro h hh
      rcases List.mem_append.1 hh with hh | hh
      · exact h2b.2 h hh
      · rw [List.mem_singleton] at hh; subst hh; exact hl
    · change s.objs ++ [node] = _
      rw [h3, List.append_assoc]
    · rintro ⟨j, t⟩ he
      rw [mem_dreg] at he
      rw [List.mem_cons, mem_dreg]
      cases t <;> dsimp only at he ⊢
      · exact .inr he
      · exact .inr he
      · rcases List.mem_append.1 he with he | he
        · exact .inr he
        · rw [List.mem_singleton] at he; cases he; exact .inl rfl
      · exact .inr he
      · exact .inr he
      · exact .inr he
    · intro j l' hj
      rw [mem_dreg]
      rcases List.mem_cons.1 hj with hj | hj
      · cases hj; exact List.mem_append_right _ List.mem_cons_self
      · rw [mem_dreg] at hj; exact List.mem_append_left _ hj
    · intro m hm
      simp only [List.mem_append, List.mem_cons, List.not_mem_nil, or_false] at hm ⊢
      rcases hm with hm | hm
      · exact .inl hm
      · exact .inr (.inl hm)
    · intro m hm
      simp only [held, List.mem_append, List.mem_cons, List.not_mem_nil, or_false] at hm ⊢
      rcases hm with ((hm | hm) | hm | hm) | hm
      · exact .inr (.inl (.inl (.inl hm)))
      · exact .inr (.inl (.inl (.inr hm)))
      · exact .inr (.inl (.inr hm))
      · exact .inl hm
      · exact .inr (.inr (.inr hm))
    · intro x hx
      rcases List.mem_append.1 hx with hx | hx
      · obtain ⟨o, ho, h⟩ := h5.1 x hx
        exact ⟨o, List.mem_append_left _ ho, h⟩
      · rw [List.mem_singleton] at hx
        subst hx
        exact ⟨node, List.mem_append_right _ List.mem_cons_self, by rw [hd]; rfl⟩
    · intro x hx
      rcases hlh x hx with hx | ⟨e1, e2⟩
      · obtain ⟨o, ho, l', i', h, ht⟩ := h5.2 x hx
        exact ⟨o, List.mem_append_left _ ho, l', i', h, List.mem_append_left _ ht⟩
      · refine ⟨node, List.mem_append_right _ List.mem_cons_self, l, iid, ?_, ?_⟩
        · rw [hd, e1, e2]
        · rw [e1]; exact List.mem_append_right _ List.mem_cons_self
  have run : ∀ s1 : DocSt, (DM.modify (fun s => { s with tocHeaders := s.tocHeaders ++ [(i, l)], objs := s.objs ++ [node] }) >>= fun _ => Mau.save node) s1 =
      .ok () { s1 with tocHeaders := s1.tocHeaders ++ [(i, l)], objs := s1.objs ++ [node], nodes := s1.nodes ++ [node] } := fun _ => rfl
  have assoc : ∀ s1 : DocSt, (Mau.registerHeader i l name node >>= fun _ => Mau.save node) s1 =
      (Mau.registerName i name node.ctx >>= fun _ => DM.modify (fun s => { s with tocHeaders := s.tocHeaders ++ [(i, l)], objs := s.objs ++ [node] }) >>= fun _ => Mau.save node) s1 := by
    intro s1
    unfold Mau.registerHeader
    change DM.bind (DM.bind _ _) _ s1 = DM.bind _ _ s1
    unfold DM.bind
    cases Mau.registerName i name node.ctx s1 <;> rfl
  rw [assoc]
  unfold Mau.registerName
  cases ht : truthy name with
  | none =>
    dsimp only
    rw [DM.bind_of_ok (f := (Pure.pure () : DM Unit)) (a := ()) (s1 := s) rfl, run]
    refine ⟨?_, by intro _ h; cases h⟩
    intro a s' h
    cases h
    exact key s.linkHeaders fun kv h => .inl h
  | some nm =>
    dsimp only
    by_cases hh : Dict.has s.linkHeaders nm = true
    · rw [DM.bind_of_err (e := .parser (msgDuplicateHeader nm) (some node.ctx))]
      · exact ⟨(by intro _ _ h; cases h), (by intro _ h; cases h)⟩
      · rw [DM.bind_of_ok (f := DM.get) (a := s) (s1 := s) rfl, if_pos hh]
        rfl
    · rw [DM.bind_of_ok (a := ()) (s1 := { s with linkHeaders := Dict.set s.linkHeaders nm i }), run]
      · refine ⟨?_, by intro _ h; cases h⟩
        intro a s' h
        cases h
        refine key (Dict.set s.linkHeaders nm i) ?_
        intro kv hkv
        rcases Dict.mem_set hkv with rfl | h
        · exact .inr ⟨rfl, truthy_eq ht⟩
        · exact .inl h
      · rw [DM.bind_of_ok (f := DM.get) (a := s) (s1 := s) rfl, if_neg hh]
        rfl

/-- A header is saved, or dropped. -/
theorem headerIf {i l : Nat} (hl : 1 ≤ l) {iid name : Option Str} {node : Node} (hd : node.data = .header i l iid name) (hk : ∀ c ∈ kids node, c ∈ pn) :
    DGood lo base [i] pn (Mau.popControl >>= fun b => if b then (Mau.registerHeader i l name node >>= fun _ => Mau.save node) else Pure.pure ())
      (fun _ => []) (fun _ => []) :=
  bind popControl fun _ => ite (header hl hd hk) (pure rfl builds_nil)

/-! ## Blocks -/

/-- Sequencing that uses a fact about the value. -/
theorem bindV {f : DM α} {g : α → DM β} {R' : β → List Nat} {M : β → List Node} {V : α → Prop} (hf : DGood lo base pr pn f R N)
    (hv : ∀ s a s', f s = .ok a s' → V a) (hg : ∀ a, V a → DGood lo base (R a) (N a) (g a) R' M) : DGood lo base pr pn (f >>= g) R' M := by
  intro s res ps hw
  cases hx : f s with
  | ok a s1 =>
    rw [DM.bind_of_ok hx]
    exact hg a (hv _ _ _ hx) s1 res ps ((hf s res ps hw).1 _ _ hx)
  | fail s1 =>
    rw [DM.bind_of_fail hx]
    exact ⟨(by intro _ _ h; cases h), (by intro _ h; cases h; exact (hf s res ps hw).2 _ hx)⟩
  | err e =>
    rw [DM.bind_of_err hx]
    exact ⟨(by intro _ _ h; cases h), (by intro _ h; cases h)⟩

/-- Sequencing that uses a fact about the value which follows from the invariant. -/
theorem bindW {f : DM α} {g : α → DM β} {R' : β → List Nat} {M : β → List Node} {V : α → Prop} (hf : DGood lo base pr pn f R N)
    (hv : ∀ s res ps a s', WF lo base s res ps → f s = .ok a s' → V a) (hg : ∀ a, V a → DGood lo base (R a) (N a) (g a) R' M) :
    DGood lo base pr pn (f >>= g) R' M := by
  intro s res ps hw
  cases hx : f s with
  | ok a s1 =>
    rw [DM.bind_of_ok hx]
    exact hg a (hv _ _ _ _ _ hw hx) s1 res ps ((hf s res ps hw).1 _ _ hx)
  | fail s1 =>
    rw [DM.bind_of_fail hx]
    exact ⟨(by intro _ _ h; cases h), (by intro _ h; cases h; exact (hf s res ps hw).2 _ hx)⟩
  | err e =>
    rw [DM.bind_of_err hx]
    exact ⟨(by intro _ _ h; cases h), (by intro _ h; cases h)⟩

section
variable {nested : NestedParser} (hn : NestedGood nested)
include hn

theorem blockContent_settled {t : Token} {args : NodeArgs} {s s' : DocSt} {res : List Nat} {ps ns : List Node} (hw : WF lo base s res ps)
    (h : Mau.blockContent nested t args s = .ok ns s') : ∀ n, Occ n ns → Settled n := by
  unfold Mau.blockContent at h
  split at h
  · cases h
  · cases h
  · rename_i inner hi
    have hb := hw.below
    have hf := hn _ _ hi hb.1 hb.2
    cases h
    obtain ⟨os, _, _, hs, _⟩ := hf.core
    intro n hn'
    exact hs n (occ_append.2 (.inl hn'))

theorem blockContent (t : Token) (args : NodeArgs) : DGood lo base pr pn (Mau.blockContent nested t args) (fun _ => pr) (fun ns => ns ++ pn) := by
  intro s res ps hw
  unfold Mau.blockContent
  split
  · exact ⟨(by intro _ _ h; cases h), (by intro _ h; cases h; exact drop hw)⟩
  · exact ⟨(by intro _ _ h; cases h), (by intro _ h; cases h)⟩
  · rename_i inner hi
    have hb := hw.below
    have hf := hn _ _ hi hb.1 hb.2
    refine ⟨?_, by intro _ h; cases h⟩
    intro a s' h
    cases h
    rw [List.append_assoc]
    split
    · exact hw.merged hf
    · exact hw.nested hf rfl rfl rfl rfl rfl rfl rfl rfl rfl

end

theorem plain_leaf {d : NodeData} {c : Context} (hid : d.id = 0) (hh : ∀ l nm, d ≠ .header 0 l none nm) (hr : ∀ objs, Resolves objs d) :
    ∀ n, Sub n (Node.new d c) → Plain n := by
  intro n hn
  rcases sub_cases hn with rfl | h
  · exact ⟨hid, hh, hr⟩
  · rw [kids_new] at h
    exact absurd h occ_nil

theorem plain_rawLines (t : Token) : ∀ n, Occ n (rawLines t) → Plain n := by
  rintro n ⟨m, hm, hs⟩
  unfold rawLines at hm
  rw [List.mem_mapIdx] at hm
  obtain ⟨i, hi, rfl⟩ := hm
  exact plain_leaf rfl (by intro l nm h; cases h) (by intro _; trivial) n hs

theorem plain_sourceLines {p : SourceParams} {c : Context} {i : Nat} {ls : List Str} {ns : List Node} (h : sourceLines p c i ls = .ok ns) :
    ∀ n, Occ n ns → Plain n := by
  induction ls generalizing i ns with
  | nil => cases h; intro n hn; exact absurd hn occ_nil
  | cons l ls ih =>
    unfold sourceLines at h
    obtain ⟨r, _, h⟩ := bind_ok_except h
    obtain ⟨rest, hr, h⟩ := bind_ok_except h
    cases h
    intro n hn
    rcases occ_cons.1 hn with hn | hn
    · unfold sourceLineNode at hn
      dsimp only at hn
      split at hn
      · exact plain_leaf rfl (by intro l nm h; cases h) (by intro _; trivial) n hn
      · rcases sub_cases hn with rfl | hk
        · exact ⟨rfl, (by intro l nm h; cases h), fun _ => trivial⟩
        · rw [kids_new] at hk
          obtain ⟨m, hm, hs⟩ := hk
          simp only [List.map_nil, List.append_nil, List.mem_cons, List.not_mem_nil, or_false] at hm
          subst hm
          exact plain_leaf rfl (by intro l nm h; cases h) (by intro _; trivial) n hs
    · exact ih hr n hn

theorem plain_sourceEngine {env : Env} {t : Token} {args : NodeArgs} {r : Option Str × List Node × NodeArgs} (h : sourceEngine env t args = .ok r) :
    ∀ n, Occ n r.2.1 → Plain n := by
  unfold sourceEngine at h
  dsimp only at h
  split at h
  all_goals
    obtain ⟨al, _, h2⟩ := bind_ok_except h
    obtain ⟨ls, hl, h3⟩ := bind_ok_except h2
    cases h3
    exact plain_sourceLines hl

/-- Return trees without identities. -/
theorem pplain {a : α} (hr : R a = pr) (M : List Node) (hN : N a = M ++ pn) (h : ∀ n, Occ n M → Plain n) : DGood lo base pr pn (Pure.pure a : DM α) R N := by
  intro s res ps hw
  refine ⟨?_, by intro _ h'; cases h'⟩
  intro _ _ h'
  cases h'
  rw [hr, hN, List.append_assoc]
  exact hw.plain h

/-- The classes of the nodes made of blocks. -/
def BlockData (d : NodeData) : Prop := (∃ c, d = .block c) ∨ (∃ c, d = .raw c) ∨ ∃ l c, d = .source l c

theorem blockEngine {nested : NestedParser} (hn : NestedGood nested) (engine : Str) (classes : List Str) (content : Option Token) (args : NodeArgs) (ctx : Context) :
    DGood lo base pr pn (Mau.blockEngine nested engine classes content args ctx) (fun _ => pr) (fun r => r.2.1 ++ pn) := by
  unfold Mau.blockEngine
  dsimp only
  have none' : ∀ d : NodeData, DGood lo base pr pn (Pure.pure (d, ([] : List Node), args) : DM (NodeData × List Node × NodeArgs)) (fun _ => pr) (fun r => r.2.1 ++ pn) :=
    fun d => pplain rfl [] rfl (fun n hn => absurd hn occ_nil)
  cases content.filter (fun t => !t.value.isEmpty) with
  | none => exact ite (none' _) (ite (none' _) (ite (none' _) (raise _)))
  | some t =>
    refine ite (bind (blockContent hn _ _) fun ns => ?_) (ite (pplain rfl (rawLines t) rfl (plain_rawLines t)) (ite ?_ (raise _)))
    · intro s res ps hw
      exact ⟨(by intro _ _ h; cases h; exact hw), (by intro _ h; cases h)⟩
    · refine bind get fun s1 => ?_
      refine bindV (V := fun r => ∀ n, Occ n r.2.1 → Plain n) (liftK _) ?_ fun r hr => ?_
      · intro s a s' h
        obtain ⟨h2, _⟩ := DM.lift_ok h
        exact plain_sourceEngine h2
      · exact pplain rfl r.2.1 rfl hr

theorem Plain.settled {n : Node} (h : Plain n) : Settled n := by
  intro i l nm e
  have := h.id
  rw [e] at this
  change i = 0 at this
  subst this
  exact h.noHeader l nm e

theorem blockEngine_settled {nested : NestedParser} (hn : NestedGood nested) {engine : Str} {classes : List Str} {content : Option Token} {args : NodeArgs} {ctx : Context}
    {s s' : DocSt} {res : List Nat} {ps : List Node} {r : NodeData × List Node × NodeArgs} (hw : WF lo base s res ps)
    (h : Mau.blockEngine nested engine classes content args ctx s = .ok r s') : ∀ n, Occ n r.2.1 → Settled n := by
  unfold Mau.blockEngine at h
  dsimp only at h
  cases hc : content.filter (fun t => !t.value.isEmpty) with
  | none =>
    rw [hc] at h
    split at h
    · cases h; exact fun n h => absurd h occ_nil
    · split at h
      · cases h; exact fun n h => absurd h occ_nil
      · split at h
        · cases h; exact fun n h => absurd h occ_nil
        · cases h
  | some t =>
    rw [hc] at h
    split at h
    · obtain ⟨ns, s1, h1, h⟩ := DM.bind_ok h
      cases h
      exact blockContent_settled hn hw h1
    · split at h
      · cases h; exact fun n hn => Plain.settled (plain_rawLines t n hn)
      · split at h
        · obtain ⟨_, s1, _, h⟩ := DM.bind_ok h
          obtain ⟨x, s2, h2, h⟩ := DM.bind_ok h
          cases h
          obtain ⟨h3, _⟩ := DM.lift_ok h2
          exact fun n hn => Plain.settled (plain_sourceEngine h3 n hn)
        · cases h

theorem blockEngine_data {nested : NestedParser} {engine : Str} {classes : List Str} {content : Option Token} {args : NodeArgs} {ctx : Context} {s s' : DocSt}
    {r : NodeData × List Node × NodeArgs} (h : Mau.blockEngine nested engine classes content args ctx s = .ok r s') : BlockData r.1 := by
  unfold Mau.blockEngine at h
  dsimp only at h
  cases hc : content.filter (fun t => !t.value.isEmpty) with
  | none =>
    rw [hc] at h
    split at h
    · cases h; exact .inl ⟨_, rfl⟩
    · split at h
      · cases h; exact .inr (.inl ⟨_, rfl⟩)
      · split at h
        · cases h; exact .inr (.inr ⟨_, _, rfl⟩)
        · cases h
  | some t =>
    rw [hc] at h
    split at h
    · obtain ⟨ns, s1, _, h⟩ := DM.bind_ok h
      cases h
      exact .inl ⟨_, rfl⟩
    · split at h
      · cases h; exact .inr (.inl ⟨_, rfl⟩)
      · split at h
        · obtain ⟨_, s1, _, h⟩ := DM.bind_ok h
          obtain ⟨x, s2, _, h⟩ := DM.bind_ok h
          cases h
          exact .inr (.inr ⟨_, _, rfl⟩)
        · cases h

theorem BlockData.plain {d : NodeData} (h : BlockData d) : d.id = 0 ∧ (∀ l nm, d ≠ .header 0 l none nm) ∧ (∀ objs, Resolves objs d) ∧
    special d = none := by
  rcases h with ⟨c, rfl⟩ | ⟨c, rfl⟩ | ⟨l, c, rfl⟩ <;> exact ⟨rfl, (by intro l nm h; cases h), fun _ => trivial, rfl⟩

/-- A change of the collected footnotes or groups by a tree. -/
theorem body (name : Str) (n : Node) (hs : ∀ m, Occ m n.content → Settled m) : DGood lo base pr [n] (DM.modify fun s => { s with bodies := Dict.set s.bodies name n }) (fun _ => []) (fun _ => []) := by
  intro s res ps hw
  refine ⟨?_, by intro _ h; cases h⟩
  intro a s' h
  cases h
  obtain ⟨h1, h2, h2a, h2b, h2c, os, h3, h4, h5⟩ := hw
  refine ⟨h1, ⟨Dict.distinct_set h2.1 _ _, ?_⟩, h2a, h2b, h2c, os, h3, (h4.release (List.sublist_append_right _ _)).forget ?_, h5⟩
  · intro b hb
    obtain ⟨k, hk⟩ := mem_vals.1 hb
    rcases Dict.mem_set hk with e | hk
    · cases e; exact hs
    · exact h2.2 b (mem_vals.2 ⟨k, hk⟩)
  intro m hm
  simp only [held, List.mem_append, List.mem_cons, List.not_mem_nil, or_false, false_or] at hm ⊢
  rcases hm with (((hm | hm) | hm) | hm) | hm
  · obtain ⟨k, hk⟩ := mem_vals.1 hm
    rcases Dict.mem_set hk with e | hk
    · cases e; exact .inr (.inl rfl)
    · exact .inl (.inl (.inl (.inl (mem_vals.2 ⟨k, hk⟩))))
  · exact .inl (.inl (.inl (.inr hm)))
  · exact .inl (.inl (.inr hm))
  · exact .inl (.inr hm)
  · exact .inr (.inr hm)

theorem mem_members {g : Dict (Dict Node)} {n : Node} : n ∈ members g ↔ ∃ gr d, (gr, d) ∈ g ∧ ∃ k, (k, n) ∈ d := by
  unfold members
  rw [List.mem_flatMap]
  constructor
  · rintro ⟨⟨gr, d⟩, h, hn⟩; exact ⟨gr, d, h, mem_vals.1 hn⟩
  · rintro ⟨gr, d, h, hn⟩; exact ⟨(gr, d), h, mem_vals.2 hn⟩

theorem addBlock_ok {groups groups' : Dict (Dict Node)} {g p : Str} {n : Node} (h : addBlock groups g p n = .ok groups') (hg : GroupsOK groups) :
    GroupsOK groups' ∧ ∀ m ∈ members groups', m ∈ members groups ∨ m = Node.new (.blockgroupItem g p) Context.empty [n] := by
  unfold addBlock at h
  dsimp only at h
  split at h
  · cases h
  · rename_i hp
    cases h
    have old : ∀ e ∈ (Dict.get? groups g).getD [], ∃ d, (g, d) ∈ groups ∧ e ∈ d := by
      intro e he
      cases hd : Dict.get? groups g with
      | none => rw [hd] at he; cases he
      | some d => rw [hd] at he; exact ⟨d, Dict.mem_of_get? hd, he⟩
    have dist : Dict.Distinct ((Dict.get? groups g).getD []) := by
      cases hd : Dict.get? groups g with
      | none => exact Dict.distinct_nil
      | some d => exact (hg.2 _ (Dict.mem_of_get? hd)).1
    refine ⟨⟨Dict.distinct_set hg.1 _ _, ?_⟩, ?_⟩
    · intro e he
      rcases Dict.mem_set he with rfl | he
      · refine ⟨Dict.distinct_set dist _ _, ?_⟩
        intro x hx
        rcases Dict.mem_set hx with rfl | hx
        · exact ⟨rfl, n, rfl⟩
        · obtain ⟨d, hd, hx⟩ := old x hx
          exact (hg.2 _ hd).2 x hx
      · exact hg.2 e he
    · intro m hm
      obtain ⟨gr, d, hd, k, hk⟩ := mem_members.1 hm
      rcases Dict.mem_set hd with e | hd
      · cases e
        rcases Dict.mem_set hk with e | hk
        · cases e; exact .inr rfl
        · obtain ⟨d, hd, hx⟩ := old _ hk
          exact .inl (mem_members.2 ⟨_, d, hd, k, hx⟩)
      · exact .inl (mem_members.2 ⟨gr, d, hd, k, hk⟩)

theorem placeBlock {data : NodeData} (hd : BlockData data) {ns : List Node} (hs : ∀ n, Occ n ns → Settled n) (args : NodeArgs) (labels : Dict Node) (ctx own : Context) :
    DGood lo base pr (ns ++ vals labels) (Mau.placeBlock data ns args labels ctx own) (fun _ => []) (fun _ => []) := by
  obtain ⟨q1, q2, q3, q4⟩ := hd.plain
  have hb : ∀ c a, Builds (ns ++ vals labels) [Node.new data c ns a labels] := fun c a =>
    builds_new q1 q2 (fun c hc => List.mem_append_left _ hc) (fun c hc => List.mem_append_right _ hc) q3
  unfold Mau.placeBlock
  cases truthy (Dict.get? args.named c%"footnote") with
  | some name =>
    refine bind get fun s1 => ite (raise _) ?_
    intro s res ps hw
    exact body (pr := pr) name (Node.new data own ns {} labels) hs s res ps (hw.builds (hb _ _))
  | none =>
    dsimp only
    have keep' : DGood lo base pr (ns ++ vals labels) (Mau.saveIfControl (Node.new data ctx ns args labels)) (fun _ => []) (fun _ => []) :=
      saveNew (hb _ _) q4
    cases truthy (Dict.get? args.named c%"group") with
    | none => exact keep'
    | some g =>
      cases truthy (Dict.get? args.named c%"position") with
      | none => exact keep'
      | some p =>
        intro s res ps hw
        have hw := hw.builds (hb ctx args)
        dsimp only
        rw [DM.bind_of_ok (f := DM.get) (a := s) (s1 := s) rfl]
        cases ha : addBlock s.groups g p (Node.new data ctx ns args labels) with
        | error e =>
          have : e ≠ .token := by
            unfold addBlock at ha
            dsimp only at ha
            split at ha
            · cases ha; intro h; cases h
            · cases ha
          cases e <;> first
            | exact absurd rfl this
            | exact ⟨(by intro _ _ h; cases h), (by intro _ h; cases h)⟩
        | ok groups =>
          refine ⟨?_, by intro _ h; cases h⟩
          intro a s' h
          cases h
          have hw := hw.builds (ns := [Node.new (.blockgroupItem g p) Context.empty [Node.new data ctx ns args labels]])
            (builds_new rfl (by intro l nm h; cases h) (fun c hc => hc) (by simp))
          obtain ⟨h1, h2, h2a, h2b, h2c, os, h3, h4, h5⟩ := hw
          obtain ⟨k1, k2⟩ := addBlock_ok ha h2c
          refine ⟨h1, h2, h2a, h2b, k1, os, h3, (h4.release (List.sublist_append_right _ _)).forget ?_, h5⟩
          intro m hm
          simp only [held, List.mem_append, List.mem_cons, List.not_mem_nil, or_false, false_or] at hm ⊢
          rcases hm with (((hm | hm) | hm) | hm) | hm
          · exact .inl (.inl (.inl (.inl hm)))
          · rcases k2 m hm with hm | hm
            · exact .inl (.inl (.inl (.inr hm)))
            · exact .inr (.inl hm)
          · exact .inl (.inl (.inr hm))
          · exact .inl (.inr hm)
          · exact .inr (.inr hm)

end DGood
end Mau
