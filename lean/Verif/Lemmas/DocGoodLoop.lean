import Verif.Lemmas.DocGood

set_option linter.unusedSimpArgs false
set_option linter.unusedVariables false

/-!
# Includes and the loop of the document parser keep the invariant of identities
-/

namespace Mau
open Spec

theorem saveIfControl_ok {n : Node} {s s' : DocSt} {a : Unit} (h : saveIfControl n s = .ok a s') :
    ∃ cb, s' = { s with controlBuf := cb } ∨ s' = { s with controlBuf := cb, nodes := s.nodes ++ [n] } := by
  unfold saveIfControl at h
  obtain ⟨b, s1, h1, h2⟩ := DM.bind_ok h
  have hs : ∃ cb, s1 = { s with controlBuf := cb } := by
    unfold popControl at h1
    split at h1
    · cases h1; exact ⟨s.controlBuf, rfl⟩
    · obtain ⟨_, h3⟩ := DM.lift_ok h1
      exact ⟨none, h3⟩
  obtain ⟨cb, rfl⟩ := hs
  cases b
  · cases h2; exact ⟨cb, .inl rfl⟩
  · cases h2; exact ⟨cb, .inr rfl⟩

theorem saveIfControl_fail {n : Node} {s s' : DocSt} (h : saveIfControl n s = .fail s') : ∃ cb, s' = { s with controlBuf := cb } := by
  unfold saveIfControl at h
  change DM.bind _ _ s = _ at h
  unfold DM.bind at h
  split at h
  · rename_i b s1 h1
    cases b <;> cases h
  · rename_i s1 h1
    cases h
    unfold popControl at h1
    split at h1
    · cases h1
    · unfold DM.lift at h1
      split at h1 <;> cases h1
      exact ⟨none, rfl⟩
  · cases h

namespace WF
variable {lo : Nat} {base : List Node} {s : DocSt} {res res' : List Nat} {ps ps' : List Node}

/-- A node that will be completed is registered, and saved or not. -/
theorem special {s' : DocSt} {d : NodeData} {t : Tag} {ctx : Context} {a : NodeArgs} (h : WF lo base s res ps) (hf : t.Fits s.uid d) (hid : d.id = s.uid)
    (ht : ∀ l, t ≠ .header l) (hr : ∀ objs, Resolves objs d) (hd : special d = some (s.uid, t))
    (e2 : s'.bodies = s.bodies) (e3 : s'.groups = s.groups) (e4 : s'.labelBuf = []) (e5 : ∀ e, e ∈ dreg s' ↔ e = (s.uid, t) ∨ e ∈ dreg s)
    (e6 : s'.tocHeaders = s.tocHeaders) (e7 : s'.linkHeaders = s.linkHeaders) (e8 : s'.uid = s.uid + 1) (e9 : s'.objs = s.objs)
    (e10 : s'.nodes = s.nodes ∨ s'.nodes = s.nodes ++ [Node.new d ctx [] a s.labelBuf]) : WF lo base s' res ps := by
  obtain ⟨h1, h2, h2a, h2b, h2c, os, h3, h4, h5⟩ := h
  have rest : ∀ m ∈ held s' ++ os ++ ps, m ∈ held s ++ os ++ ps := by
    intro m hm
    simp only [held, e2, e3, e4, List.mem_append, vals, List.map_nil, List.not_mem_nil, or_false] at hm ⊢
    rcases hm with ((hm | hm) | hm) | hm
    · exact .inl (.inl (.inl (.inl hm)))
    · exact .inl (.inl (.inl (.inr hm)))
    · exact .inl (.inr hm)
    · exact .inr hm
  refine ⟨h1, ⟨e2 ▸ h2.1, e2 ▸ h2.2⟩, ⟨?_, ?_⟩, ⟨by rw [e6]; exact h2b.1, by rw [e6]; exact h2b.2⟩, e3 ▸ h2c, os, by rw [e9, h3], ?_, ⟨by rw [e6]; exact h5.1, by rw [e7, e6]; exact h5.2⟩⟩
  · rw [e6]
    rcases e10 with e | e <;> rw [e]
    · exact h2a.1
    · have hh : headerOf (Node.new d ctx [] a s.labelBuf) = none := by
        unfold headerOf
        split
        · rename_i i l x nm h
          have h : d = .header i l x nm := h
          rw [h] at hd
          cases hd
          exact absurd rfl (ht l)
        · rfl
      rw [List.filterMap_append]; simpa [hh] using h2a.1
  · intro m hm e he
    rw [e5]
    have : m ∈ s.nodes ∨ m = Node.new d ctx [] a s.labelBuf := by
      rcases e10 with e | e <;> rw [e] at hm
      · exact .inl hm
      · simpa using hm
    rcases this with hm | rfl
    · exact .inr (h2a.2 m hm e he)
    · left
      rw [show (Node.new d ctx [] a s.labelBuf).data = d from rfl, hd] at he
      cases he; rfl
  · rw [e9, e8]
    have hreg : ∀ e ∈ dreg s', e ∈ (s.uid, t) :: dreg s := fun e he => List.mem_cons.2 ((e5 e).1 he)
    have hhdr : ∀ i l, (i, Tag.header l) ∈ (s.uid, t) :: dreg s → (i, Tag.header l) ∈ dreg s' := by
      intro i l hi
      exact (e5 _).2 (List.mem_cons.1 hi)
    rcases e10 with e | e <;> rw [e]
    · exact (h4.fresh.waste t).mono hreg hhdr (fun _ h => List.mem_append_left _ h) rest
    · refine (h4.fresh.useTop (n := Node.new d ctx [] a s.labelBuf) ?_ hid hf (hr _)).mono hreg hhdr (fun _ h => List.mem_append_left _ h) rest
      intro c hc
      rw [kids_new] at hc
      simp only [List.nil_append] at hc
      simp only [held, List.mem_append]
      exact .inl (.inl (.inr hc))

end WF

namespace DGood
variable {α β : Type} {lo : Nat} {base : List Node} {pr : List Nat} {pn : List Node} {R : α → List Nat} {N : α → List Node}

/-- The end of the processing of an include. -/
def inclTail (ctx : Context) (r : NodeData × List Node × NodeArgs) : DM Unit := do
  let labels ← Mau.popLabels
  Mau.saveIfControl (Node.new r.1 ctx r.2.1 r.2.2 labels)

theorem tail (ctx : Context) {d : NodeData} (ns : List Node) (a : NodeArgs) (hid : d.id = 0) (hd : special d = none) (hr : ∀ objs, Resolves objs d) :
    DGood lo base pr ns (inclTail ctx (d, ns, a)) (fun _ => []) (fun _ => []) := by
  refine bind popLabels fun labels => saveNew (builds_new hid (by rintro l nm rfl; cases hd) (fun c hc => List.mem_append_left _ hc) (fun c hc => List.mem_append_right _ hc) hr) hd

theorem special (ctx : Context) (args : NodeArgs) (d : Nat → NodeData) (t : Tag) (upd : Nat → DocSt → DocSt) (hf : ∀ i, t.Fits i (d i)) (hid : ∀ i, (d i).id = i)
    (ht : ∀ l, t ≠ .header l) (hr : ∀ i objs, Resolves objs (d i)) (hd : ∀ i, special (d i) = some (i, t))
    (hupd : ∀ i s, (upd i s).bodies = s.bodies ∧ (upd i s).groups = s.groups ∧ (upd i s).labelBuf = s.labelBuf ∧ (upd i s).tocHeaders = s.tocHeaders ∧
      (upd i s).linkHeaders = s.linkHeaders ∧ (upd i s).uid = s.uid ∧ (upd i s).objs = s.objs ∧ (upd i s).nodes = s.nodes ∧
      ∀ e, e ∈ dreg (upd i s) ↔ e = (i, t) ∨ e ∈ dreg s) :
    DGood lo base [] [] ((DM.fresh >>= fun id => DM.modify (upd id) >>= fun _ => (Pure.pure (d id, ([] : List Node), args) : DM (NodeData × List Node × NodeArgs))) >>= inclTail ctx)
      (fun _ => []) (fun _ => []) := by
  intro s res ps hw
  have ev : ((DM.fresh >>= fun id => DM.modify (upd id) >>= fun _ => (Pure.pure (d id, ([] : List Node), args) : DM (NodeData × List Node × NodeArgs))) >>= inclTail ctx) s =
      Mau.saveIfControl (Node.new (d s.uid) ctx [] args (upd s.uid { s with uid := s.uid + 1 }).labelBuf) { upd s.uid { s with uid := s.uid + 1 } with labelBuf := [] } := rfl
  rw [ev]
  obtain ⟨u1, u2, u3, u4, u5, u6, u7, u8, u9⟩ := hupd s.uid { s with uid := s.uid + 1 }
  rw [u3]
  constructor
  · intro a s' h
    obtain ⟨cb, h | h⟩ := saveIfControl_ok h
    · subst h
      exact WF.special (d := d s.uid) (t := t) (ctx := ctx) (a := args) hw (hf _) (hid _) ht (hr _) (hd _) u1 u2 rfl u9 u4 u5 u6 u7 (.inl u8)
    · subst h
      exact WF.special (d := d s.uid) (t := t) (ctx := ctx) (a := args) hw (hf _) (hid _) ht (hr _) (hd _) u1 u2 rfl u9 u4 u5 u6 u7 (.inr (by dsimp only; rw [u8]))
  · intro s' h
    obtain ⟨cb, h⟩ := saveIfControl_fail h
    subst h
    exact WF.special (d := d s.uid) (t := t) (ctx := ctx) (a := args) hw (hf _) (hid _) ht (hr _) (hd _) u1 u2 rfl u9 u4 u5 u6 u7 (.inl u8)

theorem includeMau {nested : NestedParser} (hn : NestedGood nested) (cfg : Config) (args : NodeArgs) (ctx : Context) :
    DGood lo base pr pn (Mau.includeMau cfg nested args ctx) (fun _ => pr) (fun r => r.2.1 ++ pn) := by
  unfold Mau.includeMau
  dsimp only
  cases truthy _ with
  | none => exact raise _
  | some uri =>
    dsimp only
    refine bind (modify fun s lo base res ps h => ⟨h.old, h.bodies, h.order, h.tocNodup, h.groups, h.core⟩) fun _ => bind get fun s => ite (raise _) ?_
    refine bind (modify fun s lo base res ps h => ⟨h.old, h.bodies, h.order, h.tocNodup, h.groups, h.core⟩) fun _ => bind (liftK _) fun text => bind (liftK _) fun env => ?_
    intro s1 res ps hw
    rw [DM.bind_of_ok (f := DM.get) (a := s1) (s1 := s1) rfl]
    unfold DM.lift
    change _ ∧ _
    cases hx : nested ⟨text, Env.dupdate env ((callArguments _).1.map fun kv => (kv.1, .leaf (.str kv.2))), 0, 0, some uri, s1.forbidden, s1.uid, s1.objs⟩ with
    | error e =>
      constructor
      · intro a s' h
        change DM.bind _ _ s1 = _ at h
        unfold DM.bind at h
        cases e <;> cases h
      · intro s' h
        change DM.bind _ _ s1 = _ at h
        unfold DM.bind at h
        cases e <;> cases h
        exact drop hw
    | ok inner =>
      have hb := hw.below
      have hf := hn _ _ hx hb.1 hb.2
      constructor
      · intro a s' h
        change DM.bind _ _ s1 = _ at h
        unfold DM.bind at h
        cases h
        rw [List.append_assoc]
        exact hw.nested hf rfl rfl rfl rfl rfl rfl rfl rfl rfl
      · intro s' h
        change DM.bind _ _ s1 = _ at h
        unfold DM.bind at h
        cases h

theorem includeMau_data {cfg : Config} {nested : NestedParser} {args : NodeArgs} {ctx : Context} {s s' : DocSt} {r : NodeData × List Node × NodeArgs}
    (h : Mau.includeMau cfg nested args ctx s = .ok r s') : ∃ u, r.1 = .includeMau u := by
  unfold Mau.includeMau at h
  dsimp only at h
  generalize truthy _ = o at h
  cases o with
  | none => cases h
  | some uri =>
    obtain ⟨_, s1, _, h⟩ := DM.bind_ok h
    obtain ⟨s2, s3, _, h⟩ := DM.bind_ok h
    split at h
    · cases h
    · obtain ⟨_, s4, _, h⟩ := DM.bind_ok h
      obtain ⟨_, s5, _, h⟩ := DM.bind_ok h
      obtain ⟨_, s6, _, h⟩ := DM.bind_ok h
      obtain ⟨_, s7, _, h⟩ := DM.bind_ok h
      obtain ⟨_, s8, _, h⟩ := DM.bind_ok h
      obtain ⟨_, s9, _, h⟩ := DM.bind_ok h
      cases h
      exact ⟨uri, rfl⟩

theorem includeNode {nested : NestedParser} (hn : NestedGood nested) (cfg : Config) (ctype : Str) (args : NodeArgs) (ctx : Context) :
    DGood lo base [] [] (Mau.includeNode cfg nested ctype args ctx >>= inclTail ctx) (fun _ => []) (fun _ => []) := by
  unfold Mau.includeNode
  by_cases c1 : ctype = c%"image"
  · rw [if_pos c1]
    refine bindV (V := fun r => r.2.1 = [] ∧ ∃ u a c, r.1 = .includeImage u a c) (R := fun _ => []) (N := fun _ => []) (bind (liftK _) fun _ => kpure _) ?_ ?_
    · intro s a s' h
      obtain ⟨⟨d, b⟩, s1, h1, h⟩ := DM.bind_ok h
      obtain ⟨h1, _⟩ := DM.lift_ok h1
      cases h
      refine ⟨rfl, ?_⟩
      unfold includeImage at h1
      dsimp only at h1
      split at h1
      · cases h1
      · cases h1; exact ⟨_, _, _, rfl⟩
    · rintro ⟨d, ns, a⟩ ⟨h1, u, al, c, h2⟩
      dsimp only at h1 h2
      subst h1 h2
      exact tail ctx [] a rfl rfl (by intro _; trivial)
  rw [if_neg c1]
  by_cases c2 : ctype = c%"mau"
  · rw [if_pos c2]
    refine bindV (V := fun r => ∃ u, r.1 = .includeMau u) (includeMau hn cfg args ctx) (fun s a s' h => includeMau_data h) ?_
    rintro ⟨d, ns, a⟩ ⟨u, h2⟩
    dsimp only at h2
    subst h2
    dsimp only
    rw [List.append_nil]
    exact tail ctx ns a rfl rfl (by intro _; trivial)
  rw [if_neg c2]
  by_cases c3 : ctype = c%"raw"
  · rw [if_pos c3]
    refine bindV (V := fun r => (∀ n, Occ n r.2.1 → Plain n) ∧ ∃ u, r.1 = .includeRaw u) (liftK _) ?_ ?_
    · intro s a s' h
      obtain ⟨h1, _⟩ := DM.lift_ok h
      unfold Mau.includeRaw at h1
      dsimp only at h1
      split at h1
      · cases h1
      · split at h1
        · cases h1
        · cases h1
          refine ⟨?_, _, rfl⟩
          rintro n ⟨m, hm, hs⟩
          obtain ⟨l, _, rfl⟩ := List.mem_map.1 hm
          exact plain_leaf rfl (by intro l nm h; cases h) (by intro _; trivial) n hs
    · rintro ⟨d, ns, a⟩ ⟨hp, u, h2⟩
      dsimp only at hp h2
      subst h2
      intro s res ps hw
      exact tail ctx ns a rfl rfl (by intro _; trivial) s res ps (hw.plain hp)
  rw [if_neg c3]
  by_cases c4 : ctype = c%"toc"
  · rw [if_pos c4]
    refine special ctx args (fun i => .toc i) .toc (fun id s => { s with tocNodes := s.tocNodes ++ [id] }) (fun _ => rfl) (fun _ => rfl)
      (by intro l h; cases h) (by intro _ _; trivial) (fun _ => rfl) ?_
    intro i s
    refine ⟨rfl, rfl, rfl, rfl, rfl, rfl, rfl, rfl, ?_⟩
    rintro ⟨j, t⟩
    rw [mem_dreg, mem_dreg]
    cases t <;> simp [or_comm]
  rw [if_neg c4]
  by_cases c5 : ctype = c%"footnotes"
  · rw [if_pos c5]
    refine special ctx args (fun i => .footnotes i) .footnotes (fun id s => { s with footnoteLists := s.footnoteLists ++ [id] }) (fun _ => rfl) (fun _ => rfl)
      (by intro l h; cases h) (by intro _ _; trivial) (fun _ => rfl) ?_
    intro i s
    refine ⟨rfl, rfl, rfl, rfl, rfl, rfl, rfl, rfl, ?_⟩
    rintro ⟨j, t⟩
    rw [mem_dreg, mem_dreg]
    cases t <;> simp [or_comm]
  rw [if_neg c5]
  by_cases c6 : ctype = c%"blockgroup"
  · rw [if_pos c6]
    dsimp only
    cases (NodeArgs.pop _ _).1 with
    | none =>
      intro s res ps hw
      exact ⟨(by intro a s' h; cases h), (by intro s' h; cases h)⟩
    | some g =>
      refine special ctx _ (fun i => .blockgroup i g) (.group g) (fun id s => { s with groupNodes := s.groupNodes ++ [(id, g)], places := s.places ++ [(id, ctx)] }) (fun _ => rfl) (fun _ => rfl)
        (by intro l h; cases h) (by intro _ _; trivial) (fun _ => rfl) ?_
      intro i s
      refine ⟨rfl, rfl, rfl, rfl, rfl, rfl, rfl, rfl, ?_⟩
      rintro ⟨j, t⟩
      rw [mem_dreg, mem_dreg]
      cases t <;> simp [or_comm]
  rw [if_neg c6]
  refine bindV (V := fun r => r = (.include ctype, [], args)) (R := fun _ => []) (N := fun _ => []) (kpure _) ?_ ?_
  · intro s a s' h; cases h; rfl
  · rintro r rfl
    exact tail ctx [] args rfl rfl (by intro _; trivial)

theorem label (role : Str) (ns : List Node) :
    DGood lo base pr ns (DM.modify fun s => { s with labelBuf := Dict.set s.labelBuf role (Node.new (.label role) Context.empty ns) }) (fun _ => []) (fun _ => []) := by
  intro s res ps hw
  refine ⟨?_, by intro _ h; cases h⟩
  intro a s' h
  cases h
  have hw := (hw.release (List.sublist_append_right _ _)).builds (ns := [Node.new (.label role) Context.empty ns])
    (builds_new rfl (by intro l nm h; cases h) (fun c hc => hc) (by simp))
  obtain ⟨h1, h2, h2a, h2b, h2c, os, h3, h4, h5⟩ := hw
  refine ⟨h1, h2, h2a, h2b, h2c, os, h3, h4.forget ?_, h5⟩
  intro m hm
  simp only [held, List.mem_append, List.mem_cons, List.not_mem_nil, or_false, false_or] at hm ⊢
  rcases hm with (((hm | hm) | hm) | hm) | hm
  · exact .inl (.inl (.inl (.inl hm)))
  · exact .inl (.inl (.inl (.inr hm)))
  · obtain ⟨k, hk⟩ := mem_vals.1 hm
    rcases Dict.mem_set hk with e | hk
    · cases e; exact .inr (.inl rfl)
    · exact .inl (.inl (.inr (mem_vals.2 ⟨k, hk⟩)))
  · exact .inl (.inr hm)
  · exact .inr (.inr hm)

theorem get_mem {toks : List Token} {ty : TokenType} {s s' : DocSt} {a : Token} (h : DM.tm toks (·.get (some ty)) s = .ok a s') : a ∈ toks ∧ a.type = ty := by
  obtain ⟨⟨t, hp⟩, -, hc⟩ := getDM_ok h
  have chk : ∀ {x : Token}, TM.checkToken x (some ty) none none = .ok t → x = t ∧ x.type = ty := by
    intro x hx
    unfold TM.checkToken at hx
    by_cases hty : ty = x.type
    · simp [hty] at hx
      exact ⟨hx, hty.symm⟩
    · simp [hty] at hx
  have adv : TM.advance ⟨toks, s.next⟩ = if s.next < toks.length + 1 then ⟨toks, s.next + 1⟩ else ⟨toks, s.next⟩ := rfl
  have cur : ∀ k, TM.currentToken ⟨toks, k⟩ = .ok a → ∃ l, toks.getLast? = some l ∧ (k = 0 → a = l) ∧ ∀ i, k = i + 1 → a = toks.getD i l := by
    intro k hk
    unfold TM.currentToken at hk
    dsimp only at hk
    split at hk
    · cases hk
    · rename_i l hl
      refine ⟨l, hl, ?_, ?_⟩
      · rintro rfl; cases hk; rfl
      · rintro i rfl; cases hk; rfl
  rw [adv] at hc
  by_cases hlt : s.next < toks.length
  · rw [if_pos (by omega)] at hc
    obtain ⟨l, hl, -, h2⟩ := cur _ hc
    have e1 : toks[s.next]? = some toks[s.next] := List.getElem?_eq_getElem hlt
    have := h2 s.next rfl
    rw [List.getD_eq_getElem?_getD, e1] at this
    change a = toks[s.next] at this
    unfold TM.peek at hp
    simp only [e1] at hp
    obtain ⟨_, hty⟩ := chk hp
    rw [this]
    exact ⟨List.getElem_mem _, hty⟩
  · have e1 : toks[s.next]? = none := List.getElem?_eq_none (by omega)
    have : ∃ l, toks.getLast? = some l ∧ a = l := by
      split at hc
      · obtain ⟨l, hl, -, h2⟩ := cur _ hc
        have := h2 s.next rfl
        rw [List.getD_eq_getElem?_getD, e1] at this
        exact ⟨l, hl, this⟩
      · obtain ⟨l, hl, -, h2⟩ := cur _ hc
        have := h2 (s.next - 1) (by omega)
        rw [List.getD_eq_getElem?_getD, List.getElem?_eq_none (by omega)] at this
        exact ⟨l, hl, this⟩
    obtain ⟨l, hl, rfl⟩ := this
    unfold TM.peek at hp
    simp only [e1, hl] at hp
    obtain ⟨_, hty⟩ := chk hp
    exact ⟨List.mem_of_getLast? hl, hty⟩

theorem docFns {nested : NestedParser} (hn : NestedGood nested) (cfg : Config) (fuel : Nat) {toks : List Token} (ht : ∀ t ∈ toks, t.type = .HEADER → t.value ≠ []) :
    ∀ f ∈ Mau.docFns cfg nested fuel toks, DGood lo base [] [] f (fun _ => []) (fun _ => []) := by
  have ext : ∀ {γ : Type} {f : γ → DM Unit} {r : γ → List Nat} {n : γ → List Node}, (∀ a, DGood lo base (r a) (n a) (f a) (fun _ => []) (fun _ => [])) →
      ∀ a, DGood lo base (r a) (n a) (f a) (fun _ => []) (fun _ => []) := fun h => h
  intro f hf
  simp only [Mau.docFns, List.mem_cons, List.not_mem_nil, or_false] at hf
  rcases hf with rfl | rfl | rfl | rfl | rfl | rfl | rfl | rfl | rfl | rfl | rfl
  · exact bind (tm _) fun _ => kpure _
  · refine bind (tm _) fun _ => bind popArgs fun _ => bind popLabels fun labels => saveNew (builds_new rfl (by intro l nm h; cases h) (by simp) ?_)
    intro c hc; exact hc
  · exact bind (tm _) fun _ => bind (tm _) fun _ => bind (tm _) fun _ =>
      bind (bind (peek _) fun _ => ite (bind (tm _) fun _ => kpure _) (kpure _)) fun _ => bind get fun _ => bind (liftK _) fun _ =>
        modify fun s lo base res ps h => ⟨h.old, h.bodies, h.order, h.tocNodup, h.groups, h.core⟩
  · refine bind (tm _) fun _ => bind (tm _) fun _ => bind (docText _ _ _) fun ns => ?_
    rw [List.append_nil]
    exact label _ ns
  · refine bind (tm _) fun _ => bind (tm _) fun _ => bind (tm _) fun _ => bind get fun _ => bind (liftK _) fun c => ?_
    cases c
    · exact raise _
    · exact bind (liftK _) fun _ => modify fun s lo base res ps h => ⟨h.old, h.bodies, h.order, h.tocNodup, h.groups, h.core⟩
  · exact bind (tm _) fun _ => bind (tm _) fun _ => bind (tm _) fun _ => bind get fun _ => bind (liftK _) fun _ =>
      modify fun s lo base res ps h => ⟨h.old, h.bodies, h.order, h.tocNodup, h.groups, h.core⟩
  · refine bindV (V := fun h => 1 ≤ h.value.length) (tm _) ?_ fun h hl => bind (tm _) fun _ => bind fresh fun id => bind (docText _ _ _) fun ns => bind popArgs fun args =>
      bind (liftK _) fun _ => bind popLabels fun labels => headerIf hl rfl ?_
    · intro s a s' h
      obtain ⟨h1, h2⟩ := get_mem h
      have := ht a h1 h2
      cases hv : a.value with
      | nil => exact absurd hv this
      | cons c cs => simp
    intro c hc
    rw [kids_new] at hc
    rcases List.mem_append.1 hc with hc | hc
    · exact List.mem_append_left _ (List.mem_append_left _ hc)
    · exact List.mem_append_right _ hc
  · refine bind (tm _) fun _ => bind (bind (peek _) fun _ => ite (bind (tm _) fun _ => kpure _) (kpure _)) fun _ => bind (tm _) fun _ =>
      bind popArgs fun _ => bindW (blockEngine hn _ _ _ _ _) (fun s res ps a s' hw h => And.intro (blockEngine_data h) (blockEngine_settled hn hw h)) fun r hr => bind popLabels fun labels => ?_
    rw [List.append_nil]
    exact placeBlock hr.1 hr.2 _ _ _ _
  · exact bind (tm _) fun _ => bind (tm _) fun _ => bind get fun _ =>
      bind (modify fun s lo base res ps h => ⟨h.old, h.bodies, h.order, h.tocNodup, h.groups, h.core⟩) fun _ =>
      bind (bind (peek _) fun _ => ite (ite (raise _) (bind (tm _) fun _ => bind (tm _) fun _ => bind get fun _ => bind (liftK _) fun _ => kpure _)) (kpure _)) fun _ =>
      includeNode hn _ _ _ _
  · refine bind (peek _) fun _ => bind (liftK _) fun _ => bind ((listNodes_listLoop _ _ _).1 _) fun ns => bind popArgs fun _ => bind get fun _ =>
      bind (liftK _) fun _ => bind (modify fun s lo base res ps h => ⟨h.old, h.bodies, h.order, h.tocNodup, h.groups, h.core⟩) fun _ =>
      bind (liftK _) fun _ => bind popLabels fun labels => saveNew (builds_new rfl (by intro l nm h; cases h) ?_ ?_)
    · intro c hc; exact List.mem_append_left _ (List.mem_append_left _ hc)
    · intro c hc; exact List.mem_append_right _ hc
  · refine bind (collectLines _ _) fun _ => bind (paragraphLines _ _) fun ns => bind popArgs fun _ => bind (liftK _) fun _ =>
      bind popLabels fun labels => saveNew (builds_new rfl (by intro l nm h; cases h) ?_ ?_)
    · intro c hc; exact List.mem_append_left _ (List.mem_append_left _ hc)
    · intro c hc; exact List.mem_append_right _ hc

theorem tryDocFns {next : Token} {fs : List (DM Unit)} (h : ∀ f ∈ fs, DGood lo base [] [] f (fun _ => []) (fun _ => [])) :
    DGood lo base [] [] (Mau.tryDocFns next fs) (fun _ => []) (fun _ => []) := by
  induction fs with
  | nil => exact raise _
  | cons f fs ih =>
    intro s res ps hw
    unfold Mau.tryDocFns
    have hf := h f List.mem_cons_self s res ps hw
    have ih := ih fun g hg => h g (List.mem_cons_of_mem _ hg)
    cases hx : f s with
    | ok a s1 => exact ⟨(by intro _ _ h; cases h; exact hf.1 _ _ hx), (by intro _ h; cases h)⟩
    | err e => exact ⟨(by intro _ _ h; cases h), (by intro _ h; cases h)⟩
    | fail s1 =>
      have h1 := hf.2 _ hx
      exact ih { s1 with next := s.next } res ps ⟨h1.old, h1.bodies, h1.order, h1.tocNodup, h1.groups, h1.core⟩

theorem docLoop {fs : List (DM Unit)} (h : ∀ f ∈ fs, DGood lo base [] [] f (fun _ => []) (fun _ => [])) {toks : List Token} (n : Nat) :
    ∀ last s s', Mau.docLoop fs toks n last s = .ok s' → WF lo base s [] [] → WF lo base s' [] [] := by
  induction n with
  | zero => intro last s s' h; cases h
  | succ n ih =>
    intro last s s' hl hw
    unfold Mau.docLoop at hl
    split at hl
    · cases hl
    · cases hl; exact hw
    · split at hl
      · cases hl
      · split at hl
        · cases hl
        · split at hl
          · rename_i s1 hs
            exact ih _ _ _ hl ((tryDocFns h s [] [] hw).1 _ _ hs)
          · cases hl
          · cases hl

end DGood

/-- The state of a new parser. -/
theorem WF.initial {req : NestedReq} (h0 : 0 < req.uid) (h : ∀ n, Occ n req.objs → n.data.id < req.uid) : WF req.uid req.objs (Spec.initial req) [] [] := by
  refine ⟨h, ⟨Dict.distinct_nil, fun _ h => nomatch h⟩, ⟨List.Sublist.refl _, fun _ h => nomatch h⟩, ⟨List.nodup_nil, fun _ h => nomatch h⟩, ⟨Dict.distinct_nil, fun _ h => nomatch h⟩, [], by simp [Spec.initial], ?_, fun _ h => (nomatch h), fun _ h => (nomatch h)⟩
  exact {
    pos := h0
    le := Nat.le_refl _
    range := fun n hn => absurd hn occ_nil
    same := fun n m hn => absurd hn occ_nil
    regRange := fun _ h => nomatch h
    fits := fun _ h => nomatch h
    resRange := fun _ h => nomatch h
    resNodup := List.nodup_nil
    resReg := fun _ h => nomatch h
    resOcc := fun _ h => nomatch h
    headers := fun n hn => absurd hn occ_nil
    groupRest := fun _ _ h => nomatch h
    groupTops := fun _ _ h => nomatch h
    refs := fun n hn => absurd hn occ_nil }

end Mau
