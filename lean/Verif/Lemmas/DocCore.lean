import Verif.Lemmas.TextCore
import Verif.Lemmas.DocKeeps
import Verif.Lemmas.Dict

set_option linter.unusedSimpArgs false

/-!
# The document parser keeps the invariant of identities
-/

namespace Mau
open Spec

/-- The registrations of a document parser. -/
def dreg (s : DocSt) : List (Nat × Tag) :=
  s.footnoteMacros.map (fun e => (e.1, .mention e.2)) ++ s.linkMacros.map (fun e => (e.1, .link e.2)) ++ s.tocHeaders.map (fun e => (e.1, .header e.2)) ++
    s.tocNodes.map (fun i => (i, .toc)) ++ s.footnoteLists.map (fun i => (i, .footnotes)) ++ s.groupNodes.map (fun e => (e.1, .group e.2))

theorem mem_dreg {s : DocSt} {i : Nat} {t : Tag} : (i, t) ∈ dreg s ↔
    match t with
    | .mention nm => (i, nm) ∈ s.footnoteMacros
    | .link tg => (i, tg) ∈ s.linkMacros
    | .header l => (i, l) ∈ s.tocHeaders
    | .toc => i ∈ s.tocNodes
    | .footnotes => i ∈ s.footnoteLists
    | .group g => (i, g) ∈ s.groupNodes := by
  unfold dreg
  cases t <;> simp [List.mem_append, List.mem_map]

/-- The values of a dictionary. -/
def vals {α : Type} (d : Dict α) : List α := d.map (·.2)

/-- The members of all groups. -/
def members (g : Dict (Dict Node)) : List Node := g.flatMap fun e => vals e.2

/-- The trees kept outside of the document. -/
def held (s : DocSt) : List Node := vals s.bodies ++ members s.groups ++ vals s.labelBuf

/-- The identity and level of a header node. -/
def headerOf (n : Node) : Option (Nat × Nat) :=
  match n.data with
  | .header i l _ _ => some (i, l)
  | _ => none

/-- What a node that is completed at the end, or is collected, must be registered for. -/
def special (d : NodeData) : Option (Nat × Tag) :=
  match d with
  | .header i l _ _ => some (i, .header l)
  | .toc i => some (i, .toc)
  | .footnotes i => some (i, .footnotes)
  | .blockgroup i g => some (i, .group g)
  | _ => none

theorem headerOf_of_special {n : Node} (h : special n.data = none) : headerOf n = none := by
  unfold special at h
  unfold headerOf
  split at h <;> first | (cases h; done) | skip
  rename_i h1 _ _ _
  split
  · rename_i i l a b e; exact absurd e (h1 i l a b)
  · rfl

/-- Not a header without internal id. -/
def Settled (n : Node) : Prop := ∀ i l nm, n.data ≠ .header i l none nm

/-- The bodies are a dictionary of trees without open headers. -/
def BodiesOK (s : DocSt) : Prop := Dict.Distinct s.bodies ∧ ∀ b ∈ vals s.bodies, ∀ n, Occ n b.content → Settled n

/-- The headers of the document are collected in their order, and everything that is completed is registered. -/
def OrderOK (s : DocSt) : Prop := (s.nodes.filterMap headerOf).Sublist s.tocHeaders ∧ ∀ n ∈ s.nodes, ∀ e, special n.data = some e → e ∈ dreg s

/-- The collected headers have different identities and levels. -/
def TocOK (s : DocSt) : Prop := (s.tocHeaders.map (·.1)).Nodup ∧ ∀ h ∈ s.tocHeaders, 1 ≤ h.2

/-- The groups are dictionaries of items that say where they are and contain one block. -/
def GroupsOK (gs : Dict (Dict Node)) : Prop :=
  Dict.Distinct gs ∧ ∀ g ∈ gs, Dict.Distinct g.2 ∧ ∀ e ∈ g.2, e.2.data = .blockgroupItem g.1 e.1 ∧ ∃ b, e.2.content = [b]

/-- The headers of the managers are objects. -/
def HeadsOK (s : DocSt) (os : List Node) : Prop :=
  (∀ h ∈ s.tocHeaders, ∃ o ∈ os, o.data.id = h.1) ∧ ∀ kv ∈ s.linkHeaders, ∃ o ∈ os, ∃ l i, o.data = .header kv.2 l i (some kv.1) ∧ (kv.2, l) ∈ s.tocHeaders

structure WF (lo : Nat) (base : List Node) (s : DocSt) (res : List Nat) (ps : List Node) : Prop where
  old : ∀ n, Occ n base → n.data.id < lo
  bodies : BodiesOK s
  order : OrderOK s
  tocNodup : TocOK s
  groups : GroupsOK s.groups
  core : ∃ os, s.objs = base ++ os ∧ Core s.objs lo s.uid res (dreg s) s.nodes (held s ++ os ++ ps) ∧ HeadsOK s os

/-- A finished parser whose identities started at `lo`, and whose list of objects started with `base`. -/
structure Finished (lo : Nat) (base : List Node) (s : DocSt) : Prop where
  bodies : BodiesOK s
  order : OrderOK s
  tocNodup : TocOK s
  groups : GroupsOK s.groups
  core : ∃ os, s.objs = base ++ os ∧ Core s.objs lo s.uid [] (dreg s) s.nodes (vals s.bodies ++ members s.groups ++ os) ∧
    (∀ n, Occ n (s.nodes ++ (vals s.bodies ++ members s.groups ++ os)) → ∀ i l nm, n.data ≠ .header i l none nm) ∧ HeadsOK s os

/-- A nested parser that keeps the invariant. -/
def NestedGood (nested : NestedParser) : Prop :=
  ∀ req inner, nested req = .ok inner → 0 < req.uid → (∀ n, Occ n req.objs → n.data.id < req.uid) → Finished req.uid req.objs inner

namespace WF
variable {lo : Nat} {base : List Node} {s : DocSt} {res res' : List Nat} {ps ps' : List Node}

theorem forget (h : WF lo base s res ps) (hp : ∀ n ∈ ps', n ∈ ps) : WF lo base s res ps' := by
  obtain ⟨h1, h2, h2a, h2b, h2c, os, h3, h4, h5⟩ := h
  refine ⟨h1, h2, h2a, h2b, h2c, os, h3, h4.forget ?_, h5⟩
  intro m hm
  rcases List.mem_append.1 hm with hm | hm
  · exact List.mem_append_left _ hm
  · exact List.mem_append_right _ (hp m hm)

theorem release (h : WF lo base s res ps) (hr : res'.Sublist res) : WF lo base s res' ps := by
  obtain ⟨h1, h2, h2a, h2b, h2c, os, h3, h4, h5⟩ := h
  exact ⟨h1, h2, h2a, h2b, h2c, os, h3, h4.release hr, h5⟩

theorem builds {pn ns : List Node} (h : WF lo base s res (pn ++ ps)) (hb : Builds pn ns) : WF lo base s res (ns ++ ps) := by
  obtain ⟨h1, h2, h2a, h2b, h2c, os, h3, h4, h5⟩ := h
  refine ⟨h1, h2, h2a, h2b, h2c, os, h3, ?_, h5⟩
  have h6 : Core s.objs lo s.uid res (dreg s) s.nodes (pn ++ (held s ++ os ++ ps)) := h4.forget (by
    intro m hm
    simp only [List.mem_append] at hm ⊢
    rcases hm with hm | hm | hm
    · exact .inr (.inl hm)
    · exact .inl hm
    · exact .inr (.inr hm))
  refine (h6.builds hb).forget ?_
  intro m hm
  simp only [List.mem_append] at hm ⊢
  rcases hm with hm | hm | hm
  · exact .inr (.inl hm)
  · exact .inl hm
  · exact .inr (.inr hm)

end WF

/-- A function of the document parser that starts with the reserved identities `pr` and the trees `pn`, and delivers `R a` and `N a`. -/
def DGood {α : Type} (lo : Nat) (base : List Node) (pr : List Nat) (pn : List Node) (f : DM α) (R : α → List Nat) (N : α → List Node) : Prop :=
  ∀ s res ps, WF lo base s (pr ++ res) (pn ++ ps) →
    (∀ a s', f s = .ok a s' → WF lo base s' (R a ++ res) (N a ++ ps)) ∧ ∀ s', f s = .fail s' → WF lo base s' res ps

namespace DGood
variable {α β : Type} {lo : Nat} {base : List Node} {pr : List Nat} {pn : List Node} {R : α → List Nat} {N : α → List Node}

theorem drop {s : DocSt} {res : List Nat} {ps : List Node} (h : WF lo base s (pr ++ res) (pn ++ ps)) : WF lo base s res ps :=
  (h.forget fun _ hm => List.mem_append_right _ hm).release (List.sublist_append_right _ _)

theorem pure {a : α} (hr : R a = []) (h : Builds pn (N a)) : DGood lo base pr pn (Pure.pure a : DM α) R N := by
  intro s res ps hw
  refine ⟨?_, by intro _ h'; cases h'⟩
  intro _ _ h'
  cases h'
  rw [hr]
  exact (hw.release (List.sublist_append_right _ _)).builds h

theorem bind {f : DM α} {g : α → DM β} {R' : β → List Nat} {M : β → List Node} (hf : DGood lo base pr pn f R N) (hg : ∀ a, DGood lo base (R a) (N a) (g a) R' M) :
    DGood lo base pr pn (f >>= g) R' M := by
  intro s res ps hw
  cases hx : f s with
  | ok a s1 =>
    rw [DM.bind_of_ok hx]
    exact hg a s1 res ps ((hf s res ps hw).1 _ _ hx)
  | fail s1 =>
    rw [DM.bind_of_fail hx]
    exact ⟨(by intro _ _ h; cases h), (by intro _ h; cases h; exact (hf s res ps hw).2 _ hx)⟩
  | err e =>
    rw [DM.bind_of_err hx]
    exact ⟨(by intro _ _ h; cases h), (by intro _ h; cases h)⟩

theorem frame {f : DM α} (qr : List Nat) (qn : List Node) (h : DGood lo base pr pn f R N) : DGood lo base (pr ++ qr) (pn ++ qn) f (fun a => R a ++ qr) (fun a => N a ++ qn) := by
  intro s res ps hw
  rw [List.append_assoc, List.append_assoc] at hw
  have := h s (qr ++ res) (qn ++ ps) hw
  refine ⟨fun a s' ha => ?_, fun s' ha => drop (this.2 s' ha)⟩
  rw [List.append_assoc, List.append_assoc]
  exact this.1 a s' ha

theorem raise (e : Err) : DGood lo base pr pn (DM.raise e : DM α) R N := by
  intro s res ps hw
  unfold DM.raise DM.lift
  cases e <;> exact ⟨(by intro _ _ h; cases h), (by intro _ h; cases h; try exact drop hw)⟩

theorem lift (x : Except Err α) (hr : ∀ a, R a = []) (h : ∀ a, x = .ok a → Builds pn (N a)) : DGood lo base pr pn (DM.lift x) R N := by
  intro s res ps hw
  unfold DM.lift
  split
  · refine ⟨?_, by intro _ h'; cases h'⟩
    intro _ _ h'
    cases h'
    rw [hr]
    exact (hw.release (List.sublist_append_right _ _)).builds (h _ rfl)
  · exact ⟨(by intro _ _ h; cases h), (by intro _ h; cases h; exact drop hw)⟩
  · exact ⟨(by intro _ _ h; cases h), (by intro _ h; cases h)⟩

/-- Nothing relevant changes. -/
theorem keep {f : DM α} (h : ∀ s, (∀ a s', f s = .ok a s' → ∀ lo base res ps, WF lo base s res ps → WF lo base s' res ps) ∧
    ∀ s', f s = .fail s' → ∀ lo base res ps, WF lo base s res ps → WF lo base s' res ps) : DGood lo base pr pn f (fun _ => pr) (fun _ => pn) := by
  intro s res ps hw
  exact ⟨fun a s' ha => (h s).1 a s' ha _ _ _ _ hw, fun s' ha => drop ((h s).2 s' ha _ _ _ _ hw)⟩

theorem liftK (x : Except Err α) : DGood lo base pr pn (DM.lift x) (fun _ => pr) (fun _ => pn) := by
  refine keep fun s => ?_
  unfold DM.lift
  split
  · exact ⟨(by intro _ _ h; cases h; exact fun _ _ _ _ h => h), (by intro _ h; cases h)⟩
  · exact ⟨(by intro _ _ h; cases h), (by intro _ h; cases h; exact fun _ _ _ _ h => h)⟩
  · exact ⟨(by intro _ _ h; cases h), (by intro _ h; cases h)⟩

theorem tm {toks : List Token} (f : TM → Except Err (α × TM)) : DGood lo base pr pn (DM.tm toks f) (fun _ => pr) (fun _ => pn) := by
  refine keep fun s => ?_
  unfold DM.tm
  split
  · exact ⟨(by intro _ _ h; cases h; exact fun _ _ _ _ h => ⟨h.old, h.bodies, h.order, h.tocNodup, h.groups, h.core⟩), (by intro _ h; cases h)⟩
  · exact ⟨(by intro _ _ h; cases h), (by intro _ h; cases h; exact fun _ _ _ _ h => h)⟩
  · exact ⟨(by intro _ _ h; cases h), (by intro _ h; cases h)⟩

theorem peek {toks : List Token} (f : TM → Except Err α) : DGood lo base pr pn (DM.peek toks f) (fun _ => pr) (fun _ => pn) := by
  refine keep fun s => ?_
  unfold DM.peek DM.lift
  split
  · exact ⟨(by intro _ _ h; cases h; exact fun _ _ _ _ h => h), (by intro _ h; cases h)⟩
  · exact ⟨(by intro _ _ h; cases h), (by intro _ h; cases h; exact fun _ _ _ _ h => h)⟩
  · exact ⟨(by intro _ _ h; cases h), (by intro _ h; cases h)⟩

theorem get : DGood lo base pr pn DM.get (fun _ => pr) (fun _ => pn) :=
  keep fun s => ⟨by intro _ _ h; cases h; exact fun _ _ _ _ h => h, by intro _ h; cases h⟩

theorem modify {f : DocSt → DocSt} (h : ∀ s lo base res ps, WF lo base s res ps → WF lo base (f s) res ps) :
    DGood lo base pr pn (DM.modify f) (fun _ => pr) (fun _ => pn) :=
  keep fun s => ⟨by intro _ _ h'; cases h'; exact h s, by intro _ h; cases h⟩

theorem ite {c : Prop} [Decidable c] {f g : DM α} (hf : DGood lo base pr pn f R N) (hg : DGood lo base pr pn g R N) : DGood lo base pr pn (if c then f else g) R N := by
  split
  · exact hf
  · exact hg

theorem popArgs : DGood lo base pr pn Mau.popArgs (fun _ => pr) (fun _ => pn) :=
  keep fun s => ⟨by intro _ _ h; cases h; exact fun _ _ _ _ h => ⟨h.old, h.bodies, h.order, h.tocNodup, h.groups, h.core⟩, by intro _ h; cases h⟩

theorem popLabels : DGood lo base pr pn Mau.popLabels (fun _ => pr) (fun ls => pn ++ vals ls) := by
  intro s res ps hw
  refine ⟨?_, by intro _ h; cases h⟩
  intro a s' h
  cases h
  obtain ⟨h1, h2, h2a, h2b, h2c, os, h3, h4, h5⟩ := hw
  refine ⟨h1, h2, h2a, h2b, h2c, os, h3, h4.forget ?_, h5⟩
  intro m hm
  simp only [held, List.mem_append, vals, List.map_nil, List.not_mem_nil, or_false] at hm ⊢
  rcases hm with (hm | hm) | (hm | hm) | hm
  · exact .inl (.inl (.inl hm))
  · exact .inl (.inr hm)
  · exact .inr (.inl hm)
  · exact .inl (.inl (.inr hm))
  · exact .inr (.inr hm)

theorem popControl : DGood lo base pr pn Mau.popControl (fun _ => pr) (fun _ => pn) := by
  refine keep fun s => ?_
  unfold Mau.popControl
  split
  · exact ⟨(by intro _ _ h; cases h; exact fun _ _ _ _ h => h), (by intro _ h; cases h)⟩
  · unfold DM.lift
    split
    · exact ⟨(by intro _ _ h; cases h; exact fun _ _ _ _ h => ⟨h.old, h.bodies, h.order, h.tocNodup, h.groups, h.core⟩), (by intro _ h; cases h)⟩
    · exact ⟨(by intro _ _ h; cases h), (by intro _ h; cases h; exact fun _ _ _ _ h => ⟨h.old, h.bodies, h.order, h.tocNodup, h.groups, h.core⟩)⟩
    · exact ⟨(by intro _ _ h; cases h), (by intro _ h; cases h)⟩

theorem save (n : Node) (hn : special n.data = none) : DGood lo base [] [n] (Mau.save n) (fun _ => []) (fun _ => []) := by
  intro s res ps hw
  refine ⟨?_, by intro _ h; cases h⟩
  intro a s' h
  cases h
  obtain ⟨h1, h2, h2a, h2b, h2c, os, h3, h4, h5⟩ := hw
  refine ⟨h1, h2, ?_, h2b, h2c, os, h3, h4.nodes ?_ ?_, h5⟩
  · refine ⟨?_, ?_⟩
    · dsimp only
      rw [List.filterMap_append]
      simpa [headerOf_of_special hn] using h2a.1
    · intro m hm e he
      rcases List.mem_append.1 hm with hm | hm
      · exact h2a.2 m hm e he
      · rw [List.mem_singleton] at hm
        subst hm
        rw [hn] at he
        cases he
  · intro m hm
    simp only [List.mem_append, List.mem_cons, List.not_mem_nil, or_false] at hm ⊢
    rcases hm with hm | rfl
    · exact .inl hm
    · exact .inr (.inr (.inl rfl))
  · intro m hm
    simp only [List.mem_append, List.mem_cons, List.not_mem_nil, or_false, false_or] at hm ⊢
    rcases hm with hm | hm
    · exact .inl hm
    · exact .inr (.inr hm)

theorem saveIfControl (n : Node) (hn : special n.data = none) : DGood lo base [] [n] (Mau.saveIfControl n) (fun _ => []) (fun _ => []) :=
  bind popControl fun _ => ite (save n hn) (pure rfl builds_nil)

/-- Save a node built from what is there. -/
theorem saveNew {n : Node} (h : Builds pn [n]) (hn : special n.data = none := by rfl) : DGood lo base pr pn (Mau.saveIfControl n) (fun _ => []) (fun _ => []) := by
  intro s res ps hw
  exact saveIfControl n hn s res ps ((hw.release (List.sublist_append_right _ _)).builds h)

theorem docText (fuel : Nat) (text : Str) (ctx : Context) : DGood lo base pr pn (Mau.docText fuel text ctx) (fun _ => pr) (fun ns => ns ++ pn) := by
  intro s res ps hw
  unfold Mau.docText
  split
  · exact ⟨(by intro _ _ h; cases h), (by intro _ h; cases h; exact drop hw)⟩
  · exact ⟨(by intro _ _ h; cases h), (by intro _ h; cases h)⟩
  · exact ⟨(by intro _ _ h; cases h; exact hw), (by intro _ h; cases h)⟩
  · split
    · exact ⟨(by intro _ _ h; cases h), (by intro _ h; cases h; exact drop hw)⟩
    · exact ⟨(by intro _ _ h; cases h), (by intro _ h; cases h)⟩
    · rename_i r hr
      refine ⟨?_, by intro _ h; cases h⟩
      intro a s' h
      cases h
      obtain ⟨h1, h2, h2a, h2b, h2c, os, h3, h4, h5⟩ := hw
      have h6 := core_parseText h4 hr
      refine ⟨h1, h2, ⟨h2a.1, ?_⟩, h2b, h2c, os, h3, h6.mono ?_ ?_ (fun _ h => List.mem_append_left _ h) ?_, h5⟩
      · rintro m hm ⟨i, t⟩ he
        have := h2a.2 m hm _ he
        rw [mem_dreg] at this ⊢
        cases t <;> dsimp only at this ⊢ <;> first | exact this | exact List.mem_append_left _ this
      · rintro ⟨i, t⟩ he
        rw [mem_dreg] at he
        rw [List.mem_append, List.mem_append, mem_dreg]
        cases t <;> dsimp only at he ⊢
        · rcases List.mem_append.1 he with he | he
          · exact .inl (.inl he)
          · exact .inl (.inr (List.mem_map.2 ⟨_, he, rfl⟩))
        · rcases List.mem_append.1 he with he | he
          · exact .inl (.inl he)
          · exact .inr (List.mem_map.2 ⟨_, he, rfl⟩)
        all_goals exact .inl (.inl he)
      · intro i l hi
        rw [List.mem_append, List.mem_append, mem_dreg] at hi
        rw [mem_dreg]
        rcases hi with (hi | hi) | hi
        · exact hi
        · simp at hi
        · simp at hi
      · intro m hm
        simp only [held, List.mem_append] at hm ⊢
        rcases hm with hm | (hm | hm) | hm
        · exact .inr (.inl hm)
        · exact .inl hm
        · exact .inr (.inr (.inl hm))
        · exact .inr (.inr (.inr hm))

theorem weaken {f : DM α} {N' : α → List Node} (h : DGood lo base pr pn f R N) (hN : ∀ a, ∀ n ∈ N' a, n ∈ N a) : DGood lo base pr pn f R N' := by
  intro s res ps hw
  have := h s res ps hw
  refine ⟨fun a s' ha => (this.1 a s' ha).forget ?_, this.2⟩
  intro m hm
  rcases List.mem_append.1 hm with hm | hm
  · exact List.mem_append_left _ (hN a m hm)
  · exact List.mem_append_right _ hm

theorem paragraphLines (fuel : Nat) (ts : List Token) : DGood lo base pr pn (Mau.paragraphLines fuel ts) (fun _ => pr) (fun ns => ns ++ pn) := by
  induction ts generalizing pn with
  | nil => intro s res ps hw; exact ⟨by intro _ _ h; cases h; exact hw, by intro _ h; cases h⟩
  | cons t ts ih =>
    refine bind (docText _ _ _) fun ns => ?_
    refine bind (ih (pn := ns ++ pn)) fun r => ?_
    intro s res ps hw
    refine ⟨?_, by intro _ h; cases h⟩
    intro a s' h
    cases h
    refine hw.builds ?_
    intro m hm
    simp only [List.cons_append, List.mem_cons, List.mem_append] at hm
    rcases hm with rfl | hm | hm
    · refine .inr ⟨⟨rfl, (by intro l nm h; cases h), fun _ => trivial⟩, ?_⟩
      intro c hc
      rw [kids_new] at hc
      simp only [List.map_nil, List.append_nil] at hc
      exact List.mem_append_right _ (List.mem_append_left _ hc)
    · exact .inl (List.mem_append_left _ hm)
    · exact .inl (List.mem_append_right _ (List.mem_append_right _ hm))

theorem collectLines (toks : List Token) (n : Nat) : DGood lo base pr pn (Mau.collectLines toks n) (fun _ => pr) (fun _ => pn) := by
  have kp : ∀ {γ : Type} (a : γ), DGood lo base pr pn (Pure.pure a : DM γ) (fun _ => pr) (fun _ => pn) :=
    fun a => keep fun s => ⟨by intro _ _ h; cases h; exact fun _ _ _ _ h => h, by intro _ h; cases h⟩
  induction n with
  | zero => exact raise _
  | succ n ih => exact bind (peek _) fun _ => ite (bind (tm _) fun _ => bind ih fun _ => kp _) (kp _)

theorem kpure (a : α) : DGood lo base pr pn (Pure.pure a : DM α) (fun _ => pr) (fun _ => pn) :=
  keep fun s => ⟨by intro _ _ h; cases h; exact fun _ _ _ _ h => h, by intro _ h; cases h⟩

theorem listItem (fuel : Nat) (toks : List Token) (h : Token) : DGood lo base pr pn (Mau.listItem fuel toks h) (fun _ => pr) (fun n => n :: pn) := by
  unfold Mau.listItem
  refine bind (tm _) fun t => bind (docText _ _ _) fun c => ?_
  cases c.getLast? with
  | none => exact raise _
  | some l =>
    intro s res ps hw
    refine ⟨?_, by intro _ h; cases h⟩
    intro a s' h
    cases h
    refine hw.builds ?_
    intro m hm
    rcases List.mem_cons.1 hm with rfl | hm
    · refine .inr ⟨⟨rfl, (by intro l nm h; cases h), fun _ => trivial⟩, ?_⟩
      intro c' hc
      rw [kids_new] at hc
      simp only [List.map_nil, List.append_nil] at hc
      exact List.mem_append_left _ hc
    · exact .inl (List.mem_append_right _ hm)

theorem listNodes_listLoop (fuel : Nat) (toks : List Token) (n : Nat) :
    (∀ pn, DGood lo base pr pn (Mau.listNodes fuel toks n) (fun _ => pr) (fun ns => ns ++ pn)) ∧
    ∀ pn level, DGood lo base pr pn (Mau.listLoop fuel toks n level) (fun _ => pr) (fun ns => ns ++ pn) := by
  have consK : ∀ (x : Node) (xs pn : List Node), DGood lo base pr (xs ++ x :: pn) (Pure.pure (x :: xs) : DM (List Node)) (fun _ => pr) (fun ns => ns ++ pn) := by
    intro x xs pn s res ps hw
    refine ⟨?_, by intro _ h; cases h⟩
    intro a s' h
    cases h
    refine hw.forget ?_
    intro m hm
    simp only [List.cons_append, List.mem_cons, List.mem_append] at hm ⊢
    rcases hm with rfl | (hm | hm) | hm
    · exact .inl (.inr (.inl rfl))
    · exact .inl (.inl hm)
    · exact .inl (.inr (.inr hm))
    · exact .inr hm
  induction n with
  | zero => exact ⟨fun _ => raise _, fun _ _ => raise _⟩
  | succ n ih =>
    constructor
    · intro pn
      unfold Mau.listNodes
      exact bind (tm _) fun _ => bind (listItem _ _ _) fun _ => bind (ih.2 _ _) fun _ => consK _ _ _
    · intro pn level
      unfold Mau.listLoop
      refine bind (peek _) fun t => ite ?_ (ite (raise _) (ite ?_ (ite ?_ ?_)))
      · intro s res ps hw; exact ⟨(by intro _ _ h; cases h; exact hw), (by intro _ h; cases h)⟩
      · exact bind (tm _) fun _ => bind (listItem _ _ _) fun _ => bind (ih.2 _ _) fun _ => consK _ _ _
      · refine bind (liftK _) fun o => bind (ih.1 _) fun subs => ?_
        cases subs.getLast? with
        | none => exact raise _
        | some l =>
          refine bind (ih.2 _ _) fun r => ?_
          intro s res ps hw
          refine ⟨?_, by intro _ h; cases h⟩
          intro a s' h
          cases h
          refine hw.builds ?_
          intro m hm
          simp only [List.cons_append, List.mem_cons, List.mem_append] at hm
          rcases hm with rfl | hm | hm
          · refine .inr ⟨⟨rfl, (by intro l nm h; cases h), fun _ => trivial⟩, ?_⟩
            intro c' hc
            rw [kids_new] at hc
            simp only [List.map_nil, List.append_nil] at hc
            exact List.mem_append_right _ (List.mem_append_left _ hc)
          · exact .inl (List.mem_append_left _ hm)
          · exact .inl (List.mem_append_right _ (List.mem_append_right _ hm))
      · intro s res ps hw; exact ⟨(by intro _ _ h; cases h; exact hw), (by intro _ h; cases h)⟩

end DGood
end Mau
