import Verif.Lemmas.Write
import Verif.Props.Lists
import Verif.Props.Blocks
import Verif.Props.Variables

set_option linter.unusedSimpArgs false

/-!
# Property C77: what is written can be read back
-/

namespace Mau
open Spec

/-! ## Nodes without what the parser adds -/

mutual
theorem told_anon : ∀ n : Node, n.anon.told = n.told
  | .mk d a c cs ls ex => by simp only [Node.anon, Node.told, toldList_anon cs]; cases d <;> rfl
theorem toldList_anon : ∀ ns : List Node, toldList (anonList ns) = toldList ns
  | [] => rfl
  | n :: ns => by simp only [anonList, toldList, told_anon n, toldList_anon ns]
end

theorem toldList_append (a b : List Node) : toldList (a ++ b) = toldList a ++ toldList b := by
  induction a with
  | nil => rfl
  | cons x a ih => simp only [List.cons_append, toldList, ih]

theorem rich_told (r : Rich) : toldList r.nodes = r.nodes := by
  induction r with
  | nil => rfl
  | text t rest ih => simp only [Rich.nodes, toldList, toldLabels, ih, node, Node.new, Node.told, NodeData.told]
  | verbatim t rest ih => simp only [Rich.nodes, toldList, toldLabels, ih, node, Node.new, Node.told, NodeData.told]
  | style mark inner rest ih1 ih => simp only [Rich.nodes, toldList, toldLabels, ih, ih1, node, Node.new, Node.told, NodeData.told]
  | link target inner rest ih1 ih => simp only [Rich.nodes, toldList, toldLabels, ih, ih1, node, Node.new, Node.told, NodeData.told]
  | call kind values rest ih =>
    cases kind <;> simp only [Rich.nodes, Call.node, toldList, toldLabels, ih, node, Node.new, Node.told, NodeData.told]
  | classes names inner rest ih1 ih => simp only [Rich.nodes, toldList, toldLabels, ih, ih1, node, Node.new, Node.told, NodeData.told]

theorem items_told (it : Items) : ∀ level, toldList (it.nodes level) = it.nodes level := by
  induction it with
  | nil => intro level; rfl
  | item content rest ih => intro level; simp only [Items.nodes, toldList, toldLabels, ih, rich_told, node, Node.new, Node.told, NodeData.told]
  | sub o inner rest ih1 ih => intro level; simp only [Items.nodes, toldList, toldLabels, ih, ih1, node, Node.new, Node.told, NodeData.told]

/-! ## Trees with headers as their only nodes with an identity -/

/-- A header has the level its identity says, and no name; there are no other nodes with an identity. -/
def TameData (L : Nat → Nat) (u : Nat) : NodeData → Prop
  | .header i l _ nm => l = L i ∧ nm = none ∧ i < u
  | .macroHeader .. => False
  | .macroFootnote .. => False
  | .footnote .. => False
  | .footnotes _ => False
  | .toc _ => False
  | .blockgroup .. => False
  | .footnotesItem _ => False
  | .tocItem _ => False
  | _ => True

mutual
/-- The same for all nodes of a tree. -/
def Tame (L : Nat → Nat) (u : Nat) : Node → Prop
  | .mk d _ _ cs ls ex => TameData L u d ∧ TameAll L u cs ∧ TameLabels L u ls ∧ ex = []
/-- The same for lists. -/
def TameAll (L : Nat → Nat) (u : Nat) : List Node → Prop
  | [] => True
  | n :: ns => Tame L u n ∧ TameAll L u ns
/-- The same for labels. -/
def TameLabels (L : Nat → Nat) (u : Nat) : List (Str × Node) → Prop
  | [] => True
  | (_, n) :: ns => Tame L u n ∧ TameLabels L u ns
end

theorem tameAll_append {L : Nat → Nat} {u : Nat} (a b : List Node) : TameAll L u (a ++ b) ↔ TameAll L u a ∧ TameAll L u b := by
  induction a with
  | nil => simp [TameAll]
  | cons x a ih => simp only [List.cons_append, TameAll, ih, and_assoc]

theorem tameAll_mem {L : Nat → Nat} {u : Nat} {ns : List Node} (h : TameAll L u ns) {n : Node} (hn : n ∈ ns) : Tame L u n := by
  induction ns with
  | nil => cases hn
  | cons x ns ih =>
    rcases List.mem_cons.1 hn with rfl | hn
    · exact h.1
    · exact ih h.2 hn

mutual
theorem tame_anon {L : Nat → Nat} {u : Nat} : ∀ n : Node, Tame L u n.anon → Tame L u n
  | .mk d a c cs ls ex => by
    simp only [Node.anon, Tame]
    rintro ⟨h1, h2, h3, h4⟩
    refine ⟨?_, tameAll_anon cs h2, h3, h4⟩
    cases d <;> simpa [NodeData.anon, TameData] using h1
theorem tameAll_anon {L : Nat → Nat} {u : Nat} : ∀ ns : List Node, TameAll L u (anonList ns) → TameAll L u ns
  | [] => fun _ => trivial
  | n :: ns => fun h => ⟨tame_anon n h.1, tameAll_anon ns h.2⟩
end

mutual
theorem tame_later {L L' : Nat → Nat} {u u' : Nat} (hL : ∀ i, i < u → L' i = L i) (hu : u ≤ u') : ∀ n : Node, Tame L u n → Tame L' u' n
  | .mk d a c cs ls ex => by
    simp only [Tame]
    rintro ⟨h1, h2, h3, h4⟩
    refine ⟨?_, tameAll_later hL hu cs h2, tameLabels_later hL hu ls h3, h4⟩
    cases d <;> try exact h1
    obtain ⟨e1, e2, e3⟩ := h1
    exact ⟨by rw [hL _ e3]; exact e1, e2, by omega⟩
theorem tameAll_later {L L' : Nat → Nat} {u u' : Nat} (hL : ∀ i, i < u → L' i = L i) (hu : u ≤ u') : ∀ ns : List Node, TameAll L u ns → TameAll L' u' ns
  | [] => fun _ => trivial
  | n :: ns => fun h => ⟨tame_later hL hu n h.1, tameAll_later hL hu ns h.2⟩
theorem tameLabels_later {L L' : Nat → Nat} {u u' : Nat} (hL : ∀ i, i < u → L' i = L i) (hu : u ≤ u') : ∀ ns : List (Str × Node), TameLabels L u ns → TameLabels L' u' ns
  | [] => fun _ => trivial
  | (_, n) :: ns => fun h => ⟨tame_later hL hu n h.1, tameLabels_later hL hu ns h.2⟩
end

theorem rich_tame (L : Nat → Nat) (u : Nat) (r : Rich) : TameAll L u r.nodes := by
  induction r with
  | nil => trivial
  | text t rest ih => exact ⟨⟨trivial, trivial, trivial, rfl⟩, ih⟩
  | verbatim t rest ih => exact ⟨⟨trivial, trivial, trivial, rfl⟩, ih⟩
  | style mark inner rest ih1 ih => exact ⟨⟨trivial, ih1, trivial, rfl⟩, ih⟩
  | link target inner rest ih1 ih => exact ⟨⟨trivial, ih1, trivial, rfl⟩, ih⟩
  | call kind values rest ih => cases kind <;> exact ⟨⟨trivial, trivial, trivial, rfl⟩, ih⟩
  | classes names inner rest ih1 ih => exact ⟨⟨trivial, ih1, trivial, rfl⟩, ih⟩

theorem items_tame (L : Nat → Nat) (u : Nat) (it : Items) : ∀ level, TameAll L u (it.nodes level) := by
  induction it with
  | nil => intro level; trivial
  | item content rest ih => intro level; exact ⟨⟨trivial, rich_tame L u content, trivial, rfl⟩, ih level⟩
  | sub o inner rest ih1 ih => intro level; exact ⟨⟨trivial, ih1 _, trivial, rfl⟩, ih level⟩

/-- Give a header its internal id. -/
def identify (i l : Nat) (x : Str) (n : Node) : Node := n.setData (.header i l (some x) none)

mutual
theorem tame_identify {L : Nat → Nat} {u i : Nat} (hi : i ≠ 0) (x : Str) : ∀ n : Node, Tame L u n →
    Tame L u (n.mapId i (identify i (L i) x)) ∧ (n.mapId i (identify i (L i) x)).told = n.told
  | .mk d a c cs ls ex => by
    simp only [Tame]
    rintro ⟨h1, h2, h3, rfl⟩
    obtain ⟨k1, k2⟩ := tameAll_identify hi x cs h2
    obtain ⟨k3, k4⟩ := tameLabels_identify hi x ls h3
    simp only [Node.mapId, mapIdList]
    by_cases hd : d.id = i
    · rw [if_pos hd]
      cases d with
      | header j l int nm =>
        obtain ⟨e1, e2, e3⟩ := h1
        simp only [NodeData.id] at hd
        subst hd
        subst e1
        subst e2
        exact ⟨⟨⟨rfl, rfl, e3⟩, k1, k3, rfl⟩, by simp only [identify, Node.setData, Node.told, NodeData.told, Node.args, Node.ctx, Node.content, Node.labels, Node.extra, k2, k4]⟩
      | macroHeader => exact h1.elim
      | macroFootnote => exact h1.elim
      | footnote => exact h1.elim
      | footnotes => exact h1.elim
      | toc => exact h1.elim
      | blockgroup => exact h1.elim
      | _ => exact absurd hd.symm hi
    · rw [if_neg hd]
      exact ⟨⟨h1, k1, k3, rfl⟩, by simp only [Node.told, k2, k4]⟩
theorem tameAll_identify {L : Nat → Nat} {u i : Nat} (hi : i ≠ 0) (x : Str) : ∀ ns : List Node, TameAll L u ns →
    TameAll L u (mapIdList i (identify i (L i) x) ns) ∧ toldList (mapIdList i (identify i (L i) x) ns) = toldList ns
  | [] => fun _ => ⟨trivial, rfl⟩
  | n :: ns => fun h => by
    obtain ⟨h1, h2⟩ := tame_identify hi x n h.1
    obtain ⟨h3, h4⟩ := tameAll_identify hi x ns h.2
    exact ⟨⟨h1, h3⟩, by simp only [mapIdList, toldList, h2, h4]⟩
theorem tameLabels_identify {L : Nat → Nat} {u i : Nat} (hi : i ≠ 0) (x : Str) : ∀ ns : List (Str × Node), TameLabels L u ns →
    TameLabels L u (mapIdLabels i (identify i (L i) x) ns) ∧ toldLabels (mapIdLabels i (identify i (L i) x) ns) = toldLabels ns
  | [] => fun _ => ⟨trivial, rfl⟩
  | (r, n) :: ns => fun h => by
    obtain ⟨h1, h2⟩ := tame_identify hi x n h.1
    obtain ⟨h3, h4⟩ := tameLabels_identify hi x ns h.2
    exact ⟨⟨h1, h3⟩, by simp only [mapIdLabels, toldLabels, h2, h4]⟩
end

/-! ## The state -/

/-- Nothing is pending, and nothing waits for the end of the document except headers. -/
structure Neat (Q : Prop) (L : Nat → Nat) (s : DocSt) : Prop where
  idle : Idle s
  footnotes : s.footnoteMacros = [] ∧ s.bodies = [] ∧ s.footnoteLists = []
  others : s.tocNodes = [] ∧ s.linkMacros = [] ∧ s.groupNodes = [] ∧ s.groups = []
  uid : 0 < s.uid
  ready : Ready s.env
  usual : Usual s.env
  styles : Q → StylesUsual s.env
  headers : ∀ h ∈ s.tocHeaders, h.1 ≠ 0
  nodes : TameAll L s.uid s.nodes
  objs : TameAll L s.uid s.objs

variable {Q : Prop}

/-- The end of the document changes only the internal ids of headers. -/
theorem neat_finalise (cfg : Config) {L : Nat → Nat} {s : DocSt} (h : Neat Q L s) :
    ∃ s', finalise cfg s = .ok s' ∧ Neat Q L s' ∧ s'.uid = s.uid ∧ toldList s'.nodes = toldList s.nodes := by
  obtain ⟨f1, f2, f3⟩ := h.footnotes
  obtain ⟨o1, o2, o3, o4⟩ := h.others
  have hf : processFootnotes cfg s = .ok s := by
    unfold processFootnotes
    rw [f2]
    simp only [makeFootnotes, List.map_nil, List.append_nil, f1, linkFootnotes, f3, List.foldl_nil]
    rw [← f1, ← f2, ← f3]
  have hfold : ∀ (hs : List (Nat × Nat)) (s : DocSt), (∀ x ∈ hs, x.1 ≠ 0) → Neat Q L s →
      Neat Q L (hs.foldl (fun s h => setHeaderId cfg s h.1) s) ∧ (hs.foldl (fun s h => setHeaderId cfg s h.1) s).uid = s.uid ∧
      toldList (hs.foldl (fun s h => setHeaderId cfg s h.1) s).nodes = toldList s.nodes := by
    intro hs
    induction hs with
    | nil => intro s _ h; exact ⟨h, rfl, rfl⟩
    | cons x hs ih =>
      intro s hx h
      have key : Neat Q L (setHeaderId cfg s x.1) ∧ (setHeaderId cfg s x.1).uid = s.uid ∧ toldList (setHeaderId cfg s x.1).nodes = toldList s.nodes := by
        unfold setHeaderId
        cases ho : s.obj? x.1 with
        | none => exact ⟨h, rfl, rfl⟩
        | some n =>
          unfold DocSt.obj? at ho
          have hid := List.find?_some ho
          have htame := tameAll_mem h.objs (List.mem_of_find?_eq_some ho)
          obtain ⟨d, a, c, cs, ls, ex⟩ := n
          simp only [Tame] at htame
          simp only [Node.data, beq_iff_eq] at hid
          dsimp only [Node.data]
          split
          · rename_i j l nm
            obtain ⟨⟨e1, e2, e3⟩, -⟩ := htame
            simp only [NodeData.id] at hid
            subst hid
            subst e1
            subst e2
            have k1 := tameAll_identify (hx x (by simp)) (cfg.headerId (.mk (.header x.1 (L x.1) none none) a c cs ls ex)) s.nodes h.nodes
            have k2 := tameAll_identify (hx x (by simp)) (cfg.headerId (.mk (.header x.1 (L x.1) none none) a c cs ls ex)) s.objs h.objs
            refine ⟨⟨h.idle, ⟨h.footnotes.1, ?_, h.footnotes.2.2⟩, ⟨h.others.1, h.others.2.1, h.others.2.2.1, ?_⟩, h.uid, h.ready, h.usual, h.styles, h.headers, k1.1, k2.1⟩, rfl, k1.2⟩
            · simp only [DocSt.updateNode]; rw [h.footnotes.2.1]; rfl
            · simp only [DocSt.updateNode]; rw [h.others.2.2.2]; rfl
          · exact ⟨h, rfl, rfl⟩
      obtain ⟨k1, k2, k3⟩ := key
      obtain ⟨j1, j2, j3⟩ := ih _ (fun y hy => hx y (by simp [hy])) k1
      exact ⟨j1, j2.trans k2, j3.trans k3⟩
  have ht : ∃ s', processToc cfg s = s' ∧ Neat Q L s' ∧ s'.uid = s.uid ∧ toldList s'.nodes = toldList s.nodes := by
    unfold processToc
    split
    · exact ⟨s, rfl, h, rfl, rfl⟩
    · obtain ⟨k1, k2, k3⟩ := hfold s.tocHeaders s h.headers h
      refine ⟨_, rfl, ?_⟩
      dsimp only
      rw [k1.others.1]
      exact ⟨k1, k2, k3⟩
  obtain ⟨s', t1, t2, t3, t4⟩ := ht
  refine ⟨s', ?_, t2, t3, t4⟩
  unfold finalise
  rw [hf]
  simp only [Bind.bind, Except.bind]
  rw [t1, t2.others.2.1]
  simp only [linkHeaders]
  rw [t2.others.2.2.1]
  rfl

/-- Variables with the same values are as usual. -/
theorem usual_same {e e' : Env} (h : ∀ k, Dict.get? e' k = Dict.get? e k) (hu : Usual e) : Usual e' := by
  intro k hk
  rcases hu k hk with hd | ⟨r, hr⟩
  · left
    unfold Env.get at hd ⊢
    rw [h]
    cases hg : Dict.get? e k with
    | some v => rw [hg] at hd; cases hd
    | none =>
      rw [hg] at hd
      dsimp only at hd ⊢
      split at hd
      · rename_i hs
        rw [if_pos]
        simp only [List.isEmpty_iff, List.map_eq_nil_iff, List.filter_eq_nil_iff] at hs ⊢
        intro kv hkv hst
        have h1 : Dict.get? e' kv.1 ≠ none := by
          intro hn
          rw [Dict.get?_none_iff] at hn
          exact hn (List.mem_map.2 ⟨kv, hkv, rfl⟩)
        rw [h] at h1
        cases hv : Dict.get? e kv.1 with
        | none => exact h1 hv
        | some v => exact hs _ (Dict.mem_of_get? hv) hst
      · cases hd
  · right
    refine ⟨r, ?_⟩
    unfold Env.get at hr ⊢
    rw [h]
    cases hg : Dict.get? e k with
    | some v => rw [hg] at hr; exact hr
    | none =>
      rw [hg] at hr
      dsimp only at hr
      split at hr <;> cases hr

theorem styles_same {e e' : Env} (h : ∀ k, Dict.get? e' k = Dict.get? e k) (hs : StylesUsual e) : StylesUsual e' :=
  ⟨by rw [h]; exact hs.absent, fun s => by rw [h]; exact hs.usual s⟩

/-! ## Lines -/

/-- The first character of a line. -/
theorem line_head {r : Rich} (h : r.Ok true none) (hne : r ≠ .nil) : ∃ c t, r.line = c :: t ∧ c ∉ c%"/-<:.= #@\n" := by
  have hm : ∀ c ∈ c%"_*^~", c ∉ c%"/-<:.= #@\n" := by decide
  cases r with
  | nil => exact absurd rfl hne
  | text t rest =>
    cases t with
    | nil => exact absurd rfl h.1
    | cons c t =>
      have hnl : c ≠ '\n' := fun e => h.2.1 (by simp [e])
      unfold Rich.line Rich.protection
      by_cases hs : Rich.startsWith c%"/-<:.= #@" (.text (c :: t) rest) = true
      · rw [if_pos hs]
        exact ⟨'\\', _, rfl, by decide⟩
      · rw [if_neg hs]
        dsimp only
        split
        · exact ⟨'\\', _, rfl, by decide⟩
        · simp only [Rich.write, guarding_cons, List.nil_append]
          split
          · exact ⟨'\\', _, rfl, by decide⟩
          · refine ⟨c, _, rfl, fun hc => hs ?_⟩
            simp only [Rich.startsWith, List.contains_iff_mem]
            simp only [List.mem_cons, List.not_mem_nil, or_false] at hc ⊢
            simpa [hnl] using hc
  | verbatim t rest => exact ⟨'`', _, rfl, by decide⟩
  | style mark inner rest => exact ⟨mark, _, rfl, hm _ (style_mark h.1)⟩
  | link target inner rest => exact ⟨'[', _, rfl, by decide⟩
  | call kind values rest => exact ⟨'[', _, rfl, by decide⟩
  | classes names inner rest => exact ⟨'[', _, rfl, by decide⟩

/-- The lines of a paragraph. -/
theorem write_lines (src : Option Str) {ls : List Rich} (h : ∀ l ∈ ls, l.LineOk) (s : DocSt) : ∀ (ln col : Nat),
    ∃ N ms, anonList ms = (ls.map fun l => node .paragraphLine l.nodes) ∧ ∀ P : Parser, P.src = src → N ≤ P.fuel →
      P.inlineLines s (textToks P.src ln col (ls.map Rich.line)) = .ok (ms, s) := by
  induction ls with
  | nil => intro ln col; exact ⟨0, [], rfl, fun P _ _ => rfl⟩
  | cons l ls ih =>
    intro ln col
    have hl := h l (by simp)
    obtain ⟨N, ms, a1, hN⟩ := Rich.inlined hl.ok hl.nonempty hl.last s (at_ src ln col l.line.length)
    obtain ⟨M, ms', a2, hM⟩ := ih (fun x hx => h x (by simp [hx])) (ln + 1) 0
    refine ⟨max N M, Node.new .paragraphLine (at_ src ln col l.line.length) ms :: ms', ?_, fun P hsrc hP => ?_⟩
    · simp only [List.map_cons, anonList]
      rw [a2]
      simp only [Node.new, Node.anon, node, a1, NodeData.anon, anonList]
    · subst hsrc
      have e1 := hN P (by omega)
      have e2 := hM P rfl (by omega)
      rw [List.map_cons, textToks, Parser.inlineLines]
      change (P.inline s l.line (at_ P.src ln col l.line.length)).bind _ = _
      rw [e1]
      change Except.bind (Parser.inlineLines P s (textToks P.src (ln + 1) 0 (ls.map Rich.line))) _ = _
      rw [e2]
      rfl

theorem spanOf_ne {ms : List Node} (h : ms ≠ []) : ∃ ctx, spanOf ms = .ok ctx := by
  unfold spanOf
  cases ms with
  | nil => exact absurd rfl h
  | cons n ns => rw [List.head?_cons, List.getLast?_cons]; exact ⟨_, rfl⟩

/-- What stands after a part: nothing, or an empty line. -/
def Ended (rest : List Str) : Prop := rest = [] ∨ ∃ r, rest = [] :: r

theorem Ended.noText {rest : List Str} (h : Ended rest) : NoText rest := by
  rcases h with rfl | ⟨r, rfl⟩
  · exact .nil
  · exact .blank (by intro c hc; cases hc)

theorem Ended.afterList {rest : List Str} (h : Ended rest) (L : Nat) : AfterList L rest := by
  rcases h with rfl | ⟨r, rfl⟩
  · exact .nil
  · exact .empty r

theorem nodes_ne {r : Rich} (h : r ≠ .nil) : r.nodes ≠ [] := by cases r <;> simp [Rich.nodes] at h ⊢

theorem anon_ne {ms ns : List Node} (h : anonList ms = ns) (hne : ns ≠ []) : ms ≠ [] := by
  rintro rfl
  exact hne h.symm

/-! ## Parts -/

/-- The labels and arguments `d` (and the arguments `more`) are pending. -/
structure Pend (L : Nat → Nat) (u : Nat) (d : Deco) (more : List (Str × Str)) (ab : Option NodeArgs) (lb : Dict Node) : Prop where
  args : ab.getD {} = { unnamed := d.unnamed, named := d.named ++ more, tags := d.tags, subtype := d.subtype }
  tame : TameLabels L u lb
  told : toldLabels lb = d.labels.map fun l => (l.1, node (.label l.1) l.2.nodes)

/-- With pending arguments and labels. -/
def bearing (s : DocSt) (ab : Option NodeArgs) (lb : Dict Node) : DocSt := { s with argsBuf := ab, labelBuf := lb }

theorem Pend.bear {L : Nat → Nat} {u : Nat} {d : Deco} {more : List (Str × Str)} {ab : Option NodeArgs} {lb : Dict Node} (h : Pend L u d more ab lb) (s : DocSt) :
    Spec.args (bearing s ab lb) = { unnamed := d.unnamed, named := d.named ++ more, tags := d.tags, subtype := d.subtype } := h.args

theorem erase_absent {d : Dict Str} {k : Str} (h : k ∉ d.map (·.1)) : Dict.erase d k = d := by
  unfold Dict.erase
  rw [List.filter_eq_self]
  intro kv hkv
  rw [decide_eq_true_eq]
  rintro rfl
  exact h (List.mem_map.2 ⟨kv, hkv, rfl⟩)

/-- The names that Mau uses are not among the arguments. -/
theorem reserved_absent {d : Deco} (h : d.Ok) {k : Str} (hk : k ∈ reservedNames) : k ∉ d.named.map (·.1) := by
  intro hm
  obtain ⟨a, ha, rfl⟩ := List.mem_map.1 hm
  exact (h.name a ha).2.1 hk

theorem reserved_get {d : Deco} (h : d.Ok) {k : Str} (hk : k ∈ reservedNames) : Dict.get? d.named k = none :=
  Dict.get?_none_iff.2 (reserved_absent h hk)

/-- Reading the lines `a` adds the nodes `ns`, whatever comes after them. -/
def Adds (Q : Prop) (cfg : Config) (src : Option Str) (L : Nat → Nat) (s s0 : DocSt) (ln col : Nat) (a : List Str) (tree : List Node) : Prop :=
  ∃ N L' s' ns ln', Neat Q L' s' ∧ (∀ i, i < s.uid → L' i = L i) ∧ s.uid ≤ s'.uid ∧ s'.nodes = s.nodes ++ ns ∧ toldList ns = tree ∧
    ∀ n ≥ N, ∀ rest, Ended rest → (parser cfg n src).run ln col (a ++ rest) s0 = (parser cfg n src).run ln' 0 rest s'

theorem adds_paragraph (cfg : Config) (src : Option Str) {L : Nat → Nat} {s : DocSt} (hs : Neat Q L s) {d : Deco} {ab : Option NodeArgs} {lb : Dict Node}
    (hp : Pend L s.uid d [] ab lb) (ln col : Nat) {ls : List Rich} (hne : ls ≠ []) (h : ∀ l ∈ ls, l.LineOk) :
    Adds Q cfg src L s (bearing s ab lb) ln col (ls.map Rich.line) [d.node .paragraph (ls.map fun l => node .paragraphLine l.nodes)] := by
  obtain ⟨N, ms, a1, hN⟩ := write_lines src h (bearing s ab lb) ln col
  obtain ⟨ctx, hctx⟩ := spanOf_ne (anon_ne a1 (by simpa using hne))
  have htame : TameAll L s.uid ms := by
    apply tameAll_anon
    rw [a1]
    clear a1 h hN hne
    induction ls with
    | nil => trivial
    | cons l ls ih => exact ⟨⟨trivial, rich_tame _ _ l, trivial, rfl⟩, ih⟩
  have htold : toldList ms = ls.map fun l => node .paragraphLine l.nodes := by
    rw [← toldList_anon, a1]
    clear a1 h hN hne
    induction ls with
    | nil => rfl
    | cons l ls ih =>
      have e : (node .paragraphLine l.nodes).told = node .paragraphLine l.nodes := by
        simp only [node, Node.new, Node.told, toldLabels, NodeData.told, rich_told]
      rw [List.map_cons, toldList, ih, e]
  let nd : Node := Node.new .paragraph ctx ms { unnamed := d.unnamed, named := d.named, tags := d.tags, subtype := d.subtype } lb
  refine ⟨N, L, { s with nodes := s.nodes ++ [nd] }, [nd], ln + (ls.map Rich.line).length,
    ⟨hs.idle, hs.footnotes, hs.others, hs.uid, hs.ready, hs.usual, hs.styles, hs.headers, (tameAll_append _ _).2 ⟨hs.nodes, ⟨trivial, htame, hp.tame, rfl⟩, trivial⟩, hs.objs⟩,
    fun _ _ => rfl, Nat.le_refl _, rfl, ?_, fun n hn rest hr => ?_⟩
  · simp only [nd, toldList, Node.new, Deco.node, Node.told, NodeData.told, htold, hp.told]
  · refine (reads_paragraph (P := parser cfg n src) (ln := ln) (col := col) (s := bearing s ab lb) (fun l hl => ?_) (by simpa using hne) hr.noText).ok _ ?_
    · obtain ⟨x, hx, rfl⟩ := List.mem_map.1 hl
      exact (h x hx).text
    · obtain ⟨i1, i2, i3⟩ := hs.idle
      unfold Parser.paragraphStep
      rw [hN (parser cfg n src) rfl hn]
      simp only [Bind.bind, Except.bind]
      rw [hctx, hp.bear, List.append_nil]
      dsimp only
      unfold Spec.allowed bearing
      dsimp only
      rw [i1, i2, i3]
      rfl

theorem adds_rule (cfg : Config) (src : Option Str) {L : Nat → Nat} {s : DocSt} (hs : Neat Q L s) {d : Deco} {ab : Option NodeArgs} {lb : Dict Node}
    (hp : Pend L s.uid d [] ab lb) (ln col : Nat) : Adds Q cfg src L s (bearing s ab lb) ln col [c%"---"] [d.node .horizontalRule] := by
  let nd : Node := Node.new .horizontalRule (at_ src ln col 3) [] { unnamed := d.unnamed, named := d.named, tags := d.tags, subtype := d.subtype } lb
  refine ⟨0, L, { s with nodes := s.nodes ++ [nd] }, [nd], ln + 1,
    ⟨hs.idle, hs.footnotes, hs.others, hs.uid, hs.ready, hs.usual, hs.styles, hs.headers, (tameAll_append _ _).2 ⟨hs.nodes, ⟨trivial, trivial, hp.tame, rfl⟩, trivial⟩, hs.objs⟩,
    fun _ _ => rfl, Nat.le_refl _, rfl, ?_, fun n hn rest hr => ?_⟩
  · simp only [nd, toldList, Node.new, Deco.node, Node.told, NodeData.told, hp.told]
  refine (reads_rule (P := parser cfg n src) (ln := ln) (col := col) (s := bearing s ab lb)).ok _ ?_
  obtain ⟨i1, i2, i3⟩ := hs.idle
  unfold ruleStep
  rw [hp.bear, List.append_nil]
  unfold Spec.allowed bearing
  dsimp only
  rw [i1, i2, i3]
  rfl

theorem adds_header (cfg : Config) (src : Option Str) {L : Nat → Nat} {s : DocSt} (hs : Neat Q L s) {d : Deco} (hd : d.Ok) {ab : Option NodeArgs} {lb : Dict Node}
    (hp : Pend L s.uid d [] ab lb) (ln col : Nat) {level : Nat} (hl : 0 < level) {t : Rich}
    (h : t.Ok true none) (hne : t ≠ .nil) (hlast : t.line.getLast? ≠ some ' ') :
    Adds Q cfg src L s (bearing s ab lb) ln col [List.replicate level '=' ++ c%" " ++ t.line] [d.node (.header 0 level none none) t.nodes] := by
  obtain ⟨m, rfl⟩ : ∃ m, level = m + 1 := ⟨level - 1, by omega⟩
  obtain ⟨c, r, e, hc⟩ := line_head h hne
  have ht : HeaderText c%" " t.line := by
    refine ⟨by intro c hc; simpa using hc, by rw [e]; simp, ?_, ?_⟩
    · rw [e]; simp; rintro rfl; exact hc (by decide)
    · intro hsp; simp at hsp
  obtain ⟨N, ms, a1, hN⟩ := Rich.inlined h hne hlast { bearing s ab lb with uid := s.uid + 1 }
    (at_ src ln (col + (List.replicate (m + 1) '=').length + c%" ".length) t.line.length)
  obtain ⟨ctx, hctx⟩ := spanOf_ne (anon_ne a1 (nodes_ne hne))
  let L' : Nat → Nat := fun i => if i = s.uid then m + 1 else L i
  have hL : ∀ i, i < s.uid → L' i = L i := fun i hi => if_neg (by omega)
  let nd : Node := Node.new (.header s.uid (m + 1) none none) ((at_ src ln col (List.replicate (m + 1) '=').length).merge ctx) ms
    { unnamed := d.unnamed, named := d.named, tags := d.tags, subtype := d.subtype } lb
  have htame : Tame L' (s.uid + 1) nd := by
    refine ⟨⟨(if_pos rfl).symm, rfl, by omega⟩, tameAll_anon _ ?_, tameLabels_later hL (Nat.le_succ _) _ hp.tame, rfl⟩
    rw [a1]
    exact rich_tame _ _ t
  refine ⟨N, L', { s with uid := s.uid + 1, nodes := s.nodes ++ [nd], tocHeaders := s.tocHeaders ++ [(s.uid, m + 1)], objs := s.objs ++ [nd] }, [nd], ln + 1,
    ⟨hs.idle, hs.footnotes, hs.others, by exact Nat.succ_pos _, hs.ready, hs.usual, hs.styles, ?_, (tameAll_append _ _).2 ⟨tameAll_later hL (Nat.le_succ _) _ hs.nodes, htame, trivial⟩,
      (tameAll_append _ _).2 ⟨tameAll_later hL (Nat.le_succ _) _ hs.objs, htame, trivial⟩⟩,
    hL, by exact Nat.le_succ _, rfl, ?_, fun n hn rest hr => ?_⟩
  · intro x hx
    rcases List.mem_append.1 hx with hx | hx
    · exact hs.headers x hx
    · rw [List.mem_singleton.1 hx]
      have := hs.uid
      exact Nat.pos_iff_ne_zero.1 this
  · have : toldList ms = t.nodes := by rw [← toldList_anon, a1, rich_told]
    simp only [nd, toldList, Node.new, Deco.node, Node.told, NodeData.told, this, hp.told]
  · refine (reads_header (P := parser cfg n src) (ln := ln) (col := col) (s := bearing s ab lb) (header_line ht)).ok _ ?_
    obtain ⟨i1, i2, i3⟩ := hs.idle
    unfold Parser.headerStep
    rw [show (parser cfg n src).src = src from rfl, show (bearing s ab lb).uid = s.uid from rfl, hN (parser cfg n src) hn, hp.bear, List.append_nil]
    simp only [Bind.bind, Except.bind]
    rw [hctx]
    dsimp only
    rw [erase_absent (reserved_absent hd (by decide)), reserved_get hd (by decide), reserved_get hd (by decide), erase_absent (reserved_absent hd (by decide))]
    unfold Spec.allowed bearing
    dsimp only
    rw [i1, i2, i3]
    simp only [List.length_replicate, nd]
    rfl

/-! ### Lists -/

/-- The lines of the items, in their parts. -/
def itemLines (o : Bool) : (level : Nat) → Items → List ItemLine
  | _, .nil => []
  | level, .item content rest => ⟨[], List.replicate level (listSign o), c%" ", content.line⟩ :: itemLines o level rest
  | level, .sub o' inner rest => itemLines o' (level + 1) inner ++ itemLines o level rest

theorem itemLines_lines (it : Items) : ∀ (o : Bool) (level : Nat), (itemLines o level it).map (·.line) = it.lines o level := by
  induction it with
  | nil => intro o level; rfl
  | item content rest ih =>
    intro o level
    rw [itemLines, Items.lines, List.map_cons, ih]
    rfl
  | sub o' inner rest ih1 ih2 =>
    intro o level
    simp only [itemLines, Items.lines, List.map_append, ih1, ih2]

theorem itemLines_ok (it : Items) : ∀ (o : Bool) (level : Nat), 0 < level → it.Ok → ∀ j ∈ itemLines o level it, j.Ok ∧ level ≤ j.mark.length := by
  induction it with
  | nil => intro o level _ _ j hj; cases hj
  | item content rest ih =>
    intro o level hl h j hj
    obtain ⟨h1, h2, h3, h4⟩ := h
    rcases List.mem_cons.1 hj with rfl | hj
    · obtain ⟨c, r, e, hc⟩ := line_head h1 h2
      have hsign : isListChar (listSign o) = true := by cases o <;> decide
      have hsp : listSign o ≠ ' ' := by cases o <;> decide
      obtain ⟨m, rfl⟩ : ∃ m, level = m + 1 := ⟨level - 1, by omega⟩
      refine ⟨⟨.list [] _ c%" " content.line (by intro x hx; cases hx) (by simp [List.replicate_succ]) ?_ (by decide) (by unfold Spaces; decide) ?_, ?_, ?_⟩, by simp⟩
      · intro x hx
        rw [(List.mem_replicate.1 hx).2]
        exact hsign
      · intro x y hxy
        rw [e] at hxy
        cases hxy
        simp only [beq_eq_false_iff_ne]
        rintro rfl
        exact hc (by decide)
      · intro hs
        exact hsp (hs (listSign o) (by simp [ItemLine.line, List.replicate_succ]))
      · intro ch hch
        have a1 : listSign o ∈ [ch, ch, ch, ch] := by rw [← hch]; simp [ItemLine.line, List.replicate_succ]
        have a2 : ' ' ∈ [ch, ch, ch, ch] := by rw [← hch]; simp [ItemLine.line]
        simp at a1 a2
        exact hsp (a1.trans a2.symm)
    · exact ih o level hl h4 j hj
  | sub o' inner rest ih1 ih2 =>
    intro o level hl h j hj
    obtain ⟨h1, h2, h3, h4⟩ := h
    rcases List.mem_append.1 hj with hj | hj
    · obtain ⟨k1, k2⟩ := ih1 o' (level + 1) (by omega) h2 j hj
      exact ⟨k1, by omega⟩
    · exact ih2 o level hl h4 j hj

theorem itemToks_append (src : Option Str) (is js : List ItemLine) (h : is ≠ []) : ∀ ln col,
    itemToks src ln col (is ++ js) = itemToks src ln col is ++ itemToks src (ln + is.length) 0 js := by
  induction is with
  | nil => exact absurd rfl h
  | cons i is ih =>
    intro ln col
    rw [List.cons_append, itemToks, itemToks]
    cases is with
    | nil => rfl
    | cons k is =>
      rw [ih (by simp), List.cons_append]
      have : ln + 1 + (k :: is).length = ln + (i :: k :: is).length := by simp; omega
      rw [this]

theorem items_ne {it : Items} (h : it.isItem = true) (o : Bool) (level : Nat) : itemLines o level it ≠ [] := by
  cases it with
  | item content rest => simp [itemLines]
  | nil => cases h
  | sub => cases h

/-- The items of a list are read. -/
theorem items_read (src : Option Str) (s : DocSt) (it : Items) : ∀ (o : Bool) (level ln col : Nat), 0 < level → it.Ok →
    ∃ N es ns, (∀ P : Parser, P.src = src → N ≤ P.fuel → P.items s (itemToks src ln col (itemLines o level it)) = .ok (es, s)) ∧
      Lists level es ns ∧ anonList ns = it.nodes level ∧ (it.isItem = true → ∃ e es', es = e :: es' ∧ e.level = level ∧ numbered e.1 = o) ∧
      (it.isSub = false → ∀ f ∈ es.head?, f.level = level) := by
  induction it with
  | nil => intro o level ln col _ _; exact ⟨0, [], [], fun P _ _ => rfl, .nil _, rfl, (by intro h; cases h), (by intro _ f hf; cases hf)⟩
  | item content rest ih =>
    intro o level ln col hl h
    obtain ⟨h1, h2, h3, h4⟩ := h
    obtain ⟨N, ms, a1, hN⟩ := Rich.inlined h1 h2 h3 s (at_ src ln (col + 0 + level + 1) content.line.length)
    obtain ⟨M, es, ns, b1, b2, b3, -, -⟩ := ih o level (ln + 1) 0 hl h4
    have hne := anon_ne a1 (nodes_ne h2)
    obtain ⟨last, hlast⟩ : ∃ x, ms.getLast? = some x := by
      cases hx : ms.getLast? with
      | none => exact absurd (List.getLast?_eq_none_iff.1 hx) hne
      | some x => exact ⟨x, rfl⟩
    let mark := tokAt .LIST (List.replicate level (listSign o)) ln (col + 0) src
    let e : Entry := (mark, Node.new (.listItem level) (mark.ctx.merge last.ctx) ms)
    have hlev : e.level = level := by simp [e, mark, Entry.level, tokAt]
    refine ⟨max N M, e :: es, e.2 :: ns, fun P hsrc hP => ?_, .item hlev b2, ?_, fun _ => ⟨e, es, rfl, hlev, ?_⟩, ?_⟩
    · subst hsrc
      have e1 := hN P (by omega)
      have e2 := b1 P rfl (by omega)
      rw [itemLines, itemToks, Parser.items]
      have : P.item s (mark, tokAt .TEXT content.line ln (col + 0 + level + 1) P.src) = .ok (e.2, s) := by
        unfold Parser.item
        change (P.inline s content.line (at_ P.src ln (col + 0 + level + 1) content.line.length)).bind _ = _
        rw [e1]
        simp only [Except.bind, hlast]
        simp [e, mark, tokAt]
        rfl
      simp only [List.length_replicate, List.length_nil, List.length_cons]
      change (P.item s (mark, tokAt .TEXT content.line ln (col + 0 + level + 1) P.src)).bind _ = _
      rw [this]
      simp only [Except.bind]
      rw [e2]
      rfl
    · simp only [anonList, b3, Items.nodes, e, Node.new, Node.anon, a1, node, NodeData.anon]
    · obtain ⟨m, rfl⟩ : ∃ m, level = m + 1 := ⟨level - 1, by omega⟩
      cases o <;> rfl
    · intro _ f hf
      cases hf
      exact hlev
  | sub o' inner rest ih1 ih2 =>
    intro o level ln col hl h
    obtain ⟨h1, h2, h3, h4⟩ := h
    obtain ⟨N, es, ns, b1, b2, b3, b4, -⟩ := ih1 o' (level + 1) ln col (by omega) h2
    obtain ⟨M, fs, ms, c1, c2, c3, -, c5⟩ := ih2 o level (ln + (itemLines o' (level + 1) inner).length) 0 hl h4
    obtain ⟨e, es', rfl, hlev, hnum⟩ := b4 h1
    have hnsne : ns ≠ [] := by
      rintro rfl
      cases inner with
      | item content rest => cases b3
      | nil => cases h1
      | sub => cases h1
    obtain ⟨last, hlast⟩ : ∃ x, ns.getLast? = some x := by
      cases hx : ns.getLast? with
      | none => exact absurd (List.getLast?_eq_none_iff.1 hx) hnsne
      | some x => exact ⟨x, rfl⟩
    refine ⟨max N M, e :: es' ++ fs, Node.new (.list (numbered e.1) false 1) (e.1.ctx.merge last.ctx) ns :: ms, fun P hsrc hP => ?_,
      .sub (by omega) (by rw [hlev]; exact b2) c2 ?_ hlast, ?_, ?_, ?_⟩
    · rw [itemLines, itemToks_append _ _ _ (items_ne h1 _ _)]
      rw [items_append, b1 P hsrc (by omega)]
      simp only [Bind.bind, Except.bind]
      rw [c1 P hsrc (by omega)]
    · intro f hf
      have := c5 h3 f hf
      omega
    · simp only [anonList, c3, Items.nodes, Node.new, Node.anon, b3, node, NodeData.anon, hnum]
    · intro hh; cases hh
    · intro hh; cases hh

theorem adds_list (cfg : Config) (src : Option Str) {L : Nat → Nat} {s : DocSt} (hs : Neat Q L s) {d : Deco} (hd : d.Ok) {ab : Option NodeArgs} {lb : Dict Node}
    (hp : Pend L s.uid d [] ab lb) (ln col : Nat) (o : Bool) {it : Items} (hi : it.isItem = true) (h : it.Ok) :
    Adds Q cfg src L s (bearing s ab lb) ln col (it.lines o 1) [d.node (.list o true 1) (it.nodes 1)] := by
  obtain ⟨N, es, ns, b1, b2, b3, b4, -⟩ := items_read src (bearing s ab lb) it o 1 ln col (by omega) h
  have hok := itemLines_ok it o 1 (by omega) h
  obtain ⟨i, is, hil⟩ : ∃ i is, itemLines o 1 it = i :: is := by
    cases hx : itemLines o 1 it with
    | nil => exact absurd hx (items_ne hi _ _)
    | cons i is => exact ⟨i, is, rfl⟩
  have hmark : i.mark = [listSign o] ∧ i.indent = [] := by
    cases it with
    | item content rest => cases hil; exact ⟨rfl, rfl⟩
    | nil => cases hi
    | sub => cases hi
  have hlen : i.mark.length = 1 := by rw [hmark.1]; rfl
  have hne : ns ≠ [] := by
    rintro rfl
    cases it with
    | item content rest => cases b3
    | nil => cases hi
    | sub => cases hi
  obtain ⟨ctx, hctx⟩ := spanOf_ne hne
  let nd : Node := Node.new (.list o true 1) ctx ns { unnamed := d.unnamed, named := d.named, tags := d.tags, subtype := d.subtype } lb
  have htame : Tame L s.uid nd := ⟨trivial, tameAll_anon _ (by rw [b3]; exact items_tame L s.uid it 1), hp.tame, rfl⟩
  have htold : toldList ns = it.nodes 1 := by rw [← toldList_anon, b3, items_told]
  refine ⟨N, L, { s with nodes := s.nodes ++ [nd], latest := ns.length + 1 }, [nd], ln + (i :: is).length,
    ⟨hs.idle, hs.footnotes, hs.others, hs.uid, hs.ready, hs.usual, hs.styles, hs.headers, (tameAll_append _ _).2 ⟨hs.nodes, htame, trivial⟩, hs.objs⟩,
    fun _ _ => rfl, Nat.le_refl _, rfl, ?_, fun n hn rest hr => ?_⟩
  · simp only [nd, toldList, Node.new, Deco.node, Node.told, NodeData.told, htold, hp.told]
  · rw [← itemLines_lines, hil]
    have hits : (parser cfg n src).items (bearing s ab lb) (itemToks (parser cfg n src).src ln col (i :: is)) = .ok (es, bearing s ab lb) := by
      rw [← hil]
      exact b1 (parser cfg n src) rfl hn
    obtain ⟨ms, k1, k2⟩ := reads_list (P := parser cfg n src) (rest := rest) (i := i) (is := is)
      (by intro j hj; rw [← hil] at hj; rw [hlen]; exact hok j hj) (by rw [hlen]; exact hr.afterList 1) hits
    rw [hlen] at k1
    cases lists_unique k1 b2
    refine k2.ok _ ?_
    obtain ⟨i1, i2, i3⟩ := hs.idle
    unfold listStep
    have ha : ∀ k : Int, args { bearing s ab lb with latest := k } = { unnamed := d.unnamed, named := d.named, tags := d.tags, subtype := d.subtype } := by
      intro k
      have := hp.bear s
      rw [List.append_nil] at this
      exact this
    rw [hp.bear, List.append_nil]
    dsimp only
    rw [reserved_get hd (by decide)]
    simp only [Bind.bind, Except.bind, listStart, hctx, ha]
    unfold Spec.allowed
    dsimp only
    rw [show (bearing s ab lb).controlBuf = none from i3]
    dsimp only
    have hnum : numbered (tokAt .LIST i.mark ln (col + i.indent.length) (parser cfg n src).src) = o := by
      unfold numbered tokAt
      dsimp only
      rw [hmark.1]
      cases o <;> rfl
    rw [hnum]
    unfold bearing
    dsimp only
    rw [i1, i2, i3]
    rfl

/-! ### Lines of documents -/

theorem items_lines_nl (it : Items) : ∀ (o : Bool) (level : Nat), it.Ok → ∀ l ∈ it.lines o level, '\n' ∉ l := by
  induction it with
  | nil => intro o level _ l hl; cases hl
  | item content rest ih =>
    intro o level h l hl
    rcases List.mem_cons.1 hl with rfl | hl
    · rw [List.mem_append, List.mem_append, not_or, not_or]
      refine ⟨⟨?_, by decide⟩, line_no_newline h.1⟩
      intro hm
      have := (List.mem_replicate.1 hm).2
      cases o <;> exact absurd this (by decide)
    · exact ih o level h.2.2.2 l hl
  | sub o' inner rest ih1 ih2 =>
    intro o level h l hl
    rcases List.mem_append.1 hl with hl | hl
    · exact ih1 _ _ h.2.1 l hl
    · exact ih2 _ _ h.2.2.2 l hl

theorem parted_mem {a b : List Str} {l : Str} (h : l ∈ parted a b) : l ∈ a ∨ l = [] ∨ l ∈ b := by
  cases b with
  | nil => exact .inl h
  | cons b bs =>
    rw [parted, List.mem_append, List.mem_cons] at h
    exact h

theorem parted_head {a b : List Str} {l : Str} {ls : List Str} (h : a = l :: ls) : ∃ r, parted a b = l :: r := by
  subst h
  cases b with
  | nil => exact ⟨_, rfl⟩
  | cons b bs => exact ⟨_, rfl⟩

/-! ### Labels and arguments -/

theorem pre_value {env : Env} {v : Str} (h : ∀ c ∈ v, c ∉ c%"\\`\n") : PreUnits env (guarding c%"\"{}" v) (escapeQuotes v) := by
  induction v with
  | nil => exact .nil
  | cons c v ih =>
    unfold guarding escapeQuotes at ih ⊢
    rw [List.flatMap_cons, List.flatMap_cons]
    refine units_append ?_ (ih fun d hd => h d (by simp [hd]))
    have hc := h c (by simp)
    by_cases hq : c = '"'
    · subst hq
      rw [if_pos (by decide), if_pos rfl]
      exact units_one (.escOther '"' (by decide))
    · rw [if_neg hq]
      by_cases hb : c = '{' ∨ c = '}'
      · have : c ∈ c%"\"{}" := by rcases hb with rfl | rfl <;> decide
        rw [if_pos this]
        exact units_one (.escBrace c hb)
      · have : c ∉ c%"\"{}" := by
          simp only [List.mem_cons, List.not_mem_nil, or_false]
          rintro (k | k)
          · exact hq k
          · exact hb k
        rw [if_neg this]
        refine units_one (.plain c ?_)
        rintro (rfl | rfl | k)
        · exact hc (by decide)
        · exact hc (by decide)
        · exact hb k

/-- The text of a value after the references are replaced. -/
theorem pre_written {env : Env} {v : Str} (h : ∀ c ∈ v, c ∉ c%"\\`\n") : PreUnits env (writeValue v) (quoted v) := by
  unfold writeValue quoted
  exact pre_append (pre_append (pre_plain (by decide)) (pre_value h)) (pre_plain (by decide))

theorem guarding_no_newline {set t : Str} (h : '\n' ∉ t) : '\n' ∉ guarding set t := by
  induction t with
  | nil => simp [guarding]
  | cons c t ih =>
    have hc : c ≠ '\n' := by rintro rfl; exact h (by simp)
    have := ih (fun hm => h (by simp [hm]))
    rw [guarding_cons, List.mem_append, not_or]
    refine ⟨?_, this⟩
    split <;> simp [Ne.symm hc]

theorem writeValue_nl {v : Str} (h : ∀ c ∈ v, c ∉ c%"\\`\n") : '\n' ∉ writeValue v := by
  have := guarding_no_newline (set := c%"\"{}") (t := v) (fun hm => h _ hm (by decide))
  simp [writeValue, this]

/-- An argument as it is written, and as it is read after the references are replaced. -/
structure Written (env : Env) (w : Str) (a : Arg) : Prop where
  reads : ∃ w', PreUnits env w w' ∧ Writes a w'
  nl : '\n' ∉ w
  last : ∃ i, w = i ++ c%"\""

theorem written_pos (env : Env) {v : Str} (h : ∀ c ∈ v, c ∉ c%"\\`\n") : Written env (writeValue v) (.pos v) :=
  ⟨⟨_, pre_written h, .posQuoted (quotable_plain fun hm => h _ hm (by decide)) (fun hm => h _ hm (by decide))⟩, writeValue_nl h, _, rfl⟩

theorem written_key (env : Env) {a : Str × Str} (h1 : a.1 ≠ []) (h2 : ∀ c ∈ a.1, c ∉ c%"\\=,\" `{}\n") (h3 : ∀ c ∈ a.2, c ∉ c%"\\`\n") (h4 : strip a.2 = a.2) :
    Written env (writeNamed a) (.key a.1 a.2) := by
  refine ⟨⟨_, pre_append (pre_append (pre_plain fun c hc hm => h2 c hc ?_) (pre_plain (s := c%"=") (by decide))) (pre_written h3),
    .keyQuoted h1 (fun c hc => ?_) (fun hm => h2 _ hm (by decide)) (quotable_plain fun hm => h3 _ hm (by decide)) (fun hm => h3 _ hm (by decide)) h4⟩, ?_, ?_⟩
  · simp only [List.mem_cons, List.not_mem_nil, or_false] at hm
    rcases hm with rfl | rfl | rfl | rfl <;> decide
  · have := h2 c hc
    simp only [List.mem_cons, List.not_mem_nil, or_false, not_or] at this
    simp [argChar, this]
  · unfold writeNamed
    rw [List.mem_append, List.mem_append, not_or, not_or]
    exact ⟨⟨fun hm => h2 _ hm (by decide), by decide⟩, writeValue_nl h3⟩
  · unfold writeNamed writeValue
    exact ⟨a.1 ++ c%"=" ++ (c%"\"" ++ guarding c%"\"{}" a.2), by simp⟩

/-- The arguments, joined. -/
theorem written_all (env : Env) : ∀ {ws : List Str} {as : List Arg}, ws.length = as.length → (∀ x ∈ ws.zip as, Written env x.1 x.2) → ws ≠ [] →
    (∃ w', PreUnits env (joinWith c%", " ws) w' ∧ WritesAll as w') ∧ '\n' ∉ joinWith c%", " ws ∧ ∃ i, joinWith c%", " ws = i ++ c%"\""
  | [], _, _, _, hne => absurd rfl hne
  | [w], [a], _, h, _ => by
    obtain ⟨⟨w', h1, h2⟩, h3, h4⟩ := h (w, a) (by simp)
    exact ⟨⟨w', h1, .one h2⟩, h3, h4⟩
  | w :: x :: ws, a :: b :: as, hl, h, _ => by
    obtain ⟨⟨w', h1, h2⟩, h3, -⟩ := h (w, a) (by simp)
    obtain ⟨⟨r', k1, k2⟩, k3, i, k4⟩ := written_all env (ws := x :: ws) (as := b :: as) (by simpa using hl) (fun y hy => h y (by
      rw [List.zip_cons_cons]; exact List.mem_cons_of_mem _ hy)) (by simp)
    rw [joinWith_cons_of_ne (by simp)]
    refine ⟨⟨w' ++ c%", " ++ r', pre_append (pre_append h1 (pre_plain (by decide))) k1, ?_⟩, ?_, ?_⟩
    · have := WritesAll.cons (sp := c%" ") h2 (by intro c hc; simpa using hc) k2
      simpa using this
    · rw [List.mem_append, List.mem_append, not_or, not_or]
      exact ⟨⟨h3, by decide⟩, k3⟩
    · exact ⟨w ++ c%", " ++ i, by rw [k4]; simp⟩

/-- The arguments that are written. -/
def writtenArgs (unnamed : List Str) (named : List (Str × Str)) : List Arg := unnamed.map Arg.pos ++ named.map fun kv => Arg.key kv.1 kv.2

theorem writtenArgs_pos (unnamed : List Str) (named : List (Str × Str)) : positional (writtenArgs unnamed named) = unnamed := by
  unfold writtenArgs
  induction unnamed with
  | nil =>
    induction named with
    | nil => rfl
    | cons x xs ih => exact ih
  | cons x xs ih => exact congrArg (x :: ·) ih

theorem writtenArgs_key (unnamed : List Str) (named : List (Str × Str)) : keyed (writtenArgs unnamed named) = named := by
  unfold writtenArgs
  induction unnamed with
  | nil =>
    induction named with
    | nil => rfl
    | cons x xs ih => exact congrArg (x :: ·) ih
  | cons x xs ih => exact ih

/-- What the arguments in front of a part and those of the part itself have in common. -/
structure ArgsWritable (unnamed : List Str) (named : List (Str × Str)) : Prop where
  names : (named.map (·.1)).Nodup
  name : ∀ a ∈ named, a.1 ≠ [] ∧ ∀ c ∈ a.1, c ∉ c%"\\=,\" `{}\n"
  values : ∀ v ∈ unnamed ++ named.map (·.2), ∀ c ∈ v, c ∉ c%"\\`\n"
  strip : ∀ a ∈ named, strip a.2 = a.2

/-- The arguments of the part itself: none, the engine `raw`, the engine `source` with a language, or those of an image. -/
def More (more : List (Str × Str)) : Prop :=
  more = [] ∨ more = [(c%"engine", c%"raw")] ∨
    (∃ language, more = [(c%"engine", c%"source"), (c%"language", language)] ∧ strip language = language ∧ ∀ c ∈ language, c ∉ c%"\\`\n") ∨
    ∃ uri alt classes, more = imageArgs uri alt classes ∧
      ∀ v ∈ uri :: alt.toList ++ [joinWith c%"," classes], strip v = v ∧ ∀ c ∈ v, c ∉ c%"\\`\n"

theorem more_facts {more : List (Str × Str)} (hm : More more) : (more.map (·.1)).Nodup ∧
    ∀ a ∈ more, a.1 ∈ reservedNames ∧ a.1 ≠ [] ∧ (∀ c ∈ a.1, c ∉ c%"\\=,\" `{}\n") ∧ (∀ c ∈ a.2, c ∉ c%"\\`\n") ∧ strip a.2 = a.2 := by
  rcases hm with rfl | rfl | ⟨language, rfl, h1, h2⟩ | ⟨uri, alt, classes, rfl, h⟩
  · exact ⟨.nil, fun a ha => nomatch ha⟩
  · refine ⟨by decide, fun a ha => ?_⟩
    rw [List.mem_singleton.1 ha]
    decide
  · refine ⟨by simp, fun a ha => ?_⟩
    rcases List.mem_cons.1 ha with rfl | ha
    · decide
    · rw [List.mem_singleton.1 ha]
      exact ⟨by simp [reservedNames], by simp, by simp, h2, h1⟩
  · unfold imageArgs
    refine ⟨?_, fun a ha => ?_⟩
    · cases alt <;> (split <;> simp)
    · rcases List.mem_append.1 ha with ha | ha
      · rcases List.mem_cons.1 ha with rfl | ha
        · obtain ⟨h1, h2⟩ := h uri (by simp)
          exact ⟨by simp [reservedNames], by simp, by simp, h2, h1⟩
        · obtain ⟨x, hx, rfl⟩ := List.mem_map.1 ha
          obtain ⟨h1, h2⟩ := h x (by rw [List.mem_append]; exact .inl (.tail _ hx))
          exact ⟨by simp [reservedNames], by simp, by simp, h2, h1⟩
      · split at ha
        · cases ha
        · rw [List.mem_singleton.1 ha]
          obtain ⟨h1, h2⟩ := h _ (by rw [List.mem_append]; exact .inr (.head _))
          exact ⟨by simp [reservedNames], by simp, by simp, h2, h1⟩

theorem argsWritable {d : Deco} (h : d.Ok) {more : List (Str × Str)} (hm : More more) : ArgsWritable d.positional (d.named ++ more) := by
  have hv : ∀ v ∈ d.positional, ∀ c ∈ v, c ∉ c%"\\`\n" := by
    intro v hv c hc
    unfold Deco.positional at hv
    rcases List.mem_append.1 hv with hv | hv
    · rcases List.mem_append.1 hv with hv | hv
      · exact h.values v (by simp [hv]) c hc
      · obtain ⟨t, ht, rfl⟩ := List.mem_map.1 hv
        rcases List.mem_cons.1 hc with rfl | hc
        · decide
        · exact h.values t (by simp [ht]) c hc
    · obtain ⟨t, ht, rfl⟩ := List.mem_map.1 hv
      rcases List.mem_cons.1 hc with rfl | hc
      · decide
      · exact h.values t (List.mem_append_left _ (List.mem_append_right _ ht)) c hc
  have hn : ∀ v ∈ d.named.map (·.2), ∀ c ∈ v, c ∉ c%"\\`\n" := fun v hv => h.values v (List.mem_append_right _ hv)
  obtain ⟨m1, m2⟩ := more_facts hm
  refine ⟨?_, ?_, ?_, ?_⟩
  · rw [List.map_append, List.nodup_append]
    refine ⟨h.names, m1, ?_⟩
    rintro a ha b hb rfl
    obtain ⟨x, hx, rfl⟩ := List.mem_map.1 hb
    exact reserved_absent h (m2 x hx).1 ha
  · intro a ha
    rcases List.mem_append.1 ha with ha | ha
    · exact ⟨(h.name a ha).1, (h.name a ha).2.2⟩
    · exact ⟨(m2 a ha).2.1, (m2 a ha).2.2.1⟩
  · intro v hv'
    rw [List.map_append, ← List.append_assoc] at hv'
    rcases List.mem_append.1 hv' with hv' | hv'
    · exact (List.mem_append.1 hv').elim (hv v) (hn v)
    · obtain ⟨x, hx, rfl⟩ := List.mem_map.1 hv'
      exact (m2 x hx).2.2.2.1
  · intro a ha
    rcases List.mem_append.1 ha with ha | ha
    · exact h.strip a ha
    · exact (m2 a ha).2.2.2.2

theorem argsWritable_written (env : Env) {us : List Str} {ns : List (Str × Str)} (h : ArgsWritable us ns) :
    (us.map writeValue ++ ns.map writeNamed).length = (writtenArgs us ns).length ∧
    ∀ x ∈ (us.map writeValue ++ ns.map writeNamed).zip (writtenArgs us ns), Written env x.1 x.2 := by
  refine ⟨by simp [writtenArgs], ?_⟩
  intro x hx
  unfold writtenArgs at hx
  rw [List.zip_append (by simp), List.mem_append] at hx
  rcases hx with hx | hx
  · rw [List.zip_map, List.mem_map] at hx
    obtain ⟨⟨u, v⟩, hz, rfl⟩ := hx
    obtain ⟨hu, hv, e⟩ : u ∈ us ∧ v ∈ us ∧ u = v := by
      have h1 := List.of_mem_zip hz
      refine ⟨h1.1, h1.2, ?_⟩
      clear h1 h
      induction us with
      | nil => cases hz
      | cons a us ih =>
        rw [List.zip_cons_cons, List.mem_cons] at hz
        rcases hz with hz | hz
        · cases hz; rfl
        · exact ih hz
    subst e
    exact written_pos env (h.values u (List.mem_append_left _ hu))
  · rw [List.zip_map, List.mem_map] at hx
    obtain ⟨⟨u, v⟩, hz, rfl⟩ := hx
    obtain ⟨hu, hv, e⟩ : u ∈ ns ∧ v ∈ ns ∧ u = v := by
      have h1 := List.of_mem_zip hz
      refine ⟨h1.1, h1.2, ?_⟩
      clear h1 h
      induction ns with
      | nil => cases hz
      | cons a us ih =>
        rw [List.zip_cons_cons, List.mem_cons] at hz
        rcases hz with hz | hz
        · cases hz; rfl
        · exact ih hz
    subst e
    exact written_key env (h.name u hu).1 (h.name u hu).2 (h.values u.2 (List.mem_append_right _ (List.mem_map.2 ⟨u, hu, rfl⟩))) (h.strip u hu)

theorem filter_marked {p : Str → Bool} {c : Char} {vs : List Str} {b : Bool} (h : ∀ t, p (c :: t) = b) : (vs.map (c :: ·)).filter p = if b then vs.map (c :: ·) else [] := by
  induction vs with
  | nil => cases b <;> rfl
  | cons v vs ih =>
    rw [List.map_cons, List.filter_cons, h, ih]
    cases b <;> rfl

/-- What is read from the arguments without a name: themselves, tags and the subtype. -/
theorem positional_marks {d : Deco} (h : d.Ok) :
    d.positional.filter (fun v => v.head? ≠ some '#' && v.head? ≠ some '*' && v.head? ≠ some '@') = d.unnamed ∧ marked '#' d.positional = d.tags ∧
      marked '*' d.positional = d.subtype.toList ∧ marked '@' d.positional = [] := by
  have hf : ∀ c ∈ c%"#*@", ∀ v ∈ d.unnamed, v.head? ≠ some c := fun c hc v hv => h.first v hv c hc
  have none : ∀ c ∈ c%"#*@", d.unnamed.filter (fun v => decide (v.head? = some c)) = [] := by
    intro c hc
    rw [List.filter_eq_nil_iff]
    intro v hv
    simpa using hf c hc v hv
  have tl : ∀ (c : Char) (vs : List Str), (vs.map (c :: ·)).map List.tail = vs := by
    intro c vs
    rw [List.map_map]
    exact List.map_id' vs
  unfold Deco.positional marked
  refine ⟨?_, ?_, ?_, ?_⟩
  · rw [List.filter_append, List.filter_append, filter_marked (b := false) (by simp), filter_marked (b := false) (by simp)]
    simp only [Bool.false_eq_true, if_false, List.append_nil]
    rw [List.filter_eq_self]
    intro v hv
    simp [hf '#' (by decide) v hv, hf '*' (by decide) v hv, hf '@' (by decide) v hv]
  · rw [List.filter_append, List.filter_append, none '#' (by decide), filter_marked (b := true) (by simp), filter_marked (b := false) (by simp)]
    simp [tl]
  · rw [List.filter_append, List.filter_append, none '*' (by decide), filter_marked (b := false) (by simp), filter_marked (b := true) (by simp)]
    simp [tl]
  · rw [List.filter_append, List.filter_append, none '@' (by decide), filter_marked (b := false) (by simp), filter_marked (b := false) (by simp)]
    simp

/-- The line of the arguments is read. -/
theorem args_read (cfg : Config) (src : Option Str) {d : Deco} (hd : d.Ok) {ns : List (Str × Str)} (h : ArgsWritable d.positional ns) (s : DocSt) (hs : s.argsBuf = none) (ln col : Nat) :
    ∃ ab ln' col', ab.getD {} = { unnamed := d.unnamed, named := ns, tags := d.tags, subtype := d.subtype } ∧
      ∀ n rest, (parser cfg n src).run ln col (writeArgs d.positional ns ++ rest) s = (parser cfg n src).run ln' col' rest { s with argsBuf := ab } := by
  obtain ⟨hl, hw⟩ := argsWritable_written s.env h
  obtain ⟨m1, m2, m3, m4⟩ := positional_marks hd
  have hmem : ∀ v ∈ d.positional, (v.head? = some '#' → v.tail ∈ d.tags) ∧ (v.head? = some '*' → v.tail ∈ d.subtype.toList) := by
    intro v hv
    constructor
    · intro e
      rw [← m2]
      exact List.mem_map.2 ⟨v, List.mem_filter.2 ⟨hv, by simpa using e⟩, rfl⟩
    · intro e
      rw [← m3]
      exact List.mem_map.2 ⟨v, List.mem_filter.2 ⟨hv, by simpa using e⟩, rfl⟩
  generalize hus : d.positional = us at hl hw h m1 m2 m3 m4 hmem
  unfold writeArgs
  cases hws : us.map writeValue ++ ns.map writeNamed with
  | nil =>
    obtain ⟨e1, e2⟩ := List.append_eq_nil_iff.1 hws
    rw [List.map_eq_nil_iff] at e1 e2
    subst e1 e2
    refine ⟨none, ln, col, ?_, fun n rest => ?_⟩
    · have k1 : d.unnamed = [] := m1.symm
      have k2 : d.tags = [] := m2.symm
      have k3 : d.subtype = Option.none := by
        have : d.subtype.toList = [] := m3.symm
        cases hx : d.subtype with
        | none => rfl
        | some x => rw [hx] at this; cases this
      rw [k1, k2, k3]
      rfl
    · rw [← hs]
      rfl
  | cons w ws =>
    rw [hws] at hl hw
    obtain ⟨⟨w', k1, k2⟩, k3, i, k4⟩ := written_all s.env hl hw (by simp)
    refine ⟨some { unnamed := d.unnamed, named := ns, tags := d.tags, subtype := d.subtype }, ln + 1, 0, rfl, fun n rest => ?_⟩
    have hrep : Replaced s.env (joinWith c%", " (w :: ws)) w' := by
      intro l c sr
      refine C17_pieces _ _ _ k1 k3 (not_spacesAfterSpecial ?_) l c sr
      rw [k4]; simp
    dsimp only
    rw [List.cons_append, List.nil_append]
    refine (reads_arguments (P := parser cfg n src)).ok _ ?_
    obtain ⟨tok, h1, h2⟩ := map_ok (hrep ln (col + 1) src)
    obtain ⟨p, h3, q1, q2, q3, q4, q5⟩ := C24_text s.env _ _ k2 ⟨us, ns, rfl⟩ (by rw [writtenArgs_key]; exact h.names)
      (by
        rw [writtenArgs_pos]
        intro v hv e
        have := (hd.tag _ ((hmem v hv).1 e)).1
        exact ⟨this _ (by decide), this _ (by decide)⟩)
      (by
        rw [writtenArgs_pos, m3]
        cases d.subtype <;> simp)
      (by rw [writtenArgs_pos, m4])
      (by
        rw [writtenArgs_pos]
        intro v hv e
        exact hd.sub _ (by simpa using (hmem v hv).2 e)) ln (col + 1) src
    rw [writtenArgs_pos] at q1 q3 q4 q5
    rw [writtenArgs_key] at q2
    rw [m1] at q1
    rw [m2] at q3 q4
    rw [m3] at q5
    rw [List.filter_eq_self.2 (fun t ht => by simp [(hd.tag t ht).2])] at q3
    rw [List.filter_eq_nil_iff.2 (fun t ht => by simp [(hd.tag t ht).2]), List.map_eq_nil_iff] at q4
    have q6 : p.arguments = { unnamed := d.unnamed, named := ns, tags := d.tags, subtype := d.subtype } := by
      cases hp : p.arguments with
      | mk a b c e f =>
        rw [hp] at q1 q2 q3 q4 q5
        dsimp only at q1 q2 q3 q4 q5
        subst q1 q2 q3 q4 q5
        congr 1
        cases d.subtype <;> rfl
    unfold argumentsStep processArgumentsWithVariables
    dsimp only [tokAt]
    rw [show (parser cfg n src).src = src from rfl, h1]
    dsimp only [Bind.bind, Except.bind]
    rw [← h2, h3]
    dsimp only [pure, Except.pure]
    rw [q6]

theorem label_line {l : Str × Rich} (h1 : ∀ c ∈ l.1, isRoleChar c = true) (h2 : l.2.Ok true none) (h3 : l.2 ≠ .nil) :
    SpecialLine (writeLabel l) [.tok .LABEL ('.' :: l.1), .skip c%" ", .tok .TEXT l.2.line] := by
  obtain ⟨c, r, e, hc⟩ := line_head h2 h3
  refine ⟨.label l.1 c%" " l.2.line h1 (by unfold Spaces; decide) ?_ ?_, ?_, ?_⟩
  · intro x y hxy
    rw [e] at hxy
    cases hxy
    simp only [beq_eq_false_iff_ne]
    rintro rfl
    exact hc (by decide)
  · intro x y hxy
    cases hxy
    decide
  · intro hs
    exact absurd (hs '.' (by simp [writeLabel])) (by decide)
  · intro ch hch
    have a1 : '.' ∈ [ch, ch, ch, ch] := by rw [← hch]; simp [writeLabel]
    have a2 : ' ' ∈ [ch, ch, ch, ch] := by rw [← hch]; simp [writeLabel]
    simp at a1 a2
    exact absurd (a1.trans a2.symm) (by decide)

theorem toldLabels_append (a b : List (Str × Node)) : toldLabels (a ++ b) = toldLabels a ++ toldLabels b := by
  induction a with
  | nil => rfl
  | cons x a ih => simp only [List.cons_append, toldLabels, ih]

theorem tameLabels_append {L : Nat → Nat} {u : Nat} (a b : List (Str × Node)) : TameLabels L u (a ++ b) ↔ TameLabels L u a ∧ TameLabels L u b := by
  induction a with
  | nil => simp [TameLabels]
  | cons x a ih => simp only [List.cons_append, TameLabels, ih, and_assoc]

/-- The lines of labels are read. -/
theorem labels_read (cfg : Config) (src : Option Str) (L : Nat → Nat) (u : Nat) (ls : List (Str × Rich)) : ∀ (s : DocSt) (ln col : Nat),
    (∀ l ∈ ls, (l.1 ≠ [] ∧ ∀ c ∈ l.1, isRoleChar c = true) ∧ l.2.Ok true none ∧ l.2 ≠ .nil ∧ l.2.line.getLast? ≠ some ' ') →
    (Dict.keys s.labelBuf ++ ls.map (·.1)).Nodup →
    ∃ N lb ln' col', TameLabels L u lb ∧ toldLabels lb = (ls.map fun l => (l.1, node (.label l.1) l.2.nodes)) ∧
      ∀ n ≥ N, ∀ rest, (parser cfg n src).run ln col (ls.map writeLabel ++ rest) s = (parser cfg n src).run ln' col' rest { s with labelBuf := s.labelBuf ++ lb } := by
  induction ls with
  | nil =>
    intro s ln col _ _
    refine ⟨0, [], ln, col, trivial, rfl, fun n _ rest => ?_⟩
    rw [List.append_nil]
    rfl
  | cons l ls ih =>
    intro s ln col h hd
    obtain ⟨⟨hr, h1⟩, h2, h3, h4⟩ := h l (by simp)
    obtain ⟨N, ms, a1, hN⟩ := Rich.inlined h2 h3 h4 s (at_ src ln (col + 1 + l.1.length + c%" ".length) l.2.line.length)
    have hnew : l.1 ∉ Dict.keys s.labelBuf := by
      intro hm
      have := (List.nodup_append.1 hd).2.2 l.1 hm l.1 (by simp)
      exact this rfl
    let nd := Node.new (.label l.1) Context.empty ms
    obtain ⟨M, lb, ln', col', b1, b2, hM⟩ := ih { s with labelBuf := s.labelBuf ++ [(l.1, nd)] } (ln + 1) 0 (fun x hx => h x (by simp [hx])) (by
      simpa [Dict.keys] using hd)
    refine ⟨max N M, (l.1, nd) :: lb, ln', col', ⟨⟨trivial, tameAll_anon _ (by rw [a1]; exact rich_tame L u l.2), trivial, rfl⟩, b1⟩, ?_, fun n hn rest => ?_⟩
    · have : toldList ms = l.2.nodes := by rw [← toldList_anon, a1, rich_told]
      simp only [toldLabels, b2, nd, Node.new, Node.told, NodeData.told, this, List.map_cons, node]
    · have e2 := hM n (by omega) rest
      rw [List.map_cons, List.cons_append]
      refine ((reads_label (P := parser cfg n src) (label_line h1 h2 h3)).ok { s with labelBuf := s.labelBuf ++ [(l.1, nd)] } ?_).trans ?_
      · unfold Parser.labelStep
        rw [show (parser cfg n src).src = src from rfl, hN (parser cfg n src) (by exact Nat.le_trans (Nat.le_max_left _ _) hn)]
        dsimp only [Bind.bind, Except.bind]
        rw [if_neg hr, Dict.set_of_not_mem hnew]
        rfl
      · rw [e2]
        simp only [List.append_assoc, List.cons_append, List.nil_append]

/-- The lines in front of a part are read. -/
theorem deco_read (cfg : Config) (src : Option Str) {L : Nat → Nat} {s : DocSt} (hs : Neat Q L s) {d : Deco} (hd : d.Ok) {more : List (Str × Str)} (hm : More more)
    (ln col : Nat) : ∃ N ab lb ln' col', Pend L s.uid d more ab lb ∧
      ∀ n ≥ N, ∀ rest, (parser cfg n src).run ln col (d.lines more ++ rest) s = (parser cfg n src).run ln' col' rest (bearing s ab lb) := by
  obtain ⟨i1, i2, i3⟩ := hs.idle
  obtain ⟨N, lb, ln1, col1, a1, a2, hN⟩ := labels_read cfg src L s.uid d.labels s ln col (fun l hl => ⟨hd.role l hl, hd.text l hl⟩) (by
    rw [i2]; exact hd.roles)
  obtain ⟨ab, ln2, col2, b1, hM⟩ := args_read cfg src hd (argsWritable hd hm) { s with labelBuf := s.labelBuf ++ lb } i1 ln1 col1
  refine ⟨N, ab, lb, ln2, col2, ⟨b1, a1, a2⟩, fun n hn rest => ?_⟩
  rw [Deco.lines, List.append_assoc, hN n hn, hM]
  unfold bearing
  dsimp only
  rw [i2, List.nil_append]

theorem deco_lines_nl {d : Deco} (hd : d.Ok) {more : List (Str × Str)} (hm : More more) : ∀ l ∈ d.lines more, '\n' ∉ l := by
  intro l hl
  unfold Deco.lines at hl
  rcases List.mem_append.1 hl with hl | hl
  · obtain ⟨x, hx, rfl⟩ := List.mem_map.1 hl
    unfold writeLabel
    have h1 := line_no_newline (hd.text x hx).1
    have h2 : '\n' ∉ x.1 := by
      intro hn
      exact absurd ((hd.role x hx).2 _ hn) (by decide)
    simp [h1, h2]
  · obtain ⟨h1, h2⟩ := argsWritable_written [] (argsWritable hd hm)
    unfold writeArgs at hl
    cases hws : d.positional.map writeValue ++ (d.named ++ more).map writeNamed with
    | nil => rw [hws] at hl; cases hl
    | cons w ws =>
      rw [hws] at hl h1 h2
      have := (written_all [] h1 h2 (by simp)).2.1
      rw [List.mem_singleton.1 hl]
      simp [this]

/-- No line in front of a part is empty. -/
theorem deco_lines_ne {d : Deco} {more : List (Str × Str)} : ∀ l ∈ d.lines more, l ≠ [] := by
  intro l hl
  unfold Deco.lines at hl
  rcases List.mem_append.1 hl with hl | hl
  · obtain ⟨x, hx, rfl⟩ := List.mem_map.1 hl
    simp [writeLabel]
  · unfold writeArgs at hl
    split at hl
    · cases hl
    · rw [List.mem_singleton.1 hl]; simp

theorem code_line_nl {c : Code} (h : c.Ok) : '\n' ∉ c.line := by
  unfold Code.line
  cases hm : c.marker with
  | some m =>
    have := (h.marker m hm).2.2.1
    simp [h.text, this]
  | none =>
    cases hs : c.style with
    | some s =>
      have := (h.style s hs).2.2.1
      simp [h.text, this]
    | none =>
      dsimp only
      split <;> simp [h.text]

theorem mark_nl {mark : Char} (h : mark ∉ c%"/ \n") : '\n' ∉ [mark, mark, mark, mark] := by
  intro hx
  simp at hx
  exact h (by rw [← hx]; decide)

theorem doc_lines_nl (d : Doc) : d.Ok → ∀ l ∈ d.lines, '\n' ∉ l := by
  induction d with
  | nil => intro _ l hl; cases hl
  | paragraph deco ls rest ih =>
    intro h l hl
    rcases parted_mem hl with hl | rfl | hl
    · rcases List.mem_append.1 hl with hl | hl
      · exact deco_lines_nl h.1 (.inl rfl) l hl
      · obtain ⟨x, hx, rfl⟩ := List.mem_map.1 hl
        exact line_no_newline (h.2.2.1 x hx).ok
    · simp
    · exact ih h.2.2.2 l hl
  | header deco level t rest ih =>
    intro h l hl
    rcases parted_mem hl with hl | rfl | hl
    · rcases List.mem_append.1 hl with hl | hl
      · exact deco_lines_nl h.1 (.inl rfl) l hl
      · rw [List.mem_singleton.1 hl, List.mem_append, List.mem_append, not_or, not_or]
        refine ⟨⟨?_, by decide⟩, line_no_newline h.2.2.1⟩
        intro hm
        exact absurd (List.mem_replicate.1 hm).2 (by decide)
    · simp
    · exact ih h.2.2.2.2.2 l hl
  | comment text rest ih =>
    intro h l hl
    rcases parted_mem hl with hl | rfl | hl
    · rw [List.mem_singleton.1 hl, List.mem_append, not_or]
      exact ⟨by decide, h.1.2⟩
    · simp
    · exact ih h.2 l hl
  | comments ls rest ih =>
    intro h l hl
    rcases parted_mem hl with hl | rfl | hl
    · rcases List.mem_cons.1 hl with rfl | hl
      · decide
      · rcases List.mem_append.1 hl with hl | hl
        · exact h.1.2 l hl
        · rw [List.mem_singleton.1 hl]; decide
    · simp
    · exact ih h.2 l hl
  | rule deco rest ih =>
    intro h l hl
    rcases parted_mem hl with hl | rfl | hl
    · rcases List.mem_append.1 hl with hl | hl
      · exact deco_lines_nl h.1 (.inl rfl) l hl
      · rw [List.mem_singleton.1 hl]; decide
    · simp
    · exact ih h.2 l hl
  | list deco o items rest ih =>
    intro h l hl
    rcases parted_mem hl with hl | rfl | hl
    · rcases List.mem_append.1 hl with hl | hl
      · exact deco_lines_nl h.1 (.inl rfl) l hl
      · exact items_lines_nl items o 1 h.2.2.1 l hl
    · simp
    · exact ih h.2.2.2 l hl
  | block deco mark inner rest ih1 ih2 =>
    intro h l hl
    obtain ⟨h0, h1, h2, h3, h4⟩ := h
    rcases parted_mem hl with hl | rfl | hl
    · rcases List.mem_append.1 hl with hl | hl
      · exact deco_lines_nl h0 (.inl rfl) l hl
      · rcases List.mem_cons.1 hl with rfl | hl
        · exact mark_nl h1
        · rcases List.mem_append.1 hl with hl | hl
          · exact ih1 h3 l hl
          · rw [List.mem_singleton.1 hl]; exact mark_nl h1
    · simp
    · exact ih2 h4 l hl
  | raw deco mark ls rest ih =>
    intro h l hl
    obtain ⟨h0, h1, h2, h3, h4, h5⟩ := h
    rcases parted_mem hl with hl | rfl | hl
    · rcases List.mem_append.1 hl with hl | hl
      · exact deco_lines_nl h0 (.inr (.inl rfl)) l hl
      · rcases List.mem_cons.1 hl with rfl | hl
        · exact mark_nl h1
        · rcases List.mem_append.1 hl with hl | hl
          · exact h4 l hl
          · rw [List.mem_singleton.1 hl]; exact mark_nl h1
    · simp
    · exact ih h5 l hl
  | code deco mark language ls rest ih =>
    intro h l hl
    obtain ⟨h0, h1, h2, h3, h4, h5, h6⟩ := h
    rcases parted_mem hl with hl | rfl | hl
    · rcases List.mem_append.1 hl with hl | hl
      · exact deco_lines_nl h0 (.inr (.inr (.inl ⟨_, rfl, h2⟩))) l hl
      · rcases List.mem_cons.1 hl with rfl | hl
        · exact mark_nl h1
        · rcases List.mem_append.1 hl with hl | hl
          · obtain ⟨c, hc, rfl⟩ := List.mem_map.1 hl
            exact code_line_nl (h5 c hc)
          · rw [List.mem_singleton.1 hl]; exact mark_nl h1
    · simp
    · exact ih h6 l hl
  | image deco uri alt classes rest ih =>
    intro h l hl
    obtain ⟨h0, h1, h2, h3, h4, h5⟩ := h
    rcases parted_mem hl with hl | rfl | hl
    · rcases List.mem_append.1 hl with hl | hl
      · exact deco_lines_nl h0 (.inr (.inr (.inr ⟨_, _, _, rfl, h2⟩))) l hl
      · rw [List.mem_singleton.1 hl]; decide
    · simp
    · exact ih h5 l hl

theorem deco_head {d : Deco} {more : List (Str × Str)} {c : Char} {l : Str} {ls b : List Str} :
    ∃ c' l' ls', parted (d.lines more ++ (c :: l) :: ls) b = (c' :: l') :: ls' := by
  have key : ∃ c' l' ls', d.lines more ++ (c :: l) :: ls = (c' :: l') :: ls' := by
    cases hd : d.lines more with
    | nil => exact ⟨c, l, ls, rfl⟩
    | cons x xs =>
      have := deco_lines_ne (d := d) (more := more) x (by rw [hd]; simp)
      cases x with
      | nil => exact absurd rfl this
      | cons y x => exact ⟨y, x, _, rfl⟩
  obtain ⟨c', l', ls', e⟩ := key
  obtain ⟨r, hr⟩ := parted_head (b := b) e
  exact ⟨c', l', r, hr⟩

theorem doc_lines_head {d : Doc} (h : d.Ok) (hne : d ≠ .nil) : ∃ c l ls, d.lines = (c :: l) :: ls := by
  cases d with
  | nil => exact absurd rfl hne
  | paragraph deco ls rest =>
    obtain ⟨-, h1, h2, -⟩ := h
    cases ls with
    | nil => exact absurd rfl h1
    | cons x ls =>
      obtain ⟨c, r, e, -⟩ := line_head (h2 x (by simp)).ok (h2 x (by simp)).nonempty
      rw [Doc.lines, List.map_cons, e]
      exact deco_head
  | header deco level t rest =>
    obtain ⟨m, rfl⟩ : ∃ m, level = m + 1 := ⟨level - 1, by have := h.2.1; omega⟩
    exact deco_head (c := '=') (l := List.replicate m '=' ++ c%" " ++ t.line)
  | rule deco rest => exact deco_head
  | comment text rest => exact ⟨'/', _, parted_head (b := rest.lines) rfl⟩
  | comments ls rest => exact ⟨'/', _, parted_head (b := rest.lines) rfl⟩
  | list deco o items rest =>
    obtain ⟨-, h1, -, -⟩ := h
    cases items with
    | item content rest' => exact deco_head (c := listSign o) (l := c%" " ++ content.line)
    | nil => cases h1
    | sub => cases h1
  | block deco mark inner rest => exact deco_head
  | raw deco mark ls rest => exact deco_head
  | code deco mark language ls rest => exact deco_head
  | image deco uri alt classes rest => exact deco_head

/-! ### Blocks and documents -/

/-- A document is read. -/
def DocRead (Q : Prop) (cfg : Config) (d : Doc) : Prop :=
  ∀ (src : Option Str) (L : Nat → Nat) (s : DocSt) (ln col : Nat), Neat Q L s →
    ∃ N L' s' ns, Neat Q L' s' ∧ (∀ i, i < s.uid → L' i = L i) ∧ s.uid ≤ s'.uid ∧ s'.nodes = s.nodes ++ ns ∧ toldList ns = d.tree ∧
      ∀ n ≥ N, (parser cfg n src).run ln col d.lines s = .ok (start s')

theorem neat_start {L : Nat → Nat} {s : DocSt} (h : Neat Q L s) : Neat Q L (start s) :=
  ⟨h.idle, h.footnotes, h.others, h.uid, h.ready, h.usual, h.styles, h.headers, h.nodes, h.objs⟩

/-- The document of a text that is read. -/
theorem doc_parsed (cfg : Config) {d : Doc} (hd : d.Ok) (hne : d ≠ .nil) (h : DocRead Q cfg d) {L : Nat → Nat} {req : NestedReq} (ht : req.text = d.source)
    (hn : Neat Q L (initial req)) :
    ∃ N L' s', Neat Q L' s' ∧ (∀ i, i < req.uid → L' i = L i) ∧ req.uid ≤ s'.uid ∧ toldList s'.nodes = d.tree ∧
      ∀ n ≥ N, ∃ x, parseDocument cfg n req = .ok x ∧ start x = s' := by
  obtain ⟨N, L', s', ns, n1, n2, n3, n4, n5, hN⟩ := h req.source L (initial req) req.startLine req.startColumn hn
  obtain ⟨s2, f1, f2, f3, f4⟩ := neat_finalise cfg (neat_start n1)
  refine ⟨N + 1, L', s2, f2, n2, by rw [f3]; exact n3, ?_, fun fuel hf => ?_⟩
  · rw [f4]
    change toldList s'.nodes = _
    rw [n4]
    exact n5
  · obtain ⟨n, rfl⟩ : ∃ n, fuel = n + 1 := ⟨fuel - 1, by omega⟩
    have hl : d.lines ≠ [] := by
      obtain ⟨c, l, ls, e⟩ := doc_lines_head hd hne
      rw [e]; simp
    have e := parseDocument_run cfg n req (parserObjects_ok.2 hn.usual)
    rw [ht, Doc.source, splitChar_lines hl (doc_lines_nl d hd), hN n (by omega)] at e
    change _ = finalise cfg (start s') at e
    rw [f1] at e
    obtain ⟨x, h1, h2⟩ := map_ok e
    exact ⟨x, h1, h2.symm⟩

theorem adds_block (cfg : Config) (src : Option Str) {L : Nat → Nat} {s : DocSt} (hs : Neat Q L s) {d : Deco} (hd : d.Ok) {ab : Option NodeArgs} {lb : Dict Node}
    (hp : Pend L s.uid d [] ab lb) (ln col : Nat) {mark : Char} (hm : mark ∉ c%"/ \n") {inner : Doc}
    (hc : [mark, mark, mark, mark] ∉ inner.lines) (h : inner.Ok) (hr : DocRead Q cfg inner) :
    Adds Q cfg src L s (bearing s ab lb) ln col ([mark, mark, mark, mark] :: (inner.lines ++ [[mark, mark, mark, mark]])) [d.node (.block []) inner.tree] := by
  have m1 : mark ≠ '/' := by rintro rfl; exact hm (by decide)
  have m2 : mark ≠ ' ' := by rintro rfl; exact hm (by decide)
  let ctx : Context := (at_ src ln col 4).merge (at_ src (ln + inner.lines.length + 1) 0 4)
  obtain ⟨i1, i2, i3⟩ := hs.idle
  have ha : args (bearing s ab lb) = { unnamed := d.unnamed, named := d.named, tags := d.tags, subtype := d.subtype } := by
    have := hp.bear s
    rwa [List.append_nil] at this
  have e1 : Dict.erase d.named c%"classes" = d.named := erase_absent (reserved_absent hd (by decide))
  have e2 : Dict.erase d.named c%"engine" = d.named := erase_absent (reserved_absent hd (by decide))
  have g1 : Dict.get? d.named c%"classes" = none := reserved_get hd (by decide)
  have g2 : Dict.get? d.named c%"engine" = none := reserved_get hd (by decide)
  have g3 : Dict.get? d.named c%"isolate" = none := reserved_get hd (by decide)
  have g4 : Dict.get? d.named c%"footnote" = none := reserved_get hd (by decide)
  have g5 : Dict.get? d.named c%"group" = none := reserved_get hd (by decide)
  have hlines : ∀ rest : List Str, ([mark, mark, mark, mark] :: (inner.lines ++ [[mark, mark, mark, mark]])) ++ rest =
      [mark, mark, mark, mark] :: (inner.lines ++ [mark, mark, mark, mark] :: rest) := by intro rest; simp
  by_cases hne : inner = .nil
  · subst hne
    let nd : Node := Node.new (.block []) ctx [] { unnamed := d.unnamed, named := d.named, tags := d.tags, subtype := d.subtype } lb
    refine ⟨0, L, { s with nodes := s.nodes ++ [nd] }, [nd], ln + ([] : List Str).length + 2,
      ⟨hs.idle, hs.footnotes, hs.others, hs.uid, hs.ready, hs.usual, hs.styles, hs.headers, (tameAll_append _ _).2 ⟨hs.nodes, ⟨trivial, trivial, hp.tame, rfl⟩, trivial⟩, hs.objs⟩,
      fun _ _ => rfl, Nat.le_refl _, rfl, ?_, fun n _ rest hrest => ?_⟩
    · simp only [nd, toldList, Node.new, Deco.node, Node.told, NodeData.told, hp.told, Doc.tree]
    rw [hlines]
    refine (reads_block (clean_parser cfg n src) m1 m2 hc).ok _ ?_
    unfold Parser.blockStep
    rw [ha]
    simp only [Doc.lines, Bind.bind, Except.bind, contentTok, if_true, Option.filter, e1, e2, g1, g2, Option.getD, classesOf]
    unfold Parser.engineStep
    rw [if_pos rfl]
    dsimp only
    unfold placeStep
    simp only [g4, g5, truthy]
    unfold Spec.allowed
    dsimp only
    unfold bearing
    dsimp only
    rw [i1, i2, i3]
    rfl
  · let req : NestedReq := ⟨inner.source, s.env, ln + 1, 0, src, [], s.uid, s.objs⟩
    have hn : Neat Q L (initial req) := by
      have hready := ready_init hs.ready.distinct
      exact ⟨⟨rfl, rfl, rfl⟩, ⟨rfl, rfl, rfl⟩, ⟨rfl, rfl, rfl, rfl⟩, hs.uid, hready, usual_same (init_ready hs.ready) hs.usual, (fun q => styles_same (init_ready hs.ready) (hs.styles q)), (by intro x hx; cases hx), trivial, hs.objs⟩
    obtain ⟨N, L', si, n1, n2, n3, n4, hN⟩ := doc_parsed cfg h hne hr (req := req) rfl hn
    let nd : Node := Node.new (.block []) ctx si.nodes { unnamed := d.unnamed, named := d.named, tags := d.tags, subtype := d.subtype } lb
    have hnc : ¬ NoContent inner.lines := by
      obtain ⟨c, l, ls, e⟩ := doc_lines_head h hne
      rw [e]
      rintro (h | h) <;> cases h
    have htame : Tame L' si.uid nd := ⟨trivial, n1.nodes, tameLabels_later n2 n3 _ hp.tame, rfl⟩
    refine ⟨N, L', { s with env := si.env, uid := si.uid, objs := si.objs, nodes := s.nodes ++ [nd] }, [nd], ln + inner.lines.length + 2,
      ⟨hs.idle, hs.footnotes, hs.others, n1.uid, n1.ready, n1.usual, n1.styles, hs.headers,
        (tameAll_append _ _).2 ⟨tameAll_later n2 n3 _ hs.nodes, htame, trivial⟩, n1.objs⟩,
      n2, n3, rfl, ?_, fun n hn' rest hrest => ?_⟩
    · simp only [nd, toldList, Node.new, Deco.node, Node.told, NodeData.told, n4, hp.told]
    · rw [hlines]
      refine (reads_block (clean_parser cfg n src) m1 m2 hc).ok _ ?_
      obtain ⟨x, hx, hst⟩ := hN n hn'
      have f1 : x.env = si.env := by rw [← hst]; rfl
      have f2 : x.uid = si.uid := by rw [← hst]; rfl
      have f3 : x.objs = si.objs := by rw [← hst]; rfl
      have f4 : x.nodes = si.nodes := by rw [← hst]; rfl
      unfold Parser.blockStep
      rw [ha, (content_token _ _ _).2 hnc]
      simp only [e1, e2, g1, g2, Option.getD, classesOf]
      unfold Parser.engineStep
      rw [if_pos rfl]
      dsimp only
      unfold Parser.contentStep
      dsimp only
      rw [show (parser cfg n src).nested = parseDocument cfg n from rfl, show (parser cfg n src).src = src from rfl]
      rw [show (bearing s ab lb).env = s.env from rfl, show (bearing s ab lb).uid = s.uid from rfl, show (bearing s ab lb).objs = s.objs from rfl]
      rw [show parseDocument cfg n ⟨joinWith ['\n'] inner.lines, s.env, ln + 1, 0, src, [], s.uid, s.objs⟩ = .ok x from hx]
      simp only [Bind.bind, Except.bind, pure, Except.pure, g3]
      unfold placeStep
      simp only [g4, g5, truthy]
      unfold Spec.allowed
      dsimp only
      simp only [reduceCtorEq, if_false]
      unfold bearing
      dsimp only
      rw [i1, i2, i3, f1, f2, f3, f4]
      rfl

theorem rawNodes_told (src : Option Str) (ls : List Str) : ∀ ln, toldList (rawNodes src ln ls) = ls.map fun l => node (.rawLine l) := by
  induction ls with
  | nil => intro ln; rfl
  | cons l ls ih => intro ln; simp only [rawNodes, toldList, ih, List.map_cons, node, Node.new, Node.told, NodeData.told, toldLabels]

theorem rawNodes_tame (L : Nat → Nat) (u : Nat) (src : Option Str) (ls : List Str) : ∀ ln, TameAll L u (rawNodes src ln ls) := by
  induction ls with
  | nil => intro ln; trivial
  | cons l ls ih => intro ln; exact ⟨⟨trivial, trivial, trivial, rfl⟩, ih _⟩

theorem adds_raw (cfg : Config) (src : Option Str) {L : Nat → Nat} {s : DocSt} (hs : Neat Q L s) {d : Deco} (hd : d.Ok) {ab : Option NodeArgs} {lb : Dict Node}
    (hp : Pend L s.uid d [(c%"engine", c%"raw")] ab lb) (ln col : Nat) {mark : Char} (hm : mark ∉ c%"/ \n") {ls : List Str}
    (hc : [mark, mark, mark, mark] ∉ ls) (h1 : ls ≠ [[]]) (hnl : ∀ l ∈ ls, '\n' ∉ l) :
    Adds Q cfg src L s (bearing s ab lb) ln col ([mark, mark, mark, mark] :: (ls ++ [[mark, mark, mark, mark]])) [d.node (.raw []) (ls.map fun l => node (.rawLine l))] := by
  have m1 : mark ≠ '/' := by rintro rfl; exact hm (by decide)
  have m2 : mark ≠ ' ' := by rintro rfl; exact hm (by decide)
  let ctx : Context := (at_ src ln col 4).merge (at_ src (ln + ls.length + 1) 0 4)
  obtain ⟨i1, i2, i3⟩ := hs.idle
  have ha := hp.bear s
  have hlines : ∀ rest : List Str, ([mark, mark, mark, mark] :: (ls ++ [[mark, mark, mark, mark]])) ++ rest =
      [mark, mark, mark, mark] :: (ls ++ [mark, mark, mark, mark] :: rest) := by intro rest; simp
  have e1 : Dict.erase (d.named ++ [(c%"engine", c%"raw")]) c%"classes" = d.named ++ [(c%"engine", c%"raw")] := by
    refine erase_absent ?_
    rw [List.map_append, List.mem_append, not_or]
    exact ⟨reserved_absent hd (by decide), by decide⟩
  have e2 : Dict.erase (d.named ++ [(c%"engine", c%"raw")]) c%"engine" = d.named := by
    have := erase_absent (reserved_absent hd (k := c%"engine") (by decide))
    unfold Dict.erase at this ⊢
    rw [List.filter_append, this]
    simp
  have g1 : Dict.get? (d.named ++ [(c%"engine", c%"raw")]) c%"classes" = none := by
    rw [Dict.get?_append, reserved_get hd (by decide)]; rfl
  have g2 : Dict.get? (d.named ++ [(c%"engine", c%"raw")]) c%"engine" = some c%"raw" := by
    rw [Dict.get?_append, reserved_get hd (by decide)]; rfl
  have g4 : Dict.get? d.named c%"footnote" = none := reserved_get hd (by decide)
  have g5 : Dict.get? d.named c%"group" = none := reserved_get hd (by decide)
  let nd : Node := Node.new (.raw []) ctx (rawNodes src (ln + 1) ls) { unnamed := d.unnamed, named := d.named, tags := d.tags, subtype := d.subtype } lb
  refine ⟨0, L, { s with nodes := s.nodes ++ [nd] }, [nd], ln + ls.length + 2,
    ⟨hs.idle, hs.footnotes, hs.others, hs.uid, hs.ready, hs.usual, hs.styles, hs.headers,
      (tameAll_append _ _).2 ⟨hs.nodes, ⟨trivial, rawNodes_tame _ _ _ _ _, hp.tame, rfl⟩, trivial⟩, hs.objs⟩,
    fun _ _ => rfl, Nat.le_refl _, rfl, ?_, fun n _ rest hrest => ?_⟩
  · simp only [nd, toldList, Node.new, Deco.node, Node.told, NodeData.told, hp.told, rawNodes_told]
  · rw [hlines]
    refine (reads_block (clean_parser cfg n src) m1 m2 hc).ok _ ?_
    have heng : ∀ a, (parser cfg n src).engineStep { bearing s ab lb with argsBuf := none } c%"raw" []
        ((contentTok src (ln + 1) ls).filter fun t => !t.value.isEmpty) a ctx =
        .ok ((.raw [], rawNodes src (ln + 1) ls, a), { bearing s ab lb with argsBuf := none }) := by
      intro a
      unfold Parser.engineStep
      obtain ⟨c1, c2⟩ := content_token src (ln + 1) ls
      rw [if_neg (by decide), if_pos rfl]
      by_cases hcs : NoContent ls
      · rw [c1 hcs]
        rcases hcs with rfl | rfl
        · rfl
        · exact absurd rfl h1
      · rw [c2 hcs]
        have := rawLines_eq src (joinWith ['\n'] ls) ⟨ln + 1, 0, ln + 1 + ls.length - 1, (ls.getLastD []).length, src⟩ rfl rfl ls 0
        dsimp only
        unfold rawLines
        dsimp only
        rw [splitChar_join (fun e => hcs (.inl e)) hnl]
        simp only [Nat.zero_add, Nat.add_zero] at this
        rw [this]
    unfold Parser.blockStep
    rw [ha]
    simp only [e1, e2, g1, g2, Option.getD_some, classesOf]
    rw [show (parser cfg n src).src = src from rfl]
    simp only [Bind.bind, Except.bind]
    rw [heng]
    dsimp only
    unfold placeStep
    simp only [g4, g5, truthy]
    unfold Spec.allowed bearing
    dsimp only
    rw [i1, i2, i3]
    rfl

/-! ### Source code -/

theorem at_some : ∀ n : Nested, ∃ p v, at? p n = some v
  | .leaf v => ⟨[], v, rfl⟩
  | .dict [] => ⟨[], .emptyDict, rfl⟩
  | .dict ((k, n) :: r) => by
    obtain ⟨p, v, h⟩ := at_some n
    exact ⟨k :: p, v, by simp [at?, Dict.get?, h]⟩

/-- The names of styles that the parser knows. -/
theorem styles_read {env : Env} (hd : env.Distinct) (h : StylesUsual env) :
    ∃ sub al, Env.get env c%"mau.parser.source_highlight_style_aliases" = .namespace sub ∧ Env.asdict sub = .ok al ∧
      ∀ s, s ∉ usualStyles.map (·.1) → Dict.get? al s = none := by
  obtain ⟨sub, h1, h2, h3⟩ := C16_namespace env hd c%"mau.parser.source_highlight_style_aliases" h.absent c%"+" (by
    have := h.usual c%"+"
    change Dict.get? env (c%"mau.parser.source_highlight_style_aliases" ++ '.' :: c%"+") = _ at this
    rw [this]
    simp [usualStyles, Dict.get?])
  have h3 : ∀ y, Dict.get? sub y = (Dict.get? usualStyles y).map Val.str := by
    intro y
    rw [h3, ← h.usual y]
    rfl
  have hkeys : ∀ k ∈ Dict.keys sub, k ∈ usualStyles.map (·.1) := by
    intro k hk
    have : Dict.get? sub k ≠ none := fun e => Dict.get?_none_iff.1 e hk
    rw [h3] at this
    have : Dict.get? usualStyles k ≠ none := fun e => this (by rw [e]; rfl)
    have hm : ¬ k ∉ Dict.keys usualStyles := fun e => this (Dict.get?_none_iff.2 e)
    exact Decidable.not_not.1 hm
  have hshort : ∀ k ∈ usualStyles.map (·.1), k.head? ≠ some '.' ∧ splitChar '.' k = [k] ∧ k.length = 1 := by decide
  obtain ⟨al, e1, e2, -⟩ := C14_flat_round_trip sub h2 (fun k hk => (hshort k (hkeys k hk)).1) (by
    rintro p hp q hq ⟨t, e⟩
    have a := (hshort p (hkeys p hp)).2.2
    have b := (hshort q (hkeys q hq)).2.2
    have := congrArg List.length e
    simp [a, b] at this)
  refine ⟨sub, al, h1, e1, fun s hs => ?_⟩
  cases hg : Dict.get? al s with
  | none => rfl
  | some n =>
    obtain ⟨p, v, hp⟩ := at_some n
    obtain ⟨k, k1, k2⟩ := (e2 (s :: p) v (by simp)).1 (by rw [at?, hg]; exact hp)
    have hk := hkeys k (List.mem_map.2 ⟨(k, v), Dict.mem_of_get? k1, rfl⟩)
    rw [(hshort k hk).2.1] at k2
    injection k2 with k2
    rw [k2] at hk
    exact absurd hk hs

/-- A written line of code is read. -/
theorem sourceLine_code {al : List (Str × Nested)} (hal : ∀ s, s ∉ usualStyles.map (·.1) → Dict.get? al s = none) {c : Code} (h : c.Ok) :
    sourceLine ⟨c%":", c%"@", c%"default", al⟩ c.line = .ok ⟨c.text, c.marker, c.style⟩ := by
  have hends : ∀ line : Str, endsWith line c%":" = true ↔ line.getLast? = some ':' := by
    intro line
    unfold endsWith
    rw [List.isSuffixOf_iff_suffix]
    constructor
    · rintro ⟨t, rfl⟩; simp
    · intro hl
      rw [List.getLast?_eq_some_iff] at hl
      obtain ⟨t, rfl⟩ := hl
      exact ⟨t, rfl⟩
  have hcut : ∀ {text label : Str}, ':' ∉ label → splitStr c%":" (text ++ ':' :: label ++ [':']).dropLast = splitChar ':' text ++ [label] := by
    intro text label hl
    rw [List.dropLast_concat, splitStr_char, splitChar_append, splitChar_of_not_mem hl]
  have hline : ∀ {text label : Str}, ':' ∉ label → sourceLine ⟨c%":", c%"@", c%"default", al⟩ (text ++ ':' :: label ++ [':']) =
      if startsWith label c%"@" then
        match styleAlias al (match label.drop 1 with | [] => c%"default" | m => m) with
        | .error e => .error e
        | .ok st => .ok ⟨text, none, some st⟩
      else if label.isEmpty then .ok ⟨text, none, none⟩ else .ok ⟨text, some label, none⟩ := by
    intro text label hl
    have hlen : ¬ (splitChar ':' text ++ [label]).length < 2 := by
      have := List.length_pos_iff.2 (splitChar_ne_nil ':' text)
      simp only [List.length_append, List.length_singleton]; omega
    unfold sourceLine
    dsimp only
    rw [(hends _).2 (by rw [List.getLast?_concat]), if_neg (by decide), if_neg (by decide), hcut hl, List.getLast?_concat]
    dsimp only
    rw [if_neg hlen, List.dropLast_concat, join_split]
    rfl
  obtain ⟨text, marker, style⟩ := c
  unfold Code.line
  cases marker with
  | some m =>
    obtain ⟨h1, h2, h3, h4⟩ := h.marker m rfl
    have hs : style = none := by
      rcases h.one with e | e
      · cases e
      · exact e
    subst hs
    dsimp only
    rw [hline h2, if_neg, if_neg]
    · simpa using h1
    · intro hs
      cases m with
      | nil => exact absurd rfl h1
      | cons c m =>
        simp [startsWith, List.isPrefixOf] at hs
        exact h4 (by rw [← hs]; rfl)
  | none =>
    cases style with
    | some s =>
      obtain ⟨h1, h2, h3, h4⟩ := h.style s rfl
      dsimp only
      rw [hline (label := '@' :: s) (by simp [h2]), if_pos (by rfl)]
      have : styleAlias al (match ('@' :: s).drop 1 with | [] => c%"default" | m => m) = .ok s := by
        cases s with
        | nil => exact absurd rfl h1
        | cons c s =>
          change styleAlias al (c :: s) = _
          unfold styleAlias
          rw [hal _ h4]
      rw [this]
    | none =>
      dsimp only
      split
      · have := hline (text := text) (label := []) (by simp)
        rw [List.append_assoc] at this
        exact this
      · rename_i hl
        unfold sourceLine
        rw [if_pos]
        have : endsWith text c%":" = false := by
          rw [← Bool.not_eq_true, hends]
          exact hl
        rw [this]
        rfl

theorem sourceLines_written {al : List (Str × Nested)} (hal : ∀ s, s ∉ usualStyles.map (·.1) → Dict.get? al s = none) (ctx : Context) (L : Nat → Nat) (u : Nat) :
    ∀ (cs : List Code) (i : Nat), (∀ c ∈ cs, c.Ok) → ∃ ns, sourceLines ⟨c%":", c%"@", c%"default", al⟩ ctx i (cs.map Code.line) = .ok ns ∧
      toldList ns = codeNodes (i + 1) cs ∧ TameAll L u ns := by
  intro cs
  induction cs with
  | nil => exact fun _ _ => ⟨[], rfl, rfl, trivial⟩
  | cons c cs ih =>
    intro i h
    obtain ⟨ns, h1, h2, h3⟩ := ih (i + 1) fun x hx => h x (by simp [hx])
    refine ⟨sourceLineNode ctx i c.line ⟨c.text, c.marker, c.style⟩ :: ns, ?_, ?_, ?_⟩
    · rw [List.map_cons, sourceLines, sourceLine_code hal (h c (by simp))]
      simp only [Bind.bind, Except.bind, h1]
      rfl
    · rw [toldList, h2, codeNodes]
      congr 1
      unfold sourceLineNode Code.node
      dsimp only
      cases hm : c.marker with
      | none => rfl
      | some m => rfl
    · refine ⟨?_, h3⟩
      unfold sourceLineNode
      dsimp only
      cases c.marker with
      | none => exact ⟨trivial, trivial, trivial, rfl⟩
      | some m => exact ⟨trivial, ⟨⟨trivial, trivial, trivial, rfl⟩, trivial⟩, trivial, rfl⟩

theorem sourceEngine_written {env : Env} (he : env.Distinct) (h : StylesUsual env) {t : Token} {d : Deco} (hd : d.Ok) {language : Str} {cs : List Code}
    (hcs : ∀ c ∈ cs, c.Ok) (ht : splitChar '\n' t.value = cs.map Code.line) (L : Nat → Nat) (u : Nat) :
    ∃ ns, sourceEngine env t { unnamed := d.unnamed, named := d.named ++ [(c%"language", language)], tags := d.tags, subtype := d.subtype } =
        .ok (some language, ns, { unnamed := d.unnamed, named := d.named, tags := d.tags, subtype := d.subtype }) ∧
      toldList ns = codeNodes 1 cs ∧ TameAll L u ns := by
  obtain ⟨sub, al, h1, h2, h3⟩ := styles_read he h
  obtain ⟨ns, n1, n2, n3⟩ := sourceLines_written h3 t.ctx L u cs 0 hcs
  refine ⟨ns, ?_, n2, n3⟩
  have absent : ∀ k ∈ reservedNames, k ≠ c%"language" → Dict.get? (d.named ++ [(c%"language", language)]) k = none ∧
      Dict.erase (d.named ++ [(c%"language", language)]) k = d.named ++ [(c%"language", language)] := by
    intro k hk hne
    have : k ∉ (d.named ++ [(c%"language", language)]).map (·.1) := by
      rw [List.map_append, List.mem_append, not_or]
      exact ⟨reserved_absent hd hk, by simpa using hne⟩
    exact ⟨Dict.get?_none_iff.2 this, erase_absent this⟩
  have hg : Dict.get? (d.named ++ [(c%"language", language)]) c%"language" = some language := by
    rw [Dict.get?_append, reserved_get hd (by decide)]; rfl
  have e2 : Dict.erase (d.named ++ [(c%"language", language)]) c%"language" = d.named := by
    have := erase_absent (reserved_absent hd (k := c%"language") (by decide))
    unfold Dict.erase at this ⊢
    rw [List.filter_append, this]
    simp
  obtain ⟨a1, a2⟩ := absent c%"marker_delimiter" (by decide) (by decide)
  obtain ⟨b1, b2⟩ := absent c%"highlight_marker" (by decide) (by decide)
  obtain ⟨c1, c2⟩ := absent c%"highlight_default_style" (by decide) (by decide)
  unfold sourceEngine
  simp only [NodeArgs.pop, a1, a2, b1, b2, c1, c2, h1, h2, Bind.bind, Except.bind, Option.getD_none, ht]
  have hset : (NodeArgs.setNames { unnamed := d.unnamed, named := d.named ++ [(c%"language", language)], tags := d.tags, subtype := d.subtype } [c%"language"]) =
      { unnamed := d.unnamed, named := d.named ++ [(c%"language", language)], tags := d.tags, subtype := d.subtype } := by
    have hf : ([c%"language"] : List Str).filter (fun n => !Dict.has (d.named ++ [(c%"language", language)]) n) = [] := by
      simp [Dict.has, hg]
    unfold NodeArgs.setNames Mau.setNames
    simp only [hf, List.length_nil, List.drop_zero, List.zip_nil_left]
    rfl
  rw [hset]
  simp only [hg, e2, n1]
  rfl

theorem adds_code (cfg : Config) (src : Option Str) {L : Nat → Nat} {s : DocSt} (hs : Neat Q L s) (hq : Q) {d : Deco} (hd : d.Ok) {ab : Option NodeArgs} {lb : Dict Node}
    {language : Str} (hp : Pend L s.uid d [(c%"engine", c%"source"), (c%"language", language)] ab lb) (ln col : Nat) {mark : Char} (hm : mark ∉ c%"/ \n") {cs : List Code}
    (hc : [mark, mark, mark, mark] ∉ cs.map Code.line) (h0 : cs ≠ []) (h1 : cs.map Code.line ≠ [[]]) (hcs : ∀ c ∈ cs, c.Ok) :
    Adds Q cfg src L s (bearing s ab lb) ln col ([mark, mark, mark, mark] :: (cs.map Code.line ++ [[mark, mark, mark, mark]]))
      [d.node (.source (some language) []) (codeNodes 1 cs)] := by
  have m1 : mark ≠ '/' := by rintro rfl; exact hm (by decide)
  have m2 : mark ≠ ' ' := by rintro rfl; exact hm (by decide)
  generalize hls : cs.map Code.line = ls at hc h1
  have hne : ls ≠ [] := by rw [← hls]; simpa using h0
  have hnl : ∀ l ∈ ls, '\n' ∉ l := by
    intro l hl
    rw [← hls] at hl
    obtain ⟨c, hc, rfl⟩ := List.mem_map.1 hl
    exact code_line_nl (hcs c hc)
  let ctx : Context := (at_ src ln col 4).merge (at_ src (ln + ls.length + 1) 0 4)
  obtain ⟨i1, i2, i3⟩ := hs.idle
  have ha := hp.bear s
  have hlines : ∀ rest : List Str, ([mark, mark, mark, mark] :: (ls ++ [[mark, mark, mark, mark]])) ++ rest =
      [mark, mark, mark, mark] :: (ls ++ [mark, mark, mark, mark] :: rest) := by intro rest; simp
  have e1 : Dict.erase (d.named ++ [(c%"engine", c%"source"), (c%"language", language)]) c%"classes" = d.named ++ [(c%"engine", c%"source"), (c%"language", language)] := by
    refine erase_absent ?_
    rw [List.map_append, List.mem_append, not_or]
    exact ⟨reserved_absent hd (by decide), by simp⟩
  have e2 : Dict.erase (d.named ++ [(c%"engine", c%"source"), (c%"language", language)]) c%"engine" = d.named ++ [(c%"language", language)] := by
    have := erase_absent (reserved_absent hd (k := c%"engine") (by decide))
    unfold Dict.erase at this ⊢
    rw [List.filter_append, this]
    simp
  have g1 : Dict.get? (d.named ++ [(c%"engine", c%"source"), (c%"language", language)]) c%"classes" = none := by
    rw [Dict.get?_append, reserved_get hd (by decide)]; rfl
  have g2 : Dict.get? (d.named ++ [(c%"engine", c%"source"), (c%"language", language)]) c%"engine" = some c%"source" := by
    rw [Dict.get?_append, reserved_get hd (by decide)]; rfl
  have g4 : Dict.get? d.named c%"footnote" = none := reserved_get hd (by decide)
  have g5 : Dict.get? d.named c%"group" = none := reserved_get hd (by decide)
  have hnc : ¬ NoContent ls := by
    rintro (e | e)
    · exact hne e
    · exact h1 e
  obtain ⟨ns, n1, n2, n3⟩ := sourceEngine_written hs.ready.distinct (hs.styles hq)
    (t := ⟨.TEXT, joinWith ['\n'] ls, ⟨ln + 1, 0, ln + 1 + ls.length - 1, (ls.getLastD []).length, src⟩⟩) hd (language := language) hcs
    (by rw [hls]; exact splitChar_join hne hnl) L s.uid
  let nd : Node := Node.new (.source (some language) []) ctx ns { unnamed := d.unnamed, named := d.named, tags := d.tags, subtype := d.subtype } lb
  refine ⟨0, L, { s with nodes := s.nodes ++ [nd] }, [nd], ln + ls.length + 2,
    ⟨hs.idle, hs.footnotes, hs.others, hs.uid, hs.ready, hs.usual, hs.styles, hs.headers,
      (tameAll_append _ _).2 ⟨hs.nodes, ⟨trivial, n3, hp.tame, rfl⟩, trivial⟩, hs.objs⟩,
    fun _ _ => rfl, Nat.le_refl _, rfl, ?_, fun n _ rest hrest => ?_⟩
  · simp only [nd, toldList, Node.new, Deco.node, Node.told, NodeData.told, hp.told, n2]
  · rw [hlines]
    refine (reads_block (clean_parser cfg n src) m1 m2 hc).ok _ ?_
    unfold Parser.blockStep
    rw [ha]
    simp only [e1, e2, g1, g2, Option.getD_some, classesOf]
    rw [show (parser cfg n src).src = src from rfl, (content_token src (ln + 1) ls).2 hnc]
    unfold Parser.engineStep
    rw [if_neg (by decide), if_neg (by decide), if_pos rfl]
    simp only [Bind.bind, Except.bind]
    rw [show (bearing s ab lb).env = s.env from rfl, n1]
    dsimp only [pure, Except.pure]
    unfold placeStep
    simp only [g4, g5, truthy]
    unfold Spec.allowed bearing
    dsimp only
    rw [i1, i2, i3]
    rfl

/-! ### Images -/

theorem classes_read {classes : List Str} (h : ∀ c ∈ classes, ',' ∉ c) (h1 : classes ≠ [[]]) :
    classesOf (if classes = [] then none else some (joinWith c%"," classes)) = classes := by
  cases classes with
  | nil => rfl
  | cons c cs =>
    rw [if_neg (by simp)]
    have hj : joinWith c%"," (c :: cs) ≠ [] := by
      cases cs with
      | nil =>
        intro e
        have : c = [] := by simpa [joinWith] using e
        exact h1 (by rw [this])
      | cons b cs => simp [joinWith]
    obtain ⟨x, xs, e⟩ := List.exists_cons_of_ne_nil hj
    rw [e]
    change splitChar ',' (x :: xs) = _
    rw [← e]
    exact split_join (by simp) h

theorem image_read {d : Deco} (hd : d.Ok) {uri : Str} {alt : Option Str} {classes : List Str} (hu : uri ≠ []) (hc : ∀ c ∈ classes, ',' ∉ c) (h1 : classes ≠ [[]])
    (h2 : d.unnamed = [] ∨ alt ≠ none ∧ classes ≠ []) (ctx : Context) :
    includeImage { unnamed := d.unnamed, named := d.named ++ imageArgs uri alt classes, tags := d.tags, subtype := d.subtype } ctx =
      .ok (.includeImage uri alt classes, { unnamed := d.unnamed, named := d.named, tags := d.tags, subtype := d.subtype }) := by
  have hget : ∀ k ∈ reservedNames, ∀ m : Dict Str, Dict.get? (d.named ++ m) k = Dict.get? m k := by
    intro k hk m
    rw [Dict.get?_append, reserved_get hd hk]; rfl
  have herase : ∀ k ∈ reservedNames, ∀ m : Dict Str, Dict.erase (d.named ++ m) k = d.named ++ Dict.erase m k := by
    intro k hk m
    have := erase_absent (reserved_absent hd hk)
    unfold Dict.erase at this ⊢
    rw [List.filter_append, this]
  have hset : (NodeArgs.setNames { unnamed := d.unnamed, named := d.named ++ imageArgs uri alt classes, tags := d.tags, subtype := d.subtype }
      [c%"uri", c%"alt_text", c%"classes"]) =
      { unnamed := d.unnamed, named := d.named ++ imageArgs uri alt classes, tags := d.tags, subtype := d.subtype } := by
    unfold NodeArgs.setNames Mau.setNames
    rcases h2 with e | ⟨e1, e2⟩
    · simp only [e, List.zip_nil_right, List.drop_nil]
      rfl
    · have hf : ([c%"uri", c%"alt_text", c%"classes"] : List Str).filter (fun n => !Dict.has (d.named ++ imageArgs uri alt classes) n) = [] := by
        obtain ⟨a, rfl⟩ := Option.ne_none_iff_exists'.1 e1
        simp [Dict.has, hget c%"uri" (by decide), hget c%"alt_text" (by decide), hget c%"classes" (by decide), imageArgs, e2, Dict.get?]
      simp only [hf, List.length_nil, List.drop_zero, List.zip_nil_left]
      rfl
  have hcls := classes_read hc h1
  unfold includeImage
  rw [hset]
  obtain ⟨x, xs, rfl⟩ := List.exists_cons_of_ne_nil hu
  simp only [NodeArgs.pop, hget c%"uri" (by decide), herase c%"uri" (by decide), hget c%"alt_text" (by decide), herase c%"alt_text" (by decide),
    hget c%"classes" (by decide), herase c%"classes" (by decide)]
  cases alt <;> by_cases he : classes = []
  all_goals
    simp [imageArgs, he, Dict.get?, Dict.erase, truthy] at hcls ⊢
    first | exact hcls | rfl

theorem adds_image (cfg : Config) (src : Option Str) {L : Nat → Nat} {s : DocSt} (hs : Neat Q L s) {d : Deco} (hd : d.Ok) {ab : Option NodeArgs} {lb : Dict Node}
    {uri : Str} {alt : Option Str} {classes : List Str} (hp : Pend L s.uid d (imageArgs uri alt classes) ab lb) (ln col : Nat) (hu : uri ≠ [])
    (hc : ∀ c ∈ classes, ',' ∉ c) (h1 : classes ≠ [[]]) (h2 : d.unnamed = [] ∨ alt ≠ none ∧ classes ≠ []) :
    Adds Q cfg src L s (bearing s ab lb) ln col [c%"<< image"] [d.node (.includeImage uri alt classes)] := by
  let ctx : Context := (at_ src ln col 2).merge (at_ src ln (col + 2 + 1) 5)
  let nd : Node := Node.new (.includeImage uri alt classes) ctx [] { unnamed := d.unnamed, named := d.named, tags := d.tags, subtype := d.subtype } lb
  refine ⟨0, L, { s with nodes := s.nodes ++ [nd] }, [nd], ln + 1,
    ⟨hs.idle, hs.footnotes, hs.others, hs.uid, hs.ready, hs.usual, hs.styles, hs.headers, (tameAll_append _ _).2 ⟨hs.nodes, ⟨trivial, trivial, hp.tame, rfl⟩, trivial⟩, hs.objs⟩,
    fun _ _ => rfl, Nat.le_refl _, rfl, ?_, fun n hn rest hr => ?_⟩
  · simp only [nd, toldList, Node.new, Deco.node, Node.told, NodeData.told, hp.told]
  have hline : SpecialLine c%"<< image" [.tok .INCLUDE c%"<<", .skip c%" ", .tok .TEXT c%"image"] := by
    exact ⟨.incl c%" " c%"image" [] [] (by unfold Spaces; decide) (by decide) (by decide) (by intro c r h; cases h) .none, by unfold Spaces; decide,
      by intro ch h; cases h⟩
  refine (reads_include (P := parser cfg n src) (clean_parser cfg n src) (ln := ln) (col := col) (s := bearing s ab lb) hline).ok _ ?_
  obtain ⟨i1, i2, i3⟩ := hs.idle
  unfold Parser.includeStep Parser.includeNodeStep
  rw [hp.bear, if_pos rfl, image_read hd hu hc h1 h2]
  simp only [Bind.bind, Except.bind, pure, Except.pure]
  unfold Spec.allowed bearing
  dsimp only
  rw [i1, i2, i3]
  rfl

/-- One part, then the rest. -/
theorem docRead_part (cfg : Config) {a : List Str} {tree : List Node} {rest : Doc} {d : Doc} {deco : Deco} {more : List (Str × Str)} (hdeco : deco.Ok) (hmore : More more)
    (hd : d.lines = parted (deco.lines more ++ a) rest.lines) (ht : d.tree = tree ++ rest.tree)
    (ha : ∀ src L s ab lb ln col, Neat Q L s → Pend L s.uid deco more ab lb → Adds Q cfg src L s (bearing s ab lb) ln col a tree) (hr : DocRead Q cfg rest) : DocRead Q cfg d := by
  intro src L s ln col hs
  obtain ⟨K, ab, lb, ln0, col0, c1, hK⟩ := deco_read cfg src hs hdeco hmore ln col
  obtain ⟨N, L1, s1, ns, ln', a1, a2, a3, a4, a5, hN⟩ := ha src L s ab lb ln0 col0 hs c1
  obtain ⟨M, L2, s2, ms, b1, b2, b3, b4, b5, hM⟩ := hr src L1 s1 (if rest.lines = [] then ln' else ln' + 1) 0 a1
  refine ⟨max K (max N M), L2, s2, ns ++ ms, b1, ?_, Nat.le_trans a3 b3, by rw [b4, a4, List.append_assoc], by rw [toldList_append, a5, b5, ht], fun n hn => ?_⟩
  · intro i hi
    rw [b2 i (by omega), a2 i hi]
  · have hM := hM n (by omega)
    have hN := hN n (by omega)
    have hK := hK n (by omega)
    rw [hd]
    cases hl : rest.lines with
    | nil =>
      rw [hl, if_pos rfl] at hM
      have := hN [] (.inl rfl)
      rw [List.append_nil] at this
      rw [parted, hK, this, hM]
    | cons b bs =>
      rw [hl, if_neg (by simp)] at hM
      rw [parted, List.append_assoc, hK, hN _ (.inr ⟨_, rfl⟩), run_blank (by intro c hc; cases hc), hM]

theorem comment_special {t : Str} (h : t ≠ c%"//") : SpecialLine (c%"//" ++ t) [] := by
  refine ⟨.comment t, fun hs => ?_, fun ch e => ?_⟩
  · have := hs '/' (by simp)
    exact absurd this (by decide)
  · simp only [List.cons_append, List.nil_append, List.cons.injEq] at e
    obtain ⟨rfl, -, e⟩ := e
    exact h e

/-- What is skipped adds nothing. -/
theorem docRead_skipped (cfg : Config) {a : List Str} {rest d : Doc} (hd : d.lines = parted a rest.lines) (ht : d.tree = rest.tree)
    (k : Nat) (ha : ∀ (P : Parser) (ln col : Nat) (r : List Str) (s : DocSt), P.run ln col (a ++ r) s = P.run (ln + k) 0 r s) (hr : DocRead Q cfg rest) : DocRead Q cfg d := by
  intro src L s ln col hs
  obtain ⟨M, L2, s2, ms, b1, b2, b3, b4, b5, hM⟩ := hr src L s (if rest.lines = [] then ln + k else ln + k + 1) 0 hs
  refine ⟨M, L2, s2, ms, b1, b2, b3, b4, by rw [b5, ht], fun n hn => ?_⟩
  have hM := hM n hn
  rw [hd]
  cases hl : rest.lines with
  | nil =>
    rw [hl, if_pos rfl] at hM
    have := ha (parser cfg n src) ln col [] s
    rw [List.append_nil] at this
    rw [parted, this, hM]
  | cons b bs =>
    rw [hl, if_neg (by simp)] at hM
    rw [parted, ha, run_blank (by intro c hc; cases hc), hM]

theorem doc_read (cfg : Config) (d : Doc) : d.Ok → (d.sourced = true → Q) → DocRead Q cfg d := by
  induction d with
  | nil =>
    intro _ _ src L s ln col hs
    exact ⟨0, L, s, [], hs, fun _ _ => rfl, Nat.le_refl _, by simp, rfl, fun n _ => run_end⟩
  | paragraph deco ls rest ih =>
    intro h hq
    exact docRead_part cfg (tree := [deco.node .paragraph (ls.map fun l => node .paragraphLine l.nodes)]) h.1 (.inl rfl) rfl rfl
      (fun src L s ab lb ln col hs hp => adds_paragraph cfg src hs hp ln col h.2.1 h.2.2.1) (ih h.2.2.2 hq)
  | header deco level t rest ih =>
    intro h hq
    exact docRead_part cfg (tree := [deco.node (.header 0 level none none) t.nodes]) h.1 (.inl rfl) rfl rfl
      (fun src L s ab lb ln col hs hp => adds_header cfg src hs h.1 hp ln col h.2.1 h.2.2.1 h.2.2.2.1 h.2.2.2.2.1) (ih h.2.2.2.2.2 hq)
  | comment text rest ih =>
    intro h hq
    exact docRead_skipped cfg (a := [c%"//" ++ text]) rfl rfl 1 (fun P ln col r s => run_comment (comment_special h.1.1)) (ih h.2 hq)
  | comments ls rest ih =>
    intro h hq
    refine docRead_skipped cfg (a := c%"////" :: (ls ++ [c%"////"])) rfl rfl (ls.length + 2) (fun P ln col r s => ?_) (ih h.2 hq)
    have := run_comments (P := P) (ln := ln) (col := col) (s := s) (rest := r) h.1.1
    rw [← Nat.add_assoc, ← this]
    simp
  | rule deco rest ih =>
    intro h hq
    exact docRead_part cfg (tree := [deco.node .horizontalRule]) h.1 (.inl rfl) rfl rfl (fun src L s ab lb ln col hs hp => adds_rule cfg src hs hp ln col) (ih h.2 hq)
  | list deco o items rest ih =>
    intro h hq
    exact docRead_part cfg (tree := [deco.node (.list o true 1) (items.nodes 1)]) h.1 (.inl rfl) rfl rfl
      (fun src L s ab lb ln col hs hp => adds_list cfg src hs h.1 hp ln col o h.2.1 h.2.2.1) (ih h.2.2.2 hq)
  | block deco mark inner rest ih1 ih2 =>
    intro h hq
    obtain ⟨h0, h1, h2, h3, h4⟩ := h
    exact docRead_part cfg (tree := [deco.node (.block []) inner.tree]) h0 (.inl rfl) rfl rfl
      (fun src L s ab lb ln col hs hp => adds_block cfg src hs h0 hp ln col h1 h2 h3 (ih1 h3 fun e => hq (by simp [Doc.sourced, e]))) (ih2 h4 fun e => hq (by simp [Doc.sourced, e]))
  | raw deco mark ls rest ih =>
    intro h hq
    obtain ⟨h0, h1, h2, h3, h4, h5⟩ := h
    exact docRead_part cfg (tree := [deco.node (.raw []) (ls.map fun l => node (.rawLine l))]) h0 (.inr (.inl rfl)) rfl rfl
      (fun src L s ab lb ln col hs hp => adds_raw cfg src hs h0 hp ln col h1 h2 h3 h4) (ih h5 hq)
  | code deco mark language ls rest ih =>
    intro h hq
    obtain ⟨h0, h1, h2, h3, h4, h5, h6⟩ := h
    exact docRead_part cfg (tree := [deco.node (.source (some language) []) (codeNodes 1 ls)]) h0 (.inr (.inr (.inl ⟨_, rfl, h2⟩))) rfl rfl
      (fun src L s ab lb ln col hs hp => adds_code cfg src hs (hq rfl) h0 hp ln col h1 h3 h4.1 h4.2 h5) (ih h6 fun _ => hq rfl)
  | image deco uri alt classes rest ih =>
    intro h hq
    obtain ⟨h0, h1, h2, h3, h4, h5⟩ := h
    exact docRead_part cfg (tree := [deco.node (.includeImage uri alt classes)]) h0 (.inr (.inr (.inr ⟨_, _, _, rfl, h2⟩))) rfl rfl
      (fun src L s ab lb ln col hs hp => adds_image cfg src hs h0 hp ln col h1 h3.1 h3.2 h4) (ih h5 hq)

/-- C77: every document made of paragraphs of formatted text, headers, rules, lists, blocks, raw blocks and source code, with labels and arguments, is read back from the text it is written as: for every
recursion budget that is large enough, parsing this text succeeds and gives the nodes of the document, in order, and nothing else. -/
theorem C77_document (cfg : Config) {env : Env} (henv : env.Distinct) (hu : Usual (initEnv env)) (source : Option Str) {d : Doc}
    (hst : d.sourced = true → StylesUsual (initEnv env)) (hd : d.Ok) (hne : d ≠ .nil) :
    ∃ N, ∀ fuel ≥ N, ∃ s, parseDoc cfg fuel d.source env source = .ok s ∧ toldList s.nodes = d.tree := by
  let req : NestedReq := ⟨d.source, env, 0, 0, source, [], 1, []⟩
  have hn : Neat (d.sourced = true) (fun _ => 0) (initial req) :=
    ⟨⟨rfl, rfl, rfl⟩, ⟨rfl, rfl, rfl⟩, ⟨rfl, rfl, rfl, rfl⟩, Nat.one_pos, ready_init henv, hu, hst, (by intro x hx; cases hx), trivial, trivial⟩
  obtain ⟨N, L', s', -, -, -, n4, hN⟩ := doc_parsed cfg hd hne (doc_read cfg d hd id) (req := req) rfl hn
  refine ⟨N, fun fuel hf => ?_⟩
  obtain ⟨x, h1, h2⟩ := hN fuel hf
  refine ⟨x, h1, ?_⟩
  rw [← n4, ← h2]
  rfl

/-- C77: the names of styles are the usual ones if the variables say nothing about them. -/
theorem C77_styles {env : Env} (h : env.Distinct) (hn : ∀ k ∈ env.keys, ¬ c%"mau.parser.source_highlight_style_aliases" <+: k) : StylesUsual (initEnv env) := by
  have hg : ∀ k, c%"mau.parser.source_highlight_style_aliases" <+: k → Dict.get? (initEnv env) k = builtin k := by
    intro k hk
    rw [C50_defaults h, Dict.get?_none_iff.2 (fun hm => hn k hm hk)]
    rfl
  refine ⟨by rw [hg _ (List.prefix_refl _)]; decide, fun s => ?_⟩
  rw [hg _ (by simp [List.prefix_iff_eq_append])]
  simp only [builtin, List.cons_append, List.nil_append, List.cons.injEq, true_and, usualStyles, Dict.get?, eq_comm (a := s)]
  simp only [show ('s' = 'a') = False from by decide, show ('m' = 'a') = False from by decide, reduceCtorEq, false_and, if_false, List.cons_ne_nil]
  split
  · rfl
  · split
    · rfl
    · split
      · rfl
      · split
        · rfl
        · rfl

theorem styles_empty : StylesUsual (initEnv []) :=
  C77_styles (by unfold Dict.Distinct; decide) fun _ hk => nomatch hk

/-- C77: two documents that are written as the same text have the same nodes. -/
theorem C77_faithful {d d' : Doc} (hd : d.Ok) (hd' : d'.Ok) (hne : d ≠ .nil) (hne' : d' ≠ .nil) (h : d.source = d'.source) : d.tree = d'.tree := by
  have hu : Usual (initEnv []) := parserObjects_ok.1 (by decide +kernel)
  obtain ⟨N, hN⟩ := C77_document {} (env := []) (by unfold Dict.Distinct; decide) hu none (fun _ => styles_empty) hd hne
  obtain ⟨M, hM⟩ := C77_document {} (env := []) (by unfold Dict.Distinct; decide) hu none (fun _ => styles_empty) hd' hne'
  obtain ⟨s, h1, h2⟩ := hN (max N M) (by omega)
  obtain ⟨s', h3, h4⟩ := hM (max N M) (by omega)
  rw [h, h3] at h1
  cases h1
  rw [← h2, h4]

/-! ### Which lines can stand in a paragraph -/

theorem four_equal {ch : Char} {l : Str} (h : fourEqual l = false) : l ≠ [ch, ch, ch, ch] := by
  rintro rfl
  simp [fourEqual] at h

/-- C77: a line that starts with plain text can stand in a paragraph, whatever the text is, except for the text that consists of two backslashes only. -/
theorem C77_text_line {t : Str} {rest : Rich} (h : (Rich.text t rest).Ok true none) (hne : ¬ (t = c%"\\\\" ∧ rest = .nil)) : TextLine (Rich.text t rest).line := by
  have hnil : (Rich.text t rest) ≠ .nil := by intro hx; cases hx
  obtain ⟨x, y, e, hx⟩ := line_head h hnil
  obtain ⟨h1, h2, h3, h4⟩ := h
  cases t with
  | nil => exact absurd rfl h1
  | cons c t =>
    have hw : ∀ {M : Str}, (Rich.text (c :: t) rest).write braces [] = (if c ∈ textMarks ++ braces ++ [] then ['\\', c] else [c]) ++ (guarding (textMarks ++ braces ++ []) t ++ rest.write braces []) := by
      intro M
      rw [Rich.write, guarding_cons, List.append_assoc]
    by_cases hm : c ∈ textMarks ++ braces ++ []
    · -- the first character has a backslash of its own
      have hprot : (Rich.text (c :: t) rest).protection = [] := by
        unfold Rich.protection
        have : ((Rich.text (c :: t) rest).startsWith c%"/-<:.= #@") = false := by
          simp only [Rich.startsWith]
          simp only [List.append_nil, textMarks, braces] at hm
          simp only [List.cons_append, List.nil_append, List.mem_cons, List.not_mem_nil, or_false] at hm
          rcases hm with rfl | rfl | rfl | rfl | rfl | rfl | rfl | rfl | rfl | rfl | rfl <;> decide
        rw [if_neg (by rw [this]; decide)]
        dsimp only
        rw [if_neg]
        rintro ⟨k, -⟩
        rw [List.append_nil] at hm
        exact k hm
      have el : (Rich.text (c :: t) rest).line = '\\' :: c :: (guarding (textMarks ++ braces ++ []) t ++ rest.write braces []) := by
        unfold Rich.line
        rw [hprot, hw (M := []), if_pos hm]
        rfl
      rw [el]
      refine textLine_of_head (by decide) fun ch hch => ?_
      injection hch with e1 hch
      subst e1
      injection hch with e2 hch
      subst e2
      cases t with
      | nil =>
        rw [show guarding (textMarks ++ braces ++ []) [] = [] from rfl, List.nil_append] at hch
        cases rest with
        | nil => cases hch
        | text => cases h3
        | verbatim => cases hch
        | style mark inner rest' =>
          injection hch with e3 hch
          have := style_mark h4.1
          rw [e3] at this
          exact absurd this (by decide)
        | link => cases hch
        | call => cases hch
        | classes => cases hch
      | cons d t =>
        rw [guarding_cons] at hch
        by_cases hd : d ∈ textMarks ++ braces ++ []
        · rw [if_pos hd] at hch
          simp only [List.cons_append, List.nil_append, List.cons.injEq, true_and] at hch
          obtain ⟨rfl, hch⟩ := hch
          obtain ⟨k1, k2⟩ := List.append_eq_nil_iff.1 hch
          refine hne ⟨?_, ?_⟩
          · cases t with
            | nil => rfl
            | cons z t =>
              rw [guarding_cons] at k1
              split at k1 <;> cases k1
          · cases rest with
            | nil => rfl
            | text => cases h3
            | verbatim => cases k2
            | style => cases k2
            | link => cases k2
            | call => cases k2
            | classes => cases k2
        · rw [if_neg hd] at hch
          simp only [List.cons_append, List.nil_append, List.cons.injEq] at hch
          exact hd (by rw [hch.1]; decide)
    · have hc1 : c ∉ textMarks ++ braces := by simpa using hm
      have hw' := hw (M := [])
      rw [if_neg hm] at hw'
      by_cases hp : (Rich.text (c :: t) rest).protection = []
      · have el : (Rich.text (c :: t) rest).line = (Rich.text (c :: t) rest).write braces [] := by unfold Rich.line; rw [hp]; rfl
        have hf : fourEqual ((Rich.text (c :: t) rest).write braces []) = false := by
          unfold Rich.protection at hp
          split at hp
          · cases hp
          · dsimp only at hp
            split at hp
            · cases hp
            · rename_i k
              simpa [hc1] using k
        rw [el, hw'] at e
        simp only [List.cons_append, List.nil_append, List.cons.injEq] at e
        rw [el, hw'] at *
        refine textLine_of_head ?_ (fun ch => four_equal hf)
        rw [e.1]
        intro hx'
        rw [← e.1] at hx hx'
        have : c ∉ c%"[*" := by
          intro hcc
          apply hc1
          simp only [List.mem_cons, List.not_mem_nil, or_false] at hcc
          rcases hcc with rfl | rfl <;> decide
        simp only [List.mem_cons, List.not_mem_nil, or_false, not_or] at hx hx' this
        simp only [hx, this, or_self] at hx'
      · have el : (Rich.text (c :: t) rest).line = '\\' :: (Rich.text (c :: t) rest).write braces [] := by
          have : (Rich.text (c :: t) rest).protection = ['\\'] := by
            unfold Rich.protection at hp ⊢
            split
            · rfl
            · rename_i k1
              rw [if_neg k1] at hp
              dsimp only at hp ⊢
              split
              · rfl
              · rename_i k2
                rw [if_neg k2] at hp
                exact absurd rfl hp
          unfold Rich.line
          rw [this]
          rfl
        rw [el, hw']
        refine textLine_of_head (by decide) fun ch hch => ?_
        simp only [List.cons_append, List.nil_append, List.cons.injEq] at hch
        obtain ⟨rfl, rfl, -⟩ := hch
        exact hc1 (by decide)

/-- C77: a line that starts with verbatim text, a style or a link can stand in a paragraph unless it consists of four equal characters, starts with `[` and ends with `]`
(then it would be a line of arguments), or starts with `*` and a space or another symbol of lists (then it might be an item of a list). -/
theorem C77_other_line {r : Rich} (h : r.Ok true none) (hne : r ≠ .nil) (h4 : fourEqual r.line = false)
    (hb : r.line.head? = some '[' → r.line.getLast? ≠ some ']') (hl : ∀ c r', r.line = '*' :: c :: r' → c ∉ c%" *#") : TextLine r.line := by
  obtain ⟨x, y, e, hx⟩ := line_head h hne
  refine ⟨fun hs => ?_, fun ch => four_equal h4, fun ps hp => ?_⟩
  · have := hs x (by rw [e]; simp)
    subst this
    exact hx (by decide)
  · rw [e] at hp hb hl
    generalize hq : x :: y = q at hp
    cases hp with
    | comment r => cases hq; exact hx (by decide)
    | rule => cases hq; exact hx (by decide)
    | control op sp v => cases hq; exact hx (by decide)
    | incl sp ty t ps => cases hq; exact hx (by decide)
    | variable_ name t ps => cases hq; exact hx (by decide)
    | arguments a =>
      rw [hq] at hb
      refine hb rfl ?_
      show _ = some _; rw [List.getLast?_cons]; simp [List.getLastD_eq_getLast?]
    | label role sp v => cases hq; exact hx (by decide)
    | list ind mark sp v k1 k2 k3 k4 k5 =>
      cases ind with
      | cons c ind =>
        have := k1 c (by simp)
        subst this
        cases hq
        exact hx (by decide)
      | nil =>
        cases mark with
        | nil => exact k2 rfl
        | cons c mark =>
          have hc := k3 c (by simp)
          have : c = '*' ∨ c = '#' := by
            unfold isListChar at hc
            simpa using hc
          injection hq with q1 q2
          subst q1
          rcases this with rfl | rfl
          · cases mark with
            | nil =>
              cases sp with
              | nil => exact k4 rfl
              | cons d sp =>
                have := k5 d (by simp)
                subst this
                exact hl ' ' (sp ++ v) (by rw [q2]; rfl) (by decide)
            | cons d mark =>
              have hd := k3 d (by simp)
              refine hl d (mark ++ sp ++ v) (by rw [q2]; rfl) ?_
              unfold isListChar at hd
              simp at hd
              rcases hd with rfl | rfl <;> decide
          · exact hx (by decide)
    | header n sp v =>
      rw [List.replicate_succ] at hq
      injection hq with q1 q2
      subst q1
      exact hx (by decide)
    | headerSpace n sp =>
      rw [List.replicate_succ] at hq
      injection hq with q1 q2
      subst q1
      exact hx (by decide)
    | headerSign n =>
      rw [List.replicate_succ] at hq
      injection hq with q1 q2
      subst q1
      exact hx (by decide)

/-- A document with everything: a header, a paragraph (with labels and arguments) with text that has to be protected, a style with a nested one, verbatim text and
a link, a rule, a list with a nested one, a block in a block, and a raw block with an argument, tags and a subtype, and source code
with a colon at the end of a line, a marker, and a style, and an image; macros in the text of an item; and comments. -/
def writtenDoc : Doc :=
  .header {} 2 (.text c%"= The *title*" .nil) <|
  .paragraph { labels := [(c%"title", .text c%".a" (.style '_' (.text c%"b" .nil) .nil)), (c%"role-2", .verbatim c%"v" .nil)], unnamed := [c%"a, \"b\"", c%"x=y"],
                named := [(c%"key", c%"{v}"), (c%"k:2", [])] }
    [.text c%"// {no} " (.style '*' (.text c%"bold_" (.style '_' (.text c%"both" .nil) .nil)) .nil),
    .verbatim c%"`code*" (.link c%"http://mau/{a}" (.text c%"a (\"quoted\") text" (.style '_' (.text c%"x" .nil) .nil)) .nil)] <|
  .rule {} <|
  .list {} false (.item (.text c%"one" .nil) (.sub true (.item (.text c%"* two" .nil) .nil) (.item (.text c%"three" <|
    .call .image [c%"a.png", c%"alt"] <| .call (.custom c%"mine") [c%"v, {1}", c%"x*", []] <| .call .unicode [c%"1F60A"] <| .call .raw [c%"<b>"] <|
    .classes [c%"c1", c%"{2}"] (.text c%"#x \"(y)\" " (.style '*' (.text c%"z" .nil) .nil)) .nil) .nil))) <|
  .block {} '+' (.paragraph {} [.text c%"====" .nil] (.block {} '-' (.paragraph {} [.text c%"aaaa" .nil] .nil) .nil)) <|
  .raw { unnamed := [c%"r"], tags := [c%"t, {1}", c%"#"], subtype := some c%"#s" } '%' [c%"++++ *x*", [], c%"{y}"] <|
  .code { unnamed := [c%"u"] } '~' c%"python" [{ text := c%"def f():" }, { text := c%"  *x*: 1", marker := some c%"1" }, { text := [], style := some c%"hot" }] <|
  .image { unnamed := [c%"i"] } c%"a b.png" (some c%"the \"A\"") [c%"wide", c%"left"] <|
  .comment c%" *no*" <| .comments [c%"== no", []] .nil

/-- The text of the document. -/
example : writtenDoc.source = joinWith ['\n'] [c%"== \\= The \\*title\\*", [], c%".title \\.a_b_", c%".role-2 `v`",
    c%"[\"a, \\\"b\\\"\", \"x=y\", key=\"\\{v\\}\", k:2=\"\"]", c%"\\// \\{no\\} *bold\\__both_*",
    c%"`\\`code*`[link](\"http://mau/\\{a\\}\", \"a (\\\"quoted\\\"\\) text_x_\")", [], c%"---", [], c%"* one", c%"## \\* two", c%"* three[image](\"a.png\", \"alt\")[mine](\"v, \\{1\\}\", \"x*\", \"\")[unicode](\"1F60A\")[raw](\"<b>\")[class](\"c1\", \"\\{2\\}\", text=\"#x \\\"(y\\)\\\" *z*\")", [],
    c%"++++", c%"\\====", [], c%"----", c%"\\aaaa", c%"----", c%"++++", [], c%"[\"r\", \"#t, \\{1\\}\", \"##\", \"*#s\", engine=\"raw\"]", c%"%%%%", c%"++++ *x*", [], c%"{y}", c%"%%%%", [],
    c%"[\"u\", engine=\"source\", language=\"python\"]", c%"~~~~", c%"def f():::", c%"  *x*: 1:1:", c%":@hot:", c%"~~~~", [],
    c%"[\"i\", uri=\"a b.png\", alt_text=\"the \\\"A\\\"\", classes=\"wide,left\"]", c%"<< image", [],
    c%"// *no*", [], c%"////", c%"== no", [], c%"////"] := by decide +kernel

theorem Deco.plain_ok : ({} : Deco).Ok :=
  ⟨by decide, by (intro l hl; cases hl), by (intro l hl; cases hl), by decide, by (intro l hl; cases hl), by (intro l hl; cases hl), by (intro l hl; cases hl), by (intro l hl; cases hl), by (intro l hl; cases hl), by (intro l hl; cases hl)⟩

/-- It meets the hypotheses. -/
theorem writtenDoc_ok : writtenDoc.Ok ∧ writtenDoc ≠ .nil := by
  refine ⟨?_, by intro h; cases h⟩
  have t1 : ∀ {t : Str} {rest : Rich}, (Rich.text t rest).Ok true none → ¬ (t = c%"\\\\" ∧ rest = .nil) → (Rich.text t rest).line.getLast? ≠ some ' ' →
      (Rich.text t rest).LineOk := fun h h' hl => ⟨h, by (intro hx; cases hx), hl, C77_text_line h h'⟩
  refine ⟨Deco.plain_ok, by decide, ?_, by (intro h; cases h), by decide, ?_, by simp, ?_, Deco.plain_ok, Deco.plain_ok, rfl, ?_,
    Deco.plain_ok, by decide, by decide, ?_, ?_, by decide, by decide, by decide, by decide,
    ?_, by decide, ⟨by decide, by decide⟩, by decide, ⟨by simp, by decide⟩, ?_,
    ?_, by decide, by decide, ⟨by decide, by decide⟩, .inr ⟨by simp, by simp⟩, by decide, by decide, trivial⟩
  · exact ⟨by decide, by decide, rfl, trivial⟩
  · refine ⟨by decide, by decide, ?_, by decide, by decide, by decide, by decide, by decide, by (intro t ht; cases ht), by (intro t ht; cases ht)⟩
    intro l hl
    simp only [List.mem_cons, List.not_mem_nil, or_false] at hl
    rcases hl with rfl | rfl
    · exact ⟨⟨by decide, by decide, rfl, by decide, by decide, ⟨by decide, by decide, rfl, trivial⟩, trivial⟩, by (intro h; cases h), by decide⟩
    · exact ⟨⟨by decide, by decide, trivial⟩, by (intro h; cases h), by decide⟩
  · intro l hl
    simp only [List.mem_cons, List.not_mem_nil, or_false] at hl
    rcases hl with rfl | rfl
    · refine t1 ?_ (by rintro ⟨h, -⟩; exact absurd h (by decide)) (by decide)
      exact ⟨by decide, by decide, rfl, by decide, by decide, ⟨by decide, by decide, rfl, by decide, by decide, ⟨by decide, by decide, rfl, trivial⟩, trivial⟩, trivial⟩
    · have hok : (Rich.verbatim c%"`code*" (.link c%"http://mau/{a}" (.text c%"a (\"quoted\") text" (.style '_' (.text c%"x" .nil) .nil)) .nil)).Ok true none := by
        refine ⟨by decide, by decide, rfl, by decide, by decide, ?_, by (intro h; cases h), by decide, rfl, trivial⟩
        exact ⟨by decide, by decide, rfl, by decide, by decide, ⟨by decide, by decide, rfl, trivial⟩, trivial⟩
      refine ⟨hok, by (intro h; cases h), by decide, C77_other_line hok (by intro h; cases h) (by decide) (by decide) ?_⟩
      intro c r h
      simp [Rich.line, Rich.protection, Rich.startsWith, Rich.write] at h
  · exact ⟨⟨by decide, by decide, rfl, trivial⟩, by (intro h; cases h), by decide, rfl, ⟨⟨by decide, by decide, rfl, trivial⟩, by (intro h; cases h), by decide, trivial⟩, rfl,
      ⟨by decide, by decide, rfl, rfl, ⟨by simp, by decide, by decide⟩, rfl, ⟨by simp, ⟨by simp, by decide, by decide, by decide⟩, by decide⟩, rfl, ⟨by simp, by decide, by decide⟩, rfl,
        ⟨by simp, by decide, by decide⟩, rfl, by simp, by decide, ⟨by decide, by decide, rfl, by decide, by decide, ⟨by decide, by decide, rfl, trivial⟩, trivial⟩, by decide, trivial⟩,
        by (intro h; cases h), by decide, trivial⟩
  · refine ⟨Deco.plain_ok, by simp, ?_, Deco.plain_ok, by decide, by decide, ⟨Deco.plain_ok, by simp, ?_, trivial⟩, trivial⟩
    · intro l hl
      rw [List.mem_singleton.1 hl]
      exact t1 ⟨by decide, by decide, rfl, trivial⟩ (by rintro ⟨h, -⟩; exact absurd h (by decide)) (by decide)
    · intro l hl
      rw [List.mem_singleton.1 hl]
      exact t1 ⟨by decide, by decide, rfl, trivial⟩ (by rintro ⟨h, -⟩; exact absurd h (by decide)) (by decide)
  · exact ⟨by decide, by (intro l hl; cases hl), by (intro l hl; cases hl), by decide, by (intro l hl; cases hl), by decide, by decide, by (intro l hl; cases hl), by decide, by (intro t ht; cases ht; decide)⟩
  · exact ⟨by decide, by (intro l hl; cases hl), by (intro l hl; cases hl), by decide, by (intro l hl; cases hl), by decide, by decide, by (intro l hl; cases hl), by (intro t ht; cases ht), by (intro t ht; cases ht)⟩
  · intro l hl
    simp only [List.mem_cons, List.not_mem_nil, or_false] at hl
    rcases hl with rfl | rfl | rfl
    · exact ⟨.inl rfl, by decide, by (intro t ht; cases ht), by (intro t ht; cases ht)⟩
    · exact ⟨.inr rfl, by decide, by (intro t ht; cases ht; decide), by (intro t ht; cases ht)⟩
    · exact ⟨.inl rfl, by decide, by (intro t ht; cases ht), by (intro t ht; cases ht; decide)⟩
  · exact ⟨by decide, by (intro l hl; cases hl), by (intro l hl; cases hl), by decide, by (intro l hl; cases hl), by decide, by decide, by (intro l hl; cases hl), by (intro t ht; cases ht), by (intro t ht; cases ht)⟩

/-- The exception: the text of two backslashes would be written as four of them, which is the delimiter of a block. -/
example : (Rich.text c%"\\\\" .nil).line = c%"\\\\\\\\" ∧ ¬ TextLine (Rich.text c%"\\\\" .nil).line :=
  ⟨by decide, fun h => h.2.1 '\\' (by decide)⟩

end Mau
