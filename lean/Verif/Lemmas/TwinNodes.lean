import Verif.Lemmas.TwinText
import Verif.Model.DocumentParser

set_option linter.unusedSimpArgs false

/-!
# Completing nodes that differ in positions only
-/

namespace Mau
open Spec

/-- Nodes that differ in positions only. -/
def LikeNode (n n' : Node) : Prop := Node.adrift n = Node.adrift n'
/-- Labels (or footnote bodies, or members of groups) that differ in positions only. -/
def LikeLabels (d d' : List (Str × Node)) : Prop := adriftLabels d = adriftLabels d'

theorem adriftList_map (ns : List Node) : adriftList ns = ns.map Node.adrift := by
  induction ns with
  | nil => rfl
  | cons n ns ih => simp only [adriftList, List.map_cons, ih]

theorem adriftLabels_over (d : List (Str × Node)) : adriftLabels d = overValues Node.adrift d := by
  induction d with
  | nil => rfl
  | cons e d ih => obtain ⟨k, n⟩ := e; simp only [adriftLabels, ih]; rfl

theorem LikeNode.data {n n' : Node} (h : LikeNode n n') : n.data = n'.data := by
  obtain ⟨d, a, c, cs, ls, ex⟩ := n
  obtain ⟨d', a', c', cs', ls', ex'⟩ := n'
  unfold LikeNode at h
  simp only [Node.adrift, Node.mk.injEq] at h
  exact h.1

theorem LikeNode.ctx {n n' : Node} (h : LikeNode n n') : Near n.ctx n'.ctx := by
  obtain ⟨d, a, c, cs, ls, ex⟩ := n
  obtain ⟨d', a', c', cs', ls', ex'⟩ := n'
  unfold LikeNode at h
  simp only [Node.adrift, Node.mk.injEq] at h
  exact near_iff.2 h.2.2.1

theorem LikeNode.content {n n' : Node} (h : LikeNode n n') : LikeNodes n.content n'.content := by
  obtain ⟨d, a, c, cs, ls, ex⟩ := n
  obtain ⟨d', a', c', cs', ls', ex'⟩ := n'
  unfold LikeNode at h
  simp only [Node.adrift, Node.mk.injEq] at h
  exact h.2.2.2.1

theorem LikeNode.setData {n n' : Node} (h : LikeNode n n') (d : NodeData) : LikeNode (n.setData d) (n'.setData d) := by
  obtain ⟨d, a, c, cs, ls, ex⟩ := n
  obtain ⟨d', a', c', cs', ls', ex'⟩ := n'
  unfold LikeNode at h ⊢
  simp only [Node.adrift, Node.mk.injEq, Node.setData, Node.args, Node.ctx, Node.content, Node.labels, Node.extra] at h ⊢
  exact ⟨trivial, h.2⟩

theorem LikeNode.setContent {n n' : Node} (h : LikeNode n n') {cs cs' : List Node} (hc : LikeNodes cs cs') : LikeNode (n.setContent cs) (n'.setContent cs') := by
  obtain ⟨d, a, c, cs, ls, ex⟩ := n
  obtain ⟨d', a', c', cs', ls', ex'⟩ := n'
  unfold LikeNode at h ⊢
  simp only [Node.adrift, Node.mk.injEq, Node.setContent, Node.args, Node.ctx, Node.data, Node.labels, Node.extra] at h ⊢
  exact ⟨h.1, h.2.1, h.2.2.1, hc, h.2.2.2.2⟩

theorem LikeNode.setExtra {n n' : Node} (h : LikeNode n n') {cs cs' : List Node} (hc : LikeNodes cs cs') : LikeNode (n.setExtra cs) (n'.setExtra cs') := by
  obtain ⟨d, a, c, cs, ls, ex⟩ := n
  obtain ⟨d', a', c', cs', ls', ex'⟩ := n'
  unfold LikeNode at h ⊢
  simp only [Node.adrift, Node.mk.injEq, Node.setExtra, Node.args, Node.ctx, Node.data, Node.labels, Node.content] at h ⊢
  exact ⟨h.1, h.2.1, h.2.2.1, h.2.2.2.1, h.2.2.2.2.1, hc⟩

theorem likeNode_new (d : NodeData) {c c' : Context} (h : Near c c') {ns ns' : List Node} (hn : LikeNodes ns ns') (a : NodeArgs) {ls ls' : List (Str × Node)}
    (hl : LikeLabels ls ls') : LikeNode (Node.new d c ns a ls) (Node.new d c' ns' a ls') := adrift_new d h hn a hl

theorem LikeNodes.cons {n n' : Node} {ns ns' : List Node} (h : LikeNode n n') (hs : LikeNodes ns ns') : LikeNodes (n :: ns) (n' :: ns') := by
  unfold LikeNode at h
  unfold LikeNodes at hs ⊢
  simp only [adriftList, h, hs]

theorem LikeNodes.snoc {n n' : Node} {ns ns' : List Node} (hs : LikeNodes ns ns') (h : LikeNode n n') : LikeNodes (ns ++ [n]) (ns' ++ [n']) :=
  hs.append (.cons h rfl)

/-- Options whose contents are related. -/
def LikeOption {α β : Type} (R : α → β → Prop) (x : Option α) (y : Option β) : Prop := (x = none ∧ y = none) ∨ ∃ a b, x = some a ∧ y = some b ∧ R a b

theorem likeOption_map {α β : Type} {f : α → β} {x y : Option α} (h : x.map f = y.map f) : LikeOption (fun a b => f a = f b) x y := by
  cases x <;> cases y
  · exact .inl ⟨rfl, rfl⟩
  · cases h
  · cases h
  · exact .inr ⟨_, _, rfl, rfl, Option.some.inj h⟩

theorem LikeNodes.last {ns ns' : List Node} (h : LikeNodes ns ns') : LikeOption LikeNode ns.getLast? ns'.getLast? := by
  unfold LikeNodes at h
  rw [adriftList_map, adriftList_map] at h
  refine likeOption_map (f := Node.adrift) ?_
  rw [← List.getLast?_map, ← List.getLast?_map, h]

theorem LikeNodes.head {ns ns' : List Node} (h : LikeNodes ns ns') : LikeOption LikeNode ns.head? ns'.head? := by
  unfold LikeNodes at h
  rw [adriftList_map, adriftList_map] at h
  refine likeOption_map (f := Node.adrift) ?_
  rw [← List.head?_map, ← List.head?_map, h]

theorem LikeNodes.len {ns ns' : List Node} (h : LikeNodes ns ns') : ns.length = ns'.length := by
  unfold LikeNodes at h
  rw [adriftList_map, adriftList_map] at h
  simpa using congrArg List.length h

theorem LikeLabels.get {d d' : List (Str × Node)} (h : LikeLabels d d') (k : Str) : LikeOption LikeNode (Dict.get? d k) (Dict.get? d' k) := by
  unfold LikeLabels at h
  rw [adriftLabels_over, adriftLabels_over] at h
  refine likeOption_map (f := Node.adrift) ?_
  rw [← overValues_get?, ← overValues_get?, h]

theorem LikeLabels.has {d d' : List (Str × Node)} (h : LikeLabels d d') (k : Str) : Dict.has d k = Dict.has d' k := by
  unfold LikeLabels at h
  rw [adriftLabels_over, adriftLabels_over] at h
  rw [← overValues_has Node.adrift d, ← overValues_has Node.adrift d', h]

theorem LikeLabels.set {d d' : List (Str × Node)} (h : LikeLabels d d') (k : Str) {n n' : Node} (hn : LikeNode n n') : LikeLabels (Dict.set d k n) (Dict.set d' k n') := by
  unfold LikeLabels at h ⊢
  rw [adriftLabels_over, adriftLabels_over] at h ⊢
  rw [overValues_set, overValues_set, h, show Node.adrift n = Node.adrift n' from hn]

theorem LikeLabels.update {d d' e e' : List (Str × Node)} (h : LikeLabels d d') (he : LikeLabels e e') : LikeLabels (Dict.update d e) (Dict.update d' e') := by
  unfold LikeLabels at h he ⊢
  rw [adriftLabels_over, adriftLabels_over] at h he ⊢
  rw [overValues_update, overValues_update, h, he]

theorem LikeLabels.nodes {d d' : List (Str × Node)} (h : LikeLabels d d') : LikeNodes (d.map (·.2)) (d'.map (·.2)) := by
  unfold LikeLabels at h
  unfold LikeNodes
  rw [adriftLabels_over, adriftLabels_over] at h
  rw [adriftList_map, adriftList_map]
  have := congrArg (List.map (·.2)) h
  simpa [overValues, Function.comp_def] using this

/-! ## Copies -/

mutual
theorem adrift_detach : ∀ n : Node, Node.adrift n.detach = (Node.adrift n).detach
  | .mk d a c cs ls ex => by
    simp only [Node.adrift, Node.detach, adriftList_detach cs, adriftLabels_detach ls, adriftList_detach ex]
theorem adriftList_detach : ∀ ns : List Node, adriftList (detachList ns) = detachList (adriftList ns)
  | [] => rfl
  | n :: ns => by simp only [adriftList, detachList, adrift_detach n, adriftList_detach ns]
theorem adriftLabels_detach : ∀ ns : List (Str × Node), adriftLabels (detachLabels ns) = detachLabels (adriftLabels ns)
  | [] => rfl
  | (k, n) :: ns => by simp only [adriftLabels, detachLabels, adrift_detach n, adriftLabels_detach ns]
end

theorem LikeNode.detach {n n' : Node} (h : LikeNode n n') : LikeNode n.detach n'.detach := by
  unfold LikeNode at h ⊢
  rw [adrift_detach, adrift_detach, h]

theorem LikeNodes.detach {n n' : List Node} (h : LikeNodes n n') : LikeNodes (detachList n) (detachList n') := by
  unfold LikeNodes at h ⊢
  rw [adriftList_detach, adriftList_detach, h]

/-! ## Completion -/

section
variable (id : Nat) {f g : Node → Node} (hf : ∀ n n', LikeNode n n' → LikeNode (f n) (g n'))

include hf
mutual
theorem LikeNode.mapId : ∀ (n n' : Node), LikeNode n n' → LikeNode (n.mapId id f) (n'.mapId id g)
  | .mk d a c cs ls ex, .mk d' a' c' cs' ls' ex', h => by
    unfold LikeNode at h
    simp only [Node.adrift, Node.mk.injEq] at h
    obtain ⟨rfl, rfl, hc, hcs, hls, hex⟩ := h
    have h1 := LikeNodes.mapId cs cs' hcs
    have h2 := LikeLabels.mapId ls ls' hls
    have h3 := LikeNodes.mapId ex ex' hex
    have h0 : LikeNode (.mk d a c (mapIdList id f cs) (mapIdLabels id f ls) (mapIdList id f ex))
        (.mk d a c' (mapIdList id g cs') (mapIdLabels id g ls') (mapIdList id g ex')) := by
      unfold LikeNode
      simp only [Node.adrift, Node.mk.injEq]
      exact ⟨trivial, trivial, hc, h1, h2, h3⟩
    simp only [Node.mapId]
    split
    · exact hf _ _ h0
    · exact h0
theorem LikeNodes.mapId : ∀ (ns ns' : List Node), LikeNodes ns ns' → LikeNodes (mapIdList id f ns) (mapIdList id g ns')
  | [], [], _ => rfl
  | [], _ :: _, h => by cases h
  | _ :: _, [], h => by cases h
  | n :: ns, n' :: ns', h => by
    unfold LikeNodes at h
    simp only [adriftList, List.cons.injEq] at h
    simp only [mapIdList]
    exact .cons (LikeNode.mapId n n' h.1) (LikeNodes.mapId ns ns' h.2)
theorem LikeLabels.mapId : ∀ (ns ns' : List (Str × Node)), LikeLabels ns ns' → LikeLabels (mapIdLabels id f ns) (mapIdLabels id g ns')
  | [], [], _ => rfl
  | [], _ :: _, h => by cases h
  | _ :: _, [], h => by cases h
  | (k, n) :: ns, (k', n') :: ns', h => by
    unfold LikeLabels at h
    simp only [adriftLabels, List.cons.injEq, Prod.mk.injEq] at h
    obtain ⟨⟨rfl, h1⟩, h2⟩ := h
    simp only [mapIdLabels]
    have e1 := LikeNode.mapId n n' h1
    have e2 := LikeLabels.mapId ns ns' h2
    unfold LikeLabels LikeNode at *
    simp only [adriftLabels, e1, e2]
end

end

/-! ## States of the document parser -/

/-- The groups of blocks. -/
def LikeGroups (g g' : Dict (Dict Node)) : Prop := overValues adriftLabels g = overValues adriftLabels g'

/-- The log of the includes, without positions. -/
def adriftCalls (l : List IncludeCall) : List IncludeCall := l.map fun i => { i with ctx := Context.adrift i.ctx }

/-- States of the document parser that differ in positions only. -/
structure DocTwin (s s' : DocSt) : Prop where
  next : s.next = s'.next
  uid : s.uid = s'.uid
  env : s.env = s'.env
  nodes : LikeNodes s.nodes s'.nodes
  argsBuf : s.argsBuf = s'.argsBuf
  labelBuf : LikeLabels s.labelBuf s'.labelBuf
  controlBuf : LikeOption LikeControl s.controlBuf s'.controlBuf
  latest : s.latest = s'.latest
  forbidden : s.forbidden = s'.forbidden
  includeCalls : adriftCalls s.includeCalls = adriftCalls s'.includeCalls
  footnoteMacros : s.footnoteMacros = s'.footnoteMacros
  bodies : LikeLabels s.bodies s'.bodies
  footnoteLists : s.footnoteLists = s'.footnoteLists
  tocHeaders : s.tocHeaders = s'.tocHeaders
  tocNodes : s.tocNodes = s'.tocNodes
  linkMacros : s.linkMacros = s'.linkMacros
  linkHeaders : s.linkHeaders = s'.linkHeaders
  groups : LikeGroups s.groups s'.groups
  groupNodes : s.groupNodes = s'.groupNodes
  places : adriftPlaces s.places = adriftPlaces s'.places
  objs : LikeNodes s.objs s'.objs

theorem DocTwin.update {s s' : DocSt} (h : DocTwin s s') (id : Nat) {f g : Node → Node} (hf : ∀ n n', LikeNode n n' → LikeNode (f n) (g n')) :
    DocTwin (s.updateNode id f) (s'.updateNode id g) :=
  { h with
    nodes := LikeNodes.mapId id hf _ _ h.nodes
    bodies := LikeLabels.mapId id hf _ _ h.bodies
    groups := by
      have h1 := h.groups
      unfold LikeGroups at h1 ⊢
      change overValues adriftLabels (s.groups.map _) = overValues adriftLabels (s'.groups.map _)
      generalize s.groups = d at h1
      generalize s'.groups = d' at h1
      unfold overValues at h1 ⊢
      induction d generalizing d' with
      | nil => cases d' with | nil => rfl | cons => cases h1
      | cons e d ih =>
        cases d' with
        | nil => cases h1
        | cons e' d' =>
          simp only [List.map_cons, List.cons.injEq, Prod.mk.injEq] at h1 ⊢
          exact ⟨⟨h1.1.1, LikeLabels.mapId id hf _ _ h1.1.2⟩, ih d' h1.2⟩
    objs := LikeNodes.mapId id hf _ _ h.objs }

theorem DocTwin.obj {s s' : DocSt} (h : DocTwin s s') (id : Nat) : LikeOption LikeNode (s.obj? id) (s'.obj? id) := by
  unfold DocSt.obj?
  have h1 := h.objs
  generalize s.objs = l at h1
  generalize s'.objs = l' at h1
  induction l generalizing l' with
  | nil => cases l' with | nil => exact .inl ⟨rfl, rfl⟩ | cons => cases h1
  | cons n l ih =>
    cases l' with
    | nil => cases h1
    | cons n' l' =>
      unfold LikeNodes at h1
      simp only [adriftList, List.cons.injEq] at h1
      have hn : LikeNode n n' := h1.1
      rw [List.find?_cons, List.find?_cons, hn.data]
      split
      · exact .inr ⟨_, _, rfl, rfl, hn⟩
      · exact ih l' h1.2

theorem DocTwin.place {s s' : DocSt} (h : DocTwin s s') (id : Nat) : (s.placeOf id).map Context.adrift = (s'.placeOf id).map Context.adrift := by
  unfold DocSt.placeOf
  have h1 := h.places
  generalize s.places = l at h1
  generalize s'.places = l' at h1
  induction l generalizing l' with
  | nil => cases l' with | nil => rfl | cons => cases h1
  | cons n l ih =>
    cases l' with
    | nil => cases h1
    | cons n' l' =>
      unfold adriftPlaces at h1
      simp only [List.map_cons, List.cons.injEq, Prod.mk.injEq] at h1
      rw [List.find?_cons, List.find?_cons, h1.1.1]
      split
      · simp only [Option.map_some, h1.1.2]
      · exact ih l' h1.2

/-! ## Finalisation -/

/-- The functions that give headers and footnotes their identities do not look at positions. -/
structure Blind (cfg : Config) : Prop where
  header : ∀ n n', LikeNode n n' → cfg.headerId n = cfg.headerId n'
  footnote : ∀ n n', LikeNode n n' → cfg.footnoteId n = cfg.footnoteId n'

theorem makeFootnotes_like {cfg : Config} (hb : Blind cfg) : ∀ (d d' : Dict Node) (k u : Nat), LikeLabels d d' →
    LikeLabels (makeFootnotes cfg k u d).1 (makeFootnotes cfg k u d').1 ∧ (makeFootnotes cfg k u d).2 = (makeFootnotes cfg k u d').2
  | [], [], _, _, _ => ⟨rfl, rfl⟩
  | [], _ :: _, _, _, h => by cases h
  | _ :: _, [], _, _, h => by cases h
  | (x, n) :: d, (x', n') :: d', k, u, h => by
    unfold LikeLabels at h
    simp only [adriftLabels, List.cons.injEq, Prod.mk.injEq] at h
    obtain ⟨⟨rfl, h1⟩, h2⟩ := h
    have hn : LikeNode n n' := h1
    have ih := makeFootnotes_like hb d d' (k + 1) (u + 1) h2
    simp only [makeFootnotes]
    have h3 := likeNode_new (.footnote u x (some (natStr k)) none) (show Near Context.empty Context.empty from rfl) hn.content.detach {} (show LikeLabels [] [] from rfl)
    refine ⟨?_, ih.2⟩
    have h4 := ih.1
    unfold LikeLabels at h4 ⊢
    simp only [adriftLabels, List.cons.injEq, Prod.mk.injEq]
    refine ⟨⟨trivial, ?_⟩, h4⟩
    rw [hb.footnote _ _ h3]
    exact LikeNode.setData h3 _

theorem both_linkFootnotes {fns fns' : Dict Node} (hf : LikeLabels fns fns') : ∀ (l : List (Nat × Str)) (s s' : DocSt), DocTwin s s' →
    Both DocTwin (linkFootnotes fns l s) (linkFootnotes fns' l s')
  | [], _, _, h => h
  | (id, name) :: l, s, s', h => by
    simp only [linkFootnotes]
    rcases hf.get name with ⟨h1, h2⟩ | ⟨a, b, h1, h2, h3⟩
    · rw [h1, h2]
      change SameErr _ _
      simp only [SameErr, Err.said, h.place id]
    · rw [h1, h2]
      dsimp only
      rw [h3.data]
      exact both_linkFootnotes hf l _ _ (h.update id fun _ _ hn => hn.setData _)

theorem both_linkFootnotes_eq {fns fns' : Dict Node} (hf : LikeLabels fns fns') {l l' : List (Nat × Str)} (e : l = l') {s s' : DocSt} (h : DocTwin s s') :
    Both DocTwin (linkFootnotes fns l s) (linkFootnotes fns' l' s') := by
  subst e
  exact both_linkFootnotes hf l s s' h

theorem fold_twin {α : Type} {f g : DocSt → α → DocSt} (h : ∀ s s' a, DocTwin s s' → DocTwin (f s a) (g s' a)) (l : List α) (s s' : DocSt) (hs : DocTwin s s') :
    DocTwin (l.foldl f s) (l.foldl g s') := by
  induction l generalizing s s' with
  | nil => exact hs
  | cons a l ih => exact ih _ _ (h _ _ _ hs)

theorem both_processFootnotes {cfg : Config} (hb : Blind cfg) {s s' : DocSt} (h : DocTwin s s') : Both DocTwin (processFootnotes cfg s) (processFootnotes cfg s') := by
  unfold processFootnotes
  have hm := makeFootnotes_like hb s.bodies s'.bodies 1 s.uid h.bodies
  rw [← h.uid]
  generalize hx : makeFootnotes cfg 1 s.uid s.bodies = x at hm
  generalize hy : makeFootnotes cfg 1 s.uid s'.bodies = y at hm
  obtain ⟨fns, u⟩ := x
  obtain ⟨fns', u'⟩ := y
  obtain ⟨h1, rfl⟩ := hm
  dsimp only
  have h2 : DocTwin { s with uid := u, objs := s.objs ++ fns.map (·.2) } { s' with uid := u, objs := s'.objs ++ fns'.map (·.2) } :=
    { h with uid := rfl, objs := h.objs.append h1.nodes }
  have h1 : LikeLabels fns fns' := h1
  have h3 := both_linkFootnotes_eq h1 h.footnoteMacros h2
  cases e1 : linkFootnotes fns s.footnoteMacros { s with uid := u, objs := s.objs ++ fns.map (·.2) } <;>
    cases e2 : linkFootnotes fns' s'.footnoteMacros { s' with uid := u, objs := s'.objs ++ fns'.map (·.2) } <;> rw [e1, e2] at h3
  · exact h3
  · exact h3.elim
  · exact h3.elim
  · rename_i t t'
    have ht : DocTwin t t' := h3
    dsimp only
    rw [← ht.footnoteLists]
    refine fold_twin (fun a a' i ha => ha.update i fun _ _ hn => hn.setContent ?_) _ _ _ ht
    unfold LikeLabels at h1
    unfold LikeNodes
    rw [adriftLabels_over, adriftLabels_over] at h1
    have := congrArg (List.map fun kv : Str × Node => Node.adrift (Node.new (.footnotesItem kv.2.data.id) Context.empty)) h1
    have e : ∀ n : Node, (Node.adrift n).data = n.data := fun n => by cases n; rfl
    simpa [overValues, adriftList_map, Function.comp_def, e] using this

theorem setHeaderId_twin {cfg : Config} (hb : Blind cfg) {s s' : DocSt} (h : DocTwin s s') (id : Nat) : DocTwin (setHeaderId cfg s id) (setHeaderId cfg s' id) := by
  unfold setHeaderId
  rcases h.obj id with ⟨h1, h2⟩ | ⟨a, b, h1, h2, h3⟩
  · rw [h1, h2]; exact h
  · rw [h1, h2]
    dsimp only
    rw [h3.data]
    split
    · rw [hb.header _ _ h3]
      exact h.update id fun _ _ hn => hn.setData _
    · exact h

theorem processToc_twin {cfg : Config} (hb : Blind cfg) {s s' : DocSt} (h : DocTwin s s') : DocTwin (processToc cfg s) (processToc cfg s') := by
  unfold processToc
  rw [← h.tocHeaders]
  split
  · exact h
  · have h1 := fold_twin (fun a a' (i : Nat × Nat) ha => setHeaderId_twin hb ha i.1) s.tocHeaders _ _ h
    dsimp only
    generalize List.foldl _ s s.tocHeaders = t at h1 ⊢
    generalize List.foldl _ s' s.tocHeaders = t' at h1 ⊢
    rw [← h1.tocNodes, h1.tocHeaders]
    refine fold_twin (fun a a' i ha => ha.update i fun _ _ hn => (hn.setContent rfl).setExtra ?_) _ _ _ h1
    rw [← ha.tocHeaders]
    generalize a.tocHeaders = hs
    induction hs with
    | nil => rfl
    | cons x hs ih =>
      simp only [List.filterMap_cons]
      rcases ha.obj x.1 with ⟨h1, h2⟩ | ⟨p, q, h1, h2, h3⟩
      · rw [h1, h2]; exact ih
      · rw [h1, h2]; exact .cons h3.detach ih

theorem both_linkHeaders : ∀ (l : List (Nat × Str)) (s s' : DocSt), DocTwin s s' → Both DocTwin (linkHeaders l s) (linkHeaders l s')
  | [], _, _, h => h
  | (id, target) :: l, s, s', h => by
    simp only [linkHeaders]
    rw [← h.linkHeaders]
    split
    · change SameErr _ _
      simp only [SameErr, Err.said, h.place id]
    · rename_i hid _
      have h1 := h.update id (f := fun n => n.setData (.macroHeader id target (some hid))) (g := fun n => n.setData (.macroHeader id target (some hid))) fun _ _ hn => hn.setData _
      refine both_linkHeaders l _ _ (h1.update id fun n n' hn => ?_)
      rw [hn.content.isEmpty]
      split
      · refine hn.setContent ?_
        rcases h1.obj hid with ⟨h1, h2⟩ | ⟨p, q, h1, h2, h3⟩
        · rw [h1, h2]; rfl
        · rw [h1, h2]; exact h3.content.detach
      · exact hn

theorem LikeGroups.get {d d' : Dict (Dict Node)} (h : LikeGroups d d') (k : Str) : LikeOption LikeLabels (Dict.get? d k) (Dict.get? d' k) := by
  unfold LikeGroups at h
  refine likeOption_map (f := adriftLabels) ?_
  rw [← overValues_get?, ← overValues_get?, h]

theorem both_processGroups : ∀ (l : List (Nat × Str)) (s s' : DocSt), DocTwin s s' → Both DocTwin (processGroups l s) (processGroups l s')
  | [], _, _, h => h
  | (id, name) :: l, s, s', h => by
    simp only [processGroups]
    rcases h.groups.get name with ⟨h1, h2⟩ | ⟨a, b, h1, h2, h3⟩
    · rw [h1, h2]
      change SameErr _ _
      simp only [SameErr, Err.said, h.place id]
    · rw [h1, h2]
      exact both_processGroups l _ _ (h.update id fun _ _ hn => hn.setContent h3.nodes)

theorem both_finalise {cfg : Config} (hb : Blind cfg) {s s' : DocSt} (h : DocTwin s s') : Both DocTwin (finalise cfg s) (finalise cfg s') := by
  unfold finalise
  refine (both_processFootnotes hb h).bind fun a b hab => ?_
  have h1 := processToc_twin hb hab
  dsimp only
  rw [← h1.linkMacros]
  refine (both_linkHeaders _ _ _ h1).bind fun c d hcd => ?_
  rw [← hcd.groupNodes]
  exact both_processGroups _ _ _ hcd

theorem both_addBlock {g g' : Dict (Dict Node)} (h : LikeGroups g g') (grp pos : Str) {n n' : Node} (hn : LikeNode n n') :
    Both LikeGroups (addBlock g grp pos n) (addBlock g' grp pos n') := by
  unfold addBlock
  have hi : LikeLabels ((Dict.get? g grp).getD []) ((Dict.get? g' grp).getD []) := by
    rcases h.get grp with ⟨h1, h2⟩ | ⟨a, b, h1, h2, h3⟩
    · rw [h1, h2]; rfl
    · rw [h1, h2]; exact h3
  dsimp only
  rw [hi.has]
  split
  · exact sees_err hn.ctx
  · have h1 := hi.set pos (likeNode_new (.blockgroupItem grp pos) (show Near Context.empty Context.empty from rfl) (LikeNodes.cons hn (show LikeNodes [] [] from rfl)) {} (show LikeLabels [] [] from rfl))
    change overValues adriftLabels _ = overValues adriftLabels _
    unfold LikeGroups at h
    unfold LikeLabels at h1
    rw [overValues_set, overValues_set, h, h1]

theorem both_spanOf {ns ns' : List Node} (h : LikeNodes ns ns') : Both Near (spanOf ns) (spanOf ns') := by
  unfold spanOf
  rcases h.head with ⟨h1, h2⟩ | ⟨a, b, h1, h2, h3⟩
  · rw [h1, h2]; exact rfl
  · rcases h.last with ⟨h4, h5⟩ | ⟨a', b', h4, h5, h6⟩
    · rw [h1, h2, h4, h5]; exact rfl
    · rw [h1, h2, h4, h5]; exact h3.ctx.merge

end Mau
