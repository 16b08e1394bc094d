import Verif.Spec.MovedRender
import Verif.Lemmas.TwinDoc

set_option linter.unusedSimpArgs false
set_option linter.unusedVariables false

/-!
# Visiting nodes that differ in positions only
-/

namespace Mau
open Spec

def LikeData (d d' : VData) : Prop := dataAdrift d = dataAdrift d'
def LikeEntries (d d' : List (Str × VData)) : Prop := entriesAdrift d = entriesAdrift d'
def LikeAll (d d' : List VData) : Prop := allAdrift d = allAdrift d'

theorem entriesAdrift_append (a b : List (Str × VData)) : entriesAdrift (a ++ b) = entriesAdrift a ++ entriesAdrift b := by
  induction a with
  | nil => rfl
  | cons x a ih => obtain ⟨k, v⟩ := x; simp only [List.cons_append, entriesAdrift, ih]

theorem LikeEntries.append {a a' b b' : List (Str × VData)} (h : LikeEntries a a') (h' : LikeEntries b b') : LikeEntries (a ++ b) (a' ++ b') := by
  unfold LikeEntries at *
  rw [entriesAdrift_append, entriesAdrift_append, h, h']

theorem LikeEntries.obj {a a' : List (Str × VData)} (h : LikeEntries a a') : LikeData (.obj a) (.obj a') := by
  unfold LikeEntries at h
  simp only [LikeData, dataAdrift, h]

theorem LikeAll.list {a a' : List VData} (h : LikeAll a a') : LikeData (.list a) (.list a') := by
  unfold LikeAll at h
  simp only [LikeData, dataAdrift, h]

theorem LikeEntries.cons (k : Str) {d d' : VData} (h : LikeData d d') {a a' : List (Str × VData)} (hs : LikeEntries a a') :
    LikeEntries ((k, d) :: a) ((k, d') :: a') := by
  unfold LikeEntries LikeData at *
  simp only [entriesAdrift, h, hs]

structure EnvTwin (e e' : VisitEnv) : Prop where
  objs : LikeNodes e.objs e'.objs
  parents : SameParents e.parents e'.parents
  context : e.addContext = e'.addContext
  parent : e.addParent = e'.addParent

theorem LikeNode.args {n n' : Node} (h : LikeNode n n') : n.args = n'.args := by
  obtain ⟨d, a, c, cs, ls, ex⟩ := n
  obtain ⟨d', a', c', cs', ls', ex'⟩ := n'
  unfold LikeNode at h
  simp only [Node.adrift, Node.mk.injEq] at h
  exact h.2.1

theorem LikeNode.labels {n n' : Node} (h : LikeNode n n') : LikeLabels n.labels n'.labels := by
  obtain ⟨d, a, c, cs, ls, ex⟩ := n
  obtain ⟨d', a', c', cs', ls', ex'⟩ := n'
  unfold LikeNode at h
  simp only [Node.adrift, Node.mk.injEq] at h
  exact h.2.2.2.2.1

theorem LikeNode.extra {n n' : Node} (h : LikeNode n n') : LikeNodes n.extra n'.extra := by
  obtain ⟨d, a, c, cs, ls, ex⟩ := n
  obtain ⟨d', a', c', cs', ls', ex'⟩ := n'
  unfold LikeNode at h
  simp only [Node.adrift, Node.mk.injEq] at h
  exact h.2.2.2.2.2

theorem LikeNode.facts {n n' : Node} (h : LikeNode n n') : n.facts = n'.facts := by
  unfold Node.facts
  rw [h.data, h.args]

theorem noNumbers_context {c c' : Context} (h : Near c c') : noNumbers (dataAdrift (contextData c)) = noNumbers (dataAdrift (contextData c')) := by
  unfold Near at h
  have e : ∀ c : Context, noNumbers (dataAdrift (contextData c)) =
      .obj [(c%"start_line", .int 0), (c%"start_column", .int 0), (c%"end_line", .int 0), (c%"end_column", .int 0), (c%"source", VData.opt c.source)] := by
    intro c
    cases hs : c.source with
    | none => rw [contextData, hs]; rfl
    | some x => rw [contextData, hs]; rfl
  rw [e, e, h]

theorem likeBase {e e' : VisitEnv} (he : EnvTwin e e') {n n' : Node} (h : LikeNode n n') : LikeEntries (baseData e n) (baseData e' n') := by
  unfold baseData
  rw [h.data, h.args, he.context]
  refine LikeEntries.append rfl ?_
  split
  · unfold LikeEntries
    simp only [entriesAdrift, if_true, noNumbers_context h.ctx]
  · rfl

theorem likeDefault {e e' : VisitEnv} (he : EnvTwin e e') (p : Place) {n n' : Node} (h : LikeNode n n') : LikeEntries (defaultData e p n) (defaultData e' p n') := by
  unfold defaultData
  rw [he.parent]
  refine LikeEntries.append (likeBase he h) ?_
  split
  · refine LikeEntries.cons _ (LikeEntries.obj ?_) rfl
    have hp := he.parents p
    generalize e.parents p = x at hp
    generalize e'.parents p = y at hp
    cases x <;> cases y
    · rfl
    · cases hp
    · cases hp
    · exact likeBase he (Option.some.inj hp)
  · rfl

structure OpsTwin (o o' : VisitOps) : Prop where
  one : ∀ p n n', LikeNode n n' → Both LikeData (o.one p n) (o'.one p n')
  data : ∀ p n n', LikeNode n n' → Both LikeData (o.data p n) (o'.data p n')
  list : ∀ cur cur' p k ns ns', LikeNode cur cur' → LikeNodes ns ns' → Both LikeData (o.list cur p k ns) (o'.list cur' p k ns')
  absent : LikeData o.absent o'.absent

theorem both_visitAll {v v' : Place → Node → Except Err VData} (hv : ∀ p n n', LikeNode n n' → Both LikeData (v p n) (v' p n')) (p : Place) (k : Nat) :
    ∀ (ns ns' : List Node) (i : Nat), LikeNodes ns ns' → Both LikeAll (visitAll v p k i ns) (visitAll v' p k i ns') := by
  intro ns
  induction ns with
  | nil =>
    intro ns' i h
    cases ns' with
    | nil => exact rfl
    | cons n' ns' => cases h.len
  | cons n ns ih =>
    intro ns' i h
    cases ns' with
    | nil => cases h.len
    | cons n' ns' =>
      unfold LikeNodes at h
      simp only [adriftList, List.cons.injEq] at h
      refine Both.bind (hv _ _ _ h.1) fun x x' hx => Both.bind (ih ns' (i + 1) h.2) fun y y' hy => ?_
      change allAdrift _ = allAdrift _
      unfold LikeData at hx
      unfold LikeAll at hy
      simp only [allAdrift, hx, hy]

/-- Entries of nodes with any keys, visited. -/
theorem both_visitDict {v v' : Place → Node → Except Err VData}
    (hv : ∀ p n n', LikeNode n n' → Both LikeData (v p n) (v' p n')) (p : Place) (k : Nat) :
    ∀ (ns ns' : List (Str × Node)) (i : Nat), LikeLabels ns ns' → Both LikeEntries (visitDict v p k i ns) (visitDict v' p k i ns') := by
  intro ns
  induction ns with
  | nil =>
    intro ns' i h
    cases ns' with
    | nil => exact rfl
    | cons n' ns' =>
      obtain ⟨k', n'⟩ := n'
      unfold LikeLabels at h
      simp only [adriftLabels] at h
      cases h
  | cons n ns ih =>
    obtain ⟨ky, n⟩ := n
    intro ns' i h
    cases ns' with
    | nil =>
      unfold LikeLabels at h
      simp only [adriftLabels] at h
      cases h
    | cons n' ns' =>
      obtain ⟨ky', n'⟩ := n'
      unfold LikeLabels at h
      simp only [adriftLabels, List.cons.injEq, Prod.mk.injEq] at h
      obtain ⟨⟨rfl, h1⟩, h2⟩ := h
      exact Both.bind (hv _ _ _ h1) fun x x' hx => Both.bind (ih ns' (i + 1) h2) fun y y' hy => LikeEntries.cons _ hx hy

theorem LikeNodes.find {ns ns' : List Node} (h : LikeNodes ns ns') (f : NodeData → Bool) :
    LikeOption LikeNode (ns.find? fun n => f n.data) (ns'.find? fun n => f n.data) := by
  induction ns generalizing ns' with
  | nil =>
    cases ns' with
    | nil => exact .inl ⟨rfl, rfl⟩
    | cons n' ns' => cases h.len
  | cons n ns ih =>
    cases ns' with
    | nil => cases h.len
    | cons n' ns' =>
      unfold LikeNodes at h
      simp only [adriftList, List.cons.injEq] at h
      have hn : LikeNode n n' := h.1
      rw [List.find?_cons, List.find?_cons, hn.data]
      cases f n'.data with
      | true => exact .inr ⟨_, _, rfl, rfl, hn⟩
      | false => exact ih h.2

theorem both_visitRef {e e' : VisitEnv} (he : EnvTwin e e') {o o' : VisitOps} (ho : OpsTwin o o') (r : Option Nat) : Both LikeData (visitRef e o r) (visitRef e' o' r) := by
  cases r with
  | none => exact rfl
  | some id =>
    unfold visitRef
    dsimp only
    rcases he.objs.find (fun d => d.id == id) with ⟨h1, h2⟩ | ⟨a, b, h1, h2, h3⟩
    · rw [h1, h2]; exact rfl
    · rw [h1, h2]; exact ho.data _ _ _ h3

theorem both_content {o o' : VisitOps} (ho : OpsTwin o o') (p : Place) {n n' : Node} (h : LikeNode n n') : Both LikeEntries (contentData o p n) (contentData o' p n') :=
  Both.bind (ho.list _ _ _ _ _ _ h h.content) fun _ _ hx => LikeEntries.cons _ hx rfl

theorem both_labels {o o' : VisitOps} (ho : OpsTwin o o') (p : Place) {n n' : Node} (h : LikeNode n n') : Both LikeEntries (labelsData o p n) (labelsData o' p n') :=
  Both.bind (both_visitDict ho.one _ _ _ _ _ h.labels) fun _ _ hx => LikeEntries.cons _ hx.obj rfl

theorem likeItems {ns ns' : List Node} (h : LikeNodes ns ns') :
    LikeLabels (ns.map fun i => (match i.data with | .blockgroupItem _ pos => pos | _ => [], i)) (ns'.map fun i => (match i.data with | .blockgroupItem _ pos => pos | _ => [], i)) := by
  induction ns generalizing ns' with
  | nil =>
    cases ns' with
    | nil => rfl
    | cons n' ns' => cases h.len
  | cons n ns ih =>
    cases ns' with
    | nil => cases h.len
    | cons n' ns' =>
      unfold LikeNodes at h
      simp only [adriftList, List.cons.injEq] at h
      have hn : LikeNode n n' := h.1
      have hi := ih h.2
      unfold LikeLabels at hi ⊢
      simp only [List.map_cons, adriftLabels, hi, hn.data]
      rw [show Node.adrift n = Node.adrift n' from hn]

theorem both_pure {a b : List (Str × VData)} (h : LikeEntries a b) : Both LikeEntries (pure a) (pure b) := h

theorem both_fields {e e' : VisitEnv} (he : EnvTwin e e') {o o' : VisitOps} (ho : OpsTwin o o') (p : Place) {n n' : Node} (h : LikeNode n n') :
    Both LikeEntries (nodeFields e o p n) (nodeFields e' o' p n') := by
  have hc := both_content ho p h
  have hl := both_labels ho p h
  have c1 : ∀ x : List (Str × VData), Both LikeEntries (do return x ++ (← contentData o p n)) (do return x ++ (← contentData o' p n')) :=
    fun x => Both.bind hc fun a b hab => LikeEntries.append rfl hab
  have c2 : ∀ x : List (Str × VData), Both LikeEntries (do return x ++ (← contentData o p n) ++ (← labelsData o p n)) (do return x ++ (← contentData o' p n') ++ (← labelsData o' p n')) :=
    fun x => Both.bind hc fun a b hab => Both.bind hl fun a' b' hab' => LikeEntries.append (LikeEntries.append rfl hab) hab'
  have c3 : ∀ x : List (Str × VData), Both LikeEntries (do return x ++ (← labelsData o p n)) (do return x ++ (← labelsData o' p n')) :=
    fun x => Both.bind hl fun a b hab => LikeEntries.append rfl hab
  have hd := h.data
  unfold nodeFields
  rw [← hd]
  cases hk : n.data <;> dsimp only
  case macroHeader i t r =>
    exact Both.bind (both_visitRef he ho r) fun a b hab => Both.bind hc fun a' b' hab' => LikeEntries.append (LikeEntries.cons _ rfl (LikeEntries.cons _ hab rfl)) hab'
  case macroFootnote i t r => exact Both.bind (both_visitRef he ho r) fun a b hab => LikeEntries.cons _ hab rfl
  case footnotesItem f => exact Both.bind (both_visitRef he ho (some f)) fun a b hab => LikeEntries.cons _ hab rfl
  case footnotes i =>
    exact Both.bind (ho.list _ _ _ _ _ _ h h.content) fun a b hab => Both.bind hl fun a' b' hab' => LikeEntries.append (LikeEntries.cons _ hab rfl) hab'
  case tocItem f =>
    exact Both.bind (both_visitRef he ho (some f)) fun a b hab => Both.bind (ho.list _ _ _ _ _ _ h h.content) fun a' b' hab' =>
      LikeEntries.cons _ hab (LikeEntries.cons _ hab' rfl)
  case toc i =>
    exact Both.bind (ho.list _ _ _ _ _ _ h h.extra) fun a b hab => Both.bind (ho.list _ _ _ _ _ _ h h.content) fun a' b' hab' =>
      Both.bind hl fun a2 b2 hab2 => LikeEntries.append (LikeEntries.cons _ hab (LikeEntries.cons _ hab' rfl)) hab2
  case blockgroup i nm =>
    exact Both.bind (both_visitDict ho.one _ _ _ _ _ (likeItems h.content)) fun a b hab =>
      Both.bind hl fun a2 b2 hab2 => LikeEntries.append (LikeEntries.cons _ rfl (LikeEntries.cons _ hab.obj rfl)) hab2
  case blockgroupItem i pos =>
    have hcs := h.content
    generalize n.content = x at hcs
    generalize n'.content = y at hcs
    cases x <;> cases y
    · exact LikeEntries.cons _ rfl (LikeEntries.cons _ rfl (LikeEntries.cons _ ho.absent rfl))
    · cases hcs.len
    · cases hcs.len
    · unfold LikeNodes at hcs
      simp only [adriftList, List.cons.injEq] at hcs
      exact Both.bind (ho.data _ _ _ hcs.1) fun a b hab => Both.bind (ho.one _ _ _ hcs.1) fun a' b' hab' =>
        LikeEntries.cons _ rfl (LikeEntries.cons _ hab (LikeEntries.cons _ hab' rfl))
  case sourceLine i ct hl2 =>
    have hcs := h.content
    generalize n.content = x at hcs
    generalize n'.content = y at hcs
    cases x <;> cases y
    · exact LikeEntries.cons _ rfl (LikeEntries.cons _ rfl (LikeEntries.cons _ rfl (LikeEntries.cons _ ho.absent rfl)))
    · cases hcs.len
    · cases hcs.len
    · unfold LikeNodes at hcs
      simp only [adriftList, List.cons.injEq] at hcs
      exact Both.bind (ho.one _ _ _ hcs.1) fun a b hab => LikeEntries.cons _ rfl (LikeEntries.cons _ rfl (LikeEntries.cons _ rfl (LikeEntries.cons _ hab rfl)))
  all_goals first
    | exact c1 _
    | exact c2 _
    | exact c3 _
    | exact hl
    | exact hc
    | exact Both.bind hc fun a b hab => Both.bind hl fun a' b' hab' => LikeEntries.append hab hab'
    | exact rfl

theorem both_accept {e e' : VisitEnv} (he : EnvTwin e e') {o o' : VisitOps} (ho : OpsTwin o o') (p : Place) {n n' : Node} (h : LikeNode n n') :
    Both LikeData (acceptNode e o p n) (acceptNode e' o' p n') :=
  Both.bind (both_fields he ho p h) fun _ _ hab => ((likeDefault he p h).append hab).obj

theorem opsTwin_base {v v' : Place → Node → Except Err VData} (hv : ∀ p n n', LikeNode n n' → Both LikeData (v p n) (v' p n')) : OpsTwin (baseOps v) (baseOps v') :=
  ⟨hv, hv, fun _ _ p k ns ns' _ h => Both.bind (both_visitAll hv p k ns ns' 0 h) fun _ _ hab => hab.list, rfl⟩

theorem both_visit {e e' : VisitEnv} (he : EnvTwin e e') : ∀ (fuel : Nat) (p : Place) (n n' : Node), LikeNode n n' → Both LikeData (visit e fuel p n) (visit e' fuel p n')
  | 0, _, _, _, _ => rfl
  | k + 1, p, n, n', h => both_accept he (opsTwin_base (both_visit he k)) p h

/-! ## Jinja -/

theorem both_nodeErr {e e' : VisitEnv} (he : EnvTwin e e') {n n' : Node} (h : LikeNode n n') (m : Msg) : SameErr (nodeErr e n m) (nodeErr e' n' m) := by
  unfold nodeErr
  rw [he.context, h.data]
  split
  · unfold SameErr
    simp only [Err.said, Option.map_some]
    rw [near_iff.1 (show Near n.ctx.adjust n'.ctx.adjust from h.ctx)]
  · rfl

theorem both_renderNode {j : JinjaVisitor} (hj : Placeless j.render) {e e' : VisitEnv} (he : EnvTwin e e') {n n' : Node} (h : LikeNode n n') (name : Str)
    {d d' : List (Str × VData)} (hd : LikeEntries d d') : Both (fun a b => a = b) (j.renderNode e n name d) (j.renderNode e' n' name d') := by
  unfold JinjaVisitor.renderNode
  refine Both.bind (Both.refl (R := fun a b => a = b) _ fun _ => rfl) fun c c' hcc => ?_
  subst hcc
  rw [hj name c d d' hd]
  cases j.render name c d' with
  | ok s => exact rfl
  | error r =>
    cases r with
    | undefined t => exact both_nodeErr he h _
    | raised p => exact rfl

theorem both_finish {j : JinjaVisitor} (hj : Placeless j.render) {e e' : VisitEnv} (he : EnvTwin e e') (p : Place) {n n' : Node} (h : LikeNode n n')
    {d d' : VData} (hd : LikeData d d') : Both (fun a b => a = b) (j.finish e p n d) (j.finish e' p n' d') := by
  unfold JinjaVisitor.finish
  have hp : (e.parents p).map Node.facts = (e'.parents p).map Node.facts := by
    have hp := he.parents p
    generalize e.parents p = x at hp
    generalize e'.parents p = y at hp
    cases x <;> cases y
    · rfl
    · cases hp
    · cases hp
    · exact congrArg some (LikeNode.facts (Option.some.inj hp))
  rw [h.facts, hp]
  cases findTemplate j.templates j.prefixes n'.facts ((e'.parents p).map Node.facts) with
  | none => exact both_nodeErr he h _
  | some t =>
    dsimp only
    unfold LikeData at hd
    cases d <;> cases d' <;> simp only [dataAdrift] at hd <;> first | exact rfl | (cases hd; done) | skip
    exact both_renderNode hj he h _ (VData.obj.inj hd)

theorem both_visitStrs {v v' : Place → Node → Except Err Str} (hv : ∀ p n n', LikeNode n n' → Both (fun a b => a = b) (v p n) (v' p n')) (p : Place) (k : Nat) :
    ∀ (ns ns' : List Node) (i : Nat), LikeNodes ns ns' → Both (fun a b => a = b) (visitStrs v p k i ns) (visitStrs v' p k i ns') := by
  intro ns
  induction ns with
  | nil =>
    intro ns' i h
    cases ns' with
    | nil => exact rfl
    | cons n' ns' => cases h.len
  | cons n ns ih =>
    intro ns' i h
    cases ns' with
    | nil => cases h.len
    | cons n' ns' =>
      unfold LikeNodes at h
      simp only [adriftList, List.cons.injEq] at h
      refine Both.bind (hv _ _ _ h.1) fun x x' hx => Both.bind (ih ns' (i + 1) h.2) fun y y' hy => ?_
      subst hx hy
      exact rfl

theorem opsTwin_jinja {j : JinjaVisitor} (hj : Placeless j.render) {e e' : VisitEnv} (he : EnvTwin e e') {v v' : Place → Node → Except Err VData}
    (hv : ∀ p n n', LikeNode n n' → Both LikeData (v p n) (v' p n')) : OpsTwin (j.ops e v) (j.ops e' v') := by
  refine ⟨fun p n n' h => ?_, hv, fun cur cur' p k ns ns' hc h => ?_, rfl⟩
  · refine Both.bind (hv p n n' h) fun d d' hd => Both.bind (both_finish hj he p h hd) fun a b hab => ?_
    subst hab
    exact rfl
  · refine Both.bind (both_visitStrs (fun p n n' h => Both.bind (hv p n n' h) fun d d' hd => both_finish hj he p h hd) p k ns ns' 0 h) fun a b hab => ?_
    subst hab
    rw [hc.data]
    exact rfl

theorem both_jinjaData {j : JinjaVisitor} (hj : Placeless j.render) {e e' : VisitEnv} (he : EnvTwin e e') :
    ∀ (fuel : Nat) (p : Place) (n n' : Node), LikeNode n n' → Both LikeData (j.data e fuel p n) (j.data e' fuel p n')
  | 0, _, _, _, _ => rfl
  | k + 1, p, n, n', h => both_accept he (opsTwin_jinja hj he (both_jinjaData hj he k)) p h

theorem both_jinjaVisit {j : JinjaVisitor} (hj : Placeless j.render) {e e' : VisitEnv} (he : EnvTwin e e') (fuel : Nat) (p : Place) {n n' : Node} (h : LikeNode n n') :
    Both (fun a b => a = b) (j.visit e fuel p n) (j.visit e' fuel p n') :=
  Both.bind (both_jinjaData hj he fuel p n n' h) fun _ _ hd => both_finish hj he p h hd

end Mau
