import Verif.Props.Write
import Verif.Props.Faithful
import Verif.Props.VisitorTotal

set_option linter.unusedSimpArgs false
set_option linter.unusedVariables false

/-!
# C81: what is written can be read in the output
-/

namespace Mau
open Spec

/-! ### Nodes without hidden parts -/

/-- The classes of the nodes of written documents. -/
def Overt : NodeData → Prop
  | .text _ | .verbatim _ | .style _ | .macroLink _ | .paragraph | .paragraphLine | .header .. | .horizontalRule | .list .. | .listItem _ | .block _ | .raw _
  | .rawLine _ | .source .. | .sourceLine .. | .sourceMarker _ | .includeImage .. | .label _ | .document | .macroImage .. | .macroUnicode _ | .macroRaw _ | .macro _ | .macroClass _ => True
  | _ => False

/-- A node of this class can have these children: source lines have at most one, those without children none. -/
def Fitting (d : NodeData) (cs : List Node) : Prop :=
  match d with
  | .sourceLine .. => cs.length ≤ 1
  | d => childrenKey d = none → cs = []

mutual
/-- Nodes of these classes, without what the class does not have. -/
def Bared : Node → Prop
  | .mk d _ _ cs ls ex =>
    Overt d ∧ Fitting d cs ∧ (hasLabels d = false → ls = []) ∧ ex = [] ∧ BaredAll cs ∧ BaredLabels ls
/-- The same for lists. -/
def BaredAll : List Node → Prop
  | [] => True
  | n :: ns => Bared n ∧ BaredAll ns
/-- The same for labels. -/
def BaredLabels : List (Str × Node) → Prop
  | [] => True
  | (_, n) :: ns => Bared n ∧ BaredLabels ns
end

theorem toldList_map : ∀ ns : List Node, toldList ns = ns.map Node.told
  | [] => rfl
  | n :: ns => by rw [toldList, toldList_map ns]; rfl

theorem toldLabels_map : ∀ ns : List (Str × Node), toldLabels ns = ns.map fun e => (e.1, e.2.told)
  | [] => rfl
  | (r, n) :: ns => by rw [toldLabels, toldLabels_map ns]; rfl

theorem overt_told (d : NodeData) : (Overt d.told ↔ Overt d) ∧ childrenKey d.told = childrenKey d ∧ hasLabels d.told = hasLabels d := by
  cases d <;> exact ⟨Iff.rfl, rfl, rfl⟩

mutual
theorem bared_told : ∀ n : Node, Bared n.told → Bared n
  | .mk d a c cs ls ex => by
    rw [Node.told, Bared, Bared]
    obtain ⟨h1, h2, h3⟩ := overt_told d
    rintro ⟨k1, k2, k3, k4, k5, k6⟩
    refine ⟨h1.1 k1, ?_, fun e => ?_, k4, baredAll_told cs k5, baredLabels_told ls k6⟩
    · rw [toldList_map] at k2
      cases d <;> first
        | (simpa [Fitting, NodeData.told] using k2)
        | (intro e; simpa using k2 (h2.trans e))
    · have := k3 (h3.trans e)
      cases ls with
      | nil => rfl
      | cons x xs => obtain ⟨r, x⟩ := x; simp [toldLabels] at this
theorem baredAll_told : ∀ ns : List Node, BaredAll (toldList ns) → BaredAll ns
  | [] => fun _ => trivial
  | n :: ns => fun h => ⟨bared_told n h.1, baredAll_told ns h.2⟩
theorem baredLabels_told : ∀ ns : List (Str × Node), BaredLabels (toldLabels ns) → BaredLabels ns
  | [] => fun _ => trivial
  | (_, n) :: ns => fun h => ⟨bared_told n h.1, baredLabels_told ns h.2⟩
end

theorem baredAll_mem {ns : List Node} (h : BaredAll ns) {n : Node} (hn : n ∈ ns) : Bared n := by
  induction ns with
  | nil => cases hn
  | cons x ns ih =>
    rcases List.mem_cons.1 hn with rfl | hn
    · exact h.1
    · exact ih h.2 hn

theorem baredLabels_mem {ns : List (Str × Node)} (h : BaredLabels ns) {e : Str × Node} (hn : e ∈ ns) : Bared e.2 := by
  induction ns with
  | nil => cases hn
  | cons x ns ih =>
    rcases List.mem_cons.1 hn with rfl | hn
    · exact h.1
    · exact ih h.2 hn

theorem overt_eq {d d' : NodeData} (hd : Overt d) (hd' : Overt d') (hk : className d = className d') (hf : fields d = fields d') : d.told = d'.told := by
  cases d <;> first
    | exact hd.elim
    | (cases d' <;> first
        | exact hd'.elim
        | (simp [className, NodeData.typeName] at hk; done)
        | rfl
        | (simp [fields, VData.strs] at hf; simp [NodeData.told, hf]; done)
        | (simp [fields, VData.strs] at hf; simp [NodeData.told, map_str_inj hf]; done)
        | (simp [fields, VData.strs] at hf; simp only [NodeData.told]; congr 1 <;> first | omega | exact opt_inj hf.2.2 | exact opt_inj hf.1 | exact map_str_inj hf.2 | exact opt_inj hf.2.1 | exact map_str_inj hf.2.2 | exact opt_inj hf.2.2.1 | exact opt_inj hf.2.2.2 | exact hf.1 | exact hf.2.1 | exact (natStr_space (t := []) (t' := []) (congrArg (· ++ ' ' :: []) hf.1)).1))

theorem shown_bared {d : NodeData} {a : NodeArgs} {c : Context} {cs : List Node} {ls : List (Str × Node)} {ex : List Node} (h : Bared (.mk d a c cs ls ex)) :
    shownChildren (.mk d a c cs ls ex) = cs ∧ shownLabels (.mk d a c cs ls ex) = ls := by
  obtain ⟨h1, h2, h3, h4, h5, h6⟩ := h
  constructor
  · cases d <;> first
      | exact h1.elim
      | rfl
      | (rw [h2 rfl]; rfl)
      | exact List.take_of_length_le h2
  · cases d <;> first
      | exact h1.elim
      | rfl
      | (rw [h3 rfl]; rfl)

/-- If nothing is hidden, nodes that are the same to a reader are equal except for position and identity. -/
theorem same_told {objs objs' : List Node} {n n' : Node} (h : SameNode objs objs' n n') : Bared n → Bared n' → n.told = n'.told := by
  induction h with
  | @intro n n' kind values args place children child plain entry labels label refers referred ih1 ih2 ih3 ih4 =>
    intro hn hn'
    cases n with
    | mk d a c cs ls ex =>
    cases n' with
    | mk d' a' c' cs' ls' ex' =>
    obtain ⟨e1, e2⟩ := shown_bared hn
    obtain ⟨e1', e2'⟩ := shown_bared hn'
    rw [e1, e1'] at children ih1
    rw [e2, e2'] at labels ih3
    obtain ⟨h1, h2, h3, rfl, h5, h6⟩ := hn
    obtain ⟨h1', h2', h3', rfl, h5', h6'⟩ := hn'
    have hc : toldList cs = toldList cs' := by
      rw [toldList_map, toldList_map]
      apply List.ext_getElem?
      intro i
      rw [List.getElem?_map, List.getElem?_map]
      by_cases hi : i < cs.length
      · have hi' : i < cs'.length := by omega
        rw [List.getElem?_eq_getElem hi, List.getElem?_eq_getElem hi']
        exact congrArg some (ih1 i _ _ (List.getElem?_eq_getElem hi) (List.getElem?_eq_getElem hi') (baredAll_mem h5 (List.getElem_mem hi)) (baredAll_mem h5' (List.getElem_mem hi')))
      · rw [List.getElem?_eq_none (by omega), List.getElem?_eq_none (by omega)]
    have hl : toldLabels ls = toldLabels ls' := by
      have hlen : ls.length = ls'.length := by simpa using congrArg List.length labels
      rw [toldLabels_map, toldLabels_map]
      apply List.ext_getElem?
      intro i
      rw [List.getElem?_map, List.getElem?_map]
      by_cases hi : i < ls.length
      · have hi' : i < ls'.length := by omega
        rw [List.getElem?_eq_getElem hi, List.getElem?_eq_getElem hi']
        have hr : ls[i].1 = ls'[i].1 := by
          have := congrArg (fun l => l[i]?) labels
          simpa [List.getElem?_map, List.getElem?_eq_getElem hi, List.getElem?_eq_getElem hi'] using this
        refine congrArg some (Prod.ext hr ?_)
        exact ih3 i _ _ _ _ (List.getElem?_eq_getElem hi) (List.getElem?_eq_getElem hi') (baredLabels_mem h6 (List.getElem_mem hi)) (baredLabels_mem h6' (List.getElem_mem hi'))
      · rw [List.getElem?_eq_none (by omega), List.getElem?_eq_none (by omega)]
    have ha : a = a' := args
    rw [Node.told, Node.told, overt_eq h1 h1' kind values, hc, hl, ha]

/-! ### The nodes of written documents -/

theorem rich_bared (r : Rich) : BaredAll r.nodes := by
  induction r with
  | nil => trivial
  | text t rest ih => exact ⟨⟨trivial, fun _ => rfl, fun _ => rfl, rfl, trivial, trivial⟩, ih⟩
  | verbatim t rest ih => exact ⟨⟨trivial, fun _ => rfl, fun _ => rfl, rfl, trivial, trivial⟩, ih⟩
  | style mark inner rest ih1 ih2 =>
    exact ⟨⟨trivial, (fun e => by cases e), fun _ => rfl, rfl, ih1, trivial⟩, ih2⟩
  | link target inner rest ih1 ih2 =>
    exact ⟨⟨trivial, (fun e => by cases e), fun _ => rfl, rfl, ih1, trivial⟩, ih2⟩
  | classes names inner rest ih1 ih2 =>
    exact ⟨⟨trivial, (fun e => by cases e), fun _ => rfl, rfl, ih1, trivial⟩, ih2⟩
  | call kind values rest ih =>
    cases kind <;> exact ⟨⟨trivial, fun _ => rfl, fun _ => rfl, rfl, trivial, trivial⟩, ih⟩

theorem items_bared (items : Items) : ∀ level, BaredAll (items.nodes level) := by
  induction items with
  | nil => exact fun _ => trivial
  | item content rest ih =>
    exact fun level => ⟨⟨trivial, (fun e => by cases e), fun _ => rfl, rfl, rich_bared content, trivial⟩, ih level⟩
  | sub o inner rest ih1 ih2 =>
    exact fun level => ⟨⟨trivial, (fun e => by cases e), fun _ => rfl, rfl, ih1 _, trivial⟩, ih2 level⟩

theorem labels_bared (ls : List (Str × Rich)) : BaredLabels (ls.map fun l => (l.1, Spec.node (.label l.1) l.2.nodes)) := by
  induction ls with
  | nil => trivial
  | cons l ls ih => exact ⟨⟨trivial, (fun e => by cases e), fun _ => rfl, rfl, rich_bared l.2, trivial⟩, ih⟩

theorem deco_bared (deco : Deco) {data : NodeData} {content : List Node} (h : Overt data) (hc : Fitting data content) (hl : hasLabels data = true)
    (hb : BaredAll content) : Bared (deco.node data content) :=
  ⟨h, hc, (fun e => by rw [hl] at e; cases e), rfl, hb, labels_bared _⟩

theorem lines_bared (ls : List Rich) : BaredAll (ls.map fun l => Spec.node .paragraphLine l.nodes) := by
  induction ls with
  | nil => trivial
  | cons l ls ih => exact ⟨⟨trivial, (fun e => by cases e), fun _ => rfl, rfl, rich_bared l, trivial⟩, ih⟩

theorem raws_bared (ls : List Str) : BaredAll (ls.map fun l => Spec.node (.rawLine l)) := by
  induction ls with
  | nil => trivial
  | cons l ls ih => exact ⟨⟨trivial, fun _ => rfl, fun _ => rfl, rfl, trivial, trivial⟩, ih⟩

theorem codes_bared (cs : List Code) : ∀ i, BaredAll (codeNodes i cs) := by
  induction cs with
  | nil => exact fun _ => trivial
  | cons c cs ih =>
    refine fun i => ⟨?_, ih _⟩
    unfold Code.node
    cases c.marker with
    | none => exact ⟨trivial, Nat.zero_le _, fun _ => rfl, rfl, trivial, trivial⟩
    | some m => exact ⟨trivial, Nat.le_refl _, fun _ => rfl, rfl, ⟨⟨trivial, fun _ => rfl, fun _ => rfl, rfl, trivial, trivial⟩, trivial⟩, trivial⟩

theorem tree_bared (d : Doc) : BaredAll d.tree := by
  induction d with
  | nil => trivial
  | paragraph deco ls rest ih => exact ⟨deco_bared deco trivial (fun e => by cases e) rfl (lines_bared ls), ih⟩
  | header deco level t rest ih => exact ⟨deco_bared deco trivial (fun e => by cases e) rfl (rich_bared t), ih⟩
  | comment text rest ih => exact ih
  | comments ls rest ih => exact ih
  | rule deco rest ih => exact ⟨deco_bared deco trivial (fun _ => rfl) rfl trivial, ih⟩
  | list deco ordered items rest ih => exact ⟨deco_bared deco trivial (fun e => by cases e) rfl (items_bared items 1), ih⟩
  | block deco mark inner rest ih1 ih2 => exact ⟨deco_bared deco trivial (fun e => by cases e) rfl ih1, ih2⟩
  | raw deco mark ls rest ih => exact ⟨deco_bared deco trivial (fun e => by cases e) rfl (raws_bared ls), ih⟩
  | code deco mark language ls rest ih => exact ⟨deco_bared deco trivial (fun e => by cases e) rfl (codes_bared ls 1), ih⟩
  | image deco uri alt classes rest ih => exact ⟨deco_bared deco trivial (fun _ => rfl) rfl trivial, ih⟩

/-! ### Visiting succeeds -/

mutual
theorem tame_refers {L : Nat → Nat} {u : Nat} : ∀ (n : Node), Tame L u n → ∀ x, Sub x n → refersTo x.data = none
  | .mk d a c cs ls ex => by
    intro h x hx
    obtain ⟨h1, h2, h3, rfl⟩ := h
    cases hx with
    | refl =>
      cases d <;> first
        | rfl
        | exact h1.elim
    | kid hk hs =>
      unfold kids at hk
      rcases List.mem_append.1 hk with hk | hk
      · rcases List.mem_append.1 hk with hk | hk
        · exact tameAll_refers cs h2 _ hk x hs
        · obtain ⟨e, he, rfl⟩ := List.mem_map.1 hk
          exact tameLabels_refers ls h3 e he x hs
      · cases hk
theorem tameAll_refers {L : Nat → Nat} {u : Nat} : ∀ (ns : List Node), TameAll L u ns → ∀ n ∈ ns, ∀ x, Sub x n → refersTo x.data = none
  | [] => fun _ _ hn => (nomatch hn)
  | m :: ns => by
    intro h n hn
    rcases List.mem_cons.1 hn with e | hn
    · rw [e]; exact tame_refers m h.1
    · exact tameAll_refers ns h.2 n hn
theorem tameLabels_refers {L : Nat → Nat} {u : Nat} : ∀ (ns : List (Str × Node)), TameLabels L u ns → ∀ e ∈ ns, ∀ x, Sub x e.2 → refersTo x.data = none
  | [] => fun _ _ hn => (nomatch hn)
  | (r, m) :: ns => by
    intro h n hn
    rcases List.mem_cons.1 hn with e | hn
    · rw [e]; exact tame_refers m h.1
    · exact tameLabels_refers ns h.2 n hn
end

/-- A written document is parsed, and nothing in it refers to anything. -/
theorem written_parsed (cfg : Config) {env : Env} (henv : env.Distinct) (hu : Usual (initEnv env)) (source : Option Str) {d : Doc} (hst : d.sourced = true → StylesUsual (initEnv env))
    (hd : d.Ok) (hne : d ≠ .nil) :
    ∃ N, ∀ fuel ≥ N, ∃ s, parseDoc cfg fuel d.source env source = .ok s ∧ toldList s.nodes = d.tree ∧ Acyclic s.objs := by
  let req : NestedReq := ⟨d.source, env, 0, 0, source, [], 1, []⟩
  have hn : Neat (d.sourced = true) (fun _ => 0) (initial req) :=
    ⟨⟨rfl, rfl, rfl⟩, ⟨rfl, rfl, rfl⟩, ⟨rfl, rfl, rfl, rfl⟩, Nat.one_pos, ready_init henv, hu, hst, (by intro x hx; cases hx), trivial, trivial⟩
  obtain ⟨N, L', s', n1, -, -, n4, hN⟩ := doc_parsed cfg hd hne (doc_read cfg d hd id) (req := req) rfl hn
  refine ⟨N, fun fuel hf => ?_⟩
  obtain ⟨x, h1, h2⟩ := hN fuel hf
  refine ⟨x, h1, ?_, ?_⟩
  · rw [← n4, ← h2]
    rfl
  · have ho : x.objs = s'.objs := by rw [← h2]; rfl
    refine ⟨fun _ => 0, fun m hm y hy id e => ?_⟩
    rw [tameAll_refers x.objs (by rw [ho]; exact n1.objs) m hm y hy] at e
    cases e

theorem parsed_later {cfg : Config} {n m : Nat} {text : Str} {env : Env} {source : Option Str} {s : DocSt} (hnm : n ≤ m) (h : parseDoc cfg n text env source = .ok s) :
    parseDoc cfg m text env source = .ok s := by
  unfold parseDoc at h ⊢
  rw [parseDocument_mono hnm (by rw [h]; simp)]
  exact h

/-! ### The theorems -/

/-- C81: a document that is written is rendered by `Mau.process` with the YAML visitor: there is a text, and no message. -/
theorem C81_rendered (cfg : Config) {env : Env} (henv : env.Distinct) (hu : Usual (initEnv env)) (source : Str) {d : Doc} (hst : d.sourced = true → StylesUsual (initEnv env))
    (hd : d.Ok) (hne : d ≠ .nil)
    (dump : VData → Str) (parents : Place → Option Node) (ext : Str) :
    ∃ N, ∀ fuel ≥ N, ∃ M, ∀ depth ≥ M, ∃ text, (mauProcess cfg fuel env ⟨ext, yamlProcess dump parents depth⟩ d.source source).result = .ok text ∧
      (mauProcess cfg fuel env ⟨ext, yamlProcess dump parents depth⟩ d.source source).handled = [] := by
  obtain ⟨N, hN⟩ := written_parsed cfg henv hu (some source) hst hd hne
  refine ⟨N, fun fuel hf => ?_⟩
  obtain ⟨s, h1, -, h3⟩ := hN fuel hf
  have hv : ∃ M, ∀ depth ≥ M, ∃ y, visitDocument depth s.output parents = .ok y := by
    unfold visitDocument
    cases ho : s.output.document with
    | none => exact ⟨0, fun _ _ => ⟨_, rfl⟩⟩
    | some x =>
      obtain ⟨M, hM⟩ := C54_total { objs := s.objs, parents } h3 x
      exact ⟨M, fun depth hd => hM depth hd []⟩
  obtain ⟨M, hM⟩ := hv
  refine ⟨M, fun depth hdp => ?_⟩
  obtain ⟨y, hy⟩ := hM depth hdp
  have hr : (mauProcess cfg fuel env ⟨ext, yamlProcess dump parents depth⟩ d.source source).result = .ok (dump y) := by
    obtain ⟨toks, hl⟩ := parse_lexes h1
    unfold mauProcess mauLexer mauParser mauVisitor
    simp only [hl, h1, yamlProcess, hy, guarded, Guarded.andThen]
    rfl
  exact ⟨dump y, hr, (C70_success hr).2⟩

/-- C81: two written documents that have the same output are the same, although the contexts, environments and limits may be different. -/
theorem C81_faithful {dump : VData → Str} (hdump : ∀ a b, dump a = dump b → a = b) {cfg cfg' : Config} {fuel fuel' : Nat} {env env' : Env} {parents parents' : Place → Option Node}
    {depth depth' : Nat} {ext ext' source source' text : Str} (henv : env.Distinct) (henv' : env'.Distinct) (hu : Usual (initEnv env)) (hu' : Usual (initEnv env'))
    {d d' : Doc} (hst : d.sourced = true → StylesUsual (initEnv env)) (hst' : d'.sourced = true → StylesUsual (initEnv env')) (hd : d.Ok) (hd' : d'.Ok) (hne : d ≠ .nil) (hne' : d' ≠ .nil)
    (h : (mauProcess cfg fuel env ⟨ext, yamlProcess dump parents depth⟩ d.source source).result = .ok text)
    (h' : (mauProcess cfg' fuel' env' ⟨ext', yamlProcess dump parents' depth'⟩ d'.source source').result = .ok text) : d.tree = d'.tree := by
  obtain ⟨s, s', h1, h1', hs⟩ := C80_process hdump h h'
  have told : ∀ {cfg : Config} {fuel : Nat} {env : Env} {source : Str} {s : DocSt} {d : Doc}, env.Distinct → Usual (initEnv env) → (d.sourced = true → StylesUsual (initEnv env)) → d.Ok → d ≠ .nil →
      parseDoc cfg fuel d.source env (some source) = .ok s → toldList s.nodes = d.tree := by
    intro cfg fuel env source s d henv hu hst hd hne h1
    obtain ⟨N, hN⟩ := written_parsed cfg henv hu (some source) hst hd hne
    obtain ⟨s2, h2, h3, -⟩ := hN (max N fuel) (by omega)
    have := parsed_later (show fuel ≤ max N fuel by omega) h1
    rw [this] at h2
    cases h2
    exact h3
  have t1 := told henv hu hst hd hne h1
  have t2 := told henv' hu' hst' hd' hne' h1'
  have doc : ∀ (s : DocSt), (s.output.document = none ∧ s.nodes = []) ∨ ∃ c, s.output.document = some (Node.new .document c s.nodes) := by
    intro s
    cases e : s.nodes with
    | nil =>
      refine .inl ⟨?_, rfl⟩
      unfold DocSt.output spanOf
      simp only [e, List.head?_nil]
    | cons x xs =>
      cases hl : (x :: xs).getLast? with
      | none => simp at hl
      | some y =>
        refine .inr ⟨x.ctx.merge y.ctx, ?_⟩
        unfold DocSt.output spanOf
        simp only [e, List.head?_cons, hl]
  rcases hs with ⟨e, e'⟩ | ⟨x, x', e, e', hs⟩
  · rcases doc s with ⟨-, k⟩ | ⟨c, k⟩
    · rcases doc s' with ⟨-, k'⟩ | ⟨c', k'⟩
      · rw [← t1, ← t2, k, k']
      · rw [k'] at e'; cases e'
    · rw [k] at e; cases e
  · obtain ⟨c, hc⟩ : ∃ c, s.output.document = some (Node.new .document c s.nodes) := by
      rcases doc s with ⟨k, -⟩ | k
      · rw [k] at e; cases e
      · exact k
    obtain ⟨c', hc'⟩ : ∃ c, s'.output.document = some (Node.new .document c s'.nodes) := by
      rcases doc s' with ⟨k, -⟩ | k
      · rw [k] at e'; cases e'
      · exact k
    rw [hc] at e
    rw [hc'] at e'
    cases e
    cases e'
    have bare : ∀ {c : Context} {s : DocSt} {d : Doc}, toldList s.nodes = d.tree → Bared (Node.new .document c s.nodes) := by
      intro c s d ht
      exact ⟨trivial, (fun e => by cases e), fun _ => rfl, rfl, baredAll_told _ (ht ▸ tree_bared d), trivial⟩
    have := same_told hs (bare t1) (bare t2)
    rw [← t1, ← t2]
    simp only [Node.new, Node.told] at this
    injection this

/-! ### Example -/

/-- The hypotheses hold for the written document of C77, whose output differs from that of another one. -/
example : writtenDoc.Ok ∧ writtenDoc ≠ .nil ∧ (Doc.rule {} .nil).Ok ∧
    let out := fun d : Doc => (mauProcess {} 30 [] ⟨c%"yaml", yamlProcess plainDump (fun _ => none) 30⟩ d.source c%"a.mau").result.toOption
    (out writtenDoc).isSome = true ∧ out writtenDoc ≠ out (.rule {} .nil) := by
  refine ⟨writtenDoc_ok.1, writtenDoc_ok.2, ⟨?_, trivial⟩, by decide +kernel, by decide +kernel⟩
  exact Deco.plain_ok

end Mau
