import Verif.Lemmas.TwinNodes

set_option linter.unusedSimpArgs false
set_option linter.unusedSectionVars false
set_option linter.unusedVariables false

/-!
# Two runs of the document parser that differ in positions only
-/

namespace Mau
open Spec

/-- Processing functions that do the same. -/
def DTwin {α β : Type} (R : α → β → Prop) (x : DM α) (y : DM β) : Prop := ∀ s s', DocTwin s s' → Duo DocTwin R (x s) (y s')

theorem DTwin.pure {α β : Type} {R : α → β → Prop} {a : α} {b : β} (h : R a b) : DTwin R (Pure.pure a : DM α) (Pure.pure b) := fun _ _ hs => ⟨h, hs⟩

theorem DTwin.bind {α β γ δ : Type} {R : α → β → Prop} {Q : γ → δ → Prop} {x : DM α} {y : DM β} {f : α → DM γ} {g : β → DM δ}
    (h : DTwin R x y) (hf : ∀ a b, R a b → DTwin Q (f a) (g b)) : DTwin Q (x >>= f) (y >>= g) := by
  intro s s' hs
  have h1 := h s s' hs
  change Duo _ _ (DM.bind x f s) (DM.bind y g s')
  unfold DM.bind
  cases hx : x s <;> cases hy : y s' <;> rw [hx, hy] at h1 <;> first | exact h1.elim | exact h1 | exact hf _ _ h1.1 _ _ h1.2

theorem DTwin.mono {α β : Type} {R Q : α → β → Prop} {x : DM α} {y : DM β} (h : DTwin R x y) (hf : ∀ a b, R a b → Q a b) : DTwin Q x y := by
  intro s s' hs
  have h1 := h s s' hs
  cases hx : x s <;> cases hy : y s' <;> rw [hx, hy] at h1 <;> first | exact h1.elim | exact h1 | exact ⟨hf _ _ h1.1, h1.2⟩

theorem DTwin.lift {α β : Type} {R : α → β → Prop} {x : Except Err α} {y : Except Err β} (h : Both R x y) : DTwin R (DM.lift x) (DM.lift y) := by
  intro s s' hs
  unfold DM.lift
  cases x <;> cases y
  · rename_i e e'
    have := sameErr_token h
    by_cases he : e = .token
    · rw [he, this.1 he]; exact hs
    · have he' : e' ≠ .token := fun e2 => he (this.2 e2)
      cases e <;> cases e' <;> first | exact h | exact absurd rfl he | exact absurd rfl he' | (cases h)
  · exact h.elim
  · exact h.elim
  · exact ⟨h, hs⟩

theorem DTwin.raise {α β : Type} {R : α → β → Prop} {e e' : Err} (h : SameErr e e') : DTwin R (DM.raise e : DM α) (DM.raise e' : DM β) := .lift h

theorem DTwin.err {α β : Type} {R : α → β → Prop} {m : Msg} {c c' : Context} (h : Near c c') :
    DTwin R (DM.raise (.parser m (some c)) : DM α) (DM.raise (.parser m (some c')) : DM β) := .lift (sees_err h)

theorem DTwin.fresh : DTwin Eq DM.fresh DM.fresh := fun _ _ hs => ⟨hs.uid, { hs with uid := congrArg (· + 1) hs.uid }⟩

theorem DTwin.get : DTwin DocTwin DM.get DM.get := fun _ _ hs => ⟨hs, hs⟩

theorem DTwin.modify {f g : DocSt → DocSt} (h : ∀ s s', DocTwin s s' → DocTwin (f s) (g s')) : DTwin Eq (DM.modify f) (DM.modify g) := fun s s' hs => ⟨rfl, h s s' hs⟩

section
variable {ts ts' : List Token} (hts : Twins ts ts')

theorem DTwin.tm {α β : Type} {R : α → β → Prop} {f : TM → Except Err (α × TM)} {g : TM → Except Err (β × TM)} (h : Sees ts ts' R f g) :
    DTwin R (DM.tm ts f) (DM.tm ts' g) := by
  intro s s' hs
  have h1 := h s.next
  unfold DM.tm
  rw [← hs.next]
  cases hx : f ⟨ts, s.next⟩ <;> cases hy : g ⟨ts', s.next⟩ <;> rw [hx, hy] at h1
  · rename_i e e'
    have := sameErr_token h1
    by_cases he : e = .token
    · rw [he, this.1 he]; exact hs
    · have he' : e' ≠ .token := fun e2 => he (this.2 e2)
      cases e <;> cases e' <;> first | exact h1 | exact absurd rfl he | exact absurd rfl he' | (cases h1)
  · exact h1.elim
  · exact h1.elim
  · rename_i a b
    obtain ⟨a, t⟩ := a
    obtain ⟨b, t'⟩ := b
    obtain ⟨h2, j, e1, e2⟩ := h1
    cases e1; cases e2
    exact ⟨h2, { hs with next := rfl }⟩

include hts

theorem DTwin.tok (ty : Option TokenType) (v : Option Str) (f : Option (Str → Bool)) : DTwin Twin (DM.tm ts (·.get ty v f)) (DM.tm ts' (·.get ty v f)) :=
  .tm (sees_get hts ty v f)

theorem DTwin.peek (ty : Option TokenType) (v : Option Str) (f : Option (Str → Bool)) : DTwin Twin (DM.peek ts (·.peek ty v f)) (DM.peek ts' (·.peek ty v f)) := by
  intro s s' hs
  have h1 := both_peek hts s.next ty v f
  have h2 : Both Twin (TM.peek ⟨ts, s.next⟩ ty v f) (TM.peek ⟨ts', s'.next⟩ ty v f) := by
    rw [← hs.next]
    exact h1.mono fun _ _ h => h.1
  exact DTwin.lift h2 s s' hs

theorem DTwin.peekIs (ty : TokenType) (v : Option Str) (f : Option (Str → Bool)) : DTwin Eq (DM.peek ts (·.peekIs ty v f)) (DM.peek ts' (·.peekIs ty v f)) := by
  intro s s' hs
  have h1 := both_peekIs hts s.next ty v f
  have h2 : Both Eq (TM.peekIs ⟨ts, s.next⟩ ty v f) (TM.peekIs ⟨ts', s'.next⟩ ty v f) := by
    rw [← hs.next]
    exact h1
  exact DTwin.lift h2 s s' hs

end

theorem twin_docText (fuel : Nat) (text : Str) {c c' : Context} (h : Near c c') : DTwin LikeNodes (docText fuel text c) (docText fuel text c') := by
  intro s s' hs
  unfold docText
  rw [← hs.env, ← show c.source = c'.source from h, ← hs.uid]
  have h1 := both_preprocessNodes s.env text c.startLine c.startColumn c'.startLine c'.startColumn c.source
  cases hx : preprocessNodes s.env text c.startLine c.startColumn c.source <;> cases hy : preprocessNodes s.env text c'.startLine c'.startColumn c.source <;> rw [hx, hy] at h1
  · rename_i e e'
    have := sameErr_token h1
    by_cases he : e = .token
    · rw [he, this.1 he]; exact hs
    · have he' : e' ≠ .token := fun e2 => he (this.2 e2)
      cases e <;> cases e' <;> first | exact h1 | exact absurd rfl he | exact absurd rfl he' | (cases h1)
  · exact h1.elim
  · exact h1.elim
  · rename_i ns ns'
    have hl : LikeTexts ns ns' := h1
    cases ns with
    | nil =>
      cases ns' with
      | nil => exact ⟨rfl, hs⟩
      | cons => cases hl
    | cons n ns =>
      cases ns' with
      | nil => cases hl
      | cons n' ns' =>
        dsimp only
        rw [← hl.processed.2.1]
        have h2 := both_parseText fuel s.env (processedText (n :: ns)).value c.startLine c.startColumn c'.startLine c'.startColumn c.source s.uid
        generalize parseText fuel s.env (processedText (n :: ns)).value c.startLine c.startColumn c.source s.uid = x at h2
        generalize parseText fuel s.env (processedText (n :: ns)).value c'.startLine c'.startColumn c.source s.uid = y at h2
        cases x <;> cases y
        · rename_i e e'
          have := sameErr_token h2
          by_cases he : e = .token
          · rw [he, this.1 he]; exact hs
          · have he' : e' ≠ .token := fun e2 => he (this.2 e2)
            cases e <;> cases e' <;> first | exact h2 | exact absurd rfl he | exact absurd rfl he' | (cases h2)
        · exact h2.elim
        · exact h2.elim
        · rename_i r r'
          have hr : LikeResult r r' := h2
          refine ⟨hr.nodes, { hs with
            env := rfl
            uid := hr.uid
            footnoteMacros := by change _ ++ _ = _ ++ _; rw [hs.footnoteMacros, hr.footnotes]
            linkMacros := by change _ ++ _ = _ ++ _; rw [hs.linkMacros, hr.links]
            places := ?_ }⟩
          have h3 := hs.places
          have h4 := hr.places
          unfold adriftPlaces at h3 h4 ⊢
          simp only [List.map_append, h3, h4]

theorem twin_popArgs : DTwin Eq popArgs popArgs := fun s s' hs => ⟨by rw [hs.argsBuf], { hs with argsBuf := rfl }⟩

theorem twin_popLabels : DTwin LikeLabels popLabels popLabels := fun s s' hs => ⟨hs.labelBuf, { hs with labelBuf := rfl }⟩

theorem twin_popControl : DTwin Eq popControl popControl := by
  intro s s' hs
  unfold popControl
  rcases hs.controlBuf with ⟨h1, h2⟩ | ⟨a, b, h1, h2, h3⟩
  · rw [h1, h2]; exact ⟨rfl, hs⟩
  · rw [h1, h2, ← hs.env]
    exact DTwin.lift (both_control h3 s.env) _ _ { hs with env := rfl, controlBuf := .inl ⟨rfl, rfl⟩ }

theorem twin_save {n n' : Node} (h : LikeNode n n') : DTwin Eq (save n) (save n') :=
  .modify fun _ _ hs => { hs with nodes := hs.nodes.snoc h }

theorem twin_saveIf {n n' : Node} (h : LikeNode n n') : DTwin Eq (saveIfControl n) (saveIfControl n') := by
  unfold saveIfControl
  refine twin_popControl.bind fun a b e => ?_
  subst e
  split
  · exact twin_save h
  · exact .pure rfl

section
variable {ts ts' : List Token} (hts : Twins ts ts')
include hts

theorem twin_eol : DTwin Eq (eolProc ts) (eolProc ts') := by
  unfold eolProc
  exact (DTwin.tok hts _ _ _).bind fun _ _ _ => .pure rfl

theorem twin_rule : DTwin Eq (ruleProc ts) (ruleProc ts') := by
  unfold ruleProc
  refine (DTwin.tok hts _ _ _).bind fun a a' ha => twin_popArgs.bind fun p p' e => twin_popLabels.bind fun l l' hl => ?_
  subst e
  exact twin_saveIf (likeNode_new _ ha.2.2 rfl _ hl)

theorem twin_variableText {c c' : Context} (h : Near c c') : DTwin (fun x y => x.1 = y.1 ∧ Near x.2 y.2) (variableText ts c) (variableText ts' c') := by
  unfold variableText
  refine (DTwin.peek hts _ _ _).bind fun a a' ha => ?_
  rw [ha.1]
  split
  · exact (DTwin.tok hts _ _ _).bind fun b b' hb => .pure ⟨hb.2.1, h.merge⟩
  · exact .pure ⟨rfl, h⟩

theorem both_definition (env : Env) (name value : Str) {c c' : Context} (h : Near c c') : Both Eq (definition env name value c) (definition env name value c') := by
  unfold definition
  split
  · exact rfl
  split
  · exact rfl
  split
  · exact sees_err h
  have h1 := both_preprocess env value c.startLine c.startColumn c'.startLine c'.startColumn c.source
  rw [← show c.source = c'.source from h]
  generalize preprocess env value c.startLine c.startColumn c.source = x at h1
  generalize preprocess env value c'.startLine c'.startColumn c.source = y at h1
  cases x <;> cases y
  · exact h1
  · exact h1.elim
  · exact h1.elim
  · rename_i p p'
    have hp : Twin p p' := h1
    dsimp only
    rw [hp.2.1]
    split
    · exact sees_err h
    · exact rfl

theorem twin_variable : DTwin Eq (variableProc ts) (variableProc ts') := by
  unfold variableProc
  refine (DTwin.tok hts _ _ _).bind fun o o' ho => (DTwin.tok hts _ _ _).bind fun n n' hn => (DTwin.tok hts _ _ _).bind fun c c' hc => ?_
  refine (twin_variableText hts ho.2.2.merge).bind fun v v' hv => DTwin.get.bind fun s s' hs => ?_
  rw [hs.env, hn.2.1, hv.1]
  refine (DTwin.lift (both_definition hts _ _ _ hv.2)).bind fun d d' e => ?_
  subst e
  exact .modify fun _ _ ht => { ht with env := by change Env.setitem _ _ _ = Env.setitem _ _ _; rw [ht.env] }

theorem twin_label (fuel : Nat) : DTwin Eq (labelProc fuel ts) (labelProc fuel ts') := by
  unfold labelProc
  refine (DTwin.tok hts _ _ _).bind fun o o' ho => ?_
  dsimp only
  rw [ho.2.1]
  refine (DTwin.tok hts _ _ _).bind fun n n' hn => ?_
  rw [hn.2.1]
  refine (twin_docText _ _ hn.2.2).bind fun ns ns' h => ?_
  exact .modify fun _ _ ht => { ht with labelBuf := ht.labelBuf.set _ (likeNode_new _ (show Near Context.empty Context.empty from rfl) h {} (show LikeLabels [] [] from rfl)) }

theorem twin_controlLine : DTwin Eq (controlProc ts) (controlProc ts') := by
  unfold controlProc
  refine (DTwin.tok hts _ _ _).bind fun o o' ho => (DTwin.tok hts _ _ _).bind fun n n' hn => (DTwin.tok hts _ _ _).bind fun c c' hc => ?_
  refine DTwin.get.bind fun s s' hs => ?_
  rw [hs.env]
  refine (DTwin.lift (both_processCondition _ hc)).bind fun x y hxy => ?_
  rcases hxy with ⟨rfl, rfl⟩ | ⟨a, b, rfl, rfl, hab⟩
  · exact .raise rfl
  · dsimp only
    rw [hn.2.1, hab.1, hab.2.1, hab.2.2.1]
    refine (DTwin.lift (both_mkControl _ _ _ _ ho.2.2.merge)).bind fun k k' hk => ?_
    exact .modify fun _ _ ht => { ht with controlBuf := .inr ⟨_, _, rfl, rfl, hk⟩ }

theorem twin_arguments : DTwin Eq (argumentsProc ts) (argumentsProc ts') := by
  unfold argumentsProc
  refine (DTwin.tok hts _ _ _).bind fun o o' ho => (DTwin.tok hts _ _ _).bind fun n n' hn => (DTwin.tok hts _ _ _).bind fun c c' hc => ?_
  refine DTwin.get.bind fun s s' hs => ?_
  rw [hs.env]
  refine (DTwin.lift (both_processArgumentsWithVariables _ hn)).bind fun x y hxy => ?_
  exact .modify fun _ _ ht => { ht with argsBuf := congrArg some hxy.arguments }

theorem twin_registerName (id : Nat) (name : Option Str) {c c' : Context} (h : Near c c') : DTwin Eq (registerName id name c) (registerName id name c') := by
  unfold registerName
  split
  · exact .pure rfl
  · refine DTwin.get.bind fun s s' hs => ?_
    rw [hs.linkHeaders]
    split
    · exact .err h
    · exact .modify fun _ _ ht => { ht with linkHeaders := by change Dict.set _ _ _ = Dict.set _ _ _; rw [ht.linkHeaders] }

theorem twin_registerHeader (id level : Nat) (name : Option Str) {n n' : Node} (h : LikeNode n n') : DTwin Eq (registerHeader id level name n) (registerHeader id level name n') := by
  unfold registerHeader
  refine (twin_registerName hts id name h.ctx).bind fun _ _ _ => ?_
  exact .modify fun _ _ ht => { ht with
    tocHeaders := by change _ ++ _ = _ ++ _; rw [ht.tocHeaders]
    objs := ht.objs.snoc h }

theorem twin_header (fuel : Nat) : DTwin Eq (headerProc fuel ts) (headerProc fuel ts') := by
  unfold headerProc
  refine (DTwin.tok hts _ _ _).bind fun o o' ho => (DTwin.tok hts _ _ _).bind fun n n' hn => ?_
  dsimp only
  rw [ho.2.1, hn.2.1]
  refine DTwin.fresh.bind fun i i' e => ?_
  subst e
  refine (twin_docText _ _ hn.2.2).bind fun ns ns' h => twin_popArgs.bind fun p p' e => ?_
  subst e
  refine (DTwin.lift (both_spanOf h)).bind fun x y hxy => twin_popLabels.bind fun l l' hl => twin_popControl.bind fun b b' e => ?_
  subst e
  have hnode := fun d a => likeNode_new d (Near.merge ho.2.2 (b := x) (b' := y)) h a hl
  split
  · exact (twin_registerHeader hts _ _ _ (hnode _ _)).bind fun _ _ _ => twin_save (hnode _ _)
  · exact .pure rfl

theorem twin_collectLines : ∀ n : Nat, DTwin Alikes (collectLines ts n) (collectLines ts' n)
  | 0 => .raise rfl
  | n + 1 => by
    simp only [collectLines]
    refine (DTwin.peek hts _ _ _).bind fun a a' ha => ?_
    rw [ha.1]
    split
    · refine (DTwin.tok hts _ _ _).bind fun b b' hb => (twin_collectLines n).bind fun l l' hl => .pure ?_
      unfold Alikes at hl ⊢
      rw [List.map_cons, List.map_cons, hl, twin_iff.1 hb]
    · exact .pure rfl

theorem twin_paragraphLines (fuel : Nat) : ∀ l l' : List Token, Alikes l l' → DTwin LikeNodes (paragraphLines fuel l) (paragraphLines fuel l')
  | [], [], _ => .pure rfl
  | [], _ :: _, h => by cases h
  | _ :: _, [], h => by cases h
  | t :: l, t' :: l', h => by
    unfold Alikes at h
    rw [List.map_cons, List.map_cons] at h
    injection h with h1 h2
    have ht := twin_iff.2 h1
    simp only [paragraphLines]
    rw [ht.2.1]
    refine (twin_docText _ _ ht.2.2).bind fun ns ns' hn => (twin_paragraphLines fuel l l' h2).bind fun r r' hr => .pure ?_
    exact .cons (likeNode_new _ ht.2.2 hn {} (show LikeLabels [] [] from rfl)) hr

theorem twin_paragraph (fuel : Nat) : DTwin Eq (paragraphProc fuel ts) (paragraphProc fuel ts') := by
  unfold paragraphProc
  rw [hts.length]
  refine (twin_collectLines hts _).bind fun l l' hl => (twin_paragraphLines hts fuel _ _ hl).bind fun ns ns' hn => twin_popArgs.bind fun p p' e => ?_
  subst e
  refine (DTwin.lift (both_spanOf hn)).bind fun x y hxy => twin_popLabels.bind fun l l' hl => ?_
  exact twin_saveIf (likeNode_new _ hxy hn _ hl)

/-! ## Lists -/

theorem twin_listItem (fuel : Nat) {t t' : Token} (ht : Twin t t') : DTwin LikeNode (listItem fuel ts t) (listItem fuel ts' t') := by
  unfold listItem
  refine (DTwin.tok hts _ _ _).bind fun b b' hb => ?_
  rw [hb.2.1]
  refine (twin_docText _ _ hb.2.2).bind fun ns ns' hn => ?_
  rcases hn.last with ⟨h1, h2⟩ | ⟨a, b, h1, h2, h3⟩
  · rw [h1, h2]; exact .raise rfl
  · rw [h1, h2]
    dsimp only
    rw [ht.2.1]
    exact .pure (likeNode_new _ ht.2.2.merge hn {} (show LikeLabels [] [] from rfl))

theorem both_isOrdered {t t' : Token} (ht : Twin t t') : Both Eq (isOrdered t) (isOrdered t') := by
  unfold isOrdered
  rw [ht.2.1]
  exact Both.refl _ fun _ => rfl

theorem twin_lists (fuel : Nat) : ∀ n : Nat, DTwin LikeNodes (listNodes fuel ts n) (listNodes fuel ts' n) ∧
    ∀ level, DTwin LikeNodes (listLoop fuel ts n level) (listLoop fuel ts' n level)
  | 0 => ⟨.raise rfl, fun _ => .raise rfl⟩
  | n + 1 => by
    have ih := twin_lists fuel n
    refine ⟨?_, fun level => ?_⟩
    · rw [listNodes, listNodes]
      refine (DTwin.tok hts _ _ _).bind fun a a' ha => (twin_listItem hts fuel ha).bind fun x x' hx => ?_
      rw [ha.2.1]
      exact (ih.2 _).bind fun r r' hr => .pure (.cons hx hr)
    · rw [listLoop, listLoop]
      refine (DTwin.peek hts _ _ _).bind fun a a' ha => ?_
      rw [ha.1, ha.2.1]
      split
      · exact .pure rfl
      split
      · exact .err ha.2.2
      split
      · exact (DTwin.tok hts _ _ _).bind fun b b' hb => (twin_listItem hts fuel hb).bind fun x x' hx => (ih.2 _).bind fun r r' hr => .pure (.cons hx hr)
      split
      · refine (DTwin.lift (both_isOrdered hts ha)).bind fun o o' e => ih.1.bind fun ns ns' hn => ?_
        subst e
        rcases hn.last with ⟨h1, h2⟩ | ⟨p, q, h1, h2, h3⟩
        · rw [h1, h2]; exact .raise rfl
        · rw [h1, h2]
          exact (ih.2 _).bind fun r r' hr => .pure (.cons (likeNode_new _ ha.2.2.merge hn {} (show LikeLabels [] [] from rfl)) hr)
      · exact .pure rfl

theorem twin_list (fuel : Nat) : DTwin Eq (listProc fuel ts) (listProc fuel ts') := by
  unfold listProc
  rw [hts.length]
  refine (DTwin.peek hts _ _ _).bind fun a a' ha => (DTwin.lift (both_isOrdered hts ha)).bind fun o o' e => ((twin_lists hts fuel _).1).bind fun ns ns' hn => ?_
  subst e
  refine twin_popArgs.bind fun p p' e => DTwin.get.bind fun s s' hs => ?_
  subst e
  rw [hs.latest, hn.len]
  refine (DTwin.lift (Both.refl (R := Eq) _ fun _ => rfl)).bind fun x y e => ?_
  subst e
  obtain ⟨start, latest⟩ := x
  dsimp only
  refine DTwin.bind (DTwin.modify fun _ _ ht => { ht with latest := rfl }) fun _ _ _ => ?_
  refine (DTwin.lift (both_spanOf hn)).bind fun x y hxy => twin_popLabels.bind fun l l' hl => ?_
  exact twin_saveIf (likeNode_new _ hxy hn _ hl)

/-! ## Blocks -/

theorem likeNodes_mapIdx {f g : Nat → Str → Node} (h : ∀ i l, LikeNode (f i l) (g i l)) (ls : List Str) : LikeNodes (ls.mapIdx f) (ls.mapIdx g) := by
  unfold LikeNodes
  rw [adriftList_map, adriftList_map]
  refine List.ext_getElem? fun i => ?_
  simp only [List.getElem?_map, List.getElem?_mapIdx, Option.map_map]
  congr 1
  funext l
  exact h i l

theorem likeNodes_map {f g : Str → Node} (h : ∀ l, LikeNode (f l) (g l)) (ls : List Str) : LikeNodes (ls.map f) (ls.map g) := by
  unfold LikeNodes
  rw [adriftList_map, adriftList_map, List.map_map, List.map_map]
  congr 1
  funext l
  exact h l

theorem rawLines_like {t t' : Token} (ht : Twin t t') : LikeNodes (rawLines t) (rawLines t') := by
  unfold rawLines
  rw [ht.2.1]
  exact likeNodes_mapIdx hts (fun i l => likeNode_new _ (show Near (blockLineCtx _ _ _) (blockLineCtx _ _ _) from ht.2.2) rfl {} (show LikeLabels [] [] from rfl)) _

theorem both_sourceLines (p : SourceParams) {c c' : Context} (h : Near c c') : ∀ (ls : List Str) (i : Nat), Both LikeNodes (sourceLines p c i ls) (sourceLines p c' i ls)
  | [], _ => rfl
  | l :: ls, i => by
    simp only [sourceLines]
    refine (Both.refl (R := Eq) _ fun _ => rfl).bind fun r r' e => (both_sourceLines p h ls (i + 1)).bind fun x y hxy => ?_
    subst e
    refine LikeNodes.cons ?_ hxy
    unfold sourceLineNode
    dsimp only
    split
    · exact likeNode_new _ h rfl {} (show LikeLabels [] [] from rfl)
    · exact likeNode_new _ h (.cons (likeNode_new _ h rfl {} (show LikeLabels [] [] from rfl)) rfl) {} (show LikeLabels [] [] from rfl)

theorem both_sourceEngine (env : Env) {t t' : Token} (ht : Twin t t') (args : NodeArgs) :
    Both (fun x y => x.1 = y.1 ∧ LikeNodes x.2.1 y.2.1 ∧ x.2.2 = y.2.2) (sourceEngine env t args) (sourceEngine env t' args) := by
  have hlines : ∀ (p : SourceParams) (language : Option Str) (args : NodeArgs), Both (fun x y => x.1 = y.1 ∧ LikeNodes x.2.1 y.2.1 ∧ x.2.2 = y.2.2)
      (do let ls ← sourceLines p t.ctx 0 (splitChar '\n' t.value); return (some (language.getD c%"text"), ls, args))
      (do let ls ← sourceLines p t'.ctx 0 (splitChar '\n' t'.value); return (some (language.getD c%"text"), ls, args)) := by
    intro p language args
    rw [ht.2.1]
    exact (both_sourceLines hts p ht.2.2 _ 0).bind fun x y hxy => ⟨rfl, hxy, rfl⟩
  unfold sourceEngine
  dsimp only
  split
  · exact hlines _ _ _
  · refine (Both.refl (R := Eq) _ fun _ => rfl).bind fun r r' e => ?_
    subst e
    exact hlines _ _ _
  · exact rfl

end

theorem DocTwin.merged {s s' t t' : DocSt} (h : DocTwin s s') (ht : DocTwin t t') : DocTwin (mergeManagers s t) (mergeManagers s' t') :=
  { h with
    footnoteMacros := by change _ ++ _ = _ ++ _; rw [h.footnoteMacros, ht.footnoteMacros]
    places := by
      have h3 := h.places
      have h4 := ht.places
      unfold adriftPlaces at h3 h4 ⊢
      change List.map _ (_ ++ _) = List.map _ (_ ++ _)
      rw [List.map_append, List.map_append, h3, h4]
    bodies := h.bodies.update ht.bodies
    footnoteLists := by change _ ++ _ = _ ++ _; rw [h.footnoteLists, ht.footnoteLists]
    tocHeaders := by change _ ++ _ = _ ++ _; rw [h.tocHeaders, ht.tocHeaders]
    tocNodes := by change _ ++ _ = _ ++ _; rw [h.tocNodes, ht.tocNodes] }

/-- A parser that does the same at every position. -/
def NestedTwin (nested : NestedParser) : Prop := ∀ text env l c l' c' src forb uid objs objs', LikeNodes objs objs' →
  Both DocTwin (nested ⟨text, env, l, c, src, forb, uid, objs⟩) (nested ⟨text, env, l', c', src, forb, uid, objs'⟩)

theorem twin_blockContent {nested : NestedParser} (hn : NestedTwin nested) {t t' : Token} (ht : Twin t t') (args : NodeArgs) :
    DTwin LikeNodes (blockContent nested t args) (blockContent nested t' args) := by
  intro s s' hs
  unfold blockContent
  rw [← ht.2.1, ← show t.ctx.source = t'.ctx.source from ht.2.2, ← hs.env, ← hs.uid]
  have h1 := hn t.value s.env t.ctx.startLine t.ctx.startColumn t'.ctx.startLine t'.ctx.startColumn t.ctx.source [] s.uid _ _ hs.objs
  generalize nested ⟨t.value, s.env, t.ctx.startLine, t.ctx.startColumn, t.ctx.source, [], s.uid, s.objs⟩ = x at h1
  generalize nested ⟨t.value, s.env, t'.ctx.startLine, t'.ctx.startColumn, t.ctx.source, [], s.uid, s'.objs⟩ = y at h1
  cases x <;> cases y
  · rename_i e e'
    have := sameErr_token h1
    by_cases he : e = .token
    · rw [he, this.1 he]; exact hs
    · have he' : e' ≠ .token := fun e2 => he (this.2 e2)
      cases e <;> cases e' <;> first | exact h1 | exact absurd rfl he | exact absurd rfl he' | (cases h1)
  · exact h1.elim
  · exact h1.elim
  · rename_i a b
    have hab : DocTwin a b := h1
    refine ⟨hab.nodes, ?_⟩
    have h2 : DocTwin { s with env := a.env, uid := a.uid, objs := a.objs } { s' with env := b.env, uid := b.uid, objs := b.objs } :=
      { hs with env := hab.env, uid := hab.uid, objs := hab.objs }
    split
    · exact h2.merged hab
    · exact h2

/-- What an engine (or an include) makes. -/
def LikeMade (x y : NodeData × List Node × NodeArgs) : Prop := x.1 = y.1 ∧ LikeNodes x.2.1 y.2.1 ∧ x.2.2 = y.2.2

theorem likeOption_filter {t t' : Option Token} (h : LikeOption Twin t t') : LikeOption Twin (t.filter fun t => !t.value.isEmpty) (t'.filter fun t => !t.value.isEmpty) := by
  rcases h with ⟨rfl, rfl⟩ | ⟨a, b, rfl, rfl, hab⟩
  · exact .inl ⟨rfl, rfl⟩
  · simp only [Option.filter, hab.2.1]
    split
    · exact .inr ⟨_, _, rfl, rfl, hab⟩
    · exact .inl ⟨rfl, rfl⟩

section
variable {ts ts' : List Token} (hts : Twins ts ts')
include hts

theorem twin_blockEngine {nested : NestedParser} (hn : NestedTwin nested) (engine : Str) (classes : List Str) {t t' : Option Token} (ht : LikeOption Twin t t') (args : NodeArgs)
    {c c' : Context} (hc : Near c c') : DTwin LikeMade (blockEngine nested engine classes t args c) (blockEngine nested engine classes t' args c') := by
  unfold blockEngine
  dsimp only
  have hf := likeOption_filter ht
  generalize t.filter (fun t => !t.value.isEmpty) = x at hf
  generalize t'.filter (fun t => !t.value.isEmpty) = y at hf
  split
  · rcases hf with ⟨rfl, rfl⟩ | ⟨a, b, rfl, rfl, hab⟩
    · exact .pure ⟨rfl, rfl, rfl⟩
    · exact (twin_blockContent hn hab args).bind fun _ _ h => .pure ⟨rfl, h, rfl⟩
  split
  · rcases hf with ⟨rfl, rfl⟩ | ⟨a, b, rfl, rfl, hab⟩
    · exact .pure ⟨rfl, rfl, rfl⟩
    · exact .pure ⟨rfl, rawLines_like hts hab, rfl⟩
  split
  · rcases hf with ⟨rfl, rfl⟩ | ⟨a, b, rfl, rfl, hab⟩
    · exact .pure ⟨rfl, rfl, rfl⟩
    · refine DTwin.get.bind fun s s' hs => ?_
      rw [hs.env]
      refine (DTwin.lift (both_sourceEngine hts _ hab args)).bind fun x y hxy => ?_
      obtain ⟨a1, a2, a3⟩ := x
      obtain ⟨b1, b2, b3⟩ := y
      obtain ⟨h1, h2, h3⟩ := hxy
      dsimp only at h1 h2 h3
      subst h1
      subst h3
      exact .pure ⟨rfl, h2, rfl⟩
  · exact .err hc

theorem twin_blockText : DTwin (LikeOption Twin) (blockText ts) (blockText ts') := by
  unfold blockText
  refine (DTwin.peek hts _ _ _).bind fun a a' ha => ?_
  rw [ha.1]
  split
  · exact (DTwin.tok hts _ _ _).bind fun b b' hb => .pure (.inr ⟨_, _, rfl, rfl, hb⟩)
  · exact .pure (.inl ⟨rfl, rfl⟩)

theorem twin_placeBlock (d : NodeData) {ns ns' : List Node} (hn : LikeNodes ns ns') (args : NodeArgs) {l l' : Dict Node} (hl : LikeLabels l l') {c c' o o' : Context}
    (hc : Near c c') (ho : Near o o') : DTwin Eq (placeBlock d ns args l c o) (placeBlock d ns' args l' c' o') := by
  unfold placeBlock
  split
  · refine DTwin.get.bind fun s s' hs => ?_
    rw [hs.bodies.has]
    split
    · exact .err ho
    · exact .modify fun _ _ ht => { ht with bodies := ht.bodies.set _ (likeNode_new _ ho hn {} hl) }
  · have hnode := likeNode_new d hc hn args hl
    dsimp only
    split
    · refine DTwin.get.bind fun s s' hs => ?_
      refine (DTwin.lift (both_addBlock hs.groups _ _ hnode)).bind fun g g' hg => ?_
      exact .modify fun _ _ ht => { ht with groups := hg }
    · exact twin_saveIf hnode

theorem blockOwn_near (engine : Str) {t t' : Option Token} (ht : LikeOption Twin t t') : Near (blockOwn engine t) (blockOwn engine t') := by
  unfold blockOwn
  rcases ht with ⟨rfl, rfl⟩ | ⟨a, b, rfl, rfl, hab⟩
  · exact rfl
  · dsimp only
    rw [hab.2.1]
    split
    · exact hab.2.2
    · exact rfl

theorem twin_block {nested : NestedParser} (hn : NestedTwin nested) : DTwin Eq (blockProc nested ts) (blockProc nested ts') := by
  unfold blockProc
  refine (DTwin.tok hts _ _ _).bind fun o o' ho => (twin_blockText hts).bind fun t t' ht => (DTwin.tok hts _ _ _).bind fun c c' hc => ?_
  dsimp only
  refine twin_popArgs.bind fun p p' e => ?_
  subst e
  refine (twin_blockEngine hts hn _ _ ht _ ho.2.2.merge).bind fun r r' hr => twin_popLabels.bind fun l l' hl => ?_
  rw [hr.1, hr.2.2]
  exact twin_placeBlock hts _ hr.2.1 _ hl ho.2.2.merge (blockOwn_near hts _ ht)

/-! ## Includes -/

theorem both_readFile (cfg : Config) (uri : Str) {c c' : Context} (h : Near c c') : Both Eq (readFile cfg uri c) (readFile cfg uri c') := by
  unfold readFile
  split
  · exact rfl
  · exact sees_err h
  · exact rfl

theorem both_includeImage (args : NodeArgs) {c c' : Context} (h : Near c c') : Both Eq (includeImage args c) (includeImage args c') := by
  unfold includeImage
  dsimp only
  split
  · exact sees_err h
  · exact rfl

theorem both_includeRaw (cfg : Config) (args : NodeArgs) {c c' : Context} (h : Near c c') : Both LikeMade (includeRaw cfg args c) (includeRaw cfg args c') := by
  unfold includeRaw
  dsimp only
  split
  · exact sees_err h
  · rename_i uri _
    have h1 := both_readFile hts cfg uri h
    generalize readFile cfg uri c = x at h1
    generalize readFile cfg uri c' = y at h1
    cases x <;> cases y
    · exact h1
    · exact h1.elim
    · exact h1.elim
    · cases h1
      exact ⟨rfl, likeNodes_map hts (fun l => likeNode_new _ h rfl {} (show LikeLabels [] [] from rfl)) _, rfl⟩

theorem twin_includeMau (cfg : Config) {nested : NestedParser} (hn : NestedTwin nested) (args : NodeArgs) {c c' : Context} (h : Near c c') :
    DTwin LikeMade (includeMau cfg nested args c) (includeMau cfg nested args c') := by
  unfold includeMau
  dsimp only
  rw [show c.source = c'.source from h]
  split
  · exact .err h
  · rename_i uri _
    refine DTwin.bind (DTwin.modify fun _ _ ht => { ht with forbidden := by change addForbidden _ _ = addForbidden _ _; rw [ht.forbidden] }) fun _ _ _ => ?_
    refine DTwin.get.bind fun s s' hs => ?_
    rw [hs.forbidden, hs.env]
    split
    · exact .err h
    · refine DTwin.bind (DTwin.modify fun _ _ ht => { ht with forbidden := by change addForbidden _ _ = addForbidden _ _; rw [ht.forbidden] }) fun _ _ _ => ?_
      refine (DTwin.lift (both_readFile hts cfg uri h)).bind fun t t' e => ?_
      subst e
      refine (DTwin.lift (Both.refl (R := Eq) _ fun _ => rfl)).bind fun v v' e => ?_
      subst e
      refine DTwin.get.bind fun q q' hq => ?_
      rw [hq.forbidden, hq.uid]
      refine (DTwin.lift (hn _ _ _ _ _ _ _ _ _ _ _ hq.objs)).bind fun a b hab => ?_
      refine DTwin.bind (DTwin.modify fun x y ht => { ht with
        uid := hab.uid
        objs := hab.objs
        forbidden := hab.forbidden
        includeCalls := ?_ }) fun _ _ _ => .pure ⟨rfl, hab.nodes, rfl⟩
      have h3 := ht.includeCalls
      have h4 := hab.includeCalls
      unfold adriftCalls at h3 h4 ⊢
      simp only [List.map_append, List.map_cons, List.map_nil, h3, h4, near_iff.1 h]

theorem twin_includeNode (cfg : Config) {nested : NestedParser} (hn : NestedTwin nested) (ctype : Str) (args : NodeArgs) {c c' : Context} (h : Near c c') :
    DTwin LikeMade (includeNode cfg nested ctype args c) (includeNode cfg nested ctype args c') := by
  unfold includeNode
  split
  · refine (DTwin.lift (both_includeImage hts args h)).bind fun x y e => ?_
    subst e
    exact .pure ⟨rfl, rfl, rfl⟩
  split
  · exact twin_includeMau hts cfg hn args h
  split
  · exact .lift (both_includeRaw hts cfg args h)
  split
  · refine DTwin.fresh.bind fun i i' e => ?_
    subst e
    exact DTwin.bind (DTwin.modify fun _ _ ht => { ht with tocNodes := by change _ ++ _ = _ ++ _; rw [ht.tocNodes] }) fun _ _ _ => .pure ⟨rfl, rfl, rfl⟩
  split
  · refine DTwin.fresh.bind fun i i' e => ?_
    subst e
    exact DTwin.bind (DTwin.modify fun _ _ ht => { ht with footnoteLists := by change _ ++ _ = _ ++ _; rw [ht.footnoteLists] }) fun _ _ _ => .pure ⟨rfl, rfl, rfl⟩
  split
  · dsimp only
    split
    · exact .raise rfl
    · refine DTwin.fresh.bind fun i i' e => ?_
      subst e
      exact DTwin.bind (DTwin.modify fun _ _ ht => { ht with
        groupNodes := by change _ ++ _ = _ ++ _; rw [ht.groupNodes]
        places := adriftPlaces_snoc ht.places h }) fun _ _ _ => .pure ⟨rfl, rfl, rfl⟩
  · exact .pure ⟨rfl, rfl, rfl⟩

theorem twin_includeArgs (boxed : Option NodeArgs) {c c' : Context} (h : Near c c') : DTwin Eq (includeArgs boxed ts c) (includeArgs boxed ts' c') := by
  unfold includeArgs
  refine (DTwin.peekIs hts _ _ _).bind fun b b' e => ?_
  subst e
  split
  · split
    · exact .err h
    · refine (DTwin.tok hts _ _ _).bind fun _ _ _ => (DTwin.tok hts _ _ _).bind fun t t' ht => DTwin.get.bind fun s s' hs => ?_
      rw [hs.env]
      exact (DTwin.lift (both_processArgumentsWithVariables _ ht)).bind fun x y hxy => .pure hxy.arguments
  · exact .pure rfl

theorem twin_include (cfg : Config) {nested : NestedParser} (hn : NestedTwin nested) : DTwin Eq (includeProc cfg nested ts) (includeProc cfg nested ts') := by
  unfold includeProc
  refine (DTwin.tok hts _ _ _).bind fun o o' ho => (DTwin.tok hts _ _ _).bind fun t t' ht => ?_
  dsimp only
  refine DTwin.get.bind fun s s' hs => DTwin.bind (DTwin.modify fun _ _ ht => { ht with argsBuf := rfl }) fun _ _ _ => ?_
  rw [hs.argsBuf, ht.2.1]
  refine (twin_includeArgs hts _ ho.2.2.merge).bind fun p p' e => ?_
  subst e
  refine (twin_includeNode hts cfg hn _ _ ho.2.2.merge).bind fun r r' hr => twin_popLabels.bind fun l l' hl => ?_
  rw [hr.1, hr.2.2]
  exact twin_saveIf (likeNode_new _ ho.2.2.merge hr.2.1 _ hl)

/-! ## The loop -/

theorem twin_docFns (cfg : Config) {nested : NestedParser} (hn : NestedTwin nested) (fuel : Nat) {t t' : Token} (ht : Near t.ctx t'.ctx) :
    DTwin Eq (tryDocFns t (docFns cfg nested fuel ts)) (tryDocFns t' (docFns cfg nested fuel ts')) := by
  have hcons : ∀ (f g : DM Unit) (fs gs : List (DM Unit)), DTwin Eq f g → DTwin Eq (tryDocFns t fs) (tryDocFns t' gs) → DTwin Eq (tryDocFns t (f :: fs)) (tryDocFns t' (g :: gs)) := by
    intro f g fs gs h hs s s' ht
    have h1 := h s s' ht
    simp only [tryDocFns]
    cases hx : f s <;> cases hy : g s' <;> rw [hx, hy] at h1
    · exact h1
    · exact h1.elim
    · exact h1.elim
    · exact h1.elim
    · exact hs _ _ { h1 with next := ht.next }
    · exact h1.elim
    · exact h1.elim
    · exact h1.elim
    · exact h1
  unfold docFns
  refine hcons _ _ _ _ (twin_eol hts) ?_
  refine hcons _ _ _ _ (twin_rule hts) ?_
  refine hcons _ _ _ _ (twin_variable hts) ?_
  refine hcons _ _ _ _ (twin_label hts fuel) ?_
  refine hcons _ _ _ _ (twin_controlLine hts) ?_
  refine hcons _ _ _ _ (twin_arguments hts) ?_
  refine hcons _ _ _ _ (twin_header hts fuel) ?_
  refine hcons _ _ _ _ (twin_block hts hn) ?_
  refine hcons _ _ _ _ (twin_include hts cfg hn) ?_
  refine hcons _ _ _ _ (twin_list hts fuel) ?_
  refine hcons _ _ _ _ (twin_paragraph hts fuel) ?_
  exact .err ht

theorem both_docLoop (cfg : Config) {nested : NestedParser} (hn : NestedTwin nested) (fuel : Nat) : ∀ (n : Nat) (u u' : Token) (s s' : DocSt), Lasts ts ts' u u' → DocTwin s s' →
    Both DocTwin (docLoop (docFns cfg nested fuel ts) ts n u s) (docLoop (docFns cfg nested fuel ts') ts' n u' s')
  | 0, _, _, _, _, _, _ => rfl
  | n + 1, u, u', s, s', hu, hs => by
    rw [docLoop, docLoop]
    rw [← hs.next]
    have hp := both_peekIs hts s.next .EOF none none
    have hq := both_peek hts s.next none none none
    cases e1 : TM.peekIs ⟨ts, s.next⟩ .EOF <;> cases e2 : TM.peekIs ⟨ts', s.next⟩ .EOF <;> rw [e1, e2] at hp
    · exact hp
    · exact hp.elim
    · exact hp.elim
    · rename_i b b'
      cases hp
      cases b with
      | true => exact hs
      | false =>
        dsimp only
        cases e3 : TM.peek ⟨ts, s.next⟩ <;> cases e4 : TM.peek ⟨ts', s.next⟩ <;> rw [e3, e4] at hq
        · exact hq
        · exact hq.elim
        · exact hq.elim
        · rename_i t t'
          have he := lasts_eq hts hq.2 (peekIs_eof e1 e3) (peekIs_eof e2 e4) hu
          dsimp only
          by_cases h : t = u
          · rw [if_pos h, if_pos (he.1 h)]
            exact sees_err hq.1.2.2
          · rw [if_neg h, if_neg fun e => h (he.2 e)]
            have hr := twin_docFns hts cfg hn fuel hq.1.2.2 s s' hs
            cases e5 : tryDocFns t (docFns cfg nested fuel ts) s <;> cases e6 : tryDocFns t' (docFns cfg nested fuel ts') s' <;> rw [e5, e6] at hr
            · exact both_docLoop cfg hn fuel n _ _ _ _ (.inr hq.2) hr.2
            · exact hr.elim
            · exact hr.elim
            · exact hr.elim
            · exact rfl
            · exact hr.elim
            · exact hr.elim
            · exact hr.elim
            · exact hr

end

theorem both_parseDocument {cfg : Config} (hb : Blind cfg) : ∀ n : Nat, NestedTwin (parseDocument cfg n)
  | 0 => fun _ _ _ _ _ _ _ _ _ _ _ _ => rfl
  | n + 1 => by
    intro text env l c l' c' src forb uid objs objs' ho
    simp only [parseDocument]
    have hl := both_lexDocument text l c l' c' src
    generalize lexDocument (TextBuffer.ofText text l c src) = x at hl
    generalize lexDocument (TextBuffer.ofText text l' c' src) = y at hl
    cases x <;> cases y
    · exact hl
    · exact hl.elim
    · exact hl.elim
    · rename_i ts ts'
      have hts : Twins ts ts' := hl
      dsimp only
      cases parserObjects (initEnv env) with
      | error e => exact rfl
      | ok u =>
        cases u
        dsimp only
        rw [← hts.length]
        have hs : DocTwin { env := initEnv env, uid := uid, objs := objs, forbidden := forb } { env := initEnv env, uid := uid, objs := objs', forbidden := forb } :=
          ⟨rfl, rfl, rfl, rfl, rfl, rfl, .inl ⟨rfl, rfl⟩, rfl, rfl, rfl, rfl, rfl, rfl, rfl, rfl, rfl, rfl, rfl, rfl, rfl, ho⟩
        have h1 := both_docLoop hts cfg (both_parseDocument hb n) n (ts.length + 2) initialLast initialLast _ _ (.inl ⟨rfl, rfl⟩) hs
        generalize docLoop (docFns cfg (parseDocument cfg n) n ts) ts (ts.length + 2) initialLast _ = a at h1
        generalize docLoop (docFns cfg (parseDocument cfg n) n ts') ts' (ts.length + 2) initialLast _ = b at h1
        cases a <;> cases b
        · exact h1
        · exact h1.elim
        · exact h1.elim
        · exact both_finalise hb h1

end Mau
