import Verif.Lemmas.DocLink

set_option linter.unusedSimpArgs false

/-!
# Relations between the states before and after a processing function
-/

namespace Mau
open Spec

/-- `R` relates the state before and the state after `f`, also if `f` gives up with the token error. -/
def Keeps {α : Type} (R : DocSt → DocSt → Prop) (f : DM α) : Prop :=
  ∀ s, (∀ a s', f s = .ok a s' → R s s') ∧ ∀ s', f s = .fail s' → R s s'

/-- A relation that is closed under everything the processing functions do to the state (except moving
the token index). `ok` restricts the files in which the include lines stand, `defs` the variables that are defined and `texts` the contents of
blocks. -/
structure Frame (R : DocSt → DocSt → Prop) (nested : NestedParser) (ok : Option Str → Prop := fun _ => True) (defs : Str → Prop := fun _ => True)
    (texts : Str → Prop := fun _ => True) : Prop where
  refl : ∀ s, R s s
  trans : ∀ {a b c}, R a b → R b c → R a c
  args : ∀ s a, (∀ x, a = some x → ∃ env t p, processArgumentsWithVariables env t = .ok p ∧ x = p.arguments) → R s { s with argsBuf := a }
  labels : ∀ s a, R s { s with labelBuf := a }
  control : ∀ s a, R s { s with controlBuf := a }
  latest : ∀ s a, R s { s with latest := a }
  env : ∀ s k v, defs k → R s { s with env := Env.setitem s.env k (.leaf (.str v)) }
  node : ∀ s n, R s { s with nodes := s.nodes ++ [n] }
  text : ∀ s fuel text sl sc src r, parseText fuel s.env text sl sc src s.uid = .ok r →
    R s { s with uid := r.uid, footnoteMacros := s.footnoteMacros ++ r.footnoteMacros, linkMacros := s.linkMacros ++ r.headerLinks, places := s.places ++ r.places }
  fresh : ∀ s, R s { s with uid := s.uid + 1 }
  name : ∀ s a, R s { s with linkHeaders := a }
  header : ∀ s a b, R s { s with tocHeaders := s.tocHeaders ++ [a], objs := s.objs ++ [b] }
  body : ∀ s a, R s { s with bodies := a }
  group : ∀ s a, R s { s with groups := a }
  block : ∀ s req inner, nested req = .ok inner → req.uid = s.uid → req.objs = s.objs → req.env = s.env → req.forbidden = [] → texts req.text →
    R s { s with env := inner.env, uid := inner.uid, objs := inner.objs }
  merge : ∀ s req inner, nested req = .ok inner → R s (mergeManagers s inner)
  forbid : ∀ s a, R s { s with forbidden := addForbidden s.forbidden a }
  mau : ∀ s req inner c, ok c.caller → nested req = .ok inner → req.uid = s.uid → req.objs = s.objs → req.source = some c.callee →
    some c.callee ∉ addForbidden s.forbidden c.caller → req.forbidden = addForbidden (addForbidden s.forbidden c.caller) (some c.callee) →
    R s { s with uid := inner.uid, objs := inner.objs, forbidden := inner.forbidden, includeCalls := s.includeCalls ++ [c] ++ inner.includeCalls }
  tocNode : ∀ s a, R s { s with tocNodes := s.tocNodes ++ [a] }
  footnoteList : ∀ s a, R s { s with footnoteLists := s.footnoteLists ++ [a] }
  groupNode : ∀ s a c, R s { s with groupNodes := s.groupNodes ++ [a], places := s.places ++ [c] }

theorem current_mem {tm : TM} {t : Token} (h : tm.currentToken = .ok t) : t ∈ tm.tokens := by
  unfold TM.currentToken at h
  split at h
  · cases h
  · rename_i l hl
    have hm := List.mem_of_getLast? hl
    split at h
    · cases h; exact hm
    · rename_i i hi
      cases h
      rw [List.getD_eq_getElem?_getD]
      cases hx : tm.tokens[i]? with
      | none => exact hm
      | some x => exact List.mem_of_getElem? hx

theorem tm_get_mem {toks : List Token} {ty : Option TokenType} {v : Option Str} {f : Option (Str → Bool)} {s s' : DocSt} {t : Token}
    (h : DM.tm toks (·.get ty v f) s = .ok t s') : t ∈ toks := by
  unfold DM.tm at h
  split at h
  · rename_i t' tm hg
    cases h
    unfold TM.get at hg
    dsimp only at hg
    split at hg
    · cases hg
    · 
      split at hg
      · cases hg
      · rename_i x hx
        cases hg
        have := current_mem hx
        unfold TM.advance at this
        split at this <;> exact this
  · cases h
  · cases h

namespace Keeps
variable {R : DocSt → DocSt → Prop} {nested : NestedParser} {ok : Option Str → Prop} {defs texts : Str → Prop} {α β : Type}

section
variable (F : Frame R nested ok defs texts)
include F

theorem pure (a : α) : Keeps R (Pure.pure a : DM α) :=
  fun s => ⟨by intro _ _ h; cases h; exact F.refl _, by intro _ h; cases h⟩

theorem bind {f : DM α} {g : α → DM β} (hf : Keeps R f) (hg : ∀ a, Keeps R (g a)) : Keeps R (f >>= g) := by
  intro s
  constructor
  · intro b s' h
    obtain ⟨a, s1, h1, h2⟩ := DM.bind_ok h
    exact F.trans ((hf s).1 _ _ h1) ((hg a s1).1 _ _ h2)
  · intro s' h
    cases h1 : f s with
    | ok a s1 =>
      rw [DM.bind_of_ok h1] at h
      exact F.trans ((hf s).1 _ _ h1) ((hg a s1).2 _ h)
    | fail s1 =>
      rw [DM.bind_of_fail h1] at h
      cases h
      exact (hf s).2 _ h1
    | err e => rw [DM.bind_of_err h1] at h; cases h

theorem lift (x : Except Err α) : Keeps R (DM.lift x) := by
  intro s
  unfold DM.lift
  constructor
  · intro a s' h
    split at h <;> cases h
    exact F.refl _
  · intro s' h
    split at h <;> cases h
    exact F.refl _

theorem bindLift (x : Except Err α) {g : α → DM β} (hg : ∀ a, x = .ok a → Keeps R (g a)) : Keeps R (DM.lift x >>= g) := by
  intro s
  change (∀ b s', DM.bind (DM.lift x) g s = .ok b s' → R s s') ∧ ∀ s', DM.bind (DM.lift x) g s = .fail s' → R s s'
  unfold DM.bind DM.lift
  cases x with
  | ok a => exact hg a rfl s
  | error e =>
    cases e <;> exact ⟨(by intro _ _ h; cases h), (by intro _ h; cases h; try exact F.refl _)⟩

theorem raise (e : Err) : Keeps R (DM.raise e : DM α) := lift F _
theorem peek {toks : List Token} (f : TM → Except Err α) : Keeps R (DM.peek toks f) := fun s => lift F _ s
theorem get : Keeps R DM.get := fun s => ⟨by intro _ _ h; cases h; exact F.refl _, by intro _ h; cases h⟩

omit F in
theorem modify {f : DocSt → DocSt} (h : ∀ s, R s (f s)) : Keeps R (DM.modify f) :=
  fun s => ⟨by intro _ _ h'; cases h'; exact h s, by intro _ h; cases h⟩

theorem fresh : Keeps R DM.fresh := fun s => ⟨by intro _ _ h'; cases h'; exact F.fresh s, by intro _ h; cases h⟩

omit F in
theorem ite {c : Prop} [Decidable c] {f g : DM α} (hf : Keeps R f) (hg : Keeps R g) : Keeps R (if c then f else g) := by
  split
  · exact hf
  · exact hg

theorem docText (fuel : Nat) (text : Str) (ctx : Context) : Keeps R (Mau.docText fuel text ctx) := by
  intro s
  unfold Mau.docText
  constructor
  · intro a s' h
    split at h
    · cases h
    · cases h
    · cases h; exact F.refl _
    · split at h
      · cases h
      · cases h
      · rename_i r hr; cases h; exact F.text s _ _ _ _ _ r hr
  · intro s' h
    split at h
    · cases h; exact F.refl _
    · cases h
    · cases h
    · split at h
      · cases h; exact F.refl _
      · cases h
      · cases h

theorem popArgs : Keeps R Mau.popArgs := fun s => ⟨by intro _ _ h; cases h; exact F.args _ _ (by intro _ h; cases h), by intro _ h; cases h⟩
theorem popLabels : Keeps R Mau.popLabels := fun s => ⟨by intro _ _ h; cases h; exact F.labels _ _, by intro _ h; cases h⟩
theorem popControl : Keeps R Mau.popControl := by
  intro s
  unfold Mau.popControl
  cases s.controlBuf with
  | none => exact ⟨by intro _ _ h; cases h; exact F.refl _, by intro _ h; cases h⟩
  | some c =>
    dsimp only
    have := lift (R := R) F (c.process s.env) { s with controlBuf := none }
    exact ⟨fun a s' h => F.trans (F.control s _) (this.1 a s' h), fun s' h => F.trans (F.control s _) (this.2 s' h)⟩
theorem save (n : Node) : Keeps R (Mau.save n) := modify fun s => F.node s n
theorem saveIfControl (n : Node) : Keeps R (Mau.saveIfControl n) := bind F (popControl F) fun _ => ite (save F n) (pure F _)

theorem paragraphLines (fuel : Nat) (ts : List Token) : Keeps R (Mau.paragraphLines fuel ts) := by
  induction ts with
  | nil => exact pure F _
  | cons t ts ih => exact bind F (docText F _ _ _) fun _ => bind F ih fun _ => pure F _

theorem registerHeader (id level : Nat) (name : Option Str) (node : Node) : Keeps R (Mau.registerHeader id level name node) := by
  unfold Mau.registerHeader
  refine bind F ?_ fun _ => modify fun s => F.header s _ _
  unfold registerName
  cases truthy name with
  | none => exact pure F _
  | some nm => exact bind F (get F) fun _ => ite (raise F _) (modify fun s => F.name s _)

theorem blockContent (t : Token) (a : NodeArgs) (ht : texts t.value) : Keeps R (Mau.blockContent nested t a) := by
  intro s
  unfold Mau.blockContent
  constructor
  · intro ns s' h
    split at h
    · cases h
    · cases h
    · rename_i inner hi
      have hb := F.block s _ inner hi rfl rfl rfl rfl ht
      simp only at h
      split at h
      · cases h; exact F.trans hb (F.merge _ _ inner hi)
      · cases h; exact hb
  · intro s' h
    split at h
    · cases h; exact F.refl _
    · cases h
    · cases h

theorem blockEngine (engine : Str) (classes : List Str) (content : Option Token) (args : NodeArgs) (ctx : Context)
    (hc : ∀ t, content = some t → texts t.value) : Keeps R (Mau.blockEngine nested engine classes content args ctx) := by
  unfold Mau.blockEngine
  simp only
  cases hf : content.filter (fun t => !t.value.isEmpty) with
  | none => exact ite (pure F _) (ite (pure F _) (ite (pure F _) (raise F _)))
  | some t =>
    refine ite (bind F (blockContent F _ _ (hc t (Option.filter_eq_some_iff.1 hf).1)) fun _ => pure F _) (ite (pure F _) (ite ?_ (raise F _)))
    exact bind F (get F) fun _ => bind F (lift F _) fun _ => pure F _

theorem placeBlock (data : NodeData) (ns : List Node) (args : NodeArgs) (labels : Dict Node) (ctx own : Context) :
    Keeps R (Mau.placeBlock data ns args labels ctx own) := by
  unfold Mau.placeBlock
  cases truthy (Dict.get? args.named c%"footnote") with
  | some name => exact bind F (get F) fun _ => ite (raise F _) (modify fun s => F.body s _)
  | none =>
    simp only
    cases truthy (Dict.get? args.named c%"group") with
    | none => exact saveIfControl F _
    | some g =>
      cases truthy (Dict.get? args.named c%"position") with
      | none => exact saveIfControl F _
      | some p => exact bind F (get F) fun _ => bind F (lift F _) fun _ => modify fun s => F.group s _

end

theorem includeMau (F : Frame R nested ok defs texts) (cfg : Config) (args : NodeArgs) {ctx : Context} (hok : ok ctx.source) :
    Keeps R (Mau.includeMau cfg nested args ctx) := by
  unfold Mau.includeMau
  simp only
  cases truthy _ with
  | none => exact raise F _
  | some uri =>
    intro s
    have f1 : R s { s with forbidden := addForbidden s.forbidden ctx.source } := F.forbid s _
    have f2 : R s { s with forbidden := addForbidden (addForbidden s.forbidden ctx.source) (some uri) } := F.trans f1 (F.forbid _ _)
    constructor
    · intro x s' h
      obtain ⟨_, s1, hm, h⟩ := DM.bind_ok h
      cases hm
      obtain ⟨_, s2, hm, h⟩ := DM.bind_ok h
      cases hm
      split at h
      · obtain ⟨hm, _⟩ := DM.lift_ok h; cases hm
      rename_i hf
      obtain ⟨_, s3, hm, h⟩ := DM.bind_ok h
      cases hm
      obtain ⟨text, s4, hm, h⟩ := DM.bind_ok h
      obtain ⟨_, rfl⟩ := DM.lift_ok hm
      obtain ⟨env, s5, hm, h⟩ := DM.bind_ok h
      obtain ⟨_, rfl⟩ := DM.lift_ok hm
      obtain ⟨_, s6, hm, h⟩ := DM.bind_ok h
      cases hm
      obtain ⟨inner, s7, hi, h⟩ := DM.bind_ok h
      obtain ⟨hi', rfl⟩ := DM.lift_ok hi
      obtain ⟨_, s8, hm, h⟩ := DM.bind_ok h
      cases hm
      cases h
      exact F.mau s _ inner ⟨ctx.source, uri, _, ctx⟩ hok hi' rfl rfl rfl (by simpa using hf) rfl
    · intro s' h
      have step : ∀ {β : Type} (x : Except Err β) (k : β → DM (NodeData × List Node × NodeArgs)) (s1 : DocSt), R s s1 →
          (∀ b, ∀ s', k b s1 = .fail s' → R s s') → ∀ s', (DM.lift x >>= k) s1 = .fail s' → R s s' := by
        intro β x k s1 h1 h2 s' h
        change DM.bind (DM.lift x) k s1 = _ at h
        unfold DM.bind DM.lift at h
        split at h
        · rename_i heq
          split at heq <;> cases heq
          exact h2 _ _ h
        · rename_i heq
          split at heq <;> cases heq
          cases h
          exact h1
        · cases h
      change (if (addForbidden s.forbidden ctx.source).contains (some uri) = true then (DM.raise _ : DM (NodeData × List Node × NodeArgs)) else _)
        { s with forbidden := addForbidden s.forbidden ctx.source } = _ at h
      split at h
      · cases h
      · refine step (readFile cfg uri ctx) _ { s with forbidden := addForbidden (addForbidden s.forbidden ctx.source) (some uri) } f2 (fun text => ?_) s' h
        refine step _ _ _ f2 (fun env => ?_)
        refine step _ (fun inner => _) _ f2 (fun inner s' h => ?_)
        cases h

theorem includeNode (F : Frame R nested ok defs texts) (cfg : Config) (ctype : Str) (args : NodeArgs) {ctx : Context} (hok : ok ctx.source) :
    Keeps R (Mau.includeNode cfg nested ctype args ctx) := by
  unfold Mau.includeNode
  refine ite (bind F (lift F _) fun _ => pure F _) (ite (includeMau F _ _ hok) (ite (lift F _) (ite ?_ (ite ?_ (ite ?_ (pure F _))))))
  · exact bind F (fresh F) fun _ => bind F (modify fun s => F.tocNode s _) fun _ => pure F _
  · exact bind F (fresh F) fun _ => bind F (modify fun s => F.footnoteList s _) fun _ => pure F _
  · simp only
    cases (NodeArgs.pop _ _).1 with
    | none => exact raise F _
    | some g => exact bind F (fresh F) fun _ => bind F (modify fun s => F.groupNode s _ _) fun _ => pure F _

/-! ## The processing functions, if moving the token index is all right too -/

section
variable (F : Frame R nested ok defs texts) (N : ∀ s k, R s { s with next := k })
include F N

theorem tm {toks : List Token} (f : TM → Except Err (α × TM)) : Keeps R (DM.tm toks f) := by
  intro s
  unfold DM.tm
  constructor
  · intro a s' h
    split at h <;> cases h
    exact N _ _
  · intro s' h
    split at h <;> cases h
    exact F.refl _

theorem bindTm {toks : List Token} {ty : Option TokenType} {v : Option Str} {f : Option (Str → Bool)} {g : Token → DM β}
    (hg : ∀ t ∈ toks, Keeps R (g t)) : Keeps R (DM.tm toks (·.get ty v f) >>= g) := by
  intro s
  have ht := tm (R := R) F N (toks := toks) (·.get ty v f) s
  constructor
  · intro b s' h
    obtain ⟨t, s1, h1, h2⟩ := DM.bind_ok h
    exact F.trans (ht.1 _ _ h1) ((hg t (tm_get_mem h1) s1).1 _ _ h2)
  · intro s' h
    cases h1 : DM.tm toks (·.get ty v f) s with
    | ok t s1 =>
      rw [DM.bind_of_ok h1] at h
      exact F.trans (ht.1 _ _ h1) ((hg t (tm_get_mem h1) s1).2 _ h)
    | fail s1 =>
      rw [DM.bind_of_fail h1] at h
      cases h
      exact ht.2 _ h1
    | err e => rw [DM.bind_of_err h1] at h; cases h

theorem collectLines (toks : List Token) (n : Nat) : Keeps R (Mau.collectLines toks n) := by
  induction n with
  | zero => exact raise F _
  | succ n ih => exact bind F (peek F _) fun _ => ite (bind F (tm F N _) fun _ => bind F ih fun _ => pure F _) (pure F _)

theorem listItem (fuel : Nat) (toks : List Token) (h : Token) : Keeps R (Mau.listItem fuel toks h) := by
  unfold Mau.listItem
  refine bind F (tm F N _) fun _ => bind F (docText F _ _ _) fun c => ?_
  cases c.getLast? with
  | none => exact raise F _
  | some l => exact pure F _

theorem listNodes_listLoop (fuel : Nat) (toks : List Token) (n : Nat) :
    Keeps R (Mau.listNodes fuel toks n) ∧ ∀ level, Keeps R (Mau.listLoop fuel toks n level) := by
  induction n with
  | zero => exact ⟨raise F _, fun _ => raise F _⟩
  | succ n ih =>
    constructor
    · unfold Mau.listNodes
      exact bind F (tm F N _) fun _ => bind F (listItem F N _ _ _) fun _ => bind F (ih.2 _) fun _ => pure F _
    · intro level
      unfold Mau.listLoop
      refine bind F (peek F _) fun t => ite (pure F _) (ite (raise F _) (ite ?_ (ite ?_ (pure F _))))
      · exact bind F (tm F N _) fun _ => bind F (listItem F N _ _ _) fun _ => bind F (ih.2 _) fun _ => pure F _
      · refine bind F (lift F _) fun _ => bind F ih.1 fun subs => ?_
        cases subs.getLast? with
        | none => exact raise F _
        | some l => exact bind F (ih.2 _) fun _ => pure F _

/-- The definition of variables, if all of them may be defined. -/
theorem variableProc (toks : List Token) (h : ∀ k, defs k) : Keeps R (Mau.variableProc toks) :=
  bind F (tm F N _) fun _ => bind F (tm F N _) fun _ => bind F (tm F N _) fun _ =>
    bind F (bind F (peek F _) fun _ => ite (bind F (tm F N _) fun _ => pure F _) (pure F _)) fun _ => bind F (get F) fun _ => bind F (lift F _) fun _ =>
      modify fun s => F.env s _ _ (h _)

/-- Blocks, if they may contain everything. -/
theorem blockProc (toks : List Token) (h : ∀ t, texts t) : Keeps R (Mau.blockProc nested toks) :=
  bind F (tm F N _) fun _ => bind F (bind F (peek F _) fun _ => ite (bind F (tm F N _) fun _ => pure F _) (pure F _)) fun _ => bind F (tm F N _) fun _ =>
    bind F (popArgs F) fun _ => bind F (blockEngine F _ _ _ _ _ fun _ _ => h _) fun _ => bind F (popLabels F) fun _ => placeBlock F _ _ _ _ _ _

theorem docFns (cfg : Config) (fuel : Nat) (toks : List Token) (hs : ∀ t ∈ toks, ok t.ctx.source)
    (hv : Keeps R (Mau.variableProc toks)) (hb : Keeps R (Mau.blockProc nested toks)) : ∀ f ∈ Mau.docFns cfg nested fuel toks, Keeps R f := by
  intro f hf
  simp only [Mau.docFns, List.mem_cons, List.not_mem_nil, or_false] at hf
  rcases hf with rfl | rfl | rfl | rfl | rfl | rfl | rfl | rfl | rfl | rfl | rfl
  · exact bind F (tm F N _) fun _ => pure F _
  · exact bind F (tm F N _) fun _ => bind F (popArgs F) fun _ => bind F (popLabels F) fun _ => saveIfControl F _
  · exact hv
  · exact bind F (tm F N _) fun _ => bind F (tm F N _) fun _ => bind F (docText F _ _ _) fun _ => modify fun s => F.labels s _
  · refine bind F (tm F N _) fun _ => bind F (tm F N _) fun _ => bind F (tm F N _) fun _ => bind F (get F) fun _ => bind F (lift F _) fun c => ?_
    cases c
    · exact raise F _
    · exact bind F (lift F _) fun _ => modify fun s => F.control s _
  · exact bind F (tm F N _) fun _ => bind F (tm F N _) fun _ => bind F (tm F N _) fun _ => bind F (get F) fun _ => bindLift F _ fun _ h =>
      modify fun s => F.args s _ (by rintro _ ⟨⟩; exact ⟨_, _, _, h, rfl⟩)
  · exact bind F (tm F N _) fun _ => bind F (tm F N _) fun _ => bind F (fresh F) fun _ => bind F (docText F _ _ _) fun _ => bind F (popArgs F) fun _ =>
      bind F (lift F _) fun _ => bind F (popLabels F) fun _ => bind F (popControl F) fun _ =>
        ite (bind F (registerHeader F _ _ _ _) fun _ => save F _) (pure F _)
  · exact hb
  · exact bindTm F N fun t ht => bind F (tm F N _) fun _ => bind F (get F) fun _ => bind F (modify fun s => F.args s _ (by intro _ h; cases h)) fun _ =>
      bind F (bind F (peek F _) fun _ => ite (ite (raise F _) (bind F (tm F N _) fun _ => bind F (tm F N _) fun _ => bind F (get F) fun _ => bind F (lift F _) fun _ => pure F _)) (pure F _)) fun _ =>
      bind F (includeNode F _ _ _ (hs t ht)) fun _ => bind F (popLabels F) fun _ => saveIfControl F _
  · exact bind F (peek F _) fun _ => bind F (lift F _) fun _ => bind F (listNodes_listLoop F N _ _ _).1 fun _ => bind F (popArgs F) fun _ => bind F (get F) fun _ =>
      bind F (lift F _) fun _ => bind F (modify fun s => F.latest s _) fun _ => bind F (lift F _) fun _ => bind F (popLabels F) fun _ => saveIfControl F _
  · exact bind F (collectLines F N _ _) fun _ => bind F (paragraphLines F _ _) fun _ => bind F (popArgs F) fun _ => bind F (lift F _) fun _ =>
      bind F (popLabels F) fun _ => saveIfControl F _

theorem tryDocFns {next : Token} {fs : List (DM Unit)} (h : ∀ f ∈ fs, Keeps R f) : Keeps R (Mau.tryDocFns next fs) := by
  induction fs with
  | nil => exact raise F _
  | cons f fs ih =>
    intro s
    unfold Mau.tryDocFns
    have hf := h f List.mem_cons_self s
    have ih := ih fun g hg => h g (List.mem_cons_of_mem _ hg)
    cases hx : f s with
    | ok a s1 => exact ⟨by intro _ _ h; cases h; exact hf.1 _ _ hx, by intro _ h; cases h⟩
    | err e => exact ⟨(by intro _ _ h; cases h), (by intro _ h; cases h)⟩
    | fail s1 =>
      dsimp only
      have h1 : R s { s1 with next := s.next } := F.trans (hf.2 _ hx) (N _ _)
      exact ⟨fun a s' h => F.trans h1 ((ih _).1 a s' h), fun s' h => F.trans h1 ((ih _).2 s' h)⟩

theorem docLoop {fs : List (DM Unit)} (h : ∀ f ∈ fs, Keeps R f) {toks : List Token} (n : Nat) :
    ∀ last s s', Mau.docLoop fs toks n last s = .ok s' → R s s' := by
  induction n with
  | zero => intro last s s' h; cases h
  | succ n ih =>
    intro last s s' hl
    unfold Mau.docLoop at hl
    split at hl
    · cases hl
    · cases hl; exact F.refl _
    · split at hl
      · cases hl
      · split at hl
        · cases hl
        · split at hl
          · rename_i s1 hs
            exact F.trans ((tryDocFns F N h s).1 _ _ hs) (ih _ _ _ hl)
          · cases hl
          · cases hl

end
end Keeps

theorem source_place (ln : Nat) (src : Option Str) : ∀ (ps : List Piece) (col : Nat), ∀ t ∈ place ln src col ps, t.ctx.source = src
  | [], _, t, h => by simp [place] at h
  | .skip s :: ps, col, t, h => source_place ln src ps _ t (by simpa [place] using h)
  | .tok ty v :: ps, col, t, h => by
    simp only [place, List.mem_cons] at h
    rcases h with rfl | h
    · rfl
    · exact source_place ln src ps _ t h

/-- All tokens of a document carry the name of its source. -/
theorem docTokens_source {src : Option Str} {ln col : Nat} {ls : List Str} {ts : List Token} (h : docTokens src ln col ls = .ok ts) :
    ∀ t ∈ ts, t.ctx.source = src := by
  have key : ∀ ls ln col, ∀ ts, docTokens src ln col ls = .ok ts → ∀ t ∈ ts, t.ctx.source = src := by
    refine docTokens_rec (P := fun _ _ _ x => ∀ ts, x = .ok ts → ∀ t ∈ ts, t.ctx.source = src) ?_ ?_ ?_ ?_ ?_ ?_ ?_ ?_
    · rintro _ _ _ ⟨⟩ t ht; simp only [List.mem_singleton] at ht; rw [ht]; rfl
    · rintro _ _ _ ⟨⟩ t ht; simp only [List.mem_singleton] at ht; rw [ht]; rfl
    · intro ln col l rest _ _ ih ts h t ht
      obtain ⟨x, hx, rfl⟩ := map_ok h
      rcases List.mem_cons.1 ht with rfl | ht
      · rfl
      · exact ih x hx t ht
    · rintro _ _ _ _ _ ⟨⟩
    · intro _ _ _ _ _ ih; exact ih
    · rintro _ _ _ _ _ _ _ ⟨⟩
    · intro ln col l cs rest _ _ ih ts h t ht
      obtain ⟨x, hx, rfl⟩ := map_ok h
      simp only [List.mem_cons, List.mem_append, List.cons_append] at ht
      rcases ht with rfl | ht | rfl | ht
      · rfl
      · unfold contentToken at ht
        split at ht
        · simp at ht
        · simp only [List.mem_singleton] at ht; rw [ht]
      · rfl
      · exact ih x hx t ht
    · intro ln col l rest _ ih ts h t ht
      obtain ⟨x, hx, rfl⟩ := map_ok h
      rcases List.mem_append.1 ht with ht | ht
      · exact source_place _ _ _ _ t ht
      · exact ih x hx t ht
  exact key ls ln col ts h

/-- What every processing function respects holds between the states before and after reading lines. -/
theorem run_keeps {R : DocSt → DocSt → Prop} {P : Parser} (F : Frame R P.nested (· = P.src)) (N : ∀ s k, R s { s with next := k })
    {ln col : Nat} {ls : List Str} {s s' : DocSt} (h : P.run ln col ls s = .ok s') : R s s' := by
  unfold Parser.run at h
  split at h
  · cases h
  · obtain ⟨x, hx, rfl⟩ := map_ok h
    exact F.trans (N s 0) (F.trans (Keeps.docLoop F N (Keeps.docFns F N _ _ _ (docTokens_source ‹_›) (Keeps.variableProc F N _ fun _ => trivial) (Keeps.blockProc F N _ fun _ => trivial)) _ _ _ _ hx) (N _ _))

end Mau
