import Verif.Lemmas.DocLines
import Verif.Props.Lexing

set_option linter.unusedSimpArgs false

/-!
# The document parser and its lines

`parseDocument` is the reading of the lines of the text followed by the finalisation; the internal token
error never leaves the parser.
-/

namespace Mau
open Spec

/-! ## No token error as an exception -/

namespace DNT
variable {α β : Type}

theorem bind {x : DM α} {f : α → DM β} (hx : ∀ s, PNT (x s)) (hf : ∀ a s, PNT (f a s)) : ∀ s, PNT ((x >>= f) s) := by
  intro s
  change PNT (DM.bind x f s)
  unfold DM.bind
  have := hx s
  split
  · exact hf _ _
  · intro h; cases h
  · rename_i e he
    rw [he] at this
    intro h; cases h; exact this rfl

theorem pure (a : α) : ∀ s, PNT ((Pure.pure a : DM α) s) := by intro s h; cases h

theorem lift {x : Except Err α} : ∀ s, PNT (DM.lift x s) := by
  intro s
  unfold DM.lift
  split
  · intro h; cases h
  · intro h; cases h
  · rename_i e h
    intro h'; cases h'; exact h rfl

theorem raise {e : Err} : ∀ s, PNT (DM.raise e s : PRes DocSt α) := lift

theorem tm {toks : List Token} {f : TM → Except Err (α × TM)} : ∀ s, PNT (DM.tm toks f s) := by
  intro s
  unfold DM.tm
  split
  · intro h; cases h
  · intro h; cases h
  · rename_i e h _
    intro h'; cases h'; exact h rfl

theorem peek {toks : List Token} {f : TM → Except Err α} : ∀ s, PNT (DM.peek toks f s) := fun s => lift s
theorem get : ∀ s, PNT (DM.get s) := by intro s h; cases h
theorem modify {f : DocSt → DocSt} : ∀ s, PNT (DM.modify f s) := by intro s h; cases h
theorem fresh : ∀ s, PNT (DM.fresh s) := by intro s h; cases h

theorem ite {c : Prop} [Decidable c] {x y : DM α} (hx : ∀ s, PNT (x s)) (hy : ∀ s, PNT (y s)) :
    ∀ s, PNT ((if c then x else y) s) := by
  split
  · exact hx
  · exact hy

theorem docText {fuel : Nat} {text : Str} {ctx : Context} : ∀ s, PNT (Mau.docText fuel text ctx s) := by
  intro s
  unfold Mau.docText
  split
  · intro h; cases h
  · rename_i e h _
    intro h'; cases h'; exact h rfl
  · intro h; cases h
  · split
    · intro h; cases h
    · rename_i e h _
      intro h'; cases h'; exact h rfl
    · intro h; cases h

theorem popArgs : ∀ s, PNT (Mau.popArgs s) := by intro s h; cases h
theorem popLabels : ∀ s, PNT (Mau.popLabels s) := by intro s h; cases h
theorem popControl : ∀ s, PNT (Mau.popControl s) := by
  intro s
  unfold Mau.popControl
  split
  · intro h; cases h
  · exact lift _
theorem save {n : Node} : ∀ s, PNT (Mau.save n s) := modify
theorem saveIfControl {n : Node} : ∀ s, PNT (Mau.saveIfControl n s) := bind popControl fun _ => ite save (pure _)

theorem collectLines {toks : List Token} (n : Nat) : ∀ s, PNT (Mau.collectLines toks n s) := by
  induction n with
  | zero => exact raise
  | succ n ih => exact bind peek fun _ => ite (bind tm fun _ => bind ih fun _ => pure _) (pure _)

theorem paragraphLines {fuel : Nat} (ts : List Token) : ∀ s, PNT (Mau.paragraphLines fuel ts s) := by
  induction ts with
  | nil => exact pure _
  | cons t ts ih => exact bind docText fun _ => bind ih fun _ => pure _

theorem listItem {fuel : Nat} {toks : List Token} {h : Token} : ∀ s, PNT (Mau.listItem fuel toks h s) := by
  refine bind tm fun _ => bind docText fun c => ?_
  cases c.getLast?
  · exact raise
  · exact pure _

theorem listNodes_listLoop {fuel : Nat} {toks : List Token} (n : Nat) :
    (∀ s, PNT (Mau.listNodes fuel toks n s)) ∧ ∀ l s, PNT (Mau.listLoop fuel toks n l s) := by
  induction n with
  | zero => exact ⟨raise, fun _ => raise⟩
  | succ n ih =>
    constructor
    · unfold Mau.listNodes
      exact bind tm fun _ => bind listItem fun _ => bind (ih.2 _) fun _ => pure _
    · intro l
      unfold Mau.listLoop
      refine bind peek fun t => ite (pure _) <| ite raise <| ite (bind tm fun _ => bind listItem fun _ => bind (ih.2 _) fun _ => pure _) <|
        ite (bind lift fun _ => bind ih.1 fun subs => ?_) (pure _)
      cases subs.getLast?
      · exact raise
      · exact bind (ih.2 _) fun _ => pure _

theorem blockContent {nested : NestedParser} {t : Token} {a : NodeArgs} : ∀ s, PNT (Mau.blockContent nested t a s) := by
  intro s
  unfold Mau.blockContent
  split
  · intro h; cases h
  · rename_i e h _
    intro h'; cases h'; exact h rfl
  · intro h; cases h

theorem blockEngine {nested : NestedParser} {engine : Str} {cl : List Str} {content : Option Token} {a : NodeArgs} {ctx : Context} :
    ∀ s, PNT (Mau.blockEngine nested engine cl content a ctx s) := by
  unfold Mau.blockEngine
  refine ite ?_ <| ite ?_ <| ite ?_ raise
  · cases content.filter (fun t => !t.value.isEmpty)
    · exact pure _
    · exact bind blockContent fun _ => pure _
  · cases content.filter (fun t => !t.value.isEmpty)
    · exact pure _
    · exact pure _
  · cases content.filter (fun t => !t.value.isEmpty)
    · exact pure _
    · exact bind get fun _ => bind lift fun _ => pure _

theorem placeBlock {d : NodeData} {ns : List Node} {a : NodeArgs} {ls : Dict Node} {ctx own : Context} :
    ∀ s, PNT (Mau.placeBlock d ns a ls ctx own s) := by
  unfold Mau.placeBlock
  cases truthy (Dict.get? a.named c%"footnote")
  · cases truthy (Dict.get? a.named c%"group")
    · exact saveIfControl
    · cases truthy (Dict.get? a.named c%"position")
      · exact saveIfControl
      · exact bind get fun _ => bind lift fun _ => modify
  · exact bind get fun _ => ite raise modify

theorem registerHeader {id level : Nat} {name : Option Str} {n : Node} : ∀ s, PNT (Mau.registerHeader id level name n s) := by
  refine bind ?_ fun _ => modify
  unfold registerName
  cases truthy name
  · exact pure _
  · exact bind get fun _ => ite raise modify

theorem includeMau {cfg : Config} {nested : NestedParser} {a : NodeArgs} {ctx : Context} :
    ∀ s, PNT (Mau.includeMau cfg nested a ctx s) := by
  unfold Mau.includeMau
  dsimp only
  cases truthy ((a.setNames [c%"uri"]).pop c%"uri").1
  · exact raise
  · exact bind modify fun _ => bind get fun _ => ite raise <| bind modify fun _ => bind lift fun _ => bind lift fun _ =>
      bind get fun _ => bind lift fun _ => bind modify fun _ => pure _

theorem includeNode {cfg : Config} {nested : NestedParser} {ty : Str} {a : NodeArgs} {ctx : Context} :
    ∀ s, PNT (Mau.includeNode cfg nested ty a ctx s) := by
  unfold Mau.includeNode
  refine ite (bind lift fun _ => pure _) <| ite includeMau <| ite lift <|
    ite (bind fresh fun _ => bind modify fun _ => pure _) <| ite (bind fresh fun _ => bind modify fun _ => pure _) <| ite ?_ (pure _)
  dsimp only
  cases ((a.setNames [c%"group"]).pop c%"group").1
  · exact raise
  · exact bind fresh fun _ => bind modify fun _ => pure _

theorem docFns {cfg : Config} {nested : NestedParser} {fuel : Nat} {toks : List Token} :
    ∀ f ∈ docFns cfg nested fuel toks, ∀ s, PNT (f s) := by
  intro f hf
  simp only [Mau.docFns, List.mem_cons, List.not_mem_nil, or_false] at hf
  rcases hf with rfl | rfl | rfl | rfl | rfl | rfl | rfl | rfl | rfl | rfl | rfl
  · exact bind tm fun _ => pure _
  · exact bind tm fun _ => bind popArgs fun _ => bind popLabels fun _ => saveIfControl
  · exact bind tm fun _ => bind tm fun _ => bind tm fun _ =>
      bind (bind peek fun _ => ite (bind tm fun _ => pure _) (pure _)) fun _ => bind get fun _ => bind lift fun _ => modify
  · exact bind tm fun _ => bind tm fun _ => bind docText fun _ => modify
  · refine bind tm fun _ => bind tm fun _ => bind tm fun _ => bind get fun _ => bind lift fun c => ?_
    cases c
    · exact raise
    · exact bind lift fun _ => modify
  · exact bind tm fun _ => bind tm fun _ => bind tm fun _ => bind get fun _ => bind lift fun _ => modify
  · exact bind tm fun _ => bind tm fun _ => bind fresh fun _ => bind docText fun _ => bind popArgs fun _ => bind lift fun _ =>
      bind popLabels fun _ => bind popControl fun _ => ite (bind registerHeader fun _ => save) (pure _)
  · exact bind tm fun _ => bind (bind peek fun _ => ite (bind tm fun _ => pure _) (pure _)) fun _ => bind tm fun _ =>
      bind popArgs fun _ => bind blockEngine fun _ => bind popLabels fun _ => placeBlock
  · exact bind tm fun _ => bind tm fun _ => bind get fun _ => bind modify fun _ =>
      bind (bind peek fun _ => ite (ite raise (bind tm fun _ => bind tm fun _ => bind get fun _ => bind lift fun _ => pure _)) (pure _)) fun _ =>
      bind includeNode fun _ => bind popLabels fun _ => saveIfControl
  · exact bind peek fun _ => bind lift fun _ => bind (listNodes_listLoop _).1 fun _ => bind popArgs fun _ => bind get fun _ =>
      bind lift fun _ => bind modify fun _ => bind lift fun _ => bind popLabels fun _ => saveIfControl
  · exact bind (collectLines _) fun _ => bind (paragraphLines _) fun _ => bind popArgs fun _ => bind lift fun _ =>
      bind popLabels fun _ => saveIfControl

end DNT

theorem tryDocFns_nt {next : Token} {fs : List (DM Unit)} (h : ∀ f ∈ fs, ∀ s, PNT (f s)) : ∀ s, PNT (tryDocFns next fs s) ∧ ∀ s', tryDocFns next fs s ≠ .fail s' := by
  induction fs with
  | nil => exact fun s => ⟨(by intro h; cases h), (by intro s' h; cases h)⟩
  | cons f fs ih =>
    intro s
    unfold tryDocFns
    have hf := h f List.mem_cons_self s
    have ih := ih fun g hg => h g (List.mem_cons_of_mem _ hg)
    cases hx : f s with
    | ok a s' => exact ⟨(by intro h; cases h), (by intro s' h; cases h)⟩
    | fail s' => exact ih _
    | err e =>
      rw [hx] at hf
      exact ⟨hf, by intro s' h; cases h⟩

theorem nt_docLoop {fs : List (DM Unit)} {toks : List Token} (h : ∀ f ∈ fs, ∀ s, PNT (f s)) (n : Nat) :
    ∀ last s, NT (docLoop fs toks n last s) := by
  induction n with
  | zero => exact fun _ _ => NT.err (by simp)
  | succ n ih =>
    intro last s
    unfold docLoop
    have h1 := nt_peekIs ⟨toks, s.next⟩ .EOF none
    cases hx : TM.peekIs ⟨toks, s.next⟩ .EOF with
    | error e => rw [hx] at h1; exact h1.of_eq rfl
    | ok b =>
      cases b with
      | true => exact NT.ok
      | false =>
        simp only
        have h2 := nt_peek ⟨toks, s.next⟩
        cases hy : TM.peek ⟨toks, s.next⟩ with
        | error e => rw [hy] at h2; exact h2.of_eq rfl
        | ok t =>
          simp only
          split
          · exact NT.err (by simp)
          · have := tryDocFns_nt (next := t) h s
            split
            · exact ih _ _
            · rename_i s' hs; exact (this.2 _ hs).elim
            · rename_i e he
              intro hc; cases hc; exact this.1 he

theorem nt_linkFootnotes (fns : Dict Node) (l : List (Nat × Str)) : ∀ s, NT (linkFootnotes fns l s) := by
  induction l with
  | nil => exact fun _ => NT.ok
  | cons x l ih =>
    intro s
    obtain ⟨id, name⟩ := x
    unfold linkFootnotes
    split
    · exact NT.err (by simp)
    · exact ih _

theorem nt_linkHeaders (l : List (Nat × Str)) : ∀ s, NT (linkHeaders l s) := by
  induction l with
  | nil => exact fun _ => NT.ok
  | cons x l ih =>
    intro s
    obtain ⟨id, name⟩ := x
    unfold linkHeaders
    split
    · exact NT.err (by simp)
    · exact ih _

theorem nt_processGroups (l : List (Nat × Str)) : ∀ s, NT (processGroups l s) := by
  induction l with
  | nil => exact fun _ => NT.ok
  | cons x l ih =>
    intro s
    obtain ⟨id, name⟩ := x
    unfold processGroups
    split
    · exact NT.err (by simp)
    · exact ih _

theorem nt_finalise (cfg : Config) (s : DocSt) : NT (finalise cfg s) := by
  unfold finalise
  refine NT.bind ?_ fun s _ => NT.bind (nt_linkHeaders _ _) fun s _ => nt_processGroups _ _
  unfold processFootnotes
  dsimp only
  have := nt_linkFootnotes (makeFootnotes cfg 1 s.uid s.bodies).1 s.footnoteMacros
    { s with uid := (makeFootnotes cfg 1 s.uid s.bodies).2, objs := s.objs ++ (makeFootnotes cfg 1 s.uid s.bodies).1.map (·.2) }
  split
  · rename_i e he; exact this.of_eq he
  · exact NT.ok

theorem parserObjects_error {env : Env} {e : Err} (h : parserObjects env = .error e) : e.isMau = false ∧ e ≠ .fuel ∧ e ≠ .token := by
  unfold parserObjects at h
  split at h
  · split at h
    · cases h
    · cases h; exact ⟨rfl, by simp, by simp⟩
  · cases h; exact ⟨rfl, by simp, by simp⟩

theorem absentOrObject_iff {g : Env.GetResult} : absentOrObject g = true ↔ g = .default ∨ ∃ r, g = .value (.other r) := by
  cases g with
  | default => simp [absentOrObject]
  | «namespace» e => simp [absentOrObject]
  | value v => cases v <;> simp [absentOrObject]

theorem parserObjects_ok {env : Env} : parserObjects env = .ok () ↔ Usual env := by
  unfold parserObjects Usual
  simp only [List.mem_cons, List.not_mem_nil, or_false, forall_eq_or_imp, forall_eq, ← absentOrObject_iff]
  split
  · rename_i h
    split
    · rename_i h2
      rw [Bool.and_eq_true] at h2
      simp [h, h2]
    · rename_i h2
      rw [Bool.and_eq_true] at h2
      simp [h, h2]
  · rename_i h
    simp [h]

/-- The internal token error never leaves the document parser. -/
theorem nt_parseDocument (cfg : Config) (n : Nat) : ∀ req, NT (parseDocument cfg n req) := by
  cases n with
  | zero => exact fun _ => NT.err (by simp)
  | succ n =>
    intro req
    unfold parseDocument
    cases hx : lexDocument (TextBuffer.ofText req.text req.startLine req.startColumn req.source) with
    | error e =>
      refine NT.err ?_
      rintro rfl
      rcases C05_total req.text req.startLine req.startColumn req.source with ⟨_, _, h, _⟩ | h
      · rw [hx] at h; cases h
      · obtain ⟨_, _, h, _⟩ := h
        rw [hx] at h; cases h
    | ok toks =>
      dsimp only
      have := nt_docLoop (toks := toks) (DNT.docFns (cfg := cfg) (nested := parseDocument cfg n) (fuel := n) (toks := toks)) (toks.length + 2)
        initialLast { env := initEnv req.env, uid := req.uid, objs := req.objs, forbidden := req.forbidden }
      split
      · rename_i e he
        exact NT.err (parserObjects_error he).2.2
      · split
        · rename_i e he; exact this.of_eq he
        · exact nt_finalise _ _

/-- The parser of a document: at most `n` levels of blocks, included files and inline constructs. -/
def Spec.parser (cfg : Config) (n : Nat) (src : Option Str) : Parser := ⟨cfg, parseDocument cfg n, n, src⟩

theorem clean_parser (cfg : Config) (n : Nat) (src : Option Str) : Clean (parser cfg n src) := nt_parseDocument cfg n

/-! ## The finalisation does not look at the token index -/

theorem linkFootnotes_start (fns : Dict Node) (l : List (Nat × Str)) : ∀ s,
    linkFootnotes fns l (start s) = (linkFootnotes fns l s).map start := by
  induction l with
  | nil => exact fun _ => rfl
  | cons x l ih =>
    intro s
    obtain ⟨id, name⟩ := x
    unfold linkFootnotes
    cases Dict.get? fns name with
    | none => rfl
    | some fn => exact ih (s.updateNode id fun n => n.setData (.macroFootnote id name (some fn.data.id)))

theorem linkHeaders_start (l : List (Nat × Str)) : ∀ s, linkHeaders l (start s) = (linkHeaders l s).map start := by
  induction l with
  | nil => exact fun _ => rfl
  | cons x l ih =>
    intro s
    obtain ⟨id, name⟩ := x
    unfold linkHeaders
    have : (start s).linkHeaders = s.linkHeaders := rfl
    rw [this]
    cases Dict.get? s.linkHeaders name with
    | none => rfl
    | some hid =>
      exact ih ((s.updateNode id fun n => n.setData (.macroHeader id name (some hid))).updateNode id fun n =>
        if n.content.isEmpty then n.setContent ((((s.updateNode id fun n => n.setData (.macroHeader id name (some hid))).obj? hid).map fun h => detachList h.content).getD []) else n)

theorem processGroups_start (l : List (Nat × Str)) : ∀ s, processGroups l (start s) = (processGroups l s).map start := by
  induction l with
  | nil => exact fun _ => rfl
  | cons x l ih =>
    intro s
    obtain ⟨id, name⟩ := x
    unfold processGroups
    have : (start s).groups = s.groups := rfl
    rw [this]
    cases Dict.get? s.groups name with
    | none => rfl
    | some items => exact ih (s.updateNode id (·.setContent (items.map (·.2))))

theorem foldl_start {α : Type} (f : DocSt → α → DocSt) (h : ∀ s a, f (start s) a = start (f s a)) (l : List α) :
    ∀ s, l.foldl f (start s) = start (l.foldl f s) := by
  induction l with
  | nil => exact fun _ => rfl
  | cons a l ih =>
    intro s
    rw [List.foldl_cons, h, ih, List.foldl_cons]

theorem setHeaderId_start (cfg : Config) (s : DocSt) (id : Nat) : setHeaderId cfg (start s) id = start (setHeaderId cfg s id) := by
  unfold setHeaderId
  have : (start s).obj? id = s.obj? id := rfl
  rw [this]
  cases s.obj? id with
  | none => rfl
  | some h =>
    dsimp only
    split <;> rfl

theorem processToc_start (cfg : Config) (s : DocSt) : processToc cfg (start s) = start (processToc cfg s) := by
  unfold processToc
  have : (start s).tocHeaders = s.tocHeaders := rfl
  rw [this]
  split
  · rfl
  · dsimp only
    rw [foldl_start _ (fun s a => setHeaderId_start cfg s a.1)]
    generalize List.foldl (fun s h => setHeaderId cfg s h.1) s s.tocHeaders = s'
    exact foldl_start (fun s id => s.updateNode id fun n => (n.setContent (outlineNodes (outline s'.tocHeaders))).setExtra
      (s.tocHeaders.filterMap fun h => (s.obj? h.1).map Node.detach)) (fun _ _ => rfl) s'.tocNodes s'

theorem processFootnotes_start (cfg : Config) (s : DocSt) : processFootnotes cfg (start s) = (processFootnotes cfg s).map start := by
  unfold processFootnotes
  dsimp only
  have := linkFootnotes_start (makeFootnotes cfg 1 s.uid s.bodies).1 s.footnoteMacros
    { s with uid := (makeFootnotes cfg 1 s.uid s.bodies).2, objs := s.objs ++ (makeFootnotes cfg 1 s.uid s.bodies).1.map (·.2) }
  have e : ∀ x y : Except Err DocSt, x = y.map start → ∀ items : List Node,
      (match x with
        | .error e => .error e
        | .ok s => .ok (s.footnoteLists.foldl (fun s id => s.updateNode id (·.setContent items)) s) : Except Err DocSt) =
      (match y with
        | .error e => .error e
        | .ok s => .ok (s.footnoteLists.foldl (fun s id => s.updateNode id (·.setContent items)) s) : Except Err DocSt).map start := by
    rintro x y rfl items
    cases y with
    | error e => rfl
    | ok s => exact congrArg Except.ok (foldl_start _ (fun _ _ => rfl) s.footnoteLists s)
  exact e _ _ this _

theorem finalise_start (cfg : Config) (s : DocSt) : finalise cfg (start s) = (finalise cfg s).map start := by
  unfold finalise
  rw [processFootnotes_start]
  cases processFootnotes cfg s with
  | error e => rfl
  | ok s1 =>
    change ((linkHeaders (processToc cfg (start s1)).linkMacros (processToc cfg (start s1))) >>= fun s => processGroups s.groupNodes s) =
      Except.map start ((linkHeaders (processToc cfg s1).linkMacros (processToc cfg s1)) >>= fun s => processGroups s.groupNodes s)
    rw [processToc_start, linkHeaders_start]
    have : (start (processToc cfg s1)).linkMacros = (processToc cfg s1).linkMacros := rfl
    rw [this]
    cases linkHeaders (processToc cfg s1).linkMacros (processToc cfg s1) with
    | error e => rfl
    | ok s2 => exact processGroups_start _ _

/-- Parsing a document is reading its lines and finalising. -/
theorem parseDocument_run (cfg : Config) (n : Nat) (req : NestedReq) (hk : parserObjects (initEnv req.env) = .ok ()) :
    (parseDocument cfg (n + 1) req).map start =
      ((parser cfg n req.source).run req.startLine req.startColumn (splitChar '\n' req.text) (initial req)).bind (finalise cfg) := by
  rw [parseDocument, lexDocument_split]
  unfold Parser.run
  change _ = Except.bind (match docTokens req.source req.startLine req.startColumn (splitChar '\n' req.text) with | .error e => _ | .ok toks => _) _
  cases docTokens req.source req.startLine req.startColumn (splitChar '\n' req.text) with
  | error e => rfl
  | ok toks =>
    dsimp only
    have e : start (initial req) = { env := initEnv req.env, uid := req.uid, objs := req.objs, forbidden := req.forbidden } := rfl
    rw [e, hk]
    change Except.map start (match docLoop (docFns cfg (parseDocument cfg n) n toks) toks (toks.length + 2) initialLast _ with | .error e => _ | .ok s => _) =
      Except.bind (Except.map start (docLoop (docFns cfg (parseDocument cfg n) n toks) toks (toks.length + 2) initialLast _)) _
    cases docLoop (docFns cfg (parseDocument cfg n) n toks) toks (toks.length + 2) initialLast
        { env := initEnv req.env, uid := req.uid, objs := req.objs, forbidden := req.forbidden } with
    | error e => rfl
    | ok s => exact (finalise_start cfg s).symm

/-- A parser that cannot be constructed fails: because the text cannot be lexed, or with the error of the constructor. -/
theorem parseDocument_objects {cfg : Config} {n : Nat} {req : NestedReq} {e : Err} (hk : parserObjects (initEnv req.env) = .error e) :
    parseDocument cfg (n + 1) req = .error e ∨ ∃ x, parseDocument cfg (n + 1) req = .error x ∧
      (parser cfg n req.source).run req.startLine req.startColumn (splitChar '\n' req.text) (initial req) = .error x := by
  rw [parseDocument, lexDocument_split]
  unfold Parser.run
  cases hx : docTokens req.source req.startLine req.startColumn (splitChar '\n' req.text) with
  | error x => right; refine ⟨x, rfl, ?_⟩; show (match docTokens req.source req.startLine req.startColumn (splitChar '\n' req.text) with | .error e => _ | .ok toks => _) = _; rw [hx]
  | ok toks => left; dsimp only; rw [hk]

/-- The objects of a parser that succeeds. -/
theorem parseDocument_objects_ok {cfg : Config} {n : Nat} {req : NestedReq} {d : DocSt} (h : parseDocument cfg (n + 1) req = .ok d) :
    parserObjects (initEnv req.env) = .ok () := by
  cases hk : parserObjects (initEnv req.env) with
  | ok u => rfl
  | error e =>
    rcases parseDocument_objects (cfg := cfg) (n := n) hk with h' | ⟨x, h', _⟩ <;> rw [h] at h' <;> cases h'

end Mau
