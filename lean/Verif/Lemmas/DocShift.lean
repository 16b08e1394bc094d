import Verif.Model.DocumentParser
import Verif.Lemmas.DocTokens

set_option linter.unusedSimpArgs false

/-!
# The document parser works on the remaining tokens

The processing functions only look at the tokens from the current index on (`Sh`), a successful one
moves forward (`Adv`), and the bounds of the loops are never reached.
-/

namespace Mau

/-- Move the index of a state. -/
def DocSt.sh (k : Nat) (s : DocSt) : DocSt := { s with next := k + s.next }

/-- Move the index in a result. -/
def PRes.sh {α : Type} (k : Nat) : PRes DocSt α → PRes DocSt α
  | .ok a s => .ok a (s.sh k)
  | .fail s => .fail (s.sh k)
  | .err e => .err e

/-- `f` at an index moved by `k` does what `g` does. -/
def Sh {α : Type} (k : Nat) (f g : DM α) : Prop := ∀ s, f (s.sh k) = (g s).sh k

namespace Sh

variable {α β : Type} {k : Nat}

theorem pure (a : α) : Sh k (Pure.pure a : DM α) (Pure.pure a) := fun _ => rfl

theorem bind {f f' : DM α} {g g' : α → DM β} (h1 : Sh k f f') (h2 : ∀ a, Sh k (g a) (g' a)) :
    Sh k (f >>= g) (f' >>= g') := by
  intro s
  change DM.bind f g _ = (DM.bind f' g' s).sh k
  unfold DM.bind
  rw [h1 s]
  cases f' s with
  | ok a s' => exact h2 a s'
  | fail s' => rfl
  | err e => rfl

theorem lift (x : Except Err α) : Sh k (DM.lift x) (DM.lift x) := by
  intro s
  unfold DM.lift
  split <;> rfl

theorem raise (e : Err) : Sh k (DM.raise e : DM α) (DM.raise e) := lift _

theorem fresh : Sh k DM.fresh DM.fresh := fun _ => rfl

theorem modify {f : DocSt → DocSt} (h : ∀ s, f (s.sh k) = (f s).sh k) : Sh k (DM.modify f) (DM.modify f) := by
  intro s
  simp only [DM.modify, PRes.sh, h]

theorem getBind {g g' : DocSt → DM β} (h1 : ∀ s, g (s.sh k) = g s) (h2 : ∀ s, Sh k (g s) (g' s)) :
    Sh k (DM.get >>= g) (DM.get >>= g') := by
  intro s
  change g (s.sh k) (s.sh k) = (g' s s).sh k
  rw [h1, h2 s s]

theorem ite {c : Prop} [Decidable c] {f f' g g' : DM α} (h1 : Sh k f f') (h2 : Sh k g g') :
    Sh k (if c then f else g) (if c then f' else g') := by
  split
  · exact h1
  · exact h2

end Sh

section tokens
variable {pre suf : List Token}

theorem tm_peek_sh (hs : suf ≠ []) (i : Nat) (ty : Option TokenType) (v : Option Str) (f : Option (Str → Bool)) :
    TM.peek ⟨pre ++ suf, pre.length + i⟩ ty v f = TM.peek ⟨suf, i⟩ ty v f := by
  unfold TM.peek
  have h1 : (pre ++ suf)[pre.length + i]? = suf[i]? := by
    rw [List.getElem?_append_right (by omega)]
    congr 1; omega
  have h2 : (pre ++ suf).getLast? = suf.getLast? := by
    rw [List.getLast?_append]
    cases h : suf.getLast? with
    | none => exact absurd (List.getLast?_eq_none_iff.1 h) hs
    | some x => rfl
  simp only [h1, h2]

theorem tm_peekIs_sh (hs : suf ≠ []) (i : Nat) (ty : TokenType) (v : Option Str) (f : Option (Str → Bool)) :
    TM.peekIs ⟨pre ++ suf, pre.length + i⟩ ty v f = TM.peekIs ⟨suf, i⟩ ty v f := by
  unfold TM.peekIs
  rw [tm_peek_sh hs]

theorem tm_get_sh (hs : suf ≠ []) (i : Nat) (ty : Option TokenType) (v : Option Str) (f : Option (Str → Bool)) :
    TM.get ⟨pre ++ suf, pre.length + i⟩ ty v f =
      (TM.get ⟨suf, i⟩ ty v f).map fun r => (r.1, ⟨pre ++ suf, pre.length + r.2.next⟩) := by
  unfold TM.get
  rw [tm_peek_sh hs]
  cases TM.peek ⟨suf, i⟩ ty v f with
  | error e => rfl
  | ok t =>
    simp only
    have h2 : (pre ++ suf).getLast? = suf.getLast? := by
      rw [List.getLast?_append]
      cases h : suf.getLast? with
      | none => exact absurd (List.getLast?_eq_none_iff.1 h) hs
      | some x => rfl
    have hcur : ∀ j, TM.currentToken ⟨pre ++ suf, pre.length + (j + 1)⟩ = TM.currentToken ⟨suf, j + 1⟩ := by
      intro j
      unfold TM.currentToken
      simp only [h2]
      cases hl : suf.getLast? with
      | none => rfl
      | some x =>
        simp only
        rw [show Nat.add pre.length j = pre.length + j from rfl, List.getD_eq_getElem?_getD, List.getD_eq_getElem?_getD, List.getElem?_append_right (by omega)]
        congr 3; omega
    unfold TM.advance
    by_cases h : i < suf.length + 1
    · have h' : pre.length + i < (pre ++ suf).length + 1 := by simp; omega
      simp only [h, h', if_true]
      rw [show pre.length + i + 1 = pre.length + (i + 1) from by omega, hcur]
      cases TM.currentToken ⟨suf, i + 1⟩ <;> rfl
    · have h' : ¬ pre.length + i < (pre ++ suf).length + 1 := by simp; omega
      simp only [h, h', if_false]
      obtain ⟨j, rfl⟩ : ∃ j, i = j + 1 := ⟨i - 1, by omega⟩
      rw [hcur]
      cases TM.currentToken ⟨suf, j + 1⟩ <;> rfl

theorem Sh.get (hs : suf ≠ []) {ty : Option TokenType} {v : Option Str} {f : Option (Str → Bool)} :
    Sh pre.length (DM.tm (pre ++ suf) (·.get ty v f)) (DM.tm suf (·.get ty v f)) := by
  intro s
  unfold DM.tm DocSt.sh
  simp only [tm_get_sh hs]
  cases TM.get ⟨suf, s.next⟩ ty v f with
  | error e => cases e <;> rfl
  | ok r => rfl

theorem Sh.peek (hs : suf ≠ []) {ty : Option TokenType} {v : Option Str} {f : Option (Str → Bool)} :
    Sh pre.length (DM.peek (pre ++ suf) (·.peek ty v f)) (DM.peek suf (·.peek ty v f)) := by
  intro s
  unfold DM.peek DocSt.sh
  simp only [tm_peek_sh hs]
  exact Sh.lift _ s

theorem Sh.peekIs (hs : suf ≠ []) {ty : TokenType} {v : Option Str} {f : Option (Str → Bool)} :
    Sh pre.length (DM.peek (pre ++ suf) (·.peekIs ty v f)) (DM.peek suf (·.peekIs ty v f)) := by
  intro s
  unfold DM.peek DocSt.sh
  simp only [tm_peekIs_sh hs]
  exact Sh.lift _ s

theorem Sh.docText (k fuel : Nat) (text : Str) (ctx : Context) : Sh k (docText fuel text ctx) (docText fuel text ctx) := by
  intro s
  unfold Mau.docText
  cases h : preprocessNodes s.env text ctx.startLine ctx.startColumn ctx.source with
  | error e => cases e <;> simp [DocSt.sh, h, PRes.sh]
  | ok ns =>
    cases ns with
    | nil => simp [DocSt.sh, h, PRes.sh]
    | cons n ns =>
      cases h2 : parseText fuel s.env (processedText (n :: ns)).value ctx.startLine ctx.startColumn ctx.source s.uid with
      | error e => cases e <;> simp [DocSt.sh, h, h2, PRes.sh]
      | ok r => simp [DocSt.sh, h, h2, PRes.sh]

theorem Sh.popArgs (k : Nat) : Sh k popArgs popArgs := fun _ => rfl
theorem Sh.popLabels (k : Nat) : Sh k popLabels popLabels := fun _ => rfl
theorem Sh.popControl (k : Nat) : Sh k popControl popControl := by
  intro s
  unfold Mau.popControl DocSt.sh
  cases h : s.controlBuf with
  | none => simp [PRes.sh, DocSt.sh, h]
  | some c => simp only; exact Sh.lift _ { s with controlBuf := none }
theorem Sh.save (k : Nat) (n : Node) : Sh k (save n) (save n) := Sh.modify fun _ => rfl
theorem Sh.saveIfControl (k : Nat) (n : Node) : Sh k (saveIfControl n) (saveIfControl n) :=
  .bind (.popControl k) fun _ => .ite (.save k n) (.pure _)

variable (hs : suf ≠ [])
include hs

theorem Sh.eolProc : Sh pre.length (eolProc (pre ++ suf)) (eolProc suf) := .bind (.get hs) fun _ => .pure _

theorem Sh.ruleProc : Sh pre.length (ruleProc (pre ++ suf)) (ruleProc suf) :=
  .bind (.get hs) fun _ => .bind (.popArgs _) fun _ => .bind (.popLabels _) fun _ => .saveIfControl _ _

theorem Sh.variableText (ctx : Context) : Sh pre.length (variableText (pre ++ suf) ctx) (variableText suf ctx) := by
  unfold Mau.variableText
  exact .bind (.peek hs) fun p => .ite (.bind (.get hs) fun v => .pure _) (.pure _)

theorem Sh.variableProc : Sh pre.length (variableProc (pre ++ suf)) (variableProc suf) := by
  unfold Mau.variableProc
  exact .bind (.get hs) fun o => .bind (.get hs) fun t => .bind (.get hs) fun c => .bind (.variableText hs _) fun p =>
    .getBind (fun _ => rfl) fun s => .bind (.lift _) fun q => .modify fun _ => rfl

theorem Sh.labelProc (fuel : Nat) : Sh pre.length (labelProc fuel (pre ++ suf)) (labelProc fuel suf) :=
  .bind (.get hs) fun _ => .bind (.get hs) fun _ => .bind (.docText _ _ _ _) fun _ => .modify fun _ => rfl

theorem Sh.controlProc : Sh pre.length (controlProc (pre ++ suf)) (controlProc suf) := by
  unfold Mau.controlProc
  refine .bind (.get hs) fun _ => .bind (.get hs) fun _ => .bind (.get hs) fun _ => .getBind (fun _ => rfl) fun s => .bind (.lift _) fun c => ?_
  cases c with
  | none => exact .raise _
  | some c => exact .bind (.lift _) fun _ => .modify fun _ => rfl

theorem Sh.argumentsProc : Sh pre.length (argumentsProc (pre ++ suf)) (argumentsProc suf) :=
  .bind (.get hs) fun _ => .bind (.get hs) fun _ => .bind (.get hs) fun _ => .getBind (fun _ => rfl) fun _ =>
    .bind (.lift _) fun _ => .modify fun _ => rfl

omit hs in
theorem Sh.registerHeader (k : Nat) (id level : Nat) (name : Option Str) (node : Node) :
    Sh k (registerHeader id level name node) (registerHeader id level name node) := by
  unfold Mau.registerHeader
  refine .bind ?_ fun _ => .modify fun _ => rfl
  unfold Mau.registerName
  cases truthy name with
  | none => exact .pure _
  | some nm => exact .getBind (fun _ => rfl) fun _ => .ite (.raise _) (.modify fun _ => rfl)

theorem Sh.headerProc (fuel : Nat) : Sh pre.length (headerProc fuel (pre ++ suf)) (headerProc fuel suf) :=
  .bind (.get hs) fun _ => .bind (.get hs) fun _ => .bind .fresh fun _ => .bind (.docText _ _ _ _) fun _ => .bind (.popArgs _) fun _ =>
    .bind (.lift _) fun _ => .bind (.popLabels _) fun _ => .bind (.popControl _) fun _ =>
      .ite (.bind (.registerHeader _ _ _ _ _) fun _ => .save _ _) (.pure _)

theorem Sh.collectLines (n : Nat) : Sh pre.length (collectLines (pre ++ suf) n) (collectLines suf n) := by
  induction n with
  | zero => exact .raise _
  | succ n ih =>
    exact .bind (.peek hs) fun _ => .ite (.bind (.get hs) fun _ => .bind ih fun _ => .pure _) (.pure _)

omit hs in
theorem Sh.paragraphLines (k fuel : Nat) (ts : List Token) : Sh k (paragraphLines fuel ts) (paragraphLines fuel ts) := by
  induction ts with
  | nil => exact .pure _
  | cons t ts ih => exact .bind (.docText _ _ _ _) fun _ => .bind ih fun _ => .pure _

theorem Sh.listItem (fuel : Nat) (h : Token) : Sh pre.length (listItem fuel (pre ++ suf) h) (listItem fuel suf h) := by
  unfold Mau.listItem
  refine .bind (.get hs) fun _ => .bind (.docText _ _ _ _) fun c => ?_
  cases c.getLast? with
  | none => exact .raise _
  | some l => exact .pure _

theorem Sh.listNodes_listLoop (fuel n : Nat) :
    Sh pre.length (listNodes fuel (pre ++ suf) n) (listNodes fuel suf n) ∧
    ∀ level, Sh pre.length (listLoop fuel (pre ++ suf) n level) (listLoop fuel suf n level) := by
  induction n with
  | zero => exact ⟨.raise _, fun _ => .raise _⟩
  | succ n ih =>
    constructor
    · unfold Mau.listNodes
      exact .bind (.get hs) fun _ => .bind (.listItem hs _ _) fun _ => .bind (ih.2 _) fun _ => .pure _
    · intro level
      unfold Mau.listLoop
      refine .bind (.peek hs) fun t => .ite (.pure _) (.ite (.raise _) (.ite ?_ (.ite ?_ (.pure _))))
      · exact .bind (.get hs) fun _ => .bind (.listItem hs _ _) fun _ => .bind (ih.2 _) fun _ => .pure _
      · refine .bind (.lift _) fun _ => .bind ih.1 fun subs => ?_
        cases subs.getLast? with
        | none => exact .raise _
        | some l => exact .bind (ih.2 _) fun _ => .pure _

omit hs in
theorem Sh.blockContent (k : Nat) (nested : NestedParser) (t : Token) (args : NodeArgs) :
    Sh k (blockContent nested t args) (blockContent nested t args) := by
  intro s
  unfold Mau.blockContent
  cases h : nested ⟨t.value, s.env, t.ctx.startLine, t.ctx.startColumn, t.ctx.source, [], s.uid, s.objs⟩ with
  | error e => cases e <;> simp [DocSt.sh, h, PRes.sh]
  | ok r =>
    simp only [DocSt.sh, h, PRes.sh]
    split <;> rfl

omit hs in
theorem Sh.blockEngine (k : Nat) (nested : NestedParser) (engine : Str) (classes : List Str) (content : Option Token)
    (args : NodeArgs) (ctx : Context) :
    Sh k (blockEngine nested engine classes content args ctx) (blockEngine nested engine classes content args ctx) := by
  unfold Mau.blockEngine
  simp only
  cases content.filter (fun t => !t.value.isEmpty) with
  | none => exact .ite (.pure _) (.ite (.pure _) (.ite (.pure _) (.raise _)))
  | some t =>
    refine .ite (.bind (.blockContent _ _ _ _) fun _ => .pure _) (.ite (.pure _) (.ite ?_ (.raise _)))
    exact .getBind (fun _ => rfl) fun _ => .bind (.lift _) fun _ => .pure _

theorem Sh.blockText : Sh pre.length (blockText (pre ++ suf)) (blockText suf) := by
  unfold Mau.blockText
  exact .bind (.peek hs) fun p => .ite (.bind (.get hs) fun v => .pure _) (.pure _)

omit hs in
theorem Sh.placeBlock (k : Nat) (data : NodeData) (ns : List Node) (args : NodeArgs) (labels : Dict Node) (ctx own : Context) :
    Sh k (placeBlock data ns args labels ctx own) (placeBlock data ns args labels ctx own) := by
  unfold Mau.placeBlock
  cases truthy (Dict.get? args.named c%"footnote") with
  | some name => exact .getBind (fun _ => rfl) fun _ => .ite (.raise _) (.modify fun _ => rfl)
  | none =>
    simp only
    cases truthy (Dict.get? args.named c%"group") with
    | none => exact .saveIfControl _ _
    | some g =>
      cases truthy (Dict.get? args.named c%"position") with
      | none => exact .saveIfControl _ _
      | some p => exact .getBind (fun _ => rfl) fun _ => .bind (.lift _) fun _ => .modify fun _ => rfl

theorem Sh.blockProc (nested : NestedParser) : Sh pre.length (blockProc nested (pre ++ suf)) (blockProc nested suf) := by
  unfold Mau.blockProc
  exact .bind (.get hs) fun o => .bind (.blockText hs) fun c => .bind (.get hs) fun c2 => .bind (.popArgs _) fun args =>
    .bind (.blockEngine _ _ _ _ _ _ _) fun r => .bind (.popLabels _) fun ls => .placeBlock _ _ _ _ _ _ _

omit hs in
theorem Sh.includeMau (k : Nat) (cfg : Config) (nested : NestedParser) (args : NodeArgs) (ctx : Context) :
    Sh k (includeMau cfg nested args ctx) (includeMau cfg nested args ctx) := by
  unfold Mau.includeMau
  simp only
  cases truthy _ with
  | none => exact .raise _
  | some uri =>
    refine .bind (.modify fun _ => rfl) fun _ => .getBind (fun _ => rfl) fun s => .ite (.raise _) ?_
    refine .bind (.modify fun _ => rfl) fun _ => .bind (.lift _) fun text => .bind (.lift _) fun env => ?_
    exact .getBind (fun _ => rfl) fun s2 => .bind (.lift _) fun inner => .bind (.modify fun _ => rfl) fun _ => .pure _

omit hs in
theorem Sh.includeNode (k : Nat) (cfg : Config) (nested : NestedParser) (ctype : Str) (args : NodeArgs) (ctx : Context) :
    Sh k (includeNode cfg nested ctype args ctx) (includeNode cfg nested ctype args ctx) := by
  unfold Mau.includeNode
  refine .ite (.bind (.lift _) fun _ => .pure _) (.ite (.includeMau _ _ _ _ _) (.ite (.lift _) (.ite ?_ (.ite ?_ (.ite ?_ (.pure _))))))
  · exact .bind .fresh fun _ => .bind (.modify fun _ => rfl) fun _ => .pure _
  · exact .bind .fresh fun _ => .bind (.modify fun _ => rfl) fun _ => .pure _
  · simp only
    cases (NodeArgs.pop _ _).1 with
    | none => exact .raise _
    | some g => exact .bind .fresh fun _ => .bind (.modify fun _ => rfl) fun _ => .pure _

theorem Sh.includeArgs (boxed : Option NodeArgs) (ctx : Context) :
    Sh pre.length (includeArgs boxed (pre ++ suf) ctx) (includeArgs boxed suf ctx) := by
  unfold Mau.includeArgs
  refine .bind (.peekIs hs) fun _ => .ite (.ite (.raise _) ?_) (.pure _)
  exact .bind (.get hs) fun _ => .bind (.get hs) fun _ => .getBind (fun _ => rfl) fun _ => .bind (.lift _) fun _ => .pure _

theorem Sh.includeProc (cfg : Config) (nested : NestedParser) :
    Sh pre.length (includeProc cfg nested (pre ++ suf)) (includeProc cfg nested suf) := by
  unfold Mau.includeProc
  exact .bind (.get hs) fun _ => .bind (.get hs) fun _ => .getBind (fun _ => rfl) fun s => .bind (.modify fun _ => rfl) fun _ =>
    .bind (.includeArgs hs _ _) fun args => .bind (.includeNode _ _ _ _ _ _) fun r => .bind (.popLabels _) fun _ => .saveIfControl _ _

end tokens

end Mau
