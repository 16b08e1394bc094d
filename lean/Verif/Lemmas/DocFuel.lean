import Verif.Lemmas.TextFuel
import Verif.Lemmas.DocAdvance

set_option linter.unusedSimpArgs false

/-!
# The recursion budget of the document parser

The document parser is monotone in its budget: a result other than the error `fuel` is the result for every larger budget.
-/

namespace Mau

theorem parseText_le (n : Nat) (env : Env) (text : Str) (sl sc : Nat) (src : Option Str) (uid : Nat) :
    exLe (parseText n env text sl sc src uid) (parseText (n + 1) env text sl sc src uid) := by
  unfold parseText
  cases lexText (TextBuffer.ofText text sl sc src) with
  | error e => exact .inr rfl
  | ok toks =>
    dsimp only
    rcases (text_mono env n).2.2.2.2.2 toks initialLast { uid := uid } [] with h | h
    · rw [h]; exact .inl rfl
    · rw [h]; exact .inr rfl

/-- Pointwise order of processing functions. -/
def DM.Le {α : Type} (x y : DM α) : Prop := ∀ s, (x s).Le (y s)

/-- Nested parsers in order. -/
def NestedLe (f g : NestedParser) : Prop := ∀ req, exLe (f req) (g req)

namespace DM.Le

variable {α β : Type}

theorem refl (x : DM α) : DM.Le x x := fun _ => .inr rfl

theorem bind {x x' : DM α} {f f' : α → DM β} (h1 : DM.Le x x') (h2 : ∀ a, DM.Le (f a) (f' a)) : DM.Le (x >>= f) (x' >>= f') := by
  intro s
  rcases h1 s with h | h
  · rw [DM.bind_of_err h]; exact .inl rfl
  · cases hx : x' s with
    | ok a s' => rw [DM.bind_of_ok (h.trans hx), DM.bind_of_ok hx]; exact h2 a s'
    | fail s' => rw [DM.bind_of_fail (h.trans hx), DM.bind_of_fail hx]; exact .inr rfl
    | err e => rw [DM.bind_of_err (h.trans hx), DM.bind_of_err hx]; exact .inr rfl

theorem ite {c : Prop} [Decidable c] {x x' y y' : DM α} (h1 : DM.Le x x') (h2 : DM.Le y y') :
    DM.Le (if c then x else y) (if c then x' else y') := by
  split
  · exact h1
  · exact h2

theorem lift {x y : Except Err α} (h : exLe x y) : DM.Le (DM.lift x) (DM.lift y) := by
  rcases h with h | h
  · rw [h]; intro s; exact .inl rfl
  · rw [h]; exact refl _

end DM.Le

theorem docText_le (n : Nat) (text : Str) (ctx : Context) : DM.Le (docText n text ctx) (docText (n + 1) text ctx) := by
  intro s
  unfold docText
  split
  · exact .inr rfl
  · exact .inr rfl
  · exact .inr rfl
  · rename_i _ ns _ _
    rcases parseText_le n s.env (processedText ns).value ctx.startLine ctx.startColumn ctx.source s.uid with h | h
    · rw [h]; exact .inl rfl
    · rw [h]; exact .inr rfl

theorem labelProc_le (n : Nat) (toks : List Token) : DM.Le (labelProc n toks) (labelProc (n + 1) toks) :=
  .bind (.refl _) fun _ => .bind (.refl _) fun _ => .bind (docText_le _ _ _) fun _ => .refl _

theorem headerProc_le (n : Nat) (toks : List Token) : DM.Le (headerProc n toks) (headerProc (n + 1) toks) :=
  .bind (.refl _) fun _ => .bind (.refl _) fun _ => .bind (.refl _) fun _ => .bind (docText_le _ _ _) fun _ => .refl _

theorem paragraphLines_le (n : Nat) (ts : List Token) : DM.Le (paragraphLines n ts) (paragraphLines (n + 1) ts) := by
  induction ts with
  | nil => exact .refl _
  | cons t ts ih => exact .bind (docText_le _ _ _) fun _ => .bind ih fun _ => .refl _

theorem paragraphProc_le (n : Nat) (toks : List Token) : DM.Le (paragraphProc n toks) (paragraphProc (n + 1) toks) :=
  .bind (.refl _) fun _ => .bind (paragraphLines_le _ _) fun _ => .refl _

theorem listItem_le (n : Nat) (toks : List Token) (h : Token) : DM.Le (listItem n toks h) (listItem (n + 1) toks h) :=
  .bind (.refl _) fun _ => .bind (docText_le _ _ _) fun _ => .refl _

theorem list_le (n : Nat) (toks : List Token) (m : Nat) :
    DM.Le (listNodes n toks m) (listNodes (n + 1) toks m) ∧ ∀ l, DM.Le (listLoop n toks m l) (listLoop (n + 1) toks m l) := by
  induction m with
  | zero => exact ⟨.refl _, fun _ => .refl _⟩
  | succ m ih =>
    refine ⟨?_, fun l => ?_⟩
    · unfold listNodes
      exact .bind (.refl _) fun _ => .bind (listItem_le _ _ _) fun _ => .bind (ih.2 _) fun _ => .refl _
    · unfold listLoop
      refine .bind (.refl _) fun t => .ite (.refl _) (.ite (.refl _) (.ite ?_ (.ite ?_ (.refl _))))
      · exact .bind (.refl _) fun _ => .bind (listItem_le _ _ _) fun _ => .bind (ih.2 _) fun _ => .refl _
      · refine .bind (.refl _) fun _ => .bind ih.1 fun subs => ?_
        cases subs.getLast? with
        | none => exact .refl _
        | some l => exact .bind (ih.2 _) fun _ => .refl _

theorem listProc_le (n : Nat) (toks : List Token) : DM.Le (listProc n toks) (listProc (n + 1) toks) :=
  .bind (.refl _) fun _ => .bind (.refl _) fun _ => .bind (list_le n toks _).1 fun _ => .refl _

theorem blockContent_le {f g : NestedParser} (h : NestedLe f g) (t : Token) (a : NodeArgs) : DM.Le (blockContent f t a) (blockContent g t a) := by
  intro s
  unfold blockContent
  rcases h ⟨t.value, s.env, t.ctx.startLine, t.ctx.startColumn, t.ctx.source, [], s.uid, s.objs⟩ with h | h
  · rw [h]; exact .inl rfl
  · rw [h]; exact .inr rfl

theorem blockEngine_le {f g : NestedParser} (h : NestedLe f g) (e : Str) (c : List Str) (o : Option Token) (a : NodeArgs) (ctx : Context) :
    DM.Le (blockEngine f e c o a ctx) (blockEngine g e c o a ctx) := by
  unfold blockEngine
  refine .ite ?_ (.refl _)
  cases o.filter (fun t => !t.value.isEmpty) with
  | none => exact .refl _
  | some t => exact .bind (blockContent_le h _ _) fun _ => .refl _

theorem blockProc_le {f g : NestedParser} (h : NestedLe f g) (toks : List Token) : DM.Le (blockProc f toks) (blockProc g toks) :=
  .bind (.refl _) fun _ => .bind (.refl _) fun _ => .bind (.refl _) fun _ => .bind (.refl _) fun _ =>
    .bind (blockEngine_le h _ _ _ _ _) fun _ => .refl _

theorem includeMau_le (cfg : Config) {f g : NestedParser} (h : NestedLe f g) (a : NodeArgs) (ctx : Context) :
    DM.Le (includeMau cfg f a ctx) (includeMau cfg g a ctx) := by
  unfold includeMau
  dsimp only
  cases truthy ((a.setNames [c%"uri"]).pop c%"uri").1 with
  | none => exact .refl _
  | some uri =>
    refine .bind (.refl _) fun _ => .bind (.refl _) fun s => .ite (.refl _) ?_
    exact .bind (.refl _) fun _ => .bind (.refl _) fun _ => .bind (.refl _) fun _ => .bind (.refl _) fun _ =>
      .bind (.lift (h _)) fun _ => .refl _

theorem includeProc_le (cfg : Config) {f g : NestedParser} (h : NestedLe f g) (toks : List Token) :
    DM.Le (includeProc cfg f toks) (includeProc cfg g toks) := by
  refine .bind (.refl _) fun _ => .bind (.refl _) fun _ => .bind (.refl _) fun _ => .bind (.refl _) fun _ =>
    .bind (.refl _) fun _ => .bind ?_ fun _ => .refl _
  unfold includeNode
  exact .ite (.refl _) (.ite (includeMau_le cfg h _ _) (.refl _))

/-- Lists of processing functions in order. -/
inductive FnsLe : List (DM Unit) → List (DM Unit) → Prop where
  | nil : FnsLe [] []
  | cons {f g : DM Unit} {fs gs : List (DM Unit)} (h : DM.Le f g) (t : FnsLe fs gs) : FnsLe (f :: fs) (g :: gs)

theorem docFns_le (cfg : Config) {f g : NestedParser} (h : NestedLe f g) (n : Nat) (toks : List Token) :
    FnsLe (docFns cfg f n toks) (docFns cfg g (n + 1) toks) :=
  .cons (.refl _) (.cons (.refl _) (.cons (.refl _) (.cons (labelProc_le _ _) (.cons (.refl _) (.cons (.refl _) (.cons (headerProc_le _ _)
    (.cons (blockProc_le h _) (.cons (includeProc_le cfg h _) (.cons (listProc_le _ _) (.cons (paragraphProc_le _ _) .nil))))))))))

theorem tryDocFns_le {fs gs : List (DM Unit)} (h : FnsLe fs gs) (next : Token) : DM.Le (tryDocFns next fs) (tryDocFns next gs) := by
  induction h with
  | nil => exact .refl _
  | @cons f g fs gs h t ih =>
    intro s
    unfold tryDocFns
    rcases h s with h | h
    · rw [h]; exact .inl rfl
    · rw [h]
      cases g s with
      | ok a s' => exact .inr rfl
      | fail s' => exact ih _
      | err e => exact .inr rfl

theorem docLoop_le {fs gs : List (DM Unit)} (h : FnsLe fs gs) (toks : List Token) :
    ∀ n last s, exLe (docLoop fs toks n last s) (docLoop gs toks n last s) := by
  intro n
  induction n with
  | zero => intro _ _; exact .inl rfl
  | succ n ih =>
    intro last s
    unfold docLoop
    cases TM.peekIs ⟨toks, s.next⟩ .EOF with
    | error e => exact .inr rfl
    | ok b =>
      cases b with
      | true => exact .inr rfl
      | false =>
        dsimp only
        cases TM.peek ⟨toks, s.next⟩ with
        | error e => exact .inr rfl
        | ok t =>
          dsimp only
          split
          · exact .inr rfl
          · rcases tryDocFns_le h t s with hx | hx
            · rw [hx]; exact .inl rfl
            · rw [hx]
              cases tryDocFns t gs s with
              | ok _ s' => exact ih _ _
              | fail _ => exact .inr rfl
              | err e => exact .inr rfl

theorem parseDocument_le (cfg : Config) (n : Nat) : NestedLe (parseDocument cfg n) (parseDocument cfg (n + 1)) := by
  induction n with
  | zero => intro req; exact .inl rfl
  | succ n ih =>
    intro req
    rw [parseDocument, parseDocument]
    cases lexDocument (TextBuffer.ofText req.text req.startLine req.startColumn req.source) with
    | error e => exact .inr rfl
    | ok toks =>
      dsimp only
      cases parserObjects (initEnv req.env) with
      | error e => exact .inr rfl
      | ok u =>
      dsimp only
      rcases docLoop_le (docFns_le cfg ih n toks) toks (toks.length + 2) initialLast
        { env := initEnv req.env, uid := req.uid, objs := req.objs, forbidden := req.forbidden } with h | h
      · rw [h]; exact .inl rfl
      · rw [h]; exact .inr rfl

/-- A result other than running out of the budget does not depend on the budget. -/
theorem parseDocument_mono {cfg : Config} {n m : Nat} (hnm : n ≤ m) {req : NestedReq} (h : parseDocument cfg n req ≠ .error .fuel) :
    parseDocument cfg m req = parseDocument cfg n req := by
  induction hnm with
  | refl => rfl
  | @step m _ ih =>
    rcases parseDocument_le cfg m req with h2 | h2
    · rw [ih] at h2; exact absurd h2 h
    · rw [← h2, ih]

end Mau
