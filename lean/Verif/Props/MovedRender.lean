import Verif.Lemmas.TwinVisit
import Verif.Props.Moved
import Verif.Props.VisitErrors

set_option linter.unusedSimpArgs false
set_option linter.unusedVariables false

/-!
# C79: where a text stands has no influence on what is rendered
-/

namespace Mau
open Spec

theorem renderedAs_both {x y : Except Err Str} (h : Both (fun a b => a = b) x y) : renderedAs x = renderedAs y := by
  cases x <;> cases y
  · exact congrArg Except.error h
  · exact h.elim
  · exact h.elim
  · exact congrArg Except.ok h

/-- C79 for the base visitor: documents that differ in positions only give data that differ in the positions under `_context` only. -/
theorem C79_data {o o' : DocOutput} (h : DocOutput.adrift o = DocOutput.adrift o') {parents parents' : Place → Option Node} (hp : SameParents parents parents')
    (fuel : Nat) : shownAs (visitDocument fuel o parents) = shownAs (visitDocument fuel o' parents') := by
  have hd : o.document.map Node.adrift = o'.document.map Node.adrift := congrArg DocOutput.document h
  have ho : LikeNodes o.objs o'.objs := congrArg DocOutput.objs h
  unfold visitDocument
  generalize o.document = x at hd
  generalize o'.document = y at hd
  cases x <;> cases y
  · rfl
  · cases hd
  · cases hd
  · rename_i d d'
    have hn : LikeNode d d' := Option.some.inj hd
    have hv := both_visit (e := { objs := o.objs, parents := parents }) (e' := { objs := o'.objs, parents := parents' }) ⟨ho, hp, rfl, rfl⟩ fuel [] d d' hn
    dsimp only
    generalize visit { objs := o.objs, parents := parents } fuel [] d = a at hv
    generalize visit { objs := o'.objs, parents := parents' } fuel [] d' = b at hv
    cases a <;> cases b
    · exact congrArg Except.error hv
    · exact hv.elim
    · exact hv.elim
    · exact congrArg Except.ok hv

/-- C79 for the Jinja visitor: documents that differ in positions only are rendered to the same text, by templates that do not show line and column
numbers. -/
theorem C79_rendered {o o' : DocOutput} (h : DocOutput.adrift o = DocOutput.adrift o') {parents parents' : Place → Option Node} (hp : SameParents parents parents')
    {jinja : Dict Str → Jinja} (hj : ∀ d, Placeless (jinja d)) (w : TemplateWorld) (env : Env) (fuel : Nat) :
    renderedAs (jinjaProcess w jinja parents fuel env o) = renderedAs (jinjaProcess w jinja parents' fuel env o') := by
  have hd : o.document.map Node.adrift = o'.document.map Node.adrift := congrArg DocOutput.document h
  have ho : LikeNodes o.objs o'.objs := congrArg DocOutput.objs h
  unfold jinjaProcess
  cases hi : jinjaInit w env jinja with
  | error e => rfl
  | ok j =>
    have hr : Placeless j.render := by
      unfold jinjaInit at hi
      obtain ⟨_, _, hi⟩ := exc_bind_ok hi
      obtain ⟨_, _, hi⟩ := exc_bind_ok hi
      obtain ⟨_, _, hi⟩ := exc_bind_ok hi
      obtain ⟨ts, _, hi⟩ := exc_bind_ok hi
      cases hi
      exact hj _
    generalize o.document = x at hd
    generalize o'.document = y at hd
    cases x <;> cases y
    · rfl
    · cases hd
    · cases hd
    · exact renderedAs_both (both_jinjaVisit hr (e := { objs := o.objs, parents := parents }) (e' := { objs := o'.objs, parents := parents' }) ⟨ho, hp, rfl, rfl⟩ fuel []
        (Option.some.inj hd))

theorem rendered_of_meaning {cfg : Config} {fuel : Nat} {req req' : NestedReq} (h : meaningOf (parseDocument cfg fuel req) = meaningOf (parseDocument cfg fuel req'))
    {parents parents' : Place → Option Node} (hp : SameParents parents parents') {jinja : Dict Str → Jinja} (hj : ∀ d, Placeless (jinja d)) (w : TemplateWorld) (depth : Nat) :
    renderedAs (renderDocument cfg fuel w jinja parents depth req) = renderedAs (renderDocument cfg fuel w jinja parents' depth req') := by
  unfold renderDocument
  generalize parseDocument cfg fuel req = x at h
  generalize parseDocument cfg fuel req' = y at h
  cases x <;> cases y
  · exact congrArg Except.error (Except.error.inj h)
  · cases h
  · cases h
  · rename_i s s'
    have h := Except.ok.inj h
    have he : s.env = s'.env := congrArg DocOutput.env h
    have := C79_rendered h hp hj w s.env depth
    change renderedAs (jinjaProcess w jinja parents depth s.env s.output) = renderedAs (jinjaProcess w jinja parents' depth s'.env s'.output)
    rw [← he]
    exact this

/-- C79: a document that starts at another line and column is rendered to the same text, or fails in the same way. -/
theorem C79_moved {cfg : Config} (hc : Positionless cfg) {jinja : Dict Str → Jinja} (hj : ∀ d, Placeless (jinja d)) {parents parents' : Place → Option Node}
    (hp : SameParents parents parents') (w : TemplateWorld) (fuel depth : Nat) (text : Str) (env : Env) (line column line' column' : Nat) (source : Option Str)
    (forbidden : List (Option Str)) (uid : Nat) (objs : List Node) :
    renderedAs (renderDocument cfg fuel w jinja parents depth ⟨text, env, line, column, source, forbidden, uid, objs⟩) =
      renderedAs (renderDocument cfg fuel w jinja parents' depth ⟨text, env, line', column', source, forbidden, uid, objs⟩) :=
  rendered_of_meaning (C78_document hc fuel text env line column line' column' source forbidden uid objs) hp hj w depth

/-- `Mau.process` renders the document (with the environment the document leaves). -/
theorem process_render {cfg : Config} {n : Nat} {env : Env} {w : TemplateWorld} {jinja : Dict Str → Jinja} {parents : Place → Option Node} {depth : Nat} {ext text source : Str} :
    (mauProcess cfg (n + 1) env ⟨ext, jinjaProcess w jinja parents depth⟩ text source).result =
      renderDocument cfg (n + 1) w jinja parents depth ⟨text, env, 0, 0, some source, [], 1, []⟩ := by
  unfold mauProcess mauLexer mauParser mauVisitor renderDocument
  cases hl : lexDocument (TextBuffer.ofText text 0 0 (some source)) with
  | error e =>
    rw [andThen_error (guarded_error.2 rfl), parseDocument, hl]
    rfl
  | ok ts =>
    rw [andThen_silent rfl]
    change ((guarded (parseDocument cfg (n + 1) ⟨text, env, 0, 0, some source, [], 1, []⟩)).andThen _).result = _
    cases hp : parseDocument cfg (n + 1) ⟨text, env, 0, 0, some source, [], 1, []⟩ with
    | error e => rw [andThen_error (guarded_error.2 rfl)]; rfl
    | ok s =>
      rw [andThen_silent rfl]
      change (guarded (jinjaProcess w jinja parents depth s.env s.output)).result = jinjaProcess w jinja parents depth s.env s.output
      cases hj : jinjaProcess w jinja parents depth s.env s.output with
      | error e => exact guarded_error.2 rfl
      | ok t => exact guarded_ok.2 rfl

/-- C79: blank lines and comments in front of a document do not change what `Mau.process` returns. -/
theorem C79_blank_lines {cfg : Config} (hc : Positionless cfg) {jinja : Dict Str → Jinja} (hj : ∀ d, Placeless (jinja d)) {parents parents' : Place → Option Node}
    (hp : SameParents parents parents') (w : TemplateWorld) (n depth : Nat) {m : List Str} (hm : SaysNothing m) (env : Env) (ext text source : Str) :
    renderedAs (mauProcess cfg (n + 1) env ⟨ext, jinjaProcess w jinja parents depth⟩ (ended m ++ text) source).result =
      renderedAs (mauProcess cfg (n + 1) env ⟨ext, jinjaProcess w jinja parents' depth⟩ text source).result := by
  rw [process_render, process_render]
  exact rendered_of_meaning (C78_blank_lines hc (n + 1) hm text env 0 0 (some source) [] 1 []) hp hj w depth

/-- C79: more blank lines and comments at a blank line inside a document do not change what `Mau.process` returns. -/
theorem C79_more_space {cfg : Config} (hc : Positionless cfg) {jinja : Dict Str → Jinja} (hj : ∀ d, Placeless (jinja d)) {parents parents' : Place → Option Node}
    (hp : SameParents parents parents') (w : TemplateWorld) (n depth : Nat) {p m : List Str} (hl : ∀ l ∈ p, '\n' ∉ l) (hm : SaysNothing m) (env : Env)
    (ext text source : Str)
    (h : ∃ s, (parser cfg n (some source)).run 0 0 (p ++ [[]]) (initial ⟨text, env, 0, 0, some source, [], 1, []⟩) = .ok s) :
    renderedAs (mauProcess cfg (n + 1) env ⟨ext, jinjaProcess w jinja parents depth⟩ (ended (p ++ [] :: m) ++ text) source).result =
      renderedAs (mauProcess cfg (n + 1) env ⟨ext, jinjaProcess w jinja parents' depth⟩ (ended (p ++ [[]]) ++ text) source).result := by
  rw [process_render, process_render]
  exact rendered_of_meaning (C78_more_space hc n hl hm text env 0 0 (some source) [] 1 [] h) hp hj w depth

/-! ## Examples -/

/-- What templates that show only the content of a node see. -/
theorem get_adrift (k : Str) (hk : k ≠ c%"_context") : ∀ d d' : List (Str × VData), entriesAdrift d = entriesAdrift d' →
    (Dict.get? d k).map dataAdrift = (Dict.get? d' k).map dataAdrift := by
  intro d
  induction d with
  | nil =>
    intro d' h
    cases d' with
    | nil => rfl
    | cons x d' => obtain ⟨k', v⟩ := x; simp only [entriesAdrift] at h; cases h
  | cons x d ih =>
    obtain ⟨k1, v1⟩ := x
    intro d' h
    cases d' with
    | nil => simp only [entriesAdrift] at h; cases h
    | cons x d' =>
      obtain ⟨k2, v2⟩ := x
      simp only [entriesAdrift, List.cons.injEq, Prod.mk.injEq] at h
      obtain ⟨⟨rfl, hv⟩, hd⟩ := h
      unfold Dict.get?
      by_cases e : k1 = k
      · subst e
        rw [if_neg hk, if_neg hk] at hv
        simpa using hv
      · simpa [List.find?, e] using ih d' hd

/-- The stand-in for Jinja of C74 shows no positions. -/
theorem plainJinja_placeless (templates : Dict Str) : Placeless (plainJinja templates) := by
  intro name config d d' h
  have hg := get_adrift c%"content" (by decide) d d' h
  have e : ∀ x y : Option VData, x.map dataAdrift = y.map dataAdrift →
      (match x with | some (.str s) => s | _ => ([] : Str)) = (match y with | some (.str s) => s | _ => []) := by
    intro x y hxy
    cases x <;> cases y
    · rfl
    · cases hxy
    · cases hxy
    · rename_i a b
      have hab := Option.some.inj hxy
      cases a <;> cases b <;> simp only [dataAdrift] at hab <;> first | rfl | (cases hab; done) | skip
      exact VData.str.inj hab
  unfold plainJinja
  have e2 := e _ _ hg
  split <;> first | rfl | exact congrArg Except.ok (congrArg _ e2)

def movedWorld : TemplateWorld := { defaults := ((c%"style", c%"s") :: allTemplates).map fun kv => (kv.1 ++ c%".j2", .str kv.2) }

/-- The text of a document, and of the same document after blank lines and comments. -/
example :
    (mauProcess plainIds 20 [] ⟨c%"txt", jinjaProcess movedWorld plainJinja (fun _ => none) 20⟩ c%"One\n\n----\nTwo\n_three_\n----\n" c%"a.mau").result.toOption =
      some c%"P t\nB P t st" ∧
    (mauProcess plainIds 20 [] ⟨c%"txt", jinjaProcess movedWorld plainJinja (fun _ => none) 20⟩
      (ended [c%"// title", c%"", c%"////", c%"x", c%"////"] ++ c%"One\n\n----\nTwo\n_three_\n----\n") c%"a.mau").result.toOption =
      some c%"P t\nB P t st" := by
  refine ⟨by decide +kernel, by decide +kernel⟩

end Mau
