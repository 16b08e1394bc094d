import Verif.Spec.VisitErrors
import Verif.Props.Visitor
import Verif.Props.Templates
import Verif.Props.TemplateSources
import Verif.Props.Cli
import Verif.Lemmas.TextErrPlaces

set_option linter.unusedSimpArgs false

/-!
# C74: an error of the Jinja visitor points at the node that cannot be rendered
-/

namespace Mau
open Spec

theorem exc_bind_error {α β} {x : Except Err α} {f : α → Except Err β} {er : Err}
    (h : (x >>= f) = .error er) : x = .error er ∨ ∃ a, x = .ok a ∧ f a = .error er := by
  cases x with
  | error e => cases h; exact .inl rfl
  | ok a => exact .inr ⟨a, rfl, h⟩

theorem visitStrs_error {v : Place → Node → Except Err Str} {at_ : Place} {k : Nat} {er : Err} :
    ∀ {ns : List Node} {i : Nat}, visitStrs v at_ k i ns = .error er →
      ∃ (j : Nat) (n : Node), ns[j]? = some n ∧ v ((k, i + j) :: at_) n = .error er := by
  intro ns
  induction ns with
  | nil => intro i h; cases h
  | cons n ns ih =>
    intro i h
    unfold visitStrs at h
    rcases exc_bind_error h with h | ⟨x, _, h⟩
    · exact ⟨0, n, rfl, h⟩
    · rcases exc_bind_error h with h | ⟨y, _, h⟩
      · obtain ⟨j, m, hm, hv⟩ := ih h
        exact ⟨j + 1, m, by simpa using hm, by rw [show i + (j + 1) = i + 1 + j by omega]; exact hv⟩
      · cases h

theorem visitDict_error {v : Place → Node → Except Err VData} {at_ : Place} {k : Nat} {er : Err} :
    ∀ {ns : List (Str × Node)} {i : Nat}, visitDict v at_ k i ns = .error er →
      ∃ (j : Nat) (key : Str) (n : Node), ns[j]? = some (key, n) ∧ v ((k, i + j) :: at_) n = .error er := by
  intro ns
  induction ns with
  | nil => intro i h; cases h
  | cons a ns ih =>
    obtain ⟨ky, n⟩ := a
    intro i h
    unfold visitDict at h
    rcases exc_bind_error h with h | ⟨x, _, h⟩
    · exact ⟨0, ky, n, rfl, h⟩
    · rcases exc_bind_error h with h | ⟨y, _, h⟩
      · obtain ⟨j, key, m, hm, hv⟩ := ih h
        exact ⟨j + 1, key, m, by simpa using hm, by rw [show i + (j + 1) = i + 1 + j by omega]; exact hv⟩
      · cases h

/-- The ways in which collecting the data of a node can fail. -/
inductive Fails (e : VisitEnv) (o : VisitOps) (at_ : Place) (n : Node) (er : Err) : Prop where
  | children (h : childrenKey n.data ≠ none) (hf : o.list n at_ 0 n.content = .error er)
  | plain {id : Nat} (h : n.data = .toc id) (hf : o.list n at_ 2 n.extra = .error er)
  | one {m : Node} (h : childKey n.data ≠ none) (hm : n.content[0]? = some m) (hf : o.one ((0, 0) :: at_) m = .error er)
  | data {m : Node} (h : childKey n.data ≠ none) (hm : n.content[0]? = some m) (hf : o.data ((0, 0) :: at_) m = .error er)
  | items {id : Nat} {name : Str} (h : n.data = .blockgroup id name)
      (hf : visitDict o.one at_ 0 0 (positions n.content) = .error er)
  | labels (h : hasLabels n.data = true) (hf : visitDict o.one at_ 1 0 n.labels = .error er)
  | reference {key : Str} {r : Option Nat} (h : reference n.data = some (key, r)) (hf : visitRef e o r = .error er)

theorem accept_fails {e : VisitEnv} {o : VisitOps} {at_ : Place} {n : Node} {er : Err}
    (h : acceptNode e o at_ n = .error er) : Fails e o at_ n er := by
  unfold acceptNode at h
  have hfs : nodeFields e o at_ n = .error er := by
    rcases exc_bind_error h with h | ⟨x, _, h⟩
    · exact h
    · cases h
  clear h
  cases hn : n.data with
  | blockgroupItem g pos =>
    simp only [nodeFields, hn] at hfs
    cases hcn : n.content with
    | nil => rw [hcn] at hfs; cases hfs
    | cons b bs =>
      rw [hcn] at hfs
      dsimp only at hfs
      rcases exc_bind_error hfs with h | ⟨x, _, hfs⟩
      · exact .data (by simp [hn, childKey]) (by simp [hcn]) h
      · rcases exc_bind_error hfs with h | ⟨x, _, hfs⟩
        · exact .one (by simp [hn, childKey]) (by simp [hcn]) h
        · cases hfs
  | sourceLine num cnt hl =>
    simp only [nodeFields, hn] at hfs
    cases hcn : n.content with
    | nil => rw [hcn] at hfs; cases hfs
    | cons b bs =>
      rw [hcn] at hfs
      dsimp only at hfs
      rcases exc_bind_error hfs with h | ⟨x, _, hfs⟩
      · exact .one (by simp [hn, childKey]) (by simp [hcn]) h
      · cases hfs
  | blockgroup id name =>
    simp only [nodeFields, hn, contentData, labelsData, bind_assoc, pure_bind] at hfs
    rcases exc_bind_error hfs with h | ⟨x, _, hfs⟩
    · exact .items hn h
    · rcases exc_bind_error hfs with h | ⟨y, _, hfs⟩
      · exact .labels (by simp [hn, hasLabels]) h
      · cases hfs
  | toc id =>
    simp only [nodeFields, hn, contentData, labelsData, bind_assoc, pure_bind] at hfs
    rcases exc_bind_error hfs with h | ⟨x, _, hfs⟩
    · exact .plain hn h
    · rcases exc_bind_error hfs with h | ⟨y, _, hfs⟩
      · exact .children (by simp [hn, childrenKey]) h
      · rcases exc_bind_error hfs with h | ⟨z, _, hfs⟩
        · exact .labels (by simp [hn, hasLabels]) h
        · cases hfs
  | _ =>
    simp only [nodeFields, hn, contentData, labelsData, bind_assoc, pure_bind] at hfs
    first
    | cases hfs; done
    | rcases exc_bind_error hfs with h | ⟨x, _, hfs⟩
      · first
        | exact .children (by simp [hn, childrenKey]) h
        | exact .labels (by simp [hn, hasLabels]) h
        | exact .reference (by rw [hn]; rfl) h
      · first
        | cases hfs; done
        | rcases exc_bind_error hfs with h | ⟨x, _, hfs⟩
          · first
            | exact .children (by simp [hn, childrenKey]) h
            | exact .labels (by simp [hn, hasLabels]) h
          · first
            | cases hfs; done

/-- What the visitor says about a node it cannot render. -/
def Reports (defs : List Template) (j : JinjaVisitor) (e : VisitEnv) (p : Place) (m : Node) (er : Err) : Prop :=
  ∃ msg, er = .visitor msg (some (className m.data, countedFromOne m.ctx)) ∧ Unrendered defs j e p m msg

theorem nodeErr_eq {e : VisitEnv} {n : Node} {m : Msg} (h : (nodeErr e n m).isMau = true) :
    nodeErr e n m = .visitor m (some (className n.data, countedFromOne n.ctx)) := by
  unfold nodeErr at h ⊢
  split at h
  · rename_i hc
    rw [if_pos hc, typeName_eq]; rfl
  · cases h

theorem finish_reports {defs : List Template} {j : JinjaVisitor} (hj : j.templates = sortTemplates defs) {e : VisitEnv} {o : VisitOps}
    {at_ : Place} {n : Node} {d : VData} {er : Err} (hm : er.isMau = true) (hd : acceptNode e o at_ n = .ok d)
    (h : j.finish e at_ n d = .error er) : Reports defs j e at_ n er := by
  have hs := shape e o at_ n d hd
  unfold JinjaVisitor.finish at h
  cases ht : findTemplate j.templates j.prefixes n.facts ((e.parents at_).map Node.facts) with
  | none =>
    simp only [ht, Except.error.injEq] at h
    subst h
    refine ⟨_, nodeErr_eq hm, .noTemplate fun u hu hf => ?_⟩
    rw [hj] at ht
    exact (C52_none defs _ _ _).1 ht u hu ((C52_fits u n (e.parents at_)).2 hf)
  | some t =>
    simp only [ht] at h
    cases d with
    | obj kvs =>
      dsimp only at h
      unfold JinjaVisitor.renderNode at h
      rcases exc_bind_error h with h | ⟨config, hc, h⟩
      · exact absurd hm (by simp [asdict_mauless _ _ h])
      · split at h
        · cases h
        · rename_i text hx
          simp only [Except.error.injEq] at h
          subst h
          rw [hj] at ht
          refine ⟨_, nodeErr_eq hm, .undefined ((C52_best defs _ _ _ t).1 ht) hc (fun kv hkv => ?_) hx⟩
          rcases List.mem_append.1 hkv with h1 | h1
          · exact hs.common kv h1
          · exact hs.fields kv h1
        · cases h; cases hm
    | _ => cases h; cases hm

theorem one_eq (j : JinjaVisitor) (e : VisitEnv) (k : Nat) (p : Place) (m : Node) :
    (j.ops e (j.data e k)).one p m = (j.visit e k p m).map VData.str := by
  show ((j.data e k p m) >>= fun data => (j.finish e p m data) >>= fun x => pure (VData.str x)) = _
  unfold JinjaVisitor.visit
  cases j.data e k p m with
  | error er => rfl
  | ok d =>
    show (j.finish e p m d >>= _) = Except.map _ (j.finish e p m d)
    cases j.finish e p m d <;> rfl

theorem one_error {j : JinjaVisitor} {e : VisitEnv} {k : Nat} {p : Place} {m : Node} {er : Err}
    (h : (j.ops e (j.data e k)).one p m = .error er) : j.visit e k p m = .error er := by
  rw [one_eq] at h
  cases hv : j.visit e k p m with
  | error x => rw [hv] at h; cases h; rfl
  | ok x => rw [hv] at h; cases h

/-- A failure of the data of a node, or of the node itself, is a failure of a node that is rendered with it. -/
theorem visit_reports {defs : List Template} {j : JinjaVisitor} (hj : j.templates = sortTemplates defs) {e : VisitEnv}
    {er : Err} (hm : er.isMau = true) (fuel : Nat) :
    (∀ at_ n, j.data e fuel at_ n = .error er →
      ∃ p m, Shown e.objs at_ n p m ∧ Reports defs j e p m er) ∧
    (∀ at_ n, j.visit e fuel at_ n = .error er →
      ∃ p m, ((p, m) = (at_, n) ∨ Shown e.objs at_ n p m) ∧ Reports defs j e p m er) := by
  induction fuel with
  | zero =>
    constructor
    · intro at_ n h; cases h; cases hm
    · intro at_ n h; cases h; cases hm
  | succ k ih =>
    obtain ⟨ihd, ihv⟩ := ih
    -- a part of `n` that fails
    have part : ∀ {at_ : Place} {n : Node} {q : Place} {x : Node}, Inside at_ n q x → j.visit e k q x = .error er →
        ∃ p m, Shown e.objs at_ n p m ∧ Reports defs j e p m er := by
      intro at_ n q x hi hv
      obtain ⟨p, m, hp | hp, hr⟩ := ihv q x hv
      · cases hp; exact ⟨q, x, .inside hi, hr⟩
      · exact ⟨p, m, .deeper hi hp, hr⟩
    have hdata : ∀ at_ n, j.data e (k + 1) at_ n = .error er →
        ∃ p m, Shown e.objs at_ n p m ∧ Reports defs j e p m er := by
      intro at_ n h
      have hlist : ∀ a ns, (j.ops e (j.data e k)).list n at_ a ns = .error er →
          ∃ i c, ns[i]? = some c ∧ j.visit e k ((a, i) :: at_) c = .error er := by
        intro a ns hl
        rcases exc_bind_error hl with hl | ⟨xs, _, hl⟩
        · obtain ⟨i, c, hc, hv⟩ := visitStrs_error hl
          exact ⟨i, c, hc, by simpa [JinjaVisitor.visit] using hv⟩
        · cases hl
      rcases accept_fails h with ⟨hk, hf⟩ | ⟨hk, hf⟩ | ⟨hk, hm, hf⟩ | ⟨hk, hm, hf⟩ | ⟨hk, hf⟩ | ⟨hk, hf⟩ | ⟨hk, hf⟩
      · obtain ⟨i, c, hc, hv⟩ := hlist _ _ hf
        exact part (.child (.inl hk) hc) hv
      · obtain ⟨i, c, hc, hv⟩ := hlist _ _ hf
        exact part (.plain hk hc) hv
      · exact part (.only hk hm) (one_error hf)
      · obtain ⟨p, m, hp, hr⟩ := ihd _ _ hf
        exact ⟨p, m, .deeper (.only hk hm) hp, hr⟩
      · obtain ⟨i, key, c, hc, hv⟩ := visitDict_error hf
        have hv := one_error hv
        rw [Nat.zero_add] at hv
        refine part (.child (.inr ⟨_, _, hk⟩) ?_) hv
        unfold positions at hc
        rw [List.getElem?_map] at hc
        cases hg : n.content[i]? with
        | none => rw [hg] at hc; cases hc
        | some y => rw [hg] at hc; cases hc; rfl
      · obtain ⟨i, key, c, hc, hv⟩ := visitDict_error hf
        have hv := one_error hv
        rw [Nat.zero_add] at hv
        exact part (.label hk hc) hv
      · rename_i key r
        unfold visitRef at hf
        cases r with
        | none => cases hf
        | some id =>
          dsimp only at hf
          cases hr : e.objs.find? (fun x => x.data.id == id) with
          | none => rw [hr] at hf; cases hf
          | some y =>
            rw [hr] at hf
            obtain ⟨p, m, hp, hrep⟩ := ihd _ _ hf
            exact ⟨p, m, .referred hk hr hp, hrep⟩
    refine ⟨hdata, ?_⟩
    intro at_ n h
    unfold JinjaVisitor.visit at h
    rcases exc_bind_error h with h | ⟨d, hd, h⟩
    · obtain ⟨p, m, hp, hr⟩ := hdata at_ n h
      exact ⟨p, m, .inr hp, hr⟩
    · exact ⟨at_, n, .inl rfl, finish_reports hj hm hd h⟩

/-- C74: when rendering a node fails with a Mau error, the error is about the node itself or about a node that has to be rendered with it; it
gives the class and the place of that node, with lines counted from 1, and says what is true of it: no template fits it, or its template uses
something undefined. -/
theorem C74_error {defs : List Template} {j : JinjaVisitor} (hj : j.templates = sortTemplates defs) {e : VisitEnv} {fuel : Nat}
    {at_ : Place} {n : Node} {er : Err} (hm : er.isMau = true) (h : j.visit e fuel at_ n = .error er) :
    ∃ p m msg, ((p, m) = (at_, n) ∨ Shown e.objs at_ n p m) ∧
      er = .visitor msg (some (className m.data, countedFromOne m.ctx)) ∧ Unrendered defs j e p m msg := by
  obtain ⟨p, m, hp, msg, he, hu⟩ := (visit_reports hj hm fuel).2 at_ n h
  exact ⟨p, m, msg, hp, he, hu⟩

theorem one_ok {j : JinjaVisitor} {e : VisitEnv} {k : Nat} {p : Place} {m : Node} {x : VData}
    (h : (j.ops e (j.data e k)).one p m = .ok x) : ∃ s, j.visit e k p m = .ok s := by
  rw [one_eq] at h
  cases hv : j.visit e k p m with
  | error y => rw [hv] at h; cases h
  | ok s => exact ⟨s, rfl⟩

/-- The parts of a node whose data were collected are rendered. -/
theorem inside_rendered {j : JinjaVisitor} {e : VisitEnv} {k : Nat} {at_ q : Place} {n x : Node} {d : VData}
    (h : j.data e (k + 1) at_ n = .ok d) (hi : Inside at_ n q x) : ∃ s, j.visit e k q x = .ok s := by
  have hs := shape e _ at_ n d h
  have hlist : ∀ a ns y, (j.ops e (j.data e k)).list n at_ a ns = .ok y →
      ∀ (i : Nat) (c : Node), ns[i]? = some c → ∃ s, j.visit e k ((a, i) :: at_) c = .ok s := by
    intro a ns y hy i c hc
    obtain ⟨xs, hxs, _⟩ := exc_bind_ok hy
    obtain ⟨s, _, hv⟩ := (visitStrs_each hxs).2 i c hc
    exact ⟨s, by simpa [JinjaVisitor.visit] using hv⟩
  cases hi with
  | @child i _ hk hm =>
    rcases hk with hk | ⟨id, name, hk⟩
    · cases hkey : childrenKey n.data with
      | none => exact absurd hkey hk
      | some key =>
        obtain ⟨y, _, hy⟩ := hs.children key hkey
        exact hlist _ _ _ hy _ _ hm
    · obtain ⟨kvs, _, hd⟩ := hs.items id name hk
      obtain ⟨y, _, hv⟩ := (visitDict_each hd).2 i _ x (by rw [List.getElem?_map, hm]; rfl)
      rw [Nat.zero_add] at hv
      exact one_ok hv
  | only hk hm =>
    cases hkey : childKey n.data with
    | none => exact absurd hkey hk
    | some key =>
      obtain ⟨y, _, _, hy⟩ := hs.child key hkey
      cases hc : n.content with
      | nil => rw [hc] at hm; cases hm
      | cons c cs =>
        rw [hc] at hm
        cases hm
        exact one_ok (hy _ _ hc)
  | plain hk hm =>
    obtain ⟨y, _, hy⟩ := hs.plain _ hk
    exact hlist _ _ _ hy _ _ hm
  | label hk hm =>
    obtain ⟨kvs, _, hd⟩ := hs.labels hk
    obtain ⟨y, _, hv⟩ := (visitDict_each hd).2 _ _ _ hm
    rw [Nat.zero_add] at hv
    exact one_ok hv

theorem data_rendered {j : JinjaVisitor} {e : VisitEnv} {at_ p : Place} {n m : Node} (hs : Shown e.objs at_ n p m) :
    ∀ {fuel : Nat} {d : VData}, j.data e fuel at_ n = .ok d → ∃ k s, j.visit e k p m = .ok s := by
  induction hs with
  | inside hi =>
    intro fuel d h
    cases fuel with
    | zero => cases h
    | succ k => exact ⟨k, inside_rendered h hi⟩
  | deeper hi _ ih =>
    intro fuel d h
    cases fuel with
    | zero => cases h
    | succ k =>
      obtain ⟨s, hv⟩ := inside_rendered h hi
      unfold JinjaVisitor.visit at hv
      obtain ⟨d', hd', _⟩ := exc_bind_ok hv
      exact ih hd'
  | referred hk hr _ ih =>
    intro fuel d h
    cases fuel with
    | zero => cases h
    | succ k =>
      obtain ⟨x, _, hx⟩ := (shape e _ _ _ d h).reference _ _ hk
      unfold visitRef at hx
      dsimp only at hx
      rw [hr] at hx
      exact ih hx

/-- C74: when rendering a node succeeds, every node that has to be rendered with it is rendered, so that a template fits it. -/
theorem C74_success {defs : List Template} {j : JinjaVisitor} (hj : j.templates = sortTemplates defs) {e : VisitEnv} {fuel : Nat}
    {at_ p : Place} {n m : Node} {s : Str} (h : j.visit e fuel at_ n = .ok s) (hm : (p, m) = (at_, n) ∨ Shown e.objs at_ n p m) :
    (∃ k s', j.visit e k p m = .ok s') ∧ ∃ t, Best defs j.prefixes m.facts ((e.parents p).map Node.facts) t := by
  have hv : ∃ k s', j.visit e k p m = .ok s' := by
    rcases hm with hm | hm
    · cases hm; exact ⟨_, _, h⟩
    · unfold JinjaVisitor.visit at h
      obtain ⟨d, hd, _⟩ := exc_bind_ok h
      exact data_rendered hm hd
  refine ⟨hv, ?_⟩
  obtain ⟨k, s', hv⟩ := hv
  cases k with
  | zero => cases hv
  | succ k =>
    obtain ⟨t, _, _, ht, _⟩ := jinja_visit j e k p m s' hv
    rw [hj] at ht
    exact ⟨t, (C52_best defs _ _ _ t).1 ht⟩

theorem jinjaInit_sorted {w : TemplateWorld} {env : Env} {jinja : Dict Str → Jinja} {j : JinjaVisitor} (h : jinjaInit w env jinja = .ok j) :
    ∃ defs, j.templates = sortTemplates defs := by
  unfold jinjaInit at h
  obtain ⟨_, _, h⟩ := exc_bind_ok h
  obtain ⟨_, _, h⟩ := exc_bind_ok h
  obtain ⟨_, _, h⟩ := exc_bind_ok h
  obtain ⟨ts, _, h⟩ := exc_bind_ok h
  cases h
  exact ⟨ts, rfl⟩

/-- C74: a document is processed with the Jinja visitor, and that fails with a Mau error. Then the visitor could not be made, or the error points
at a node of the document that cannot be rendered. -/
theorem C74_document {w : TemplateWorld} {jinja : Dict Str → Jinja} {parents : Place → Option Node} {fuel : Nat} {env : Env}
    {o : DocOutput} {er : Err} (hm : er.isMau = true) (h : jinjaProcess w jinja parents fuel env o = .error er) :
    jinjaInit w env jinja = .error er ∨
    ∃ j defs d p m msg, jinjaInit w env jinja = .ok j ∧ j.templates = sortTemplates defs ∧ o.document = some d ∧
      ((p, m) = ([], d) ∨ Shown o.objs [] d p m) ∧
      er = .visitor msg (some (className m.data, countedFromOne m.ctx)) ∧ Unrendered defs j { objs := o.objs, parents } p m msg := by
  unfold jinjaProcess at h
  rcases exc_bind_error h with h | ⟨j, hj, h⟩
  · exact .inl h
  · obtain ⟨defs, hd⟩ := jinjaInit_sorted hj
    cases ho : o.document with
    | none => rw [ho] at h; cases h
    | some d =>
      rw [ho] at h
      obtain ⟨p, m, msg, hp, he, hu⟩ := C74_error hd hm h
      exact .inr ⟨j, defs, d, p, m, msg, hj, hd, rfl, hp, he, hu⟩

theorem className_ne (d : NodeData) : className d ≠ [] := by cases d <;> simp [className]

/-- C74: on the command line, such an error is logged with the place and the class of the node, and the exit code is 1. -/
theorem C74_command {w : CliWorld} {fuel : Nat} {a : CliArgs} {env : Env} {text name ext : Str} {s : DocSt}
    {tw : TemplateWorld} {jinja : Dict Str → Jinja} {parents : Place → Option Node} {depth : Nat} {j : JinjaVisitor} {er : Err}
    (h1 : cliEnvironment w a = .ok env) (h2 : w.read a.input = some text) (h3 : a.lexerOnly = false) (h4 : a.visitor = some name)
    (h5 : Dict.get? w.visitors name = some ⟨ext, jinjaProcess tw jinja parents depth⟩)
    (h6 : parseDoc w.cfg fuel text env (some a.input) = .ok s) (h7 : jinjaInit tw s.env jinja = .ok j)
    (hm : er.isMau = true) (h : jinjaProcess tw jinja parents depth s.env s.output = .error er) :
    (cliMain w fuel a).status = .exit 1 ∧
    ∃ defs d p m msg, j.templates = sortTemplates defs ∧ s.output.document = some d ∧
      ((p, m) = ([], d) ∨ Shown s.output.objs [] d p m) ∧ Unrendered defs j { objs := s.output.objs, parents } p m msg ∧
      (cliMain w fuel a).logged =
        [⟨c%"[MAU] Visitor error", none⟩, ⟨c%"[MAU] Message: ", some msg⟩, ⟨c%"[MAU] Context: " ++ written m.ctx, none⟩,
         ⟨c%"[MAU] Node type: " ++ className m.data, none⟩] := by
  have hl := (C70_command h1 h2 h3 h4 h5 (.visitor h6 h)).1 hm
  refine ⟨hl.1, ?_⟩
  rcases C74_document hm h with hx | ⟨j', defs, d, p, m, msg, hj, hd, ho, hp, rfl, hu⟩
  · rw [h7] at hx; cases hx
  · rw [h7] at hj
    cases hj
    refine ⟨defs, d, p, m, msg, hd, ho, hp, hu, ?_⟩
    have hlog := hl.2
    generalize (cliMain w fuel a).logged = logged at hlog
    generalize hty : className m.data = type at hlog ⊢
    have hne : type ≠ [] := hty ▸ className_ne m.data
    cases hlog with
    | visitorAt => rfl
    | visitorUntyped => exact absurd rfl hne

/-! ## Examples -/

/-- A stand-in for Jinja: a template is written out as it is, followed by the content of the node; `?` asks for something that is not
defined, `!` for a text of the configuration. -/
def plainJinja (templates : Dict Str) : Jinja := fun name config data =>
  match Dict.get? templates name with
  | some c%"?" => .error (.undefined c%"'x' is undefined")
  | some c%"!" => (match Dict.get? config c%"title" with | some (.leaf (.str s)) => .ok s | _ => .error (.raised .foreign))
  | some t => .ok (t ++ (match (VData.obj data).get? c%"content" with | some (.str s) => s | _ => []))
  | none => .error (.raised .foreign)

def renderWorld (templates : List (Str × Str)) : CliWorld where
  read := fun _ => some c%":title:T\n\nOne\n\n----\nTwo\n_three_\n----\n"
  load := fun _ => none
  visitors := [(c%"x", ⟨c%"txt", jinjaProcess { defaults := templates.map fun kv => (kv.1 ++ c%".j2", .str kv.2) } plainJinja (fun _ => none) 20⟩)]

def allTemplates : List (Str × Str) :=
  [(c%"document", []), (c%"paragraph", c%"P "), (c%"paragraph-line", []), (c%"text", c%"t"), (c%"word", c%"w"), (c%"block", c%"B ")]

example :
    -- with all templates
    cliMain (renderWorld ((c%"style", c%"s") :: allTemplates)) 20 { input := c%"a.mau", visitor := some c%"x" } =
      { status := .done, written := some (c%"a.txt", c%"P t\nB P t st\n") } ∧
    -- without the one for styles: the third line of the block is named
    cliMain (renderWorld allTemplates) 20 { input := c%"a.mau", visitor := some c%"x" } =
      { status := .exit 1
        logged := [⟨c%"[MAU] Visitor error", none⟩, ⟨c%"[MAU] Message: ", some (.text c%"Cannot find a suitable template.")⟩,
          ⟨c%"[MAU] Context: a.mau:7,0-7,7", none⟩, ⟨c%"[MAU] Node type: style", none⟩] } ∧
    -- a template that uses something undefined
    cliMain (renderWorld ((c%"style", c%"?") :: allTemplates)) 20 { input := c%"a.mau", visitor := some c%"x" } =
      { status := .exit 1
        logged := [⟨c%"[MAU] Visitor error", none⟩,
          ⟨c%"[MAU] Message: ", some (.text c%"Error rendering node with template style: 'x' is undefined")⟩,
          ⟨c%"[MAU] Context: a.mau:7,0-7,7", none⟩, ⟨c%"[MAU] Node type: style", none⟩] } := by
  refine ⟨by decide +kernel, by decide +kernel, by decide +kernel⟩

/-- C51 fails for documents that define both `a` and a variable below `a`: whatever the templates are, the variables cannot be given to Jinja (a
TypeError), and no node can be rendered. -/
theorem C51_render_crash :
    (match parseDoc {} 20 c%":a:1\n:a.b:2\n\ntext\n" [] none with
      | .ok s => (match Env.asdict s.env with | .ok _ => none | .error e => some e)
      | .error _ => none) = some (.py .typeError) ∧
    ∀ (j : JinjaVisitor) (e : VisitEnv) (fuel : Nat) (at_ : Place) (n : Node) (er : Err), Env.asdict j.env = .error er →
      ∀ s, j.visit e fuel at_ n ≠ .ok s := by
  refine ⟨by decide +kernel, ?_⟩
  intro j e fuel at_ n er hj s h
  cases fuel with
  | zero => cases h
  | succ k =>
    obtain ⟨_, _, config, _, _, hc, _⟩ := jinja_visit j e k at_ n s h
    rw [hj] at hc
    cases hc

end Mau
