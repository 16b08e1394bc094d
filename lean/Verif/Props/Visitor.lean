import Verif.Spec.Visitor
import Verif.Lemmas.Dict

set_option linter.unusedSimpArgs false

/-!
# C54: visiting preserves the structure of the document
-/

namespace Mau
open Spec

theorem exc_bind_ok {α β} {x : Except Err α} {f : α → Except Err β} {v : β}
    (h : (x >>= f) = .ok v) : ∃ a, x = .ok a ∧ f a = .ok v := by
  cases x with
  | error e => cases h
  | ok a => exact ⟨a, rfl, h⟩

theorem visitAll_each {v : Place → Node → Except Err VData} {at_ : Place} {k : Nat} :
    ∀ {ns : List Node} {i : Nat} {xs : List VData}, visitAll v at_ k i ns = .ok xs →
      xs.length = ns.length ∧ ∀ (j : Nat) (n : Node), ns[j]? = some n →
        ∃ x, xs[j]? = some x ∧ v ((k, i + j) :: at_) n = .ok x := by
  intro ns
  induction ns with
  | nil => intro i xs h; cases h; simp
  | cons n ns ih =>
    intro i xs h
    unfold visitAll at h
    obtain ⟨x, hx, h⟩ := exc_bind_ok h
    obtain ⟨ys, hys, h⟩ := exc_bind_ok h
    cases h
    obtain ⟨h1, h2⟩ := ih hys
    refine ⟨by simp [h1], ?_⟩
    intro j m hm
    cases j with
    | zero => simp at hm; subst hm; exact ⟨x, by simp, hx⟩
    | succ j =>
      simp at hm
      obtain ⟨y, hy, hv⟩ := h2 j m hm
      exact ⟨y, by simpa using hy, by rw [show i + (j + 1) = i + 1 + j by omega]; exact hv⟩

theorem visitStrs_each {v : Place → Node → Except Err Str} {at_ : Place} {k : Nat} :
    ∀ {ns : List Node} {i : Nat} {xs : List Str}, visitStrs v at_ k i ns = .ok xs →
      xs.length = ns.length ∧ ∀ (j : Nat) (n : Node), ns[j]? = some n →
        ∃ x, xs[j]? = some x ∧ v ((k, i + j) :: at_) n = .ok x := by
  intro ns
  induction ns with
  | nil => intro i xs h; cases h; simp
  | cons n ns ih =>
    intro i xs h
    unfold visitStrs at h
    obtain ⟨x, hx, h⟩ := exc_bind_ok h
    obtain ⟨ys, hys, h⟩ := exc_bind_ok h
    cases h
    obtain ⟨h1, h2⟩ := ih hys
    refine ⟨by simp [h1], ?_⟩
    intro j m hm
    cases j with
    | zero => simp at hm; subst hm; exact ⟨x, by simp, hx⟩
    | succ j =>
      simp at hm
      obtain ⟨y, hy, hv⟩ := h2 j m hm
      exact ⟨y, by simpa using hy, by rw [show i + (j + 1) = i + 1 + j by omega]; exact hv⟩

theorem visitDict_each {v : Place → Node → Except Err VData} {at_ : Place} {k : Nat} :
    ∀ {ns : List (Str × Node)} {i : Nat} {xs : List (Str × VData)}, visitDict v at_ k i ns = .ok xs →
      xs.length = ns.length ∧ ∀ (j : Nat) (key : Str) (n : Node), ns[j]? = some (key, n) →
        ∃ x, xs[j]? = some (key, x) ∧ v ((k, i + j) :: at_) n = .ok x := by
  intro ns
  induction ns with
  | nil => intro i xs h; cases h; simp
  | cons a ns ih =>
    obtain ⟨ky, n⟩ := a
    intro i xs h
    unfold visitDict at h
    obtain ⟨x, hx, h⟩ := exc_bind_ok h
    obtain ⟨ys, hys, h⟩ := exc_bind_ok h
    cases h
    obtain ⟨h1, h2⟩ := ih hys
    refine ⟨by simp [h1], ?_⟩
    intro j key m hm
    cases j with
    | zero => simp at hm; obtain ⟨rfl, rfl⟩ := hm; exact ⟨x, by simp, hx⟩
    | succ j =>
      simp at hm
      obtain ⟨y, hy, hv⟩ := h2 j key m hm
      exact ⟨y, by simpa using hy, by rw [show i + (j + 1) = i + 1 + j by omega]; exact hv⟩

/-! ## The data of one node, for every visitor -/

/-- The keys of the common data. -/
def commonKeys : List Str :=
  [c%"_type", c%"args", c%"kwargs", c%"tags", c%"internal_tags", c%"subtype", c%"_context", c%"parent"]

theorem get_default (e : VisitEnv) (at_ : Place) (n : Node) (r : List (Str × VData)) (key : Str)
    (h : key ∉ commonKeys) : Dict.get? (defaultData e at_ n ++ r) key = Dict.get? r key := by
  have h' : ∀ k ∈ commonKeys, k ≠ key := fun k hk he => h (he ▸ hk)
  simp only [commonKeys, List.mem_cons, List.not_mem_nil, or_false, forall_eq_or_imp, forall_eq] at h'
  obtain ⟨h1, h2, h3, h4, h5, h6, h7, h8⟩ := h'
  unfold defaultData baseData
  cases e.addContext <;> cases e.addParent <;>
    simp [Dict.get?_cons, h1, h2, h3, h4, h5, h6, h7, h8]

theorem typeName_eq (d : NodeData) : d.typeName = className d := by cases d <;> rfl

theorem get_common (e : VisitEnv) (at_ : Place) (n : Node) (r : List (Str × VData)) (kv : Str × VData)
    (h : kv ∈ common n) : Dict.get? (defaultData e at_ n ++ r) kv.1 = some kv.2 := by
  unfold common at h
  simp only [List.mem_cons, List.not_mem_nil, or_false] at h
  unfold defaultData baseData
  rcases h with rfl | rfl | rfl | rfl | rfl | rfl <;>
    simp [Dict.get?_cons, VData.strs, VData.dict, typeName_eq]

/-- Any visitor: what the data of a node consist of. -/
structure Shape (e : VisitEnv) (o : VisitOps) (at_ : Place) (n : Node) (d : VData) : Prop where
  common : ∀ kv ∈ common n, d.get? kv.1 = some kv.2
  fields : ∀ kv ∈ fields n.data, d.get? kv.1 = some kv.2
  children : ∀ key, childrenKey n.data = some key →
    ∃ x, d.get? key = some x ∧ o.list n at_ 0 n.content = .ok x
  plain : ∀ id, n.data = .toc id →
    ∃ x, d.get? c%"plain_entries" = some x ∧ o.list n at_ 2 n.extra = .ok x
  child : ∀ key, childKey n.data = some key → ∃ x, d.get? key = some x ∧
    (n.content = [] → x = o.absent) ∧
    ∀ c cs, n.content = c :: cs → o.one ((0, 0) :: at_) c = .ok x
  items : ∀ id name, n.data = .blockgroup id name → ∃ kvs, d.get? c%"items" = some (.obj kvs) ∧
    visitDict o.one at_ 0 0 (n.content.map fun i =>
      (match i.data with | .blockgroupItem _ pos => pos | _ => [], i)) = .ok kvs
  labels : hasLabels n.data = true → ∃ kvs, d.get? c%"labels" = some (.obj kvs) ∧
    visitDict o.one at_ 1 0 n.labels = .ok kvs
  reference : ∀ key r, reference n.data = some (key, r) →
    ∃ x, d.get? key = some x ∧ visitRef e o r = .ok x
  block : ∀ id pos, n.data = .blockgroupItem id pos → ∃ x, d.get? c%"block_data" = some x ∧
    (n.content = [] → x = .obj []) ∧
    ∀ c cs, n.content = c :: cs → o.data ((0, 0) :: at_) c = .ok x

theorem shape (e : VisitEnv) (o : VisitOps) (at_ : Place) (n : Node) (d : VData)
    (h : acceptNode e o at_ n = .ok d) : Shape e o at_ n d := by
  unfold acceptNode at h
  obtain ⟨fs, hfs, h⟩ := exc_bind_ok h
  cases h
  have hc : ∀ kv ∈ common n, (VData.obj (defaultData e at_ n ++ fs)).get? kv.1 = some kv.2 :=
    fun kv hkv => get_common e at_ n fs kv hkv
  have hd : ∀ key, key ∉ commonKeys →
      (VData.obj (defaultData e at_ n ++ fs)).get? key = Dict.get? fs key :=
    fun key hk => get_default e at_ n fs key hk
  have key : ∀ k : Str, k ∈ [c%"value", c%"role", c%"style", c%"level", c%"internal_id", c%"name",
      c%"classes", c%"target", c%"uri", c%"alt_text", c%"width", c%"height", c%"target_name",
      c%"header", c%"public_id", c%"footnote", c%"footnotes", c%"entries", c%"plain_entries",
      c%"nested_entries", c%"position", c%"block_data", c%"block", c%"items", c%"labels", c%"content",
      c%"ctype", c%"ordered", c%"main_node", c%"start", c%"line_number", c%"line_content",
      c%"highlight_style", c%"marker", c%"language"] →
      (VData.obj (defaultData e at_ n ++ fs)).get? k = Dict.get? fs k := by
    intro k hk
    refine hd k ?_
    revert k
    decide
  simp only [List.mem_cons, List.not_mem_nil, or_false, forall_eq_or_imp, forall_eq] at key
  clear hd
  generalize VData.obj (defaultData e at_ n ++ fs) = D at hc key ⊢
  cases hn : n.data with
  | blockgroupItem g pos =>
    simp only [nodeFields, hn] at hfs
    cases hcn : n.content with
    | nil =>
      rw [hcn] at hfs
      cases hfs
      constructor <;> first
        | exact hc
        | simp [fields, childrenKey, childKey, hasLabels, reference, hn, hcn, key, Dict.get?_cons]
    | cons b bs =>
      rw [hcn] at hfs
      dsimp only at hfs
      obtain ⟨x, hx, hfs⟩ := exc_bind_ok hfs
      obtain ⟨y, hy, hfs⟩ := exc_bind_ok hfs
      cases hfs
      constructor <;> first
        | exact hc
        | simp [fields, childrenKey, childKey, hasLabels, reference, hn, hcn, key, Dict.get?_cons, hx, hy]
  | blockgroup id name =>
    simp only [nodeFields, hn, contentData, labelsData, bind_assoc, pure_bind] at hfs
    obtain ⟨x, hx, hfs⟩ := exc_bind_ok hfs
    obtain ⟨y, hy, hfs⟩ := exc_bind_ok hfs
    cases hfs
    constructor <;> first
      | exact hc
      | exact fun _ _ _ => ⟨x, by simp [key, Dict.get?_cons], hx⟩
      | (simp [fields, childrenKey, childKey, hasLabels, reference, hn, key, Dict.get?_cons, hy]; done)
  | sourceLine num cnt hl =>
    simp only [nodeFields, hn] at hfs
    cases hcn : n.content with
    | nil =>
      rw [hcn] at hfs
      cases hfs
      constructor <;> first
        | exact hc
        | simp [fields, childrenKey, childKey, hasLabels, reference, hn, hcn, key, Dict.get?_cons]
    | cons b bs =>
      rw [hcn] at hfs
      dsimp only at hfs
      obtain ⟨x, hx, hfs⟩ := exc_bind_ok hfs
      cases hfs
      constructor <;> first
        | exact hc
        | simp [fields, childrenKey, childKey, hasLabels, reference, hn, hcn, key, Dict.get?_cons, hx]
  | _ =>
    simp only [nodeFields, hn, contentData, labelsData, bind_assoc, pure_bind] at hfs
    first
    | cases hfs
      constructor <;> first
        | exact hc
        | (simp [fields, childrenKey, childKey, hasLabels, reference, hn, key, Dict.get?_cons]; done)
    | obtain ⟨x, hx, hfs⟩ := exc_bind_ok hfs
      cases hfs
      constructor <;> first
        | exact hc
        | (simp [fields, childrenKey, childKey, hasLabels, reference, hn, key, Dict.get?_cons, hx]; done)
    | obtain ⟨x, hx, hfs⟩ := exc_bind_ok hfs
      obtain ⟨y, hy, hfs⟩ := exc_bind_ok hfs
      cases hfs
      constructor <;> first
        | exact hc
        | (simp [fields, childrenKey, childKey, hasLabels, reference, hn, key, Dict.get?_cons, hx, hy]; done)
    | obtain ⟨x, hx, hfs⟩ := exc_bind_ok hfs
      obtain ⟨y, hy, hfs⟩ := exc_bind_ok hfs
      obtain ⟨z, hz, hfs⟩ := exc_bind_ok hfs
      cases hfs
      constructor <;> first
        | exact hc
        | (simp [fields, childrenKey, childKey, hasLabels, reference, hn, key, Dict.get?_cons, hx, hy, hz]; done)

theorem contextData_eq (c : Context) : contextData c = placeData c := by
  unfold contextData placeData VData.opt
  cases c.source <;> rfl

theorem baseData_eq (e : VisitEnv) (n : Node) :
    baseData e n = common n ++ if e.addContext then [(c%"_context", placeData n.ctx)] else [] := by
  unfold baseData common
  rw [typeName_eq, contextData_eq]
  rfl

theorem accept_place {e : VisitEnv} {o : VisitOps} {at_ : Place} {n : Node} {d : VData} (h : acceptNode e o at_ n = .ok d) :
    (e.addContext = true → d.get? c%"_context" = some (placeData n.ctx)) ∧
    (e.addParent = true → ∃ x, d.get? c%"parent" = some x ∧ ShowsParent e.addContext (e.parents at_) x) := by
  unfold acceptNode at h
  obtain ⟨fs, _, h⟩ := exc_bind_ok h
  cases h
  constructor
  · intro hc
    unfold defaultData baseData
    rw [hc, contextData_eq]
    simp [VData.get?, Dict.get?_cons]
  · intro hp
    refine ⟨.obj (match e.parents at_ with | none => [] | some p => baseData e p), ?_, ?_⟩
    · unfold defaultData
      rw [hp]
      generalize VData.obj (match e.parents at_ with | none => [] | some p => baseData e p) = x
      unfold baseData
      cases e.addContext <;> simp [VData.get?, Dict.get?_cons]
    · cases e.parents at_ with
      | none => rfl
      | some p => exact congrArg VData.obj (baseData_eq e p)

/-! ## The base visitor -/

/-- C54: on request the output for a node shows its place, and its parent. -/
theorem C54_place (e : VisitEnv) (k : Nat) (at_ : Place) (n : Node) (d : VData) (h : visit e k at_ n = .ok d) :
    (e.addContext = true → d.get? c%"_context" = some (placeData n.ctx)) ∧
    (e.addParent = true → ∃ x, d.get? c%"parent" = some x ∧ ShowsParent e.addContext (e.parents at_) x) := by
  cases k with
  | zero => cases h
  | succ k => exact accept_place h

/-- C54: the output for a node shows its class, arguments, tags and subtype, and all its fields. -/
theorem C54_fields (e : VisitEnv) (k : Nat) (at_ : Place) (n : Node) (d : VData)
    (h : visit e k at_ n = .ok d) : ∀ kv ∈ common n ++ fields n.data, d.get? kv.1 = some kv.2 := by
  cases k with
  | zero => cases h
  | succ k =>
    have hs := shape e _ at_ n d h
    intro kv hkv
    rcases List.mem_append.1 hkv with h1 | h1
    · exact hs.common kv h1
    · exact hs.fields kv h1

/-- C54: the output for a node lists the outputs for exactly its children, in order. -/
theorem C54_children (e : VisitEnv) (k : Nat) (at_ : Place) (n : Node) (d : VData)
    (h : visit e (k + 1) at_ n = .ok d) :
    (∀ key, childrenKey n.data = some key →
      ∃ xs, d.get? key = some (.list xs) ∧ Each (visit e k) at_ 0 n.content xs) ∧
    (∀ id, n.data = .toc id →
      ∃ xs, d.get? c%"plain_entries" = some (.list xs) ∧ Each (visit e k) at_ 2 n.extra xs) ∧
    (∀ key, childKey n.data = some key → ∃ x, d.get? key = some x ∧
      (n.content = [] → x = .obj []) ∧
      ∀ c cs, n.content = c :: cs → visit e k ((0, 0) :: at_) c = .ok x) ∧
    (∀ id pos, n.data = .blockgroupItem id pos → ∃ x, d.get? c%"block_data" = some x ∧
      (n.content = [] → x = .obj []) ∧
      ∀ c cs, n.content = c :: cs → visit e k ((0, 0) :: at_) c = .ok x) := by
  have hs := shape e _ at_ n d h
  refine ⟨?_, ?_, hs.child, hs.block⟩
  · intro key hk
    obtain ⟨x, hx, hl⟩ := hs.children key hk
    obtain ⟨xs, hxs, hl⟩ := exc_bind_ok hl
    cases hl
    refine ⟨xs, hx, ?_⟩
    have := visitAll_each hxs
    simpa [Each] using this
  · intro id hk
    obtain ⟨x, hx, hl⟩ := hs.plain id hk
    obtain ⟨xs, hxs, hl⟩ := exc_bind_ok hl
    cases hl
    refine ⟨xs, hx, ?_⟩
    have := visitAll_each hxs
    simpa [Each] using this

theorem entries {f : Place → Node → Except Err VData} {at_ : Place} {k : Nat} {ns : List (Str × Node)}
    {kvs : List (Str × VData)} (h : visitDict f at_ k 0 ns = .ok kvs) : EachEntry f at_ k ns kvs := by
  have := visitDict_each h
  simpa [EachEntry] using this

/-- The items of a group, with their positions. -/
def positions (ns : List Node) : List (Str × Node) :=
  ns.map fun i => (match i.data with | .blockgroupItem _ pos => pos | _ => [], i)

/-- C54: the output for a node shows the outputs for its labels per role, in order, and the output for a
group the outputs for its items per position. -/
theorem C54_labels (e : VisitEnv) (k : Nat) (at_ : Place) (n : Node) (d : VData)
    (h : visit e (k + 1) at_ n = .ok d) :
    (hasLabels n.data = true →
      ∃ kvs, d.get? c%"labels" = some (.obj kvs) ∧ EachEntry (visit e k) at_ 1 n.labels kvs) ∧
    (∀ id name, n.data = .blockgroup id name →
      ∃ kvs, d.get? c%"items" = some (.obj kvs) ∧ EachEntry (visit e k) at_ 0 (positions n.content) kvs) := by
  have hs := shape e _ at_ n d h
  constructor
  · intro hl
    obtain ⟨kvs, h1, h2⟩ := hs.labels hl
    exact ⟨kvs, h1, entries h2⟩
  · intro id name hn
    obtain ⟨kvs, h1, h2⟩ := hs.items id name hn
    exact ⟨kvs, h1, entries h2⟩

/-- C54: a node that refers to a header or footnote shows the output for it; one that refers to nothing shows
nothing there. -/
theorem C54_reference (e : VisitEnv) (k : Nat) (at_ : Place) (n : Node) (d : VData)
    (h : visit e (k + 1) at_ n = .ok d) (key : Str) (r : Option Nat) (hr : reference n.data = some (key, r)) :
    (∀ id m, r = some id → e.objs.find? (fun x => x.data.id == id) = some m →
      ∃ x, d.get? key = some x ∧ visit e k [(3, id)] m = .ok x) ∧
    (r = none → d.get? key = some (.obj [])) := by
  obtain ⟨x, hx, hv⟩ := (shape e _ at_ n d h).reference key _ hr
  constructor
  · intro id m hid hm
    subst hid
    refine ⟨x, hx, ?_⟩
    unfold visitRef at hv
    dsimp only at hv
    rw [hm] at hv
    exact hv
  · intro hn
    subst hn
    cases hv
    exact hx

/-! ## The Jinja visitor -/

/-- The separators of the children: a line break between the children of a document and the lines of
source code, a space between the lines of a paragraph, nothing otherwise. -/
def separator : NodeData → Str
  | .document | .source .. => c%"\n"
  | .paragraph => c%" "
  | _ => []

theorem joinSep_eq (d : NodeData) : joinSep d.typeName = separator d := by
  cases d <;> rfl

theorem jinja_visit (j : JinjaVisitor) (e : VisitEnv) (k : Nat) (at_ : Place) (n : Node) (s : Str)
    (h : j.visit e (k + 1) at_ n = .ok s) :
    ∃ t kvs config, findTemplate j.templates j.prefixes n.facts ((e.parents at_).map Node.facts) = some t ∧
      acceptNode e (j.ops e (j.data e k)) at_ n = .ok (.obj kvs) ∧ Env.asdict j.env = .ok config ∧
      j.render t.name config kvs = .ok s := by
  unfold JinjaVisitor.visit at h
  obtain ⟨d, hd, h⟩ := exc_bind_ok h
  unfold JinjaVisitor.finish at h
  cases ht : findTemplate j.templates j.prefixes n.facts ((e.parents at_).map Node.facts) with
  | none => rw [ht] at h; cases h
  | some t =>
  rw [ht] at h
  cases d with
  | obj kvs =>
    dsimp only at h
    unfold JinjaVisitor.renderNode at h
    obtain ⟨config, hc, h⟩ := exc_bind_ok h
    refine ⟨t, kvs, config, rfl, hd, hc, ?_⟩
    split at h
    · rename_i x hx; cases h; exact hx
    · cases h
    · cases h
  | _ => cases h

/-- What the Jinja visitor passes on about a node: its class, arguments, tags, subtype, fields, place and parent; under the key of the
children the results for exactly its children, in order, joined with the separator of the class of the node; the results for its labels
per role and for the items of a group per position; and the data (not rendered) of the block of a group item and of the node it refers to. -/
structure TemplateData (j : JinjaVisitor) (e : VisitEnv) (k : Nat) (at_ : Place) (n : Node) (d : VData) : Prop where
  fields : ∀ kv ∈ common n ++ fields n.data, d.get? kv.1 = some kv.2
  place : e.addContext = true → d.get? c%"_context" = some (placeData n.ctx)
  parent : e.addParent = true → ∃ x, d.get? c%"parent" = some x ∧ ShowsParent e.addContext (e.parents at_) x
  children : ∀ key, childrenKey n.data = some key →
    ∃ xs, d.get? key = some (.str (joinWith (separator n.data) xs)) ∧ Each (j.visit e k) at_ 0 n.content xs
  plain : ∀ id, n.data = .toc id →
    ∃ xs, d.get? c%"plain_entries" = some (.str (joinWith [] xs)) ∧ Each (j.visit e k) at_ 2 n.extra xs
  labels : hasLabels n.data = true → ∃ ls, d.get? c%"labels" = some (.obj ls) ∧
    EachEntry (fun p m => (j.visit e k p m).map VData.str) at_ 1 n.labels ls
  items : ∀ id name, n.data = .blockgroup id name → ∃ ls, d.get? c%"items" = some (.obj ls) ∧
    EachEntry (fun p m => (j.visit e k p m).map VData.str) at_ 0 (positions n.content) ls
  child : ∀ key, childKey n.data = some key → ∃ x, d.get? key = some (.str x) ∧
    (n.content = [] → x = []) ∧
    ∀ c cs, n.content = c :: cs → j.visit e k ((0, 0) :: at_) c = .ok x
  block : ∀ id pos, n.data = .blockgroupItem id pos → ∃ x, d.get? c%"block_data" = some x ∧
    (n.content = [] → x = .obj []) ∧
    ∀ c cs, n.content = c :: cs → j.data e k ((0, 0) :: at_) c = .ok x
  reference : ∀ key id m, reference n.data = some (key, some id) →
    e.objs.find? (fun x => x.data.id == id) = some m →
    ∃ x, d.get? key = some x ∧ j.data e k [(3, id)] m = .ok x
  noReference : ∀ key, Spec.reference n.data = some (key, none) → d.get? key = some (.obj [])

/-- C54: the data of a node that the Jinja visitor passes on shows everything of the node. -/
theorem C54_jinja_data (j : JinjaVisitor) (e : VisitEnv) (k : Nat) (at_ : Place) (n : Node) (d : VData)
    (hd : j.data e (k + 1) at_ n = .ok d) : TemplateData j e k at_ n d := by
  have hs := shape e _ at_ n _ hd
  have hone : ∀ p m, (j.ops e (j.data e k)).one p m = (j.visit e k p m).map VData.str := by
    intro p m
    show ((j.data e k p m) >>= fun data => (j.finish e p m data) >>= fun x => pure (VData.str x)) = _
    unfold JinjaVisitor.visit
    cases j.data e k p m with
    | error er => rfl
    | ok d => 
      show (j.finish e p m d >>= _) = Except.map _ (j.finish e p m d)
      cases j.finish e p m d <;> rfl
  have hone' : (j.ops e (j.data e k)).one = fun p m => (j.visit e k p m).map VData.str := by
    funext p m; exact hone p m
  have hlist : ∀ a ns x, (j.ops e (j.data e k)).list n at_ a ns = .ok x →
      ∃ xs, x = .str (joinWith (separator n.data) xs) ∧ Each (j.visit e k) at_ a ns xs := by
    intro a ns x hx
    obtain ⟨xs, hxs, hx⟩ := exc_bind_ok hx
    cases hx
    refine ⟨xs, by rw [joinSep_eq], ?_⟩
    have := visitStrs_each hxs
    simpa [Each, JinjaVisitor.visit] using this
  constructor
  · intro kv hkv
    rcases List.mem_append.1 hkv with h1 | h1
    · exact hs.common kv h1
    · exact hs.fields kv h1
  · exact (accept_place hd).1
  · exact (accept_place hd).2
  · intro key hk
    obtain ⟨x, hx, hl⟩ := hs.children key hk
    obtain ⟨xs, rfl, he⟩ := hlist _ _ _ hl
    exact ⟨xs, hx, he⟩
  · intro id hk
    obtain ⟨x, hx, hl⟩ := hs.plain id hk
    obtain ⟨xs, rfl, he⟩ := hlist _ _ _ hl
    rw [hk] at hx
    exact ⟨xs, hx, he⟩
  · intro hl
    obtain ⟨ls, h1, h2⟩ := hs.labels hl
    rw [hone'] at h2
    exact ⟨ls, h1, entries h2⟩
  · intro id name hn
    obtain ⟨ls, h1, h2⟩ := hs.items id name hn
    rw [hone'] at h2
    exact ⟨ls, h1, entries h2⟩
  · intro key hk
    obtain ⟨x, hx, ha, hc⟩ := hs.child key hk
    cases hcc : n.content with
    | nil =>
      have := ha hcc
      subst this
      exact ⟨[], hx, (fun _ => rfl), (fun _ _ h => nomatch h)⟩
    | cons c cs =>
      have hv := hc c cs hcc
      rw [hone] at hv
      cases hj : j.visit e k ((0, 0) :: at_) c with
      | error er => rw [hj] at hv; cases hv
      | ok y =>
        rw [hj] at hv
        cases hv
        exact ⟨y, hx, (fun h => nomatch h), (fun c' cs' h' => by cases h'; exact hj)⟩
  · exact hs.block
  · intro key id m hrf hm
    obtain ⟨x, hx, hv⟩ := hs.reference key _ hrf
    refine ⟨x, hx, ?_⟩
    unfold visitRef at hv
    dsimp only at hv
    rw [hm] at hv
    exact hv
  · intro key hrf
    obtain ⟨x, hx, hv⟩ := hs.reference key _ hrf
    cases hv
    exact hx

/-- C54: the Jinja visitor renders a node with the template selected for it; the template gets the variables as `config`, and
everything of the node. -/
theorem C54_jinja (j : JinjaVisitor) (e : VisitEnv) (k : Nat) (at_ : Place) (n : Node) (s : Str)
    (h : j.visit e (k + 1) at_ n = .ok s) :
    ∃ t kvs config, findTemplate j.templates j.prefixes n.facts ((e.parents at_).map Node.facts) = some t ∧
      Env.asdict j.env = .ok config ∧ j.render t.name config kvs = .ok s ∧
      TemplateData j e k at_ n (.obj kvs) := by
  obtain ⟨t, kvs, config, ht, hd, hcf, hr⟩ := jinja_visit j e k at_ n s h
  exact ⟨t, kvs, config, ht, hcf, hr, C54_jinja_data j e k at_ n _ hd⟩

end Mau
