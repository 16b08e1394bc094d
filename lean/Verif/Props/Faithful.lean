import Verif.Spec.Faithful
import Verif.Props.Visitor
import Verif.Props.Cli

set_option linter.unusedSimpArgs false
set_option linter.unusedVariables false

/-!
# C80: the output of the base visitor shows the whole document
-/

namespace Mau
open Spec

/-- What the class of a node decides. -/
def kindFacts (d : NodeData) : List Str × Option Str × Option Str × Bool × Option Str × Bool × Bool :=
  ((fields d).map (·.1), childrenKey d, childKey d, hasLabels d, (reference d).map (·.1), (match d with | .blockgroup .. => true | _ => false),
    (match d with | .toc _ => true | _ => false))

/-- One of each class. -/
def samples : List NodeData :=
  [.word [], .text [], .verbatim [], .style [], .macro [], .macroClass [], .macroLink [], .macroImage [] none none none, .macroHeader 0 [] none, .macroFootnote 0 [] none,
    .macroUnicode [], .macroRaw [], .paragraph, .paragraphLine, .header 0 0 none none, .horizontalRule, .document, .list true true 0, .listItem 0, .block [], .raw [],
    .rawLine [], .source none [], .sourceLine 0 [] none, .sourceMarker [], .footnote 0 [] none none, .footnotes 0, .footnotesItem 0, .include [], .includeImage [] none [],
    .includeMau [], .includeRaw [], .toc 0, .tocItem 0, .blockgroup 0 [], .blockgroupItem [] [], .label []]

theorem kind_sample (d : NodeData) : (samples.find? fun s => className s == className d).map kindFacts = some (kindFacts d) := by
  cases d <;> rfl

theorem kind_facts {d d' : NodeData} (h : className d = className d') : kindFacts d = kindFacts d' := by
  have := kind_sample d
  rw [h, kind_sample d'] at this
  exact (Option.some.inj this).symm

theorem map_str_inj : ∀ {a b : List Str}, a.map VData.str = b.map VData.str → a = b
  | [], [], _ => rfl
  | _ :: _, [], h => by cases h
  | [], _ :: _, h => by cases h
  | x :: a, y :: b, h => by
    simp only [List.map_cons, List.cons.injEq, VData.str.injEq] at h
    rw [h.1, map_str_inj h.2]

theorem map_kv_inj : ∀ {a b : Dict Str}, a.map (fun kv => (kv.1, VData.str kv.2)) = b.map (fun kv => (kv.1, VData.str kv.2)) → a = b
  | [], [], _ => rfl
  | _ :: _, [], h => by cases h
  | [], _ :: _, h => by cases h
  | (x, v) :: a, (y, w) :: b, h => by
    simp only [List.map_cons, List.cons.injEq, VData.str.injEq, Prod.mk.injEq] at h
    rw [h.1.1, h.1.2, map_kv_inj h.2]

theorem opt_inj {a b : Option Str} (h : VData.opt a = VData.opt b) : a = b := by
  cases a <;> cases b <;> simp_all [VData.opt]

theorem placeData_inj {c c' : Context} (h : placeData c = placeData c') : c = c' := by
  obtain ⟨a, b, x, y, s⟩ := c
  obtain ⟨a', b', x', y', s'⟩ := c'
  have hs : s = s' := by
    cases s <;> cases s' <;> simp_all [placeData]
  simp only [placeData, VData.obj.injEq, List.cons.injEq, Prod.mk.injEq, VData.int.injEq, true_and, Int.natCast_inj] at h
  obtain ⟨h1, h2, h3, h4, h5⟩ := h
  rw [h1, h2, h3, h4, hs]

/-- Lists of entries with the same keys, all to be found in the same data. -/
theorem entries_eq {d : VData} : ∀ {a b : List (Str × VData)}, a.map (·.1) = b.map (·.1) → (∀ kv ∈ a, d.get? kv.1 = some kv.2) → (∀ kv ∈ b, d.get? kv.1 = some kv.2) → a = b
  | [], [], _, _, _ => rfl
  | _ :: _, [], h, _, _ => by cases h
  | [], _ :: _, h, _, _ => by cases h
  | (k, v) :: a, (k', v') :: b, h, ha, hb => by
    simp only [List.map_cons, List.cons.injEq] at h
    obtain ⟨rfl, h⟩ := h
    have h1 := ha _ (List.mem_cons_self ..)
    have h2 := hb _ (List.mem_cons_self ..)
    dsimp only at h1 h2
    rw [h1] at h2
    cases h2
    rw [entries_eq h (fun kv hk => ha kv (List.mem_cons_of_mem _ hk)) (fun kv hk => hb kv (List.mem_cons_of_mem _ hk))]

/-- The data of a node are not empty. -/
theorem visit_ne {e : VisitEnv} {k : Nat} {p : Place} {n : Node} {d : VData} (h : visit e k p n = .ok d) : d ≠ .obj [] := by
  rintro rfl
  have := C54_fields e k p n _ h (c%"_type", .str (className n.data)) (List.mem_append_left _ (List.mem_cons_self ..))
  cases this

theorem each_pairs {f g : Place → Node → Except Err VData} {p p' : Place} {k : Nat} {ns ns' : List Node} {xs : List VData} (h : Each f p k ns xs) (h' : Each g p' k ns' xs) :
    ns.length = ns'.length ∧ ∀ (i : Nat) (m m' : Node), ns[i]? = some m → ns'[i]? = some m' → ∃ x, f ((k, i) :: p) m = .ok x ∧ g ((k, i) :: p') m' = .ok x := by
  refine ⟨h.1.symm.trans h'.1, fun i m m' hm hm' => ?_⟩
  obtain ⟨x, h1, h2⟩ := h.2 i m hm
  obtain ⟨y, h3, h4⟩ := h'.2 i m' hm'
  rw [h1] at h3
  cases h3
  exact ⟨x, h2, h4⟩

theorem eachEntry_pairs {f g : Place → Node → Except Err VData} {p p' : Place} {k : Nat} {ns ns' : List (Str × Node)} {xs : List (Str × VData)} (h : EachEntry f p k ns xs)
    (h' : EachEntry g p' k ns' xs) : ns.map (·.1) = ns'.map (·.1) ∧ ∀ (i : Nat) (r r' : Str) (m m' : Node), ns[i]? = some (r, m) → ns'[i]? = some (r', m') →
      ∃ x, f ((k, i) :: p) m = .ok x ∧ g ((k, i) :: p') m' = .ok x := by
  have key : ∀ (i : Nat) (r r' : Str) (m m' : Node), ns[i]? = some (r, m) → ns'[i]? = some (r', m') →
      r = r' ∧ ∃ x, f ((k, i) :: p) m = .ok x ∧ g ((k, i) :: p') m' = .ok x := by
    intro i r r' m m' hm hm'
    obtain ⟨x, h1, h2⟩ := h.2 i r m hm
    obtain ⟨y, h3, h4⟩ := h'.2 i r' m' hm'
    rw [h1] at h3
    cases h3
    exact ⟨rfl, x, h2, h4⟩
  refine ⟨?_, fun i r r' m m' hm hm' => (key i r r' m m' hm hm').2⟩
  have hl : ns.length = ns'.length := h.1.symm.trans h'.1
  refine List.ext_getElem? fun i => ?_
  rw [List.getElem?_map, List.getElem?_map]
  by_cases hi : i < ns.length
  · have hi' : i < ns'.length := hl ▸ hi
    rw [List.getElem?_eq_getElem hi, List.getElem?_eq_getElem hi']
    exact congrArg some (key i _ _ _ _ (List.getElem?_eq_getElem hi) (List.getElem?_eq_getElem hi')).1
  · rw [List.getElem?_eq_none (by omega), List.getElem?_eq_none (by omega)]

theorem shownChildren_eq (n : Node) : shownChildren n =
    if childKey n.data ≠ none then n.content.take 1
    else if (match n.data with | .blockgroup .. => true | _ => false) = true then n.content
    else if childrenKey n.data = none then [] else n.content := by
  unfold shownChildren
  cases n.data <;> rfl

theorem shownExtra_eq (n : Node) : shownExtra n = if (match n.data with | .toc _ => true | _ => false) = true then n.extra else [] := by
  unfold shownExtra
  cases n.data <;> rfl

theorem is_group {d : NodeData} (h : (match d with | .blockgroup .. => true | _ => false) = true) : ∃ id name, d = .blockgroup id name := by
  cases d <;> first | exact ⟨_, _, rfl⟩ | cases h

theorem is_toc {d : NodeData} (h : (match d with | .toc _ => true | _ => false) = true) : ∃ id, d = .toc id := by
  cases d <;> first | exact ⟨_, rfl⟩ | cases h

/-- What is shown of the node referred to. -/
theorem target_shown {e : VisitEnv} {k : Nat} {p : Place} {n : Node} {d : VData} {key : Str} {r : Option Nat} (h : visit e (k + 1) p n = .ok d)
    (hr : reference n.data = some (key, r)) : ∃ x, d.get? key = some x ∧ (target e.objs n = none → x = .obj []) ∧
      ∀ m, target e.objs n = some m → ∃ q, visit e k q m = .ok x := by
  obtain ⟨x, hx, hv⟩ := (shape e _ p n d h).reference key _ hr
  refine ⟨x, hx, ?_⟩
  unfold target
  rw [hr]
  cases r with
  | none => exact ⟨fun _ => by cases hv; rfl, fun m hm => by cases hm⟩
  | some id =>
    unfold visitRef at hv
    dsimp only at hv ⊢
    cases hf : e.objs.find? (fun m => m.data.id == id) with
    | none =>
      rw [hf] at hv
      exact ⟨fun _ => by cases hv; rfl, fun m hm => by cases hm⟩
    | some m =>
      rw [hf] at hv
      exact ⟨(fun h => by cases h), (fun m' hm => by cases hm; exact ⟨_, hv⟩)⟩

/-- C80: if two nodes have the same data, they are the same. -/
theorem C80_node {e e' : VisitEnv} (hc : e.addContext = true) (hc' : e'.addContext = true) : ∀ (k k' : Nat) (p p' : Place) (n n' : Node) (d : VData),
    visit e k p n = .ok d → visit e' k' p' n' = .ok d → SameNode e.objs e'.objs n n' := by
  intro k
  induction k with
  | zero => intro k' p p' n n' d h; cases h
  | succ k ih =>
    intro k' p p' n n' d h h'
    cases k' with
    | zero => cases h'
    | succ k' =>
      have hf := C54_fields _ _ _ _ _ h
      have hf' := C54_fields _ _ _ _ _ h'
      have com : ∀ kv ∈ common n, d.get? kv.1 = some kv.2 := fun kv hk => hf kv (List.mem_append_left _ hk)
      have com' : ∀ kv ∈ common n', d.get? kv.1 = some kv.2 := fun kv hk => hf' kv (List.mem_append_left _ hk)
      have hcom : common n = common n' := entries_eq rfl com com'
      unfold common at hcom
      simp only [List.cons.injEq, Prod.mk.injEq, true_and, VData.str.injEq, VData.list.injEq, VData.obj.injEq, and_true] at hcom
      obtain ⟨kind, a1, a2, a3, a4, a5⟩ := hcom
      have hk := kind_facts kind
      unfold kindFacts at hk
      simp only [Prod.mk.injEq] at hk
      obtain ⟨k1, k2, k3, k4, k5, k6, k7⟩ := hk
      have values : fields n.data = fields n'.data :=
        entries_eq k1 (fun kv hk => hf kv (List.mem_append_right _ hk)) (fun kv hk => hf' kv (List.mem_append_right _ hk))
      have args : n.args = n'.args := by
        have b1 := map_str_inj a1
        have b2 := map_kv_inj a2
        have b3 := map_str_inj a3
        have b4 := map_str_inj a4
        have b5 := opt_inj a5
        generalize n.args = x at *
        generalize n'.args = y at *
        cases x; cases y
        simp_all
      have place : n.ctx = n'.ctx := by
        have q := (C54_place _ _ _ _ _ h).1 hc
        rw [(C54_place _ _ _ _ _ h').1 hc'] at q
        exact (placeData_inj (Option.some.inj q)).symm
      obtain ⟨c1, c2, c3, c4⟩ := C54_children _ _ _ _ _ h
      obtain ⟨c1', c2', c3', c4'⟩ := C54_children _ _ _ _ _ h'
      obtain ⟨l1, l2⟩ := C54_labels _ _ _ _ _ h
      obtain ⟨l1', l2'⟩ := C54_labels _ _ _ _ _ h'
      have hch : (shownChildren n).length = (shownChildren n').length ∧
          ∀ (i : Nat) (m m' : Node), (shownChildren n)[i]? = some m → (shownChildren n')[i]? = some m' → SameNode e.objs e'.objs m m' := by
        rw [shownChildren_eq, shownChildren_eq, ← k2, ← k3, ← k6]
        cases hck : childKey n.data with
        | some key =>
          obtain ⟨x, x1, x2, x3⟩ := c3 key hck
          obtain ⟨y, y1, y2, y3⟩ := c3' key (k3 ▸ hck)
          rw [x1] at y1
          cases y1
          simp only [if_pos (show some key ≠ none by simp)]
          generalize n.content = cs at x2 x3
          generalize n'.content = cs' at y2 y3
          cases cs with
          | nil =>
            cases cs' with
            | nil => exact ⟨rfl, fun i m m' hm => by simp at hm⟩
            | cons c' cs' => exact absurd (x2 rfl) (visit_ne (y3 c' cs' rfl))
          | cons c cs =>
            cases cs' with
            | nil => exact absurd (y2 rfl) (visit_ne (x3 c cs rfl))
            | cons c' cs' =>
              refine ⟨by simp, fun i m m' hm hm' => ?_⟩
              cases i with
              | zero =>
                simp at hm hm'
                subst hm hm'
                exact ih _ _ _ _ _ _ (x3 _ _ rfl) (y3 _ _ rfl)
              | succ i => simp at hm
        | none =>
          simp only [if_neg (show ¬ ((none : Option Str) ≠ none) by simp)]
          by_cases hg : (match n.data with | .blockgroup .. => true | _ => false) = true
          · obtain ⟨id, nm, hid⟩ := is_group hg
            obtain ⟨id', nm', hid'⟩ := is_group (k6 ▸ hg)
            rw [if_pos hg, if_pos hg]
            obtain ⟨kvs, g1, g2⟩ := l2 id nm hid
            obtain ⟨kvs', g1', g2'⟩ := l2' id' nm' hid'
            rw [g1] at g1'
            cases g1'
            obtain ⟨e1, e2⟩ := eachEntry_pairs g2 g2'
            refine ⟨by simpa [positions] using congrArg List.length e1, fun i m m' hm hm' => ?_⟩
            have hm1 : (positions n.content)[i]? = some (match m.data with | .blockgroupItem _ pos => pos | _ => [], m) := by
              unfold positions
              rw [List.getElem?_map, hm]
              rfl
            have hm2 : (positions n'.content)[i]? = some (match m'.data with | .blockgroupItem _ pos => pos | _ => [], m') := by
              unfold positions
              rw [List.getElem?_map, hm']
              rfl
            obtain ⟨x, x1, x2⟩ := e2 i _ _ m m' hm1 hm2
            exact ih _ _ _ _ _ _ x1 x2
          · rw [if_neg hg, if_neg hg]
            cases hck2 : childrenKey n.data with
            | none => exact ⟨rfl, fun i m m' hm => by cases hm⟩
            | some key =>
              obtain ⟨xs, g1, g2⟩ := c1 key hck2
              obtain ⟨xs', g1', g2'⟩ := c1' key (k2 ▸ hck2)
              rw [g1] at g1'
              cases g1'
              obtain ⟨e1, e2⟩ := each_pairs g2 g2'
              rw [if_neg (by simp), if_neg (by simp)]
              refine ⟨e1, fun i m m' hm hm' => ?_⟩
              obtain ⟨x, x1, x2⟩ := e2 i m m' hm hm'
              exact ih _ _ _ _ _ _ x1 x2
      have hex : (shownExtra n).length = (shownExtra n').length ∧
          ∀ (i : Nat) (m m' : Node), (shownExtra n)[i]? = some m → (shownExtra n')[i]? = some m' → SameNode e.objs e'.objs m m' := by
        rw [shownExtra_eq, shownExtra_eq, ← k7]
        by_cases hg : (match n.data with | .toc _ => true | _ => false) = true
        · obtain ⟨id, hid⟩ := is_toc hg
          obtain ⟨id', hid'⟩ := is_toc (k7 ▸ hg)
          rw [if_pos hg, if_pos hg]
          obtain ⟨xs, g1, g2⟩ := c2 id hid
          obtain ⟨xs', g1', g2'⟩ := c2' id' hid'
          rw [g1] at g1'
          cases g1'
          obtain ⟨e1, e2⟩ := each_pairs g2 g2'
          refine ⟨e1, fun i m m' hm hm' => ?_⟩
          obtain ⟨x, x1, x2⟩ := e2 i m m' hm hm'
          exact ih _ _ _ _ _ _ x1 x2
        · rw [if_neg hg, if_neg hg]
          exact ⟨rfl, fun i m m' hm => by cases hm⟩
      have hla : (shownLabels n).map (·.1) = (shownLabels n').map (·.1) ∧
          ∀ (i : Nat) (r r' : Str) (m m' : Node), (shownLabels n)[i]? = some (r, m) → (shownLabels n')[i]? = some (r', m') → SameNode e.objs e'.objs m m' := by
        unfold shownLabels
        rw [← k4]
        cases hl : hasLabels n.data with
        | false => exact ⟨rfl, fun i r r' m m' hm => by cases hm⟩
        | true =>
          obtain ⟨kvs, g1, g2⟩ := l1 hl
          obtain ⟨kvs', g1', g2'⟩ := l1' (k4 ▸ hl)
          rw [g1] at g1'
          cases g1'
          obtain ⟨e1, e2⟩ := eachEntry_pairs g2 g2'
          refine ⟨e1, fun i r r' m m' hm hm' => ?_⟩
          obtain ⟨x, x1, x2⟩ := e2 i r r' m m' hm hm'
          exact ih _ _ _ _ _ _ x1 x2
      have hre : (target e.objs n).isSome = (target e'.objs n').isSome ∧
          ∀ m m' : Node, target e.objs n = some m → target e'.objs n' = some m' → SameNode e.objs e'.objs m m' := by
        cases hr : reference n.data with
        | none =>
          have hr' : reference n'.data = none := by
            rw [hr] at k5
            cases hx : reference n'.data with
            | none => rfl
            | some y => rw [hx] at k5; cases k5
          unfold target
          rw [hr, hr']
          exact ⟨rfl, fun m m' hm => by cases hm⟩
        | some kr =>
          obtain ⟨key, r⟩ := kr
          cases hr' : reference n'.data with
          | none => rw [hr, hr'] at k5; cases k5
          | some kr' =>
            obtain ⟨key', r'⟩ := kr'
            rw [hr, hr'] at k5
            cases k5
            obtain ⟨x, x1, x2, x3⟩ := target_shown h hr
            obtain ⟨y, y1, y2, y3⟩ := target_shown h' hr'
            rw [x1] at y1
            cases y1
            generalize target e.objs n = t at x2 x3 ⊢
            generalize target e'.objs n' = t' at y2 y3 ⊢
            cases t with
            | none =>
              cases t' with
              | none => exact ⟨rfl, fun m m' hm => by cases hm⟩
              | some m' =>
                obtain ⟨q, hq⟩ := y3 m' rfl
                exact absurd (x2 rfl) (visit_ne hq)
            | some m =>
              cases t' with
              | none =>
                obtain ⟨q, hq⟩ := x3 m rfl
                exact absurd (y2 rfl) (visit_ne hq)
              | some m' =>
                refine ⟨rfl, fun m1 m1' hm hm' => ?_⟩
                cases hm
                cases hm'
                obtain ⟨q, hq⟩ := x3 m rfl
                obtain ⟨q', hq'⟩ := y3 m' rfl
                exact ih _ _ _ _ _ _ hq hq'
      exact .intro kind values args place hch.1 hch.2 hex.1 hex.2 hla.1 hla.2 hre.1 hre.2

/-- C80: if the base visitor returns the same data for two documents, the documents are the same. -/
theorem C80_document {o o' : DocOutput} {parents parents' : Place → Option Node} {fuel fuel' : Nat} {d : VData} (h : visitDocument fuel o parents = .ok d)
    (h' : visitDocument fuel' o' parents' = .ok d) : SameDocument o o' := by
  unfold visitDocument at h h'
  unfold SameDocument
  cases ho : o.document with
  | none =>
    rw [ho] at h
    cases h
    cases ho' : o'.document with
    | none => exact .inl ⟨rfl, rfl⟩
    | some x' => rw [ho'] at h'; exact absurd rfl (visit_ne h')
  | some x =>
    rw [ho] at h
    cases ho' : o'.document with
    | none => rw [ho'] at h'; cases h'; exact absurd rfl (visit_ne h)
    | some x' =>
      rw [ho'] at h'
      exact .inr ⟨x, x', rfl, rfl, C80_node rfl rfl _ _ _ _ _ _ _ h h'⟩

/-- C80: if the YAML visitor returns the same text for two documents, the documents are the same (data with the same YAML text are the same, since the text can be
loaded). -/
theorem C80_yaml {dump : VData → Str} (hd : ∀ a b, dump a = dump b → a = b) {env env' : Env} {o o' : DocOutput} {parents parents' : Place → Option Node} {fuel fuel' : Nat}
    {text : Str} (h : yamlProcess dump parents fuel env o = .ok text) (h' : yamlProcess dump parents' fuel' env' o' = .ok text) : SameDocument o o' := by
  unfold yamlProcess at h h'
  obtain ⟨d, h1, h2⟩ := exc_bind_ok h
  obtain ⟨d', h1', h2'⟩ := exc_bind_ok h'
  have e : dump d = dump d' := (Except.ok.inj h2).trans (Except.ok.inj h2').symm
  have e := hd _ _ e
  subst e
  exact C80_document h1 h1'

/-- C80: if `Mau.process` with the YAML visitor returns the same text for two inputs, the parser has found the same document in both. -/
theorem C80_process {dump : VData → Str} (hd : ∀ a b, dump a = dump b → a = b) {cfg cfg' : Config} {fuel fuel' : Nat} {env env' : Env} {parents parents' : Place → Option Node}
    {depth depth' : Nat} {ext ext' input input' source source' text : Str}
    (h : (mauProcess cfg fuel env ⟨ext, yamlProcess dump parents depth⟩ input source).result = .ok text)
    (h' : (mauProcess cfg' fuel' env' ⟨ext', yamlProcess dump parents' depth'⟩ input' source').result = .ok text) :
    ∃ s s', parseDoc cfg fuel input env (some source) = .ok s ∧ parseDoc cfg' fuel' input' env' (some source') = .ok s' ∧ SameDocument s.output s'.output := by
  obtain ⟨⟨s, h1, h2⟩, _⟩ := C70_success h
  obtain ⟨⟨s', h1', h2'⟩, _⟩ := C70_success h'
  exact ⟨s, s', h1, h1', C80_yaml (env := s.env) (env' := s'.env) hd h2 h2'⟩

/-! ## Examples -/

/-- A number, in unary. -/
def unary (n : Nat) : Str := List.replicate n '1' ++ ['0']

/-- A text after its length. -/
def sized (s : Str) : Str := unary s.length ++ s

mutual
/-- A stand-in for YAML: every value after its kind and size. -/
def plainDump : VData → Str
  | .null => ['n']
  | .str s => 's' :: sized s
  | .int (.ofNat n) => 'i' :: unary n
  | .int (.negSucc n) => 'm' :: unary n
  | .bool true => ['t']
  | .bool false => ['f']
  | .list xs => 'l' :: dumpAll xs
  | .obj kvs => 'o' :: dumpEntries kvs
def dumpAll : List VData → Str
  | [] => ['.']
  | x :: xs => ',' :: (plainDump x ++ dumpAll xs)
def dumpEntries : List (Str × VData) → Str
  | [] => ['.']
  | (k, v) :: kvs => ',' :: (sized k ++ (plainDump v ++ dumpEntries kvs))
end

theorem unary_inj : ∀ {n m : Nat} {r r' : Str}, unary n ++ r = unary m ++ r' → n = m ∧ r = r'
  | 0, 0, r, r', h => ⟨rfl, by simpa [unary] using h⟩
  | 0, m + 1, r, r', h => by simp [unary, List.replicate_succ] at h
  | n + 1, 0, r, r', h => by simp [unary, List.replicate_succ] at h
  | n + 1, m + 1, r, r', h => by
    simp only [unary, List.replicate_succ, List.cons_append, List.cons.injEq, true_and] at h
    obtain ⟨e1, e2⟩ := unary_inj (n := n) (m := m) (by simpa [unary] using h)
    exact ⟨congrArg _ e1, e2⟩

theorem sized_inj {s s' r r' : Str} (h : sized s ++ r = sized s' ++ r') : s = s' ∧ r = r' := by
  unfold sized at h
  rw [List.append_assoc, List.append_assoc] at h
  obtain ⟨e1, e2⟩ := unary_inj h
  exact List.append_inj e2 e1

mutual
theorem plainDump_inj : ∀ (a b : VData) (r r' : Str), plainDump a ++ r = plainDump b ++ r' → a = b ∧ r = r'
  | .null, b, r, r', h => by
    rcases b with _ | s | (n | n) | (_ | _) | xs | kvs <;> simp [plainDump] at h ⊢
    exact h
  | .str s, b, r, r', h => by
    rcases b with _ | s' | (n | n) | (_ | _) | xs | kvs <;> simp [plainDump] at h ⊢
    exact sized_inj h
  | .int (.ofNat n), b, r, r', h => by
    rcases b with _ | s' | (m | m) | (_ | _) | xs | kvs <;> simp [plainDump] at h ⊢
    exact ⟨congrArg _ (unary_inj h).1, (unary_inj h).2⟩
  | .int (.negSucc n), b, r, r', h => by
    rcases b with _ | s' | (m | m) | (_ | _) | xs | kvs <;> simp [plainDump] at h ⊢
    exact unary_inj h
  | .bool true, b, r, r', h => by
    rcases b with _ | s' | (m | m) | (_ | _) | xs | kvs <;> simp [plainDump] at h ⊢
    exact h
  | .bool false, b, r, r', h => by
    rcases b with _ | s' | (m | m) | (_ | _) | xs | kvs <;> simp [plainDump] at h ⊢
    exact h
  | .list xs, b, r, r', h => by
    rcases b with _ | s' | (m | m) | (_ | _) | ys | kvs <;> simp [plainDump] at h ⊢
    exact dumpAll_inj xs ys r r' h
  | .obj kvs, b, r, r', h => by
    rcases b with _ | s' | (m | m) | (_ | _) | ys | kvs' <;> simp [plainDump] at h ⊢
    exact dumpEntries_inj kvs kvs' r r' h
theorem dumpAll_inj : ∀ (a b : List VData) (r r' : Str), dumpAll a ++ r = dumpAll b ++ r' → a = b ∧ r = r'
  | [], [], r, r', h => by simpa [dumpAll] using h
  | [], y :: b, r, r', h => by simp [dumpAll] at h
  | x :: a, [], r, r', h => by simp [dumpAll] at h
  | x :: a, y :: b, r, r', h => by
    simp only [dumpAll, List.cons_append, List.cons.injEq, true_and, List.append_assoc] at h
    obtain ⟨e1, e2⟩ := plainDump_inj x y _ _ h
    obtain ⟨e3, e4⟩ := dumpAll_inj a b _ _ e2
    exact ⟨by rw [e1, e3], e4⟩
theorem dumpEntries_inj : ∀ (a b : List (Str × VData)) (r r' : Str), dumpEntries a ++ r = dumpEntries b ++ r' → a = b ∧ r = r'
  | [], [], r, r', h => by simpa [dumpEntries] using h
  | [], (_, _) :: b, r, r', h => by simp [dumpEntries] at h
  | (_, _) :: a, [], r, r', h => by simp [dumpEntries] at h
  | (k, x) :: a, (k', y) :: b, r, r', h => by
    simp only [dumpEntries, List.cons_append, List.cons.injEq, true_and, List.append_assoc] at h
    obtain ⟨e0, h⟩ := sized_inj h
    obtain ⟨e1, e2⟩ := plainDump_inj x y _ _ h
    obtain ⟨e3, e4⟩ := dumpEntries_inj a b _ _ e2
    exact ⟨by rw [e0, e1, e3], e4⟩
end

/-- There are ways to write data so that they can be read back. -/
theorem plainDump_faithful : ∀ a b, plainDump a = plainDump b → a = b := by
  intro a b h
  exact (plainDump_inj a b [] [] (by rw [h])).1

/-- Two texts with the same output, and one with another output. -/
example :
    let out := fun text => (mauProcess {} 20 [] ⟨c%"yaml", yamlProcess plainDump (fun _ => none) 20⟩ text c%"a.mau").result.toOption
    (out c%"= One\n\n* _a_ [b](c)\n").isSome = true ∧ out c%"= One\n\n* _a_ [b](c)\n" = out c%"= One\n// more\n* _a_ [b](c)\n" ∧
      out c%"= One\n\n* _a_ [b](c)\n" ≠ out c%"= One\n\n# _a_ [b](c)\n" := by
  refine ⟨by decide +kernel, by decide +kernel, by decide +kernel⟩

end Mau
