import Verif.Lemmas.Templates

set_option linter.unusedSimpArgs false

/-!
# C52, C53: templates
-/

namespace Mau
open Spec

/-! ## C52 -/

theorem head_eq_find {α} (P : α → Bool) (l : List α) : (l.filter P).head? = l.find? P := by
  induction l with
  | nil => rfl
  | cons a l ih =>
    rw [List.filter_cons, List.find?_cons]
    cases P a <;> simp [ih]

/-- The candidates for a prefix. -/
theorem candidates_head (defs : List Template) (n : NodeFacts) (parent : Option NodeFacts)
    (q : Option Str) (t : Template) :
    ((((sortTemplates defs).filter fun t => t.type == n.type).filter
      fun t => t.matches n parent q).head? = some t) ↔
    Top (fun t => t.type == n.type && t.matches n parent q) defs t := by
  rw [List.filter_filter, head_eq_find, ← find_sort]
  simp only [Bool.and_comm]

theorem candidates_nil (defs : List Template) (n : NodeFacts) (parent : Option NodeFacts)
    (q : Option Str) :
    (((sortTemplates defs).filter fun t => t.type == n.type).filter
      fun t => t.matches n parent q) = [] ↔
    ∀ u ∈ defs, FitsNode u n parent → u.pref ≠ q := by
  rw [List.filter_filter, List.filter_eq_nil_iff]
  constructor
  · intro h u hu hf hq
    refine h u (mem_sortTemplates.2 hu) ?_
    have := (considered_iff u n parent q).2 ⟨hf, hq⟩
    rwa [Bool.and_comm] at this
  · intro h u hu hc
    rw [Bool.and_comm] at hc
    obtain ⟨hf, hq⟩ := (considered_iff u n parent q).1 hc
    exact h u (mem_sortTemplates.1 hu) hf hq

theorem findTemplate_ok (sorted : List Template) (prefixes : List Str) (n : NodeFacts)
    (parent : Option NodeFacts) (t : Template) :
    findTemplate sorted prefixes n parent = some t ↔
      ((prefixes.map some ++ [none]).flatMap fun q =>
        (sorted.filter fun t : Template => t.type == n.type).filter fun t : Template => t.matches n parent q).head? = some t := by
  unfold findTemplate
  dsimp only
  rw [List.flatMap_append, List.flatMap_map]
  simp only [List.flatMap_cons, List.flatMap_nil, List.append_nil]

theorem findTemplate_none (sorted : List Template) (prefixes : List Str) (n : NodeFacts)
    (parent : Option NodeFacts) :
    findTemplate sorted prefixes n parent = none ↔
      ((prefixes.map some ++ [none]).flatMap fun q =>
        (sorted.filter fun t : Template => t.type == n.type).filter fun t : Template => t.matches n parent q) = [] := by
  unfold findTemplate
  dsimp only
  rw [List.flatMap_append, List.flatMap_map]
  simp only [List.flatMap_cons, List.flatMap_nil, List.append_nil]
  generalize List.flatMap _ prefixes ++ _ = l
  cases l <;> simp

/-- C52: the template selected for a node is the best one: it fits the node, it belongs to the first
configured prefix (no prefix comes last) under which a template fits, and among those it is
the first one of the most specific ones. -/
theorem C52_best (defs : List Template) (prefixes : List Str) (n : NodeFacts) (parent : Option NodeFacts)
    (t : Template) :
    findTemplate (sortTemplates defs) prefixes n parent = some t ↔ Best defs prefixes n parent t := by
  rw [findTemplate_ok, head_flatMap]
  constructor
  · rintro ⟨before, q, after, heq, hb, hh⟩
    obtain ⟨hc, earlier, later, hd, h1, h2⟩ := (candidates_head _ _ _ _ _).1 hh
    obtain ⟨hf, rfl⟩ := (considered_iff _ _ _ _).1 hc
    refine ⟨hf, ⟨before, after, heq, ?_⟩, earlier, later, hd, ?_, ?_⟩
    · intro u hu hfu hmem
      exact (candidates_nil _ _ _ _).1 (hb _ hmem) u hu hfu rfl
    · intro u hu hfu hp
      exact h1 u hu ((considered_iff _ _ _ _).2 ⟨hfu, hp⟩)
    · intro u hu hfu hp
      exact h2 u hu ((considered_iff _ _ _ _).2 ⟨hfu, hp⟩)
  · rintro ⟨hf, ⟨before, after, heq, hb⟩, earlier, later, hd, h1, h2⟩
    refine ⟨before, t.pref, after, heq, ?_, ?_⟩
    · intro q hq
      refine (candidates_nil _ _ _ _).2 ?_
      rintro u hu hfu rfl
      exact hb u hu hfu hq
    · refine (candidates_head _ _ _ _ _).2
        ⟨(considered_iff _ _ _ _).2 ⟨hf, rfl⟩, earlier, later, hd, ?_, ?_⟩
      · intro u hu hcu
        obtain ⟨hfu, hp⟩ := (considered_iff _ _ _ _).1 hcu
        exact h1 u hu hfu hp
      · intro u hu hcu
        obtain ⟨hfu, hp⟩ := (considered_iff _ _ _ _).1 hcu
        exact h2 u hu hfu hp

theorem typeName_class (d : NodeData) : d.typeName = className d := by cases d <;> rfl

theorem field_iff {d : NodeData} {k v : Str} : Dict.get? d.customFields k = some v ↔ Field d k v := by
  constructor
  · intro h
    have one : ∀ {a b : Str}, Dict.get? [(a, b)] k = some v → k = a ∧ v = b := by
      intro a b h
      unfold Dict.get? at h
      split at h
      · rename_i e; cases h; exact ⟨e.symm, rfl⟩
      · cases h
    cases d <;> first | cases h | (obtain ⟨rfl, rfl⟩ := one h; constructor)
  · intro h
    cases h <;> rfl

/-- C52: the facts templates are compared with are those of the node and its parent. -/
theorem C52_fits (t : Template) (n : Node) (parent : Option Node) : FitsNode t n.facts (parent.map Node.facts) ↔ Fits t n parent := by
  have hp : (parent.map Node.facts).map (·.type) = parent.map (className ·.data) := by
    cases parent <;> simp [Node.facts, typeName_class]
  have hq : (parent.map Node.facts).bind (·.subtype) = parent.bind (·.args.subtype) := by
    cases parent <;> simp [Node.facts]
  constructor
  · rintro ⟨h1, h2, h3, h4, h5, h6, h7⟩
    refine ⟨h1.trans (typeName_class _), h2, h3, fun kv hk => field_iff.1 (h4 kv hk), hp ▸ h5, hq ▸ h6, fun kv hk => ?_⟩
    obtain ⟨p, e, hf⟩ := h7 kv hk
    cases parent with
    | none => cases e
    | some q => cases e; exact ⟨q, rfl, field_iff.1 hf⟩
  · rintro ⟨h1, h2, h3, h4, h5, h6, h7⟩
    refine ⟨h1.trans (typeName_class _).symm, h2, h3, fun kv hk => field_iff.2 (h4 kv hk), hp ▸ h5, hq ▸ h6, fun kv hk => ?_⟩
    obtain ⟨p, e, hf⟩ := h7 kv hk
    subst e
    exact ⟨p.facts, rfl, field_iff.2 hf⟩

/-- C52: the selection fails exactly if no template fits under a configured prefix or
without prefix. -/
theorem C52_none (defs : List Template) (prefixes : List Str) (n : NodeFacts) (parent : Option NodeFacts) :
    findTemplate (sortTemplates defs) prefixes n parent = none ↔
      ∀ u ∈ defs, FitsNode u n parent → ∃ p, u.pref = some p ∧ p ∉ prefixes := by
  rw [findTemplate_none, List.flatMap_eq_nil_iff]
  constructor
  · intro h u hu hf
    cases hp : u.pref with
    | none =>
      exact absurd hp ((candidates_nil _ _ _ _).1 (h none (by simp)) u hu hf)
    | some p =>
      refine ⟨p, rfl, fun hmem => ?_⟩
      exact (candidates_nil _ _ _ _).1 (h (some p) (by simp [hmem])) u hu hf hp
  · intro h q hq
    refine (candidates_nil _ _ _ _).2 ?_
    rintro u hu hf rfl
    obtain ⟨p, hp, hn⟩ := h u hu hf
    rw [hp] at hq
    simp at hq
    exact hn hq

/-- Three templates for blocks: the one for the subtype is preferred to the one for the tag, and a
configured prefix is preferred to both. -/
example :
    let t (n : Str) := (Template.fromName n []).toOption
    let defs := [t c%"block", t c%"block.tg_a", t c%"block.x", t c%"block.pf_fancy"].filterMap id
    let n : NodeFacts := { type := c%"block", subtype := some c%"x", tags := [c%"a"], custom := [] }
    ((findTemplate (sortTemplates defs) [] n none).map (·.name)) = some c%"block.x" ∧
    ((findTemplate (sortTemplates defs) [c%"none", c%"fancy"] n none).map (·.name))
      = some c%"block.pf_fancy" := by decide

/-! ## C53 -/

theorem removePrefix_append (p s : Str) : removePrefix? p (p ++ s) = some s := by
  have : startsWith (p ++ s) p = true := by
    unfold startsWith; exact List.isPrefixOf_iff_prefix.2 ⟨s, rfl⟩
  simp [removePrefix?, this]

theorem removePrefix_none {p s : Str} (h : ∀ r, s ≠ p ++ r) : removePrefix? p s = none := by
  have : startsWith s p = false := by
    cases hc : startsWith s p with
    | false => rfl
    | true =>
      obtain ⟨r, hr⟩ := List.isPrefixOf_iff_prefix.1 hc
      exact absurd hr.symm (h r)
  simp [removePrefix?, this]

theorem not_reserved_append {k v : Str} (h : ¬ Reserved (k ++ c%"__")) : ¬ Reserved (k ++ c%"__" ++ v) := by
  rintro ⟨r, hr⟩
  have key : ∀ p : Str, k ++ c%"__" ++ v = p ++ r → (∃ r', k ++ c%"__" = p ++ r') ∨ DoubleUnderscore p := by
    intro p hp
    rcases List.append_eq_append_iff.1 hp with ⟨a, h1, h2⟩ | ⟨a, h1, h2⟩
    · exact .inr ⟨k, a, h1⟩
    · exact .inl ⟨a, h1⟩
  have no : ∀ p : Str, p = c%"pf_" ∨ p = c%"pt_" ∨ p = c%"pts_" ∨ p = c%"tg_" → ¬ DoubleUnderscore p := by
    rintro p hp ⟨a, b, hab⟩
    have : splitStr c%"__" p = [p] := by rcases hp with rfl | rfl | rfl | rfl <;> decide
    have hlen : a.length + b.length + 2 = p.length := by rw [hab]; simp; omega
    have hp4 : p.length ≤ 4 := by rcases hp with rfl | rfl | rfl | rfl <;> decide
    rcases a with _ | ⟨a1, _ | ⟨a2, _ | ⟨a3, a⟩⟩⟩
    · rcases hp with rfl | rfl | rfl | rfl <;> simp at hab
    · rcases hp with rfl | rfl | rfl | rfl <;> simp at hab
    · rcases hp with rfl | rfl | rfl | rfl <;> simp at hab
    · simp at hlen; omega
  refine h ?_
  rcases hr with hr | hr | hr | hr
  · rcases key _ hr with ⟨r', h'⟩ | h'
    · exact ⟨r', .inl h'⟩
    · exact absurd h' (no _ (.inl rfl))
  · rcases key _ hr with ⟨r', h'⟩ | h'
    · exact ⟨r', .inr (.inl h')⟩
    · exact absurd h' (no _ (.inr (.inl rfl)))
  · rcases key _ hr with ⟨r', h'⟩ | h'
    · exact ⟨r', .inr (.inr (.inl h'))⟩
    · exact absurd h' (no _ (.inr (.inr (.inl rfl))))
  · rcases key _ hr with ⟨r', h'⟩ | h'
    · exact ⟨r', .inr (.inr (.inr h'))⟩
    · exact absurd h' (no _ (.inr (.inr (.inr rfl))))

/-- What a claim does to a template. -/
def addClaim (t : Template) : Claim → Template
  | .subtype s => { t with subtype := some s }
  | .pref s => { t with pref := some s }
  | .parentType s => { t with parentType := some s }
  | .parentSubtype s => { t with parentSubtype := some s }
  | .tag s => { t with tags := t.tags ++ [s] }
  | .custom k v => { t with custom := t.custom.set k v }
  | .parentCustom k v => { t with parentCustom := t.parentCustom.set k v }

theorem addPart_plain {t : Template} {s : Str} (h : ¬ Reserved s) :
    t.addPart s = match splitStr c%"__" s with
      | [key, value] => { t with custom := t.custom.set key value }
      | _ => { t with subtype := some s } := by
  unfold Template.addPart
  rw [removePrefix_none (fun r hr => h ⟨r, .inr (.inl hr)⟩)]
  dsimp only
  rw [removePrefix_none (fun r hr => h ⟨r, .inr (.inr (.inl hr))⟩)]
  dsimp only
  rw [removePrefix_none (fun r hr => h ⟨r, .inl hr⟩)]
  dsimp only
  rw [removePrefix_none (fun r hr => h ⟨r, .inr (.inr (.inr hr))⟩)]
  dsimp only
  rcases splitStr c%"__" s with _ | ⟨a, _ | ⟨b, _ | ⟨c, d⟩⟩⟩ <;> rfl

theorem addPart_parent (t : Template) (s : Str) :
    t.addPart (c%"pts_" ++ s) = match splitStr c%"__" s with
      | [key, value] => { t with parentCustom := t.parentCustom.set key value }
      | _ => { t with parentSubtype := some s } := by
  unfold Template.addPart
  rw [removePrefix_none (p := c%"pt_") (by intro r hr; simp at hr)]
  dsimp only
  rw [removePrefix_append]
  dsimp only
  rcases splitStr c%"__" s with _ | ⟨a, _ | ⟨b, _ | ⟨c, d⟩⟩⟩ <;> rfl

theorem addPart_text (t : Template) (c : Claim) (h : c.Writable) : t.addPart c.text = addClaim t c := by
  obtain ⟨_, h⟩ := h
  cases c with
  | subtype s =>
    dsimp only at h
    show t.addPart s = _
    rw [addPart_plain h.2, splitStr_none h.1]; rfl
  | pref s =>
    show t.addPart (c%"pf_" ++ s) = _
    unfold Template.addPart
    rw [removePrefix_none (p := c%"pt_") (by intro r hr; simp at hr)]
    dsimp only
    rw [removePrefix_none (p := c%"pts_") (by intro r hr; simp at hr)]
    dsimp only
    rw [removePrefix_append]; rfl
  | parentType s =>
    show t.addPart (c%"pt_" ++ s) = _
    unfold Template.addPart
    rw [removePrefix_append]; rfl
  | parentSubtype s =>
    dsimp only at h
    show t.addPart (c%"pts_" ++ s) = _
    rw [addPart_parent, splitStr_none h]; rfl
  | tag s =>
    show t.addPart (c%"tg_" ++ s) = _
    unfold Template.addPart
    rw [removePrefix_none (p := c%"pt_") (by intro r hr; simp at hr)]
    dsimp only
    rw [removePrefix_none (p := c%"pts_") (by intro r hr; simp at hr)]
    dsimp only
    rw [removePrefix_none (p := c%"pf_") (by intro r hr; simp at hr)]
    dsimp only
    rw [removePrefix_append]; rfl
  | custom k v =>
    dsimp only at h
    show t.addPart (k ++ c%"__" ++ v) = _
    rw [addPart_plain (not_reserved_append h.2.2), splitStr_two h.1 h.2.1]; rfl
  | parentCustom k v =>
    dsimp only at h
    show t.addPart (c%"pts_" ++ k ++ c%"__" ++ v) = _
    rw [List.append_assoc, List.append_assoc, addPart_parent, ← List.append_assoc, splitStr_two h.1 h.2]; rfl

theorem foldl_addPart (claims : List Claim) (h : ∀ c ∈ claims, c.Writable) (t : Template) :
    (claims.map Claim.text).foldl Template.addPart t = claims.foldl addClaim t := by
  induction claims generalizing t with
  | nil => rfl
  | cons c cs ih =>
    rw [List.map_cons, List.foldl_cons, List.foldl_cons, addPart_text t c (h c (by simp))]
    exact ih (fun d hd => h d (by simp [hd])) _

theorem fromName_eq (type content : Str) (claims : List Claim) (ht : type ≠ []) (htd : '.' ∉ type)
    (h : ∀ c ∈ claims, c.Writable) :
    Template.fromName (templateName type claims) content =
      .ok (claims.foldl addClaim { type, content, name := templateName type claims }) := by
  unfold Template.fromName
  have : splitChar '.' (templateName type claims) = type :: claims.map Claim.text := by
    unfold templateName
    refine split_join (by simp) ?_
    intro l hl
    rcases List.mem_cons.1 hl with rfl | hl'
    · exact htd
    · obtain ⟨c, hc, rfl⟩ := List.mem_map.1 hl'
      exact (h c hc).1
  rw [this]
  dsimp only
  have : type.isEmpty = false := by cases type <;> simp at ht ⊢
  rw [this]
  simp only [Bool.false_eq_true, if_false]
  rw [foldl_addPart claims h]

theorem says_addClaim (t : Template) (c d : Claim) :
    Says (addClaim t c) d ↔ c = d ∨ (¬ Contradict c d ∧ Says t d) := by
  cases c <;> cases d <;>
    simp only [Says, addClaim, Contradict, Dict.get?_set, Option.some.injEq, Claim.subtype.injEq,
      Claim.pref.injEq, Claim.parentType.injEq, Claim.parentSubtype.injEq, Claim.tag.injEq,
      Claim.custom.injEq, Claim.parentCustom.injEq, reduceCtorEq, false_or, not_false_eq_true, true_and,
      ne_eq, Decidable.not_not, List.mem_append, List.mem_cons, List.not_mem_nil, or_false]
  case subtype.subtype a b => 
    by_cases h : a = b <;> simp [h]
  case pref.pref a b => by_cases h : a = b <;> simp [h]
  case parentType.parentType a b => by_cases h : a = b <;> simp [h]
  case parentSubtype.parentSubtype a b => by_cases h : a = b <;> simp [h]
  case tag.tag a b => 
    constructor
    · rintro (h | h)
      · exact .inr h
      · exact .inl h.symm
    · rintro (h | h)
      · exact .inr h.symm
      · exact .inl h
  case custom.custom k a l b =>
    by_cases h : k = l
    · by_cases h2 : a = b <;> simp [h, h2]
    · simp [h]
  case parentCustom.parentCustom k a l b =>
    by_cases h : k = l
    · by_cases h2 : a = b <;> simp [h, h2]
    · simp [h]

theorem says_foldl (claims : List Claim) (hc : ∀ c ∈ claims, ∀ d ∈ claims, ¬ Contradict c d)
    (t : Template) (d : Claim) :
    Says (claims.foldl addClaim t) d ↔
      d ∈ claims ∨ ((∀ c ∈ claims, ¬ Contradict c d) ∧ Says t d) := by
  induction claims generalizing t with
  | nil => simp
  | cons c cs ih =>
    rw [List.foldl_cons, ih (fun x hx y hy => hc x (by simp [hx]) y (by simp [hy])), says_addClaim]
    constructor
    · rintro (h | ⟨h1, rfl | ⟨h2, h3⟩⟩)
      · exact .inl (by simp [h])
      · exact .inl (by simp)
      · refine .inr ⟨?_, h3⟩
        intro x hx
        rcases List.mem_cons.1 hx with rfl | hx'
        · exact h2
        · exact h1 x hx'
    · rintro (h | ⟨h1, h2⟩)
      · rcases List.mem_cons.1 h with rfl | h'
        · exact .inr ⟨fun x hx => hc x (by simp [hx]) d (by simp), .inl rfl⟩
        · exact .inl h'
      · exact .inr ⟨fun x hx => h1 x (by simp [hx]), .inr ⟨h1 c (by simp), h2⟩⟩

theorem foldl_fixed (claims : List Claim) (t : Template) :
    (claims.foldl addClaim t).type = t.type ∧ (claims.foldl addClaim t).content = t.content ∧
      (claims.foldl addClaim t).name = t.name := by
  induction claims generalizing t with
  | nil => exact ⟨rfl, rfl, rfl⟩
  | cons c cs ih =>
    obtain ⟨h1, h2, h3⟩ := ih (addClaim t c)
    rw [List.foldl_cons, h1, h2, h3]
    cases c <;> exact ⟨rfl, rfl, rfl⟩

/-- C53: parsing the name built from a type and claims that do not contradict each other, written in any
order, gives a template of this type that has exactly these claims. -/
theorem C53_claims (type content : Str) (claims : List Claim) (ht : type ≠ []) (htd : '.' ∉ type)
    (hw : ∀ c ∈ claims, c.Writable) (hc : ∀ c ∈ claims, ∀ d ∈ claims, ¬ Contradict c d) :
    ∃ t, Template.fromName (templateName type claims) content = .ok t ∧
      t.type = type ∧ t.content = content ∧ t.name = templateName type claims ∧
      ∀ d, Says t d ↔ d ∈ claims := by
  refine ⟨_, fromName_eq type content claims ht htd hw, ?_⟩
  obtain ⟨h1, h2, h3⟩ := foldl_fixed claims { type, content, name := templateName type claims }
  refine ⟨h1, h2, h3, fun d => ?_⟩
  rw [says_foldl claims hc]
  constructor
  · rintro (h | ⟨_, h⟩)
    · exact h
    · cases d <;> simp [Says, Dict.get?] at h
  · exact .inl

/-- C53: a name without a type is rejected. -/
theorem C53_no_type (name content : Str) (h : name = [] ∨ ∃ r, name = '.' :: r) :
    Template.fromName name content = .error (.py .valueError) := by
  rcases h with rfl | ⟨r, rfl⟩
  · rfl
  · simp [Template.fromName, splitChar]

theorem double_iff (s : Str) : DoubleUnderscore s ↔
    ((List.range s.length).any fun i => c%"__".isPrefixOf (s.drop i)) = true := by
  rw [List.any_eq_true]
  constructor
  · rintro ⟨a, b, rfl⟩
    exact ⟨a.length, by simp, List.isPrefixOf_iff_prefix.2 ⟨b, by simp⟩⟩
  · rintro ⟨i, hi, hp⟩
    obtain ⟨b, hb⟩ := List.isPrefixOf_iff_prefix.1 hp
    exact ⟨s.take i, b, by rw [List.append_assoc, hb, List.take_append_drop]⟩

instance (s : Str) : Decidable (DoubleUnderscore s) := decidable_of_iff _ (double_iff s).symm

instance (s : Str) : Decidable (Reserved s) :=
  decidable_of_iff (c%"pf_" <+: s ∨ c%"pt_" <+: s ∨ c%"pts_" <+: s ∨ c%"tg_" <+: s) (by
    unfold Reserved
    constructor
    · rintro (⟨r, h⟩ | ⟨r, h⟩ | ⟨r, h⟩ | ⟨r, h⟩)
      · exact ⟨r, .inl h.symm⟩
      · exact ⟨r, .inr (.inl h.symm)⟩
      · exact ⟨r, .inr (.inr (.inl h.symm))⟩
      · exact ⟨r, .inr (.inr (.inr h.symm))⟩
    · rintro ⟨r, h | h | h | h⟩
      · exact .inl ⟨r, h.symm⟩
      · exact .inr (.inl ⟨r, h.symm⟩)
      · exact .inr (.inr (.inl ⟨r, h.symm⟩))
      · exact .inr (.inr (.inr ⟨r, h.symm⟩)))

instance (c : Claim) : Decidable c.Writable := by
  unfold Claim.Writable
  cases c <;> dsimp only <;> infer_instance

/-- Claims of all kinds in one name, not in the order of the documentation. -/
def exampleClaims : List Claim :=
  [.tag c%"a", .custom c%"role" c%"title", .pref c%"fancy", .subtype c%"x_y",
   .parentCustom c%"style" c%"bold", .parentType c%"block", .parentSubtype c%"z", .tag c%"b"]

example : (∀ c ∈ exampleClaims, c.Writable) ∧
    templateName c%"label" exampleClaims =
      c%"label.tg_a.role__title.pf_fancy.x_y.pts_style__bold.pt_block.pts_z.tg_b" := by
  decide +kernel

example : (Template.fromName (templateName c%"label" exampleClaims) []).toOption.map (fun t =>
      (t.type, t.tags, t.custom, t.pref, t.subtype, t.parentCustom, t.parentType, t.parentSubtype)) =
      some (c%"label", [c%"a", c%"b"], [(c%"role", c%"title")], some c%"fancy", some c%"x_y",
        [(c%"style", c%"bold")], some c%"block", some c%"z") := by
  rfl

end Mau
