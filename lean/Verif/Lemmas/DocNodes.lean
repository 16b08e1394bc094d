import Verif.Lemmas.DocProps

set_option linter.unusedSimpArgs false

/-!
# Constructs and nodes: supporting lemmas for C37 and C38
-/

namespace Mau
open Spec

/-! ## Remaining arguments -/

namespace Spec.LeftOf

theorem refl (k : Kind) (a : NodeArgs) : LeftOf k a a := ⟨rfl, rfl, rfl, fun _ _ _ => rfl, ⟨0, rfl⟩, fun h => h⟩

theorem trans {k : Kind} {a b c : NodeArgs} (h1 : LeftOf k a b) (h2 : LeftOf k b c) : LeftOf k a c := by
  refine ⟨h2.tags.trans h1.tags, h2.internalTags.trans h1.internalTags, h2.subtype.trans h1.subtype,
    fun key hk hc => (h2.named key hk hc).trans (h1.named key hk hc), ?_, fun h => h2.none (h1.none h)⟩
  obtain ⟨m, hm⟩ := h1.unnamed
  obtain ⟨n, hn⟩ := h2.unnamed
  exact ⟨m + n, by rw [hn, hm, List.drop_drop]⟩

theorem erase {k : Kind} {a : NodeArgs} {key : Str} (h : key ∈ k.uses) : LeftOf k a { a with named := Dict.erase a.named key } := by
  refine ⟨rfl, rfl, rfl, fun key' hk _ => ?_, ⟨0, rfl⟩, fun h => by rw [h]; rfl⟩
  rw [Dict.get?_erase]
  rw [if_neg (fun e => hk (by rw [← e]; exact h))]

theorem setNames {k : Kind} {a : NodeArgs} {names : List Str} (hn : names.Nodup) (h : ∀ n ∈ names, n ∈ k.uses) : LeftOf k a (a.setNames names) := by
  obtain ⟨h1, h2, h3, h4⟩ := C26_set_names a.unnamed a.named names hn
  refine ⟨rfl, rfl, rfl, fun key hk _ => ?_, ⟨_, h4⟩, fun h => ?_⟩
  rotate_left
  · rw [h]; simp [NodeArgs.setNames, Mau.setNames, Dict.update]
  change Dict.get? (Mau.setNames a.unnamed a.named names).2 key = _
  cases hv : Dict.get? a.named key with
  | some v => exact h1 key v hv
  | none =>
    cases hw : Dict.get? (Mau.setNames a.unnamed a.named names).2 key with
    | none => rfl
    | some w =>
      exfalso
      rcases h3 key w hw with e | ⟨i, e, _⟩
      · rw [hv] at e; cases e
      · have := List.mem_of_getElem? e
        exact hk (h key (List.mem_filter.1 this).1)

theorem get?_filter_key {α : Type} (d : Dict α) (p : Str → Bool) (k : Str) (h : p k = true) :
    Dict.get? (d.filter fun kv => p kv.1) k = Dict.get? d k := by
  induction d with
  | nil => rfl
  | cons kv d ih =>
    obtain ⟨a, b⟩ := kv
    rw [List.filter_cons]
    by_cases ha : a = k
    · subst ha
      simp only [h, ↓reduceIte, Dict.get?]
    · split
      · simp only [Dict.get?, ha, ↓reduceIte, ih]
      · simp only [Dict.get?, ha, ↓reduceIte, ih]

theorem call {a : NodeArgs} : LeftOf .incl a (callArguments a).2 := by
  refine ⟨rfl, rfl, rfl, fun key hk hc => ?_, ⟨0, rfl⟩, fun h => by rw [h]; rfl⟩
  refine get?_filter_key a.named (fun k => !startsWith k callPrefix) key ?_
  have : ¬ callPrefix <+: key := fun h => hc ⟨rfl, h⟩
  simp only [startsWith, Bool.not_eq_eq_eq_not, Bool.not_true]
  cases hb : callPrefix.isPrefixOf key with
  | false => rfl
  | true => exact absurd (List.isPrefixOf_iff_prefix.1 hb) this

end Spec.LeftOf

/-! ## The outcome of a construct -/

/-- What a construct does to the nodes and the pending things. -/
structure Outcome (s : DocSt) (k : Kind) (a : NodeArgs) (s1 : DocSt) : Prop where
  args : s1.argsBuf = none
  labels : s1.labelBuf = []
  node : ¬ Diverted k a → ∃ keep, Spec.allowed { s with env := s1.env } = .ok keep ∧ s1.controlBuf = none ∧
    (keep = false → s1.nodes = s.nodes) ∧
    (keep = true → ∃ n, s1.nodes = s.nodes ++ [n] ∧ n.labels = s.labelBuf ∧ LeftOf k a n.args)
  diverted : Diverted k a → s1.nodes = s.nodes ∧ s1.controlBuf = s.controlBuf
  env : k ≠ .block → s1.env = s.env

theorem put_env (s : DocSt) (keep : Bool) (n : Node) : (put s keep n).env = s.env := by unfold put used; split <;> rfl
theorem put_nodes (s : DocSt) (keep : Bool) (n : Node) : (put s keep n).nodes = s.nodes ++ (if keep then [n] else []) := by
  unfold put used; split <;> simp
theorem put_args (s : DocSt) (keep : Bool) (n : Node) : (put s keep n).argsBuf = none := by unfold put used; split <;> rfl
theorem put_labels (s : DocSt) (keep : Bool) (n : Node) : (put s keep n).labelBuf = [] := by unfold put used; split <;> rfl
theorem put_control (s : DocSt) (keep : Bool) (n : Node) : (put s keep n).controlBuf = none := by unfold put used; split <;> rfl

theorem allowed_env {s s1 : DocSt} (h1 : s1.controlBuf = s.controlBuf) : Spec.allowed { s with env := s1.env } = Spec.allowed s1 := by
  unfold Spec.allowed; rw [h1]

theorem Outcome.of_put {s s1 : DocSt} {k : Kind} {a : NodeArgs} {keep : Bool} {n : Node} (h : Spec.allowed s1 = .ok keep)
    (hn : s1.nodes = s.nodes) (hc : s1.controlBuf = s.controlBuf) (hl : n.labels = s.labelBuf) (ha : LeftOf k a n.args) (hd : ¬ Diverted k a)
    (he : k ≠ .block → s1.env = s.env) : Outcome s k a (put s1 keep n) := by
  refine ⟨put_args _ _ _, put_labels _ _ _, fun _ => ⟨keep, ?_, put_control _ _ _, ?_, ?_⟩, fun h => absurd h hd, fun h => by rw [put_env]; exact he h⟩
  · rw [put_env, allowed_env hc, h]
  · intro e; rw [put_nodes, hn, e]; simp
  · intro e; exact ⟨n, by rw [put_nodes, hn, e]; rfl, hl, ha⟩

theorem not_diverted {k : Kind} {a : NodeArgs} (h : k ≠ .block) : ¬ Diverted k a := fun h' => h h'.1

theorem items_only {P : Parser} : ∀ {ls : List ListLine} {s s' : DocSt} {es : List Entry}, P.items s ls = .ok (es, s') → OnlyMentions s s' := by
  intro ls
  induction ls with
  | nil => intro s s' es h; cases h; exact OnlyMentions.refl _
  | cons l ls ih =>
    intro s s' es h
    obtain ⟨r, h1, h2⟩ := bind_ok_except h
    obtain ⟨rs, h3, h4⟩ := bind_ok_except h2
    cases h4
    obtain ⟨q, h5, h6⟩ := bind_ok_except h1
    have o := inline_only h5
    cases hq : q.1.getLast? with
    | none => rw [hq] at h6; cases h6
    | some last => rw [hq] at h6; cases h6; exact o.trans (ih h3)

theorem outcome_rule {s s1 : DocSt} {ctx : Context} (h : ruleStep s ctx = .ok s1) : Outcome s .rule (args s) s1 := by
  obtain ⟨keep, h1, h2⟩ := bind_ok_except h
  cases h2
  exact .of_put h1 rfl rfl rfl (LeftOf.refl _ _) (not_diverted (by simp)) (fun _ => rfl)

theorem outcome_paragraph {P : Parser} {s s1 : DocSt} {ln col : Nat} {ls : List Str} (h : P.paragraphStep s (textToks P.src ln col ls) = .ok s1) :
    Outcome s .paragraph (args s) s1 := by
  obtain ⟨r, h1, h2⟩ := bind_ok_except h
  obtain ⟨c, h3, h4⟩ := bind_ok_except h2
  obtain ⟨keep, h5, h6⟩ := bind_ok_except h4
  cases h6
  have o := (inlineLines_spec h1).1
  exact .of_put h5 o.nodes o.controlBuf rfl (LeftOf.refl _ _) (not_diverted (by simp)) (fun _ => o.env)

theorem outcome_list {s0 s s1 : DocSt} {m : Token} {ns : List Node} (o : OnlyMentions s0 s) (h : listStep s m ns = .ok s1) : Outcome s0 .list (args s0) s1 := by
  obtain ⟨r, h1, h2⟩ := bind_ok_except h
  obtain ⟨c, h3, h4⟩ := bind_ok_except h2
  obtain ⟨keep, h5, h6⟩ := bind_ok_except h4
  cases h6
  refine .of_put h5 o.nodes o.controlBuf o.labelBuf ?_ (not_diverted (by simp)) (fun _ => o.env)
  change LeftOf .list (args s0) (args s)
  have : args s = args s0 := by unfold args; rw [o.argsBuf]
  rw [this]
  exact LeftOf.refl _ _

theorem outcome_header {P : Parser} {s s1 : DocSt} {n : Nat} {text : Str} {c1 c2 : Context} (h : P.headerStep s n text c1 c2 = .ok s1) :
    Outcome s .header (args s) s1 := by
  obtain ⟨r, h1, h2⟩ := bind_ok_except h
  obtain ⟨c, h3, h4⟩ := bind_ok_except h2
  obtain ⟨keep, h5, h6⟩ := bind_ok_except h4
  have o := inline_only h1
  have hl : LeftOf .header (args s) { args s with named := Dict.erase (Dict.erase (args s).named c%"internal_id") c%"name" } :=
    (LeftOf.erase (key := c%"internal_id") (by decide)).trans (LeftOf.erase (a := { args s with named := Dict.erase (args s).named c%"internal_id" }) (key := c%"name") (by decide))
  split at h6
  · rename_i hk
    obtain ⟨s2, h7, h8⟩ := bind_ok_except h6
    cases h8
    have e : s2 = { r.2 with linkHeaders := s2.linkHeaders } := by
      unfold nameHeader at h7
      split at h7
      · cases h7; rfl
      · split at h7
        · cases h7
        · cases h7; rfl
    refine ⟨rfl, rfl, fun _ => ⟨true, ?_, rfl, by simp, fun _ => ⟨Node.new (.header s.uid n (Dict.get? (args s).named c%"internal_id") (Dict.get? (Dict.erase (args s).named c%"internal_id") c%"name"))
        (c1.merge c) r.1 { args s with named := Dict.erase (Dict.erase (args s).named c%"internal_id") c%"name" } s.labelBuf, ?_, rfl, hl⟩⟩, fun h => absurd h (not_diverted (by simp)), fun _ => ?_⟩
    · have h9 : Spec.allowed { s with env := s2.env } = Spec.allowed s2 := allowed_env (by rw [e]; exact o.controlBuf)
      have h10 : Spec.allowed s2 = Spec.allowed r.2 := by rw [e]; rfl
      change Spec.allowed { s with env := s2.env } = .ok true
      rw [h9, h10, h5, hk]
    · change s2.nodes ++ _ = _
      rw [e, o.nodes]
    · change s2.env = _
      rw [e]; exact o.env
  · rename_i hk
    cases h6
    refine ⟨rfl, rfl, fun _ => ⟨false, ?_, rfl, fun _ => o.nodes, by simp⟩, fun h => absurd h (not_diverted (by simp)), fun _ => o.env⟩
    have h9 : Spec.allowed { s with env := r.2.env } = Spec.allowed r.2 := allowed_env o.controlBuf
    change Spec.allowed { s with env := r.2.env } = .ok false
    rw [h9, h5]; simpa using hk

/-! ### Blocks -/

theorem truthy_some {o : Option Str} {v : Str} : truthy o = some v ↔ v ≠ [] ∧ o = some v := by
  unfold truthy
  cases o with
  | none => simp
  | some w =>
    cases w with
    | nil =>
      constructor
      · intro h; cases h
      · rintro ⟨h1, h2⟩; cases h2; exact absurd rfl h1
    | cons c r =>
      constructor
      · intro h; cases h; simp
      · rintro ⟨_, h⟩; exact h

theorem truthy_none {o : Option Str} : truthy o = none ↔ ¬ ∃ v, v ≠ [] ∧ o = some v := by
  constructor
  · rintro h ⟨v, hv⟩; rw [truthy_some.2 hv] at h; cases h
  · intro h
    cases ht : truthy o with
    | none => rfl
    | some v => exact absurd ⟨v, truthy_some.1 ht⟩ h

theorem diverted_iff {a b : NodeArgs} (h : LeftOf .block a b) : Diverted .block a ↔
    (truthy (Dict.get? b.named c%"footnote")).isSome ∨
      ((truthy (Dict.get? b.named c%"group")).isSome ∧ (truthy (Dict.get? b.named c%"position")).isSome) := by
  rw [h.named _ (by decide) (by simp), h.named _ (by decide) (by simp), h.named _ (by decide) (by simp)]
  simp only [Diverted, true_and, Option.isSome_iff_exists, truthy_some]

theorem place_outcome {s s1 s2 : DocSt} {a0 a : NodeArgs} {d : NodeData} {ns : List Node} {ctx own : Context} (ha : LeftOf .block a0 a)
    (h1 : s1.argsBuf = none) (h2 : s1.labelBuf = []) (h3 : s1.nodes = s.nodes) (h4 : s1.controlBuf = s.controlBuf)
    (h : placeStep s1 d ns a s.labelBuf ctx own = .ok s2) : Outcome s .block a0 s2 := by
  unfold placeStep at h
  cases hf : truthy (Dict.get? a.named c%"footnote") with
  | some name =>
    have hd : Diverted .block a0 := (diverted_iff ha).2 (.inl (by rw [hf]; rfl))
    rw [hf] at h
    dsimp only at h
    split at h
    · cases h
    · cases h
      exact ⟨h1, h2, fun h => absurd hd h, fun _ => ⟨h3, h4⟩, fun h => absurd rfl h⟩
  | none =>
    rw [hf] at h
    dsimp only at h
    have key : ∀ {x : Except Err DocSt}, x = .ok s2 → (x = (do let keep ← Spec.allowed s1; return put s1 keep (Node.new d ctx ns a s.labelBuf))) →
        ¬ Diverted .block a0 → Outcome s .block a0 s2 := by
      intro x hx he hd
      rw [hx] at he
      obtain ⟨keep, h5, h6⟩ := bind_ok_except he.symm
      cases h6
      exact .of_put h5 h3 h4 rfl ha hd (fun h => absurd rfl h)
    cases hg : truthy (Dict.get? a.named c%"group") with
    | none =>
      rw [hg] at h
      exact key h rfl (by rw [diverted_iff ha, hf, hg]; simp)
    | some g =>
      cases hp : truthy (Dict.get? a.named c%"position") with
      | none =>
        rw [hg, hp] at h
        exact key h rfl (by rw [diverted_iff ha, hf, hp]; simp)
      | some p =>
        rw [hg, hp] at h
        have hd : Diverted .block a0 := (diverted_iff ha).2 (.inr (by rw [hg, hp]; simp))
        obtain ⟨gs, h5, h6⟩ := bind_ok_except h
        cases h6
        exact ⟨h1, h2, fun h => absurd hd h, fun _ => ⟨h3, h4⟩, fun h => absurd rfl h⟩

theorem engine_left {P : Parser} {s : DocSt} {engine : Str} {classes : List Str} {content : Option Token} {a : NodeArgs} {ctx : Context}
    {r : (NodeData × List Node × NodeArgs) × DocSt} (h : P.engineStep s engine classes content a ctx = .ok r) :
    LeftOf .block a r.1.2.2 ∧ r.2.argsBuf = s.argsBuf ∧ r.2.nodes = s.nodes ∧ r.2.controlBuf = s.controlBuf ∧ r.2.labelBuf = s.labelBuf := by
  unfold Parser.engineStep at h
  split at h
  · split at h
    · cases h; exact ⟨LeftOf.refl _ _, rfl, rfl, rfl, rfl⟩
    · obtain ⟨q, h1, h2⟩ := bind_ok_except h
      cases h2
      obtain ⟨inner, h3, h4⟩ := bind_ok_except h1
      cases h4
      refine ⟨LeftOf.refl _ _, ?_, ?_, ?_, ?_⟩ <;> (dsimp only; split <;> rfl)
  · split at h
    · split at h <;> (cases h; exact ⟨LeftOf.refl _ _, rfl, rfl, rfl, rfl⟩)
    · split at h
      · split at h
        · cases h; exact ⟨LeftOf.refl _ _, rfl, rfl, rfl, rfl⟩
        · obtain ⟨q, h1, h2⟩ := bind_ok_except h
          cases h2
          refine ⟨?_, rfl, rfl, rfl, rfl⟩
          unfold sourceEngine at h1
          dsimp only [NodeArgs.pop] at h1
          have key : ∀ {l : List Node} {lang : Option Str} {x : Except Err (List Node)} {b : NodeArgs},
              (do let ls ← x; return (some (lang.getD c%"text"), ls, b) : Except Err (Option Str × List Node × NodeArgs)) = .ok q →
              LeftOf .block a b → LeftOf .block a q.2.2 := by
            intro l lang x b hx hb
            obtain ⟨ls, _, h6⟩ := bind_ok_except hx
            cases h6
            exact hb
          have hb : LeftOf .block a ((((((a.pop c%"marker_delimiter").2.pop c%"highlight_marker").2.pop c%"highlight_default_style").2).setNames
              [c%"language"]).pop c%"language").2 := by
            refine LeftOf.trans (LeftOf.erase (key := c%"marker_delimiter") (by decide)) ?_
            refine LeftOf.trans (LeftOf.erase (key := c%"highlight_marker") (by decide)) ?_
            refine LeftOf.trans (LeftOf.erase (key := c%"highlight_default_style") (by decide)) ?_
            refine LeftOf.trans (LeftOf.setNames (names := [c%"language"]) (by decide) (by decide)) ?_
            exact LeftOf.erase (key := c%"language") (by decide)
          split at h1
          · obtain ⟨al, h3, h4⟩ := bind_ok_except h1
            exact key (l := []) h4 hb
          · obtain ⟨al, h3, h4⟩ := bind_ok_except h1
            exact key (l := []) h4 hb
          · cases h1
      · cases h

theorem outcome_block {P : Parser} {s s1 : DocSt} {content : Option Token} {ctx : Context} (h : P.blockStep s content ctx = .ok s1) :
    Outcome s .block (args s) s1 := by
  obtain ⟨r, h1, h2⟩ := bind_ok_except h
  obtain ⟨l1, l2, l3, l4, l5⟩ := engine_left h1
  refine place_outcome (s1 := { r.2 with labelBuf := [] }) (LeftOf.trans ?_ l1) l2 rfl l3 l4 h2
  exact LeftOf.trans (LeftOf.erase (key := c%"classes") (by decide)) (LeftOf.erase (key := c%"engine") (by decide))

/-! ### Includes -/

theorem includeNode_left {P : Parser} {s : DocSt} {ty : Str} {a : NodeArgs} {ctx : Context}
    {r : (NodeData × List Node × NodeArgs) × DocSt} (h : P.includeNodeStep s ty a ctx = .ok r) :
    LeftOf .incl a r.1.2.2 ∧ r.2.argsBuf = s.argsBuf ∧ r.2.nodes = s.nodes ∧ r.2.controlBuf = s.controlBuf ∧ r.2.labelBuf = s.labelBuf ∧ r.2.env = s.env := by
  unfold Parser.includeNodeStep at h
  split at h
  · obtain ⟨q, h1, h2⟩ := bind_ok_except h
    cases h2
    refine ⟨?_, rfl, rfl, rfl, rfl, rfl⟩
    unfold includeImage at h1
    dsimp only [NodeArgs.pop] at h1
    split at h1
    · cases h1
    · cases h1
      refine LeftOf.trans (LeftOf.setNames (names := [c%"uri", c%"alt_text", c%"classes"]) (by decide) (by decide)) ?_
      refine LeftOf.trans (LeftOf.erase (key := c%"uri") (by decide)) ?_
      refine LeftOf.trans (LeftOf.erase (key := c%"alt_text") (by decide)) ?_
      exact LeftOf.erase (key := c%"classes") (by decide)
  · split at h
    · unfold Parser.includeMauStep at h
      dsimp only at h
      split at h
      · cases h
      · split at h
        · cases h
        · obtain ⟨t, h1, h2⟩ := bind_ok_except h
          obtain ⟨e, h3, h4⟩ := bind_ok_except h2
          obtain ⟨i, h5, h6⟩ := bind_ok_except h4
          cases h6
          refine ⟨?_, rfl, rfl, rfl, rfl, rfl⟩
          refine LeftOf.trans (LeftOf.setNames (names := [c%"uri"]) (by decide) (by decide)) ?_
          refine LeftOf.trans (LeftOf.erase (key := c%"uri") (by decide)) ?_
          refine LeftOf.trans (LeftOf.erase (key := c%"pass_environment") (by decide)) ?_
          exact LeftOf.call
    · split at h
      · obtain ⟨q, h1, h2⟩ := bind_ok_except h
        cases h2
        refine ⟨?_, rfl, rfl, rfl, rfl, rfl⟩
        unfold includeRaw at h1
        dsimp only [NodeArgs.pop] at h1
        split at h1
        · cases h1
        · split at h1
          · cases h1
          · cases h1
            refine LeftOf.trans (LeftOf.setNames (names := [c%"uri"]) (by decide) (by decide)) ?_
            exact LeftOf.erase (key := c%"uri") (by decide)
      · split at h
        · cases h; exact ⟨LeftOf.refl _ _, rfl, rfl, rfl, rfl, rfl⟩
        · split at h
          · cases h; exact ⟨LeftOf.refl _ _, rfl, rfl, rfl, rfl, rfl⟩
          · split at h
            · dsimp only at h
              split at h
              · cases h
              · cases h
                refine ⟨?_, rfl, rfl, rfl, rfl, rfl⟩
                refine LeftOf.trans (LeftOf.setNames (names := [c%"group"]) (by decide) (by decide)) ?_
                exact LeftOf.erase (key := c%"group") (by decide)
            · cases h; exact ⟨LeftOf.refl _ _, rfl, rfl, rfl, rfl, rfl⟩

theorem outcome_include {P : Parser} {s s1 : DocSt} {ty : Str} {a : NodeArgs} {ctx : Context} (h : P.includeStep s ty a ctx = .ok s1) :
    Outcome s .incl a s1 := by
  obtain ⟨r, h1, h2⟩ := bind_ok_except h
  obtain ⟨keep, h3, h4⟩ := bind_ok_except h2
  cases h4
  obtain ⟨l1, l2, l3, l4, l5, l6⟩ := includeNode_left h1
  exact .of_put h3 l3 l4 rfl l1 (not_diverted (by simp)) (fun _ => l6)

/-! ## All constructs -/

theorem construct_outcome {P : Parser} {s s1 : DocSt} {ln col : Nat} {ls rest : List Str} {k : Kind} {a : NodeArgs} {x : Except Err DocSt}
    (h : Construct P s ln col ls rest k a x) (hx : x = .ok s1) : Outcome s k a s1 := by
  cases h with
  | rule => exact outcome_rule hx
  | header hl => exact outcome_header hx
  | paragraph hl hne hr => exact outcome_paragraph hx
  | list hi hr hits hns => exact outcome_list (items_only hits) hx
  | block h1 h2 hc => exact outcome_block hx
  | incl hl => exact outcome_include hx
  | inclArgs hl ha =>
    unfold Parser.includeInline at hx
    split at hx
    · cases hx
    · obtain ⟨p, h1, h2⟩ := bind_ok_except hx
      rw [ha] at h1
      cases h1
      exact outcome_include h2

end Mau
