import Verif.Lemmas.SownLists

set_option linter.unusedSimpArgs false
set_option linter.unusedVariables false

/-!
# The mentions in blocks are completed
-/

namespace Mau
open Spec

/-- All mentions and links in the text are completed. -/
def Complete (ns : List Node) : Prop := ∀ x, Reached x ns → Mute x.data

theorem Complete.known {ns : List Node} (h : Complete ns) (s : DocSt) : Known s ns :=
  fun x hx => ⟨fun i nm e => absurd e ((h x hx).1 i nm), fun i nm e => absurd e ((h x hx).2 i nm)⟩

/-- The parser of a nested text completes all mentions, and leaves variables as they should be. -/
def NestedSown (nested : NestedParser) : Prop :=
  ∀ req s', Fresh req → EnvAll Harmless req.env → (∀ l ∈ splitChar '\n' req.text, Uncontrolled l) → nested req = .ok s' → Complete s'.nodes ∧ EnvAll Harmless s'.env

theorem sown_content {nested : NestedParser} (hN : NestedSown nested) {t : Token} (ht : ∀ l ∈ splitChar '\n' t.value, Uncontrolled l) {args : NodeArgs} {s : DocSt} (hm : Sown s) (hy : Young s) :
    Sows (blockContent nested t args) s (fun ns s' => Sown s' ∧ s'.next = s.next ∧ Known s' ns) := by
  refine .const ?_
  unfold blockContent
  split
  · exact hm
  · trivial
  · rename_i inner hi
    obtain ⟨h1, h2⟩ := hN ⟨t.value, s.env, t.ctx.startLine, t.ctx.startColumn, t.ctx.source, [], s.uid, s.objs⟩ inner hy hm.env ht hi
    dsimp only
    split
    · have hg : Gained s (mergeManagers { s with env := inner.env, uid := inner.uid, objs := inner.objs } inner) := ⟨fun e h => List.mem_append_left _ h, fun e h => h⟩
      exact ⟨⟨h2, hm.nodes.grow hg, hm.groups.grow hg, fun e he => (hm.labels e he).grow hg⟩, rfl, h1.known _⟩
    · exact ⟨⟨h2, hm.nodes, hm.groups, hm.labels⟩, rfl, h1.known _⟩

theorem sown_engine {nested : NestedParser} (hN : NestedSown nested) {content : Option Token} (hc : ∀ t, content = some t → ∀ l ∈ splitChar '\n' t.value, Uncontrolled l) {engine : Str}
    {classes : List Str} {args : NodeArgs} {ctx : Context} {s : DocSt} (hm : Sown s) (hy : Young s) :
    Sows (blockEngine nested engine classes content args ctx) s (fun r s' => Sown s' ∧ s'.next = s.next ∧ Mute r.1 ∧ (Opens r.1 → Known s' r.2.1)) := by
  have hc' : ∀ t, content.filter (fun t => !t.value.isEmpty) = some t → ∀ l ∈ splitChar '\n' t.value, Uncontrolled l := by
    intro t ht
    refine hc t ?_
    cases content with
    | none => cases ht
    | some x =>
      rw [Option.filter_some] at ht
      split at ht
      · exact ht
      · cases ht
  unfold blockEngine
  generalize content.filter (fun t => !t.value.isEmpty) = content' at hc'
  dsimp only
  refine Ends.ite (fun _ => ?_) (fun _ => Ends.ite (fun _ => ?_) (fun _ => Ends.ite (fun _ => ?_) (fun _ => .raise trivial (by simp))))
  · cases content' with
    | none => exact .pure ⟨hm, rfl, ⟨fun _ _ e => (nomatch e), fun _ _ e => (nomatch e)⟩, fun _ => .nil⟩
    | some t =>
      refine Ends.bind (sown_content hN (hc' t rfl) hm hy) ?_
      rintro ns s1 ⟨h1, h2, h3⟩
      exact .pure ⟨h1, h2, ⟨fun _ _ e => (nomatch e), fun _ _ e => (nomatch e)⟩, fun _ => h3⟩
  · cases content' with
    | none => exact .pure ⟨hm, rfl, ⟨fun _ _ e => (nomatch e), fun _ _ e => (nomatch e)⟩, fun _ => .nil⟩
    | some t => exact .pure ⟨hm, rfl, ⟨fun _ _ e => (nomatch e), fun _ _ e => (nomatch e)⟩, fun h => h.elim⟩
  · cases content' with
    | none => exact .pure ⟨hm, rfl, ⟨fun _ _ e => (nomatch e), fun _ _ e => (nomatch e)⟩, fun _ => .nil⟩
    | some t =>
      refine Ends.bind (Q := fun _ s' => s' = s) (.get rfl) ?_
      rintro s2 s1 rfl
      refine Ends.bind (Q := fun r s' => s' = s1) (.lift hm (fun _ _ => trivial) fun r hr => rfl) ?_
      rintro ⟨lang, ls, args'⟩ s3 rfl
      exact .pure ⟨hm, rfl, ⟨fun _ _ e => (nomatch e), fun _ _ e => (nomatch e)⟩, fun h => h.elim⟩

theorem addBlock_members {groups groups' : Dict (Dict Node)} {g p : Str} {n : Node} (h : addBlock groups g p n = .ok groups') :
    ∀ m ∈ members groups', m ∈ members groups ∨ m = Node.new (.blockgroupItem g p) Context.empty [n] := by
  unfold addBlock at h
  dsimp only at h
  split at h
  · cases h
  · injection h with h
    subst h
    intro m hm
    obtain ⟨gr, d, hd, k, hk⟩ := DGood.mem_members.1 hm
    rcases Dict.mem_set hd with e | hd
    · cases e
      rcases Dict.mem_set hk with e | hk
      · cases e; exact .inr rfl
      · cases hg : Dict.get? groups g with
        | none => rw [hg] at hk; cases hk
        | some d => rw [hg] at hk; exact .inl (DGood.mem_members.2 ⟨_, d, Dict.mem_of_get? hg, k, hk⟩)
    · exact .inl (DGood.mem_members.2 ⟨gr, d, hd, k, hk⟩)

theorem sown_place {toks : List Token} {data : NodeData} {ns : List Node} {args : NodeArgs} {labels : Dict Node} {ctx own : Context} {s : DocSt} (hm : Sown s) (hd : Mute data)
    (hc : Opens data → Known s ns) (hl : ∀ e ∈ labels, Known s [e.2]) (hF : Stock (toks.drop s.next)) :
    Sows (placeBlock data ns args labels ctx own) s (fun _ s' => Proceeds toks s') := by
  unfold placeBlock
  split
  · refine Ends.bind (Q := fun _ s' => s' = s) (.get rfl) ?_
    rintro s2 s1 rfl
    exact Ends.ite (fun _ => .raise trivial (by simp)) (fun _ => .modify ⟨hm.of, hF⟩)
  · dsimp only
    split
    · refine Ends.bind (Q := fun a s' => a = s ∧ s' = s) (.get ⟨rfl, rfl⟩) ?_
      rintro s2 s1 ⟨rfl, rfl⟩
      refine Ends.bind (Q := fun gs s' => s' = s1 ∧ ∀ m ∈ members gs, m ∈ members s1.groups ∨ ∃ g p, m = Node.new (.blockgroupItem g p) Context.empty [Node.new data ctx ns args labels])
        (.lift hm (fun _ _ => trivial) fun _ h => ⟨rfl, fun m h' => (addBlock_members h m h').imp id fun e => ⟨_, _, e⟩⟩) ?_
      rintro gs s3 ⟨rfl, hgs⟩
      refine .modify ⟨⟨hm.env, hm.nodes, ?_, hm.labels⟩, hF⟩
      refine .all fun m hmm => ?_
      rcases hgs m hmm with h | ⟨g, p, rfl⟩
      · exact hm.groups.each m h
      · exact .new ⟨fun _ _ e => (nomatch e), fun _ _ e => (nomatch e)⟩ (fun _ => .new hd hc hl) fun _ h => (nomatch h)
    · refine Sows.save hm ?_
      intro o nodes hns
      refine ⟨⟨hm.env, ?_, hm.groups, hm.labels⟩, hF⟩
      rcases hns with rfl | rfl
      · exact hm.nodes
      · exact hm.nodes.append (.new hd hc hl)

section
variable {toks : List Token} (hE : EndsWithEof toks)
include hE

theorem sown_blockText {s : DocSt} (hm : Sown s) :
    Sows (blockText toks) s (fun o s' => (o = none ∧ s' = s) ∨ ∃ t, o = some t ∧ t.type = .TEXT ∧ toks[s.next]? = some t ∧ s' = { s with next := s.next + 1 }) := by
  unfold blockText
  refine Ends.bind (Q := fun _ s' => s' = s) (Ends.peek hE hm trivial fun t _ _ => rfl) ?_
  rintro t s1 rfl
  refine Ends.ite (fun _ => ?_) (fun _ => .pure (.inl ⟨rfl, rfl⟩))
  refine Ends.bind (Q := fun t s' => t.type = .TEXT ∧ toks[s1.next]? = some t ∧ s' = { s1 with next := s1.next + 1 }) (Ends.tok hE (by simp) hm fun t h1 h2 _ => ⟨h2, h1, rfl⟩) ?_
  rintro u s2 ⟨h1, h2, rfl⟩
  exact .pure (.inr ⟨u, rfl, h1, h2, rfl⟩)

theorem sown_block {nested : NestedParser} (hN : NestedSown nested) {s : DocSt} (hm : Sown s) (hF : Stock (toks.drop s.next)) (hy : Young s) :
    Sows (blockProc nested toks) s (fun _ s' => Proceeds toks s') := by
  unfold blockProc
  refine Ends.bind (Q := fun t s' => t.type = .BLOCK ∧ toks[s.next]? = some t ∧ s' = { s with next := s.next + 1 }) (Ends.tok hE (by simp) hm fun t h1 h2 _ => ⟨h2, h1, rfl⟩) ?_
  rintro o s1 ⟨ho, hog, rfl⟩
  refine Ends.bind (sown_blockText hE (s := { s with next := s.next + 1 }) hm.of) ?_
  intro content s1 hcont
  refine Ends.bind (Q := fun c s' => (∀ t, content = some t → ∀ l ∈ splitChar '\n' t.value, Uncontrolled l) ∧ ∃ i, s' = { s with next := i } ∧ Stock (toks.drop i)) ?_ ?_
  · have hj : Sown s1 := by
      rcases hcont with ⟨_, rfl⟩ | ⟨t, _, _, _, rfl⟩ <;> exact hm.of
    refine Ends.tok hE (by simp) hj fun c hcg hct _ => ?_
    have hd := drop_of_get hog
    rw [hd] at hF
    rcases hcont with ⟨rfl, rfl⟩ | ⟨t, rfl, htt, htg, rfl⟩
    · have hd2 := drop_of_get hcg
      dsimp only at hd2 hcg
      rw [hd2] at hF
      generalize hq : toks.drop (s.next + 1 + 1) = q at hF
      cases hF with
      | one h1 h2 => exact absurd ho h2
      | args h1 => rw [ho] at h1; cases h1
      | bare h1 h2 h3 => exact ⟨fun t e => (by cases e), _, rfl, by rw [hq]; exact h3⟩
      | block h1 h2 h3 => rw [hct] at h3; cases h3
    · have hd1 := drop_of_get htg
      have hd2 := drop_of_get hcg
      dsimp only at hd2 hcg hd1 htg
      rw [hd1, hd2] at hF
      generalize hq : toks.drop (s.next + 1 + 1 + 1) = q at hF
      cases hF with
      | one h1 h2 => exact absurd ho h2
      | args h1 => rw [ho] at h1; cases h1
      | bare h1 h2 => rw [htt] at h2; cases h2
      | block h1 h2 h3 h4 h5 =>
        refine ⟨?_, _, rfl, by rw [hq]; exact h5⟩
        intro t' e
        injection e with e
        subst e
        exact h4
  rintro c s2 ⟨hB, i, rfl, hF'⟩
  refine Ends.bind (Q := fun _ s' => s' = { s with next := i, argsBuf := none }) (Sows.popArgs fun _ => rfl) ?_
  rintro args s3 rfl
  dsimp only
  refine Ends.bind (sown_engine hN hB (s := { s with next := i, argsBuf := none }) hm.of hy) ?_
  rintro r s3 ⟨h1, h2, h3, h4⟩
  refine Ends.bind (Q := fun lb s' => lb = s3.labelBuf ∧ s' = { s3 with labelBuf := [] }) (Sows.popLabels ⟨rfl, rfl⟩) ?_
  rintro lb s4 ⟨rfl, rfl⟩
  exact sown_place (s := { s3 with labelBuf := [] }) ⟨h1.env, h1.nodes, h1.groups, fun _ h => (nomatch h)⟩ h3 h4 h1.labels (by show Stock (toks.drop s3.next); rw [h2]; exact hF')

omit hE in
theorem definition_harmless {env : Env} {name value : Str} {ctx : Context} {d : Str × Str} (he : EnvAll Harmless env) (hn : '\n' ∉ value) (hu : Uncontrolled value)
    (h : definition env name value ctx = .ok d) : Harmless (.str d.2) := by
  unfold definition at h
  split at h
  · injection h with h; subst h; exact ⟨uncontrolled_plain (by simp [Val.pyStr]), by simp [Val.pyStr]⟩
  · split at h
    · injection h with h; subst h; exact ⟨uncontrolled_plain (by simp [Val.pyStr]), by simp [Val.pyStr]⟩
    · split at h
      · cases h
      · split at h
        · cases h
        · rename_i p hp
          split at h
          · cases h
          · injection h with h
            subst h
            exact preprocess_uncontrolled he hn hu hp

omit hE in
theorem harmless_empty : Harmless .emptyDict := ⟨uncontrolled_plain (by decide), by decide⟩

theorem sown_variable {s : DocSt} (hm : Sown s) (hF : Stock (toks.drop s.next)) : Sows (variableProc toks) s (fun _ s' => Proceeds toks s') := by
  unfold variableProc
  refine Ends.bind (Q := fun t s' => s' = { s with next := s.next + 1 } ∧ Stock (toks.drop (s.next + 1)))
    (Sows.tok hE (by simp) (by simp) (by simp) hm hF fun t _ _ _ _ h4 => ⟨rfl, h4⟩) ?_
  rintro o s1 ⟨rfl, h4⟩
  refine Ends.bind (Q := fun t s' => s' = { s with next := s.next + 2 } ∧ Stock (toks.drop (s.next + 2)))
    (Sows.tok hE (by simp) (by simp) (by simp) hm.of h4 fun t _ _ _ _ h4 => ⟨rfl, h4⟩) ?_
  rintro n s1 ⟨rfl, h4'⟩
  refine Ends.bind (Q := fun t s' => s' = { s with next := s.next + 3 } ∧ Stock (toks.drop (s.next + 3)))
    (Sows.tok hE (by simp) (by simp) (by simp) hm.of h4' fun t _ _ _ _ h4 => ⟨rfl, h4⟩) ?_
  rintro c s1 ⟨rfl, k4⟩
  refine Ends.bind (Q := fun v s' => '\n' ∉ v.1 ∧ Uncontrolled v.1 ∧ ∃ i, s' = { s with next := i } ∧ Stock (toks.drop i)) ?_ ?_
  · have hm3 : Sown { s with next := s.next + 3 } := hm.of
    unfold variableText
    refine Ends.bind (Q := fun t s' => s' = { s with next := s.next + 3 } ∧ TM.peek ⟨toks, s.next + 3⟩ = .ok t ∧ (t.type ≠ .EOF → toks[s.next + 3]? = some t))
      (Ends.peek hE hm3 trivial fun t h0 h => ⟨rfl, h0, fun hx => (h hx).1⟩) ?_
    rintro t s1 ⟨rfl, hpk, hg⟩
    refine Ends.ite (fun hty => ?_) (fun _ => .pure ⟨by simp, uncontrolled_nil, _, rfl, k4⟩)
    have hg := hg (by rw [hty]; simp)
    obtain ⟨e1, e2, e3⟩ := k4.next hg (by rw [hty]; simp) (by rw [hty]; simp) (by rw [hty]; simp)
    refine Ends.bind (Q := fun u s' => u = t ∧ s' = { s with next := s.next + 4 }) ?_ ?_
    · refine Ends.next hE hm3 (fun u hu => ?_) (fun u hu hgu _ => ?_)
      · dsimp only at hu
        rw [hpk] at hu
        injection hu with hu
        rw [← hu, hty]; simp
      · rw [hg] at hgu; injection hgu with hgu; exact ⟨hgu.symm, rfl⟩
    rintro u s1 ⟨rfl, rfl⟩
    exact .pure ⟨e1, e2 hty, _, rfl, e3⟩
  rintro v s1 ⟨hv, hvu, i, rfl, hF'⟩
  refine Ends.bind (Q := fun a s' => a = { s with next := i } ∧ s' = { s with next := i }) (.get ⟨rfl, rfl⟩) ?_
  rintro s2 s1 ⟨rfl, rfl⟩
  refine Ends.bind (Q := fun d s' => s' = { s with next := i } ∧ definition s.env n.value v.1 v.2 = .ok d) (.lift hm.of (fun _ _ => trivial) fun d hd => ⟨rfl, hd⟩) ?_
  rintro d s1 ⟨rfl, hd⟩
  exact .modify ⟨⟨hm.env.setitem harmless_empty _ (definition_harmless hm.env hv hvu hd), hm.nodes, hm.groups, hm.labels⟩, hF'⟩

end

/-! ## Includes -/

/-- The nodes of an include are not reached, and the mentions remain. -/
theorem sown_includeMau {cfg : Config} {nested : NestedParser} {args : NodeArgs} {ctx : Context} {s : DocSt} (hm : Sown s) :
    Sows (includeMau cfg nested args ctx) s (fun r s' => Sown s' ∧ s'.next = s.next ∧ Mute r.1 ∧ ¬ Opens r.1) := by
  unfold includeMau
  dsimp only
  split
  · exact .raise trivial (by simp)
  · rename_i uri hu
    refine Ends.bind (Q := fun _ s' => ∃ l, s' = { s with forbidden := l }) (.modify ⟨_, rfl⟩) ?_
    rintro _ s1 ⟨l1, rfl⟩
    refine Ends.bind (Q := fun a s' => a = { s with forbidden := l1 } ∧ s' = { s with forbidden := l1 }) (.get ⟨rfl, rfl⟩) ?_
    rintro _ s1 ⟨rfl, rfl⟩
    refine Ends.ite (fun _ => .raise trivial (by simp)) (fun _ => ?_)
    refine Ends.bind (Q := fun _ s' => ∃ l, s' = { s with forbidden := l }) (.modify ⟨_, rfl⟩) ?_
    rintro _ s1 ⟨l2, rfl⟩
    have hj : Sown { s with forbidden := l2 } := hm.of
    refine Ends.bind (Q := fun t s' => s' = { s with forbidden := l2 }) (.lift hj (fun _ _ => trivial) fun t ht => rfl) ?_
    rintro text s1 rfl
    refine Ends.bind (Q := fun t s' => s' = { s with forbidden := l2 }) (.lift hj (fun _ _ => trivial) fun t ht => rfl) ?_
    rintro env s1 rfl
    refine Ends.bind (Q := fun a s' => a = { s with forbidden := l2 } ∧ s' = { s with forbidden := l2 }) (.get ⟨rfl, rfl⟩) ?_
    rintro _ s1 ⟨rfl, rfl⟩
    refine Ends.bind (Q := fun t s' => s' = { s with forbidden := l2 }) (.lift hj (fun _ _ => trivial) fun t ht => rfl) ?_
    rintro inner s1 rfl
    refine Ends.bind (Q := fun _ s' => Sown s' ∧ s'.next = s.next) (.modify ⟨hm.of, rfl⟩) ?_
    rintro _ s1 ⟨h1, h2⟩
    exact .pure ⟨h1, h2, ⟨fun _ _ e => (nomatch e), fun _ _ e => (nomatch e)⟩, id⟩

theorem sown_includeNode {cfg : Config} {nested : NestedParser} {ctype : Str} {args : NodeArgs} {ctx : Context} {s : DocSt} (hm : Sown s) :
    Sows (includeNode cfg nested ctype args ctx) s (fun r s' => Sown s' ∧ s'.next = s.next ∧ Mute r.1 ∧ (Opens r.1 → Known s' r.2.1)) := by
  unfold includeNode
  refine Ends.ite (fun _ => ?_) (fun _ => Ends.ite (fun _ => ?_) (fun _ => Ends.ite (fun _ => ?_) (fun _ => Ends.ite (fun _ => ?_)
    (fun _ => Ends.ite (fun _ => ?_) (fun _ => Ends.ite (fun _ => ?_) (fun _ => .pure ⟨hm, rfl, ⟨fun _ _ e => (nomatch e), fun _ _ e => (nomatch e)⟩, fun h => h.elim⟩))))))
  · refine Ends.bind (Q := fun r s' => s' = s ∧ Mute r.1 ∧ ¬ Opens r.1) (.lift hm (fun _ _ => trivial) fun r hr => ⟨rfl, ?_⟩) ?_
    · unfold includeImage at hr
      dsimp only at hr
      split at hr
      · cases hr
      · injection hr with hr; subst hr; exact ⟨⟨fun _ _ e => (nomatch e), fun _ _ e => (nomatch e)⟩, id⟩
    · rintro ⟨d, a⟩ s1 ⟨rfl, hd⟩
      exact .pure ⟨hm, rfl, hd.1, fun h => absurd h hd.2⟩
  · exact (sown_includeMau hm).mono fun r s' h => ⟨h.1, h.2.1, h.2.2.1, fun h' => absurd h' h.2.2.2⟩
  · refine .lift hm (fun _ _ => trivial) fun r hr => ⟨hm, rfl, ?_⟩
    unfold includeRaw at hr
    dsimp only at hr
    split at hr
    · cases hr
    · split at hr
      · cases hr
      · injection hr with hr
        subst hr
        exact ⟨⟨fun _ _ e => (nomatch e), fun _ _ e => (nomatch e)⟩, fun h => h.elim⟩
  · refine Ends.bind (Q := fun _ s' => Sown s' ∧ s'.next = s.next) (.fresh ⟨hm.of, rfl⟩) fun id s1 h1 => ?_
    refine Ends.bind (Q := fun _ s' => Sown s' ∧ s'.next = s.next) (.modify ⟨h1.1.of, h1.2⟩) fun _ s2 h2 => ?_
    exact .pure ⟨h2.1, h2.2, ⟨fun _ _ e => (nomatch e), fun _ _ e => (nomatch e)⟩, fun h => h.elim⟩
  · refine Ends.bind (Q := fun _ s' => Sown s' ∧ s'.next = s.next) (.fresh ⟨hm.of, rfl⟩) fun id s1 h1 => ?_
    refine Ends.bind (Q := fun _ s' => Sown s' ∧ s'.next = s.next) (.modify ⟨h1.1.of, h1.2⟩) fun _ s2 h2 => ?_
    exact .pure ⟨h2.1, h2.2, ⟨fun _ _ e => (nomatch e), fun _ _ e => (nomatch e)⟩, fun h => h.elim⟩
  · dsimp only
    split
    · exact .raise trivial (by simp)
    · refine Ends.bind (Q := fun _ s' => Sown s' ∧ s'.next = s.next) (.fresh ⟨hm.of, rfl⟩) fun id s1 h1 => ?_
      refine Ends.bind (Q := fun _ s' => Sown s' ∧ s'.next = s.next) (.modify ⟨h1.1.of, h1.2⟩) fun _ s2 h2 => ?_
      exact .pure ⟨h2.1, h2.2, ⟨fun _ _ e => (nomatch e), fun _ _ e => (nomatch e)⟩, fun _ => .nil⟩

section
variable {toks : List Token} (hE : EndsWithEof toks)
include hE

theorem sown_includeArgs {boxed : Option NodeArgs} {cx : Context} {s : DocSt} (hm : Sown s) (hF : Stock (toks.drop s.next)) :
    Sows (includeArgs boxed toks cx) s (fun _ s' => ∃ i, s' = { s with next := i } ∧ Stock (toks.drop i)) := by
  unfold includeArgs
  refine Ends.bind (Q := fun _ s' => s' = s) (Ends.lift hm (fun _ _ => trivial) fun _ _ => rfl) ?_
  rintro v s1 rfl
  refine Ends.ite (fun _ => ?_) (fun _ => .pure ⟨s1.next, rfl, hF⟩)
  refine Ends.ite (fun _ => .raise trivial (by simp)) (fun _ => ?_)
  refine Ends.bind (Q := fun t s' => s' = { s1 with next := s1.next + 1 } ∧ Stock (toks.drop (s1.next + 1)))
    (Sows.tok hE (by simp) (by simp) (by simp) hm hF fun t _ _ _ _ h4 => ⟨rfl, h4⟩) ?_
  rintro c s2 ⟨rfl, h4⟩
  refine Ends.bind (Q := fun t s' => s' = { s1 with next := s1.next + 2 } ∧ Stock (toks.drop (s1.next + 2)))
    (Sows.tok hE (by simp) (by simp) (by simp) hm.of h4 fun t _ _ _ _ h4 => ⟨rfl, h4⟩) ?_
  rintro t s2 ⟨rfl, k4⟩
  refine Ends.bind (Q := fun x s' => s' = { s1 with next := s1.next + 2 }) (.get rfl) ?_
  rintro s3 s2 rfl
  refine Ends.bind (Q := fun _ s' => s' = { s1 with next := s1.next + 2 }) (.lift hm.of (fun _ _ => trivial) fun _ _ => rfl) ?_
  rintro p s2 rfl
  exact .pure ⟨_, rfl, k4⟩

theorem sown_include {cfg : Config} {nested : NestedParser} {s : DocSt} (hm : Sown s) (hF : Stock (toks.drop s.next)) : Sows (includeProc cfg nested toks) s (fun _ s' => Proceeds toks s') := by
  unfold includeProc
  refine Ends.bind (Q := fun t s' => s' = { s with next := s.next + 1 } ∧ Stock (toks.drop (s.next + 1)))
    (Sows.tok hE (by simp) (by simp) (by simp) hm hF fun t _ _ _ _ h4 => ⟨rfl, h4⟩) ?_
  rintro pre s1 ⟨rfl, h4⟩
  refine Ends.bind (Q := fun t s' => s' = { s with next := s.next + 2 } ∧ Stock (toks.drop (s.next + 2)))
    (Sows.tok hE (by simp) (by simp) (by simp) hm.of h4 fun t _ _ _ _ h4 => ⟨rfl, h4⟩) ?_
  rintro ty s1 ⟨rfl, k4⟩
  dsimp only
  refine Ends.bind (Q := fun _ s' => s' = { s with next := s.next + 2 }) (.get rfl) ?_
  rintro s3 s1 rfl
  refine Ends.bind (Q := fun _ s' => s' = { s with next := s.next + 2, argsBuf := none }) (.modify rfl) ?_
  rintro _ s1 rfl
  refine Ends.bind (sown_includeArgs (s := { s with next := s.next + 2, argsBuf := none }) hE hm.of k4) ?_
  rintro args s1 ⟨i, rfl, hF'⟩
  refine Ends.bind (sown_includeNode (s := { s with next := i, argsBuf := none }) hm.of) ?_
  rintro r s1 ⟨h1, h2, h3, h5⟩
  exact Sows.finish h1 h3 h5 (by rw [h2]; exact hF')

end

/-! ## The parser -/

/-- What every processing function does. -/
def Sowing (toks : List Token) (f : DM Unit) : Prop := ∀ s, Sown s → Stock (toks.drop s.next) → Young s → Sows f s (fun _ s' => Proceeds toks s')

theorem sown_fns {toks : List Token} (hE : EndsWithEof toks) {cfg : Config} {nested : NestedParser} (hN : NestedSown nested) {fuel : Nat} : ∀ f ∈ docFns cfg nested fuel toks, Sowing toks f := by
  intro f hm s h1 h2 h3
  simp only [docFns, List.mem_cons, List.not_mem_nil, or_false] at hm
  rcases hm with rfl | rfl | rfl | rfl | rfl | rfl | rfl | rfl | rfl | rfl | rfl
  · exact sown_eol hE h1 h2
  · exact sown_rule hE h1 h2
  · exact sown_variable hE h1 h2
  · exact sown_label hE h1 h2
  · exact sown_control hE h1 h2
  · exact sown_arguments hE h1 h2
  · exact sown_header hE h1 h2
  · exact sown_block hE hN h1 h2 h3
  · exact sown_include hE h1 h2
  · exact sown_list hE h1 h2
  · exact sown_paragraph hE h1 h2

theorem sown_try {toks : List Token} {next : Token} {l : Nat} {base : List Node} {fs : List (DM Unit)} (hk : ∀ f ∈ fs, Sowing toks f)
    (hg : ∀ f ∈ fs, DGood l base [] [] f (fun _ => []) (fun _ => [])) {s : DocSt} (hm : Sown s) (hF : Stock (toks.drop s.next)) (hw : WF l base s [] []) :
    ∀ a s', tryDocFns next fs s = .ok a s' → Proceeds toks s' := by
  induction fs generalizing s with
  | nil => exact fun a s' h => (by cases h)
  | cons f fs ih =>
    unfold tryDocFns
    obtain ⟨h1, h2⟩ := (hk f (by simp) s hm hF hw.below).out
    cases hx : f s with
    | ok a s1 =>
      dsimp only
      exact fun _ _ h => (by cases h; exact h1 _ _ hx)
    | err e =>
      dsimp only
      exact fun _ _ h => (nomatch h)
    | fail s1 =>
      dsimp only
      have hw1 := (hg f (by simp) s [] [] hw).2 s1 hx
      exact ih (s := { s1 with next := s.next }) (fun g hg' => hk g (by simp [hg'])) (fun g hg' => hg g (by simp [hg'])) (h2 s1 hx).of hF
        ⟨hw1.old, hw1.bodies, hw1.order, hw1.tocNodup, hw1.groups, hw1.core⟩

theorem sown_loop {toks : List Token} {l : Nat} {base : List Node} {fs : List (DM Unit)} (hk : ∀ f ∈ fs, Sowing toks f) (hg : ∀ f ∈ fs, DGood l base [] [] f (fun _ => []) (fun _ => []))
    (n : Nat) : ∀ {t : Token} {s : DocSt}, Proceeds toks s → WF l base s [] [] → ∀ s', docLoop fs toks n t s = .ok s' → Proceeds toks s' := by
  induction n with
  | zero => exact fun _ _ _ h => (nomatch h)
  | succ n ih =>
    intro t s hgo hw
    unfold docLoop
    split
    · exact fun _ h => (nomatch h)
    · exact fun _ h => (by cases h; exact hgo)
    · split
      · exact fun _ h => (nomatch h)
      · split
        · exact fun _ h => (nomatch h)
        · split
          · rename_i a s1 hx
            exact ih (sown_try hk hg hgo.1 hgo.2 hw a s1 hx) ((DGood.tryDocFns hg s [] [] hw).1 a s1 hx)
          · exact fun _ h => (nomatch h)
          · exact fun _ h => (nomatch h)

end Mau
