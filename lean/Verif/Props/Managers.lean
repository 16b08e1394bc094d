import Verif.Lemmas.DocWhole
import Verif.Spec.Managers
import Verif.Props.Blocks
import Verif.Props.Document

set_option linter.unusedSimpArgs false
set_option linter.unusedVariables false

/-!
# C43–C47, C62: footnotes, tables of contents, header links, groups
-/

namespace Mau
open Spec

/-! ## The text of nodes -/

theorem shows_iff {d : NodeData} {v : Str} : Shows d v ↔ d.value? = some v := by
  constructor
  · intro h; cases h <;> rfl
  · intro h
    cases d <;> simp only [NodeData.value?, Option.some.injEq, reduceCtorEq] at h <;> subst h <;> constructor

theorem wraps_iff {d : NodeData} : Wraps d ↔ d.hasContent = true := by
  constructor
  · intro h; cases h <;> rfl
  · intro h
    cases d <;> first | constructor | cases h

mutual
theorem wording_node : ∀ n : Node, ∀ {ns : List Node} {t : Str}, Wording ns t → Wording (n :: ns) (extractNode n ++ t)
  | .mk d a c cs ls ex => by
    intro hs
    unfold extractNode
    cases hv : d.value? with
    | some v => exact .shows (n := .mk d a c cs ls ex) (shows_iff.2 hv) hs
    | none =>
      dsimp only
      by_cases hc : d.hasContent = true
      · rw [if_pos hc]
        exact .wraps (n := .mk d a c cs ls ex) (wraps_iff.2 hc) (wording_nodes cs) hs
      · rw [if_neg hc]
        refine .silent (n := .mk d a c cs ls ex) ?_ (fun h => hc (wraps_iff.1 h)) hs
        intro v h
        have := shows_iff.1 h
        change d.value? = some v at this
        rw [hv] at this
        cases this
theorem wording_nodes : ∀ ns : List Node, Wording ns (extractText ns)
  | [] => .nil
  | n :: ns => wording_node n (wording_nodes ns)
end

theorem wording_unique {ns : List Node} {t : Str} (h : Wording ns t) : extractText ns = t := by
  induction h with
  | nil => rfl
  | @shows n ns v t h hs ih =>
    rw [extractText, ih]
    obtain ⟨d, a, c, cs, ls, ex⟩ := n
    have := shows_iff.1 h
    change d.value? = some v at this
    unfold extractNode
    rw [this]
  | @wraps n ns v t h hc hs ihc ih =>
    rw [extractText, ih]
    obtain ⟨d, a, c, cs, ls, ex⟩ := n
    have hw := wraps_iff.1 h
    change d.hasContent = true at hw
    unfold extractNode
    cases hv : d.value? with
    | some u => exfalso; cases d <;> first | (cases hw; done) | (cases hv; done)
    | none =>
      dsimp only
      rw [if_pos hw]
      change extractText cs ++ t = v ++ t
      rw [show extractText cs = v from ihc]
  | @silent n ns t h hw hs ih =>
    rw [extractText, ih]
    obtain ⟨d, a, c, cs, ls, ex⟩ := n
    unfold extractNode
    cases hv : d.value? with
    | some v => exact absurd (shows_iff.2 hv) (h v)
    | none =>
      dsimp only
      rw [if_neg (fun e : d.hasContent = true => hw (wraps_iff.2 e))]
      rfl

/-- The text of a node is unique. -/
theorem wording_one {n : Node} {t : Str} : Wording [n] t ↔ extractNode n = t := by
  constructor
  · intro h
    have := wording_unique h
    simpa [extractText] using this
  · rintro rfl
    have := wording_node n .nil
    simpa using this

/-! ## C43 — tables of contents -/

theorem parentOf_snoc {before : List (Nat × Nat)} {h : Nat × Nat} {l : Nat} :
    parentOf (before ++ [h]) l = if h.2 < l then some h.1 else parentOf before l := by
  unfold parentOf
  rw [List.reverse_append, List.reverse_singleton, List.singleton_append, List.find?_cons]
  by_cases hl : h.2 < l <;> simp [hl]

theorem parentOf_skip {before hs : List (Nat × Nat)} {l : Nat} (h : ∀ e ∈ hs, l ≤ e.2) : parentOf (before ++ hs) l = parentOf before l := by
  unfold parentOf
  rw [List.reverse_append, List.find?_append]
  have : hs.reverse.find? (fun h => decide (h.2 < l)) = none := by
    rw [List.find?_eq_none]
    intro e he
    have := h e (by simpa using he)
    simp; omega
  rw [this]; rfl

theorem withParents_append (before hs hs' : List (Nat × Nat)) : withParents before (hs ++ hs') = withParents before hs ++ withParents (before ++ hs) hs' := by
  induction hs generalizing before with
  | nil => simp [withParents]
  | cons h hs ih => rw [List.cons_append, withParents, withParents, ih, List.cons_append, List.append_assoc]; rfl

theorem nestHeaders_spec (fuel level : Nat) (before hs : List (Nat × Nat)) (p : Option Nat) (hf : hs.length < fuel)
    (hp : ∀ i l, hs.head? = some (i, l) → ∀ l', level < l' → l' ≤ l → parentOf before l' = p) :
    ∃ used, hs = used ++ (nestHeaders fuel level hs).2 ∧ (∀ e ∈ used, level < e.2) ∧ (∀ e, (nestHeaders fuel level hs).2.head? = some e → e.2 ≤ level) ∧
      entriesList p (outlineNodes (nestHeaders fuel level hs).1) = withParents before used := by
  induction fuel generalizing level before hs p with
  | zero => cases hf
  | succ n ih =>
    cases hs with
    | nil => exact ⟨[], rfl, fun _ h => (nomatch h), fun e h => (by cases h), rfl⟩
    | cons e hs =>
      obtain ⟨i, l⟩ := e
      unfold nestHeaders
      split
      · rename_i hl
        exact ⟨[], rfl, fun _ h => (nomatch h), fun e h => (by cases h; exact hl), rfl⟩
      · rename_i hl
        dsimp only
        obtain ⟨u1, e1, a1, b1, c1⟩ := ih l (before ++ [(i, l)]) hs (some i) (by simpa using hf) (by
          intro i' l2 _ l' h1 _
          rw [parentOf_snoc, if_pos h1])
        generalize hr : nestHeaders n l hs = r1 at e1 b1 c1 ⊢
        obtain ⟨u2, e2, a2, b2, c2⟩ := ih level (before ++ (i, l) :: u1) r1.2 p (by
            have : r1.2.length ≤ hs.length := by rw [e1]; simp
            simp at hf; omega) (by
          intro i' l2 hh l' h1 h2
          have h3 := b1 _ hh
          change l2 ≤ l at h3
          rw [parentOf_skip]
          · exact hp i l rfl l' h1 (by omega)
          · intro e he
            rcases List.mem_cons.1 he with rfl | he
            · change l' ≤ l; omega
            · have := a1 e he; omega)
        refine ⟨(i, l) :: u1 ++ u2, ?_, ?_, b2, ?_⟩
        · rw [List.append_assoc, ← e2, List.cons_append, ← e1]
        · intro e he
          rcases List.mem_append.1 he with he | he
          · rcases List.mem_cons.1 he with rfl | he
            · change level < l; omega
            · have := a1 e he; omega
          · exact a2 e he
        · rw [outlineNodes, entriesList, Outline.toNode]
          change ((i, p) :: entriesList (some i) (outlineNodes r1.1)) ++ _ = _
          rw [c1, c2, withParents_append, withParents]
          have : parentOf before l = p := hp i l rfl l (by omega) (Nat.le_refl _)
          rw [this]

/-- C43: the outline of headers (with positive levels) contains every header exactly once, in order, each under the nearest header before
it with a smaller level, or at the top if there is none. -/
theorem C43_outline (hs : List (Nat × Nat)) (hl : ∀ h ∈ hs, 1 ≤ h.2) : entriesList none (outlineNodes (outline hs)) = withParents [] hs := by
  unfold outline
  obtain ⟨u, e, -, b, c⟩ := nestHeaders_spec (hs.length + 1) 0 [] hs none (by omega) (by intro i l _ l' _ _; rfl)
  rw [c]
  have : (nestHeaders (hs.length + 1) 0 hs).2 = [] := by
    cases hr : (nestHeaders (hs.length + 1) 0 hs).2 with
    | nil => rfl
    | cons x xs =>
      exfalso
      have h1 := b x (by rw [hr]; rfl)
      have h2 := hl x (by rw [e, hr]; simp)
      omega
  rw [this, List.append_nil] at e
  rw [← e]

theorem ownTrees_eq {cfg : Config} {req : NestedReq} {s : DocSt} {os : List Node} (h : s.objs = req.objs ++ os) : ownTrees req s = trees s os := by
  unfold ownTrees
  rw [h, List.drop_left]
  rfl

/-- What is known of a parsed document. -/
theorem parsed {cfg : Config} {n : Nat} {req : NestedReq} {s : DocSt} (hf : Fresh req) (h : parseDocument cfg n req = .ok s) :
    ∃ s0 os os', ReadsTo cfg n req s0 ∧ finalise cfg s0 = .ok (start s) ∧ Finalised cfg req.uid req.objs s0 os (start s) os' ∧ ownTrees req s0 = trees s0 os ∧ ownTrees req s = trees (start s) os' := by
  obtain ⟨m, s0, os, os', rfl, h1, h2, h3⟩ := parsed_spec h hf.1 hf.2
  exact ⟨s0, os, os', ⟨parserObjects_ok.1 (parseDocument_objects_ok h), m, rfl, h1⟩, h2, h3, ownTrees_eq (cfg := cfg) h3.before.objs, ownTrees_eq (cfg := cfg) h3.after.objs⟩

theorem detach_header {d : NodeData} {i l : Nat} {int name : Option Str} (h : d.detach = (NodeData.header i l int name).detach) : ∃ k, d = .header k l int name := by
  cases d <;> simp [NodeData.detach] at h
  obtain ⟨rfl, rfl, rfl⟩ := h
  exact ⟨_, rfl⟩

/-- C43: in a parsed document

- the collected headers are different, have positive levels, and are headers of the document;
- the headers at the top of the document are among them, in document order;
- each table of contents lists the collected headers in order, each under the nearest one before it with a smaller level;
- and also contains a plain list of copies of the headers, in order, with their ids and with their texts as read. -/
theorem C43_document {cfg : Config} {n : Nat} {req : NestedReq} {s : DocSt} (hf : Fresh req) (h : parseDocument cfg n req = .ok s) :
    (s.tocHeaders.map (·.1)).Nodup ∧
    (∀ i l, (i, l) ∈ s.tocHeaders → 1 ≤ l ∧ ∃ o ∈ s.objs, ∃ int name, o.data = .header i l (some int) name) ∧
    (s.nodes.filterMap headerEntry).Sublist s.tocHeaders ∧
    ∃ s0, ReadsTo cfg n req s0 ∧ ∀ t ∈ s.nodes, ∀ i, t.data = .toc i → s.tocHeaders ≠ [] →
      entriesList none t.content = withParents [] s.tocHeaders ∧
      t.extra.length = s.tocHeaders.length ∧
      ∀ (j : Nat) (i l : Nat), s.tocHeaders[j]? = some (i, l) → ∃ c o o0 k int name, t.extra[j]? = some c ∧
        o ∈ s.objs ∧ o.data = .header i l (some int) name ∧ c.data = .header k l (some int) name ∧
        o0 ∈ s0.objs ∧ o0.data.id = i ∧ ∃ t, Wording [c] t ∧ Wording [o0] t := by
  obtain ⟨s0, os, os', h1, h2, h3, h4, h5⟩ := parsed hf h
  have ht : s0.tocHeaders = s.tocHeaders := (congrArg DocSt.tocHeaders h3.same).symm
  refine ⟨h3.after.toc.1, ?_, h3.after.order.1, s0, h1, ?_⟩
  · intro i l hi
    refine ⟨h3.after.toc.2 _ hi, ?_⟩
    obtain ⟨o, ho, e, hid, a, b, hd⟩ := h3.after.head hi
    refine ⟨o, (obj?_some e).1, ?_⟩
    cases a with
    | none => exact absurd hd (h3.settled o (occ_obj ho) _ _ _)
    | some a => exact ⟨a, b, hd⟩
  · intro t htm i hd hne
    have hi : i ∈ s.tocNodes := (mem_dreg (t := .toc) (s := start s)).1 (h3.after.order.2 t htm (i, .toc) (by rw [hd]; rfl))
    have hi0 : i ∈ s0.tocNodes := by
      have e : s0.tocNodes = s.tocNodes := (congrArg DocSt.tocNodes h3.same).symm
      rw [e]; exact hi
    obtain ⟨a, b⟩ := h3.tocs (by rw [ht]; exact hne) i hi0 t (occ_append.2 (.inl (occ_of_mem htm))) (by rw [hd]; rfl)
    rw [ht] at a
    refine ⟨by rw [a]; exact C43_outline _ h3.after.toc.2, ?_⟩
    have hg : headerGists s0 (start s) = s.tocHeaders.map fun e => (((s.obj? e.1).map (·.data.detach)).getD .document, ((s0.obj? e.1).map extractNode).getD []) := by
      unfold headerGists
      rw [ht, ← List.filterMap_eq_map]
      refine filterMap_congr' fun e he => ?_
      obtain ⟨o, _, eo, _⟩ := h3.after.head he
      obtain ⟨o0, _, eo0, _⟩ := h3.before.head (by rw [ht]; exact he)
      have eo' : s.obj? e.1 = some o := eo
      simp [eo, eo0, eo']
    rw [hg] at b
    refine ⟨by simpa using congrArg List.length b, ?_⟩
    intro j i' l hj
    have hb := congrArg (fun l => l[j]?) b
    simp only [List.getElem?_map, hj, Option.map_some] at hb
    obtain ⟨c, hc, hcd⟩ := Option.map_eq_some_iff.1 hb
    have hm := List.mem_of_getElem? hj
    obtain ⟨o, ho, eo, ido, hdo⟩ := h3.after.head hm
    obtain ⟨o0, ho0, eo0, ido0, _⟩ := h3.before.head (by rw [ht]; exact hm)
    have eo' : s.obj? i' = some o := eo
    rw [eo', eo0] at hcd
    unfold gist at hcd
    injection hcd with hc1 hc2
    have hcd : c.data.detach = o.data.detach := hc1
    obtain ⟨x, y, hd'⟩ := hdo
    cases x with
    | none => exact absurd hd' (h3.settled o (occ_obj ho) _ _ _)
    | some x =>
      rw [hd'] at hcd
      obtain ⟨k, hk⟩ := detach_header hcd
      exact ⟨c, o, o0, k, x, y, hc, (obj?_some eo').1, hd', hk, (obj?_some eo0).1, ido0, _, wording_one.2 hc2, wording_one.2 rfl⟩

/-- C43: what is handed over beside the document. If the document has nodes, its table of contents is handed over: all collected headers in
order, and the outline, in which each is under the nearest one before it with a smaller level. For a document without nodes there is
neither a document nor a table of contents. -/
theorem C43_output {cfg : Config} {n : Nat} {req : NestedReq} {s : DocSt} (hf : Fresh req) (h : parseDocument cfg n req = .ok s) :
    (s.nodes = [] → s.output.document = none ∧ s.output.toc = none) ∧
    (s.nodes ≠ [] → (∃ d, s.output.document = some d ∧ d.data = .document ∧ d.content = s.nodes) ∧
      ∃ plain nested, s.output.toc = some (plain, nested) ∧ plain = s.tocHeaders.map (·.1) ∧
        entriesList none nested = withParents [] s.tocHeaders) := by
  have h1 := (C43_document hf h).2.1
  unfold DocSt.output
  constructor
  · intro e
    rw [e]
    exact ⟨rfl, rfl⟩
  · intro hne
    dsimp only
    have hs : ∃ c, spanOf s.nodes = .ok c := by
      cases hn : s.nodes with
      | nil => exact absurd hn hne
      | cons x xs =>
        unfold spanOf
        cases hl : (x :: xs).getLast? with
        | none => simp at hl
        | some y => exact ⟨_, rfl⟩
    obtain ⟨c, hc⟩ := hs
    rw [hc, if_neg (by simpa using hne)]
    exact ⟨⟨_, rfl, rfl, rfl⟩, _, _, rfl, rfl, C43_outline _ fun x hx => (h1 x.1 x.2 hx).1⟩

/-! ## C44 — header ids -/

/-- C44: every header has an internal id. -/
theorem C44_every {cfg : Config} {n : Nat} {req : NestedReq} {s : DocSt} (hf : Fresh req) (h : parseDocument cfg n req = .ok s)
    {x : Node} (hx : Occ x (ownTrees req s)) {i l : Nat} {int name : Option Str} (hd : x.data = .header i l int name) : ∃ v, int = some v := by
  obtain ⟨s0, os, os', h1, h2, h3, h4, h5⟩ := parsed hf h
  rw [h5] at hx
  cases int with
  | none => exact absurd hd (h3.settled x hx _ _ _)
  | some v => exact ⟨v, rfl⟩

/-- C44: a header of the document has the id given to it, or one computed by the configured function from a node with the fields and the
text the header was read with. -/
theorem C44_ids {cfg : Config} {n : Nat} {req : NestedReq} {s : DocSt} (hf : Fresh req) (h : parseDocument cfg n req = .ok s) :
    ∃ s0, ReadsTo cfg n req s0 ∧ ∀ i l, (i, l) ∈ s.tocHeaders → ∃ o ∈ s0.objs, ∃ given name, o.data = .header i l given name ∧
      ∃ o1 : Node, o1.data = o.data ∧ (∃ t, Wording [o1] t ∧ Wording [o] t) ∧
      ∀ x, Occ x (ownTrees req s) → x.data.id = i → x.data = .header i l (some (given.getD (cfg.headerId o1))) name := by
  obtain ⟨s0, os, os', h1, h2, h3, h4, h5⟩ := parsed hf h
  have ht : s0.tocHeaders = s.tocHeaders := (congrArg DocSt.tocHeaders h3.same).symm
  refine ⟨s0, h1, ?_⟩
  intro i l hi
  obtain ⟨o, ho, a, nm, hd, o1, hd1, he1, hall⟩ := h3.headers (i, l) (by rw [ht]; exact hi)
  refine ⟨o, by rw [h3.before.objs]; exact List.mem_append_right _ ho, a, nm, hd, o1, hd1, ⟨_, wording_one.2 he1, wording_one.2 rfl⟩, ?_⟩
  rw [h5]
  exact hall

/-- C44: with the default function, the id of a header without one depends only on its level and its text as read. -/
theorem C44_default {cfg : Config} {lower md5 : Str → Str} (hcfg : cfg.headerId = defaultHeaderId lower md5) {n : Nat} {req : NestedReq} {s : DocSt}
    (hf : Fresh req) (h : parseDocument cfg n req = .ok s) :
    ∃ s0, ReadsTo cfg n req s0 ∧ ∀ i l, (i, l) ∈ s.tocHeaders → ∃ o ∈ s0.objs, ∃ given name text, o.data = .header i l given name ∧
      Wording o.content text ∧
      ∀ x, Occ x (ownTrees req s) → x.data.id = i → x.data = .header i l (some (given.getD (defaultIdOf lower md5 l text))) name := by
  obtain ⟨s0, h1, h2⟩ := C44_ids hf h
  refine ⟨s0, h1, ?_⟩
  intro i l hi
  obtain ⟨o, ho, a, nm, hd, o1, hd1, ⟨t1, ht1, ht2⟩, hall⟩ := h2 i l hi
  have he1 : extractNode o1 = extractNode o := (wording_one.1 ht1).trans (wording_one.1 ht2).symm
  refine ⟨o, ho, a, nm, extractNode o, hd, ?_, ?_⟩
  · obtain ⟨d, x, c, cs, ls, ex⟩ := o
    change d = _ at hd
    subst hd
    exact wording_nodes cs
  have : cfg.headerId o1 = defaultIdOf lower md5 l (extractNode o) := by
    rw [hcfg]
    unfold defaultHeaderId
    rw [hd1, hd]
    dsimp only
    rw [← he1]
    congr 1
    obtain ⟨d, _, _, cs, _, _⟩ := o1
    change d = _ at hd1
    rw [hd] at hd1
    subst hd1
    rfl
  rw [← this]
  exact hall

theorem dashRuns_mem {p : Bool} {s : Str} {c : Char} (h : c ∈ dashRuns p s) : c = '-' ∨ c ∈ s ∧ c ≠ ' ' ∧ c ≠ '_' := by
  induction s generalizing p with
  | nil => cases h
  | cons a s ih =>
    unfold dashRuns at h
    split at h
    · split at h
      · rcases ih h with h | ⟨h1, h2⟩
        · exact .inl h
        · exact .inr ⟨List.mem_cons_of_mem _ h1, h2⟩
      · rcases List.mem_cons.1 h with h | h
        · exact .inl h
        · rcases ih h with h | ⟨h1, h2⟩
          · exact .inl h
          · exact .inr ⟨List.mem_cons_of_mem _ h1, h2⟩
    · rename_i ha
      rcases List.mem_cons.1 h with rfl | h
      · refine .inr ⟨List.mem_cons_self, ?_⟩
        simpa using ha
      · rcases ih h with h | ⟨h1, h2⟩
        · exact .inl h
        · exact .inr ⟨List.mem_cons_of_mem _ h1, h2⟩

/-- C44: a default id contains only lower case letters, digits, dashes and dots (if the digest is hexadecimal). -/
theorem C44_chars {lower md5 : Str → Str} (hmd : ∀ s, ∀ c ∈ md5 s, isLowerAscii c = true ∨ isDigitAscii c = true) (level : Nat) (text : Str) :
    ∀ c ∈ defaultIdOf lower md5 level text, isLowerAscii c = true ∨ isDigitAscii c = true ∨ c = '-' ∨ c = '.' := by
  intro c hc
  unfold defaultIdOf at hc
  simp only [List.mem_append, List.mem_singleton] at hc
  rcases hc with (hc | hc) | hc
  · rcases dashRuns_mem hc with h | ⟨h, h1, _⟩
    · exact .inr (.inr (.inl h))
    · have := (List.mem_filter.1 h).2
      unfold isIdChar at this
      simp only [Bool.or_eq_true, beq_iff_eq] at this
      rcases this with (((h | h) | h) | h) | h
      · exact .inl h
      · exact .inr (.inl h)
      · exact .inr (.inr (.inl h))
      · exact .inr (.inr (.inr h))
      · exact absurd h h1
  · exact .inr (.inr (.inl hc))
  · rcases hmd _ c (List.mem_of_mem_take hc) with h | h
    · exact .inl h
    · exact .inr (.inl h)

theorem natStr_space {l : Nat} {t : Str} {l' : Nat} {t' : Str} (h : natStr l ++ ' ' :: t = natStr l' ++ ' ' :: t') : l = l' ∧ t = t' := by
  have key : ∀ (a b : Str), (∀ c ∈ a, c ≠ ' ') → (∀ c ∈ b, c ≠ ' ') → a ++ ' ' :: t = b ++ ' ' :: t' → a = b ∧ t = t' := by
    intro a
    induction a with
    | nil =>
      intro b _ hb h
      cases b with
      | nil => exact ⟨rfl, (List.cons.inj h).2⟩
      | cons y ys => exact absurd (List.cons.inj h).1.symm (hb y (.head _))
    | cons x xs ih =>
      intro b ha hb h
      cases b with
      | nil => exact absurd (List.cons.inj h).1 (ha x (.head _))
      | cons y ys =>
        obtain ⟨h1, h2⟩ := List.cons.inj h
        obtain ⟨h3, h4⟩ := ih ys (fun c hc => ha c (.tail _ hc)) (fun c hc => hb c (.tail _ hc)) h2
        exact ⟨by rw [h1, h3], h4⟩
  have dig : ∀ (n : Nat), ∀ c ∈ natStr n, c ≠ ' ' := by
    intro n c hc he
    have := Nat.isDigit_of_mem_toDigits (by decide) (by decide) hc
    subst he
    exact absurd this (by decide)
  obtain ⟨h1, h2⟩ := key _ _ (dig l) (dig l') h
  refine ⟨?_, h2⟩
  have h3 : Nat.toDigits 10 l = Nat.toDigits 10 l' := h1
  have := Nat.ofDigitChars_ten_toDigits (n := l)
  rw [h3, Nat.ofDigitChars_ten_toDigits] at this
  exact this.symm

/-- C44: default ids of headers clash only if the headers have the same level and the same text, or the digests of
`<level> <text>` start with the same four digits although level or text differ. -/
theorem C44_clash {lower md5 : Str → Str} (hlen : ∀ s, 4 ≤ (md5 s).length) {l l' : Nat} {t t' : Str}
    (h : defaultIdOf lower md5 l t = defaultIdOf lower md5 l' t') :
    (l = l' ∧ t = t') ∨ natStr l ++ ' ' :: t ≠ natStr l' ++ ' ' :: t' ∧
      (md5 (natStr l ++ ' ' :: t)).take 4 = (md5 (natStr l' ++ ' ' :: t')).take 4 := by
  unfold defaultIdOf at h
  simp only [List.append_assoc, List.singleton_append] at h
  have h4 := congrArg (fun s => (List.reverse s).take 4) h
  have hl : ∀ s : Str, ((md5 s).take 4).length = 4 := by
    intro s; rw [List.length_take]; have := hlen s; omega
  have hr : ∀ (a s : Str), ((a ++ '-' :: (md5 s).take 4).reverse).take 4 = ((md5 s).take 4).reverse := by
    intro a s
    simp only [List.reverse_append, List.reverse_cons, List.append_assoc]
    rw [List.take_append_of_le_length (by rw [List.length_reverse, hl]; exact Nat.le_refl _), List.take_of_length_le (by rw [List.length_reverse, hl]; exact Nat.le_refl _)]
  rw [hr, hr] at h4
  have h5 := List.reverse_inj.1 h4
  by_cases hk : natStr l ++ ' ' :: t = natStr l' ++ ' ' :: t'
  · exact .inl (natStr_space hk)
  · exact .inr ⟨hk, h5⟩

/-- With a digest that repeats its input: the id of a header, and the ids of headers which differ in their level only. -/
example : defaultIdOf id (fun s => s ++ c%"0000") 2 c%"a new_ day (1.5)" = c%"a-new-day-1.5-2 a " ∧
    defaultIdOf id (fun s => s ++ c%"0000") 2 c%"a" ≠ defaultIdOf id (fun s => s ++ c%"0000") 3 c%"a" ∧
    (∀ s : Str, 4 ≤ (s ++ c%"0000").length) := by
  refine ⟨by decide +kernel, by decide +kernel, fun s => ?_⟩
  rw [List.length_append]
  exact Nat.le_add_left _ _

/-! ## C45 — footnotes -/

/-- C45: the footnotes of a document are numbered from one in the order of their definitions; each has the text of its definition; each
collected mention refers to the footnote of its name; each list of footnotes contains all footnotes in order. -/
theorem C45_footnotes {cfg : Config} {n : Nat} {req : NestedReq} {s : DocSt} (hf : Fresh req) (h : parseDocument cfg n req = .ok s) :
    ∃ s0, ReadsTo cfg n req s0 ∧ ∃ fns : List Node, (∀ f ∈ fns, f ∈ s.objs) ∧ fns.length = s0.bodies.length ∧
      (∀ (j : Nat) name body, s0.bodies[j]? = some (name, body) → ∃ f, fns[j]? = some f ∧ f.content = detachList body.content ∧
        ∃ int, f.data = .footnote f.data.id name (some (natStr (j + 1))) (some int)) ∧
      (∀ i name, (i, name) ∈ s.footnoteMacros → ∃ f ∈ fns, (∃ pub int, f.data = .footnote f.data.id name pub int) ∧
        ∀ x, Occ x (ownTrees req s) → x.data.id = i → x.data = .macroFootnote i name (some f.data.id)) ∧
      ∀ t ∈ s.nodes, ∀ i, t.data = .footnotes i → t.content = fns.map fun f => Node.new (.footnotesItem f.data.id) Context.empty := by
  obtain ⟨s0, os, os', h1, h2, h3, h4, h5⟩ := parsed hf h
  have hfm : s0.footnoteMacros = s.footnoteMacros := (congrArg DocSt.footnoteMacros h3.same).symm
  have hfl : s0.footnoteLists = s.footnoteLists := (congrArg DocSt.footnoteLists h3.same).symm
  have e := (makeFootnotes_eq cfg s0.bodies 1 s0.uid).2
  refine ⟨s0, h1, (makeFootnotes cfg 1 s0.uid s0.bodies).1.map (·.2), ?_, by rw [e]; simp, ?_, ?_, ?_⟩
  · intro f hf
    obtain ⟨kv, hk, rfl⟩ := List.mem_map.1 hf
    have : kv.2 ∈ (start s).objs := by rw [h3.after.objs]; exact List.mem_append_right _ (h3.footnotes kv hk)
    exact this
  · intro j name body hj
    refine ⟨footnoteOf cfg (s0.uid + j) (1 + j) name body, ?_, rfl, ?_⟩
    · rw [e]; simp [hj]
    · rw [Nat.add_comm j 1]
      exact ⟨_, rfl⟩
  · intro i name hi
    obtain ⟨fn, hg, hall⟩ := h3.mentions (i, name) (by rw [hfm]; exact hi)
    have hm := Dict.mem_of_get? hg
    refine ⟨fn, List.mem_map.2 ⟨_, hm, rfl⟩, ?_, ?_⟩
    · rw [e] at hm
      obtain ⟨j, hj, e'⟩ := List.mem_iff_getElem.1 hm
      rw [List.getElem_mapIdx] at e'
      injection e' with e1 e2
      dsimp only at e1 e2
      rw [← e2, ← e1]
      exact ⟨_, _, rfl⟩
    · rw [h5]; exact hall
  · intro t ht i hd
    have hi : i ∈ s.footnoteLists := (mem_dreg (t := .footnotes) (s := start s)).1 (h3.after.order.2 t ht (i, .footnotes) (by rw [hd]; rfl))
    rw [h3.lists i (by rw [hfl]; exact hi) t (occ_append.2 (.inl (occ_of_mem ht))) (by rw [hd]; rfl)]
    rw [List.map_map]
    rfl

/-- C45: the names of the defined footnotes are different. -/
theorem C45_names {cfg : Config} {n : Nat} {req : NestedReq} {s0 : DocSt} (hf : Fresh req) (h : ReadsTo cfg n req s0) : Dict.Distinct s0.bodies := by
  obtain ⟨-, m, rfl, h1⟩ := h
  exact (run_wf (P := ⟨cfg, parseDocument cfg m, m, req.source⟩) (parseDocument_good cfg m) (WF.initial hf.1 hf.2) h1).bodies.1

/-! ## Undefined names -/

theorem firstMissing_cons {α : Type} {i : Nat} {nm : Str} {l : List (Nat × Str)} {d : Dict α} :
    firstMissing ((i, nm) :: l) d = match Dict.get? d nm with | none => some (i, nm) | some _ => firstMissing l d := by
  unfold firstMissing
  rw [List.find?_cons]
  cases Dict.get? d nm <;> rfl

theorem firstMissing_congr {α β : Type} {l : List (Nat × Str)} {d : Dict α} {d' : Dict β} (h : ∀ k, (Dict.get? d k).isNone = (Dict.get? d' k).isNone) :
    firstMissing l d = firstMissing l d' := by
  unfold firstMissing
  simp only [h]

theorem get?_mapVals {α β : Type} (f : Str → α → β) (d : Dict α) (k : Str) : Dict.get? (d.map fun kv => (kv.1, f kv.1 kv.2)) k = (Dict.get? d k).map (f k) := by
  induction d with
  | nil => rfl
  | cons kv d ih =>
    obtain ⟨a, b⟩ := kv
    by_cases h : a = k
    · subst h; simp [Dict.get?]
    · simp only [List.map_cons, Dict.get?, h, ↓reduceIte, ih]

theorem get?_makeFootnotes (cfg : Config) (bodies : Dict Node) (a b : Nat) (k : Str) : (Dict.get? (makeFootnotes cfg a b bodies).1 k).isNone = (Dict.get? bodies k).isNone := by
  induction bodies generalizing a b with
  | nil => rfl
  | cons kv d ih =>
    obtain ⟨x, y⟩ := kv
    rw [makeFootnotes_cons]
    by_cases h : x = k
    · subst h; simp [Dict.get?]
    · simp only [Dict.get?, h, ↓reduceIte, ih]

/-- The parts of the state names are looked up in, and the uses, are the same. -/
structure SameNames (s s' : DocSt) : Prop where
  links : s'.linkMacros = s.linkMacros
  targets : s'.linkHeaders = s.linkHeaders
  groups : s'.groupNodes = s.groupNodes
  members : ∀ g, (Dict.get? s'.groups g).isNone = (Dict.get? s.groups g).isNone
  places : s'.places = s.places

theorem SameNames.placeOf {s s' : DocSt} (h : SameNames s s') (i : Nat) : s'.placeOf i = s.placeOf i := by
  unfold DocSt.placeOf; rw [h.places]
theorem SameNames.refl {s : DocSt} : SameNames s s := ⟨rfl, rfl, rfl, fun _ => rfl, rfl⟩
theorem SameNames.trans {a b c : DocSt} (h : SameNames a b) (h' : SameNames b c) : SameNames a c :=
  ⟨h'.1.trans h.1, h'.2.trans h.2, h'.3.trans h.3, fun g => (h'.4 g).trans (h.4 g), h'.5.trans h.5⟩
theorem SameNames.update {s : DocSt} {i : Nat} {f : Node → Node} : SameNames s (s.updateNode i f) := by
  refine ⟨rfl, rfl, rfl, fun g => ?_, rfl⟩
  have := get?_mapVals (fun _ v => mapIdLabels i f v) s.groups g
  change (Dict.get? (s.groups.map fun g => (g.1, mapIdLabels i f g.2)) g).isNone = _
  rw [this]
  cases Dict.get? s.groups g <;> rfl

theorem SameNames.fold {α : Type} {step : DocSt → α → DocSt} (h : ∀ s a, SameNames s (step s a)) (l : List α) (s : DocSt) : SameNames s (l.foldl step s) := by
  induction l generalizing s with
  | nil => exact .refl
  | cons a l ih => exact (h s a).trans (ih _)

theorem linkFootnotes_outcome (fns : Dict Node) (l : List (Nat × Str)) (s : DocSt) :
    match firstMissing l fns with
    | some e => linkFootnotes fns l s = .error (.parser (.text (c%"Footnote '" ++ e.2 ++ c%"' has not been defined.")) (s.placeOf e.1))
    | none => ∃ s', linkFootnotes fns l s = .ok s' ∧ SameNames s s' := by
  induction l generalizing s with
  | nil => exact ⟨s, rfl, .refl⟩
  | cons e l ih =>
    obtain ⟨i, nm⟩ := e
    rw [firstMissing_cons]
    unfold linkFootnotes
    cases Dict.get? fns nm with
    | none => rfl
    | some fn =>
      have := ih (s.updateNode i fun n => n.setData (.macroFootnote i nm (some fn.data.id)))
      dsimp only
      cases hm : firstMissing l fns with
      | some x => rw [hm] at this; exact this
      | none =>
        rw [hm] at this
        obtain ⟨s', h1, h2⟩ := this
        exact ⟨s', h1, SameNames.update.trans h2⟩

theorem linkHeaders_outcome (l : List (Nat × Str)) (s : DocSt) :
    match firstMissing l s.linkHeaders with
    | some e => linkHeaders l s = .error (.parser (.text (c%"Cannot find header with id " ++ e.2)) (s.placeOf e.1))
    | none => ∃ s', linkHeaders l s = .ok s' ∧ SameNames s s' := by
  induction l generalizing s with
  | nil => exact ⟨s, rfl, .refl⟩
  | cons e l ih =>
    obtain ⟨i, nm⟩ := e
    rw [firstMissing_cons]
    unfold linkHeaders
    cases Dict.get? s.linkHeaders nm with
    | none => rfl
    | some hid =>
      dsimp only
      generalize hs1 : (s.updateNode i fun n => n.setData (.macroHeader i nm (some hid))) = s1
      generalize hs2 : (s1.updateNode i fun n => if n.content.isEmpty then n.setContent (((s1.obj? hid).map fun h => detachList h.content).getD []) else n) = s2
      have hn : SameNames s s2 := by subst hs2; subst hs1; exact SameNames.update.trans .update
      have := ih s2
      rw [hn.targets] at this
      cases hm : firstMissing l s.linkHeaders with
      | some x => rw [hm] at this; dsimp only at this ⊢; rw [← hn.placeOf]; exact this
      | none =>
        rw [hm] at this
        obtain ⟨s', h1, h2⟩ := this
        exact ⟨s', h1, hn.trans h2⟩

theorem processGroups_outcome (l : List (Nat × Str)) (s : DocSt) :
    match firstMissing l s.groups with
    | some e => processGroups l s = .error (.parser (.text (c%"The group '" ++ e.2 ++ c%"' does not exist.")) (s.placeOf e.1))
    | none => ∃ s', processGroups l s = .ok s' := by
  induction l generalizing s with
  | nil => exact ⟨s, rfl⟩
  | cons e l ih =>
    obtain ⟨i, nm⟩ := e
    rw [firstMissing_cons]
    unfold processGroups
    cases Dict.get? s.groups nm with
    | none => rfl
    | some items =>
      dsimp only
      have := ih (s.updateNode i (·.setContent (items.map (·.2))))
      rw [firstMissing_congr (SameNames.update (s := s) (i := i)).members] at this
      exact this

theorem processToc_same (cfg : Config) (s : DocSt) : SameNames s (processToc cfg s) := by
  unfold processToc
  split
  · exact .refl
  · dsimp only
    refine (SameNames.fold (fun s h => ?_) _ _).trans (SameNames.fold (fun s h => .update) _ _)
    unfold setHeaderId
    split
    · exact .refl
    · split
      · exact .update
      · exact .refl

/-- What finalisation gives. -/
theorem finalise_outcome (cfg : Config) (s : DocSt) :
    match firstMissing s.footnoteMacros s.bodies with
    | some e => finalise cfg s = .error (.parser (.text (c%"Footnote '" ++ e.2 ++ c%"' has not been defined.")) (s.placeOf e.1))
    | none =>
      match firstMissing s.linkMacros s.linkHeaders with
      | some e => finalise cfg s = .error (.parser (.text (c%"Cannot find header with id " ++ e.2)) (s.placeOf e.1))
      | none =>
        match firstMissing s.groupNodes s.groups with
        | some e => finalise cfg s = .error (.parser (.text (c%"The group '" ++ e.2 ++ c%"' does not exist.")) (s.placeOf e.1))
        | none => ∃ s', finalise cfg s = .ok s' := by
  have h1 := linkFootnotes_outcome (makeFootnotes cfg 1 s.uid s.bodies).1 s.footnoteMacros { s with uid := (makeFootnotes cfg 1 s.uid s.bodies).2, objs := s.objs ++ (makeFootnotes cfg 1 s.uid s.bodies).1.map (·.2) }
  rw [firstMissing_congr (get?_makeFootnotes cfg s.bodies 1 s.uid)] at h1
  unfold finalise
  cases hm : firstMissing s.footnoteMacros s.bodies with
  | some nm =>
    rw [hm] at h1
    unfold processFootnotes
    dsimp only at h1 ⊢
    rw [h1]
    rfl
  | none =>
    rw [hm] at h1
    obtain ⟨s1, h2, h3⟩ := h1
    obtain ⟨s2, h4, h5⟩ : ∃ s2, processFootnotes cfg s = .ok s2 ∧ SameNames s s2 := by
      unfold processFootnotes
      dsimp only
      rw [h2]
      refine ⟨_, rfl, SameNames.trans ?_ (SameNames.fold (fun _ _ => .update) _ _)⟩
      exact SameNames.trans (b := { s with uid := (makeFootnotes cfg 1 s.uid s.bodies).2, objs := s.objs ++ (makeFootnotes cfg 1 s.uid s.bodies).1.map (·.2) }) ⟨rfl, rfl, rfl, fun _ => rfl, rfl⟩ h3
    rw [h4]
    dsimp only [Bind.bind, Except.bind]
    have h6 := h5.trans (processToc_same cfg s2)
    generalize processToc cfg s2 = s3 at h6
    have h7 := linkHeaders_outcome s3.linkMacros s3
    rw [h6.links, h6.targets] at h7
    rw [h6.links]
    cases hm2 : firstMissing s.linkMacros s.linkHeaders with
    | some nm =>
      rw [hm2] at h7
      dsimp only at h7 ⊢
      rw [h7, h6.placeOf]
    | none =>
      rw [hm2] at h7
      obtain ⟨s4, h8, h9⟩ := h7
      rw [h8]
      dsimp only
      have h10 := h6.trans h9
      have h11 := processGroups_outcome s4.groupNodes s4
      rw [firstMissing_congr h10.members, h10.groups] at h11
      rw [h10.groups]
      simp only [h10.placeOf] at h11
      exact h11

/-- The document as read decides about the outcome of parsing. -/
theorem outcome_of_read {cfg : Config} {n : Nat} {req : NestedReq} {s0 : DocSt} (h : ReadsTo cfg n req s0) :
    (∀ e, finalise cfg s0 = .error e → parseDocument cfg n req = .error e) ∧ ∀ s1, finalise cfg s0 = .ok s1 → ∃ s, parseDocument cfg n req = .ok s ∧ start s = s1 := by
  obtain ⟨hu, m, rfl, h1⟩ := h
  have hr := parseDocument_run cfg m req (parserObjects_ok.2 hu)
  have h1' : (parser cfg m req.source).run req.startLine req.startColumn (splitChar '\n' req.text) (initial req) = .ok s0 := h1
  rw [h1'] at hr
  constructor
  · intro e he
    refine map_error (f := start) (hr.trans ?_)
    exact he
  · intro s1 he
    obtain ⟨s, h2, h3⟩ := map_ok (f := start) (y := s1) (hr.trans he)
    exact ⟨s, h2, h3.symm⟩

theorem firstMissing_some {α : Type} {l : List (Nat × Str)} {d : Dict α} {e : Nat × Str} (h : firstMissing l d = some e) : (e.1, e.2) ∈ l ∧ Dict.get? d e.2 = none := by
  unfold firstMissing at h
  exact ⟨List.mem_of_find?_eq_some h, by simpa using List.find?_some h⟩

theorem firstMissing_none {α : Type} {l : List (Nat × Str)} {d : Dict α} : firstMissing l d = none ↔ ∀ i nm, (i, nm) ∈ l → ∃ v, Dict.get? d nm = some v := by
  unfold firstMissing
  rw [List.find?_eq_none]
  constructor
  · intro h i nm hm
    have := h _ hm
    cases hg : Dict.get? d nm with
    | none => simp [hg] at this
    | some v => exact ⟨v, rfl⟩
  · rintro h ⟨i, nm⟩ hm
    obtain ⟨v, hv⟩ := h i nm hm
    simp [hv]

/-- C45: mentioning a footnote that is not defined in the document is a Mau error. -/
theorem C45_undefined {cfg : Config} {n : Nat} {req : NestedReq} {s0 : DocSt} (h : ReadsTo cfg n req s0) {i : Nat} {name : Str}
    (hm : (i, name) ∈ s0.footnoteMacros) (hn : Dict.get? s0.bodies name = none) :
    ∃ i' name', (i', name') ∈ s0.footnoteMacros ∧ Dict.get? s0.bodies name' = none ∧ parseDocument cfg n req = .error (.parser (.text (c%"Footnote '" ++ name' ++ c%"' has not been defined.")) (s0.placeOf i')) := by
  have h1 := finalise_outcome cfg s0
  cases hx : firstMissing s0.footnoteMacros s0.bodies with
  | none =>
    obtain ⟨v, hv⟩ := firstMissing_none.1 hx i name hm
    rw [hn] at hv; cases hv
  | some nm =>
    rw [hx] at h1
    obtain ⟨a, b⟩ := firstMissing_some hx
    exact ⟨nm.1, nm.2, a, b, (outcome_of_read h).1 _ h1⟩

/-- C46: a link to a header that is not in the document is a Mau error (unless a footnote is undefined, which is an error too). -/
theorem C46_unknown {cfg : Config} {n : Nat} {req : NestedReq} {s0 : DocSt} (h : ReadsTo cfg n req s0)
    (hfn : ∀ i name, (i, name) ∈ s0.footnoteMacros → ∃ b, Dict.get? s0.bodies name = some b) {i : Nat} {name : Str}
    (hm : (i, name) ∈ s0.linkMacros) (hn : Dict.get? s0.linkHeaders name = none) :
    ∃ i' name', (i', name') ∈ s0.linkMacros ∧ Dict.get? s0.linkHeaders name' = none ∧ parseDocument cfg n req = .error (.parser (.text (c%"Cannot find header with id " ++ name')) (s0.placeOf i')) := by
  have h1 := finalise_outcome cfg s0
  rw [firstMissing_none.2 hfn] at h1
  cases hx : firstMissing s0.linkMacros s0.linkHeaders with
  | none =>
    obtain ⟨v, hv⟩ := firstMissing_none.1 hx i name hm
    rw [hn] at hv; cases hv
  | some nm =>
    rw [hx] at h1
    obtain ⟨a, b⟩ := firstMissing_some hx
    exact ⟨nm.1, nm.2, a, b, (outcome_of_read h).1 _ h1⟩

/-- C47: a group without blocks is a Mau error (unless a footnote or a header is undefined). -/
theorem C47_unknown {cfg : Config} {n : Nat} {req : NestedReq} {s0 : DocSt} (h : ReadsTo cfg n req s0)
    (hfn : ∀ i name, (i, name) ∈ s0.footnoteMacros → ∃ b, Dict.get? s0.bodies name = some b)
    (hln : ∀ i name, (i, name) ∈ s0.linkMacros → ∃ b, Dict.get? s0.linkHeaders name = some b) {i : Nat} {name : Str}
    (hm : (i, name) ∈ s0.groupNodes) (hn : Dict.get? s0.groups name = none) :
    ∃ i' name', (i', name') ∈ s0.groupNodes ∧ Dict.get? s0.groups name' = none ∧ parseDocument cfg n req = .error (.parser (.text (c%"The group '" ++ name' ++ c%"' does not exist.")) (s0.placeOf i')) := by
  have h1 := finalise_outcome cfg s0
  rw [firstMissing_none.2 hfn] at h1
  dsimp only at h1
  rw [firstMissing_none.2 hln] at h1
  cases hx : firstMissing s0.groupNodes s0.groups with
  | none =>
    obtain ⟨v, hv⟩ := firstMissing_none.1 hx i name hm
    rw [hn] at hv; cases hv
  | some nm =>
    rw [hx] at h1
    obtain ⟨a, b⟩ := firstMissing_some hx
    exact ⟨nm.1, nm.2, a, b, (outcome_of_read h).1 _ h1⟩

/-- C62: these are the only ways finalisation fails: if everything mentioned is defined, the document is parsed. -/
theorem C62_complete {cfg : Config} {n : Nat} {req : NestedReq} {s0 : DocSt} (h : ReadsTo cfg n req s0)
    (hfn : ∀ i name, (i, name) ∈ s0.footnoteMacros → ∃ b, Dict.get? s0.bodies name = some b)
    (hln : ∀ i name, (i, name) ∈ s0.linkMacros → ∃ b, Dict.get? s0.linkHeaders name = some b)
    (hgn : ∀ i name, (i, name) ∈ s0.groupNodes → ∃ b, Dict.get? s0.groups name = some b) : ∃ s, parseDocument cfg n req = .ok s := by
  have h1 := finalise_outcome cfg s0
  rw [firstMissing_none.2 hfn] at h1
  dsimp only at h1
  rw [firstMissing_none.2 hln] at h1
  dsimp only at h1
  rw [firstMissing_none.2 hgn] at h1
  obtain ⟨s1, h2⟩ := h1
  obtain ⟨s, h3, -⟩ := (outcome_of_read h).2 _ h2
  exact ⟨s, h3⟩

/-! ## Second definitions -/

theorem get?_update_left {α : Type} {d : Dict α} (e : Dict α) {k : Str} (h : Dict.get? d k ≠ none) : Dict.get? (Dict.update d e) k ≠ none := by
  unfold Dict.update
  induction e generalizing d with
  | nil => exact h
  | cons kv e ih =>
    refine ih ?_
    rw [Dict.get?_set]
    split
    · simp
    · exact h

theorem get?_engineStep_bodies {P : Parser} {s : DocSt} {engine : Str} {classes : List Str} {content : Option Token} {a : NodeArgs} {cx : Context}
    {r : (NodeData × List Node × NodeArgs) × DocSt} (h : P.engineStep s engine classes content a cx = .ok r) :
    r.2.groups = s.groups ∧ ∀ name, Dict.get? s.bodies name ≠ none → Dict.get? r.2.bodies name ≠ none := by
  unfold Parser.engineStep at h
  split at h
  · split at h
    · cases h; exact ⟨rfl, fun _ h => h⟩
    · obtain ⟨q, h1, h2⟩ := bind_ok_except h
      cases h2
      obtain ⟨inner, h3, h4⟩ := bind_ok_except h1
      cases h4
      dsimp only
      split
      · refine ⟨rfl, fun name hn hc => ?_⟩
        change Dict.get? (Dict.update s.bodies inner.bodies) name = none at hc
        exact get?_update_left _ hn hc
      · exact ⟨rfl, fun _ h => h⟩
  · split at h
    · split at h <;> (cases h; exact ⟨rfl, fun _ h => h⟩)
    · split at h
      · split at h
        · cases h; exact ⟨rfl, fun _ h => h⟩
        · obtain ⟨q, h1, h2⟩ := bind_ok_except h
          cases h2
          exact ⟨rfl, fun _ h => h⟩
      · cases h

theorem blockStep_arg {P : Parser} {s : DocSt} {content : Option Token} {ctx : Context} {s2 : DocSt} (h : P.blockStep s content ctx = .ok s2) :
    ∃ (r : (NodeData × List Node × NodeArgs) × DocSt) (own : Context), placeStep { r.2 with labelBuf := [] } r.1.1 r.1.2.1 r.1.2.2 s.labelBuf ctx own = .ok s2 ∧
      (∀ key, key ∈ [c%"footnote", c%"group", c%"position"] → Dict.get? r.1.2.2.named key = Dict.get? (args s).named key) ∧
      r.2.groups = s.groups ∧ ∀ name, Dict.get? s.bodies name ≠ none → Dict.get? r.2.bodies name ≠ none := by
  obtain ⟨r, h1, h2⟩ := bind_ok_except h
  obtain ⟨l1, -⟩ := engine_left h1
  have l2 := LeftOf.trans (LeftOf.trans (LeftOf.erase (key := c%"classes") (a := args s) (k := .block) (by decide)) (LeftOf.erase (key := c%"engine") (by decide))) l1
  have e := get?_engineStep_bodies h1
  refine ⟨r, _, h2, ?_, e.1, e.2⟩
  intro key hk
  refine l2.named key ?_ (by rintro ⟨h, _⟩; cases h)
  revert key
  decide

/-- Reading a block whose step does not succeed fails. -/
theorem block_fails {P : Parser} (hP : Clean P) {ln col : Nat} {ch : Char} {cs rest : List Str} {s : DocSt} (hd : Delimits ch cs)
    (h : ∀ s2, P.blockStep s (contentTok P.src (ln + 1) cs) ((at_ P.src ln col 4).merge (at_ P.src (ln + cs.length + 1) 0 4)) ≠ .ok s2) :
    ∃ e, P.run ln col (blockLines ch cs ++ rest) s = .error e := by
  cases hr : P.run ln col (blockLines ch cs ++ rest) s with
  | error e => exact ⟨e, rfl⟩
  | ok s' =>
    obtain ⟨s2, h1, -⟩ := block_success hP hd hr
    exact absurd h1 (h s2)

/-- C45: a block that defines a footnote which is already defined is an error; for a raw block it is the error that names the footnote. -/
theorem C45_duplicate {P : Parser} (hP : Clean P) {ln col : Nat} {ch : Char} {cs rest : List Str} {s : DocSt} (hd : Delimits ch cs) {name : Str}
    (ha : ArgIs (args s) c%"footnote" name) (hb : Dict.get? s.bodies name ≠ none) :
    (∃ e, P.run ln col (blockLines ch cs ++ rest) s = .error e) ∧
    (Dict.get? (args s).named c%"engine" = some c%"raw" → Lexes P.src (ln + cs.length + 2) rest →
      P.run ln col (blockLines ch cs ++ rest) s = .error (.parser (.text (c%"Footnote '" ++ name ++ c%"' has been already defined.")) (some Context.empty))) := by
  constructor
  · refine block_fails hP hd fun s2 h => ?_
    obtain ⟨r, own, h1, h2, -, h4⟩ := blockStep_arg h
    unfold placeStep at h1
    rw [h2 _ (by simp), truthy_some.2 ha] at h1
    dsimp only at h1
    rw [if_pos] at h1
    · cases h1
    · unfold Dict.has
      have := h4 name hb
      cases hg : Dict.get? r.2.bodies name with
      | none => exact absurd hg this
      | some v => rfl
  · intro he hl
    have e : blockLines ch cs ++ rest = [ch, ch, ch, ch] :: (cs ++ [ch, ch, ch, ch] :: rest) := by simp [blockLines]
    rw [e]
    refine (reads_block hP hd.noComment hd.noSpace hd.inside).err _ ?_ hl
    unfold Parser.blockStep
    dsimp only
    rw [get?_engine, he, Option.getD_some]
    have harg : Dict.get? (Dict.erase (Dict.erase (args s).named c%"classes") c%"engine") c%"footnote" = Dict.get? (args s).named c%"footnote" := by
      rw [Dict.get?_erase, if_neg (by decide), Dict.get?_erase, if_neg (by decide)]
    have hhas : Dict.has s.bodies name = true := by
      unfold Dict.has
      cases hg : Dict.get? s.bodies name with
      | none => exact absurd hg hb
      | some v => rfl
    unfold Parser.engineStep
    rw [if_neg (by decide), if_pos rfl]
    split
    · simp only [Bind.bind, Except.bind]
      unfold placeStep
      dsimp only
      rw [harg, truthy_some.2 ha, ownPlace_other (by decide)]
      dsimp only
      rw [if_pos hhas]
    · simp only [Bind.bind, Except.bind]
      unfold placeStep
      dsimp only
      rw [harg, truthy_some.2 ha, ownPlace_other (by decide)]
      dsimp only
      rw [if_pos hhas]

/-- C47: a block for a position of a group that is already taken is an error; for a raw block it is the error that names the position. -/
theorem C47_taken {P : Parser} (hP : Clean P) {ln col : Nat} {ch : Char} {cs rest : List Str} {s : DocSt} (hd : Delimits ch cs) {g p : Str}
    (hf : NoArg (args s) c%"footnote") (hg : ArgIs (args s) c%"group" g) (hp : ArgIs (args s) c%"position" p)
    (hb : Dict.get? ((Dict.get? s.groups g).getD []) p ≠ none) :
    (∃ e, P.run ln col (blockLines ch cs ++ rest) s = .error e) ∧
    (Dict.get? (args s).named c%"engine" = some c%"raw" → Lexes P.src (ln + cs.length + 2) rest →
      P.run ln col (blockLines ch cs ++ rest) s = .error (.parser (.text (c%"Position '" ++ p ++ c%"' is already taken in group '" ++ g ++ c%"'."))
        (some ((at_ P.src ln col 4).merge (at_ P.src (ln + cs.length + 1) 0 4))))) := by
  have hhas : Dict.has ((Dict.get? s.groups g).getD []) p = true := by
    unfold Dict.has
    cases hg : Dict.get? ((Dict.get? s.groups g).getD []) p with
    | none => exact absurd hg hb
    | some v => rfl
  have hadd : ∀ node, addBlock s.groups g p node = .error (.parser (msgPositionTaken g p) (some node.ctx)) := by
    intro node
    unfold addBlock
    dsimp only
    rw [if_pos hhas]
  constructor
  · refine block_fails hP hd fun s2 h => ?_
    obtain ⟨r, own, h1, h2, h3, -⟩ := blockStep_arg h
    unfold placeStep at h1
    rw [h2 _ (by simp), noArg_iff.2 hf, h2 _ (by simp), h2 _ (by simp), truthy_some.2 hg, truthy_some.2 hp] at h1
    dsimp only at h1
    rw [h3, hadd] at h1
    cases h1
  · intro he hl
    have e : blockLines ch cs ++ rest = [ch, ch, ch, ch] :: (cs ++ [ch, ch, ch, ch] :: rest) := by simp [blockLines]
    rw [e]
    refine (reads_block hP hd.noComment hd.noSpace hd.inside).err _ ?_ hl
    unfold Parser.blockStep
    dsimp only
    rw [get?_engine, he, Option.getD_some]
    have harg : ∀ key, key ∈ [c%"footnote", c%"group", c%"position"] → Dict.get? (Dict.erase (Dict.erase (args s).named c%"classes") c%"engine") key = Dict.get? (args s).named key := by
      intro key hk
      have : c%"engine" ≠ key ∧ c%"classes" ≠ key := by revert key; decide
      rw [Dict.get?_erase, if_neg this.1, Dict.get?_erase, if_neg this.2]
    unfold Parser.engineStep
    rw [if_neg (by decide), if_pos rfl]
    split
    · simp only [Bind.bind, Except.bind]
      unfold placeStep
      dsimp only
      rw [harg _ (by simp), noArg_iff.2 hf, harg _ (by simp), harg _ (by simp), truthy_some.2 hg, truthy_some.2 hp]
      dsimp only
      rw [hadd]
      rfl
    · simp only [Bind.bind, Except.bind]
      unfold placeStep
      dsimp only
      rw [harg _ (by simp), noArg_iff.2 hf, harg _ (by simp), harg _ (by simp), truthy_some.2 hg, truthy_some.2 hp]
      dsimp only
      rw [hadd]
      rfl

/-- C46: a second header with the name of another one is an error. -/
theorem C46_duplicate {ln col n : Nat} {src : Option Str} {sp text : Str} {ns : List Node} {rest : List Str} {s : DocSt} (ht : HeaderText sp text)
    (hp : Inlines s.env text ns) (hne : ns ≠ []) (hk : Spec.allowed s = .ok true) {nm : Str}
    (ha : ArgIs (args s) c%"name" nm) (hn : Dict.get? s.linkHeaders nm ≠ none) :
    ∃ N c, c.source = src ∧ c.startLine ≤ ln ∧ ln ≤ c.endLine ∧ ∀ P : Parser, P.src = src → N ≤ P.fuel → Lexes src (ln + 1) rest →
      P.run ln col (headerLine (n + 1) sp text :: rest) s = .error (.parser (.text (c%"Duplicate header id detected: " ++ nm)) (some c)) := by
  obtain ⟨N, ms, s1, a1, hN⟩ := inline_of_inlines (s := { s with uid := s.uid + 1 }) hp (at_ src ln (col + (n + 1) + sp.length) text.length)
  have o := inline_only (hN ⟨{}, fun _ => .error .fuel, N, src⟩ (Nat.le_refl _))
  have hms : ms ≠ [] := by rintro rfl; exact hne a1.symm
  obtain ⟨ctx, hctx⟩ : ∃ ctx, spanOf ms = .ok ctx := by
    unfold spanOf
    cases ms with
    | nil => exact absurd rfl hms
    | cons n ns => rw [List.head?_cons, List.getLast?_cons]; exact ⟨_, rfl⟩
  have hname : Dict.get? (Dict.erase (args s).named c%"internal_id") c%"name" = Dict.get? (args s).named c%"name" := by
    rw [Dict.get?_erase]; rfl
  have h2 : nameHeader s1 (Dict.get? (args s).named c%"name") s.uid ((at_ src ln col (n + 1)).merge ctx) =
      .error (.parser (.text (c%"Duplicate header id detected: " ++ nm)) (some ((at_ src ln col (n + 1)).merge ctx))) := by
    unfold nameHeader
    rw [truthy_some.2 ha]
    have e : s1.linkHeaders = s.linkHeaders := by rw [o.rest]
    dsimp only
    rw [e, if_pos]
    unfold Dict.has
    cases hg : Dict.get? s.linkHeaders nm with
    | none => exact absurd hg hn
    | some v => rfl
  refine ⟨N, (at_ src ln col (n + 1)).merge ctx, rfl, ?_, ?_, fun P hsrc hP hl => ?_⟩
  · simp only [Context.merge, at_]; omega
  · simp only [Context.merge, at_]; omega
  subst hsrc
  refine (reads_header (P := P) (ln := ln) (col := col) (rest := rest) (s := s) (header_line ht)).err _ ?_ hl
  rw [List.length_replicate]
  unfold Parser.headerStep
  rw [hN P hP]
  simp only [Bind.bind, Except.bind]
  rw [hctx]
  dsimp only
  have : Spec.allowed s1 = .ok true := by rw [o.allowed]; exact hk
  rw [this, hname]
  dsimp only
  rw [if_pos rfl, h2]

/-! ## C46 — header links -/

theorem collected_dreg {s : DocSt} {i : Nat} {T : Tag} (h : (i, T) ∈ dreg s) : i ∈ collected s := by
  unfold collected
  have := mem_dreg.1 h
  cases T <;> simp only [List.mem_append, List.mem_map] <;> simp only at this
  · exact .inl (.inl (.inl (.inl (.inl ⟨_, this, rfl⟩))))
  · exact .inl (.inl (.inl (.inl (.inr ⟨_, this, rfl⟩))))
  · exact .inl (.inl (.inl (.inr ⟨_, this, rfl⟩)))
  · exact .inl (.inl (.inr this))
  · exact .inl (.inr this)
  · exact .inr ⟨_, this, rfl⟩

/-- C46: each collected link refers to the header with the name it asks for. A link with a text keeps it (if nothing in it was to be
completed); a link without text has a copy of the content of the header (if the header contains no links itself). -/
theorem C46_links {cfg : Config} {n : Nat} {req : NestedReq} {s : DocSt} (hf : Fresh req) (h : parseDocument cfg n req = .ok s) :
    ∃ s0, ReadsTo cfg n req s0 ∧ ∀ i target, (i, target) ∈ s.linkMacros → ∃ hid, Dict.get? s.linkHeaders target = some hid ∧
      (∃ o ∈ s.objs, ∃ level int, o.data = .header hid level int (some target)) ∧
      ∀ x, Occ x (ownTrees req s) → x.data.id = i → x.data = .macroHeader i target (some hid) ∧
        ∃ x0, Occ x0 (ownTrees req s0) ∧ x0.data.id = i ∧
          (x0.content ≠ [] → x.content ≠ [] ∧ ((∀ y, Occ y x0.content → y.data.id ∉ collected s0) → x.content = x0.content)) ∧
          (x0.content = [] → ∀ o0, Occ o0 (ownTrees req s0) → o0.data.id = hid → (∀ y, Sub y o0 → ∀ tg, (y.data.id, tg) ∉ s0.linkMacros) →
            ∀ o, Occ o (ownTrees req s) → o.data.id = hid → x.content = detachList o.content) := by
  obtain ⟨s0, os, os', h1, h2, h3, h4, h5⟩ := parsed hf h
  have hlm : s0.linkMacros = s.linkMacros := (congrArg DocSt.linkMacros h3.same).symm
  have hlh : s0.linkHeaders = s.linkHeaders := (congrArg DocSt.linkHeaders h3.same).symm
  refine ⟨s0, h1, ?_⟩
  intro i target hi
  obtain ⟨hid, hg, hall⟩ := h3.links (i, target) (by rw [hlm]; exact hi)
  rw [hlh] at hg
  refine ⟨hid, hg, ?_, ?_⟩
  · obtain ⟨o, ho, e, -, -, l, a, hd⟩ := h3.after.named (tg := target) (hid := hid) hg
    exact ⟨o, (obj?_some e).1, l, a, hd⟩
  · intro x hx hxi
    rw [h5] at hx
    obtain ⟨hd, x0, hx0, hid0, hk, hc⟩ := hall x hx hxi
    refine ⟨hd, x0, by rw [h4]; exact hx0, hid0, ?_, ?_⟩
    · intro hne
      obtain ⟨k1, k2⟩ := hk hne
      exact ⟨k1, fun hfree => k2 fun y hy T hT => hfree y hy (collected_dreg hT)⟩
    · intro he o0 ho0 hido0 hno o ho hido
      rw [h4] at ho0
      rw [h5] at ho
      exact hc he o0 ho0 hido0 hno o ho hido

/-! ## C47 — block groups -/

/-- C47: the blocks of a group are its items, in the order they were added; each item names its group and its position and contains one
block; a group node contains the items of its group, completed. -/
theorem C47_groups {cfg : Config} {n : Nat} {req : NestedReq} {s : DocSt} (hf : Fresh req) (h : parseDocument cfg n req = .ok s) :
    ∃ s0, ReadsTo cfg n req s0 ∧ ∃ F, Completion F ∧ ∀ t ∈ s.nodes, ∀ i g, t.data = .blockgroup i g → ∃ items, Dict.get? s0.groups g = some items ∧
      Dict.Distinct items ∧ (∀ e ∈ items, ∃ b, e.2.data = .blockgroupItem g e.1 ∧ e.2.content = [b]) ∧ t.content = items.map fun e => F e.2 := by
  obtain ⟨s0, os, os', h1, h2, h3, h4, h5⟩ := parsed hf h
  obtain ⟨F, hF, hn, -, hg⟩ := h3.trees
  refine ⟨s0, h1, F, hF, ?_⟩
  intro t ht i g hd
  have hreg : (i, g) ∈ s.groupNodes := (mem_dreg (t := .group g) (s := start s)).1 (h3.after.order.2 t ht (i, .group g) (by rw [hd]; rfl))
  have hgn : s0.groupNodes = s.groupNodes := (congrArg DocSt.groupNodes h3.same).symm
  obtain ⟨items', hi'⟩ := h3.groups.1 (i, g) (by rw [hgn]; exact hreg)
  have hc := h3.groups.2 t ht i g hd
  rw [hi'] at hc
  have hgs : Dict.get? (start s).groups g = (Dict.get? s0.groups g).map fun items => items.map fun e => (e.1, F e.2) := by
    rw [hg]
    exact get?_mapVals (fun _ items => items.map fun e => (e.1, F e.2)) s0.groups g
  dsimp only at hi'
  rw [hgs] at hi'
  obtain ⟨items, h6, h7⟩ := Option.map_eq_some_iff.1 hi'
  obtain ⟨k1, k2⟩ := h3.before.groups.2 _ (Dict.mem_of_get? h6)
  refine ⟨items, h6, k1, ?_, ?_⟩
  · intro e he
    obtain ⟨a, b, hb⟩ := k2 e he
    exact ⟨b, a, hb⟩
  · rw [hc, ← h7, Option.getD_some, List.map_map]
    rfl

/-! ## C62 — references -/

/-- C62: every reference in a document points to an object of the right kind: a footnote mention to the footnote of its name, a link to
the header of its name, an entry of a list of footnotes to a footnote, an entry of a table of contents to a header. -/
theorem C62_resolves {cfg : Config} {n : Nat} {req : NestedReq} {s : DocSt} (hf : Fresh req) (h : parseDocument cfg n req = .ok s)
    {x : Node} (hx : Occ x (ownTrees req s)) : Resolves s.objs x.data := by
  obtain ⟨s0, os, os', h1, h2, h3, h4, h5⟩ := parsed hf h
  rw [h5] at hx
  exact h3.after.core.refs x hx

/-- C62: an identity belongs to one node only, so a reference points to one object. -/
theorem C62_unique {cfg : Config} {n : Nat} {req : NestedReq} {s : DocSt} (hf : Fresh req) (h : parseDocument cfg n req = .ok s)
    {x y : Node} (hx : Occ x (ownTrees req s)) (hy : Occ y (ownTrees req s)) (h0 : x.data.id ≠ 0) (hid : x.data.id = y.data.id) : x = y := by
  obtain ⟨s0, os, os', h1, h2, h3, h4, h5⟩ := parsed hf h
  rw [h5] at hx hy
  exact h3.after.core.same x y hx hy h0 hid

/-! ## C63 — completion keeps the document -/

/-- C63: the nodes of the finished document are those of the document as read, in the same order, with the same arguments and positions;
nodes without identity (paragraphs, lists, blocks, texts, styles, ...) also keep their class and children, which are completed. -/
theorem C63_keeps {cfg : Config} {n : Nat} {req : NestedReq} {s : DocSt} (hf : Fresh req) (h : parseDocument cfg n req = .ok s) :
    ∃ s0, ReadsTo cfg n req s0 ∧ ∃ F, Completion F ∧ s.nodes.length = s0.nodes.length ∧
      ∀ (j : Nat) (t0 : Node), s0.nodes[j]? = some t0 → ∃ t, s.nodes[j]? = some t ∧ t.data.id = t0.data.id ∧ t.args = t0.args ∧ t.ctx = t0.ctx ∧
        ((∀ i g, t.data ≠ .blockgroup i g) → t = F t0) := by
  obtain ⟨s0, os, os', h1, h2, h3, h4, h5⟩ := parsed hf h
  obtain ⟨F, hF, hn, -, hg⟩ := h3.trees
  have hn' : s.nodes = (s0.nodes.map F).map (filled s.groups s0.groupNodes) := hn
  refine ⟨s0, h1, F, hF, by rw [hn']; simp, ?_⟩
  intro j t0 hj
  have hfill : ∀ x : Node, (filled s.groups s0.groupNodes x).data = x.data ∧ (filled s.groups s0.groupNodes x).args = x.args ∧ (filled s.groups s0.groupNodes x).ctx = x.ctx ∧
      ((∀ i g, x.data ≠ .blockgroup i g) → filled s.groups s0.groupNodes x = x) := by
    intro x
    unfold filled
    split
    · rename_i i g hx
      refine ⟨?_, ?_, ?_, fun h => absurd hx (h i g)⟩ <;> (split <;> rfl)
    · exact ⟨rfl, rfl, rfl, fun _ => rfl⟩
  obtain ⟨a, b, c, d⟩ := hfill (F t0)
  refine ⟨filled s.groups s0.groupNodes (F t0), by rw [hn']; simp [hj], ?_, ?_, ?_, ?_⟩
  · rw [a, hF.id]
  · rw [b, hF.args]
  · rw [c, hF.ctx]
  · intro hno
    exact d fun i g => by rw [← a]; exact hno i g

/-! ## C48 for documents -/

/-- The content of a block in a state reached by reading lines is parsed with new identities. -/
theorem fresh_content {P : Parser} (hn : NestedGood P.nested) {req : NestedReq} (hf : Fresh req) {ln col : Nat} {ls : List Str} {s : DocSt}
    (h : P.run ln col ls (initial req) = .ok s) (k : Nat) (cs : List Str) : Fresh (contentOf P k cs s) := by
  have hw := run_wf hn (WF.initial hf.1 hf.2) h
  obtain ⟨os, h1, h2, -⟩ := hw.core
  refine ⟨Nat.lt_of_lt_of_le h2.pos h2.le, ?_⟩
  intro n ⟨m, hm, hs⟩
  change m ∈ s.objs at hm
  change n.data.id < s.uid
  rw [h1] at hm
  rcases List.mem_append.1 hm with hm | hm
  · have := hw.old n ⟨m, hm, hs⟩
    have := h2.le
    omega
  · have hc := h2.range n ⟨m, by simp [hm], hs⟩
    have := h2.pos
    have := h2.le
    omega

/-- C48: a block with `isolate=false` in a document, after any lines: its footnotes, headers and mentions are added to those of the document. -/
theorem C48_document {cfg : Config} {n : Nat} {req : NestedReq} (hf : Fresh req) {ln0 col0 : Nat} {before : List Str} {ln col : Nat} {ch : Char} {cs rest : List Str}
    {s s' : DocSt} (h0 : (parser cfg n req.source).run ln0 col0 before (initial req) = .ok s) (hd : Delimits ch cs)
    (hcs : ¬ NoContent cs) (he : (Dict.get? (args s).named c%"engine").getD c%"default" = c%"default")
    (hi : Dict.get? (args s).named c%"isolate" = some c%"false")
    (h : (parser cfg n req.source).run ln col (blockLines ch cs ++ rest) s = .ok s') :
    ∃ inner s1 s2 classes, Classes (Dict.get? (args s).named c%"classes") classes ∧ parseDocument cfg n (contentOf (parser cfg n req.source) (ln + 1) cs s) = .ok inner ∧
      (parser cfg n req.source).run (ln + cs.length + 2) 0 rest s2 = .ok s' ∧ Merged s inner s1 ∧ SameCollections s1 s2 ∧
      Placed (blockArgs s) s1
        (Node.new (.block classes) (blockCtx req.source ln col cs.length) inner.nodes (blockArgs s) s.labelBuf)
        (Node.new (.block classes) Context.empty inner.nodes {} s.labelBuf) s2 := by
  refine C48_not_isolated (clean_parser cfg n req.source) hd hcs he hi ?_ h
  intro inner hin
  have hfr := fresh_content (P := parser cfg n req.source) (parseDocument_good cfg n) hf h0 (ln + 1) cs
  obtain ⟨a, -⟩ := parseDocument_good cfg n _ _ hin hfr.1 hfr.2
  exact a.1

/-! ## Concrete documents -/

/-- The request for a whole document meets the hypothesis of the theorems above. -/
theorem fresh_whole (text : Str) (env : Env) (src : Option Str) : Fresh ⟨text, env, 0, 0, src, [], 1, []⟩ :=
  ⟨Nat.zero_lt_one, fun _ ⟨_, hm, _⟩ => nomatch hm⟩

/-- What is seen of a document in the examples. -/
def seen {α : Type} (x : Except Err DocSt) (f : DocSt → α) : Option α :=
  match x with
  | .ok s => some (f s)
  | .error _ => none

/-- The levels 1, 3, 2 and a table of contents: the second and the third header are below the first one. -/
example : seen (parseDoc {} 20 c%"= A\n=== B\n== C\n<< toc\n") (fun s => (s.tocHeaders, s.nodes.map fun n => entriesList none n.content)) =
    some ([(1, 1), (2, 3), (3, 2)], [[], [], [], [(1, none), (2, some 1), (3, some 1)]]) := by decide +kernel

/-- Two footnotes in order of definition, a mention of the second, and the list. -/
example : seen (parseDoc {} 20 c%"x [footnote](b)\n\n[footnote=a]\n----\none\n----\n[footnote=b]\n----\ntwo\n----\n<< footnotes\n")
    (fun s => (s.footnoteMacros, s.bodies.map (·.1), s.nodes.map fun n => n.content.map (·.data))) =
    some ([(1, c%"b")], [c%"a", c%"b"], [[.paragraphLine], [.footnotesItem 3, .footnotesItem 4]]) := by decide +kernel

/-- A header with a name and a link to it, whose text is the text of the header. -/
example : seen (parseDoc {} 20 c%"[name=a]\n= Hello\n\nsee [header](a)\n")
    (fun s => (s.linkMacros, s.nodes.flatMap fun n => n.content.flatMap fun m => m.content.map fun k => (k.data, k.content.map (·.data)))) =
    some ([(2, c%"a")], [(.text c%"see ", []), (.macroHeader 2 c%"a" (some 1), [.text c%"Hello"])]) := by decide +kernel

/-- A group of two blocks: they are not among the nodes of the document, but inside the group node, in the order of definition. -/
example : seen (parseDoc {} 20 c%"[group=g,position=p]\n----\none\n----\n[group=g,position=q]\n----\ntwo\n----\n[group=g]\n<< blockgroup\n")
    (fun s => s.nodes.map fun n => (n.data, n.content.map (·.data))) =
    some [(.blockgroup 1 c%"g", [.blockgroupItem c%"g" c%"p", .blockgroupItem c%"g" c%"q"])] := by decide +kernel

/-- The rejected documents. -/
example : (match parseDoc {} 20 c%"[footnote](a)" with | .error e => e | .ok _ => .fuel) = .parser (.text c%"Footnote 'a' has not been defined.") (some ⟨0, 0, 0, 13, none⟩) ∧
    (match parseDoc {} 20 c%"[footnote=a]\n----\n----\n[footnote=a]\n----\n----\n" with | .error e => e | .ok _ => .fuel) = .parser (.text c%"Footnote 'a' has been already defined.") (some Context.empty) ∧
    (match parseDoc {} 20 c%"[header](a)" with | .error e => e | .ok _ => .fuel) = .parser (.text c%"Cannot find header with id a") (some ⟨0, 0, 0, 11, none⟩) ∧
    (match parseDoc {} 20 c%"[name=a]\n= X\n[name=a]\n= Y\n" with | .error e => e | .ok _ => .fuel) = .parser (.text c%"Duplicate header id detected: a") (some ⟨3, 0, 3, 3, none⟩) ∧
    (match parseDoc {} 20 c%"[group=g]\n<< blockgroup\n" with | .error e => e | .ok _ => .fuel) = .parser (.text c%"The group 'g' does not exist.") (some ⟨1, 0, 1, 13, none⟩) ∧
    (match parseDoc {} 20 c%"[group=g,position=p]\n----\n----\n[group=g,position=p]\n----\n----\n" with | .error e => e | .ok _ => .fuel) = .parser (.text c%"Position 'p' is already taken in group 'g'.") (some ⟨4, 0, 5, 4, none⟩) := by
  decide +kernel

/-- Footnotes of a block with `isolate=false` replace footnotes of the same name of the document, without an error: the document `a` has two
definitions of the footnote `a`, and the text of the second one is used. This is the only way to define a name twice. -/
theorem C45_override : seen (parseDoc {} 20 c%"[footnote=a]\n----\none\n----\n[isolate=false]\n====\n[footnote=a]\n----\ntwo\n----\n====\n")
    (fun s => s.bodies.map fun e => (e.1, e.2.content.map fun n => n.content.map fun m => m.content.map (·.data))) =
    some [(c%"a", [[[.text c%"two"]]])] := by decide +kernel

end Mau
