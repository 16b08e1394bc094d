import Verif.Lemmas.Twins
import Verif.Model.TextParser

set_option linter.unusedSimpArgs false

/-!
# Two runs of the text parser that differ in positions only
-/

namespace Mau
open Spec

/-- Outcomes that agree. -/
def Duo {σ τ α β : Type} (S : σ → τ → Prop) (R : α → β → Prop) : PRes σ α → PRes τ β → Prop
  | .ok a s, .ok b t => R a b ∧ S s t
  | .fail s, .fail t => S s t
  | .err e, .err e' => SameErr e e'
  | _, _ => False

/-- The contexts of the mentions, without positions. -/
def adriftPlaces (l : List (Nat × Context)) : List (Nat × Context) := l.map fun p => (p.1, Context.adrift p.2)

theorem adriftPlaces_snoc {l l' : List (Nat × Context)} {c c' : Context} {i : Nat} (h : adriftPlaces l = adriftPlaces l') (hc : Near c c') :
    adriftPlaces (l ++ [(i, c)]) = adriftPlaces (l' ++ [(i, c')]) := by
  unfold adriftPlaces at h ⊢
  rw [List.map_append, List.map_append, h, List.map_singleton, List.map_singleton, near_iff.1 hc]

/-- States of the text parser that differ in positions only. -/
structure TextTwin (s s' : TextSt) : Prop where
  next : s.next = s'.next
  uid : s.uid = s'.uid
  footnotes : s.footnoteMacros = s'.footnoteMacros
  links : s.headerLinks = s'.headerLinks
  places : adriftPlaces s.places = adriftPlaces s'.places

/-- Functions of the text parser that do the same. -/
def PTwin {α β : Type} (R : α → β → Prop) (x : PM α) (y : PM β) : Prop := ∀ s s', TextTwin s s' → Duo TextTwin R (x s) (y s')

theorem PTwin.pure {α β : Type} {R : α → β → Prop} {a : α} {b : β} (h : R a b) : PTwin R (Pure.pure a : PM α) (Pure.pure b) := fun _ _ hs => ⟨h, hs⟩

theorem PTwin.bind {α β γ δ : Type} {R : α → β → Prop} {Q : γ → δ → Prop} {x : PM α} {y : PM β} {f : α → PM γ} {g : β → PM δ}
    (h : PTwin R x y) (hf : ∀ a b, R a b → PTwin Q (f a) (g b)) : PTwin Q (x >>= f) (y >>= g) := by
  intro s s' hs
  have h1 := h s s' hs
  change Duo _ _ (PM.bind x f s) (PM.bind y g s')
  unfold PM.bind
  cases hx : x s <;> cases hy : y s' <;> rw [hx, hy] at h1 <;> first | exact h1.elim | exact h1 | exact hf _ _ h1.1 _ _ h1.2

theorem PTwin.mono {α β : Type} {R Q : α → β → Prop} {x : PM α} {y : PM β} (h : PTwin R x y) (hf : ∀ a b, R a b → Q a b) : PTwin Q x y := by
  intro s s' hs
  have h1 := h s s' hs
  cases hx : x s <;> cases hy : y s' <;> rw [hx, hy] at h1 <;> first | exact h1.elim | exact h1 | exact ⟨hf _ _ h1.1, h1.2⟩

theorem PTwin.lift {α β : Type} {R : α → β → Prop} {x : Except Err α} {y : Except Err β} (h : Both R x y) : PTwin R (PM.lift x) (PM.lift y) := by
  intro s s' hs
  unfold PM.lift
  cases x <;> cases y
  · rename_i e e'
    have := sameErr_token h
    by_cases he : e = .token
    · rw [he, this.1 he]; exact hs
    · have he' : e' ≠ .token := fun e2 => he (this.2 e2)
      cases e <;> cases e' <;> first | exact h | exact absurd rfl he | exact absurd rfl he' | (cases h)
  · exact h.elim
  · exact h.elim
  · exact ⟨h, hs⟩

theorem PTwin.raise {α β : Type} {R : α → β → Prop} {e e' : Err} (h : SameErr e e') : PTwin R (PM.raise e : PM α) (PM.raise e' : PM β) := by
  have := PTwin.lift (R := R) (x := .error e) (y := .error e') h
  intro s s' hs
  have h1 := this s s' hs
  unfold PM.lift at h1
  unfold PM.raise
  cases e <;> cases e' <;> first | exact h1 | (cases h)

theorem PTwin.orElse {α β : Type} {R : α → β → Prop} {x x' : PM α} {y y' : PM β} (h : PTwin R x y) (h' : PTwin R x' y') : PTwin R (PM.orElse x x') (PM.orElse y y') := by
  intro s s' hs
  have h1 := h s s' hs
  unfold PM.orElse
  cases hx : x s <;> cases hy : y s' <;> rw [hx, hy] at h1 <;> try (first | exact h1.elim | exact h1)
  exact h' _ _ ⟨hs.next, h1.uid, h1.footnotes, h1.links, h1.places⟩

theorem PTwin.fresh : PTwin Eq PM.fresh PM.fresh := by
  intro s s' hs
  exact ⟨hs.uid, hs.next, by dsimp only; rw [hs.uid], hs.footnotes, hs.links, hs.places⟩

section
variable {ts ts' : List Token} (hts : Twins ts ts')

theorem PTwin.tm {α β : Type} {R : α → β → Prop} {f : TM → Except Err (α × TM)} {g : TM → Except Err (β × TM)} (h : Sees ts ts' R f g) :
    PTwin R (PM.tm ts f) (PM.tm ts' g) := by
  intro s s' hs
  have h1 := h s.next
  unfold PM.tm
  rw [← hs.next]
  cases hx : f ⟨ts, s.next⟩ <;> cases hy : g ⟨ts', s.next⟩ <;> rw [hx, hy] at h1
  · rename_i e e'
    have := sameErr_token h1
    by_cases he : e = .token
    · rw [he, this.1 he]; exact hs
    · have he' : e' ≠ .token := fun e2 => he (this.2 e2)
      cases e <;> cases e' <;> first | exact h1 | exact absurd rfl he | exact absurd rfl he' | (cases h1)
  · exact h1.elim
  · exact h1.elim
  · rename_i a b
    obtain ⟨a, t⟩ := a
    obtain ⟨b, t'⟩ := b
    obtain ⟨h2, j, e1, e2⟩ := h1
    cases e1; cases e2
    exact ⟨h2, rfl, hs.uid, hs.footnotes, hs.links, hs.places⟩

include hts

theorem PTwin.get (ty : Option TokenType) (v : Option Str) (f : Option (Str → Bool)) : PTwin Twin (PM.tm ts (·.get ty v f)) (PM.tm ts' (·.get ty v f)) :=
  .tm (sees_get hts ty v f)

theorem PTwin.join (stops : List Token) (sep : Str) (preserve : Bool) : PTwin Twin (PM.tm ts (·.collectJoin stops sep preserve)) (PM.tm ts' (·.collectJoin stops sep preserve)) :=
  .tm (sees_collectJoin hts stops sep preserve)

theorem PTwin.peek : PTwin Twin (PM.peek ts (·.peek)) (PM.peek ts' (·.peek)) := by
  intro s s' hs
  have h1 := both_peek hts s.next none none none
  have h2 : Both Twin (TM.peek ⟨ts, s.next⟩) (TM.peek ⟨ts', s'.next⟩) := by
    rw [← hs.next]
    exact h1.mono fun _ _ h => h.1
  exact PTwin.lift h2 s s' hs

end

/-- Nodes that differ in positions only. -/
def LikeNodes (ns ns' : List Node) : Prop := adriftList ns = adriftList ns'

theorem adriftList_append (a b : List Node) : adriftList (a ++ b) = adriftList a ++ adriftList b := by
  induction a with
  | nil => rfl
  | cons x a ih => simp only [List.cons_append, adriftList, ih]

theorem LikeNodes.append {a a' b b' : List Node} (h : LikeNodes a a') (h' : LikeNodes b b') : LikeNodes (a ++ b) (a' ++ b') := by
  unfold LikeNodes at h h' ⊢
  rw [adriftList_append, adriftList_append, h, h']

theorem LikeNodes.isEmpty {a a' : List Node} (h : LikeNodes a a') : a.isEmpty = a'.isEmpty := by
  unfold LikeNodes at h
  cases a <;> cases a' <;> first | rfl | (cases h)

theorem adrift_new (d : NodeData) {c c' : Context} (h : Near c c') {ns ns' : List Node} (hn : LikeNodes ns ns') (a : NodeArgs) {ls ls' : List (Str × Node)}
    (hl : adriftLabels ls = adriftLabels ls') : Node.adrift (Node.new d c ns a ls) = Node.adrift (Node.new d c' ns' a ls') := by
  unfold LikeNodes at hn
  simp only [Node.new, Node.adrift, near_iff.1 h, hn, hl, adriftList]

theorem likeNodes_one (d : NodeData) {c c' : Context} (h : Near c c') {ns ns' : List Node} (hn : LikeNodes ns ns') (a : NodeArgs) :
    LikeNodes [Node.new d c ns a] [Node.new d c' ns' a] := by
  unfold LikeNodes
  simp only [adriftList, adrift_new d h hn a rfl]

/-- Groups of words that differ in the positions only. -/
theorem groupWordsAux_like : ∀ (ns ns' : List Node), LikeNodes ns ns' →
    (LikeNodes (groupWordsAux none ns) (groupWordsAux none ns')) ∧
    ∀ v c0 c1 c0' c1', Near c0 c0' → LikeNodes (groupWordsAux (some (v, c0, c1)) ns) (groupWordsAux (some (v, c0', c1')) ns') := by
  intro ns
  induction ns with
  | nil =>
    intro ns' h
    cases ns' with
    | cons => cases h
    | nil =>
      refine ⟨rfl, fun v c0 c1 c0' c1' h => ?_⟩
      simp only [groupWordsAux]
      exact likeNodes_one _ h.merge rfl _
  | cons n ns ih =>
    intro ns' h
    cases ns' with
    | nil => cases h
    | cons n' ns' =>
      obtain ⟨d, a, c, cs, ls, ex⟩ := n
      obtain ⟨d', a', c', cs', ls', ex'⟩ := n'
      unfold LikeNodes at h
      simp only [adriftList, Node.adrift, List.cons.injEq, Node.mk.injEq] at h
      obtain ⟨⟨rfl, rfl, hc, hcs, hls, hex⟩, hns⟩ := h
      have hc := near_iff.2 hc
      have hi := ih ns' hns
      have hhead : Node.adrift (.mk d a c cs ls ex) = Node.adrift (.mk d a c' cs' ls' ex') := by
        simp only [Node.adrift, near_iff.1 hc, hcs, hls, hex]
      by_cases hw : ∃ v, d = .word v
      · obtain ⟨v, rfl⟩ := hw
        refine ⟨?_, fun w c0 c1 c0' c1' h0 => ?_⟩
        · simp only [groupWordsAux]; exact hi.2 _ _ _ _ _ hc
        · simp only [groupWordsAux]; exact hi.2 _ _ _ _ _ h0
      · have e1 : groupWordsAux none (.mk d a c cs ls ex :: ns) = .mk d a c cs ls ex :: groupWordsAux none ns := by
          cases d <;> first | rfl | exact absurd ⟨_, rfl⟩ hw
        have e2 : groupWordsAux none (.mk d a c' cs' ls' ex' :: ns') = .mk d a c' cs' ls' ex' :: groupWordsAux none ns' := by
          cases d <;> first | rfl | exact absurd ⟨_, rfl⟩ hw
        refine ⟨?_, fun w c0 c1 c0' c1' h0 => ?_⟩
        · rw [e1, e2]
          unfold LikeNodes
          simp only [adriftList, hhead]
          exact congrArg _ hi.1
        · have e3 : groupWordsAux (some (w, c0, c1)) (.mk d a c cs ls ex :: ns) = Node.new (.text w) (c0.merge c1) :: .mk d a c cs ls ex :: groupWordsAux none ns := by
            cases d <;> first | rfl | exact absurd ⟨_, rfl⟩ hw
          have e4 : groupWordsAux (some (w, c0', c1')) (.mk d a c' cs' ls' ex' :: ns') = Node.new (.text w) (c0'.merge c1') :: .mk d a c' cs' ls' ex' :: groupWordsAux none ns' := by
            cases d <;> first | rfl | exact absurd ⟨_, rfl⟩ hw
          rw [e3, e4]
          unfold LikeNodes
          simp only [adriftList, hhead, adrift_new (.text w) (Near.merge h0) (rfl : LikeNodes [] []) {} rfl (c := c0.merge c1) (c' := c0'.merge c1')]
          exact congrArg _ (congrArg _ hi.1)

theorem groupWords_like {ns ns' : List Node} (h : LikeNodes ns ns') : LikeNodes (groupWords ns) (groupWords ns') := (groupWordsAux_like ns ns' h).1

section
variable {ts ts' : List Token} (hts : Twins ts ts')
include hts

theorem twin_backslash : PTwin LikeNodes (parseBackslash ts) (parseBackslash ts') := by
  unfold parseBackslash
  refine (PTwin.get hts _ _ _).bind fun a a' ha => (PTwin.get hts _ _ _).bind fun b b' hb => .pure ?_
  rw [hb.2.1]
  exact likeNodes_one _ ha.2.2.merge rfl _

theorem twin_verbatim : PTwin LikeNodes (parseVerbatim ts) (parseVerbatim ts') := by
  unfold parseVerbatim
  refine (PTwin.get hts _ _ _).bind fun a a' ha => (PTwin.join hts _ _ _).bind fun b b' hb => (PTwin.get hts _ _ _).bind fun c c' hc => .pure ?_
  rw [hb.2.1]
  exact likeNodes_one _ ha.2.2.merge rfl _

theorem twin_escaped : PTwin LikeNodes (parseEscaped ts) (parseEscaped ts') := by
  unfold parseEscaped
  refine (PTwin.get hts _ _ _).bind fun a a' ha => ?_
  rw [ha.2.1]
  refine (PTwin.join hts _ _ _).bind fun b b' hb => (PTwin.get hts _ _ _).bind fun c c' hc => .pure ?_
  rw [hb.2.1]
  exact likeNodes_one _ ha.2.2.merge rfl _

theorem twin_word : PTwin LikeNodes (parseWord ts) (parseWord ts') := by
  unfold parseWord
  refine (PTwin.get hts _ _ _).bind fun a a' ha => .pure ?_
  rw [ha.2.1]
  exact likeNodes_one _ ha.2.2 rfl _

theorem sees_macroArgPiece : Sees ts ts' Twin macroArgPiece macroArgPiece := by
  intro i
  unfold macroArgPiece
  refine (both_peekIs hts i _ _ _).bind fun x y hxy => ?_
  cases hxy
  split
  · refine Sees.bind (sees_get hts _ _ _ i) fun a a' j ha => ?_
    refine Sees.bind (sees_collectJoin hts _ _ _ j) fun b b' k hb => ?_
    refine Sees.bind (sees_get hts _ _ _ k) fun c c' m hc => ?_
    exact ⟨⟨rfl, by dsimp only; rw [hb.2.1], ha.2.2.merge⟩, m, rfl, rfl⟩
  · exact sees_collectJoin hts _ _ _ i

theorem sees_macroArgsLoop : ∀ (n i : Nat) (acc acc' : List Token), Alikes acc acc' →
    Both (fun x y => Alikes x.1 y.1 ∧ ∃ j, x.2 = ⟨ts, j⟩ ∧ y.2 = ⟨ts', j⟩) (macroArgsLoop n ⟨ts, i⟩ acc) (macroArgsLoop n ⟨ts', i⟩ acc')
  | 0, _, _, _, _ => rfl
  | n + 1, i, acc, acc', h => by
    rw [macroArgsLoop, macroArgsLoop]
    refine (both_peekIs hts i _ _ _).bind fun x y hxy => ?_
    cases hxy
    split
    · exact ⟨h, i, rfl, rfl⟩
    refine (both_peekIs hts i _ _ _).bind fun x y hxy => ?_
    cases hxy
    split
    · exact ⟨h, i, rfl, rfl⟩
    refine Sees.bind (sees_macroArgPiece hts i) fun a a' j ha => ?_
    exact sees_macroArgsLoop n j _ _ (h.snoc ha)

theorem sees_collectMacroArgs : Sees ts ts' Twin collectMacroArgs collectMacroArgs := by
  intro i
  unfold collectMacroArgs
  dsimp only
  rw [hts.length]
  refine Sees.bind (sees_macroArgsLoop hts _ _ _ _ rfl) fun l l' j h => ?_
  exact ⟨h.joined _, j, rfl, rfl⟩

theorem twin_macroHead (env : Env) : PTwin (fun x y => Twin x.1 y.1 ∧ LikeArgs x.2.1 y.2.1 ∧ Near x.2.2 y.2.2) (macroHead env ts) (macroHead env ts') := by
  unfold macroHead
  refine (PTwin.get hts _ _ _).bind fun a a' ha => (PTwin.get hts _ _ _).bind fun b b' hb => (PTwin.get hts _ _ _).bind fun _ _ _ => (PTwin.get hts _ _ _).bind fun _ _ _ => ?_
  refine (PTwin.tm (sees_collectMacroArgs hts)).bind fun c c' hc => (PTwin.get hts _ _ _).bind fun _ _ _ => ?_
  refine (PTwin.lift (both_processArguments env hc)).bind fun p p' hp => .pure ⟨hb, hp, ha.2.2.merge⟩

end

/-- Parsers of texts that do the same, at any positions of the same source. -/
def SubTwin (sub sub' : Str → Context → PM (List Node)) : Prop := ∀ t c c', Near c c' → PTwin LikeNodes (sub t c) (sub' t c')

theorem twin_mandatory {p p' : ParsedArgs} (h : LikeArgs p p') (k : Str) (m : Msg) {c c' : Context} (hc : Near c c') :
    PTwin LikeText (mandatory p k m c) (mandatory p' k m c') := by
  unfold mandatory
  rcases h.get k with ⟨h1, h2⟩ | ⟨t, t', h1, h2, h3⟩
  · rw [h1, h2]; exact .raise (by simp [SameErr, Err.said, near_iff.1 hc])
  · rw [h1, h2]; exact .pure h3

theorem twin_textOr {sub sub' : Str → Context → PM (List Node)} (hs : SubTwin sub sub') {p p' : ParsedArgs} (h : LikeArgs p p') (k : Str) {d d' : List Node} (hd : LikeNodes d d') :
    PTwin LikeNodes (textOr sub (Dict.get? p.named k) d) (textOr sub' (Dict.get? p'.named k) d') := by
  unfold textOr
  rcases h.get k with ⟨h1, h2⟩ | ⟨t, t', h1, h2, h3⟩
  · rw [h1, h2]; exact .pure hd
  · rw [h1, h2]
    dsimp only
    rw [h3.1]
    exact hs _ _ _ h3.2

section
variable {sub sub' : Str → Context → PM (List Node)} (hsub : SubTwin sub sub') {p p' : ParsedArgs} (hp : LikeArgs p p') {c c' : Context} (hc : Near c c')
include hp hc

theorem twin_image : PTwin LikeNodes (macroImageFn p c) (macroImageFn p' c') := by
  unfold macroImageFn
  dsimp only
  refine (twin_mandatory (hp.setNames _) _ _ hc).bind fun t t' ht => .pure ?_
  have hg : ∀ k, (Dict.get? (p.setNames [c%"uri", c%"alt_text", c%"width", c%"height"]).named k).map (·.value) =
      (Dict.get? (p'.setNames [c%"uri", c%"alt_text", c%"width", c%"height"]).named k).map (·.value) := by
    intro k
    rcases (hp.setNames [c%"uri", c%"alt_text", c%"width", c%"height"]).get k with ⟨h1, h2⟩ | ⟨t, t', h1, h2, h3⟩
    · rw [h1, h2]
    · rw [h1, h2, Option.map_some, Option.map_some, h3.1]
  rw [hg, hg, hg, ht.1]
  exact likeNodes_one _ hc rfl _

theorem twin_footnote : PTwin LikeNodes (macroFootnoteFn p c) (macroFootnoteFn p' c') := by
  unfold macroFootnoteFn
  refine (twin_mandatory (hp.setNames _) _ _ hc).bind fun t t' ht => PTwin.fresh.bind fun i i' hi => ?_
  cases hi
  intro s s' hs
  refine ⟨by rw [ht.1]; exact likeNodes_one _ hc rfl _, hs.next, hs.uid, ?_, hs.links, adriftPlaces_snoc hs.places hc⟩
  dsimp only
  rw [hs.footnotes, ht.1]

theorem twin_unicode : PTwin LikeNodes (macroUnicodeFn p c) (macroUnicodeFn p' c') := by
  unfold macroUnicodeFn
  refine (twin_mandatory (hp.setNames _) _ _ hc).bind fun t t' ht => .pure ?_
  rw [ht.1]
  exact likeNodes_one _ hc rfl _

theorem twin_raw : PTwin LikeNodes (macroRawFn p c) (macroRawFn p' c') := by
  unfold macroRawFn
  refine (twin_mandatory (hp.setNames _) _ _ hc).bind fun t t' ht => .pure ?_
  rw [ht.1]
  exact likeNodes_one _ hc rfl _

include hsub

theorem twin_link : PTwin LikeNodes (macroLinkFn sub p c) (macroLinkFn sub' p' c') := by
  unfold macroLinkFn
  dsimp only
  refine (twin_mandatory (hp.setNames _) _ _ hc).bind fun t t' ht => ?_
  rw [ht.1]
  refine (twin_textOr hsub (hp.setNames _) _ (likeNodes_one _ ht.2 rfl _)).bind fun ns ns' hn => .pure ?_
  exact likeNodes_one _ hc hn _

theorem twin_mailto : PTwin LikeNodes (macroMailtoFn sub p c) (macroMailtoFn sub' p' c') := by
  unfold macroMailtoFn
  dsimp only
  refine (twin_mandatory (hp.setNames _) _ _ hc).bind fun t t' ht => ?_
  rw [ht.1]
  refine (twin_textOr hsub (hp.setNames _) _ (likeNodes_one _ ht.2 rfl _)).bind fun ns ns' hn => .pure ?_
  exact likeNodes_one _ hc hn _

theorem twin_headerLink : PTwin LikeNodes (macroHeaderFn sub p c) (macroHeaderFn sub' p' c') := by
  unfold macroHeaderFn
  dsimp only
  refine (twin_mandatory (hp.setNames _) _ _ hc).bind fun t t' ht => PTwin.fresh.bind fun i i' hi => ?_
  cases hi
  refine (twin_textOr hsub (hp.setNames _) _ rfl).bind fun ns ns' hn => ?_
  intro s s' hs
  refine ⟨by rw [ht.1]; exact likeNodes_one _ hc hn _, hs.next, hs.uid, hs.footnotes, ?_, adriftPlaces_snoc hs.places hc⟩
  dsimp only
  rw [hs.links, ht.1]

theorem twin_class : PTwin LikeNodes (macroClassFn sub p c) (macroClassFn sub' p' c') := by
  unfold macroClassFn
  dsimp only
  refine (twin_mandatory (hp.setNames _) _ _ hc).bind fun t t' ht => ?_
  rw [ht.1]
  refine (hsub _ _ _ ht.2).bind fun ns ns' hn => .pure ?_
  rw [(hp.setNames _).values]
  exact likeNodes_one _ hc hn _

end

theorem both_controlCase (env : Env) {t t' : Token} (ht : Twin t t') {p p' : ParsedArgs} (hp : LikeArgs p p') {c c' : Context} (hc : Near c c') :
    Both (fun x y => (x = none ∧ y = none) ∨ ∃ v d d', x = some (v, d) ∧ y = some (v, d') ∧ Near d d') (controlCase env t p c) (controlCase env t' p' c') := by
  unfold controlCase
  dsimp only
  rw [ht.2.1, show t.ctx.source = t'.ctx.source from ht.2.2]
  split
  · rename_i op cond _
    split
    · exact sees_err hc
    · have hcond := both_parseCondition cond t.ctx.startLine (t.ctx.startColumn + 4) t'.ctx.startLine (t'.ctx.startColumn + 4) t'.ctx.source
      cases h1 : parseCondition cond t.ctx.startLine (t.ctx.startColumn + 4) t'.ctx.source <;>
        cases h2 : parseCondition cond t'.ctx.startLine (t'.ctx.startColumn + 4) t'.ctx.source <;> rw [h1, h2] at hcond
      · rename_i e e'
        have : e.isMau = e'.isMau := by
          cases e <;> cases e' <;> first | rfl | (cases hcond)
        dsimp only
        rw [this]
        split
        · exact sees_err (by exact ht.2.2)
        · exact hcond
      · exact hcond.elim
      · exact hcond.elim
      · rename_i x y
        have hxy : (x = none ∧ y = none) ∨ ∃ a b, x = some a ∧ y = some b ∧ LikeCondition a b := hcond
        rcases hxy with ⟨rfl, rfl⟩ | ⟨a, b, rfl, rfl, hab⟩
        · exact rfl
        · refine Both.bind (R := fun x y => x = some a ∧ y = some b) (show Both _ (.ok (some a)) (.ok (some b)) from ⟨rfl, rfl⟩) fun x y hxy => ?_
          obtain ⟨rfl, rfl⟩ := hxy
          dsimp only
          rw [hab.1, hab.2.1, hab.2.2.1]
          refine (both_mkControl _ _ _ _ ht.2.2).bind fun k k' hk => ?_
          rcases (hp.setNames [c%"true_case", c%"false_case"]).get c%"true_case" with ⟨h1, h2⟩ | ⟨x, x', h1, h2, h3⟩
          · rw [h1, h2]; exact sees_err hc
          · rw [h1, h2]
            dsimp only
            refine (both_control hk env).bind fun r r' hr => ?_
            cases hr
            have hres : (((if r = true then some x else Dict.get? (p.setNames [c%"true_case", c%"false_case"]).named c%"false_case") = none ∧
                (if r = true then some x' else Dict.get? (p'.setNames [c%"true_case", c%"false_case"]).named c%"false_case") = none)) ∨
                ∃ y y', (if r = true then some x else Dict.get? (p.setNames [c%"true_case", c%"false_case"]).named c%"false_case") = some y ∧
                  (if r = true then some x' else Dict.get? (p'.setNames [c%"true_case", c%"false_case"]).named c%"false_case") = some y' ∧ LikeText y y' := by
              cases r with
              | true => exact .inr ⟨x, x', rfl, rfl, h3⟩
              | false => exact (hp.setNames [c%"true_case", c%"false_case"]).get c%"false_case"
            rcases hres with ⟨e1, e2⟩ | ⟨y, y', e1, e2, e3⟩
            · rw [e1, e2]
              split
              · exact sees_err hc
              · exact .inl ⟨rfl, rfl⟩
            · rw [e1, e2]
              split
              · dsimp only
                rw [e3.1]
                split
                · exact sees_err hc
                · exact .inr ⟨_, _, _, rfl, rfl, e3.2⟩
                · exact rfl
                · exact rfl
              · exact .inr ⟨_, _, _, rfl, by rw [e3.1]; rfl, e3.2⟩
  · exact sees_err hc

theorem twin_control (env : Env) {sub sub' : Str → Context → PM (List Node)} (hsub : SubTwin sub sub') {t t' : Token} (ht : Twin t t') {p p' : ParsedArgs} (hp : LikeArgs p p')
    {c c' : Context} (hc : Near c c') : PTwin LikeNodes (macroControlFn env sub t p c) (macroControlFn env sub' t' p' c') := by
  unfold macroControlFn
  refine (PTwin.lift (both_controlCase env ht hp hc)).bind fun x y hxy => ?_
  rcases hxy with ⟨rfl, rfl⟩ | ⟨v, d, d', rfl, rfl, hd⟩
  · exact .pure rfl
  · exact hsub _ _ _ hd

theorem twin_dispatch (env : Env) {sub sub' : Str → Context → PM (List Node)} (hsub : SubTwin sub sub') {t t' : Token} (ht : Twin t t') {p p' : ParsedArgs} (hp : LikeArgs p p')
    {c c' : Context} (hc : Near c c') : PTwin LikeNodes (macroDispatch env sub t p c) (macroDispatch env sub' t' p' c') := by
  unfold macroDispatch
  rw [ht.2.1]
  split
  · exact twin_control env hsub ht hp hc
  split
  · exact twin_link hsub hp hc
  split
  · exact twin_headerLink hsub hp hc
  split
  · exact twin_mailto hsub hp hc
  split
  · exact twin_image hp hc
  split
  · exact twin_footnote hp hc
  split
  · exact twin_class hsub hp hc
  split
  · exact twin_unicode hp hc
  split
  · exact twin_raw hp hc
  · refine .pure ?_
    rw [hp.arguments]
    exact likeNodes_one _ hc rfl _

theorem sentenceStop_twin {t t' : Token} (h : Twin t t') (m : Option Str) : sentenceStop m t = sentenceStop m t' := by
  unfold sentenceStop
  rw [h.1, h.2.1]

/-- All mutually recursive functions of the text parser. -/
theorem twin_text (env : Env) : ∀ n : Nat,
    (∀ {ts ts' : List Token}, Twins ts ts' → ∀ m, PTwin LikeNodes (sentenceLoop env ts n m) (sentenceLoop env ts' n m)) ∧
    (∀ {ts ts' : List Token}, Twins ts ts' → ∀ m, PTwin LikeNodes (parseItem env ts n m) (parseItem env ts' n m)) ∧
    (∀ {ts ts' : List Token}, Twins ts ts' → PTwin LikeNodes (parseStyle env ts n) (parseStyle env ts' n)) ∧
    (∀ {ts ts' : List Token}, Twins ts ts' → PTwin LikeNodes (parseMacro env ts n) (parseMacro env ts' n)) ∧
    SubTwin (parseStr env n) (parseStr env n) ∧
    (∀ {ts ts' : List Token}, Twins ts ts' → ∀ u u' s s' l l', Lasts ts ts' u u' → TextTwin s s' → LikeNodes l l' →
      Both (fun x y => LikeNodes x.1 y.1 ∧ TextTwin x.2 y.2) (textMain env ts n u s l) (textMain env ts' n u' s' l'))
  | 0 => by
    refine ⟨fun _ _ => ?_, fun _ _ => ?_, fun _ => ?_, fun _ => ?_, fun _ _ _ _ => ?_, fun _ _ _ _ _ _ _ _ _ _ => ?_⟩
    · rw [sentenceLoop, sentenceLoop]; exact .raise rfl
    · rw [parseItem, parseItem]; exact .raise rfl
    · rw [parseStyle, parseStyle]; exact .raise rfl
    · rw [parseMacro, parseMacro]; exact .raise rfl
    · rw [parseStr, parseStr]; exact .raise rfl
    · rw [textMain, textMain]; exact rfl
  | n + 1 => by
    obtain ⟨h1, h2, h3, h4, h5, h6⟩ := twin_text env n
    refine ⟨fun hts m => ?_, fun hts m => ?_, fun hts => ?_, fun hts => ?_, fun t c c' hc => ?_, fun hts u u' s s' l l' hu hs hl => ?_⟩
    · rw [sentenceLoop, sentenceLoop]
      refine (h2 hts m).bind fun ns ns' hn => ?_
      rw [hn.isEmpty]
      split
      · exact .pure rfl
      · exact (h1 hts m).bind fun r r' hr => .pure (hn.append hr)
    · rw [parseItem, parseItem]
      refine (PTwin.peek hts).bind fun t t' ht => ?_
      rw [sentenceStop_twin ht]
      split
      · exact .pure rfl
      · exact (twin_backslash hts).orElse <| (h4 hts).orElse <| (twin_verbatim hts).orElse <| (twin_escaped hts).orElse <| (h3 hts).orElse <| twin_word hts
    · rw [parseStyle, parseStyle]
      refine (PTwin.get hts _ _ _).bind fun o o' ho => ?_
      rw [ho.2.1]
      refine (h1 hts _).bind fun ns ns' hn => (PTwin.get hts _ _ _).bind fun c c' hc => .pure ?_
      exact likeNodes_one _ ho.2.2.merge (groupWords_like hn) _
    · rw [parseMacro, parseMacro]
      refine (twin_macroHead hts env).bind fun ⟨t, p, c⟩ ⟨t', p', c'⟩ ⟨ht, hp, hc⟩ => ?_
      exact twin_dispatch env h5 ht hp hc
    · intro s s' hs
      rw [parseStr, parseStr]
      have hl := both_lexText t c.startLine c.startColumn c'.startLine c'.startColumn c.source
      rw [← show c.source = c'.source from hc]
      cases hx : lexText (TextBuffer.ofText t c.startLine c.startColumn c.source) <;> cases hy : lexText (TextBuffer.ofText t c'.startLine c'.startColumn c.source) <;> rw [hx, hy] at hl
      · exact hl
      · exact hl.elim
      · exact hl.elim
      · rename_i ts ts'
        dsimp only
        have hm := h6 hl initialLast initialLast { uid := s.uid } { uid := s'.uid } [] [] (.inl ⟨rfl, rfl⟩) ⟨rfl, hs.uid, rfl, rfl, rfl⟩ rfl
        cases ha : textMain env ts n initialLast { uid := s.uid } [] <;> cases hb : textMain env ts' n initialLast { uid := s'.uid } [] <;> rw [ha, hb] at hm
        · exact hm
        · exact hm.elim
        · exact hm.elim
        · exact ⟨hm.1, hs.next, hm.2.uid, hs.footnotes, hs.links, hs.places⟩
    · rw [textMain, textMain]
      rw [← hs.next]
      have hp := both_peekIs hts s.next .EOF none none
      have hq := both_peek hts s.next none none none
      cases e1 : TM.peekIs ⟨_, s.next⟩ .EOF <;> cases e2 : TM.peekIs ⟨_, s.next⟩ .EOF <;> rw [e1, e2] at hp
      · exact hp
      · exact hp.elim
      · exact hp.elim
      · rename_i b b'
        cases hp
        cases b with
        | true => exact ⟨hl, hs⟩
        | false =>
          dsimp only
          cases e3 : TM.peek ⟨_, s.next⟩ <;> cases e4 : TM.peek ⟨_, s.next⟩ <;> rw [e3, e4] at hq
          · exact hq
          · exact hq.elim
          · exact hq.elim
          · rename_i t t'
            have he := lasts_eq hts hq.2 (peekIs_eof e1 e3) (peekIs_eof e2 e4) hu
            dsimp only
            by_cases h : t = u
            · rw [if_pos h, if_pos (he.1 h)]
              exact sees_err hq.1.2.2
            · rw [if_neg h, if_neg fun e => h (he.2 e)]
              have hr := h1 hts none s s' hs
              cases e5 : sentenceLoop env _ n none s <;> cases e6 : sentenceLoop env _ n none s' <;> rw [e5, e6] at hr
              · exact h6 hts _ _ _ _ _ _ (.inr hq.2) hr.2 (hl.append (groupWords_like hr.1))
              · exact hr.elim
              · exact hr.elim
              · exact hr.elim
              · exact sees_err hq.1.2.2
              · exact hr.elim
              · exact hr.elim
              · exact hr.elim
              · exact hr

/-- Results of the text parser that differ in positions only. -/
structure LikeResult (r r' : TextResult) : Prop where
  nodes : LikeNodes r.nodes r'.nodes
  footnotes : r.footnoteMacros = r'.footnoteMacros
  links : r.headerLinks = r'.headerLinks
  uid : r.uid = r'.uid
  places : adriftPlaces r.places = adriftPlaces r'.places

theorem both_parseText (n : Nat) (env : Env) (text : Str) (l c l' c' : Nat) (src : Option Str) (uid : Nat) :
    Both LikeResult (parseText n env text l c src uid) (parseText n env text l' c' src uid) := by
  unfold parseText
  have hl := both_lexText text l c l' c' src
  cases hx : lexText (TextBuffer.ofText text l c src) <;> cases hy : lexText (TextBuffer.ofText text l' c' src) <;> rw [hx, hy] at hl
  · exact hl
  · exact hl.elim
  · exact hl.elim
  · rename_i ts ts'
    dsimp only
    have hm := (twin_text env n).2.2.2.2.2 hl initialLast initialLast { uid := uid } { uid := uid } [] [] (.inl ⟨rfl, rfl⟩) ⟨rfl, rfl, rfl, rfl, rfl⟩ rfl
    cases ha : textMain env ts n initialLast { uid := uid } [] <;> cases hb : textMain env ts' n initialLast { uid := uid } [] <;> rw [ha, hb] at hm
    · exact hm
    · exact hm.elim
    · exact hm.elim
    · exact ⟨hm.1, hm.2.footnotes, hm.2.links, hm.2.uid, hm.2.places⟩

end Mau
