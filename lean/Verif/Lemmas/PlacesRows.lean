import Verif.Lemmas.PlacesToks
import Verif.Lemmas.TextErrPlaces
import Verif.Spec.Blame

set_option linter.unusedSimpArgs false

/-!
# Nodes in the order of their lines
-/

namespace Mau
open Spec

/-- Where nodes are expected: the files, the mode, the file and its last line; and the errors that come from other files. -/
structure Scope where
  files : Str → Except Bool Str
  exact : Bool
  src : Option Str
  last : Nat
  alien : Err → Prop := fun _ => True

/-- The node is on the line `l`. -/
structure Row (P : Scope) (l : Nat) (n : Node) : Prop where
  loc : Located P.files P.exact P.src P.last n.ctx.startLine n.ctx.startLine n
  source : n.ctx.source = P.src
  upper : n.ctx.startLine ≤ l
  same : P.exact = true → n.ctx.startLine = l
  ends : l ≤ n.ctx.endLine
  inside : l ≤ P.last

/-- The nodes are, in order, on the lines `a` to `b`. -/
inductive Rows (P : Scope) : Nat → List Node → Nat → Prop where
  | nil {a b : Nat} (h : a ≤ b) : Rows P a [] b
  | cons {a l b : Nat} {n : Node} {ns : List Node} (h : a ≤ l) (hr : Row P l n) (ht : Rows P l ns b) : Rows P a (n :: ns) b

variable {P : Scope}

theorem Rows.le {a b : Nat} {ns : List Node} (h : Rows P a ns b) : a ≤ b := by
  induction h with
  | nil h => exact h
  | cons h _ _ ih => omega

theorem Rows.right {a b b' : Nat} {ns : List Node} (h : Rows P a ns b) (hb : b ≤ b') : Rows P a ns b' := by
  induction h with
  | nil h => exact .nil (by omega)
  | cons h hr _ ih => exact .cons h hr (ih hb)

theorem Rows.left {a a' b : Nat} {ns : List Node} (h : Rows P a ns b) (ha : a' ≤ a) : Rows P a' ns b := by
  cases h with
  | nil h => exact .nil (by omega)
  | cons h hr ht => exact .cons (by omega) hr ht

theorem Rows.append {a b c : Nat} {ns ms : List Node} (h : Rows P a ns b) (h' : Rows P b ms c) : Rows P a (ns ++ ms) c := by
  induction h with
  | nil h => exact h'.left h
  | cons h hr _ ih => exact .cons h hr (ih h')

theorem Rows.snoc {a b l : Nat} {n : Node} {ns : List Node} (h : Rows P a ns b) (hl : b ≤ l) (hr : Row P l n) : Rows P a (ns ++ [n]) l :=
  h.append (.cons hl hr (.nil (Nat.le_refl _)))

theorem Row.wider {l last : Nat} {n : Node} (h : Row P l n) (hl : P.last ≤ last) : Row { P with last := last } l n :=
  ⟨h.loc.widen (fun _ => Nat.le_refl _) (Nat.le_refl _) hl, h.source, h.upper, h.same, h.ends, Nat.le_trans h.inside hl⟩

theorem Rows.wider {a b last : Nat} {ns : List Node} (h : Rows P a ns b) (hl : P.last ≤ last) : Rows { P with last := last } a ns b := by
  induction h with
  | nil h => exact .nil h
  | cons h hr _ ih => exact .cons h (hr.wider hl) ih

/-- The last line that counts is that of the last node. -/
theorem Rows.fit {a b : Nat} {ns : List Node} {z : Node} (h : Rows P a ns b) (hz : ns.getLast? = some z) : Rows P a ns z.ctx.endLine := by
  induction h with
  | nil h => cases hz
  | @cons a l b n ns h hr ht ih =>
    cases ns with
    | nil =>
      cases hz
      exact .cons h hr (.nil hr.ends)
    | cons m ns => exact .cons h hr (ih (by rw [← hz]; rfl))

/-- The last line that counts is not after the end of the text. -/
theorem Rows.clip {a b : Nat} {ns : List Node} (h : Rows P a ns b) (ha : a ≤ P.last) : Rows P a ns P.last := by
  induction h with
  | nil h => exact .nil ha
  | cons h hr _ ih => exact .cons h hr (ih hr.inside)

theorem Rows.located {a b lo hi : Nat} {ns : List Node} (h : Rows P a ns b) (hlo : P.exact = true → lo ≤ a) (hhi : b ≤ hi) :
    ∀ c ∈ ns, Located P.files P.exact P.src P.last lo hi c := by
  induction h with
  | nil h => intro c hc; cases hc
  | @cons a l b n ns h hr ht ih =>
    intro c hc
    rcases List.mem_cons.1 hc with rfl | hc
    · refine hr.loc.mono (fun hx => ?_) ?_
      · have := hr.same hx; have := hlo hx; omega
      · have := hr.upper; have := ht.le; omega
    · exact ih (fun hx => Nat.le_trans (hlo hx) h) hhi c hc

theorem Rows.starts {a b : Nat} {ns : List Node} (h : Rows P a ns b) (hx : P.exact = true) : ∀ c ∈ ns, a ≤ c.ctx.startLine := by
  induction h with
  | nil h => intro c hc; cases hc
  | cons h hr ht ih =>
    intro c hc
    rcases List.mem_cons.1 hc with rfl | hc
    · have := hr.same hx; omega
    · have := ih c hc; omega

theorem Rows.order {a b : Nat} {ns : List Node} (h : Rows P a ns b) (hx : P.exact = true) : InOrder ns := by
  induction h with
  | nil h => exact .nil
  | cons h hr ht ih =>
    refine List.pairwise_cons.2 ⟨fun c hc => .inr (.inr ?_), ih⟩
    have := ht.starts hx c hc
    have := hr.same hx
    omega

/-- Completing the nodes. -/
theorem Rows.map {a b : Nat} {ns : List Node} (h : Rows P a ns b) {F : Node → Node}
    (hF : ∀ n ∈ ns, (F n).ctx = n.ctx ∧ ∀ a b, Located P.files P.exact P.src P.last a b n → Located P.files P.exact P.src P.last a b (F n)) : Rows P a (ns.map F) b := by
  induction h with
  | nil h => exact .nil h
  | @cons a l b n ns h hr ht ih =>
    obtain ⟨h1, h2⟩ := hF n (by simp)
    refine .cons h ⟨?_, ?_, ?_, ?_, ?_, hr.inside⟩ (ih fun m hm => hF m (List.mem_cons_of_mem _ hm))
    · rw [h1]; exact h2 _ _ hr.loc
    · rw [h1]; exact hr.source
    · rw [h1]; exact hr.upper
    · rw [h1]; exact hr.same
    · rw [h1]; exact hr.ends

/-- The context is that of a node on the line `l`. -/
structure CtxAt (P : Scope) (l : Nat) (c : Context) : Prop where
  source : c.source = P.src
  upper : c.startLine ≤ l
  same : P.exact = true → c.startLine = l
  ends : l ≤ c.endLine

theorem CtxAt.of_tok {a : Nat} {t : Token} (h : TokOn P.src a t) : CtxAt P t.ctx.startLine t.ctx :=
  ⟨h.source, Nat.le_refl _, fun _ => rfl, Nat.le_of_eq h.ends.symm⟩

theorem CtxAt.merge {l : Nat} {c d : Context} (h : CtxAt P l c) (hd : P.exact = true → l ≤ d.startLine) : CtxAt P l (c.merge d) := by
  refine ⟨h.source, ?_, fun hx => ?_, ?_⟩ <;> simp only [Context.merge]
  · have := h.upper; omega
  · have := h.same hx; have := hd hx; omega
  · have := h.ends; omega

/-- The context of a list of nodes. -/
theorem Rows.span {a b : Nat} {ns : List Node} (h : Rows P a ns b) {c : Context} (hs : spanOf ns = .ok c) :
    ∃ l, a ≤ l ∧ l ≤ b ∧ l ≤ P.last ∧ CtxAt P l c ∧ Rows P l ns c.endLine := by
  unfold spanOf at hs
  cases h with
  | nil h => cases hs
  | @cons a l b n ns h hr ht =>
    have hall : Rows P l (n :: ns) b := .cons (Nat.le_refl _) hr ht
    have hz : (n :: ns).getLast? = some ((n :: ns).getLast (by simp)) := List.getLast?_eq_some_getLast (by simp)
    generalize (n :: ns).getLast (by simp) = z at hz
    rw [hz] at hs
    simp only [List.head?_cons, Except.ok.injEq] at hs
    subst hs
    have hf := hall.fit hz
    refine ⟨l, h, ht.le, hr.inside, ?_, hf.right (by simp only [Context.merge]; omega)⟩
    exact CtxAt.merge ⟨hr.source, hr.upper, hr.same, hr.ends⟩ fun hx => hall.starts hx z (List.mem_of_getLast? hz)

/-! ## Errors -/

/-- The error points at a line of the file from `lo` on, or has another excuse. -/
inductive Fault (P : Scope) (lo : Nat) : Err → Prop where
  | here {e : Err} (h : Points P.src lo P.last e) : Fault P lo e
  | alien {e : Err} (h : P.alien e) : Fault P lo e
  | footnote (name : Str) : Fault P lo (.parser (msgDuplicateFootnote name) (some Context.empty))
  | other {e : Err} (h : e.isMau = false) : Fault P lo e

/-- The same, in the exact mode. -/
def Blame (P : Scope) (lo : Nat) (e : Err) : Prop := P.exact = true → Fault P lo e

section
variable {lo : Nat}

theorem Blame.other {e : Err} (h : e.isMau = false) : Blame P lo e := fun _ => .other h

theorem Blame.token : Blame P lo .token := .other rfl

theorem Blame.at {l : Nat} {m : Msg} {c : Context} (h : CtxAt P l c) (h1 : lo ≤ l) (h2 : l ≤ P.last) : Blame P lo (.parser m (some c)) := by
  intro hx
  have := h.same hx
  exact .here (.parser h.source (by omega) (by omega))

theorem Blame.on {l : Nat} {e : Err} (h : P.exact = true → ErrOn P.src l e) (h1 : lo ≤ l) (h2 : l ≤ P.last) : Blame P lo e := by
  intro hx
  cases h hx with
  | lexer m col => exact .here (.lexer h1 h2)
  | parser hp =>
    obtain ⟨k1, k2, k3⟩ := hp rfl
    exact .here (.parser k1 (by omega) (by omega))
  | other h => exact .other h

theorem Blame.mono {lo' : Nat} {e : Err} (h : Blame P lo e) (hl : lo' ≤ lo) : Blame P lo' e := by
  intro hx
  cases h hx with
  | here h =>
    cases h with
    | lexer h1 h2 => exact .here (.lexer (by omega) h2)
    | parser hs h1 h2 => exact .here (.parser hs (by omega) h2)
  | alien h => exact .alien h
  | footnote name => exact .footnote name
  | other h => exact .other h

theorem OnL.of_tok {exact : Bool} {src : Option Str} {a : Nat} {t : Token} (h : TokOn src a t) : OnL exact src t.ctx.startLine t.ctx :=
  fun _ => ⟨h.source, rfl, Nat.le_of_eq h.ends.symm⟩

/-- Mentions are recorded with their positions, and so is the control. -/
structure Safe (P : Scope) (lo : Nat) (pl : List (Nat × Context)) (fm lm gn : List (Nat × Str)) (cb : Option Control) : Prop where
  places : ∀ p ∈ pl, p.2.source = P.src ∧ lo ≤ p.2.startLine ∧ p.2.startLine ≤ P.last
  notes : ∀ q ∈ fm, ∃ c, (q.1, c) ∈ pl
  links : ∀ q ∈ lm, ∃ c, (q.1, c) ∈ pl
  groups : ∀ q ∈ gn, ∃ c, (q.1, c) ∈ pl
  control : ∀ c, cb = some c → c.ctx.source = P.src ∧ lo ≤ c.ctx.startLine ∧ c.ctx.startLine ≤ P.last

/-- The same for a state, in the exact mode. -/
abbrev Tracked (P : Scope) (lo : Nat) (s : DocSt) : Prop := P.exact = true → Safe P lo s.places s.footnoteMacros s.linkMacros s.groupNodes s.controlBuf

theorem Safe.pop {pl : List (Nat × Context)} {fm lm gn : List (Nat × Str)} {cb cb' : Option Control} (h : Safe P lo pl fm lm gn cb) (hc : ∀ c, cb' = some c → cb = some c) :
    Safe P lo pl fm lm gn cb' := ⟨h.places, h.notes, h.links, h.groups, fun c e => h.control c (hc c e)⟩

theorem Safe.clear {pl : List (Nat × Context)} {fm lm gn : List (Nat × Str)} {cb : Option Control} (h : Safe P lo pl fm lm gn cb) :
    Safe P lo pl fm lm gn none := h.pop fun _ e => (nomatch e)

/-- The mentions of a text. -/
theorem Safe.text {pl : List (Nat × Context)} {fm lm gn : List (Nat × Str)} {cb : Option Control} (h : Safe P lo pl fm lm gn cb) {l : Nat} {pl' : List (Nat × Context)}
    {fm' lm' : List (Nat × Str)} (h1 : ∀ p ∈ pl', OnL true P.src l p.2) (h2 : ∀ q ∈ fm' ++ lm', ∃ c, (q.1, c) ∈ pl') (h3 : lo ≤ l) (h4 : l ≤ P.last) :
    Safe P lo (pl ++ pl') (fm ++ fm') (lm ++ lm') gn cb := by
  refine ⟨fun p hp => ?_, fun q hq => ?_, fun q hq => ?_, fun q hq => ?_, h.control⟩
  · rcases List.mem_append.1 hp with hp | hp
    · exact h.places p hp
    · obtain ⟨k1, k2, k3⟩ := h1 p hp rfl
      exact ⟨k1, by omega, by omega⟩
  · rcases List.mem_append.1 hq with hq | hq
    · obtain ⟨c, hc⟩ := h.notes q hq; exact ⟨c, List.mem_append_left _ hc⟩
    · obtain ⟨c, hc⟩ := h2 q (List.mem_append_left _ hq); exact ⟨c, List.mem_append_right _ hc⟩
  · rcases List.mem_append.1 hq with hq | hq
    · obtain ⟨c, hc⟩ := h.links q hq; exact ⟨c, List.mem_append_left _ hc⟩
    · obtain ⟨c, hc⟩ := h2 q (List.mem_append_right _ hq); exact ⟨c, List.mem_append_right _ hc⟩
  · obtain ⟨c, hc⟩ := h.groups q hq; exact ⟨c, List.mem_append_left _ hc⟩

end

/-! ## Nodes -/

theorem InlineAt.located {exact : Bool} {src : Option Str} {sl last : Nat} {n : Node} (files : Str → Except Bool Str) (h : InlineAt exact src sl n) (hlast : sl ≤ last) :
    Located files exact src last sl sl n := by
  induction h with
  | @empty c => exact .empty rfl rfl
  | @node n hd hq hl he hc ih =>
    cases exact with
    | false => exact .vague hd
    | true =>
      obtain ⟨h1, h2, h3⟩ := hq rfl
      refine .read ?_ ⟨h1, fun _ => by omega, by omega, by omega, by omega⟩ (fun _ => ?_) (fun c hcm => ?_) ?_ he
      · intro uri e; rw [e] at hd; exact hd
      · refine List.pairwise_iff_forall_sublist.2 fun {a b} hab => ?_
        have ha : a ∈ n.content := hab.subset (by simp)
        have hb : b ∈ n.content := hab.subset (by simp)
        cases hc a ha with
        | empty => exact .inl rfl
        | node _ hqa =>
          cases hc b hb with
          | empty => exact .inr (.inl rfl)
          | node _ hqb =>
            have := (hqa rfl).2.1; have := (hqb rfl).2.1
            exact .inr (.inr (by omega))
      · exact (ih c hcm).mono (fun _ => by omega) (by omega)
      · rw [hl]; intro e h; cases h

theorem TopsAt.located {exact : Bool} {src : Option Str} {sl last : Nat} {ns : List Node} (files : Str → Except Bool Str) (h : TopsAt exact src sl ns) (hlast : sl ≤ last) {lo hi : Nat}
    (h1 : exact = true → lo ≤ sl) (h2 : sl ≤ hi) : ∀ c ∈ ns, Located files exact src last lo hi c :=
  fun c hc => ((h c hc).1.located files hlast).mono h1 h2

theorem TopsAt.order {src : Option Str} {sl : Nat} {ns : List Node} (h : TopsAt true src sl ns) : InOrder ns := by
  refine List.pairwise_iff_forall_sublist.2 fun {a b} hab => ?_
  have h1 := ((h a (hab.subset (by simp))).2 rfl).2.1
  have h2 := ((h b (hab.subset (by simp))).2 rfl).2.1
  exact .inr (.inr (by omega))

/-- A node made on the line `l`. -/
theorem Row.new {l b : Nat} {d : NodeData} {c : Context} {ns : List Node} {a : NodeArgs} {labels : Dict Node} (hd : ∀ uri, d ≠ .includeMau uri) (hc : CtxAt P l c)
    (hl : l ≤ P.last) (ho : P.exact = true → InOrder ns) (hn : ∀ m ∈ ns, Located P.files P.exact P.src P.last c.startLine c.endLine m)
    (hlab : ∀ e ∈ labels, Located P.files P.exact P.src P.last 0 b e.2) (hb : b ≤ l) : Row P l (Node.new d c ns a labels) := by
  refine ⟨?_, hc.source, hc.upper, hc.same, hc.ends, hl⟩
  refine .read hd ⟨hc.source, fun _ => Nat.le_refl _, Nat.le_refl _, Nat.le_trans hc.upper hl, ?_⟩ ho hn (fun e he => (hlab e he).mono (fun _ => Nat.le_refl _) ?_) rfl
  · show c.startLine ≤ c.endLine
    have := hc.upper; have := hc.ends; omega
  · show b ≤ c.endLine
    have := hc.ends; omega

end Mau
