import Verif.Lemmas.PlacesRows

set_option linter.unusedSimpArgs false
set_option linter.unusedVariables false

/-!
# Where the nodes of a document come from
-/

namespace Mau
open Spec

/-- The nodes so far are on the lines `lo` to `b`, and so are the labels that wait. -/
structure Mine (P : Scope) (lo b : Nat) (s : DocSt) : Prop where
  rows : Rows P lo s.nodes b
  labels : ∀ e ∈ s.labelBuf, Located P.files P.exact P.src P.last 0 b e.2
  env : Calmly P.exact s.env
  safe : Tracked P lo s

/-- `f` ends in a state with `Q`, or fails in one with `J`, or there is an error that points at a line of the file. -/
abbrev Tri {α : Type} (P : Scope) (lo : Nat) (J : DocSt → Prop) (f : DM α) (s : DocSt) (Q : α → DocSt → Prop) : Prop := Ends (Blame P lo) J (fun _ => f) s Q

theorem Tri.out {α : Type} {P : Scope} {lo : Nat} {J : DocSt → Prop} {f : DM α} {s : DocSt} {Q : α → DocSt → Prop} (h : Tri P lo J f s Q) :
    (∀ a s', f s = .ok a s' → Q a s') ∧ (∀ s', f s = .fail s' → J s') ∧ ∀ e, f s = .err e → Blame P lo e := by
  obtain ⟨r, ⟨N, hN⟩, hm⟩ := h
  have := hN N (Nat.le_refl _)
  subst this
  exact ⟨fun a s' e => by simpa [e, Meets] using hm, fun s' e => by simpa [e, Meets] using hm, fun x e => by simpa [e, Meets] using hm⟩

section
variable {P : Scope} {lo b : Nat}

theorem Mine.right {b' : Nat} {s : DocSt} (h : Mine P lo b s) (hb : b ≤ b') : Mine P lo b' s :=
  ⟨h.rows.right hb, fun e he => (h.labels e he).mono (fun _ => Nat.le_refl _) hb, h.env, h.safe⟩

/-- Another state with the same nodes, labels and variables. -/
theorem Mine.of {s s' : DocSt} (h : Mine P lo b s) (h1 : s'.nodes = s.nodes) (h2 : ∀ e ∈ s'.labelBuf, e ∈ s.labelBuf) (h3 : s'.env = s.env)
    (h4 : Tracked P lo s → Tracked P lo s' := by exact fun h => h) : Mine P lo b s' :=
  ⟨h1 ▸ h.rows, fun e he => h.labels e (h2 e he), h3 ▸ h.env, h4 h.safe⟩

theorem Mine.le {s : DocSt} (h : Mine P lo b s) : lo ≤ b := h.rows.le

/-- The loop goes on. -/
def Goes (P : Scope) (lo : Nat) (toks : List Token) (s : DocSt) : Prop := ∃ b, Mine P lo b s ∧ Feed P.src P.last b (toks.drop s.next)

theorem undisturbed_no {env : Env} (h : Calmly P.exact env) (hx : P.exact = true) : ¬ InValue env '\n' := by
  rintro ⟨⟨k, v⟩, h1, h2⟩
  exact (h hx).values k v h1 h2

theorem spanOf_mauless {ns : List Node} {e : Err} (h : spanOf ns = .error e) : e.isMau = false := by
  unfold spanOf at h
  split at h
  · cases h
  · cases h; rfl

/-- Texts. -/
theorem Tri.docText {J : DocSt → Prop} {fuel : Nat} {text : Str} {ctx : Context} {s : DocSt} {Q : List Node → DocSt → Prop} (hj : J s) (henv : Calmly P.exact s.env)
    (hsf : Tracked P lo s) (hlo : lo ≤ ctx.startLine) (hhi : ctx.startLine ≤ P.last) (hn : '\n' ∉ text) (hs : ctx.source = P.src)
    (hq : ∀ ns u f k pl, TopsAt P.exact P.src ctx.startLine ns → (P.exact = true → Safe P lo pl f k s.groupNodes s.controlBuf) →
      Q ns { s with uid := u, footnoteMacros := f, linkMacros := k, places := pl }) : Tri P lo J (Mau.docText fuel text ctx) s Q := by
  refine .const ?_
  unfold Mau.docText
  cases hp : preprocessNodes s.env text ctx.startLine ctx.startColumn ctx.source with
  | error e =>
    have hb : Blame P lo e := .on (fun _ => by rw [hs] at hp; exact preprocessNodes_fails hn hp) hlo hhi
    split
    · exact hj
    · rename_i h; cases h; exact hb
    · rename_i h; cases h
    · rename_i h; cases h
  | ok ns =>
    have hone : OneLine P.exact (processedText ns).value := by
      intro hx hc
      obtain ⟨n, hn', hc⟩ := processedText_chars hc
      rcases (preprocessNodes_bounds _ _ _ _ _).2 ns hp n hn' _ hc with h | h
      · exact hn h
      · exact undisturbed_no henv hx h
    cases ns with
    | nil => exact hq [] s.uid s.footnoteMacros s.linkMacros s.places topsAt_nil hsf
    | cons n ns =>
      dsimp only
      cases ht : parseText fuel s.env (processedText (n :: ns)).value ctx.startLine ctx.startColumn ctx.source s.uid with
      | error e =>
        have hb : Blame P lo e := .on (fun hx => by rw [hs] at ht; exact parseText_fails (henv hx) (hone hx) ht) hlo hhi
        split
        · exact hj
        · rename_i h; cases h; exact hb
        · rename_i h; cases h
      | ok r =>
        refine hq r.nodes _ _ _ _ (hs ▸ parseText_places henv hone ht) fun hx => ?_
        rw [hs] at ht
        obtain ⟨h1, h2⟩ := parseText_notes (henv hx) (hone hx) ht
        exact (hsf hx).text h1 h2 hlo hhi

theorem Tri.popControl {J : DocSt → Prop} {s : DocSt} {Q : Bool → DocSt → Prop} (hsf : Tracked P lo s) (hj : J { s with controlBuf := none })
    (hq : ∀ v c, (∀ x, c = some x → s.controlBuf = some x) → Q v { s with controlBuf := c }) :
    Tri P lo J Mau.popControl s Q := by
  refine .const ?_
  unfold Mau.popControl
  split
  · exact hq true s.controlBuf fun _ h => h
  · rename_i c hc
    unfold DM.lift
    split
    · exact hq _ none fun _ h => (nomatch h)
    · exact hj
    · rename_i e _ hp
      have := process_fails hp
      subst this
      intro hx
      obtain ⟨h1, h2, h3⟩ := (hsf hx).control c hc
      exact .here (.parser h1 h2 h3)

/-- Saving a node. -/
theorem Tri.save {n : Node} {s : DocSt} {Q : Unit → DocSt → Prop} (hm : Mine P lo b s)
    (hq : ∀ c ns, (∀ x, c = some x → s.controlBuf = some x) → (ns = s.nodes ∨ ns = s.nodes ++ [n]) → Q () { s with controlBuf := c, nodes := ns }) : Tri P lo (Mine P lo b) (saveIfControl n) s Q := by
  unfold saveIfControl
  refine Ends.bind (Q := fun _ s' => ∃ c, (∀ x, c = some x → s.controlBuf = some x) ∧ s' = { s with controlBuf := c })
    (Tri.popControl hm.safe (hm.of rfl (fun _ h => h) rfl fun h hx => (h hx).clear) (fun v c hc => ⟨c, hc, rfl⟩)) ?_
  rintro v s1 ⟨c, hc, rfl⟩
  refine Ends.ite (fun _ => .modify ?_) (fun _ => .pure ?_)
  · exact hq c _ hc (.inr rfl)
  · exact hq c _ hc (.inl rfl)

theorem Tri.popArgs {J : DocSt → Prop} {s : DocSt} {Q : NodeArgs → DocSt → Prop} (hq : ∀ a, Q a { s with argsBuf := none }) : Tri P lo J Mau.popArgs s Q := .const (hq _)

theorem Tri.popLabels {J : DocSt → Prop} {s : DocSt} {Q : Dict Node → DocSt → Prop} (hq : Q s.labelBuf { s with labelBuf := [] }) : Tri P lo J Mau.popLabels s Q := .const hq

variable {toks : List Token}

/-- The end of most processing functions. -/
theorem Tri.finish {l b' : Nat} {d : NodeData} {c : Context} {ns : List Node} {a : NodeArgs} {s : DocSt} (hm : Mine P lo b s)
    (hr : ∀ labels, (∀ e ∈ labels, Located P.files P.exact P.src P.last 0 b e.2) → Row P l (Node.new d c ns a labels)) (hb : b ≤ l) (hl : l ≤ b')
    (hF : Feed P.src P.last b' (toks.drop s.next)) : Tri P lo (Mine P lo b) (do let labels ← Mau.popLabels; saveIfControl (Node.new d c ns a labels)) s (fun _ s' => Goes P lo toks s') := by
  refine Ends.bind (Q := fun lb s' => lb = s.labelBuf ∧ s' = { s with labelBuf := [] }) (Tri.popLabels ⟨rfl, rfl⟩) ?_
  rintro lb s1 ⟨rfl, rfl⟩
  have hm1 : Mine P lo b { s with labelBuf := [] } := ⟨hm.rows, (fun _ h => (nomatch h)), hm.env, hm.safe⟩
  refine Tri.save hm1 ?_
  intro c ns hc hns
  refine ⟨b', ⟨?_, (fun _ h => (nomatch h)), hm.env, fun hx => (hm.safe hx).pop hc⟩, hF⟩
  rcases hns with rfl | rfl
  · exact hm.rows.right (by omega)
  · exact (hm.rows.snoc hb (hr _ hm.labels)).right hl

variable (hE : EndsWithEof toks)
include hE

/-- A token. -/
theorem Tri.tok {J : DocSt → Prop} {ty : TokenType} {v : Option Str} {f : Option (Str → Bool)} {s : DocSt} {a : Nat} {Q : Token → DocSt → Prop} (h1 : ty ≠ .EOF)
    (h2 : ty ≠ .BLOCK) (hj : J s) (hF : Feed P.src P.last a (toks.drop s.next))
    (hq : ∀ t, t.type = ty → toks[s.next]? = some t → TokOn P.src a t → t.ctx.startLine ≤ P.last → '\n' ∉ t.value → Feed P.src P.last t.ctx.startLine (toks.drop (s.next + 1)) →
      Q t { s with next := s.next + 1 }) : Tri P lo J (DM.tm toks (·.get (some ty) v f)) s Q := by
  refine Ends.tok hE h1 hj fun t ht hty _ => ?_
  obtain ⟨k1, k2, k3, k4⟩ := hF.next ht (by rw [hty]; exact h1) (by rw [hty]; exact h2)
  exact hq t hty ht k1 k2 k3 k4

theorem places_eol {s : DocSt} (hm : Mine P lo b s) (hF : Feed P.src P.last b (toks.drop s.next)) : Tri P lo (Mine P lo b) (eolProc toks) s (fun _ s' => Goes P lo toks s') := by
  unfold eolProc
  refine Ends.bind (Tri.tok hE (by simp) (by simp) hm hF fun t _ _ h1 h2 h3 h4 => ?_) (fun a s' h => .pure h)
  exact ⟨_, (hm.right h1.from_).of rfl (fun _ h => h) rfl, h4⟩

theorem places_rule {s : DocSt} (hm : Mine P lo b s) (hF : Feed P.src P.last b (toks.drop s.next)) : Tri P lo (Mine P lo b) (ruleProc toks) s (fun _ s' => Goes P lo toks s') := by
  unfold ruleProc
  refine Ends.bind (Q := fun t s' => s' = { s with next := s.next + 1 } ∧ TokOn P.src b t ∧ t.ctx.startLine ≤ P.last ∧ Feed P.src P.last t.ctx.startLine (toks.drop (s.next + 1)))
    (Tri.tok hE (by simp) (by simp) hm hF fun t _ _ h1 h2 h3 h4 => ⟨rfl, h1, h2, h4⟩) ?_
  rintro t s1 ⟨rfl, h1, h2, h4⟩
  refine Ends.bind (Q := fun _ s' => s' = { s with next := s.next + 1, argsBuf := none }) (Tri.popArgs fun _ => rfl) ?_
  rintro args s1 rfl
  refine Tri.finish (l := t.ctx.startLine) (hm.of rfl (fun _ h => h) rfl) (fun labels hl => ?_) h1.from_ (Nat.le_refl _) h4
  exact Row.new (fun _ e => by cases e) (.of_tok h1) h2 (fun _ => .nil) (fun _ h => (nomatch h)) hl h1.from_

theorem places_label {fuel : Nat} {s : DocSt} (hm : Mine P lo b s) (hF : Feed P.src P.last b (toks.drop s.next)) :
    Tri P lo (Mine P lo b) (labelProc fuel toks) s (fun _ s' => Goes P lo toks s') := by
  unfold labelProc
  refine Ends.bind (Q := fun t s' => s' = { s with next := s.next + 1 } ∧ TokOn P.src b t ∧ Feed P.src P.last t.ctx.startLine (toks.drop (s.next + 1)))
    (Tri.tok hE (by simp) (by simp) hm hF fun t _ _ h1 h2 h3 h4 => ⟨rfl, h1, h4⟩) ?_
  rintro pre s1 ⟨rfl, h1, h4⟩
  dsimp only
  refine Ends.bind (Q := fun t s' => s' = { s with next := s.next + 2 } ∧ TokOn P.src b t ∧ t.ctx.startLine ≤ P.last ∧ '\n' ∉ t.value ∧ Feed P.src P.last t.ctx.startLine (toks.drop (s.next + 2)))
    (Tri.tok hE (by simp) (by simp) (hm.of rfl (fun _ h => h) rfl) h4 fun t _ _ k1 k2 k3 k4 => ⟨rfl, k1.mono h1.from_, k2, k3, k4⟩) ?_
  rintro t s1 ⟨rfl, k1, k2, k3, k4⟩
  refine Ends.bind (Q := fun ns s' => TopsAt P.exact P.src t.ctx.startLine ns ∧ ∃ u f k pl, (P.exact = true → Safe P lo pl f k s.groupNodes s.controlBuf) ∧ s' = { s with next := s.next + 2, uid := u, footnoteMacros := f, linkMacros := k, places := pl })
    (Tri.docText (P := P) (hm.of rfl (fun _ h => h) rfl) hm.env hm.safe (Nat.le_trans hm.le k1.from_) k2 k3 k1.source fun ns u f k pl h hsf => ⟨h, u, f, k, pl, hsf, rfl⟩) ?_
  rintro ns s1 ⟨ht, u, f, k, pl, hsf, rfl⟩
  refine .modify ⟨_, ⟨hm.rows.right k1.from_, ?_, hm.env, hsf⟩, k4⟩
  intro e he
  rcases Dict.mem_set he with he | he
  · subst he
    refine .label rfl rfl fun c hc => ?_
    have hc : c ∈ ns := by simpa [kids, Node.new, Node.content, Node.labels, Node.extra] using hc
    exact ht.located P.files k2 (fun _ => Nat.zero_le _) (Nat.le_refl _) c hc
  · exact (hm.labels e he).mono (fun _ => Nat.le_refl _) k1.from_

theorem places_control {s : DocSt} (hm : Mine P lo b s) (hF : Feed P.src P.last b (toks.drop s.next)) :
    Tri P lo (Mine P lo b) (controlProc toks) s (fun _ s' => Goes P lo toks s') := by
  unfold controlProc
  refine Ends.bind (Q := fun t s' => s' = { s with next := s.next + 1 } ∧ TokOn P.src b t ∧ t.ctx.startLine ≤ P.last ∧ Feed P.src P.last t.ctx.startLine (toks.drop (s.next + 1)))
    (Tri.tok hE (by simp) (by simp) hm hF fun t _ _ h1 h2 h3 h4 => ⟨rfl, h1, h2, h4⟩) ?_
  rintro pre s1 ⟨rfl, h1, h2, h4⟩
  refine Ends.bind (Q := fun t s' => s' = { s with next := s.next + 2 } ∧ TokOn P.src pre.ctx.startLine t ∧ Feed P.src P.last t.ctx.startLine (toks.drop (s.next + 2)))
    (Tri.tok hE (by simp) (by simp) (hm.of rfl (fun _ h => h) rfl) h4 fun t _ _ k1 k2 k3 k4 => ⟨rfl, k1, k4⟩) ?_
  rintro op s1 ⟨rfl, h1', h4'⟩
  refine Ends.bind (Q := fun t s' => s' = { s with next := s.next + 3 } ∧ TokOn P.src pre.ctx.startLine t ∧ t.ctx.startLine ≤ P.last ∧ '\n' ∉ t.value ∧
      Feed P.src P.last t.ctx.startLine (toks.drop (s.next + 3)))
    (Tri.tok hE (by simp) (by simp) (hm.of rfl (fun _ h => h) rfl) h4' fun t _ _ k1 k2 k3 k4 => ⟨rfl, k1.mono h1'.from_, k2, k3, k4⟩) ?_
  rintro cond s1 ⟨rfl, k1, k2, k3, k4⟩
  have hj : Mine P lo b { s with next := s.next + 3 } := hm.of rfl (fun _ h => h) rfl
  have hlo : lo ≤ pre.ctx.startLine := Nat.le_trans hm.le h1.from_
  have hctx : CtxAt P pre.ctx.startLine (pre.ctx.merge cond.ctx) := (CtxAt.of_tok h1).merge fun _ => k1.from_
  refine Ends.bind (Q := fun a s' => a = { s with next := s.next + 3 } ∧ s' = { s with next := s.next + 3 }) (.get ⟨rfl, rfl⟩) ?_
  rintro s2 s1 ⟨rfl, rfl⟩
  refine Ends.bind (Q := fun a s' => s' = { s with next := s.next + 3 }) (.lift hj (fun e he => ?_) fun _ _ => rfl) ?_
  · exact .on (fun hx => processConditionWithVariables_fails (hm.env hx) k3 (.of_tok k1) he) (Nat.le_trans hlo k1.from_) k2
  rintro o s1 rfl
  cases o with
  | none => exact .raise (.other rfl) (by simp)
  | some c =>
    refine Ends.bind (Q := fun a s' => a.ctx = pre.ctx.merge cond.ctx ∧ s' = { s with next := s.next + 3 }) (.lift hj (fun e he => ?_) fun _ hc => ⟨mkControl_ctx hc, rfl⟩) ?_
    · exact .on (fun hx => mkControl_fails (fun _ => ⟨hctx.source, hctx.same hx, hctx.ends⟩) he) hlo h2
    rintro o s1 ⟨ho, rfl⟩
    refine .modify ⟨_, (hm.right (Nat.le_trans h1.from_ k1.from_)).of rfl (fun _ h => h) rfl fun h hx => ?_, k4⟩
    refine ⟨(h hx).places, (h hx).notes, (h hx).links, (h hx).groups, ?_⟩
    rintro c' ⟨⟩
    have := hctx.same hx
    rw [ho]
    exact ⟨hctx.source, by omega, by omega⟩

theorem places_arguments {s : DocSt} (hm : Mine P lo b s) (hF : Feed P.src P.last b (toks.drop s.next)) :
    Tri P lo (Mine P lo b) (argumentsProc toks) s (fun _ s' => Goes P lo toks s') := by
  unfold argumentsProc
  refine Ends.bind (Q := fun t s' => s' = { s with next := s.next + 1 } ∧ TokOn P.src b t ∧ Feed P.src P.last t.ctx.startLine (toks.drop (s.next + 1)))
    (Tri.tok hE (by simp) (by simp) hm hF fun t _ _ h1 h2 h3 h4 => ⟨rfl, h1, h4⟩) ?_
  rintro pre s1 ⟨rfl, h1, h4⟩
  refine Ends.bind (Q := fun t s' => s' = { s with next := s.next + 2 } ∧ TokOn P.src b t ∧ t.ctx.startLine ≤ P.last ∧ '\n' ∉ t.value ∧ Feed P.src P.last t.ctx.startLine (toks.drop (s.next + 2)))
    (Tri.tok hE (by simp) (by simp) (hm.of rfl (fun _ h => h) rfl) h4 fun t _ _ k1 k2 k3 k4 => ⟨rfl, k1.mono h1.from_, k2, k3, k4⟩) ?_
  rintro op s1 ⟨rfl, h1', h2', h3', h4'⟩
  refine Ends.bind (Q := fun t s' => s' = { s with next := s.next + 3 } ∧ TokOn P.src b t ∧ Feed P.src P.last t.ctx.startLine (toks.drop (s.next + 3)))
    (Tri.tok hE (by simp) (by simp) (hm.of rfl (fun _ h => h) rfl) h4' fun t _ _ k1 k2 k3 k4 => ⟨rfl, k1.mono h1'.from_, k4⟩) ?_
  rintro cond s1 ⟨rfl, k1, k4⟩
  have hj : Mine P lo b { s with next := s.next + 3 } := hm.of rfl (fun _ h => h) rfl
  refine Ends.bind (Q := fun a s' => a = { s with next := s.next + 3 } ∧ s' = { s with next := s.next + 3 }) (.get ⟨rfl, rfl⟩) ?_
  rintro s2 s1 ⟨rfl, rfl⟩
  refine Ends.bind (Q := fun a s' => s' = { s with next := s.next + 3 }) (.lift hj (fun e he => ?_) fun _ _ => rfl) ?_
  · exact .on (fun hx => processArgumentsWithVariables_fails (hm.env hx) h3' (.of_tok h1') he) (Nat.le_trans hm.le h1'.from_) h2'
  rintro o s1 rfl
  exact .modify ⟨_, (hm.right k1.from_).of rfl (fun _ h => h) rfl, k4⟩

omit hE in
/-- The context of inline nodes. -/
theorem TopsAt.span {l sl : Nat} {ns : List Node} {c : Context} (h : TopsAt P.exact P.src sl ns) (hl : l ≤ sl) (hs : spanOf ns = .ok c) : P.exact = true → l ≤ c.startLine ∧ sl ≤ c.endLine := by
  intro hx
  unfold spanOf at hs
  cases hh : ns.head? with
  | none => rw [hh] at hs; cases hs
  | some x =>
    cases hz : ns.getLast? with
    | none => rw [hh, hz] at hs; cases hs
    | some z =>
      rw [hh, hz] at hs
      simp only [Except.ok.injEq] at hs
      subst hs
      obtain ⟨_, h1, h2⟩ := (h x (List.mem_of_head? hh)).2 hx
      obtain ⟨_, h3, h4⟩ := (h z (List.mem_of_getLast? hz)).2 hx
      simp only [Context.merge]
      omega

theorem places_header {fuel : Nat} {s : DocSt} (hm : Mine P lo b s) (hF : Feed P.src P.last b (toks.drop s.next)) :
    Tri P lo (Mine P lo b) (headerProc fuel toks) s (fun _ s' => Goes P lo toks s') := by
  unfold headerProc
  refine Ends.bind (Q := fun t s' => s' = { s with next := s.next + 1 } ∧ TokOn P.src b t ∧ t.ctx.startLine ≤ P.last ∧ Feed P.src P.last t.ctx.startLine (toks.drop (s.next + 1)))
    (Tri.tok hE (by simp) (by simp) hm hF fun t _ _ h1 h2 h3 h4 => ⟨rfl, h1, h2, h4⟩) ?_
  rintro h s1 ⟨rfl, h1, h2, h4⟩
  refine Ends.bind (Q := fun t s' => s' = { s with next := s.next + 2 } ∧ TokOn P.src h.ctx.startLine t ∧ t.ctx.startLine ≤ P.last ∧ '\n' ∉ t.value ∧ Feed P.src P.last t.ctx.startLine (toks.drop (s.next + 2)))
    (Tri.tok hE (by simp) (by simp) (hm.of rfl (fun _ h => h) rfl) h4 fun t _ _ k1 k2 k3 k4 => ⟨rfl, k1, k2, k3, k4⟩) ?_
  rintro t s1 ⟨rfl, k1, k2, k3, k4⟩
  dsimp only
  refine Ends.bind (Q := fun _ s' => s' = { s with next := s.next + 2, uid := s.uid + 1 }) (.fresh rfl) ?_
  rintro id s1 rfl
  refine Ends.bind (Q := fun ns s' => TopsAt P.exact P.src t.ctx.startLine ns ∧ ∃ u f k pl, (P.exact = true → Safe P lo pl f k s.groupNodes s.controlBuf) ∧ s' = { s with next := s.next + 2, uid := u, footnoteMacros := f, linkMacros := k, places := pl })
    (Tri.docText (P := P) (hm.of rfl (fun _ h => h) rfl) hm.env hm.safe (Nat.le_trans hm.le (Nat.le_trans h1.from_ k1.from_)) k2 k3 k1.source fun ns u f k pl h hsf => ⟨h, u, f, k, pl, hsf, rfl⟩) ?_
  rintro ns s1 ⟨ht, u, f, k, pl, hsf, rfl⟩
  refine Ends.bind (Q := fun _ s' => s' = { s with next := s.next + 2, uid := u, footnoteMacros := f, linkMacros := k, places := pl, argsBuf := none }) (Tri.popArgs fun _ => rfl) ?_
  rintro args s1 rfl
  refine Ends.bind (Q := fun c s' => spanOf ns = .ok c ∧ s' = { s with next := s.next + 2, uid := u, footnoteMacros := f, linkMacros := k, places := pl, argsBuf := none })
    (.lift (hm.of rfl (fun _ h => h) rfl fun _ => hsf) (fun e he => .other (spanOf_mauless he)) fun _ h => ⟨h, rfl⟩) ?_
  rintro c s1 ⟨hsp, rfl⟩
  have hspan := ht.span k1.from_ hsp
  refine Ends.bind (Q := fun lb s' => lb = s.labelBuf ∧ s' = { s with next := s.next + 2, uid := u, footnoteMacros := f, linkMacros := k, places := pl, argsBuf := none, labelBuf := [] })
    (Tri.popLabels ⟨rfl, rfl⟩) ?_
  rintro lb s1 ⟨rfl, rfl⟩
  have hm1 : Mine P lo b { s with next := s.next + 2, uid := u, footnoteMacros := f, linkMacros := k, places := pl, argsBuf := none, labelBuf := [], controlBuf := none } :=
    ⟨hm.rows, (fun _ h => (nomatch h)), hm.env, fun hx => (hsf hx).clear⟩
  have hctx : CtxAt P h.ctx.startLine (h.ctx.merge c) := (CtxAt.of_tok h1).merge fun hx => (hspan hx).1
  have hrow : ∀ (d : NodeData) (a : NodeArgs), (∀ uri, d ≠ .includeMau uri) → Row P h.ctx.startLine (Node.new d (h.ctx.merge c) ns a s.labelBuf) := by
    intro d a hd
    refine Row.new hd hctx h2 (fun hx => ?_) (fun m hmm => ?_) hm.labels h1.from_
    · rw [hx] at ht; exact ht.order
    · by_cases hx : P.exact = true
      · refine ht.located P.files k2 (fun _ => ?_) ?_ m hmm
        · rw [hctx.same hx]; exact k1.from_
        · have := (hspan hx).2; simp only [Context.merge]; omega
      · have hx' : P.exact = false := by simpa using hx
        rw [hx'] at ht ⊢
        cases (ht m hmm).1 with
        | empty => exact .empty rfl rfl
        | node hd => exact .vague hd
  have hdone : ∀ (s' : DocSt), s'.next = s.next + 2 → s'.labelBuf = [] → s'.env = s.env → Tracked P lo s' →
      (s'.nodes = s.nodes ∨ ∃ d a, (∀ uri, d ≠ .includeMau uri) ∧ s'.nodes = s.nodes ++ [Node.new d (h.ctx.merge c) ns a s.labelBuf]) → Goes P lo toks s' := by
    intro s' e1 e2 e3 e5 e4
    refine ⟨_, ⟨?_, by rw [e2]; exact fun _ h => (nomatch h), by rw [e3]; exact hm.env, e5⟩, by rw [e1]; exact k4⟩
    rcases e4 with e4 | ⟨d, a, hd, e4⟩ <;> rw [e4]
    · exact hm.rows.right (Nat.le_trans h1.from_ k1.from_)
    · exact (hm.rows.snoc h1.from_ (hrow d a hd)).right k1.from_
  refine Ends.bind (Q := fun _ s' => ∃ o, (∀ x, o = some x → s.controlBuf = some x) ∧
      s' = { s with next := s.next + 2, uid := u, footnoteMacros := f, linkMacros := k, places := pl, argsBuf := none, labelBuf := [], controlBuf := o })
    (Tri.popControl hsf hm1 fun _ c hc => ⟨c, hc, rfl⟩) ?_
  rintro v s1 ⟨o, ho, rfl⟩
  have hsf' : P.exact = true → Safe P lo pl f k s.groupNodes o := fun hx => (hsf hx).pop ho
  refine Ends.ite (fun _ => ?_) (fun _ => .pure (hdone _ rfl rfl rfl hsf' (.inl rfl)))
  refine Ends.bind (Q := fun _ s' => s'.next = s.next + 2 ∧ s'.labelBuf = [] ∧ s'.env = s.env ∧ Tracked P lo s' ∧ s'.nodes = s.nodes) ?_ ?_
  · unfold registerHeader
    refine Ends.bind (Q := fun _ s' => s'.next = s.next + 2 ∧ s'.labelBuf = [] ∧ s'.env = s.env ∧ Tracked P lo s' ∧ s'.nodes = s.nodes) ?_ fun _ s' h => .modify h
    unfold registerName
    split
    · exact .pure ⟨rfl, rfl, rfl, hsf', rfl⟩
    · refine Ends.bind (Q := fun a s' => s'.next = s.next + 2 ∧ s'.labelBuf = [] ∧ s'.env = s.env ∧ Tracked P lo s' ∧ s'.nodes = s.nodes) (.get ⟨rfl, rfl, rfl, hsf', rfl⟩) ?_
      rintro s2 s1 hs1
      exact Ends.ite (fun _ => .raise (.at hctx (Nat.le_trans hm.le h1.from_) h2) (by simp)) (fun _ => .modify hs1)
  · rintro _ s1 ⟨e1, e2, e3, e5, e4⟩
    refine .modify (hdone _ e1 e2 e3 e5 (.inr ⟨_, _, ?_, by rw [e4]⟩))
    intro uri e; cases e

end

end Mau
