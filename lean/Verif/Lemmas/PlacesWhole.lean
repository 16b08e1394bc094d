import Verif.Lemmas.PlacesBlocks
import Verif.Props.Managers
import Verif.Props.Lexing

set_option linter.unusedSimpArgs false
set_option linter.unusedVariables false

/-!
# Where included files and the nodes of whole documents come from
-/

namespace Mau
open Spec

section
variable {P : Scope} {lo b : Nat} {toks : List Token}

/-- What is known of the content of an include. -/
def Holds (P : Scope) (c : Context) (d : NodeData) (ns : List Node) : Prop :=
  (∃ uri text, d = .includeMau uri ∧ P.files uri = .ok text ∧ ∀ m ∈ ns, Located P.files false (some uri) (lastLine text) 0 (lastLine text) m) ∨
    ((∀ uri, d ≠ .includeMau uri) ∧ (P.exact = true → InOrder ns) ∧ ∀ m ∈ ns, Located P.files P.exact P.src P.last c.startLine c.endLine m)

theorem Holds.none {c : Context} {d : NodeData} (hd : ∀ uri, d ≠ .includeMau uri) : Holds P c d [] := .inr ⟨hd, fun _ => .nil, fun _ h => (nomatch h)⟩

theorem Holds.row {l b : Nat} {d : NodeData} {c : Context} {ns : List Node} (h : Holds P c d ns) {a : NodeArgs} {labels : Dict Node} (hc : CtxAt P l c)
    (hl : l ≤ P.last) (hlab : ∀ e ∈ labels, Located P.files P.exact P.src P.last 0 b e.2) (hb : b ≤ l) : Row P l (Node.new d c ns a labels) := by
  rcases h with ⟨uri, text, rfl, h1, h2⟩ | ⟨h1, h2, h3⟩
  · refine ⟨?_, hc.source, hc.upper, hc.same, hc.ends, hl⟩
    refine .included rfl ⟨hc.source, fun _ => Nat.le_refl _, Nat.le_refl _, Nat.le_trans hc.upper hl, ?_⟩ h1 h2 (fun e he => (hlab e he).mono (fun _ => Nat.le_refl _) ?_) rfl
    · show c.startLine ≤ c.endLine
      have := hc.upper; have := hc.ends; omega
    · show b ≤ c.endLine
      have := hc.ends; omega
  · exact Row.new h1 hc hl h2 h3 hlab hb

/-- Errors of included files come from elsewhere. -/
def Foreign (cfg : Config) (nested : NestedParser) (alien : Err → Prop) : Prop :=
  ∀ uri text req e, cfg.files uri = .ok text → req.text = text → req.source = some uri → req.startLine = 0 → Fresh req → nested req = .error e → alien e

theorem readFile_error {cfg : Config} {uri : Str} {ctx : Context} {e : Err} (h : readFile cfg uri ctx = .error e) : (∃ m, e = .parser m (some ctx)) ∨ e.isMau = false := by
  unfold readFile at h
  split at h
  · cases h
  · cases h; exact .inl ⟨_, rfl⟩
  · cases h; exact .inr rfl

theorem fromEnvironment_mauless {env : Env} {ns : Str} {e : Err} (h : Env.fromEnvironment env ns = .error e) : e.isMau = false := by
  unfold Env.fromEnvironment at h
  split at h
  · rename_i h'; cases h; exact asdict_mauless _ _ h'
  · cases h

theorem includeEnv_mauless {o : Option Str} {env : Env} {e : Err} (h : includeEnv o env = .error e) : e.isMau = false := by
  unfold includeEnv at h
  split at h
  · exact fromEnvironment_mauless h
  · cases h

theorem places_includeMau {cfg : Config} {nested : NestedParser} (hN : NestedAt cfg.files P.alien nested) (hA : Foreign cfg nested P.alien) (hf : P.files = cfg.files) {args : NodeArgs} {ctx : Context} {s : DocSt} {l : Nat}
    (hm : Mine P lo b s) (hy : Young s) (hc : CtxAt P l ctx) (hb : b ≤ l) (hl : l ≤ P.last) : Tri P lo (Mine P lo b) (includeMau cfg nested args ctx) s (fun r s' => Level P lo s s' ∧ Holds P ctx r.1 r.2.1) := by
  have hat : ∀ m, Blame P lo (.parser m (some ctx)) := fun m => .at hc (Nat.le_trans hm.le hb) hl
  unfold includeMau
  dsimp only
  split
  · exact .raise (hat _) (by simp)
  · rename_i uri hu
    refine Ends.bind (Q := fun _ s' => ∃ l, s' = { s with forbidden := l }) (.modify ⟨_, rfl⟩) ?_
    rintro _ s1 ⟨l1, rfl⟩
    refine Ends.bind (Q := fun a s' => a = { s with forbidden := l1 } ∧ s' = { s with forbidden := l1 }) (.get ⟨rfl, rfl⟩) ?_
    rintro _ s1 ⟨rfl, rfl⟩
    refine Ends.ite (fun _ => .raise (hat _) (by simp)) (fun _ => ?_)
    refine Ends.bind (Q := fun _ s' => ∃ l, s' = { s with forbidden := l }) (.modify ⟨_, rfl⟩) ?_
    rintro _ s1 ⟨l2, rfl⟩
    have hj : Mine P lo b { s with forbidden := l2 } := hm.of rfl (fun _ h => h) rfl
    refine Ends.bind (Q := fun t s' => readFile cfg uri ctx = .ok t ∧ s' = { s with forbidden := l2 }) (.lift hj (fun e he => ?_) fun t ht => ⟨ht, rfl⟩) ?_
    · rcases readFile_error he with ⟨m, rfl⟩ | he
      · exact hat m
      · exact .other he
    rintro text s1 ⟨hread, rfl⟩
    refine Ends.bind (Q := fun t s' => s' = { s with forbidden := l2 }) (.lift hj (fun e he => .other (includeEnv_mauless he)) fun t ht => rfl) ?_
    rintro env s1 rfl
    refine Ends.bind (Q := fun a s' => a = { s with forbidden := l2 } ∧ s' = { s with forbidden := l2 }) (.get ⟨rfl, rfl⟩) ?_
    rintro _ s1 ⟨rfl, rfl⟩
    refine Ends.bind (.lift (Q := fun inner s' => (∃ c, Rows ⟨cfg.files, false, some uri, 0 + lastLine text, P.alien⟩ 0 inner.nodes c) ∧ s' = { s with forbidden := l2 }) hj
      (fun e he _ => .alien (hA uri text _ e (readFile_ok hread) rfl rfl rfl (by exact hy) he))
      fun inner hi => ⟨((hN false _ (by exact hy) (fun h => (by cases h)) (fun _ _ h => (by cases h))).1 inner hi).1, rfl⟩) ?_
    rintro inner s1 ⟨⟨c, hr⟩, rfl⟩
    refine Ends.bind (Q := fun _ s' => Level P lo s s') (.modify ⟨rfl, rfl, rfl, rfl, fun h => h⟩) ?_
    intro _ s1 hlv
    refine .pure ⟨hlv, .inl ⟨uri, text, rfl, ?_, ?_⟩⟩
    · rw [hf]
      exact readFile_ok hread
    · have := (hr.clip (by simp)).located (lo := 0) (hi := lastLine text) (fun h => (by cases h)) (by simp)
      rw [Nat.zero_add] at this
      rw [hf]
      exact this

theorem places_includeNode {cfg : Config} {nested : NestedParser} (hN : NestedAt cfg.files P.alien nested) (hA : Foreign cfg nested P.alien) (hf : P.files = cfg.files) {ctype : Str} {args : NodeArgs} {ctx : Context} {s : DocSt} {l : Nat}
    (hm : Mine P lo b s) (hy : Young s) (hc : CtxAt P l ctx) (hb : b ≤ l) (hl : l ≤ P.last) :
    Tri P lo (Mine P lo b) (includeNode cfg nested ctype args ctx) s (fun r s' => Level P lo s s' ∧ Holds P ctx r.1 r.2.1) := by
  have hat : ∀ m, Blame P lo (.parser m (some ctx)) := fun m => .at hc (Nat.le_trans hm.le hb) hl
  unfold includeNode
  refine Ends.ite (fun _ => ?_) (fun _ => Ends.ite (fun _ => places_includeMau hN hA hf hm hy hc hb hl) (fun _ => Ends.ite (fun _ => ?_) (fun _ => Ends.ite (fun _ => ?_)
    (fun _ => Ends.ite (fun _ => ?_) (fun _ => Ends.ite (fun _ => ?_) (fun _ => .pure ⟨.refl, .none (fun _ e => by cases e)⟩))))))
  · refine Ends.bind (Q := fun r s' => s' = s ∧ ∀ uri, r.1 ≠ .includeMau uri) (.lift hm (fun e he => ?_) fun r hr => ⟨rfl, ?_⟩) ?_
    · unfold includeImage at he
      dsimp only at he
      split at he
      · cases he; exact hat _
      · cases he
    · intro uri e
      unfold includeImage at hr
      dsimp only at hr
      split at hr
      · cases hr
      · injection hr with hr; subst hr; cases e
    · rintro ⟨d, a⟩ s1 ⟨rfl, hd⟩
      exact .pure ⟨.refl, .none hd⟩
  · refine .lift hm (fun e he => ?_) fun r hr => ⟨.refl, ?_⟩
    · unfold includeRaw at he
      dsimp only at he
      split at he
      · cases he; exact hat _
      · split at he
        · rename_i hr
          cases he
          rcases readFile_error hr with ⟨m, rfl⟩ | hr
          · exact hat m
          · exact .other hr
        · cases he
    unfold includeRaw at hr
    dsimp only at hr
    split at hr
    · cases hr
    · split at hr
      · cases hr
      · rename_i text _
        injection hr with hr
        subst hr
        have hrow : ∀ x : Str, Located P.files P.exact P.src P.last ctx.startLine ctx.endLine (Node.new (.rawLine x) ctx) := by
          intro x
          have hrow : Row P l (Node.new (.rawLine x) ctx) :=
            Row.new (by intro uri e; cases e) hc hl (fun _ => .nil) (fun _ h => (nomatch h)) (no_labels (b := 0)) (Nat.zero_le _)
          exact hrow.loc.mono (fun _ => Nat.le_refl _) (Nat.le_trans hc.upper hc.ends)
        refine .inr ⟨fun _ e => (by cases e), fun _ => ?_, fun m hmm => ?_⟩
        · refine List.pairwise_map.2 (List.pairwise_iff_forall_sublist.2 fun {a b} _ => .inr (.inr (Nat.le_refl _)))
        · obtain ⟨x, _, rfl⟩ := List.mem_map.1 hmm
          exact hrow x
  · refine Ends.bind (Q := fun _ s' => Level P lo s s') (.fresh ⟨rfl, rfl, rfl, rfl, fun h => h⟩) fun id s1 h1 => ?_
    refine Ends.bind (Q := fun _ s' => Level P lo s s') (.modify ⟨h1.nodes, h1.labels, h1.env, h1.next, h1.safe⟩) fun _ s2 h2 => ?_
    exact .pure ⟨h2, .none (fun _ e => by cases e)⟩
  · refine Ends.bind (Q := fun _ s' => Level P lo s s') (.fresh ⟨rfl, rfl, rfl, rfl, fun h => h⟩) fun id s1 h1 => ?_
    refine Ends.bind (Q := fun _ s' => Level P lo s s') (.modify ⟨h1.nodes, h1.labels, h1.env, h1.next, h1.safe⟩) fun _ s2 h2 => ?_
    exact .pure ⟨h2, .none (fun _ e => by cases e)⟩
  · dsimp only
    split
    · exact .raise (.other rfl) (by simp)
    · refine Ends.bind (Q := fun _ s' => Level P lo s s') (.fresh ⟨rfl, rfl, rfl, rfl, fun h => h⟩) fun id s1 h1 => ?_
      refine Ends.bind (Q := fun _ s' => Level P lo s s') (.modify ⟨h1.nodes, h1.labels, h1.env, h1.next, fun h hx => ?_⟩) fun _ s2 h2 => ?_
      · have hs := h1.safe h hx
        have hsame := hc.same hx
        have hlow := Nat.le_trans hm.le hb
        refine ⟨fun p hp => ?_, fun q hq => ?_, fun q hq => ?_, fun q hq => ?_, hs.control⟩
        · rcases List.mem_append.1 hp with hp | hp
          · exact hs.places p hp
          · rw [List.mem_singleton] at hp
            subst hp
            exact ⟨hc.source, by show lo ≤ ctx.startLine; omega, by show ctx.startLine ≤ P.last; omega⟩
        · obtain ⟨c, hc⟩ := hs.notes q hq; exact ⟨c, List.mem_append_left _ hc⟩
        · obtain ⟨c, hc⟩ := hs.links q hq; exact ⟨c, List.mem_append_left _ hc⟩
        · rcases List.mem_append.1 hq with hq | hq
          · obtain ⟨c, hc⟩ := hs.groups q hq; exact ⟨c, List.mem_append_left _ hc⟩
          · rw [List.mem_singleton] at hq
            subst hq
            exact ⟨ctx, List.mem_append_right _ (by simp)⟩
      exact .pure ⟨h2, .none (fun _ e => by cases e)⟩

variable (hE : EndsWithEof toks)
include hE

theorem places_includeArgs {boxed : Option NodeArgs} {cx : Context} {s : DocSt} {a l : Nat} (hm : Mine P lo b s) (hc : CtxAt P l cx) (hb : b ≤ l) (hl : l ≤ P.last) (ha : b ≤ a) (hF : Feed P.src P.last a (toks.drop s.next)) :
    Tri P lo (Mine P lo b) (includeArgs boxed toks cx) s (fun _ s' => ∃ i a', s' = { s with next := i } ∧ a ≤ a' ∧ Feed P.src P.last a' (toks.drop i)) := by
  unfold includeArgs
  refine Ends.bind (Q := fun _ s' => s' = s) (Ends.lift hm (fun e he => .other (Mauless.peekIs _ _ _ _ _ he)) fun _ _ => rfl) ?_
  rintro v s1 rfl
  refine Ends.ite (fun _ => ?_) (fun _ => .pure ⟨s1.next, a, rfl, Nat.le_refl _, hF⟩)
  refine Ends.ite (fun _ => .raise (.at hc (Nat.le_trans hm.le hb) hl) (by simp)) (fun _ => ?_)
  refine Ends.bind (Q := fun t s' => s' = { s1 with next := s1.next + 1 } ∧ TokOn P.src a t ∧ Feed P.src P.last t.ctx.startLine (toks.drop (s1.next + 1)))
    (Tri.tok hE (by simp) (by simp) hm hF fun t _ _ h1 h2 h3 h4 => ⟨rfl, h1, h4⟩) ?_
  rintro c s2 ⟨rfl, h1, h4⟩
  have hj : ∀ i, Mine P lo b { s1 with next := i } := fun i => hm.of rfl (fun _ h => h) rfl
  refine Ends.bind (Q := fun t s' => s' = { s1 with next := s1.next + 2 } ∧ TokOn P.src a t ∧ t.ctx.startLine ≤ P.last ∧ '\n' ∉ t.value ∧ Feed P.src P.last t.ctx.startLine (toks.drop (s1.next + 2)))
    (Tri.tok hE (by simp) (by simp) (hj _) h4 fun t _ _ k1 k2 k3 k4 => ⟨rfl, k1.mono h1.from_, k2, k3, k4⟩) ?_
  rintro t s2 ⟨rfl, k1, k2, k3, k4⟩
  refine Ends.bind (Q := fun x s' => x = { s1 with next := s1.next + 2 } ∧ s' = { s1 with next := s1.next + 2 }) (.get ⟨rfl, rfl⟩) ?_
  rintro s3 s2 ⟨rfl, rfl⟩
  refine Ends.bind (Q := fun _ s' => s' = { s1 with next := s1.next + 2 }) (.lift (hj _) (fun e he => ?_) fun _ _ => rfl) ?_
  · exact .on (fun hx => processArgumentsWithVariables_fails (hm.env hx) k3 (.of_tok k1) he) (Nat.le_trans hm.le (Nat.le_trans ha k1.from_)) k2
  rintro p s2 rfl
  exact .pure ⟨_, _, rfl, k1.from_, k4⟩

theorem places_include {cfg : Config} {nested : NestedParser} (hN : NestedAt cfg.files P.alien nested) (hA : Foreign cfg nested P.alien) (hf : P.files = cfg.files) {s : DocSt} (hm : Mine P lo b s)
    (hF : Feed P.src P.last b (toks.drop s.next)) (hy : Young s) : Tri P lo (Mine P lo b) (includeProc cfg nested toks) s (fun _ s' => Goes P lo toks s') := by
  unfold includeProc
  refine Ends.bind (Q := fun t s' => s' = { s with next := s.next + 1 } ∧ TokOn P.src b t ∧ t.ctx.startLine ≤ P.last ∧ Feed P.src P.last t.ctx.startLine (toks.drop (s.next + 1)))
    (Tri.tok hE (by simp) (by simp) hm hF fun t _ _ h1 h2 h3 h4 => ⟨rfl, h1, h2, h4⟩) ?_
  rintro pre s1 ⟨rfl, h1, h2, h4⟩
  have hj : ∀ i o, Mine P lo b { s with next := i, argsBuf := o } := fun i o => hm.of rfl (fun _ h => h) rfl
  refine Ends.bind (Q := fun t s' => s' = { s with next := s.next + 2 } ∧ TokOn P.src pre.ctx.startLine t ∧ Feed P.src P.last t.ctx.startLine (toks.drop (s.next + 2)))
    (Tri.tok hE (by simp) (by simp) (hj _ _) h4 fun t _ _ k1 k2 k3 k4 => ⟨rfl, k1, k4⟩) ?_
  rintro ty s1 ⟨rfl, k1, k4⟩
  dsimp only
  refine Ends.bind (Q := fun _ s' => s' = { s with next := s.next + 2 }) (.get rfl) ?_
  rintro s3 s1 rfl
  refine Ends.bind (Q := fun _ s' => s' = { s with next := s.next + 2, argsBuf := none }) (.modify rfl) ?_
  rintro _ s1 rfl
  have hctx : CtxAt P pre.ctx.startLine (pre.ctx.merge ty.ctx) := (CtxAt.of_tok h1).merge fun _ => k1.from_
  refine Ends.bind (places_includeArgs (s := { s with next := s.next + 2, argsBuf := none }) hE (hj _ _) hctx h1.from_ h2 (Nat.le_trans h1.from_ k1.from_) k4) ?_
  rintro args s1 ⟨i, a', rfl, ha, hF'⟩
  refine Ends.bind (places_includeNode (s := { s with next := i, argsBuf := none }) hN hA hf (hj _ _) hy hctx h1.from_ h2) ?_
  rintro r s1 ⟨hl, hh⟩
  refine Tri.finish (l := pre.ctx.startLine) (b' := a') (hl.mine (hj _ _)) (fun labels hlab => hh.row hctx h2 hlab h1.from_) h1.from_ (Nat.le_trans k1.from_ ha) ?_
  rw [hl.next]
  exact hF'

end

/-! ## The parser -/

section
variable {P : Scope} {lo : Nat} {toks : List Token}

/-- What every processing function does. -/
def Keeping (P : Scope) (lo : Nat) (toks : List Token) (f : DM Unit) : Prop :=
  ∀ b s, Mine P lo b s → Feed P.src P.last b (toks.drop s.next) → Young s → Tri P lo (Mine P lo b) f s (fun _ s' => Goes P lo toks s')

theorem places_fns (hE : EndsWithEof toks) (hT : TokFrom (Named P.exact) toks) {cfg : Config} {nested : NestedParser} (hN : NestedAt cfg.files P.alien nested) (hA : Foreign cfg nested P.alien) (hf : P.files = cfg.files) {fuel : Nat} :
    ∀ f ∈ docFns cfg nested fuel toks, Keeping P lo toks f := by
  intro f hm b s h1 h2 h3
  simp only [docFns, List.mem_cons, List.not_mem_nil, or_false] at hm
  rcases hm with rfl | rfl | rfl | rfl | rfl | rfl | rfl | rfl | rfl | rfl | rfl
  · exact places_eol hE h1 h2
  · exact places_rule hE h1 h2
  · exact places_variable hE hT h1 h2
  · exact places_label hE h1 h2
  · exact places_control hE h1 h2
  · exact places_arguments hE h1 h2
  · exact places_header hE h1 h2
  · exact places_block hE hT (hf ▸ hN) h1 h2 h3
  · exact places_include hE hN hA hf h1 h2 h3
  · exact places_list hE h1 h2
  · exact places_paragraph hE h1 h2

theorem places_try {next : Token} {l : Nat} {base : List Node} {fs : List (DM Unit)} (hk : ∀ f ∈ fs, Keeping P lo toks f) (hg : ∀ f ∈ fs, DGood l base [] [] f (fun _ => []) (fun _ => []))
    {b : Nat} {s : DocSt} (hm : Mine P lo b s) (hF : Feed P.src P.last b (toks.drop s.next)) (hw : WF l base s [] []) (hb : Blame P lo (.parser .cannotParse (some next.ctx))) :
    (∀ a s', tryDocFns next fs s = .ok a s' → Goes P lo toks s') ∧ ∀ e, tryDocFns next fs s = .err e → Blame P lo e := by
  induction fs generalizing s with
  | nil =>
    refine ⟨fun a s' h => (by cases h), fun e h => ?_⟩
    unfold tryDocFns DM.raise at h
    cases h
    exact hb
  | cons f fs ih =>
    unfold tryDocFns
    obtain ⟨h1, h2, h3⟩ := (hk f (by simp) b s hm hF hw.below).out
    cases hx : f s with
    | ok a s1 =>
      dsimp only
      exact ⟨fun _ _ h => (by cases h; exact h1 _ _ hx), fun _ h => (nomatch h)⟩
    | err e =>
      dsimp only
      exact ⟨fun _ _ h => (nomatch h), fun _ h => (by cases h; exact h3 _ hx)⟩
    | fail s1 =>
      dsimp only
      have hw1 := (hg f (by simp) s [] [] hw).2 s1 hx
      exact ih (s := { s1 with next := s.next }) (fun g hg' => hk g (by simp [hg'])) (fun g hg' => hg g (by simp [hg'])) ((h2 s1 hx).of rfl (fun _ h => h) rfl) hF
        ⟨hw1.old, hw1.bodies, hw1.order, hw1.tocNodup, hw1.groups, hw1.core⟩

/-- The next token, if it is not the end, is on a line of the file. -/
theorem next_blamed (hE : EndsWithEof toks) {b : Nat} {s : DocSt} {t : Token} {m : Msg} (hm : Mine P lo b s) (hF : Feed P.src P.last b (toks.drop s.next))
    (hp : TM.peekIs ⟨toks, s.next⟩ .EOF = .ok false) (ht : TM.peek ⟨toks, s.next⟩ = .ok t) : Blame P lo (.parser m (some t.ctx)) := by
  have hne : t.type ≠ .EOF := by
    intro e
    rw [peekIs_of_peek ht, e] at hp
    cases hp
  obtain ⟨h1, h2⟩ := hF.any (peek_inside hE ht hne).1 hne
  exact .at (.of_tok h1) (Nat.le_trans hm.le h1.from_) h2

theorem places_loop (hE : EndsWithEof toks) {l : Nat} {base : List Node} {fs : List (DM Unit)} (hk : ∀ f ∈ fs, Keeping P lo toks f) (hg : ∀ f ∈ fs, DGood l base [] [] f (fun _ => []) (fun _ => []))
    (n : Nat) : ∀ {t : Token} {s : DocSt}, Goes P lo toks s → WF l base s [] [] →
      (∀ s', docLoop fs toks n t s = .ok s' → Goes P lo toks s') ∧ ∀ e, docLoop fs toks n t s = .error e → Blame P lo e := by
  induction n with
  | zero => exact fun _ _ => ⟨fun _ h => (nomatch h), fun _ h => (by cases h; exact .other rfl)⟩
  | succ n ih =>
    intro t s hgo hw
    unfold docLoop
    split
    · rename_i h
      exact ⟨fun _ h => (nomatch h), fun _ h' => (by cases h'; exact .other (Mauless.peekIs _ _ _ _ _ h))⟩
    · exact ⟨fun _ h => (by cases h; exact hgo), fun _ h => (nomatch h)⟩
    · rename_i hp
      split
      · rename_i h
        exact ⟨fun _ h => (nomatch h), fun _ h' => (by cases h'; exact .other (Mauless.peek _ _ _ _ _ h))⟩
      · rename_i nt hpk
        obtain ⟨b, h1, h2⟩ := hgo
        split
        · exact ⟨fun _ h => (nomatch h), fun _ h => (by cases h; exact next_blamed hE h1 h2 hp hpk)⟩
        · obtain ⟨k1, k2⟩ := places_try hk hg h1 h2 hw (next_blamed hE h1 h2 hp hpk)
          split
          · rename_i a s1 hx
            exact ih (k1 a s1 hx) ((DGood.tryDocFns hg s [] [] hw).1 a s1 hx)
          · exact ⟨fun _ h => (nomatch h), fun _ h => (by cases h; exact .other rfl)⟩
          · rename_i e hx
            exact ⟨fun _ h => (nomatch h), fun _ h => (by cases h; exact k2 _ hx)⟩

end

theorem base_calm : ∀ kv ∈ Env.fromDict (Env.asItems (Env.fromDict baseEnvItems c%"mau.parser")) [], '\n' ∉ kv.2.pyStr ∧ kv.1 ≠ [] := by decide

theorem calmly_init {exact : Bool} {env : Env} (h : Calmly exact env) : Calmly exact (initEnv env) := by
  intro hx
  have h := h hx
  have hmem : ∀ k v, (k, v) ∈ initEnv env → (k, v) ∈ Env.fromDict (Env.asItems (Env.fromDict baseEnvItems c%"mau.parser")) [] ∨ (k, v) ∈ env := by
    intro k v hm
    exact Dict.mem_update hm
  refine ⟨fun k v hm => ?_, ?_⟩
  · rcases hmem k v hm with hm | hm
    · exact (base_calm _ hm).1
    · exact h.values k v hm
  · cases hg : Dict.get? (initEnv env) [] with
    | none => rfl
    | some v =>
      rcases hmem _ v (Dict.mem_of_get? hg) with hm | hm
      · exact absurd rfl (base_calm _ hm).2
      · exact absurd (List.mem_map.2 ⟨_, hm, rfl⟩) (Dict.get?_none_iff.1 h.names)

/-- A mention that is tracked has a place. -/
theorem Safe.place {P : Scope} {lo : Nat} {s : DocSt} (h : Safe P lo s.places s.footnoteMacros s.linkMacros s.groupNodes s.controlBuf) {i : Nat} {m : Msg} (hi : ∃ c, (i, c) ∈ s.places) :
    Fault P lo (.parser m (s.placeOf i)) := by
  obtain ⟨c, hc⟩ := hi
  unfold DocSt.placeOf
  cases hf : s.places.find? (fun p => p.1 == i) with
  | none => exact absurd (List.find?_eq_none.1 hf _ hc) (by simp)
  | some p =>
    obtain ⟨h1, h2, h3⟩ := h.places p (List.mem_of_find?_eq_some hf)
    exact .here (.parser h1 h2 h3)

theorem finalise_blame {P : Scope} {lo : Nat} {cfg : Config} {s : DocSt} {e : Err} (h : Tracked P lo s) (he : finalise cfg s = .error e) : Blame P lo e := by
  intro hx
  have hs := h hx
  have ho := finalise_outcome cfg s
  cases h1 : firstMissing s.footnoteMacros s.bodies with
  | some q =>
    rw [h1] at ho
    dsimp only at ho
    rw [ho] at he
    cases he
    exact hs.place (hs.notes _ (firstMissing_some h1).1)
  | none =>
    rw [h1] at ho
    dsimp only at ho
    cases h2 : firstMissing s.linkMacros s.linkHeaders with
    | some q =>
      rw [h2] at ho
      dsimp only at ho
      rw [ho] at he
      cases he
      exact hs.place (hs.links _ (firstMissing_some h2).1)
    | none =>
      rw [h2] at ho
      dsimp only at ho
      cases h3 : firstMissing s.groupNodes s.groups with
      | some q =>
        rw [h3] at ho
        dsimp only at ho
        rw [ho] at he
        cases he
        exact hs.place (hs.groups _ (firstMissing_some h3).1)
      | none =>
        rw [h3] at ho
        obtain ⟨s', ho⟩ := ho
        rw [ho] at he
        cases he

/-- The errors of included files. -/
def alienOf (cfg : Config) (e : Err) : Prop :=
  ∃ uri text req n, cfg.files uri = .ok text ∧ req.text = text ∧ req.source = some uri ∧ req.startLine = 0 ∧ Fresh req ∧ parseDocument cfg n req = .error e

/-- Nodes are where they come from, and errors point at lines of the file. -/
theorem parseDocument_places (cfg : Config) (n : Nat) : NestedAt cfg.files (alienOf cfg) (parseDocument cfg n) := by
  induction n with
  | zero => exact fun exact req _ _ _ => ⟨fun _ h => (nomatch h), fun _ h => (by cases h; exact .other rfl)⟩
  | succ n ih =>
    intro exact req hfr hc hd
    let P : Scope := NestedReq.scope cfg.files (alienOf cfg) exact req
    have hlen : 0 < (splitChar '\n' req.text).length := List.length_pos_iff.2 (splitChar_ne_nil _ _)
    have hrun : (∀ s0, (parser cfg n req.source).run req.startLine req.startColumn (splitChar '\n' req.text) (initial req) = .ok s0 → ∃ b, Mine P req.startLine b s0) ∧
        ∀ e, (parser cfg n req.source).run req.startLine req.startColumn (splitChar '\n' req.text) (initial req) = .error e → Blame P req.startLine e := by
      unfold Parser.run
      cases hd' : docTokens req.source req.startLine req.startColumn (splitChar '\n' req.text) with
      | error e =>
        simp only [parser, hd']
        refine ⟨fun _ h => (nomatch h), fun _ h hx => ?_⟩
        cases h
        obtain ⟨m, i, rfl, d, h1, _⟩ := docTokens_errors _ _ _ _ _ hd'
        have hi := (List.getElem?_eq_some_iff.1 h1).1
        exact .here (.lexer (Nat.le_add_right _ _) (by show _ ≤ req.startLine + lastLine req.text; unfold lastLine; omega))
      | ok toks =>
        simp only [parser, hd']
        have hn : ∀ l ∈ splitChar '\n' req.text, '\n' ∉ l := fun l hl => sep_not_mem_of_mem_split hl
        have hE := docTokens_ends _ _ _ _ _ hd'
        have hT := tokFrom_lines (L := Named exact) hn hd hd'
        have hF : Feed P.src P.last req.startLine toks := feed_lines hn (by show _ ≤ req.startLine + lastLine req.text + 1; unfold lastLine; omega) hd'
        have hw : WF req.uid req.objs (start (initial req)) [] [] := (WF.initial hfr.1 hfr.2).started
        have hm0 : Mine P req.startLine req.startLine (start (initial req)) :=
          ⟨.nil (Nat.le_refl _), (by intro e he; cases he), calmly_init hc,
            fun _ => ⟨fun _ h => (nomatch h), fun _ h => (nomatch h), fun _ h => (nomatch h), fun _ h => (nomatch h), fun _ h => (nomatch h)⟩⟩
        have hA : Foreign cfg (parseDocument cfg n) P.alien := fun uri text r e h1 h2 h3 h4 h5 h6 => ⟨uri, text, r, n, h1, h2, h3, h4, h5, h6⟩
        obtain ⟨h5, h6⟩ := places_loop (P := P) (lo := req.startLine) hE (places_fns hE hT ih hA rfl)
          (DGood.docFns (parseDocument_good cfg n) cfg n (docTokens_headers _ _ _ _ _ hd')) (toks.length + 2) (t := initialLast)
          ⟨req.startLine, hm0, hF⟩ hw
        refine ⟨fun s0 h1 => ?_, fun e h1 => h6 e (map_error h1)⟩
        obtain ⟨s1, h4, rfl⟩ := map_ok h1
        obtain ⟨b, h5, _⟩ := h5 s1 h4
        exact ⟨b, h5.of rfl (fun _ h => h) rfl⟩
    refine ⟨fun s' h => ?_, fun e h => ?_⟩
    · obtain ⟨m, s0, os, os', hm, h1, h2, h3⟩ := parsed_spec h hfr.1 hfr.2
      cases hm
      obtain ⟨b, hm⟩ := hrun.1 s0 h1
      obtain ⟨F, h4, h5⟩ := h3.located (files := cfg.files) (exact := exact) (src := req.source)
      have hr := rest_finalise h2
      refine ⟨⟨b, ?_⟩, ?_, ?_⟩
      · have h4 : s'.nodes = s0.nodes.map F := h4
        rw [h4]
        exact hm.rows.map fun n hn => ⟨(h5 n hn).1, (h5 n hn).2.2⟩
      · have e' : s'.env = s0.env := hr.env
        rw [e']
        exact hm.env
      · intro hx
        have := hm.safe hx
        have e1 : s'.places = s0.places := hr.places
        have e2 : s'.footnoteMacros = s0.footnoteMacros := hr.notes
        have e3 : s'.linkMacros = s0.linkMacros := hr.links
        have e4 : s'.groupNodes = s0.groupNodes := hr.groups
        have e5 : s'.controlBuf = s0.controlBuf := hr.control
        rw [e1, e2, e3, e4, e5]
        exact this
    · cases hk : parserObjects (initEnv req.env) with
      | error x =>
        rcases parseDocument_objects (cfg := cfg) (n := n) hk with h' | ⟨y, h', hr⟩
        · rw [h] at h'
          cases h'
          exact .other (parserObjects_error hk).1
        · rw [h] at h'
          cases h'
          exact hrun.2 _ hr
      | ok u =>
      have e' := parseDocument_run cfg n req hk
      rw [h] at e'
      cases hx : (parser cfg n req.source).run req.startLine req.startColumn (splitChar '\n' req.text) (initial req) with
      | error x =>
        rw [hx] at e'
        cases e'
        exact hrun.2 _ hx
      | ok s0 =>
        rw [hx] at e'
        obtain ⟨b, hm⟩ := hrun.1 s0 hx
        exact finalise_blame hm.safe e'.symm

end Mau
