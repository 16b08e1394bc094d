import Verif.Lemmas.DocEnds

set_option linter.unusedSimpArgs false

/-!
# The processing functions of the document parser end
-/

namespace Mau
open Spec

/-- No opening parenthesis in the printed value. -/
def NoParen (v : Val) : Prop := '(' ∉ v.pyStr

/-- No opening parenthesis in the arguments. -/
def ArgsPlain (a : NodeArgs) : Prop := (∀ v ∈ a.unnamed, '(' ∉ v) ∧ ∀ kv ∈ a.named, '(' ∉ kv.2

/-- The states of a calm parser: no variable, and (if files are included) no pending argument has a parenthesis; the files `base` stay forbidden. -/
structure Calm (M : Prop) (base : List (Option Str)) (s : DocSt) : Prop where
  env : EnvAll NoParen s.env
  args : M → ∀ a, s.argsBuf = some a → ArgsPlain a
  base : ∀ x ∈ base, x ∈ s.forbidden

section
variable {M : Prop} {base : List (Option Str)}

theorem Calm.congr {s s' : DocSt} (h : Calm M base s) (h1 : s'.env = s.env) (h2 : s'.argsBuf = s.argsBuf ∨ s'.argsBuf = none) (h3 : s'.forbidden = s.forbidden) :
    Calm M base s' where
  env := by rw [h1]; exact h.env
  args := by
    intro hm a ha
    rcases h2 with h2 | h2
    · exact h.args hm a (h2 ▸ ha)
    · rw [h2] at ha; cases ha
  base := by rw [h3]; exact h.base

/-- The state differs in parts that do not matter. -/
structure Like (s s' : DocSt) : Prop where
  env : s'.env = s.env
  args : s'.argsBuf = s.argsBuf ∨ s'.argsBuf = none
  forbidden : s'.forbidden = s.forbidden
  next : s'.next = s.next

theorem Like.refl (s : DocSt) : Like s s := ⟨rfl, .inl rfl, rfl, rfl⟩
theorem Like.trans {a b c : DocSt} (h1 : Like a b) (h2 : Like b c) : Like a c where
  env := h2.env.trans h1.env
  args := by
    rcases h2.args with h | h
    · rw [h]; exact h1.args
    · exact .inr h
  forbidden := h2.forbidden.trans h1.forbidden
  next := h2.next.trans h1.next

theorem Calm.like {s s' : DocSt} (h : Calm M base s) (hl : Like s s') : Calm M base s' := h.congr hl.env hl.args hl.forbidden

/-- Ends without running out of the budget, with calm states. -/
abbrev CEnds (M : Prop) (base : List (Option Str)) {α : Type} (F : Nat → DM α) (s : DocSt) (Q : α → DocSt → Prop) : Prop :=
  Ends (· ≠ .fuel) (Calm M base) F s Q

/-- Ends, in a state that differs only in parts that do not matter. -/
abbrev CLike (M : Prop) (base : List (Option Str)) {α : Type} (F : Nat → DM α) : Prop :=
  ∀ s, Calm M base s → CEnds M base F s fun _ s' => Like s s'

theorem Calm.step {s : DocSt} (h : Calm M base s) (n : Nat) : Calm M base { s with next := n } := h.congr rfl (.inl rfl) rfl

theorem CLike.bind {α β : Type} {F : Nat → DM α} {G : Nat → α → DM β} (h1 : CLike M base F) (h2 : ∀ a, CLike M base (fun n => G n a)) :
    CLike M base (fun n => F n >>= G n) := fun s hs =>
  Ends.bind (h1 s hs) fun a s' hl => (h2 a s' (hs.like hl)).mono fun _ _ h => hl.trans h

theorem CLike.pure {α : Type} (a : α) : CLike M base (fun _ => (Pure.pure a : DM α)) := fun s _ => Ends.pure (Like.refl s)

theorem CLike.raise {α : Type} {e : Err} (h1 : e ≠ .fuel) (h2 : e ≠ .token) : CLike M base (fun _ => (DM.raise e : DM α)) := fun _ _ => Ends.raise h1 h2

theorem CLike.lift {α : Type} {x : Except Err α} (h : x ≠ .error .fuel) : CLike M base (fun _ => DM.lift x) := fun s hs =>
  Ends.lift hs (fun e he => by rintro rfl; exact h he) fun _ _ => Like.refl s

theorem CLike.get : CLike M base (fun _ => DM.get) := fun s _ => Ends.get (Like.refl s)
theorem CLike.fresh : CLike M base (fun _ => DM.fresh) := fun s _ => Ends.fresh ⟨rfl, .inl rfl, rfl, rfl⟩

theorem CLike.modify {f : DocSt → DocSt} (h : ∀ s, Like s (f s)) : CLike M base (fun _ => DM.modify f) := fun s _ => Ends.modify (h s)

theorem CLike.popArgs : CLike M base (fun _ => Mau.popArgs) := fun _ _ => Ends.const ⟨rfl, .inr rfl, rfl, rfl⟩
theorem CLike.popLabels : CLike M base (fun _ => Mau.popLabels) := fun _ _ => Ends.const ⟨rfl, .inl rfl, rfl, rfl⟩

theorem process_fuel (c : Control) (env : Env) : c.process env ≠ .error .fuel := by
  unfold Control.process
  split <;> simp

theorem CLike.popControl : CLike M base (fun _ => Mau.popControl) := by
  intro s hs
  cases hc : s.controlBuf with
  | none => refine Ends.const ?_; unfold Mau.popControl; rw [hc]; exact .refl s
  | some c =>
    have := CLike.lift (M := M) (base := base) (process_fuel c s.env) { s with controlBuf := none } (hs.congr rfl (.inl rfl) rfl)
    obtain ⟨r, ⟨N, h1⟩, h2⟩ := this
    refine ⟨r, ⟨N, fun n hn => ?_⟩, ?_⟩
    · show Mau.popControl s = r
      rw [← h1 n hn]
      unfold Mau.popControl
      rw [hc]
    · cases r with
      | ok a s' =>
        have h3 : Like { s with controlBuf := none } s' := h2
        exact Like.trans (a := s) (b := { s with controlBuf := none }) ⟨rfl, .inl rfl, rfl, rfl⟩ h3
      | fail s' => exact h2
      | err e => exact h2

theorem CLike.save (n : Node) : CLike M base (fun _ => Mau.save n) := .modify fun _ => ⟨rfl, .inl rfl, rfl, rfl⟩

theorem CLike.ite {α : Type} {c : Prop} [Decidable c] {F G : Nat → DM α} (h1 : CLike M base F) (h2 : CLike M base G) :
    CLike M base (fun n => if c then F n else G n) := fun s hs => Ends.ite (fun _ => h1 s hs) fun _ => h2 s hs

theorem CLike.saveIfControl (n : Node) : CLike M base (fun _ => Mau.saveIfControl n) :=
  .bind .popControl fun _ => .ite (.save n) (.pure _)

theorem CLike.docText (text : Str) (ctx : Context) : CLike M base (fun n => Mau.docText n text ctx) := by
  intro s hs
  obtain ⟨h1, h2⟩ := preprocessNodes_bounds s.env text ctx.startLine ctx.startColumn ctx.source
  cases hp : preprocessNodes s.env text ctx.startLine ctx.startColumn ctx.source with
  | error e =>
    refine ⟨Mau.docText 0 text ctx s, ⟨0, fun n _ => ?_⟩, ?_⟩
    · show Mau.docText n text ctx s = _
      unfold Mau.docText
      rw [hp]
      cases e <;> rfl
    · unfold Mau.docText
      rw [hp]
      have := h1 e hp
      cases e with
      | token => exact hs
      | fuel => cases this
      | _ => intro h; cases h
  | ok ns =>
    obtain ⟨N, r, hr, hN⟩ := C35_plain_variables_partial (env := s.env) (fun k v hm hb => hs.env k _ hm hb.2) (processedText ns).value ctx.startLine ctx.startColumn ctx.source s.uid
    refine ⟨Mau.docText N text ctx s, ⟨N, fun n hn => ?_⟩, ?_⟩
    · show Mau.docText n text ctx s = _
      unfold Mau.docText
      rw [hp]
      cases ns with
      | nil => rfl
      | cons x xs => dsimp only; rw [hN n hn, hN N (Nat.le_refl _)]
    · unfold Mau.docText
      rw [hp]
      cases ns with
      | nil => exact .refl s
      | cons x xs =>
        dsimp only
        rw [hN N (Nat.le_refl _)]
        cases r with
        | ok o => exact ⟨rfl, .inl rfl, rfl, rfl⟩
        | error e =>
          cases e with
          | token => exact hs
          | fuel => exact absurd rfl hr
          | _ => intro h; cases h

/-! ## Functions without nested parsers -/

theorem spanOf_fuel (ns : List Node) : spanOf ns ≠ .error .fuel := by
  unfold spanOf
  split <;> simp

theorem CLike.registerHeader (id level : Nat) (name : Option Str) (node : Node) : CLike M base (fun _ => Mau.registerHeader id level name node) := by
  unfold Mau.registerHeader
  refine .bind ?_ fun _ => .modify fun _ => ⟨rfl, .inl rfl, rfl, rfl⟩
  unfold registerName
  cases truthy name with
  | none => exact .pure _
  | some nm => exact .bind .get fun _ => .ite (.raise (by simp) (by simp)) (.modify fun _ => ⟨rfl, .inl rfl, rfl, rfl⟩)

/-- The processing function ends in every calm state. -/
abbrev Fine (M : Prop) (base : List (Option Str)) {α : Type} (F : Nat → DM α) : Prop := ∀ s, Calm M base s → CEnds M base F s fun _ s' => Calm M base s'

theorem CLike.fine {α : Type} {F : Nat → DM α} (h : CLike M base F) : Fine M base F := fun s hs => (h s hs).mono fun _ _ hl => hs.like hl

theorem Fine.bind {α β : Type} {F : Nat → DM α} {G : Nat → α → DM β} (h1 : Fine M base F) (h2 : ∀ a, Fine M base (fun n => G n a)) :
    Fine M base (fun n => F n >>= G n) := fun s hs => Ends.bind (h1 s hs) fun a s' hl => h2 a s' hl

variable {toks : List Token}

theorem Fine.tok (hE : EndsWithEof toks) {ty : TokenType} {v : Option Str} {f : Option (Str → Bool)} (hty : ty ≠ .EOF) :
    Fine M base (fun _ => DM.tm toks (·.get (some ty) v f)) := fun _ hs => Ends.tok hE hty hs fun _ _ _ _ => hs.step _

theorem Fine.eolProc (hE : EndsWithEof toks) : Fine M base (fun _ => Mau.eolProc toks) :=
  .bind (.tok hE (by simp)) fun _ => (CLike.pure _).fine

theorem Fine.ruleProc (hE : EndsWithEof toks) : Fine M base (fun _ => Mau.ruleProc toks) :=
  .bind (.tok hE (by simp)) fun _ => (CLike.bind .popArgs fun _ => .bind .popLabels fun _ => .saveIfControl _).fine

theorem Fine.labelProc (hE : EndsWithEof toks) : Fine M base (fun n => Mau.labelProc n toks) :=
  .bind (.tok hE (by simp)) fun _ => .bind (.tok hE (by simp)) fun _ => by
    refine CLike.fine ?_
    exact .bind (.docText _ _) fun _ => .modify fun _ => ⟨rfl, .inl rfl, rfl, rfl⟩

theorem processCondition_fuel (env : Env) (t : Token) : processConditionWithVariables env t ≠ .error .fuel := by
  unfold processConditionWithVariables
  refine bind_fuel (fun h => ?_) fun a _ h => ?_
  · have := (preprocess_bounds _ _ _ _ _).1 _ h; cases this
  · have := parseCondition_mau h; cases this

theorem mkControl_fuel (a b c d : Str) (cx : Context) : mkControl a b c d cx ≠ .error .fuel := by
  unfold mkControl
  repeat' split
  all_goals simp

theorem Fine.controlProc (hE : EndsWithEof toks) : Fine M base (fun _ => Mau.controlProc toks) := by
  unfold Mau.controlProc
  refine .bind (.tok hE (by simp)) fun _ => .bind (.tok hE (by simp)) fun _ => .bind (.tok hE (by simp)) fun _ => CLike.fine ?_
  refine .bind .get fun s => .bind (.lift (processCondition_fuel _ _)) fun c => ?_
  cases c with
  | none => exact .raise (by simp) (by simp)
  | some c => exact .bind (.lift (mkControl_fuel _ _ _ _ _)) fun _ => .modify fun _ => ⟨rfl, .inl rfl, rfl, rfl⟩

theorem Fine.headerProc (hE : EndsWithEof toks) : Fine M base (fun n => Mau.headerProc n toks) :=
  .bind (.tok hE (by simp)) fun _ => .bind (.tok hE (by simp)) fun _ => (CLike.bind .fresh fun _ => .bind (.docText _ _) fun _ => .bind .popArgs fun _ =>
    .bind (.lift (spanOf_fuel _)) fun _ => .bind .popLabels fun _ => .bind .popControl fun _ =>
      .ite (.bind (.registerHeader _ _ _ _) fun _ => .save _) (.pure _)).fine

theorem collectLines_fine (hE : EndsWithEof toks) (n : Nat) : ∀ s, Calm M base s → toks.length - s.next < n →
    CEnds M base (fun _ => Mau.collectLines toks n) s fun _ s' => Calm M base s' := by
  induction n with
  | zero => intro s _ h; omega
  | succ n ih =>
    intro s hs hn
    unfold Mau.collectLines
    refine Ends.bind (Q := fun t s' => s' = s ∧ (t.type ≠ .EOF → s.next + 1 < toks.length)) (Ends.peek hE hs (by simp) fun t _ h => ⟨rfl, fun h' => (h h').2⟩) fun t s' h => ?_
    obtain ⟨rfl, h⟩ := h
    refine Ends.ite (fun ht => ?_) fun _ => Ends.pure hs
    have := h (by rw [ht]; simp)
    refine Ends.bind (Q := fun _ s2 => Calm M base s2 ∧ s2.next = s'.next + 1) (Ends.tok hE (by simp) hs fun _ _ _ _ => ⟨hs.step _, rfl⟩) fun _ s2 h2 => ?_
    exact Ends.bind (ih s2 h2.1 (by rw [h2.2]; omega)) fun _ _ h3 => Ends.pure h3

theorem paragraphLines_like (ts : List Token) : CLike M base (fun n => Mau.paragraphLines n ts) := by
  induction ts with
  | nil => exact .pure _
  | cons t ts ih => exact .bind (.docText _ _) fun _ => .bind ih fun _ => .pure _

theorem Fine.paragraphProc (hE : EndsWithEof toks) : Fine M base (fun n => Mau.paragraphProc n toks) := by
  intro s hs
  unfold Mau.paragraphProc
  refine Ends.bind (collectLines_fine hE _ s hs (by omega)) fun ls s' hs' => ?_
  exact (CLike.bind (paragraphLines_like _) fun _ => .bind .popArgs fun _ => .bind (.lift (spanOf_fuel _)) fun _ => .bind .popLabels fun _ => .saveIfControl _).fine s' hs'

/-! ## Lists -/

theorem isOrdered_fuel (h : Token) : isOrdered h ≠ .error .fuel := by
  unfold isOrdered
  split <;> simp

theorem listItem_ends (hE : EndsWithEof toks) (h : Token) (s : DocSt) (hs : Calm M base s) :
    CEnds M base (fun n => Mau.listItem n toks h) s fun _ s' => Calm M base s' ∧ s'.next = s.next + 1 ∧ s.next + 1 < toks.length := by
  unfold Mau.listItem
  refine Ends.bind (Q := fun _ s' => Calm M base s' ∧ s'.next = s.next + 1 ∧ s.next + 1 < toks.length) (Ends.tok hE (by simp) hs fun _ _ _ hl => ⟨hs.step _, rfl, hl⟩) fun t s1 h1 => ?_
  refine Ends.bind (CLike.docText _ _ s1 h1.1) fun c s2 h2 => ?_
  cases c.getLast? with
  | none => exact Ends.raise (by simp) (by simp)
  | some l => exact Ends.pure ⟨h1.1.like h2, h2.next.trans h1.2.1, h1.2.2⟩

theorem list_ends (hE : EndsWithEof toks) (n : Nat) :
    (∀ s, Calm M base s → toks.length - s.next ≤ n → 0 < n → CEnds M base (fun k => listNodes k toks n) s fun _ s' => Calm M base s' ∧ s.next < s'.next) ∧
    ∀ l s, Calm M base s → toks.length - s.next < n → CEnds M base (fun k => listLoop k toks n l) s fun _ s' => Calm M base s' ∧ s.next ≤ s'.next := by
  induction n with
  | zero => exact ⟨by intros; omega, by intros; omega⟩
  | succ n ih =>
    refine ⟨fun s hs hn _ => ?_, fun l s hs hn => ?_⟩
    · unfold listNodes
      refine Ends.bind (Q := fun _ s' => Calm M base s' ∧ s'.next = s.next + 1 ∧ s.next + 1 < toks.length) (Ends.tok hE (by simp) hs fun _ _ _ hl => ⟨hs.step _, rfl, hl⟩) fun t s1 h1 => ?_
      refine Ends.bind (listItem_ends hE t s1 h1.1) fun it s2 h2 => ?_
      refine Ends.bind (ih.2 _ s2 h2.1 (by omega)) fun r s3 h3 => Ends.pure ⟨h3.1, by omega⟩
    · unfold listLoop
      refine Ends.bind (Q := fun t s' => s' = s ∧ (t.type ≠ .EOF → s.next + 1 < toks.length) ∧ TM.peek ⟨toks, s.next⟩ = .ok t)
        (Ends.peek hE hs (by simp) fun t hp h => ⟨rfl, fun h' => (h h').2, hp⟩) fun t s' h => ?_
      obtain ⟨rfl, h, hp⟩ := h
      refine Ends.ite (fun _ => Ends.pure ⟨hs, Nat.le_refl _⟩) fun _ => Ends.ite (fun _ => Ends.raise (by simp) (by simp)) fun ht => ?_
      have ht : t.type = .LIST := Classical.not_not.1 ht
      have hin := h (by rw [ht]; simp)
      refine Ends.ite (fun _ => ?_) fun _ => Ends.ite (fun _ => ?_) fun _ => Ends.pure ⟨hs, Nat.le_refl _⟩
      · refine Ends.bind (Q := fun _ s2 => Calm M base s2 ∧ s2.next = s'.next + 1) (Ends.next hE hs (fun u hu => ?_) fun _ _ _ _ => ⟨hs.step _, rfl⟩) fun h0 s2 h2 => ?_
        · rw [hp] at hu; cases hu; rw [ht]; simp
        · refine Ends.bind (listItem_ends hE h0 s2 h2.1) fun it s3 h3 => ?_
          exact Ends.bind (ih.2 _ s3 h3.1 (by omega)) fun r s4 h4 => Ends.pure ⟨h4.1, by omega⟩
      · refine Ends.bind (CLike.lift (isOrdered_fuel t) s' hs) fun o s2 h2 => ?_
        have e2 := h2.next
        refine Ends.bind (ih.1 s2 (hs.like h2) (by omega) (by omega)) fun subs s3 h3 => ?_
        cases subs.getLast? with
        | none => exact Ends.raise (by simp) (by simp)
        | some l => exact Ends.bind (ih.2 _ s3 h3.1 (by omega)) fun r s4 h4 => Ends.pure ⟨h4.1, by omega⟩

theorem listStart_fuel (v : Option Str) (i : Int) (n : Nat) : listStart v i n ≠ .error .fuel := by
  unfold listStart
  split
  · simp
  · split
    · simp
    · split
      · rename_i e he
        intro h
        cases h
        unfold pyInt at he
        split at he
        · cases he
        · dsimp only at he
          split at he <;> cases he
      · simp

theorem Fine.listProc (hE : EndsWithEof toks) : Fine M base (fun n => Mau.listProc n toks) := by
  intro s hs
  unfold Mau.listProc
  refine Ends.bind (Q := fun _ s' => s' = s) (Ends.peek hE hs (by simp) fun _ _ _ => rfl) fun t s' h => ?_
  subst h
  refine Ends.bind (CLike.lift (isOrdered_fuel t) s' hs) fun o s2 h2 => ?_
  refine Ends.bind ((list_ends hE _).1 s2 (hs.like h2) (by omega) (by omega)) fun ns s3 h3 => ?_
  refine CLike.fine ?_ s3 h3.1
  exact .bind .popArgs fun _ => .bind .get fun _ => .bind (.lift (listStart_fuel _ _ _)) fun _ => .bind (.modify fun _ => ⟨rfl, .inl rfl, rfl, rfl⟩) fun _ =>
    .bind (.lift (spanOf_fuel _)) fun _ => .bind .popLabels fun _ => .saveIfControl _

end

end Mau
