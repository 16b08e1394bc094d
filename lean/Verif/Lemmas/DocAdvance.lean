import Verif.Lemmas.DocShift

set_option linter.unusedSimpArgs false

/-!
# Progress of the document parser

A successful processing function moves forward, so the bounds of the loops are never reached.
-/

namespace Mau

theorem DM.bind_ok {α β : Type} {f : DM α} {g : α → DM β} {s s' : DocSt} {b : β} (h : (f >>= g) s = .ok b s') :
    ∃ a s1, f s = .ok a s1 ∧ g a s1 = .ok b s' := by
  change DM.bind f g s = _ at h
  unfold DM.bind at h
  cases hf : f s with
  | ok a s1 => rw [hf] at h; exact ⟨a, s1, rfl, h⟩
  | fail s1 => rw [hf] at h; cases h
  | err e => rw [hf] at h; cases h

theorem DM.bind_of_ok {α β : Type} {f : DM α} {g : α → DM β} {s s1 : DocSt} {a : α} (h : f s = .ok a s1) :
    (f >>= g) s = g a s1 := by
  change DM.bind f g s = _
  unfold DM.bind
  rw [h]

theorem DM.bind_of_fail {α β : Type} {f : DM α} {g : α → DM β} {s s1 : DocSt} (h : f s = .fail s1) :
    (f >>= g) s = .fail s1 := by
  change DM.bind f g s = _
  unfold DM.bind
  rw [h]

theorem DM.bind_of_err {α β : Type} {f : DM α} {g : α → DM β} {s : DocSt} {e : Err} (h : f s = .err e) :
    (f >>= g) s = .err e := by
  change DM.bind f g s = _
  unfold DM.bind
  rw [h]

theorem DM.lift_ok {α : Type} {x : Except Err α} {s s' : DocSt} {a : α} (h : DM.lift x s = .ok a s') :
    x = .ok a ∧ s' = s := by
  unfold DM.lift at h
  split at h
  · cases h; exact ⟨rfl, rfl⟩
  · cases h
  · cases h

theorem getDM_ok {toks : List Token} {ty : Option TokenType} {v : Option Str} {f : Option (Str → Bool)} {s s' : DocSt} {a : Token}
    (h : DM.tm toks (·.get ty v f) s = .ok a s') :
    (∃ t, TM.peek ⟨toks, s.next⟩ ty v f = .ok t) ∧ s' = { s with next := (TM.advance ⟨toks, s.next⟩).next } ∧
      TM.currentToken (TM.advance ⟨toks, s.next⟩) = .ok a := by
  unfold DM.tm TM.get at h
  simp only at h
  cases hp : TM.peek ⟨toks, s.next⟩ ty v f with
  | error e => rw [hp] at h; cases e <;> simp at h
  | ok t =>
    rw [hp] at h
    simp only at h
    cases hc : TM.currentToken (TM.advance ⟨toks, s.next⟩) with
    | error e => rw [hc] at h; cases e <;> simp at h
    | ok t2 =>
      rw [hc] at h
      cases h
      exact ⟨⟨t, rfl⟩, rfl, rfl⟩

/-- The index does not go back. -/
def Mono {α : Type} (f : DM α) : Prop := ∀ s a s', f s = .ok a s' → s.next ≤ s'.next

namespace Mono

variable {α β : Type}

theorem pure (a : α) : Mono (Pure.pure a : DM α) := by
  intro s b s' h
  cases h
  exact Nat.le_refl _

theorem bind {f : DM α} {g : α → DM β} (h1 : Mono f) (h2 : ∀ a, Mono (g a)) : Mono (f >>= g) := by
  intro s b s' h
  obtain ⟨a, s1, h3, h4⟩ := DM.bind_ok h
  exact Nat.le_trans (h1 _ _ _ h3) (h2 _ _ _ _ h4)

theorem lift (x : Except Err α) : Mono (DM.lift x) := by
  intro s a s' h
  rw [(DM.lift_ok h).2]
  exact Nat.le_refl _

theorem raise (e : Err) : Mono (DM.raise e : DM α) := lift _

theorem fresh : Mono DM.fresh := by
  intro s a s' h
  cases h
  exact Nat.le_refl _

theorem modify {f : DocSt → DocSt} (h : ∀ s, (f s).next = s.next) : Mono (DM.modify f) := by
  intro s a s' h'
  cases h'
  rw [h]
  exact Nat.le_refl _

theorem get : Mono DM.get := by
  intro s a s' h
  cases h
  exact Nat.le_refl _

theorem ite {c : Prop} [Decidable c] {f g : DM α} (h1 : Mono f) (h2 : Mono g) : Mono (if c then f else g) := by
  split
  · exact h1
  · exact h2

theorem tok (toks : List Token) {ty : Option TokenType} {v : Option Str} {f : Option (Str → Bool)} :
    Mono (DM.tm toks (·.get ty v f)) := by
  intro s a s' h
  rw [(getDM_ok h).2.1]
  unfold TM.advance
  split <;> simp

theorem peek (toks : List Token) (f : TM → Except Err α) : Mono (DM.peek toks f) := by
  intro s a s' h
  exact lift _ _ _ _ h

theorem docText (fuel : Nat) (text : Str) (ctx : Context) : Mono (docText fuel text ctx) := by
  intro s a s' h
  unfold Mau.docText at h
  split at h
  · cases h
  · cases h
  · cases h; exact Nat.le_refl _
  · split at h
    · cases h
    · cases h
    · cases h; exact Nat.le_refl _

theorem popArgs : Mono popArgs := by intro s a s' h; cases h; exact Nat.le_refl _
theorem popLabels : Mono popLabels := by intro s a s' h; cases h; exact Nat.le_refl _
theorem popControl : Mono popControl := by
  intro s a s' h
  unfold Mau.popControl at h
  split at h
  · cases h; exact Nat.le_refl _
  · rw [(DM.lift_ok h).2]; exact Nat.le_refl _
theorem save (n : Node) : Mono (save n) := modify fun _ => rfl
theorem saveIfControl (n : Node) : Mono (saveIfControl n) := .bind .popControl fun _ => .ite (.save _) (.pure _)

end Mono

/-- Within the tokens, the index moves forward. -/
def Adv {α : Type} (toks : List Token) (f : DM α) : Prop :=
  ∀ s a s', f s = .ok a s' → s.next < toks.length → s.next < s'.next

theorem Adv.tok (toks : List Token) {ty : Option TokenType} {v : Option Str} {f : Option (Str → Bool)} :
    Adv toks (DM.tm toks (·.get ty v f)) := by
  intro s a s' h hl
  rw [(getDM_ok h).2.1]
  unfold TM.advance
  rw [if_pos (by show s.next < toks.length + 1; omega)]
  simp

theorem Adv.bind {α β : Type} {toks : List Token} {f : DM α} {g : α → DM β} (h1 : Adv toks f) (h2 : ∀ a, Mono (g a)) :
    Adv toks (f >>= g) := by
  intro s b s' h hl
  obtain ⟨a, s1, h3, h4⟩ := DM.bind_ok h
  exact Nat.lt_of_lt_of_le (h1 _ _ _ h3 hl) (h2 _ _ _ _ h4)

/-- `get` followed by anything that does not go back. -/
theorem Adv.start {β : Type} {toks : List Token} {ty : Option TokenType} {v : Option Str} {f : Option (Str → Bool)}
    {g : Token → DM β} (h2 : ∀ a, Mono (g a)) : Adv toks (DM.tm toks (·.get ty v f) >>= g) := .bind (.tok _) h2

theorem Mono.collectLines (toks : List Token) (n : Nat) : Mono (collectLines toks n) := by
  induction n with
  | zero => exact .raise _
  | succ n ih =>
    exact .bind (.peek _ _) fun _ => .ite (.bind (.tok _) fun _ => .bind ih fun _ => .pure _) (.pure _)

theorem Mono.paragraphLines (fuel : Nat) (ts : List Token) : Mono (paragraphLines fuel ts) := by
  induction ts with
  | nil => exact .pure _
  | cons t ts ih => exact .bind (.docText _ _ _) fun _ => .bind ih fun _ => .pure _

theorem Mono.listItem (fuel : Nat) (toks : List Token) (h : Token) : Mono (listItem fuel toks h) := by
  unfold Mau.listItem
  refine .bind (.tok _) fun _ => .bind (.docText _ _ _) fun c => ?_
  cases c.getLast? with
  | none => exact .raise _
  | some l => exact .pure _

theorem Mono.listNodes_listLoop (fuel : Nat) (toks : List Token) (n : Nat) :
    Mono (listNodes fuel toks n) ∧ ∀ level, Mono (listLoop fuel toks n level) := by
  induction n with
  | zero => exact ⟨.raise _, fun _ => .raise _⟩
  | succ n ih =>
    constructor
    · unfold Mau.listNodes
      exact .bind (.tok _) fun _ => .bind (.listItem _ _ _) fun _ => .bind (ih.2 _) fun _ => .pure _
    · intro level
      unfold Mau.listLoop
      refine .bind (.peek _ _) fun t => .ite (.pure _) (.ite (.raise _) (.ite ?_ (.ite ?_ (.pure _))))
      · exact .bind (.tok _) fun _ => .bind (.listItem _ _ _) fun _ => .bind (ih.2 _) fun _ => .pure _
      · refine .bind (.lift _) fun _ => .bind ih.1 fun subs => ?_
        cases subs.getLast? with
        | none => exact .raise _
        | some l => exact .bind (ih.2 _) fun _ => .pure _

theorem Mono.blockContent (nested : NestedParser) (t : Token) (args : NodeArgs) : Mono (blockContent nested t args) := by
  intro s a s' h
  unfold Mau.blockContent at h
  split at h
  · cases h
  · cases h
  · simp only at h
    split at h <;> (cases h; exact Nat.le_refl _)

theorem Mono.blockEngine (nested : NestedParser) (engine : Str) (classes : List Str) (content : Option Token)
    (args : NodeArgs) (ctx : Context) : Mono (blockEngine nested engine classes content args ctx) := by
  unfold Mau.blockEngine
  simp only
  cases content.filter (fun t => !t.value.isEmpty) with
  | none => exact .ite (.pure _) (.ite (.pure _) (.ite (.pure _) (.raise _)))
  | some t =>
    refine .ite (.bind (.blockContent _ _ _) fun _ => .pure _) (.ite (.pure _) (.ite ?_ (.raise _)))
    exact .bind .get fun _ => .bind (.lift _) fun _ => .pure _

theorem Mono.placeBlock (data : NodeData) (ns : List Node) (args : NodeArgs) (labels : Dict Node) (ctx own : Context) :
    Mono (placeBlock data ns args labels ctx own) := by
  unfold Mau.placeBlock
  cases truthy (Dict.get? args.named c%"footnote") with
  | some name => exact .bind .get fun _ => .ite (.raise _) (.modify fun _ => rfl)
  | none =>
    simp only
    cases truthy (Dict.get? args.named c%"group") with
    | none => exact .saveIfControl _
    | some g =>
      cases truthy (Dict.get? args.named c%"position") with
      | none => exact .saveIfControl _
      | some p => exact .bind .get fun _ => .bind (.lift _) fun _ => .modify fun _ => rfl

theorem Mono.registerHeader (id level : Nat) (name : Option Str) (node : Node) : Mono (registerHeader id level name node) := by
  unfold Mau.registerHeader
  refine .bind ?_ fun _ => .modify fun _ => rfl
  unfold Mau.registerName
  cases truthy name with
  | none => exact .pure _
  | some nm => exact .bind .get fun _ => .ite (.raise _) (.modify fun _ => rfl)

theorem Mono.includeMau (cfg : Config) (nested : NestedParser) (args : NodeArgs) (ctx : Context) :
    Mono (includeMau cfg nested args ctx) := by
  unfold Mau.includeMau
  simp only
  cases truthy _ with
  | none => exact .raise _
  | some uri =>
    refine .bind (.modify fun _ => rfl) fun _ => .bind .get fun s => .ite (.raise _) ?_
    refine .bind (.modify fun _ => rfl) fun _ => .bind (.lift _) fun text => .bind (.lift _) fun env => ?_
    exact .bind .get fun s2 => .bind (.lift _) fun inner => .bind (.modify fun _ => rfl) fun _ => .pure _

theorem Mono.includeNode (cfg : Config) (nested : NestedParser) (ctype : Str) (args : NodeArgs) (ctx : Context) :
    Mono (includeNode cfg nested ctype args ctx) := by
  unfold Mau.includeNode
  refine .ite (.bind (.lift _) fun _ => .pure _) (.ite (.includeMau _ _ _ _) (.ite (.lift _) (.ite ?_ (.ite ?_ (.ite ?_ (.pure _))))))
  · exact .bind .fresh fun _ => .bind (.modify fun _ => rfl) fun _ => .pure _
  · exact .bind .fresh fun _ => .bind (.modify fun _ => rfl) fun _ => .pure _
  · simp only
    cases (NodeArgs.pop _ _).1 with
    | none => exact .raise _
    | some g => exact .bind .fresh fun _ => .bind (.modify fun _ => rfl) fun _ => .pure _

theorem Mono.includeArgs (boxed : Option NodeArgs) (toks : List Token) (ctx : Context) : Mono (includeArgs boxed toks ctx) := by
  unfold Mau.includeArgs
  refine .bind (.peek _ _) fun _ => .ite (.ite (.raise _) ?_) (.pure _)
  exact .bind (.tok _) fun _ => .bind (.tok _) fun _ => .bind .get fun _ => .bind (.lift _) fun _ => .pure _

section
variable (toks : List Token)

theorem Adv.eolProc : Adv toks (eolProc toks) := .start fun _ => .pure _

theorem Adv.ruleProc : Adv toks (ruleProc toks) :=
  .start fun _ => .bind .popArgs fun _ => .bind .popLabels fun _ => .saveIfControl _

theorem Adv.variableProc : Adv toks (variableProc toks) := by
  unfold Mau.variableProc
  refine .start fun o => .bind (.tok _) fun t => .bind (.tok _) fun c => .bind ?_ fun p =>
    .bind .get fun s => .bind (.lift _) fun q => .modify fun _ => rfl
  unfold Mau.variableText
  exact .bind (.peek _ _) fun p => .ite (.bind (.tok _) fun v => .pure _) (.pure _)

theorem Adv.labelProc (fuel : Nat) : Adv toks (labelProc fuel toks) :=
  .start fun _ => .bind (.tok _) fun _ => .bind (.docText _ _ _) fun _ => .modify fun _ => rfl

theorem Adv.controlProc : Adv toks (controlProc toks) := by
  unfold Mau.controlProc
  refine .start fun _ => .bind (.tok _) fun _ => .bind (.tok _) fun _ => .bind .get fun s => .bind (.lift _) fun c => ?_
  cases c with
  | none => exact .raise _
  | some c => exact .bind (.lift _) fun _ => .modify fun _ => rfl

theorem Adv.argumentsProc : Adv toks (argumentsProc toks) :=
  .start fun _ => .bind (.tok _) fun _ => .bind (.tok _) fun _ => .bind .get fun _ =>
    .bind (.lift _) fun _ => .modify fun _ => rfl

theorem Adv.headerProc (fuel : Nat) : Adv toks (headerProc fuel toks) :=
  .start fun _ => .bind (.tok _) fun _ => .bind .fresh fun _ => .bind (.docText _ _ _) fun _ => .bind .popArgs fun _ =>
    .bind (.lift _) fun _ => .bind .popLabels fun _ => .bind .popControl fun _ =>
      .ite (.bind (.registerHeader _ _ _ _) fun _ => .save _) (.pure _)

theorem Adv.blockProc (nested : NestedParser) : Adv toks (blockProc nested toks) := by
  unfold Mau.blockProc
  refine .start fun o => .bind ?_ fun c => .bind (.tok _) fun c2 => .bind .popArgs fun args =>
    .bind (.blockEngine _ _ _ _ _ _) fun r => .bind .popLabels fun ls => .placeBlock _ _ _ _ _ _
  unfold Mau.blockText
  exact .bind (.peek _ _) fun p => .ite (.bind (.tok _) fun v => .pure _) (.pure _)

theorem Adv.includeProc (cfg : Config) (nested : NestedParser) : Adv toks (includeProc cfg nested toks) := by
  unfold Mau.includeProc
  exact .start fun _ => .bind (.tok _) fun _ => .bind .get fun s => .bind (.modify fun _ => rfl) fun _ =>
    .bind (.includeArgs _ _ _) fun args => .bind (.includeNode _ _ _ _ _) fun r => .bind .popLabels fun _ => .saveIfControl _

omit toks in
theorem Adv.listItem (fuel : Nat) (toks : List Token) (h : Token) : Adv toks (listItem fuel toks h) := by
  unfold Mau.listItem
  refine .start fun _ => .bind (.docText _ _ _) fun c => ?_
  cases c.getLast? with
  | none => exact .raise _
  | some l => exact .pure _

theorem Adv.listNodes (fuel n : Nat) : Adv toks (listNodes fuel toks n) := by
  cases n with
  | zero => intro s a s' h; cases h
  | succ n =>
    unfold Mau.listNodes
    exact .start fun _ => .bind (.listItem _ _ _) fun _ => .bind ((Mono.listNodes_listLoop _ _ _).2 _) fun _ => .pure _

theorem Adv.listProc (fuel : Nat) : Adv toks (listProc fuel toks) := by
  intro s b s' h hl
  unfold Mau.listProc at h
  obtain ⟨a1, s1, h1, h3⟩ := DM.bind_ok h
  obtain ⟨a2, s2, h2, h4⟩ := DM.bind_ok h3
  have e1 := (DM.lift_ok h1).2
  have e2 := (DM.lift_ok h2).2
  subst e1; subst e2
  refine Adv.bind (.listNodes toks fuel _) (fun nodes => ?_) _ _ _ h4 hl
  exact .bind .popArgs fun args => .bind .get fun s => .bind (.lift _) fun r => .bind (.modify fun _ => rfl) fun _ =>
    .bind (.lift _) fun _ => .bind .popLabels fun _ => .saveIfControl _

theorem collectLines_adv (n : Nat) : ∀ (s : DocSt) (ts : List Token) (s' : DocSt), collectLines toks n s = .ok ts s' →
    ts ≠ [] → s.next < toks.length → s.next < s'.next := by
  intro s ts s' h hne hl
  cases n with
  | zero => cases h
  | succ n =>
    unfold Mau.collectLines at h
    obtain ⟨t, s1, h1, h3⟩ := DM.bind_ok h
    have e1 := (DM.lift_ok h1).2
    subst e1
    split at h3
    · exact Adv.start (fun _ => .bind (.collectLines _ _) fun _ => .pure _) _ _ _ h3 hl
    · cases h3
      exact absurd rfl hne

theorem Adv.paragraphProc (fuel : Nat) : Adv toks (paragraphProc fuel toks) := by
  intro s b s' h hl
  unfold Mau.paragraphProc at h
  obtain ⟨ts, s1, h1, h⟩ := DM.bind_ok h
  by_cases hne : ts = []
  · subst hne
    obtain ⟨c, s2, h2, h⟩ := DM.bind_ok h
    cases h2
    obtain ⟨a, s3, h3, h⟩ := DM.bind_ok h
    obtain ⟨x, s4, h4, h⟩ := DM.bind_ok h
    cases h4
  · refine Nat.lt_of_lt_of_le (collectLines_adv toks _ _ _ _ h1 hne hl) ?_
    exact Mono.bind (.paragraphLines _ _) (fun _ => .bind .popArgs fun _ => .bind (.lift _) fun _ => .bind .popLabels fun _ =>
      .saveIfControl _) _ _ _ h

theorem Adv.tryDocFns {next : Token} {fs : List (DM Unit)} (h : ∀ f ∈ fs, Adv toks f) : Adv toks (tryDocFns next fs) := by
  induction fs with
  | nil => intro s a s' h; cases h
  | cons f fs ih =>
    intro s a s' h' hl
    unfold Mau.tryDocFns at h'
    split at h'
    · rename_i a1 s1 h1
      cases h'
      exact h f (by simp) _ _ _ h1 hl
    · rename_i s1 h1
      exact ih (fun g hg => h g (by simp [hg])) { s1 with next := s.next } _ _ h' hl
    · cases h'

theorem Adv.docFns (cfg : Config) (nested : NestedParser) (fuel : Nat) (next : Token) : Adv toks (Mau.tryDocFns next (Mau.docFns cfg nested fuel toks)) := by
  apply Adv.tryDocFns
  intro f hf
  simp only [Mau.docFns, List.mem_cons, List.not_mem_nil, or_false] at hf
  rcases hf with rfl | rfl | rfl | rfl | rfl | rfl | rfl | rfl | rfl | rfl | rfl
  · exact .eolProc _
  · exact .ruleProc _
  · exact .variableProc _
  · exact .labelProc _ _
  · exact .controlProc _
  · exact .argumentsProc _
  · exact .headerProc _ _
  · exact .blockProc _ _
  · exact .includeProc _ _ _
  · exact .listProc _ _
  · exact .paragraphProc _ _
end

/-! ## The bounds of the loops -/

theorem chk_ok {t t' : Token} {ty : Option TokenType} {v : Option Str} {f : Option (Str → Bool)}
    (h : TM.checkToken t ty v f = .ok t') : t' = t := by
  unfold TM.checkToken at h
  split at h
  · cases h
  · split at h
    · cases h
    · split at h
      · cases h
      · cases h; rfl

theorem peek_inside {toks : List Token} (he : EndsWithEof toks) {i : Nat} {ty : Option TokenType} {v : Option Str}
    {f : Option (Str → Bool)} {t : Token} (h : TM.peek ⟨toks, i⟩ ty v f = .ok t) (ht : t.type ≠ .EOF) :
    toks[i]? = some t ∧ i + 1 < toks.length := by
  obtain ⟨init, e, rfl, h1, h2, h3⟩ := he
  unfold TM.peek at h
  simp only at h
  cases hi : (init ++ [e])[i]? with
  | some u =>
    rw [hi] at h
    have := chk_ok h
    subst this
    refine ⟨rfl, ?_⟩
    by_cases hl : i < init.length
    · simp; omega
    · rw [List.getElem?_append_right (by omega)] at hi
      have : i - init.length = 0 := by
        rcases Nat.eq_zero_or_pos (i - init.length) with h | h
        · exact h
        · rw [List.getElem?_eq_none (by simp; omega)] at hi; cases hi
      rw [this] at hi
      simp at hi
      exact absurd (hi ▸ h1) ht
  | none =>
    rw [hi] at h
    simp only [List.getLast?_concat] at h
    have := chk_ok h
    subst this
    exact absurd h1 ht

theorem peekDM_inside {toks : List Token} (he : EndsWithEof toks) {s s' : DocSt} {ty : Option TokenType} {v : Option Str}
    {f : Option (Str → Bool)} {t : Token} (h : DM.peek toks (·.peek ty v f) s = .ok t s') (ht : t.type ≠ .EOF) :
    s' = s ∧ toks[s.next]? = some t ∧ s.next + 1 < toks.length := by
  have := DM.lift_ok h
  exact ⟨this.2, peek_inside he this.1 ht⟩

theorem collectLines_enough {toks : List Token} (he : EndsWithEof toks) (n : Nat) : ∀ (m : Nat) (s : DocSt),
    toks.length - s.next < n → toks.length - s.next < m → collectLines toks n s = collectLines toks m s := by
  induction n with
  | zero => intro m s h; omega
  | succ n ih =>
    intro m s h1 h2
    obtain ⟨m, rfl⟩ : ∃ k, m = k + 1 := ⟨m - 1, by omega⟩
    unfold Mau.collectLines
    cases hp : DM.peek toks (·.peek) s with
    | fail s1 => rw [DM.bind_of_fail hp, DM.bind_of_fail hp]
    | err e => rw [DM.bind_of_err hp, DM.bind_of_err hp]
    | ok t s1 =>
      rw [DM.bind_of_ok hp, DM.bind_of_ok hp]
      split
      · rename_i ht
        obtain ⟨rfl, _, hl⟩ := peekDM_inside he hp (by rw [ht]; simp)
        cases hg : DM.tm toks (·.get (some .TEXT)) s1 with
        | fail s2 => rw [DM.bind_of_fail hg, DM.bind_of_fail hg]
        | err e => rw [DM.bind_of_err hg, DM.bind_of_err hg]
        | ok t2 s2 =>
          have hadv := Adv.tok toks _ _ _ hg (by omega)
          rw [DM.bind_of_ok hg, DM.bind_of_ok hg]
          change DM.bind _ _ _ = DM.bind _ _ _
          unfold DM.bind
          rw [ih m s2 (by omega) (by omega)]
      · rfl

theorem listNodes_enough {toks : List Token} (he : EndsWithEof toks) (fuel : Nat) (n : Nat) : ∀ (m : Nat) (s : DocSt),
    (toks.length - s.next ≤ n → toks.length - s.next ≤ m → 0 < n → 0 < m → listNodes fuel toks n s = listNodes fuel toks m s) ∧
    ∀ level, toks.length - s.next < n → toks.length - s.next < m → listLoop fuel toks n level s = listLoop fuel toks m level s := by
  induction n with
  | zero => intro m s; exact ⟨by intros; omega, by intros; omega⟩
  | succ n ih =>
    intro m s
    constructor
    · intro h1 h2 _ h4
      obtain ⟨m, rfl⟩ : ∃ k, m = k + 1 := ⟨m - 1, by omega⟩
      unfold Mau.listNodes
      cases hg : DM.tm toks (·.get (some .LIST)) s with
      | fail s2 => rw [DM.bind_of_fail hg, DM.bind_of_fail hg]
      | err e => rw [DM.bind_of_err hg, DM.bind_of_err hg]
      | ok t2 s2 =>
        have hl : s.next + 1 < toks.length := by
          obtain ⟨⟨t, hp⟩, -, -⟩ := getDM_ok hg
          · refine (peek_inside he hp ?_).2
            unfold TM.peek at hp
            have : ∀ u, TM.checkToken u (some .LIST) none none = .ok t → t.type = .LIST := by
              intro u hu
              have e := chk_ok hu
              subst e
              unfold TM.checkToken at hu
              split at hu
              · cases hu
              · rename_i h; exact (Classical.not_not.1 h).symm
            simp only at hp
            split at hp
            · rw [this _ hp]; simp
            · split at hp
              · cases hp
              · rw [this _ hp]; simp
        have hadv : s2.next = s.next + 1 := by
          rw [(getDM_ok hg).2.1]
          unfold TM.advance
          rw [if_pos (by show s.next < toks.length + 1; omega)]
        rw [DM.bind_of_ok hg, DM.bind_of_ok hg]
        cases hi : listItem fuel toks t2 s2 with
        | fail s2 => rw [DM.bind_of_fail hi, DM.bind_of_fail hi]
        | err e => rw [DM.bind_of_err hi, DM.bind_of_err hi]
        | ok x s3 =>
          have hm := Adv.listItem _ _ _ _ _ _ hi (by omega)
          rw [DM.bind_of_ok hi, DM.bind_of_ok hi]
          change DM.bind _ _ _ = DM.bind _ _ _
          unfold DM.bind
          rw [(ih m s3).2 _ (by omega) (by omega)]
    · intro level h1 h2
      obtain ⟨m, rfl⟩ : ∃ k, m = k + 1 := ⟨m - 1, by omega⟩
      unfold Mau.listLoop
      cases hp : DM.peek toks (·.peek) s with
      | fail s1 => rw [DM.bind_of_fail hp, DM.bind_of_fail hp]
      | err e => rw [DM.bind_of_err hp, DM.bind_of_err hp]
      | ok t s1 =>
        rw [DM.bind_of_ok hp, DM.bind_of_ok hp]
        split
        · rfl
        · split
          · rfl
          · rename_i ht
            have ht : t.type = .LIST := by simpa using ht
            obtain ⟨rfl, _, hl⟩ := peekDM_inside he hp (by rw [ht]; simp)
            split
            · cases hg : DM.tm toks (·.get) s1 with
              | fail s2 => rw [DM.bind_of_fail hg, DM.bind_of_fail hg]
              | err e => rw [DM.bind_of_err hg, DM.bind_of_err hg]
              | ok t2 s2 =>
                have hadv := Adv.tok toks _ _ _ hg (by omega)
                rw [DM.bind_of_ok hg, DM.bind_of_ok hg]
                cases hi : listItem fuel toks t2 s2 with
                | fail s2 => rw [DM.bind_of_fail hi, DM.bind_of_fail hi]
                | err e => rw [DM.bind_of_err hi, DM.bind_of_err hi]
                | ok x s3 =>
                  have hm := Mono.listItem _ _ _ _ _ _ hi
                  rw [DM.bind_of_ok hi, DM.bind_of_ok hi]
                  change DM.bind _ _ _ = DM.bind _ _ _
                  unfold DM.bind
                  rw [(ih m s3).2 _ (by omega) (by omega)]
            · split
              · cases ho : DM.lift (isOrdered t) s1 with
                | fail s2 => rw [DM.bind_of_fail ho, DM.bind_of_fail ho]
                | err e => rw [DM.bind_of_err ho, DM.bind_of_err ho]
                | ok o s2 =>
                  have e2 := (DM.lift_ok ho).2
                  subst e2
                  rw [DM.bind_of_ok ho, DM.bind_of_ok ho]
                  have hn := (ih m s2).1 (by omega) (by omega) (by omega) (by omega)
                  cases hi : listNodes fuel toks m s2 with
                  | fail s3 => rw [DM.bind_of_fail hi, DM.bind_of_fail (hn.trans hi)]
                  | err e => rw [DM.bind_of_err hi, DM.bind_of_err (hn.trans hi)]
                  | ok subs s3 =>
                    have hadv := Adv.listNodes toks _ _ _ _ _ hi (by omega)
                    rw [DM.bind_of_ok hi, DM.bind_of_ok (hn.trans hi)]
                    cases subs.getLast? with
                    | none => rfl
                    | some l =>
                      simp only
                      change DM.bind _ _ _ = DM.bind _ _ _
                      unfold DM.bind
                      rw [(ih m s3).2 _ (by omega) (by omega)]
              · rfl

end Mau
