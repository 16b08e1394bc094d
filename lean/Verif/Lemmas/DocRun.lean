import Verif.Lemmas.DocAdvance

set_option linter.unusedSimpArgs false

/-!
# Running the document parser on a list of tokens

`runToks` is the main loop on a list of tokens, without index and bound. It satisfies one equation per
construct: the construct changes the state, and the rest of the tokens is run on the new state.
-/

namespace Mau

section
variable {pre suf : List Token}

theorem Sh.paragraphProc (he : EndsWithEof suf) (hs : suf ≠ []) (fuel : Nat) :
    Sh pre.length (paragraphProc fuel (pre ++ suf)) (paragraphProc fuel suf) := by
  have h0 : Sh pre.length (Mau.collectLines (pre ++ suf) ((pre ++ suf).length + 2)) (Mau.collectLines suf (suf.length + 2)) := by
    intro s
    rw [Sh.collectLines hs _ s, collectLines_enough he _ (suf.length + 2) s (by simp; omega) (by omega)]
  unfold Mau.paragraphProc
  exact .bind h0 fun _ => .bind (.paragraphLines _ _ _) fun _ => .bind (.popArgs _) fun _ => .bind (.lift _) fun _ =>
    .bind (.popLabels _) fun _ => .saveIfControl _ _

theorem Sh.listProc (he : EndsWithEof suf) (hs : suf ≠ []) (fuel : Nat) :
    Sh pre.length (listProc fuel (pre ++ suf)) (listProc fuel suf) := by
  have h0 : Sh pre.length (listNodes fuel (pre ++ suf) ((pre ++ suf).length + 2)) (listNodes fuel suf (suf.length + 2)) := by
    intro s
    rw [(Sh.listNodes_listLoop hs fuel _).1 s,
      (listNodes_enough he fuel _ (suf.length + 2) s).1 (by simp; omega) (by omega) (by omega) (by omega)]
  unfold Mau.listProc
  exact .bind (.peek hs) fun _ => .bind (.lift _) fun _ => .bind h0 fun _ => .bind (.popArgs _) fun _ => .getBind (fun _ => rfl) fun _ =>
    .bind (.lift _) fun r => .bind (.modify fun _ => rfl) fun _ => .bind (.lift _) fun _ => .bind (.popLabels _) fun _ => .saveIfControl _ _

/-- Lists of functions, pairwise related. -/
inductive ShAll (k : Nat) : List (DM Unit) → List (DM Unit) → Prop where
  | nil : ShAll k [] []
  | cons {f g : DM Unit} {fs gs : List (DM Unit)} (h : Sh k f g) (hs : ShAll k fs gs) : ShAll k (f :: fs) (g :: gs)

theorem ShAll.tryDocFns {k : Nat} {fs gs : List (DM Unit)} (h : ShAll k fs gs) (next : Token) : Sh k (tryDocFns next fs) (tryDocFns next gs) := by
  induction h with
  | nil => exact .raise _
  | cons h hs ih =>
    intro s
    unfold Mau.tryDocFns
    rw [h s]
    rename_i f g fs gs
    cases g s with
    | ok a s' => rfl
    | fail s' => exact ih { s' with next := s.next }
    | err e => rfl

theorem shAll_docFns (he : EndsWithEof suf) (cfg : Config) (nested : NestedParser) (fuel : Nat) :
    ShAll pre.length (docFns cfg nested fuel (pre ++ suf)) (docFns cfg nested fuel suf) := by
  have hs : suf ≠ [] := by obtain ⟨i, e, rfl, _⟩ := he; simp
  exact .cons (.eolProc hs) <| .cons (.ruleProc hs) <| .cons (.variableProc hs) <| .cons (.labelProc hs _) <|
    .cons (.controlProc hs) <| .cons (.argumentsProc hs) <| .cons (.headerProc hs _) <| .cons (.blockProc hs _) <|
    .cons (.includeProc hs _ _) <| .cons (.listProc he hs _) <| .cons (.paragraphProc he hs _) .nil

theorem docLoop_sh (he : EndsWithEof suf) (cfg : Config) (nested : NestedParser) (fuel n : Nat) : ∀ (last : Token) (s : DocSt),
    docLoop (docFns cfg nested fuel (pre ++ suf)) (pre ++ suf) n last (s.sh pre.length) =
      (docLoop (docFns cfg nested fuel suf) suf n last s).map (DocSt.sh pre.length) := by
  have hs : suf ≠ [] := by obtain ⟨i, e, rfl, _⟩ := he; simp
  induction n with
  | zero => intro last s; rfl
  | succ n ih =>
    intro last s
    unfold docLoop
    have e1 : TM.peekIs ⟨pre ++ suf, (s.sh pre.length).next⟩ .EOF = TM.peekIs ⟨suf, s.next⟩ .EOF := tm_peekIs_sh hs _ _ _ _
    have e2 : TM.peek ⟨pre ++ suf, (s.sh pre.length).next⟩ = TM.peek ⟨suf, s.next⟩ := tm_peek_sh hs _ _ _ _
    rw [e1, e2]
    cases TM.peekIs ⟨suf, s.next⟩ .EOF with
    | error e => rfl
    | ok b =>
      cases b with
      | true => rfl
      | false =>
        simp only
        cases TM.peek ⟨suf, s.next⟩ with
        | error e => rfl
        | ok t =>
          simp only
          split
          · rfl
          · rw [(shAll_docFns he cfg nested fuel).tryDocFns t s]
            cases tryDocFns t (docFns cfg nested fuel suf) s with
            | ok a s' => exact ih t s'
            | fail s' => rfl
            | err e => rfl
end

theorem peekIs_of_peek {tm : TM} {t : Token} {ty : TokenType} (h : tm.peek = .ok t) : tm.peekIs ty = .ok (t.type == ty) := by
  have hc : ∀ u, TM.checkToken u none none none = .ok t → TM.checkToken u (some ty) none none =
      if t.type = ty then .ok t else .error .token := by
    intro u hu
    have e := chk_ok hu
    subst e
    by_cases h' : t.type = ty
    · simp [TM.checkToken, h']
    · have : ¬ ty = t.type := fun h => h' h.symm
      simp [TM.checkToken, h', this]
  have : tm.peek (some ty) = if t.type = ty then .ok t else .error .token := by
    unfold TM.peek at h ⊢
    cases hx : tm.tokens[tm.next]? with
    | some u => rw [hx] at h; exact hc _ h
    | none =>
      rw [hx] at h
      cases hy : tm.tokens.getLast? with
      | none => rw [hy] at h; cases h
      | some u => rw [hy] at h; exact hc _ h
  unfold TM.peekIs
  rw [this]
  by_cases h' : t.type = ty <;> simp [h']

theorem docLoop_enough {toks : List Token} (he : EndsWithEof toks) {fns : List (DM Unit)} (ha : ∀ next, Adv toks (tryDocFns next fns)) (n : Nat) :
    ∀ (m : Nat) (last : Token) (s : DocSt), toks.length - s.next < n → toks.length - s.next < m →
      docLoop fns toks n last s = docLoop fns toks m last s := by
  induction n with
  | zero => intro m last s h; omega
  | succ n ih =>
    intro m last s h1 h2
    obtain ⟨m, rfl⟩ : ∃ k, m = k + 1 := ⟨m - 1, by omega⟩
    unfold docLoop
    cases hb : TM.peekIs ⟨toks, s.next⟩ .EOF with
    | error e => rfl
    | ok b =>
      cases b with
      | true => rfl
      | false =>
        simp only
        cases hp : TM.peek ⟨toks, s.next⟩ with
        | error e => rfl
        | ok t =>
          simp only
          split
          · rfl
          · cases ht : tryDocFns t fns s with
            | fail s' => rfl
            | err e => rfl
            | ok a s' =>
              have hl : s.next + 1 < toks.length := by
                refine (peek_inside he hp ?_).2
                intro hE
                rw [peekIs_of_peek hp, hE] at hb
                cases hb
              have := ha _ _ _ _ ht (by omega)
              exact ih m t s' (by omega) (by omega)

/-- A state with the index at the start. -/
def DocSt.at0 (s : DocSt) : DocSt := { s with next := 0 }

theorem at0_sh (k : Nat) (s : DocSt) : (s.sh k).at0 = s.at0 := rfl

/-- The main loop on a list of tokens from a state. -/
def runToks (cfg : Config) (nested : NestedParser) (fuel : Nat) (toks : List Token) (s : DocSt) : Except Err DocSt :=
  (docLoop (docFns cfg nested fuel toks) toks (toks.length + 2) initialLast s.at0).map DocSt.at0

theorem docLoop_last {fns : List (DM Unit)} {toks : List Token} {n : Nat} {last last' : Token} {s : DocSt}
    (h : ∀ t, TM.peek ⟨toks, s.next⟩ = .ok t → t.type ≠ .EOF → t ≠ last ∧ t ≠ last') :
    docLoop fns toks n last s = docLoop fns toks n last' s := by
  cases n with
  | zero => rfl
  | succ n =>
    unfold docLoop
    cases hb : TM.peekIs ⟨toks, s.next⟩ .EOF with
    | error e => rfl
    | ok b =>
      cases b with
      | true => rfl
      | false =>
        simp only
        cases hp : TM.peek ⟨toks, s.next⟩ with
        | error e => rfl
        | ok t =>
          have ht : t.type ≠ .EOF := by
            intro hE
            rw [peekIs_of_peek hp, hE] at hb
            cases hb
          simp only
          rw [if_neg (h t hp ht).1, if_neg (h t hp ht).2]

theorem peekIs_head {t : Token} {toks : List Token} (ty : TokenType) :
    TM.peekIs ⟨t :: toks, 0⟩ ty = .ok (t.type == ty) := by
  unfold TM.peekIs TM.peek
  by_cases h : t.type = ty
  · subst h
    simp [TM.checkToken]
  · have : ¬ ty = t.type := fun h' => h h'.symm
    simp [TM.checkToken, h, this]

theorem peek_head {t : Token} {toks : List Token} : TM.peek ⟨t :: toks, 0⟩ = .ok t := by
  simp [TM.peek, TM.checkToken]

theorem runToks_eof (cfg : Config) (nested : NestedParser) (fuel : Nat) (t : Token) (toks : List Token) (s : DocSt)
    (h : t.type = .EOF) : runToks cfg nested fuel (t :: toks) s = .ok s.at0 := by
  unfold runToks docLoop
  have : TM.peekIs ⟨t :: toks, s.at0.next⟩ .EOF = .ok true := by
    change TM.peekIs ⟨t :: toks, 0⟩ .EOF = _
    rw [peekIs_head, h]; rfl
  rw [this]
  rfl

/-- One round of the loop that does not succeed. -/
theorem runToks_err (cfg : Config) (nested : NestedParser) (fuel : Nat) (t : Token) (toks : List Token) (s : DocSt) (e : Err)
    (h : t.type ≠ .EOF) (hf : tryDocFns t (docFns cfg nested fuel (t :: toks)) s.at0 = .err e) :
    runToks cfg nested fuel (t :: toks) s = .error e := by
  unfold runToks docLoop
  have h1 : TM.peekIs ⟨t :: toks, s.at0.next⟩ .EOF = .ok false := by
    change TM.peekIs ⟨t :: toks, 0⟩ .EOF = _
    rw [peekIs_head]; simp [h]
  have h2 : TM.peek ⟨t :: toks, s.at0.next⟩ = .ok t := peek_head
  rw [h1, h2]
  simp only
  rw [if_neg (by rintro rfl; exact h rfl), hf]
  rfl

/-- One successful round of the loop: go on with the rest of the tokens. -/
theorem runToks_step (cfg : Config) (nested : NestedParser) (fuel : Nat) (t : Token) (chunk rest : List Token) (s s' : DocSt)
    (he : EndsWithEof rest) (hc : ∀ u ∈ t :: chunk, u.type ≠ .EOF) (hd : ∀ u ∈ rest.head?, u ≠ t)
    (hf : tryDocFns t (docFns cfg nested fuel (t :: chunk ++ rest)) s.at0 = .ok () s') (hn : s'.next = chunk.length + 1) :
    runToks cfg nested fuel (t :: chunk ++ rest) s = runToks cfg nested fuel rest s' := by
  have he2 : EndsWithEof (t :: chunk ++ rest) := he.append hc
  have h1 : TM.peekIs ⟨t :: chunk ++ rest, s.at0.next⟩ .EOF = .ok false := by
    change TM.peekIs ⟨t :: (chunk ++ rest), 0⟩ .EOF = _
    rw [peekIs_head]; simp [hc t]
  have h2 : TM.peek ⟨t :: chunk ++ rest, s.at0.next⟩ = .ok t := peek_head
  have e0 : docLoop (docFns cfg nested fuel (t :: chunk ++ rest)) (t :: chunk ++ rest) ((t :: chunk ++ rest).length + 2) initialLast s.at0 =
      docLoop (docFns cfg nested fuel (t :: chunk ++ rest)) (t :: chunk ++ rest) ((t :: chunk ++ rest).length + 1) t s' := by
    rw [docLoop.eq_def]
    simp only
    rw [h1, h2]
    simp only
    rw [if_neg (by rintro rfl; exact hc initialLast (by simp) rfl), hf]
  have e1 : s' = (s'.at0).sh (t :: chunk).length := by
    unfold DocSt.sh DocSt.at0
    simp [← hn]
  have hr : ∃ u r, rest = u :: r := by
    obtain ⟨i, e, rfl, _⟩ := he
    cases i with
    | nil => exact ⟨_, _, rfl⟩
    | cons a b => exact ⟨_, _, rfl⟩
  unfold runToks
  rw [e0]
  conv => lhs; rw [e1]
  rw [docLoop_sh he]
  rw [docLoop_enough he (Adv.docFns rest cfg nested fuel) _ (rest.length + 2) t s'.at0 (by simp [DocSt.at0]; omega) (by simp [DocSt.at0])]
  rw [docLoop_last (last' := initialLast)]
  · cases docLoop (docFns cfg nested fuel rest) rest (rest.length + 2) initialLast s'.at0 <;> rfl
  · intro u hu hE
    obtain ⟨v, r, rfl⟩ := hr
    have hv : u = v := by
      have : TM.peek ⟨v :: r, s'.at0.next⟩ = .ok v := peek_head
      rw [this] at hu
      cases hu; rfl
    subst hv
    refine ⟨hd u (by simp), ?_⟩
    rintro rfl
    exact hE rfl

end Mau
