import Verif.Lemmas.DocKeeps

set_option linter.unusedSimpArgs false

/-!
# Reading a document that goes on after a blank line

The processing functions do the same on `pre ++ [eof]` and on `pre ++ eol :: suf` as long as the token index is inside
`pre`.
-/

namespace Mau
open Spec

/-- The token index stays. -/
def SameNext (s s' : DocSt) : Prop := s'.next = s.next

theorem frame_sameNext (nested : NestedParser) : Frame SameNext nested where
  refl _ := rfl
  trans h1 h2 := Eq.trans h2 h1
  args _ _ _ := rfl
  labels _ _ := rfl
  control _ _ := rfl
  latest _ _ := rfl
  env _ _ _ _ := rfl
  node _ _ := rfl
  text _ _ _ _ _ _ _ _ := rfl
  fresh _ := rfl
  name _ _ := rfl
  header _ _ _ := rfl
  body _ _ := rfl
  group _ _ := rfl
  block _ _ _ _ _ _ _ _ _ := rfl
  merge _ _ _ _ := rfl
  forbid _ _ := rfl
  mau _ _ _ _ _ _ _ _ _ _ _ := rfl
  tocNode _ _ := rfl
  footnoteList _ _ := rfl
  groupNode _ _ _ := rfl

/-- `f` and `g` do the same in every state with the token index below `k`, and stay there (at most `k`). -/
def Sim' {α : Type} (k : Nat) (f g : DM α) : Prop :=
  ∀ s, s.next < k → f s = g s ∧ ∀ a s', f s = .ok a s' → s'.next ≤ k
/-- The same for the token index `k` too. -/
def Sim {α : Type} (k : Nat) (f g : DM α) : Prop :=
  ∀ s, s.next ≤ k → f s = g s ∧ ∀ a s', f s = .ok a s' → s'.next ≤ k

namespace Sim
variable {α β : Type} {k : Nat}

theorem low {f g : DM α} (h : Sim k f g) : Sim' k f g := fun s hs => h s (Nat.le_of_lt hs)

theorem same {f : DM α} (h : Keeps SameNext f) : Sim k f f :=
  fun s hs => ⟨rfl, fun a s' he => by have := (h s).1 a s' he; unfold SameNext at this; omega⟩

theorem bind' {f f' : DM α} {g g' : α → DM β} (hf : Sim' k f f') (hg : ∀ a, Sim k (g a) (g' a)) : Sim' k (f >>= g) (f' >>= g') := by
  intro s hs
  obtain ⟨e, hk⟩ := hf s hs
  cases h : f s with
  | ok a s1 =>
    have h' : f' s = .ok a s1 := e ▸ h
    rw [DM.bind_of_ok h, DM.bind_of_ok h']
    exact hg a s1 (hk a s1 h)
  | fail s1 =>
    have h' : f' s = .fail s1 := e ▸ h
    rw [DM.bind_of_fail h, DM.bind_of_fail h']
    exact ⟨rfl, by intro _ _ h; cases h⟩
  | err x =>
    have h' : f' s = .err x := e ▸ h
    rw [DM.bind_of_err h, DM.bind_of_err h']
    exact ⟨rfl, by intro _ _ h; cases h⟩

theorem bind {f f' : DM α} {g g' : α → DM β} (hf : Sim k f f') (hg : ∀ a, Sim k (g a) (g' a)) : Sim k (f >>= g) (f' >>= g') := by
  intro s hs
  obtain ⟨e, hk⟩ := hf s hs
  cases h : f s with
  | ok a s1 =>
    have h' : f' s = .ok a s1 := e ▸ h
    rw [DM.bind_of_ok h, DM.bind_of_ok h']
    exact hg a s1 (hk a s1 h)
  | fail s1 =>
    have h' : f' s = .fail s1 := e ▸ h
    rw [DM.bind_of_fail h, DM.bind_of_fail h']
    exact ⟨rfl, by intro _ _ h; cases h⟩
  | err x =>
    have h' : f' s = .err x := e ▸ h
    rw [DM.bind_of_err h, DM.bind_of_err h']
    exact ⟨rfl, by intro _ _ h; cases h⟩

theorem ite {c : Prop} [Decidable c] {f f' g g' : DM α} (h1 : Sim k f f') (h2 : Sim k g g') :
    Sim k (if c then f else g) (if c then f' else g') := by
  split
  · exact h1
  · exact h2

theorem ite' {c : Prop} [Decidable c] {f f' g g' : DM α} (h1 : Sim' k f f') (h2 : Sim' k g g') :
    Sim' k (if c then f else g) (if c then f' else g') := by
  split
  · exact h1
  · exact h2

theorem getBind {g g' : DocSt → DM β} (h : ∀ s, Sim k (g s) (g' s)) : Sim k (DM.get >>= g) (DM.get >>= g') :=
  fun s hs => h s s hs

end Sim

section
variable {pre suf : List Token} {eof eol : Token} (h1 : eof.type = .EOF) (h2 : eof.value = []) (h3 : eol.type = .EOL) (h4 : eol.value = [])

theorem peek_low {i : Nat} (h : i < pre.length) (ty : Option TokenType) (v : Option Str) (f : Option (Str → Bool)) (r : List Token) :
    TM.peek ⟨pre ++ r, i⟩ ty v f = TM.checkToken pre[i] ty v f := by
  unfold TM.peek
  have : (pre ++ r)[i]? = some pre[i] := by rw [List.getElem?_append_left h]; exact List.getElem?_eq_getElem h
  simp only [this]

theorem peekAt (ty : Option TokenType) (v : Option Str) (f : Option (Str → Bool)) (t : Token) (r : List Token) :
    TM.peek ⟨pre ++ t :: r, pre.length⟩ ty v f = TM.checkToken t ty v f := by
  unfold TM.peek
  simp

theorem get_low {i : Nat} (h : i < pre.length) (ty : Option TokenType) (v : Option Str) (f : Option (Str → Bool)) (r : List Token) :
    TM.get ⟨pre ++ r, i⟩ ty v f = (TM.checkToken pre[i] ty v f).map fun _ => (pre[i], ⟨pre ++ r, i + 1⟩) := by
  unfold TM.get
  rw [peek_low h]
  cases hc : TM.checkToken pre[i] ty v f with
  | error e => rfl
  | ok t =>
    simp only
    unfold TM.advance
    rw [if_pos (by show i < (pre ++ r).length + 1; simp; omega)]
    unfold TM.currentToken
    have hne : (pre ++ r) ≠ [] := by intro e; simp at e; rw [e.1] at h; simp at h
    cases hl : (pre ++ r).getLast? with
    | none => exact absurd (List.getLast?_eq_none_iff.1 hl) hne
    | some l =>
      simp only
      have : (pre ++ r).getD i l = pre[i] := by
        rw [List.getD_eq_getElem?_getD, List.getElem?_append_left h, List.getElem?_eq_getElem h]; rfl
      rw [this]; rfl

theorem getAt {ty : TokenType} (v : Option Str) (f : Option (Str → Bool)) {t : Token} (h : ty ≠ t.type) (r : List Token) :
    TM.get ⟨pre ++ t :: r, pre.length⟩ (some ty) v f = .error .token := by
  unfold TM.get
  rw [peekAt]
  unfold TM.checkToken
  rw [if_pos (by simpa using h)]

theorem simGet' (ty : Option TokenType) (v : Option Str) (f : Option (Str → Bool)) (r1 r2 : List Token) :
    Sim' pre.length (DM.tm (pre ++ r1) (·.get ty v f)) (DM.tm (pre ++ r2) (·.get ty v f)) := by
  intro s hs
  unfold DM.tm
  simp only [get_low hs]
  cases TM.checkToken pre[s.next] ty v f with
  | error e => cases e <;> exact ⟨rfl, by intro _ _ h; cases h⟩
  | ok t => exact ⟨rfl, by intro _ _ h; cases h; exact hs⟩

include h1 h3

theorem simGet {ty : TokenType} (hE : ty ≠ .EOF) (hL : ty ≠ .EOL) (v : Option Str) (f : Option (Str → Bool)) :
    Sim pre.length (DM.tm (pre ++ [eof]) (·.get (some ty) v f)) (DM.tm (pre ++ eol :: suf) (·.get (some ty) v f)) := by
  intro s hs
  rcases Nat.lt_or_ge s.next pre.length with h | h
  · exact simGet' _ _ _ _ _ s h
  · have e : s.next = pre.length := by omega
    unfold DM.tm
    rw [e]
    simp only [getAt v f (t := eof) (by rw [h1]; exact hE), getAt v f (t := eol) (by rw [h3]; exact hL)]
    exact ⟨trivial, by intro _ _ h; cases h⟩

theorem simPeekTy {ty : TokenType} (hE : ty ≠ .EOF) (hL : ty ≠ .EOL) (v : Option Str) (f : Option (Str → Bool)) :
    Sim pre.length (DM.peek (pre ++ [eof]) (·.peek (some ty) v f)) (DM.peek (pre ++ eol :: suf) (·.peek (some ty) v f)) := by
  intro s hs
  have hk := (Keeps.peek (frame_sameNext fun _ => .error .fuel) (toks := pre ++ [eof]) (·.peek (some ty) v f) s).1
  refine ⟨?_, fun a s' h => by have := hk a s' h; unfold SameNext at this; omega⟩
  unfold DM.peek
  dsimp only
  rcases Nat.lt_or_ge s.next pre.length with h | h
  · rw [peek_low h, peek_low h]
  · have e : s.next = pre.length := by omega
    rw [e, peekAt, peekAt]
    unfold TM.checkToken
    rw [if_pos (by simpa [h1] using hE), if_pos (by simpa [h3] using hL)]

theorem simPeekIs {ty : TokenType} (hE : ty ≠ .EOF) (hL : ty ≠ .EOL) (v : Option Str) (f : Option (Str → Bool)) :
    Sim pre.length (DM.peek (pre ++ [eof]) (·.peekIs ty v f)) (DM.peek (pre ++ eol :: suf) (·.peekIs ty v f)) := by
  intro s hs
  have hk := (Keeps.peek (frame_sameNext fun _ => .error .fuel) (toks := pre ++ [eof]) (·.peekIs ty v f) s).1
  refine ⟨?_, fun a s' h => by have := hk a s' h; unfold SameNext at this; omega⟩
  unfold DM.peek TM.peekIs
  dsimp only
  rcases Nat.lt_or_ge s.next pre.length with h | h
  · rw [peek_low h, peek_low h]
  · have e : s.next = pre.length := by omega
    rw [e, peekAt, peekAt]
    unfold TM.checkToken
    rw [if_pos (by simpa [h1] using hE), if_pos (by simpa [h3] using hL)]

omit h1 h3 in
/-- Look at the next token and go on. -/
theorem simPeekBind {β : Type} {g g' : Token → DM β} (h : ∀ t, Sim' pre.length (g t) (g' t)) (he : Sim pre.length (g eof) (g' eol)) :
    Sim pre.length (DM.peek (pre ++ [eof]) (·.peek) >>= g) (DM.peek (pre ++ eol :: suf) (·.peek) >>= g') := by
  intro s hs
  have hc : ∀ t : Token, TM.checkToken t none none none = .ok t := by intro t; simp [TM.checkToken]
  rcases Nat.lt_or_ge s.next pre.length with hl | hl
  · have e1 : DM.peek (pre ++ [eof]) (·.peek) s = .ok pre[s.next] s := by
      unfold DM.peek; dsimp only; rw [peek_low hl, hc]; rfl
    have e2 : DM.peek (pre ++ eol :: suf) (·.peek) s = .ok pre[s.next] s := by
      unfold DM.peek; dsimp only; rw [peek_low hl, hc]; rfl
    rw [DM.bind_of_ok e1, DM.bind_of_ok e2]
    exact h _ s hl
  · have e : s.next = pre.length := by omega
    have e1 : DM.peek (pre ++ [eof]) (·.peek) s = .ok eof s := by
      unfold DM.peek; dsimp only; rw [e, peekAt, hc]; rfl
    have e2 : DM.peek (pre ++ eol :: suf) (·.peek) s = .ok eol s := by
      unfold DM.peek; dsimp only; rw [e, peekAt, hc]; rfl
    rw [DM.bind_of_ok e1, DM.bind_of_ok e2]
    exact he s hs

theorem sim_collectLines (n : Nat) : Sim pre.length (collectLines (pre ++ [eof]) n) (collectLines (pre ++ eol :: suf) n) := by
  have F := frame_sameNext fun _ => .error .fuel
  induction n with
  | zero => exact .same (Keeps.raise F _)
  | succ n ih =>
    unfold collectLines
    refine simPeekBind (fun t => ?_) ?_
    · exact Sim.ite' (Sim.bind' (simGet' _ _ _ _ _) fun _ => .bind ih fun _ => .same (Keeps.pure F _)) (Sim.low <| .same (Keeps.pure F _))
    · rw [if_neg (by simp [h1]), if_neg (by simp [h3])]
      exact .same (Keeps.pure F _)

theorem sim_listItem (fuel : Nat) (h : Token) : Sim pre.length (listItem fuel (pre ++ [eof]) h) (listItem fuel (pre ++ eol :: suf) h) := by
  have F := frame_sameNext fun _ => .error .fuel
  unfold listItem
  refine .bind (simGet h1 h3 (by simp) (by simp) _ _) fun t => .same (.bind F (.docText F _ _ _) fun c => ?_)
  cases c.getLast? with
  | none => exact .raise F _
  | some l => exact .pure F _

include h2 h4

theorem sim_listNodes (fuel n : Nat) :
    Sim pre.length (listNodes fuel (pre ++ [eof]) n) (listNodes fuel (pre ++ eol :: suf) n) ∧
    ∀ level, Sim pre.length (listLoop fuel (pre ++ [eof]) n level) (listLoop fuel (pre ++ eol :: suf) n level) := by
  have F := frame_sameNext fun _ => .error .fuel
  induction n with
  | zero => exact ⟨.same (Keeps.raise F _), fun _ => .same (Keeps.raise F _)⟩
  | succ n ih =>
    constructor
    · unfold listNodes
      exact .bind (simGet h1 h3 (by simp) (by simp) _ _) fun t => .bind (sim_listItem h1 h3 _ _) fun _ => .bind (ih.2 _) fun _ => .same (.pure F _)
    · intro level
      unfold listLoop
      refine simPeekBind (fun t => ?_) ?_
      · refine Sim.ite' (Sim.low <| .same (.pure F _)) (Sim.ite' (Sim.low <| .same (.raise F _)) (Sim.ite' ?_ (Sim.ite' ?_ (Sim.low <| .same (.pure F _)))))
        · exact Sim.bind' (simGet' _ _ _ _ _) fun t => .bind (sim_listItem h1 h3 _ _) fun _ => .bind (ih.2 _) fun _ => .same (.pure F _)
        · refine Sim.low <| .bind (.same (.lift F _)) fun _ => .bind ih.1 fun subs => ?_
          cases subs.getLast? with
          | none => exact .same (.raise F _)
          | some l => exact .bind (ih.2 _) fun _ => .same (.pure F _)
      · rw [if_pos ⟨Or.inl h1, h2⟩, if_pos ⟨Or.inr h3, h4⟩]
        exact .same (.pure F _)

variable (hp : ∀ t ∈ pre, t.type ≠ .EOF) (hs : EndsWithEof suf)

theorem sim_fns (cfg : Config) (nested : NestedParser) (fuel : Nat) (next : Token) (hp : ∀ t ∈ pre, t.type ≠ .EOF) (hs : EndsWithEof suf) :
    Sim' pre.length (tryDocFns next (docFns cfg nested fuel (pre ++ [eof]))) (tryDocFns next (docFns cfg nested fuel (pre ++ eol :: suf))) := by
  have F := frame_sameNext nested
  have heA : EndsWithEof (pre ++ [eof]) := EndsWithEof.append hp ⟨[], eof, rfl, h1, h2, by simp⟩
  have heB : EndsWithEof (pre ++ eol :: suf) := by
    rw [show pre ++ eol :: suf = (pre ++ [eol]) ++ suf by simp]
    exact EndsWithEof.append (by
      intro t ht
      rcases List.mem_append.1 ht with ht | ht
      · exact hp t ht
      · simp at ht; rw [ht, h3]; simp) hs
  -- the list of functions one by one
  have cons : ∀ (f g : DM Unit) (fs gs : List (DM Unit)), Sim' pre.length f g → Sim' pre.length (tryDocFns next fs) (tryDocFns next gs) →
      Sim' pre.length (tryDocFns next (f :: fs)) (tryDocFns next (g :: gs)) := by
    intro f g fs gs h hr s hs
    obtain ⟨e, hk⟩ := h s hs
    unfold tryDocFns
    rw [← e]
    cases hx : f s with
    | ok a s' => exact ⟨rfl, by intro _ _ h; cases h; exact hk _ _ hx⟩
    | err x => exact ⟨rfl, by intro _ _ h; cases h⟩
    | fail s' => exact hr _ hs
  have ty : ∀ {ty : TokenType} (hE : ty ≠ .EOF) (hL : ty ≠ .EOL) (v : Option Str) (f : Option (Str → Bool)),
      Sim pre.length (DM.tm (pre ++ [eof]) (·.get (some ty) v f)) (DM.tm (pre ++ eol :: suf) (·.get (some ty) v f)) :=
    fun hE hL v f => simGet h1 h3 hE hL v f
  unfold docFns
  refine cons _ _ _ _ ?_ <| cons _ _ _ _ ?_ <| cons _ _ _ _ ?_ <| cons _ _ _ _ ?_ <| cons _ _ _ _ ?_ <| cons _ _ _ _ ?_ <|
    cons _ _ _ _ ?_ <| cons _ _ _ _ ?_ <| cons _ _ _ _ ?_ <| cons _ _ _ _ ?_ <| cons _ _ _ _ ?_ (Sim.low <| .same (.raise F _))
  · exact Sim.bind' (simGet' _ _ _ _ _) fun _ => .same (.pure F _)
  · exact Sim.low <| .bind (ty (by simp) (by simp) _ _) fun _ =>
      .same <| .bind F (.popArgs F) fun _ => .bind F (.popLabels F) fun _ => .saveIfControl F _
  · refine Sim.low <| .bind (ty (by simp) (by simp) _ _) fun _ => .bind (ty (by simp) (by simp) _ _) fun _ => .bind (ty (by simp) (by simp) _ _) fun _ =>
      .bind ?_ fun _ => .same <| .bind F (.get F) fun _ => .bind F (.lift F _) fun _ => .modify fun s => F.env s _ _ trivial
    refine simPeekBind (fun t => ?_) ?_
    · exact Sim.ite' (Sim.bind' (simGet' _ _ _ _ _) fun _ => .same (.pure F _)) (Sim.low <| .same (.pure F _))
    · rw [if_neg (by simp [h1]), if_neg (by simp [h3])]
      exact .same (.pure F _)
  · exact Sim.low <| .bind (ty (by simp) (by simp) _ _) fun _ => .bind (ty (by simp) (by simp) _ _) fun _ =>
      .same <| .bind F (.docText F _ _ _) fun _ => .modify fun s => F.labels s _
  · refine Sim.low <| .bind (ty (by simp) (by simp) _ _) fun _ => .bind (ty (by simp) (by simp) _ _) fun _ => .bind (ty (by simp) (by simp) _ _) fun _ =>
      .same <| .bind F (.get F) fun _ => .bind F (.lift F _) fun c => ?_
    cases c
    · exact .raise F _
    · exact .bind F (.lift F _) fun _ => .modify fun s => F.control s _
  · exact Sim.low <| .bind (ty (by simp) (by simp) _ _) fun _ => .bind (ty (by simp) (by simp) _ _) fun _ => .bind (ty (by simp) (by simp) _ _) fun _ =>
      .same <| .bind F (.get F) fun _ => .bindLift F _ fun _ h => .modify fun s => F.args s _ (by rintro _ ⟨⟩; exact ⟨_, _, _, h, rfl⟩)
  · exact Sim.low <| .bind (ty (by simp) (by simp) _ _) fun _ => .bind (ty (by simp) (by simp) _ _) fun _ =>
      .same <| .bind F (.fresh F) fun _ => .bind F (.docText F _ _ _) fun _ => .bind F (.popArgs F) fun _ =>
      .bind F (.lift F _) fun _ => .bind F (.popLabels F) fun _ => .bind F (.popControl F) fun _ =>
        .ite (.bind F (.registerHeader F _ _ _ _) fun _ => .save F _) (.pure F _)
  · refine Sim.low <| .bind (ty (by simp) (by simp) _ _) fun _ => .bind ?_ fun _ => .bind (ty (by simp) (by simp) _ _) fun _ =>
      .same <| .bind F (.popArgs F) fun _ => .bind F (.blockEngine F _ _ _ _ _ fun _ _ => trivial) fun _ => .bind F (.popLabels F) fun _ => .placeBlock F _ _ _ _ _ _
    refine simPeekBind (fun t => ?_) ?_
    · exact Sim.ite' (Sim.bind' (simGet' _ _ _ _ _) fun _ => .same (.pure F _)) (Sim.low <| .same (.pure F _))
    · rw [if_neg (by simp [h1]), if_neg (by simp [h3])]
      exact .same (.pure F _)
  · refine Sim.low <| .bind (ty (by simp) (by simp) _ _) fun _ => .bind (ty (by simp) (by simp) _ _) fun _ => .getBind fun s =>
      .bind (.same (.modify fun s => F.args s _ (by intro _ h; cases h))) fun _ => .bind ?_ fun _ =>
      .same <| .bind F (.includeNode F _ _ _ trivial) fun _ => .bind F (.popLabels F) fun _ => .saveIfControl F _
    refine .bind (simPeekIs h1 h3 (by simp) (by simp) _ _) fun _ => .ite (.ite (.same (.raise F _)) ?_) (.same (.pure F _))
    exact .bind (ty (by simp) (by simp) _ _) fun _ => .bind (ty (by simp) (by simp) _ _) fun _ =>
      .same <| .bind F (.get F) fun _ => .bind F (.lift F _) fun _ => .pure F _
  · refine Sim.low <| .bind (simPeekTy h1 h3 (by simp) (by simp) _ _) fun _ => .bind (.same (.lift F _)) fun _ => .bind ?_ fun _ =>
      .same <| .bind F (.popArgs F) fun _ => .bind F (.get F) fun _ =>
      .bind F (.lift F _) fun _ => .bind F (.modify fun s => F.latest s _) fun _ => .bind F (.lift F _) fun _ => .bind F (.popLabels F) fun _ => .saveIfControl F _
    intro s hn
    have e : listNodes fuel (pre ++ [eof]) ((pre ++ [eof]).length + 2) s = listNodes fuel (pre ++ [eof]) ((pre ++ eol :: suf).length + 2) s :=
      (listNodes_enough heA fuel _ _ s).1 (by omega) (by simp; omega) (by omega) (by omega)
    rw [e]
    exact (sim_listNodes h1 h2 h3 h4 fuel _).1 s hn
  · refine Sim.low <| .bind ?_ fun _ =>
      .same <| .bind F (.paragraphLines F _ _) fun _ => .bind F (.popArgs F) fun _ => .bind F (.lift F _) fun _ =>
      .bind F (.popLabels F) fun _ => .saveIfControl F _
    intro s hn
    have e : collectLines (pre ++ [eof]) ((pre ++ [eof]).length + 2) s = collectLines (pre ++ [eof]) ((pre ++ eol :: suf).length + 2) s :=
      collectLines_enough heA _ _ s (by omega) (by simp; omega)
    rw [e]
    exact sim_collectLines h1 h3 _ s hn

/-- The main loop on the longer list of tokens gets to the same state as the one on the shorter one, and goes on from there. -/
theorem docLoop_prefix (cfg : Config) (nested : NestedParser) (fuel : Nat) (hp : ∀ t ∈ pre, t.type ≠ .EOF) (hs : EndsWithEof suf) (n : Nat) :
    ∀ last (s s' : DocSt), s.next ≤ pre.length → docLoop (docFns cfg nested fuel (pre ++ [eof])) (pre ++ [eof]) n last s = .ok s' →
      ∀ m, (pre ++ eol :: suf).length - s.next < m → s'.next = pre.length ∧ ∃ last', (last' = last ∨ last' ∈ pre) ∧
        docLoop (docFns cfg nested fuel (pre ++ eol :: suf)) (pre ++ eol :: suf) m last s =
          docLoop (docFns cfg nested fuel (pre ++ eol :: suf)) (pre ++ eol :: suf) ((pre ++ eol :: suf).length + 2) last' s' := by
  have heB : EndsWithEof (pre ++ eol :: suf) := by
    rw [show pre ++ eol :: suf = (pre ++ [eol]) ++ suf by simp]
    exact EndsWithEof.append (by
      intro t ht
      rcases List.mem_append.1 ht with ht | ht
      · exact hp t ht
      · simp at ht; rw [ht, h3]; simp) hs
  have hc : ∀ t : Token, TM.checkToken t none none none = .ok t := by intro t; simp [TM.checkToken]
  induction n with
  | zero => intro last s s' _ h; cases h
  | succ n ih =>
    intro last s s' hn h m hm
    rcases Nat.lt_or_ge s.next pre.length with hl | hl
    · have eP : ∀ r, TM.peek ⟨pre ++ r, s.next⟩ = .ok pre[s.next] := fun r => by rw [peek_low hl, hc]
      have eI : ∀ r, TM.peekIs ⟨pre ++ r, s.next⟩ .EOF = .ok false := by
        intro r
        rw [peekIs_of_peek (eP r)]
        simp [hp pre[s.next] (List.getElem_mem hl)]
      rw [docLoop.eq_def] at h
      simp only [eP, eI] at h
      split at h
      · cases h
      · rename_i hne
        obtain ⟨e, hk⟩ := sim_fns h1 h2 h3 h4 cfg nested fuel _ hp hs s hl
        cases hx : tryDocFns pre[s.next] (docFns cfg nested fuel (pre ++ [eof])) s with
        | fail s1 => rw [hx] at h; cases h
        | err x => rw [hx] at h; cases h
        | ok a s1 =>
          rw [hx] at h
          simp only at h
          have hadv := Adv.docFns _ cfg nested fuel _ _ _ _ hx (by simp; omega)
          obtain ⟨m, rfl⟩ : ∃ j, m = j + 1 := ⟨m - 1, by omega⟩
          obtain ⟨hs', last', hlast, ee⟩ := ih _ s1 s' (hk _ _ hx) h m (by simp at hm ⊢; omega)
          refine ⟨hs', last', ?_, ?_⟩
          · rcases hlast with rfl | hlast
            · exact .inr (List.getElem_mem hl)
            · exact .inr hlast
          · rw [← ee]
            conv => lhs; rw [docLoop.eq_def]
            simp only [eP, eI]
            rw [if_neg hne, ← e, hx]
    · have e : s.next = pre.length := by omega
      rw [docLoop.eq_def] at h
      simp only at h
      have eI : TM.peekIs ⟨pre ++ [eof], s.next⟩ .EOF = .ok true := by
        have : TM.peek ⟨pre ++ [eof], s.next⟩ = .ok eof := by rw [e, peekAt, hc]
        rw [peekIs_of_peek this, h1]; rfl
      rw [eI] at h
      cases h
      refine ⟨e, last, .inl rfl, ?_⟩
      exact docLoop_enough heB (Adv.docFns _ cfg nested fuel) _ _ _ _ hm (by omega)
end

/-- Tokens start before the end of the lines, and before a last empty line. -/
theorem docTokens_upper (src : Option Str) (ls : List Str) (ln col : Nat) (ts : List Token)
    (h : docTokens src ln col ls = .ok ts) : ∀ t ∈ ts, t.type ≠ .EOF → t.ctx.startLine < ln + ls.length ∧
      (ls.getLast? = some [] → t.ctx.startLine + 1 < ln + ls.length) := by
  revert ts
  refine docTokens_rec (src := src) (P := fun ln _ ls r => ∀ ts, r = .ok ts → ∀ t ∈ ts, t.type ≠ .EOF →
      t.ctx.startLine < ln + ls.length ∧ (ls.getLast? = some [] → t.ctx.startLine + 1 < ln + ls.length))
    ?_ ?_ ?_ ?_ ?_ ?_ ?_ ?_ ls ln col
  · intro ln col ts h; cases h; intro t ht hE; simp at ht; subst ht; exact absurd rfl hE
  · intro ln col ts h; cases h; intro t ht hE; simp at ht; subst ht; exact absurd rfl hE
  · intro ln col l rest h1 _ ih ts h t ht hE
    obtain ⟨x, hx, rfl⟩ := map_ok h
    rcases List.mem_cons.1 ht with rfl | ht
    · simp only [tokAt, List.length_cons]
      refine ⟨by omega, fun hl => ?_⟩
      cases rest with
      | nil => simp at hl; exact absurd ⟨hl, rfl⟩ h1
      | cons a b => simp
    · have := ih x hx t ht hE
      simp only [List.length_cons]
      refine ⟨by omega, fun hl => ?_⟩
      cases rest with
      | nil => simp at hl; exact absurd ⟨hl, rfl⟩ h1
      | cons a b =>
        have := this.2 (by simpa using hl)
        omega
  · intro ln col rest _ ts h; cases h
  · intro ln col cs rest _ ih ts h t ht hE
    have := ih ts h t ht hE
    simp only [List.length_cons, List.length_append]
    refine ⟨by omega, fun hl => ?_⟩
    cases rest with
    | nil => simp [List.getLast?_append, List.getLast?_cons] at hl
    | cons a b =>
      have := this.2 (by simpa [List.getLast?_append, List.getLast?_cons] using hl)
      simp only [List.length_cons] at this ⊢
      omega
  · intro ln col l rest _ _ ts h; cases h
  · intro ln col l cs rest hd _ ih ts h t ht hE
    obtain ⟨x, hx, rfl⟩ := map_ok h
    have hb : t.ctx.startLine ≤ ln + cs.length + 1 ∨ t ∈ x := by
      rcases List.mem_cons.1 ht with rfl | ht
      · left; simp [tokAt]; omega
      · rcases List.mem_append.1 ht with ht | ht
        · left
          unfold contentToken at ht
          split at ht
          · simp at ht
          · simp at ht; subst ht; simp
        · rcases List.mem_cons.1 ht with rfl | ht
          · left; simp [tokAt]
          · exact .inr ht
    have hr : (l :: (cs ++ l :: rest)).getLast? = some [] → rest ≠ [] ∧ rest.getLast? = some [] := by
      intro hl
      cases rest with
      | nil => simp [List.getLast?_append, List.getLast?_cons] at hl; exact absurd hl hd.ne_nil
      | cons a b => exact ⟨by simp, by simpa [List.getLast?_append, List.getLast?_cons] using hl⟩
    simp only [List.length_cons, List.length_append]
    rcases hb with hb | hb
    · refine ⟨by omega, fun hl => ?_⟩
      have := (hr hl).1
      have : 0 < rest.length := by cases rest; simp at this; simp
      omega
    · have := ih x hx t hb hE
      refine ⟨by omega, fun hl => ?_⟩
      have := this.2 (hr hl).2
      omega
  · intro ln col l rest hl' ih ts h t ht hE
    obtain ⟨x, hx, rfl⟩ := map_ok h
    have hne : l ≠ [] := by intro e; have := hl'.1; simp [e, isBlank] at this
    simp only [List.length_cons]
    have hr : (l :: rest).getLast? = some [] → rest ≠ [] ∧ rest.getLast? = some [] := by
      intro hl
      cases rest with
      | nil => simp at hl; exact absurd hl hne
      | cons a b => exact ⟨by simp, by simpa using hl⟩
    rcases List.mem_append.1 ht with ht | ht
    · have := place_line ht
      refine ⟨by omega, fun hl => ?_⟩
      have h' := (hr hl).1
      have : 0 < rest.length := by cases rest; simp at h'; simp
      omega
    · have := ih x hx t ht hE
      refine ⟨by omega, fun hl => ?_⟩
      have := this.2 (hr hl).2
      omega

/-- If reading the lines `p` followed by a line break succeeds, then reading a document that goes on after a blank line is reading
`p` and then the rest. -/
theorem run_append {P : Parser} {ln col : Nat} {p q : List Str} {s s' : DocSt} (h : P.run ln col (p ++ [[]]) s = .ok s') :
    P.run ln col (p ++ [] :: q) s = P.run (ln + p.length + 1) 0 q s' := by
  rw [run_eq] at h
  cases ht : docTokens P.src ln col (p ++ [[]]) with
  | error e => rw [ht] at h; cases h
  | ok ts =>
    rw [ht] at h
    change runToks P.cfg P.nested P.fuel ts s = .ok s' at h
    obtain ⟨init, eof, rfl, h1, h2, hap⟩ := docTokens_append P.src _ ln col p rfl ts ht
    have hinit : ∀ t ∈ init, t.type ≠ .EOF := by
      obtain ⟨i, e, he, _, _, hi⟩ := docTokens_ends _ _ _ _ _ ht
      have := List.append_inj' he rfl
      rw [this.1]; exact hi
    by_cases hq : q = []
    · subst hq
      rw [run_eq, ht]
      change runToks P.cfg P.nested P.fuel (init ++ [eof]) s = _
      rw [h, run_eq]
      simp only [docTokens]
      have : s' = s'.at0 := by
        obtain ⟨x, _, rfl⟩ := map_ok h; rfl
      change _ = runToks P.cfg P.nested P.fuel [tokAt .EOF [] (ln + p.length + 1) 0 P.src] s'
      rw [runToks_eof _ _ _ _ _ _ rfl, ← this]
    · rw [run_eq, hap ([] :: q) (by simp)]
      have eq := docTokens_blank (src := P.src) (ln := ln + p.length) (col := if p = [] then col else 0) (l := []) (rest := q)
        (by simp [hq]) rfl
      rw [eq, run_eq]
      cases hq' : docTokens P.src (ln + p.length + 1) 0 q with
      | error e => rfl
      | ok us =>
        change runToks P.cfg P.nested P.fuel (init ++ tokAt .EOL [] (ln + p.length) (if p = [] then col else 0) P.src :: us) s =
          runToks P.cfg P.nested P.fuel us s'
        have hus := docTokens_ends _ _ _ _ _ hq'
        obtain ⟨x, hx, rfl⟩ := map_ok h
        obtain ⟨hn, last', hlast, e⟩ := docLoop_prefix (eol := tokAt .EOL [] (ln + p.length) (if p = [] then col else 0) P.src) (suf := us)
          h1 h2 rfl rfl P.cfg P.nested P.fuel hinit hus _ _ _ _ (by simp [DocSt.at0]) hx
          ((init ++ tokAt .EOL [] (ln + p.length) (if p = [] then col else 0) P.src :: us).length + 2) (by omega)
        have heE : EndsWithEof (tokAt .EOL [] (ln + p.length) (if p = [] then col else 0) P.src :: us) :=
          EndsWithEof.append (as := [_]) (by simp [tokAt]) hus
        -- the rest from the blank line on
        have rest : runToks P.cfg P.nested P.fuel (tokAt .EOL [] (ln + p.length) (if p = [] then col else 0) P.src :: us) x =
            runToks P.cfg P.nested P.fuel us x := by
          have := run_blank (P := P) (ln := ln + p.length) (col := if p = [] then col else 0) (l := []) (rest := q) (s := x)
            (by intro c hc; cases hc)
          rw [run_eq, run_eq, eq, hq'] at this
          exact this
        change runToks P.cfg P.nested P.fuel _ s = runToks P.cfg P.nested P.fuel us x
        rw [← rest]
        unfold runToks
        rw [e]
        have ex : x = (x.at0).sh init.length := by unfold DocSt.sh DocSt.at0; simp [← hn]
        conv => lhs; rw [ex]
        rw [docLoop_sh heE]
        rw [docLoop_enough heE (Adv.docFns _ P.cfg P.nested P.fuel) _
          ((tokAt .EOL [] (ln + p.length) (if p = [] then col else 0) P.src :: us).length + 2) last' x.at0 (by simp [DocSt.at0]; omega) (by simp [DocSt.at0])]
        rw [docLoop_last (last' := initialLast)]
        · cases docLoop (docFns P.cfg P.nested P.fuel (tokAt .EOL [] (ln + p.length) (if p = [] then col else 0) P.src :: us)) _ _ initialLast x.at0 <;> rfl
        · intro u hu _
          have : u = tokAt .EOL [] (ln + p.length) (if p = [] then col else 0) P.src := by
            have e2 : TM.peek ⟨tokAt .EOL [] (ln + p.length) (if p = [] then col else 0) P.src :: us, x.at0.next⟩ = _ := peek_head
            rw [e2] at hu; cases hu; rfl
          subst this
          constructor
          · rintro rfl
            rcases hlast with hlast | hlast
            · cases hlast
            · have := (docTokens_upper P.src _ _ _ _ ht _ (List.mem_append_left _ hlast) (by simp [tokAt])).2 (by simp)
              simp [tokAt] at this
              omega
          · intro hc; cases hc

end Mau
