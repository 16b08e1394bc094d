import Verif.Lemmas.TextQuiet
import Verif.Props.Lists
import Verif.Props.Managers

set_option linter.unusedSimpArgs false

/-!
# C64 — mentions and links in a text are collected

Mentions of footnotes and links to headers are completed at the end of the document if the text parser has collected them. It
collects those which stand in the text itself or inside styles. It does not collect those which stand in the text of another macro:
they stay without footnote or header, and without an error.
-/

namespace Mau
open Spec

namespace Spec

/-- The node `x` is one of `ns`, or stands inside the styles of `ns` (not in other macros). -/
inductive InText (x : Node) : List Node → Prop where
  | here {ns : List Node} (h : x ∈ ns) : InText x ns
  | style {ns : List Node} {n : Node} {k : Str} (hn : n ∈ ns) (hk : n.data = .style k) (h : InText x n.content) : InText x ns

end Spec

/-- The mentions and links in the text of `ns` are collected in `st`. -/
def Registered (st : TextSt) (ns : List Node) : Prop :=
  ∀ x, InText x ns → (∀ i nm f, x.data = .macroFootnote i nm f → (i, nm) ∈ st.footnoteMacros) ∧
    ∀ i nm f, x.data = .macroHeader i nm f → (i, nm) ∈ st.headerLinks

/-- More is collected. -/
def Grows (s s' : TextSt) : Prop := (∀ e ∈ s.footnoteMacros, e ∈ s'.footnoteMacros) ∧ ∀ e ∈ s.headerLinks, e ∈ s'.headerLinks

theorem Grows.refl {s : TextSt} : Grows s s := ⟨fun _ h => h, fun _ h => h⟩
theorem Grows.trans {a b c : TextSt} (h : Grows a b) (h' : Grows b c) : Grows a c := ⟨fun e he => h'.1 e (h.1 e he), fun e he => h'.2 e (h.2 e he)⟩
theorem Registered.grow {s s' : TextSt} {ns : List Node} (h : Registered s ns) (g : Grows s s') : Registered s' ns :=
  fun x hx => ⟨fun i nm f e => g.1 _ ((h x hx).1 i nm f e), fun i nm f e => g.2 _ ((h x hx).2 i nm f e)⟩

theorem InText.cases {x : Node} {ns : List Node} (h : InText x ns) : ∃ n ∈ ns, x = n ∨ ∃ k, n.data = .style k ∧ InText x n.content := by
  cases h with
  | here h => exact ⟨x, h, .inl rfl⟩
  | style hn hk h => exact ⟨_, hn, .inr ⟨_, hk, h⟩⟩

theorem InText.mono {x : Node} {ns ms : List Node} (h : InText x ns) (hm : ∀ n ∈ ns, n ∈ ms) : InText x ms := by
  cases h with
  | here h => exact .here (hm _ h)
  | style hn hk h => exact .style (hm _ hn) hk h

theorem InText.append {x : Node} {ns ms : List Node} (h : InText x (ns ++ ms)) : InText x ns ∨ InText x ms := by
  cases h with
  | here h => exact (List.mem_append.1 h).imp .here .here
  | style hn hk h =>
    rcases List.mem_append.1 hn with hn | hn
    · exact .inl (.style hn hk h)
    · exact .inr (.style hn hk h)

theorem Registered.append {s : TextSt} {ns ms : List Node} (h : Registered s ns) (h' : Registered s ms) : Registered s (ns ++ ms) :=
  fun x hx => (InText.append hx).elim (h x) (h' x)

theorem registered_nil {s : TextSt} : Registered s [] := by
  intro x hx
  obtain ⟨n, hn, -⟩ := InText.cases hx
  cases hn

/-- A node that is neither a style nor a mention nor a link. -/
theorem registered_one {s : TextSt} {n : Node} (hs : ∀ k, n.data ≠ .style k) (h1 : ∀ i nm f, n.data = .macroFootnote i nm f → (i, nm) ∈ s.footnoteMacros)
    (h2 : ∀ i nm f, n.data = .macroHeader i nm f → (i, nm) ∈ s.headerLinks) : Registered s [n] := by
  intro x hx
  obtain ⟨m, hm, hx'⟩ := InText.cases hx
  rw [List.mem_singleton] at hm
  subst hm
  rcases hx' with rfl | ⟨k, hk, -⟩
  · exact ⟨h1, h2⟩
  · exact absurd hk (hs k)

theorem registered_groupWords {s : TextSt} {ns : List Node} (h : Registered s ns) : Registered s (groupWords ns) := by
  intro x hx
  obtain ⟨n, hn, hx⟩ := InText.cases hx
  rcases groupWordsAux_mem ns none n hn with hn | ⟨v, c, rfl⟩
  · rcases hx with rfl | ⟨k, hk, hx⟩
    · exact h x (.here hn)
    · exact h x (.style hn hk hx)
  · rcases hx with rfl | ⟨k, hk, hx⟩
    · exact ⟨(by intro i nm f h; cases h), (by intro i nm f h; cases h)⟩
    · cases hk

/-- A function of the text parser which collects what it delivers; `pn` was collected before. -/
def Collects {α : Type} (f : PM α) (N : α → List Node) : Prop :=
  ∀ s, (∀ a s', f s = .ok a s' → Grows s s' ∧ Registered s' (N a)) ∧ ∀ s', f s = .fail s' → Grows s s'

namespace Collects
variable {α β : Type}

theorem pure {a : α} {N : α → List Node} (h : ∀ s, Registered s (N a)) : Collects (Pure.pure a : PM α) N :=
  fun s => ⟨by intro _ _ h'; cases h'; exact ⟨.refl, h _⟩, by intro _ h; cases h⟩

/-- The nodes of both functions. -/
theorem bind2 {f : PM α} {g : α → PM β} {N : α → List Node} {M : β → List Node} (hf : Collects f N)
    (hg : ∀ a s, Registered s (N a) → (∀ b s', g a s = .ok b s' → Grows s s' ∧ Registered s' (M b)) ∧ ∀ s', g a s = .fail s' → Grows s s') : Collects (f >>= g) M := by
  intro s
  change (∀ a s', PM.bind f g s = .ok a s' → _) ∧ ∀ s', PM.bind f g s = .fail s' → _
  unfold PM.bind
  cases hx : f s with
  | ok a s1 =>
    obtain ⟨h1, h2⟩ := (hf s).1 _ _ hx
    refine ⟨fun b s' h => ?_, fun s' h => ?_⟩
    · obtain ⟨h3, h4⟩ := (hg a s1 h2).1 _ _ h
      exact ⟨h1.trans h3, h4⟩
    · exact h1.trans ((hg a s1 h2).2 _ h)
  | fail s1 => exact ⟨(by intro _ _ h; cases h), (by intro _ h; cases h; exact (hf s).2 _ hx)⟩
  | err e => exact ⟨(by intro _ _ h; cases h), (by intro _ h; cases h)⟩

theorem bind {f : PM α} {g : α → PM β} {N : α → List Node} {M : β → List Node} (hf : Collects f N) (hg : ∀ a, Collects (g a) M) : Collects (f >>= g) M :=
  bind2 hf fun a s _ => hg a s

theorem raise (e : Err) {N : α → List Node} : Collects (PM.raise e : PM α) N := by
  intro s
  cases e <;> exact ⟨(by intro _ _ h; cases h), (by intro _ h; cases h; try exact .refl)⟩

/-- A function which does not change the collections. -/
theorem quiet {f : PM α} (h : Quiet f) : Collects f (fun _ => []) := by
  intro s
  refine ⟨fun a s' ha => ⟨?_, registered_nil⟩, fun s' ha => ?_⟩
  · rw [(h s).1 a s' ha]; exact .refl
  · rw [(h s).2 s' ha]; exact .refl

theorem tm {toks : List Token} (f : TM → Except Err (α × TM)) : Collects (PM.tm toks f) (fun _ => []) := quiet (.tm f)
theorem peek {toks : List Token} (f : TM → Except Err α) : Collects (PM.peek toks f) (fun _ => []) := quiet (.peek f)

theorem lift (x : Except Err α) : Collects (PM.lift x) (fun _ => []) := by
  refine quiet ?_
  intro s
  unfold PM.lift
  split
  · exact ⟨(by intro _ _ h; cases h; rfl), (by intro _ h; cases h)⟩
  · exact ⟨(by intro _ _ h; cases h), (by intro _ h; cases h; rfl)⟩
  · exact ⟨(by intro _ _ h; cases h), (by intro _ h; cases h)⟩

theorem ite {c : Prop} [Decidable c] {f g : PM α} {N : α → List Node} (hf : Collects f N) (hg : Collects g N) : Collects (if c then f else g) N := by
  split
  · exact hf
  · exact hg

theorem orElse {f g : PM α} {N : α → List Node} (hf : Collects f N) (hg : Collects g N) : Collects (PM.orElse f g) N := by
  intro s
  unfold PM.orElse
  cases hx : f s with
  | ok a s1 => exact ⟨(by intro _ _ h; cases h; exact (hf s).1 _ _ hx), (by intro _ h; cases h)⟩
  | fail s1 =>
    have h1 := (hf s).2 _ hx
    have h2 := hg { s1 with next := s.next }
    refine ⟨fun b s' h => ?_, fun s' h => ?_⟩
    · have := h2.1 _ _ h
      exact ⟨Grows.trans h1 this.1, this.2⟩
    · exact Grows.trans h1 (h2.2 _ h)
  | err e => exact ⟨(by intro _ _ h; cases h), (by intro _ h; cases h)⟩

theorem forget {f : PM α} {N : α → List Node} (h : Collects f N) : Collects f (fun _ => []) :=
  fun s => ⟨fun a s' ha => ⟨((h s).1 a s' ha).1, registered_nil⟩, (h s).2⟩

theorem mandatory (p : ParsedArgs) (key : Str) (m : Msg) (cx : Context) : Collects (Mau.mandatory p key m cx) (fun _ => []) := by
  unfold Mau.mandatory
  cases Dict.get? p.named key with
  | some n => exact pure fun _ => registered_nil
  | none => exact raise _

theorem textOr {sub : Str → Context → PM (List Node)} (hs : ∀ t c, Collects (sub t c) (fun _ => [])) (o : Option CtxText) (default : List Node) :
    Collects (Mau.textOr sub o default) (fun _ => []) := by
  unfold Mau.textOr
  cases o with
  | some t => exact hs _ _
  | none => exact pure fun _ => registered_nil

/-- A node that is neither style nor mention nor link. -/
theorem leaf {d : NodeData} {c : Context} {cs : List Node} {a : NodeArgs} (hs : ∀ k, d ≠ .style k) (h1 : ∀ i nm f, d ≠ .macroFootnote i nm f)
    (h2 : ∀ i nm f, d ≠ .macroHeader i nm f) : Collects (Pure.pure [Node.new d c cs a] : PM (List Node)) id :=
  pure fun _ => registered_one hs (fun i nm f h => absurd h (h1 i nm f)) (fun i nm f h => absurd h (h2 i nm f))

end Collects

section
variable {sub : Str → Context → PM (List Node)} (hs : ∀ t c, Collects (sub t c) (fun _ => []))
include hs

theorem collects_dispatch (env : Env) {name : Token} (hn : startsWith name.value c%"if" = false) (p : ParsedArgs) (ctx : Context) :
    Collects (macroDispatch env sub name p ctx) id := by
  unfold macroDispatch
  rw [if_neg (by rw [hn]; exact Bool.false_ne_true)]
  refine .ite ?_ (.ite ?_ (.ite ?_ (.ite ?_ (.ite ?_ (.ite ?_ (.ite ?_ (.ite ?_ ?_)))))))
  · unfold macroLinkFn
    exact .bind (.mandatory _ _ _ _) fun t => .bind (.textOr hs _ _) fun ns => .leaf (by intro _ h; cases h) (by intro _ _ _ h; cases h) (by intro _ _ _ h; cases h)
  · unfold macroHeaderFn
    refine .bind (.mandatory _ _ _ _) fun t => .bind (N := fun _ => []) ?_ fun i => .bind (.textOr hs _ _) fun ns => ?_
    · intro s
      exact ⟨(by intro _ _ h; cases h; exact ⟨.refl, registered_nil⟩), (by intro _ h; cases h)⟩
    · intro s
      refine ⟨?_, (by intro _ h; cases h)⟩
      intro a s' h
      cases h
      refine ⟨⟨fun _ h => h, fun e h => List.mem_append_left _ h⟩, registered_one (by intro _ h; cases h) (by intro _ _ _ h; cases h) ?_⟩
      intro i nm f h
      cases h
      simp
  · unfold macroMailtoFn
    exact .bind (.mandatory _ _ _ _) fun t => .bind (.textOr hs _ _) fun ns => .leaf (by intro _ h; cases h) (by intro _ _ _ h; cases h) (by intro _ _ _ h; cases h)
  · unfold macroImageFn
    exact .bind (.mandatory _ _ _ _) fun t => .leaf (by intro _ h; cases h) (by intro _ _ _ h; cases h) (by intro _ _ _ h; cases h)
  · unfold macroFootnoteFn
    refine .bind (.mandatory _ _ _ _) fun t => .bind (N := fun _ => []) ?_ fun i => ?_
    · intro s
      exact ⟨(by intro _ _ h; cases h; exact ⟨.refl, registered_nil⟩), (by intro _ h; cases h)⟩
    · intro s
      refine ⟨?_, (by intro _ h; cases h)⟩
      intro a s' h
      cases h
      refine ⟨⟨fun e h => List.mem_append_left _ h, fun _ h => h⟩, registered_one (by intro _ h; cases h) ?_ (by intro _ _ _ h; cases h)⟩
      intro i nm f h
      cases h
      simp
  · unfold macroClassFn
    exact .bind (.mandatory _ _ _ _) fun t => .bind (hs _ _) fun ns => .leaf (by intro _ h; cases h) (by intro _ _ _ h; cases h) (by intro _ _ _ h; cases h)
  · unfold macroUnicodeFn
    exact .bind (.mandatory _ _ _ _) fun t => .leaf (by intro _ h; cases h) (by intro _ _ _ h; cases h) (by intro _ _ _ h; cases h)
  · unfold macroRawFn
    exact .bind (.mandatory _ _ _ _) fun t => .leaf (by intro _ h; cases h) (by intro _ _ _ h; cases h) (by intro _ _ _ h; cases h)
  · exact .leaf (by intro _ h; cases h) (by intro _ _ _ h; cases h) (by intro _ _ _ h; cases h)

end

/-- The tokens end with the token for the end of the text. -/
def Closed (toks : List Token) : Prop := ∃ e, toks.getLast? = some e ∧ e.type = .EOF

/-- No macro name that starts with `if` among the tokens. -/
def NoIf (toks : List Token) : Prop :=
  Closed toks ∧ ∀ (i : Nat) (a b : Token), toks[i]? = some a → toks[i + 1]? = some b → a.value = ['['] → startsWith b.value c%"if" = false

theorem get_index {toks : List Token} (hc : Closed toks) {ty : TokenType} (hty : ty ≠ .EOF) {v : Option Str} {t : Token} {s s' : TextSt}
    (h : PM.tm toks (·.get (some ty) v) s = .ok t s') : toks[s.next]? = some t ∧ s'.next = s.next + 1 ∧ (∀ x, v = some x → t.value = x) := by
  obtain ⟨e, he, het⟩ := hc
  unfold PM.tm at h
  dsimp only at h
  cases hg : TM.get ⟨toks, s.next⟩ (some ty) v with
  | error x => rw [hg] at h; cases x <;> cases h
  | ok r =>
    rw [hg] at h
    cases h
    unfold TM.get at hg
    split at hg
    · cases hg
    · rename_i t0 hp
      have check : ∀ {t1 : Token}, TM.checkToken t1 (some ty) v none = .ok t0 → t1.type = ty ∧ (∀ x, v = some x → t1.value = x) := by
        intro t1 h1
        unfold TM.checkToken at h1
        split at h1
        · cases h1
        · rename_i h2
          refine ⟨?_, ?_⟩
          · simp at h2; exact h2.symm
          · intro x hx
            subst hx
            split at h1
            · cases h1
            · rename_i h3
              simp at h3
              exact h3.symm
      unfold TM.peek at hp
      dsimp only at hp
      split at hp
      · rename_i t' ht
        have hlt : s.next < toks.length := by
          rw [List.getElem?_eq_some_iff] at ht
          exact ht.1
        have hadv : (TM.advance ⟨toks, s.next⟩) = ⟨toks, s.next + 1⟩ := by
          unfold TM.advance
          dsimp only
          rw [if_pos (by omega)]
        rw [hadv] at hg
        unfold TM.currentToken at hg
        dsimp only at hg
        rw [he] at hg
        dsimp only at hg
        have : toks.getD s.next e = t' := by rw [List.getD_eq_getElem?_getD, ht]; rfl
        rw [this] at hg
        cases hg
        exact ⟨ht, rfl, (check hp).2⟩
      · rw [he] at hp
        exact absurd ((check hp).1.symm.trans het) hty

theorem collects_parseMacro {env : Env} {toks : List Token} (h : NoIf toks) {n : Nat} (hs : ∀ t c, Collects (parseStr env n t c) (fun _ => [])) :
    Collects (parseMacro env toks (n + 1)) id := by
  have hq : Quiet (macroHead env toks) := by
    unfold macroHead
    refine .bind (.tm _) fun _ => .bind (.tm _) fun _ => .bind (.tm _) fun _ => .bind (.tm _) fun _ => .bind (.tm _) fun _ => .bind (.tm _) fun _ => .bind ?_ fun _ => .pure _
    intro s
    unfold PM.lift
    split
    · exact ⟨(by intro _ _ h; cases h; rfl), (by intro _ h; cases h)⟩
    · exact ⟨(by intro _ _ h; cases h), (by intro _ h; cases h; rfl)⟩
    · exact ⟨(by intro _ _ h; cases h), (by intro _ h; cases h)⟩
  intro s
  unfold parseMacro
  change (∀ a s', PM.bind (macroHead env toks) _ s = .ok a s' → _) ∧ ∀ s', PM.bind (macroHead env toks) _ s = .fail s' → _
  unfold PM.bind
  cases hx : macroHead env toks s with
  | fail s1 =>
    refine ⟨(by intro _ _ h; cases h), ?_⟩
    intro s' h'
    cases h'
    exact ((Collects.quiet hq) s).2 _ hx
  | err e => exact ⟨(by intro _ _ h; cases h), (by intro _ h; cases h)⟩
  | ok r s1 =>
    have hname : startsWith r.1.value c%"if" = false := by
      unfold macroHead at hx
      change PM.bind _ _ s = _ at hx
      unfold PM.bind at hx
      split at hx
      · rename_i a sa ha
        change PM.bind _ _ sa = _ at hx
        unfold PM.bind at hx
        split at hx
        · rename_i b sb hb
          obtain ⟨a1, a2, a3⟩ := get_index h.1 (by decide) ha
          obtain ⟨b1, b2, b3⟩ := get_index h.1 (by decide) hb
          have hno := h.2 s.next a b a1 (by rw [← a2]; exact b1) (a3 _ rfl)
          have hr : r.1 = b := by
            clear ha hb a1 a2 a3 b1 b2 b3 hno
            iterate 5
              (change PM.bind _ _ _ = _ at hx
               unfold PM.bind at hx
               split at hx
               rotate_left
               · cases hx
               · cases hx)
            cases hx
            rfl
          rw [hr]
          exact hno
        · cases hx
        · cases hx
      · cases hx
      · cases hx
    have hg := ((Collects.quiet hq) s).1 _ _ hx
    have hd := collects_dispatch hs env hname r.2.1 r.2.2 s1
    refine ⟨fun a s' ha => ?_, fun s' ha => ?_⟩
    · have := hd.1 _ _ ha
      exact ⟨hg.1.trans this.1, this.2⟩
    · exact hg.1.trans (hd.2 _ ha)

theorem collects_parseStr {env : Env} (n : Nat) (t : Str) (c : Context) : Collects (parseStr env n t c) (fun _ => []) := by
  cases n with
  | zero => unfold parseStr; exact .raise _
  | succ n =>
    intro s
    unfold parseStr
    split
    · exact ⟨(by intro _ _ h; cases h), (by intro _ h; cases h)⟩
    · split
      · exact ⟨(by intro _ _ h; cases h), (by intro _ h; cases h)⟩
      · exact ⟨(by intro _ _ h; cases h; exact ⟨.refl, registered_nil⟩), (by intro _ h; cases h)⟩

theorem collects_text {env : Env} {toks : List Token} (h : NoIf toks) (n : Nat) :
    (∀ m, Collects (sentenceLoop env toks n m) id) ∧ (∀ m, Collects (parseItem env toks n m) id) ∧ Collects (parseStyle env toks n) id := by
  induction n with
  | zero => exact ⟨fun _ => by unfold sentenceLoop; exact .raise _, fun _ => by unfold parseItem; exact .raise _, by unfold parseStyle; exact .raise _⟩
  | succ n ih =>
    obtain ⟨i1, i2, i3⟩ := ih
    have leaf : ∀ {d : NodeData} {c : Context}, (∀ k, d ≠ .style k) → (∀ i nm f, d ≠ .macroFootnote i nm f) → (∀ i nm f, d ≠ .macroHeader i nm f) →
        Collects (pure [Node.new d c] : PM (List Node)) id := fun a b c => .leaf a b c
    refine ⟨fun m => ?_, fun m => ?_, ?_⟩
    · unfold sentenceLoop
      refine .bind2 (i2 m) fun ns s hns => ?_
      split
      · exact ⟨(by intro _ _ h; cases h; exact ⟨.refl, registered_nil⟩), (by intro _ h; cases h)⟩
      · change (∀ a s', PM.bind _ _ s = .ok a s' → _) ∧ ∀ s', PM.bind _ _ s = .fail s' → _
        unfold PM.bind
        cases hx : sentenceLoop env toks n m s with
        | ok r s1 =>
          obtain ⟨h1, h2⟩ := (i1 m s).1 _ _ hx
          refine ⟨?_, (by intro _ h; cases h)⟩
          intro a s' ha
          cases ha
          exact ⟨h1, (hns.grow h1).append h2⟩
        | fail s1 =>
          refine ⟨(by intro _ _ h; cases h), ?_⟩
          intro s' h'
          cases h'
          exact (i1 m s).2 _ hx
        | err e => exact ⟨(by intro _ _ h; cases h), (by intro _ h; cases h)⟩
    · unfold parseItem
      refine .bind (.peek _) fun t => .ite (.pure fun _ => registered_nil) ?_
      refine .orElse (.bind (.tm _) fun _ => .bind (.tm _) fun _ => leaf (by intro _ h; cases h) (by intro _ _ _ h; cases h) (by intro _ _ _ h; cases h)) (.orElse ?_ ?_)
      · cases n with
        | zero => unfold parseMacro; exact .raise _
        | succ n => exact collects_parseMacro h fun t c => collects_parseStr n t c
      refine .orElse (.bind (.tm _) fun _ => .bind (.tm _) fun _ => .bind (.tm _) fun _ => leaf (by intro _ h; cases h) (by intro _ _ _ h; cases h) (by intro _ _ _ h; cases h)) ?_
      refine .orElse (.bind (.tm _) fun _ => .bind (.tm _) fun _ => .bind (.tm _) fun _ => leaf (by intro _ h; cases h) (by intro _ _ _ h; cases h) (by intro _ _ _ h; cases h)) ?_
      exact .orElse i3 (.bind (.tm _) fun _ => leaf (by intro _ h; cases h) (by intro _ _ _ h; cases h) (by intro _ _ _ h; cases h))
    · unfold parseStyle
      refine .bind (.tm _) fun o => .bind2 (i1 _) fun content s hns => ?_
      change (∀ a s', PM.bind _ _ s = .ok a s' → _) ∧ ∀ s', PM.bind _ _ s = .fail s' → _
      unfold PM.bind
      have hq := Collects.tm (toks := toks) (·.get (some .LITERAL) (some o.value)) s
      cases hx : PM.tm toks (·.get (some .LITERAL) (some o.value)) s with
      | ok c s1 =>
        obtain ⟨h1, -⟩ := hq.1 _ _ hx
        refine ⟨?_, (by intro _ h; cases h)⟩
        intro a s' ha
        cases ha
        refine ⟨h1, ?_⟩
        intro x hx
        obtain ⟨m, hm, hx⟩ := InText.cases hx
        simp only [id, List.mem_singleton] at hm
        subst hm
        rcases hx with rfl | ⟨k, hk, hx⟩
        · exact ⟨(by intro i nm f h; cases h), (by intro i nm f h; cases h)⟩
        · exact registered_groupWords (hns.grow h1) x hx
      | fail s1 =>
        refine ⟨(by intro _ _ h; cases h), ?_⟩
        intro s' h'
        cases h'
        exact hq.2 _ hx
      | err e => exact ⟨(by intro _ _ h; cases h), (by intro _ h; cases h)⟩

theorem collects_main {env : Env} {toks : List Token} (h : NoIf toks) (n : Nat) : ∀ last s acc ns s', Registered s acc →
    textMain env toks n last s acc = .ok (ns, s') → Registered s' ns := by
  induction n with
  | zero => intro last s acc ns s' _ hx; cases hx
  | succ n ih =>
    intro last s acc ns s' ha hx
    unfold textMain at hx
    split at hx
    · cases hx
    · cases hx; exact ha
    · split at hx
      · cases hx
      · split at hx
        · cases hx
        · split at hx
          · rename_i ns1 s1 hs
            obtain ⟨h1, h2⟩ := ((collects_text h n).1 none s).1 _ _ hs
            exact ih _ _ _ _ _ ((ha.grow h1).append (registered_groupWords h2)) hx
          · cases hx
          · cases hx

theorem flatten_adjacent {ts : List Token} {i : Nat} {a b : Token} (h1 : ts[i]? = some a) (h2 : ts[i + 1]? = some b) :
    (a.value ++ b.value) <:+: (ts.map (·.value)).flatten := by
  induction ts generalizing i with
  | nil => cases h1
  | cons t ts ih =>
    cases i with
    | zero =>
      cases ts with
      | nil => cases h2
      | cons u ts =>
        simp at h1 h2
        subst h1 h2
        exact ⟨[], (ts.map (·.value)).flatten, by simp⟩
    | succ i =>
      simp at h1 h2
      obtain ⟨x, y, e⟩ := ih h1 h2
      exact ⟨t.value ++ x, y, by simp [← e]⟩

/-- C64 (partial): in a line of text in which no control macro begins (`[if`), every mention and every link which stands in the text
itself or inside styles is collected, under the name it was written with. -/
theorem C64_collected_partial {fuel : Nat} {env : Env} {text : Str} {ln col : Nat} {src : Option Str} {uid : Nat} {r : TextResult}
    (hl : '\n' ∉ text) (hif : ¬ c%"[if" <:+: text) (hr : parseText fuel env text ln col src uid = .ok r) {x : Node} (hx : InText x r.nodes) :
    (∀ i nm f, x.data = .macroFootnote i nm f → (i, nm) ∈ r.footnoteMacros) ∧ ∀ i nm f, x.data = .macroHeader i nm f → (i, nm) ∈ r.headerLinks := by
  obtain ⟨ts, sp, h1, h2, h3⟩ := C06_text_single_line text hl ln col src
  unfold parseText at hr
  rw [h1] at hr
  dsimp only at hr
  have hn : NoIf ts := by
    obtain ⟨init, e, g1, g2, -⟩ := C04_text_total text ln col src
    have he : ts = init ++ [e] := by rw [h1] at g1; exact Except.ok.inj g1
    refine ⟨⟨e, by rw [he]; simp, g2⟩, ?_⟩
    intro i a b ha hb hv
    cases hs : startsWith b.value c%"if" with
    | false => rfl
    | true =>
      obtain ⟨y, hy⟩ : c%"if" <+: b.value := by unfold startsWith at hs; exact List.isPrefixOf_iff_prefix.1 hs
      obtain ⟨u, v, huv⟩ := flatten_adjacent ha hb
      exact absurd ⟨u, y ++ v ++ sp, by rw [← h3, ← huv, hv, ← hy]; simp⟩ hif
  cases hm : textMain env ts fuel initialLast { uid := uid } [] with
  | error e => rw [hm] at hr; cases hr
  | ok p =>
    rw [hm] at hr
    have := collects_main hn _ _ _ _ _ _ registered_nil hm
    cases hr
    exact this x hx

/-- The mentions and links in the text of `ns` are collected by the document. -/
def Spec.CollectedIn (s : DocSt) (ns : List Node) : Prop :=
  ∀ x, InText x ns → (∀ i nm f, x.data = .macroFootnote i nm f → (i, nm) ∈ s.footnoteMacros) ∧ ∀ i nm f, x.data = .macroHeader i nm f → (i, nm) ∈ s.linkMacros

/-- The text of the line, with its references replaced, has no control macro. -/
def Spec.NoControlMacro (env : Env) (text : Str) : Prop := ∃ v, Replaced env text v ∧ '\n' ∉ v ∧ ¬ c%"[if" <:+: v

theorem inline_collects {P : Parser} {s s' : DocSt} {text : Str} {ctx : Context} {ns : List Node} (hv : NoControlMacro s.env text)
    (h : P.inline s text ctx = .ok (ns, s')) : CollectedIn s' ns := by
  obtain ⟨v, h1, h2, h3⟩ := hv
  have h1 := h1 ctx.startLine ctx.startColumn ctx.source
  unfold preprocess at h1
  unfold Parser.inline docText at h
  cases hp : preprocessNodes s.env text ctx.startLine ctx.startColumn ctx.source with
  | error e => rw [hp] at h; cases e <;> cases h
  | ok ps =>
    rw [hp] at h h1
    cases ps with
    | nil =>
      cases h
      intro x hx
      obtain ⟨n, hn, -⟩ := InText.cases hx
      cases hn
    | cons p ps =>
      have hval : (processedText (p :: ps)).value = v := Except.ok.inj h1
      dsimp only at h
      cases hq : parseText P.fuel s.env (processedText (p :: ps)).value ctx.startLine ctx.startColumn ctx.source s.uid with
      | error e => rw [hq] at h; cases e <;> cases h
      | ok r =>
        rw [hq] at h
        cases h
        intro x hx
        have := C64_collected_partial (by rw [hval]; exact h2) (by rw [hval]; exact h3) hq hx
        exact ⟨fun i nm f e => List.mem_append_right _ (this.1 i nm f e), fun i nm f e => List.mem_append_right _ (this.2 i nm f e)⟩

theorem CollectedIn.grow {s s' : DocSt} {ns : List Node} (h : CollectedIn s ns) (h1 : s.footnoteMacros <+: s'.footnoteMacros) (h2 : s.linkMacros <+: s'.linkMacros) : CollectedIn s' ns :=
  fun x hx => ⟨fun i nm f e => h1.subset ((h x hx).1 i nm f e), fun i nm f e => h2.subset ((h x hx).2 i nm f e)⟩

theorem inlineLines_collects {P : Parser} : ∀ {ts : List Token} {s s' : DocSt} {ns : List Node}, (∀ t ∈ ts, NoControlMacro s.env t.value) →
    P.inlineLines s ts = .ok (ns, s') → OnlyMentions s s' ∧ ∀ n ∈ ns, CollectedIn s' n.content
  | [], s, s', ns, _, h => by cases h; exact ⟨.refl _, fun _ h => nomatch h⟩
  | t :: ts, s, s', ns, hv, h => by
    obtain ⟨r, h1, h2⟩ := bind_ok_except h
    obtain ⟨rs, h3, h4⟩ := bind_ok_except h2
    cases h4
    have o1 := inline_only h1
    obtain ⟨o2, c2⟩ := inlineLines_collects (fun t ht => by rw [o1.env]; exact hv t (List.mem_cons_of_mem _ ht)) h3
    refine ⟨o1.trans o2, ?_⟩
    intro n hn
    rcases List.mem_cons.1 hn with rfl | hn
    · exact CollectedIn.grow (inline_collects (hv t List.mem_cons_self) h1) o2.footnotes o2.links
    · exact c2 n hn

/-- Mentions and links are never dropped from the collections. -/
theorem mentions_frame (nested : NestedParser) {ok : Option Str → Prop} : Frame (fun s s' => s.footnoteMacros <+: s'.footnoteMacros ∧ s.linkMacros <+: s'.linkMacros) nested ok where
  refl s := ⟨List.prefix_rfl, List.prefix_rfl⟩
  trans h1 h2 := ⟨h1.1.trans h2.1, h1.2.trans h2.2⟩
  args _ _ _ := ⟨List.prefix_rfl, List.prefix_rfl⟩
  labels _ _ := ⟨List.prefix_rfl, List.prefix_rfl⟩
  control _ _ := ⟨List.prefix_rfl, List.prefix_rfl⟩
  latest _ _ := ⟨List.prefix_rfl, List.prefix_rfl⟩
  env _ _ _ _ := ⟨List.prefix_rfl, List.prefix_rfl⟩
  node _ _ := ⟨List.prefix_rfl, List.prefix_rfl⟩
  text _ _ _ _ _ _ _ _ := ⟨List.prefix_append _ _, List.prefix_append _ _⟩
  fresh _ := ⟨List.prefix_rfl, List.prefix_rfl⟩
  name _ _ := ⟨List.prefix_rfl, List.prefix_rfl⟩
  header _ _ _ := ⟨List.prefix_rfl, List.prefix_rfl⟩
  body _ _ := ⟨List.prefix_rfl, List.prefix_rfl⟩
  group _ _ := ⟨List.prefix_rfl, List.prefix_rfl⟩
  block _ _ _ _ _ _ _ _ _ := ⟨List.prefix_rfl, List.prefix_rfl⟩
  merge _ _ _ _ := ⟨List.prefix_append _ _, List.prefix_rfl⟩
  forbid _ _ := ⟨List.prefix_rfl, List.prefix_rfl⟩
  mau _ _ _ _ _ _ _ _ _ _ _ := ⟨List.prefix_rfl, List.prefix_rfl⟩
  tocNode _ _ := ⟨List.prefix_rfl, List.prefix_rfl⟩
  footnoteList _ _ := ⟨List.prefix_rfl, List.prefix_rfl⟩
  groupNode _ _ _ := ⟨List.prefix_rfl, List.prefix_rfl⟩

/-- C64 (partial): a paragraph whose lines contain no control macro. Every mention and every link in its lines is collected, and stays
collected whatever follows: so it is completed at the end, or the document is rejected (C45, C46). Headers, list items and labels are
read in the same way (`inline_collects`). -/
theorem C64_paragraph_partial {P : Parser} {ln col : Nat} {ls rest : List Str} {s s' : DocSt} (hl : ∀ l ∈ ls, TextLine l) (hne : ls ≠ [])
    (hr : NoText rest) (hv : ∀ l ∈ ls, NoControlMacro s.env l) (h : P.run ln col (ls ++ rest) s = .ok s') :
    ∃ s1 ctx ns keep, ParagraphLines P s.env ln col ls ns ∧
      P.run (ln + ls.length) 0 rest (put s1 keep (Node.new .paragraph ctx ns (args s) s.labelBuf)) = .ok s' ∧ ∀ n ∈ ns, CollectedIn s' n.content := by
  obtain ⟨s2, h1, h2⟩ := Reads.success (reads_paragraph (P := P) (ln := ln) (col := col) (s := s) hl hne hr) h
  obtain ⟨r, h3, h4⟩ := bind_ok_except h1
  obtain ⟨c, h5, h6⟩ := bind_ok_except h4
  obtain ⟨keep, h7, h8⟩ := bind_ok_except h6
  cases h8
  obtain ⟨o, pl⟩ := inlineLines_spec h3
  obtain ⟨-, hc⟩ := inlineLines_collects (by
    intro t ht
    have : t.value ∈ ls := by
      clear hv h1 h2 h3 h4 h5 h6 h7 hne hl h o pl
      revert ht
      generalize ln = k
      generalize col = j
      induction ls generalizing k j with
      | nil => intro ht; cases ht
      | cons l ls ih =>
        intro ht
        rcases List.mem_cons.1 ht with rfl | ht
        · exact List.mem_cons_self
        · exact List.mem_cons_of_mem _ (ih _ _ ht)
    exact hv _ this) h3
  have hg := run_keeps (mentions_frame P.nested) (fun _ _ => ⟨List.prefix_rfl, List.prefix_rfl⟩) h2
  refine ⟨r.2, c, r.1, keep, pl, h2, ?_⟩
  intro n hn
  refine CollectedIn.grow (hc n hn) ?_ ?_
  · have := hg.1
    unfold put at this
    split at this <;> exact this
  · have := hg.2
    unfold put at this
    split at this <;> exact this

/-- Reading on does not drop anything from the collections. -/
theorem run_collected {P : Parser} {ln col : Nat} {ls : List Str} {s s' : DocSt} {ns : List Node} (h : P.run ln col ls s = .ok s') (hc : CollectedIn s ns) :
    CollectedIn s' ns := by
  have hg := run_keeps (mentions_frame P.nested) (fun _ _ => ⟨List.prefix_rfl, List.prefix_rfl⟩) h
  exact CollectedIn.grow hc hg.1 hg.2

/-- C64 (partial): a header whose text contains no control macro. Every mention and every link in it is collected, and stays collected. -/
theorem C64_header_partial {P : Parser} {ln col n : Nat} {sp text : Str} {rest : List Str} {s s' : DocSt} (ht : HeaderText sp text)
    (hv : NoControlMacro s.env text) (hk : Spec.allowed s = .ok true) (h : P.run ln col (headerLine (n + 1) sp text :: rest) s = .ok s') :
    ∃ s1 d ctx content a labels, P.run (ln + 1) 0 rest s1 = .ok s' ∧ s1.nodes = s.nodes ++ [Node.new d ctx content a labels] ∧
      (∃ i x y, d = .header i (n + 1) x y) ∧ CollectedIn s' content := by
  obtain ⟨s1, h1, h2⟩ := Reads.success (reads_header (P := P) (ln := ln) (col := col) (rest := rest) (s := s) (header_line ht)) h
  rw [List.length_replicate] at h1
  obtain ⟨r, h3, h4⟩ := bind_ok_except h1
  obtain ⟨c, h5, h6⟩ := bind_ok_except h4
  obtain ⟨keep, h7, h8⟩ := bind_ok_except h6
  have o := inline_only h3
  have hkeep : Spec.allowed s = .ok keep := by
    have := o.allowed
    rw [h7] at this
    exact this.symm
  rw [hk] at hkeep
  cases hkeep
  obtain ⟨s2, h9, h10⟩ := bind_ok_except h8
  cases h10
  have e : s2.nodes = s.nodes ∧ s2.footnoteMacros = r.2.footnoteMacros ∧ s2.linkMacros = r.2.linkMacros := by
    have e1 : r.2.nodes = s.nodes := o.nodes
    unfold nameHeader at h9
    split at h9
    · cases h9; exact ⟨e1, rfl, rfl⟩
    · split at h9
      · cases h9
      · cases h9; exact ⟨e1, rfl, rfl⟩
  refine ⟨_, _, _, r.1, _, s.labelBuf, h2, (by change s2.nodes ++ _ = _; rw [e.1]), ⟨_, _, _, rfl⟩, run_collected h2 ?_⟩
  refine CollectedIn.grow (inline_collects (s := { s with uid := s.uid + 1 }) hv h3) ?_ ?_
  · change _ <+: s2.footnoteMacros
    rw [e.2.1]; exact List.prefix_rfl
  · change _ <+: s2.linkMacros
    rw [e.2.2]; exact List.prefix_rfl

theorem items_collect {P : Parser} {is : List ItemLine} : ∀ {s s1 : DocSt} {ln col : Nat} {es : List Entry}, (∀ i ∈ is, NoControlMacro s.env i.text) →
    P.items s (itemToks P.src ln col is) = .ok (es, s1) → ∀ e ∈ es, CollectedIn s1 e.2.content := by
  induction is with
  | nil =>
    intro s s1 ln col es _ h
    cases h
    intro e he; cases he
  | cons i is ih =>
    intro s s1 ln col es hv h
    rw [itemToks, Parser.items] at h
    obtain ⟨r, h1, h2⟩ := bind_ok_except h
    obtain ⟨rs, h3, h4⟩ := bind_ok_except h2
    cases h4
    obtain ⟨q, h5, h6⟩ := bind_ok_except h1
    have o := inline_only h5
    cases hq : q.1.getLast? with
    | none => rw [hq] at h6; cases h6
    | some last =>
      rw [hq] at h6
      cases h6
      have oe : q.2.env = s.env := o.env
      have o2 := items_only h3
      have hc := ih (fun j hj => by dsimp only; rw [oe]; exact hv j (List.mem_cons_of_mem _ hj)) h3
      intro e he
      rcases List.mem_cons.1 he with rfl | he
      · exact CollectedIn.grow (inline_collects (hv i List.mem_cons_self) h5) o2.footnotes o2.links
      · exact hc e he

/-- C64 (partial): a list whose items contain no control macro. Every mention and every link in its items is collected, and stays collected. -/
theorem C64_list_partial {P : Parser} {ln col : Nat} {i : ItemLine} {is : List ItemLine} {rest : List Str} {s s' : DocSt}
    (hi : ∀ j ∈ i :: is, j.Ok ∧ i.mark.length ≤ j.mark.length) (hr : AfterList i.mark.length rest) (hv : ∀ j ∈ i :: is, NoControlMacro s.env j.text)
    (hk : Spec.allowed s = .ok true) (h : P.run ln col ((i :: is).map (·.line) ++ rest) s = .ok s') :
    ∃ s1 d ctx ns a labels, P.run (ln + (i :: is).length) 0 rest s1 = .ok s' ∧ s1.nodes = s.nodes ++ [Node.new d ctx ns a labels] ∧
      (∃ o st, d = .list o true st) ∧ (itemsOfAll ns).length = (i :: is).length ∧ ∀ n ∈ itemsOfAll ns, CollectedIn s' n.content := by
  obtain ⟨es, s1, ns, s2, h1, h2, h3, h4⟩ := list_success hi hr h
  obtain ⟨g1, g2, g3⟩ := items_nodes h1
  have o := items_only h1
  obtain ⟨r, h5, h6⟩ := bind_ok_except h3
  obtain ⟨c, h7, h8⟩ := bind_ok_except h6
  obtain ⟨keep, h9, h10⟩ := bind_ok_except h8
  cases h10
  have hkeep : Spec.allowed s = .ok keep := by
    have := o.allowed
    rw [← this]; exact h9
  rw [hk] at hkeep
  cases hkeep
  have hitems : itemsOfAll ns = es.map (·.2) := lists_items h2 g2
  have hc := items_collect hv h1
  refine ⟨_, .list (numbered (tokAt .LIST i.mark ln (col + i.indent.length) P.src)) true r.1, c, ns, args s1, s1.labelBuf, h4, ?_, ⟨_, _, rfl⟩, ?_, ?_⟩
  · change s1.nodes ++ _ = _
    rw [o.nodes]; rfl
  · rw [hitems, List.length_map]
    exact entriesOf_length g3
  · intro n hn
    rw [hitems] at hn
    obtain ⟨e, he, rfl⟩ := List.mem_map.1 hn
    exact run_collected h4 (CollectedIn.grow (hc e he) List.prefix_rfl List.prefix_rfl)

/-- C64 (partial): a label whose text contains no control macro. Every mention and every link in it is collected, and stays collected. -/
theorem C64_label_partial {P : Parser} {ln col : Nat} {role sp text : Str} {rest : List Str} {s s' : DocSt}
    (hl : SpecialLine ('.' :: role ++ sp ++ text) [.tok .LABEL ('.' :: role), .skip sp, .tok .TEXT text]) (hv : NoControlMacro s.env text)
    (h : P.run ln col (('.' :: role ++ sp ++ text) :: rest) s = .ok s') :
    ∃ s1 content, P.run (ln + 1) 0 rest s1 = .ok s' ∧
      Dict.get? s1.labelBuf (if role = [] then c%"title" else role) =
        some (Node.new (.label (if role = [] then c%"title" else role)) Context.empty content) ∧ CollectedIn s' content := by
  obtain ⟨s1, h1, h2⟩ := Reads.success (reads_label (P := P) (ln := ln) (col := col) (rest := rest) (s := s) hl) h
  obtain ⟨r, h3, h4⟩ := bind_ok_except h1
  cases h4
  refine ⟨_, r.1, h2, ?_, run_collected h2 (CollectedIn.grow (inline_collects hv h3) List.prefix_rfl List.prefix_rfl)⟩
  change Dict.get? (Dict.set _ _ _) _ = _
  rw [Dict.get?_set, if_pos rfl]

mutual
/-- The mentions of footnotes anywhere in the content of a node: name and footnote. -/
def Spec.mentionsIn : Node → List (Str × Option Nat)
  | .mk (.macroFootnote _ nm f) _ _ cs _ _ => (nm, f) :: mentionsInAll cs
  | .mk _ _ _ cs _ _ => mentionsInAll cs
/-- The same for lists of nodes. -/
def Spec.mentionsInAll : List Node → List (Str × Option Nat)
  | [] => []
  | n :: ns => mentionsIn n ++ mentionsInAll ns
end

/-- The mentions of a document. -/
def docMentions (x : Except Err DocSt) : Option (List (Str × Option Nat)) :=
  match x with
  | .ok s => some (mentionsInAll s.nodes)
  | .error _ => none

/-- The full C64 is false: a mention inside the text of another macro, or in the case of a control macro, stays without footnote, although
the footnote is defined (first and second document); if it is not defined, this is not reported (third document). -/
theorem C64_lost :
    docMentions (parseDoc {} 20 c%"[class](\"[footnote](a)\", c)\n\n[footnote=a]\n----\ntext\n----\n") = some [(c%"a", none)] ∧
    docMentions (parseDoc {} 20 c%":x:1\n[if:x==1](\"[footnote](a)\")\n\n[footnote=a]\n----\ntext\n----\n") = some [(c%"a", none)] ∧
    docMentions (parseDoc {} 20 c%"[class](\"[footnote](a)\", c)") = some [(c%"a", none)] := by
  decide +kernel

/-- In the text itself and in styles mentions get their footnotes. -/
example : docMentions (parseDoc {} 20 c%"x *[footnote](a)* [footnote](a)\n\n[footnote=a]\n----\ntext\n----\n") = some [(c%"a", some 3), (c%"a", some 3)] ∧
    docMentions (parseDoc {} 20 c%"x *[footnote](a)*") = none := by
  decide +kernel

/-- The hypotheses of `C64_paragraph_partial` hold for a line with a mention. -/
example : NoControlMacro [] c%"see *[footnote](a)*" := by
  refine ⟨_, fun l c src => C17_no_special [] c%"see *[footnote](a)*" (by unfold preSpecial; decide) (by decide) l c src, by decide, by decide⟩

end Mau
