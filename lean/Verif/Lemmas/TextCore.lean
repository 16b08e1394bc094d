import Verif.Lemmas.Core

set_option linter.unusedSimpArgs false

/-!
# The text parser keeps the invariant of identities
-/

namespace Mau
open Spec

/-- A node without identity that is not a header. -/
structure Plain (n : Node) : Prop where
  id : n.data.id = 0
  noHeader : ∀ l nm, n.data ≠ .header 0 l none nm
  free : ∀ objs, Resolves objs n.data

/-- The nodes `ns` are among `pn` or are built from them without identities. -/
def Builds (pn ns : List Node) : Prop := ∀ n ∈ ns, n ∈ pn ∨ Plain n ∧ ∀ c ∈ kids n, c ∈ pn

theorem Core.builds {objs : List Node} {lo uid : Nat} {res : List Nat} {reg : List (Nat × Tag)} {tops rest pn ns : List Node} (h : Core objs lo uid res reg tops (pn ++ rest))
    (hb : Builds pn ns) : Core objs lo uid res reg tops (ns ++ rest) := by
  have key : Core objs lo uid res reg tops (ns ++ (pn ++ rest)) := by
    induction ns with
    | nil => exact h
    | cons n ns ih =>
      have hi := ih fun m hm => hb m (List.mem_cons_of_mem _ hm)
      rcases hb n List.mem_cons_self with hn | ⟨hp, hk⟩
      · refine hi.forget ?_
        intro m hm
        rcases List.mem_cons.1 hm with rfl | hm
        · exact List.mem_append_right _ (List.mem_append_left _ hn)
        · exact hm
      · exact hi.build (fun c hc => List.mem_append_right _ (List.mem_append_left _ (hk c hc))) hp.id hp.noHeader (hp.free _)
  refine key.forget ?_
  intro m hm
  rcases List.mem_append.1 hm with hm | hm
  · exact List.mem_append_left _ hm
  · exact List.mem_append_right _ (List.mem_append_right _ hm)

theorem builds_nil {pn : List Node} : Builds pn [] := fun _ h => nomatch h

theorem builds_one {pn : List Node} {n : Node} (hp : Plain n) (hk : ∀ c ∈ kids n, c ∈ pn) : Builds pn [n] := by
  intro m hm
  rw [List.mem_singleton] at hm
  subst hm
  exact .inr ⟨hp, hk⟩

theorem builds_sub {pn ns : List Node} (h : ∀ n ∈ ns, n ∈ pn) : Builds pn ns := fun n hn => .inl (h n hn)

theorem kids_new {d : NodeData} {ctx : Context} {cs : List Node} {a : NodeArgs} {ls : List (Str × Node)} :
    kids (Node.new d ctx cs a ls) = cs ++ ls.map (·.2) := by
  unfold kids Node.new
  simp only [Node.content, Node.labels, Node.extra, List.append_nil]

/-- A new node of a class without identity. -/
theorem builds_new {pn : List Node} {d : NodeData} {ctx : Context} {cs : List Node} {a : NodeArgs} {ls : List (Str × Node)} (hid : d.id = 0)
    (hh : ∀ l nm, d ≠ .header 0 l none nm) (hcs : ∀ c ∈ cs, c ∈ pn) (hls : ∀ c ∈ ls.map (·.2), c ∈ pn)
    (hr : ∀ objs, Resolves objs d := by intro _; trivial) : Builds pn [Node.new d ctx cs a ls] := by
  refine builds_one ⟨hid, hh, hr⟩ ?_
  intro c hc
  rw [kids_new] at hc
  rcases List.mem_append.1 hc with hc | hc
  · exact hcs c hc
  · exact hls c hc

/-- The registrations made by a text parser. -/
def treg (s : TextSt) : List (Nat × Tag) := s.footnoteMacros.map (fun e => (e.1, .mention e.2)) ++ s.headerLinks.map (fun e => (e.1, .link e.2))

theorem treg_header {s : TextSt} {i l : Nat} : (i, Tag.header l) ∉ treg s := by
  unfold treg
  simp

/-- A function of the text parser that starts with the trees `pn` and delivers the trees `N a`. -/
def PGood {α : Type} (objs : List Node) (lo : Nat) (pn : List Node) (f : PM α) (N : α → List Node) : Prop :=
  ∀ st res reg tops rest, Core objs lo st.uid res (reg ++ treg st) tops (pn ++ rest) →
    (∀ a st', f st = .ok a st' → Core objs lo st'.uid res (reg ++ treg st') tops (N a ++ rest)) ∧
    ∀ st', f st = .fail st' → Core objs lo st'.uid res (reg ++ treg st') tops rest

namespace PGood
variable {α β : Type} {objs : List Node} {lo : Nat} {pn : List Node}

theorem drop {objs : List Node} {lo uid : Nat} {res : List Nat} {reg : List (Nat × Tag)} {tops rest pn : List Node} (h : Core objs lo uid res reg tops (pn ++ rest)) :
    Core objs lo uid res reg tops rest := h.forget fun _ hm => List.mem_append_right _ hm

theorem pure {a : α} {N : α → List Node} (h : Builds pn (N a)) : PGood objs lo pn (Pure.pure a : PM α) N := by
  intro st res reg tops rest hc
  exact ⟨by intro _ _ h'; cases h'; exact hc.builds h, by intro _ h'; cases h'⟩

theorem bind {f : PM α} {g : α → PM β} {N : α → List Node} {M : β → List Node} (hf : PGood objs lo pn f N) (hg : ∀ a, PGood objs lo (N a) (g a) M) :
    PGood objs lo pn (f >>= g) M := by
  intro st res reg tops rest hc
  change (∀ a s', PM.bind f g st = .ok a s' → _) ∧ ∀ s', PM.bind f g st = .fail s' → _
  unfold PM.bind
  cases hx : f st with
  | ok a s1 =>
    have h1 := (hf st res reg tops rest hc).1 _ _ hx
    exact hg a s1 res reg tops rest h1
  | fail s1 => exact ⟨(by intro _ _ h; cases h), (by intro _ h; cases h; exact (hf st res reg tops rest hc).2 _ hx)⟩
  | err e => exact ⟨(by intro _ _ h; cases h), (by intro _ h; cases h)⟩

/-- Carry other trees along. -/
theorem frame {f : PM α} {N : α → List Node} (qn : List Node) (h : PGood objs lo pn f N) : PGood objs lo (pn ++ qn) f (fun a => N a ++ qn) := by
  intro st res reg tops rest hc
  rw [List.append_assoc] at hc
  have := h st res reg tops (qn ++ rest) hc
  refine ⟨fun a st' ha => ?_, fun st' ha => drop (this.2 st' ha)⟩
  rw [List.append_assoc]
  exact this.1 a st' ha

theorem frame0 {f : PM α} {N : α → List Node} (qn : List Node) (h : PGood objs lo [] f N) : PGood objs lo qn f (fun a => N a ++ qn) := frame qn h

theorem weaken {f : PM α} {N N' : α → List Node} (h : PGood objs lo pn f N) (hN : ∀ a, ∀ n ∈ N' a, n ∈ N a) : PGood objs lo pn f N' := by
  intro st res reg tops rest hc
  have := h st res reg tops rest hc
  refine ⟨fun a st' ha => (this.1 a st' ha).forget ?_, this.2⟩
  intro m hm
  rcases List.mem_append.1 hm with hm | hm
  · exact List.mem_append_left _ (hN a m hm)
  · exact List.mem_append_right _ hm

theorem pre {f : PM α} {N : α → List Node} {pn' : List Node} (h : PGood objs lo pn f N) (hp : ∀ n ∈ pn, n ∈ pn') : PGood objs lo pn' f N := by
  intro st res reg tops rest hc
  refine h st res reg tops rest (hc.forget ?_)
  intro m hm
  rcases List.mem_append.1 hm with hm | hm
  · exact List.mem_append_left _ (hp m hm)
  · exact List.mem_append_right _ hm

theorem raise (e : Err) {N : α → List Node} : PGood objs lo pn (PM.raise e : PM α) N := by
  intro st res reg tops rest hc
  cases e <;> exact ⟨(by intro _ _ h; cases h), (by intro _ h; cases h; try exact drop hc)⟩

theorem lift (x : Except Err α) {N : α → List Node} (h : ∀ a, x = .ok a → Builds pn (N a)) : PGood objs lo pn (PM.lift x) N := by
  intro st res reg tops rest hc
  unfold PM.lift
  split
  · exact ⟨(by intro _ _ h'; cases h'; exact hc.builds (h _ rfl)), (by intro _ h; cases h)⟩
  · exact ⟨(by intro _ _ h; cases h), (by intro _ h; cases h; exact drop hc)⟩
  · exact ⟨(by intro _ _ h; cases h), (by intro _ h; cases h)⟩

theorem tm {toks : List Token} (f : TM → Except Err (α × TM)) : PGood objs lo pn (PM.tm toks f) (fun _ => pn) := by
  intro st res reg tops rest hc
  unfold PM.tm
  split
  · exact ⟨(by intro _ _ h; cases h; exact hc), (by intro _ h; cases h)⟩
  · exact ⟨(by intro _ _ h; cases h), (by intro _ h; cases h; exact drop hc)⟩
  · exact ⟨(by intro _ _ h; cases h), (by intro _ h; cases h)⟩

theorem peek {toks : List Token} (f : TM → Except Err α) : PGood objs lo pn (PM.peek toks f) (fun _ => pn) := by
  intro st res reg tops rest hc
  unfold PM.peek
  split
  · exact ⟨(by intro _ _ h; cases h; exact hc), (by intro _ h; cases h)⟩
  · exact ⟨(by intro _ _ h; cases h), (by intro _ h; cases h; exact drop hc)⟩
  · exact ⟨(by intro _ _ h; cases h), (by intro _ h; cases h)⟩

theorem ite {c : Prop} [Decidable c] {f g : PM α} {N : α → List Node} (hf : PGood objs lo pn f N) (hg : PGood objs lo pn g N) : PGood objs lo pn (if c then f else g) N := by
  split
  · exact hf
  · exact hg

theorem orElse {f g : PM α} {N : α → List Node} (hf : PGood objs lo [] f N) (hg : PGood objs lo [] g N) : PGood objs lo [] (PM.orElse f g) N := by
  intro st res reg tops rest hc
  unfold PM.orElse
  cases hx : f st with
  | ok a s1 => exact ⟨(by intro _ _ h; cases h; exact (hf st res reg tops rest hc).1 _ _ hx), (by intro _ h; cases h)⟩
  | fail s1 =>
    have h1 := (hf st res reg tops rest hc).2 _ hx
    exact hg { s1 with next := st.next } res reg tops rest h1
  | err e => exact ⟨(by intro _ _ h; cases h), (by intro _ h; cases h)⟩

theorem mandatory (p : ParsedArgs) (key : Str) (m : Msg) (ctx : Context) : PGood objs lo pn (Mau.mandatory p key m ctx) (fun _ => pn) := by
  unfold Mau.mandatory
  cases Dict.get? p.named key with
  | some n => exact pure (builds_sub fun _ h => h)
  | none => exact raise _

/-- The nodes of a text. -/
theorem textOr {sub : Str → Context → PM (List Node)} (hs : ∀ t c, PGood objs lo [] (sub t c) id) (o : Option CtxText) {default : List Node}
    (hd : Builds [] default) : PGood objs lo [] (Mau.textOr sub o default) id := by
  unfold Mau.textOr
  cases o with
  | some t => exact hs _ _
  | none => exact pure hd

end PGood

/-! ## The macros -/

section
variable {objs : List Node} {lo : Nat} {sub : Str → Context → PM (List Node)} (hs : ∀ t c, PGood objs lo [] (sub t c) id)
include hs

theorem good_macroLink (p : ParsedArgs) (ctx : Context) : PGood objs lo [] (macroLinkFn sub p ctx) id := by
  unfold macroLinkFn
  refine .bind (.mandatory _ _ _ _) fun t => .bind (.textOr hs _ ?_) fun ns => .pure ?_
  · exact builds_new rfl (by intro l nm h; cases h) (by simp) (by simp)
  · exact builds_new rfl (by intro l nm h; cases h) (fun c hc => hc) (by simp)

theorem good_macroMailto (p : ParsedArgs) (ctx : Context) : PGood objs lo [] (macroMailtoFn sub p ctx) id := by
  unfold macroMailtoFn
  refine .bind (.mandatory _ _ _ _) fun t => .bind (.textOr hs _ ?_) fun ns => .pure ?_
  · exact builds_new rfl (by intro l nm h; cases h) (by simp) (by simp)
  · exact builds_new rfl (by intro l nm h; cases h) (fun c hc => hc) (by simp)

theorem good_macroClass (p : ParsedArgs) (ctx : Context) : PGood objs lo [] (macroClassFn sub p ctx) id := by
  unfold macroClassFn
  refine .bind (.mandatory _ _ _ _) fun t => .bind (hs _ _) fun ns => .pure ?_
  exact builds_new rfl (by intro l nm h; cases h) (fun c hc => hc) (by simp)

theorem good_macroControl (env : Env) (name : Token) (p : ParsedArgs) (ctx : Context) : PGood objs lo [] (macroControlFn env sub name p ctx) id := by
  unfold macroControlFn
  refine .bind (N := fun _ => []) (.lift _ fun _ _ => builds_nil) fun r => ?_
  cases r with
  | none => exact .pure builds_nil
  | some v => exact hs _ _

theorem good_macroHeader (p : ParsedArgs) (ctx : Context) : PGood objs lo [] (macroHeaderFn sub p ctx) id := by
  unfold macroHeaderFn
  refine .bind (.mandatory _ _ _ _) fun t => ?_
  intro st res reg tops rest hc
  change (∀ a s', PM.bind PM.fresh _ st = .ok a s' → _) ∧ ∀ s', PM.bind PM.fresh _ st = .fail s' → _
  unfold PM.bind PM.fresh
  dsimp only
  have h1 := hc.fresh
  change (∀ a s', PM.bind _ _ _ = .ok a s' → _) ∧ ∀ s', PM.bind _ _ _ = .fail s' → _
  unfold PM.bind
  have h2 := PGood.textOr hs (Dict.get? (ParsedArgs.setNames p [c%"header_id", c%"text"]).named c%"text") (default := []) builds_nil
    { st with uid := st.uid + 1 } (st.uid :: res) reg tops rest h1
  cases hx : textOr sub (Dict.get? (ParsedArgs.setNames p [c%"header_id", c%"text"]).named c%"text") [] { st with uid := st.uid + 1 } with
  | ok ns s1 =>
    refine ⟨?_, by intro _ h; cases h⟩
    intro a s' h
    cases h
    have h3 := h2.1 _ _ hx
    have h4 := h3.use (n := Node.new (.macroHeader st.uid t.value none) ctx ns) (t := .link t.value) (by
      intro c hc; rw [kids_new] at hc; simp only [List.map_nil, List.append_nil] at hc; exact List.mem_append_left _ hc) rfl ⟨_, rfl⟩ (by simp)
    refine h4.mono ?_ ?_ (fun _ h => List.mem_append_left _ h) ?_
    · intro e he
      simp only [treg, List.map_append, List.mem_append, List.map_cons, List.map_nil, List.mem_cons, List.not_mem_nil, or_false] at he ⊢
      rcases he with he | he | he | he
      · exact .inr (.inl he)
      · exact .inr (.inr (.inl he))
      · exact .inr (.inr (.inr he))
      · exact .inl he
    · intro i l hi
      simp only [treg, List.map_append, List.mem_append, List.map_cons, List.map_nil, List.mem_cons, List.not_mem_nil, or_false] at hi ⊢
      rcases hi with hi | hi | hi | hi
      · cases hi
      · exact .inl hi
      · exact .inr (.inl hi)
      · exact .inr (.inr (.inl hi))
    · intro m hm
      simp only [id, List.mem_append, List.mem_cons, List.not_mem_nil, or_false] at hm ⊢
      rcases hm with hm | hm
      · exact .inl hm
      · exact .inr (.inr hm)
  | fail s1 =>
    refine ⟨(by intro _ _ h; cases h), ?_⟩
    intro s' h
    cases h
    exact (h2.2 _ hx).release (List.sublist_cons_self _ _)
  | err e => exact ⟨(by intro _ _ h; cases h), (by intro _ h; cases h)⟩

omit hs in
theorem good_macroFootnote (p : ParsedArgs) (ctx : Context) : PGood objs lo [] (macroFootnoteFn p ctx) id := by
  unfold macroFootnoteFn
  refine .bind (.mandatory _ _ _ _) fun t => ?_
  intro st res reg tops rest hc
  change (∀ a s', PM.bind PM.fresh _ st = .ok a s' → _) ∧ ∀ s', PM.bind PM.fresh _ st = .fail s' → _
  unfold PM.bind PM.fresh
  dsimp only
  refine ⟨?_, by intro _ h; cases h⟩
  intro a s' h
  cases h
  have h4 := hc.fresh.use (n := Node.new (.macroFootnote st.uid t.value none) ctx) (t := .mention t.value) (by
    intro c hc; rw [kids_new] at hc; cases hc) rfl ⟨_, rfl⟩ (by simp)
  refine h4.mono ?_ ?_ (fun _ h => List.mem_append_left _ h) ?_
  · intro e he
    simp only [treg, List.map_append, List.mem_append, List.map_cons, List.map_nil, List.mem_cons, List.not_mem_nil, or_false] at he ⊢
    rcases he with he | (he | he) | he
    · exact .inr (.inl he)
    · exact .inr (.inr (.inl he))
    · exact .inl he
    · exact .inr (.inr (.inr he))
  · intro i l hi
    simp only [treg, List.map_append, List.mem_append, List.map_cons, List.map_nil, List.mem_cons, List.not_mem_nil, or_false] at hi ⊢
    rcases hi with hi | hi | hi | hi
    · cases hi
    · exact .inl hi
    · exact .inr (.inl (.inl hi))
    · exact .inr (.inr hi)
  · intro m hm
    simpa using hm

theorem good_dispatch (env : Env) (name : Token) (p : ParsedArgs) (ctx : Context) : PGood objs lo [] (macroDispatch env sub name p ctx) id := by
  unfold macroDispatch
  refine .ite (good_macroControl hs _ _ _ _) (.ite (good_macroLink hs _ _) (.ite (good_macroHeader hs _ _) (.ite (good_macroMailto hs _ _) (.ite ?_
    (.ite (good_macroFootnote _ _) (.ite (good_macroClass hs _ _) (.ite ?_ (.ite ?_ (.pure ?_)))))))))
  · unfold macroImageFn
    exact .bind (.mandatory _ _ _ _) fun t => .pure (builds_new rfl (by intro l nm h; cases h) (by simp) (by simp))
  · unfold macroUnicodeFn
    exact .bind (.mandatory _ _ _ _) fun t => .pure (builds_new rfl (by intro l nm h; cases h) (by simp) (by simp))
  · unfold macroRawFn
    exact .bind (.mandatory _ _ _ _) fun t => .pure (builds_new rfl (by intro l nm h; cases h) (by simp) (by simp))
  · exact builds_new rfl (by intro l nm h; cases h) (by simp) (by simp)

end

/-! ## Sentences -/

theorem groupWordsAux_mem : ∀ (ns : List Node) (cur : Option (Str × Context × Context)), ∀ n ∈ groupWordsAux cur ns,
    n ∈ ns ∨ ∃ v c, n = Node.new (.text v) c := by
  intro ns
  induction ns with
  | nil =>
    intro cur n hn
    rcases cur with _ | ⟨v, c0, c1⟩
    · cases hn
    · rw [groupWordsAux, List.mem_singleton] at hn
      exact .inr ⟨_, _, hn⟩
  | cons m ns ih =>
    intro cur n hn
    have step : ∀ cur', n ∈ groupWordsAux cur' ns → n ∈ m :: ns ∨ ∃ v c, n = Node.new (.text v) c := by
      intro cur' h
      rcases ih _ n h with h | h
      · exact .inl (List.mem_cons_of_mem _ h)
      · exact .inr h
    unfold groupWordsAux at hn
    split at hn
    · cases hn
    · simp at hn; exact .inr ⟨_, _, hn⟩
    · rename_i e; cases e; exact step _ hn
    · rename_i e; cases e; exact step _ hn
    · rename_i e
      cases e
      rcases List.mem_cons.1 hn with rfl | hn
      · exact .inl List.mem_cons_self
      · exact step _ hn
    · rename_i e
      cases e
      rcases List.mem_cons.1 hn with rfl | hn
      · exact .inr ⟨_, _, rfl⟩
      · rcases List.mem_cons.1 hn with rfl | hn
        · exact .inl List.mem_cons_self
        · exact step _ hn

theorem builds_groupWords {pn ns : List Node} (h : ∀ n ∈ ns, n ∈ pn) : Builds pn (groupWords ns) := by
  intro n hn
  rcases groupWordsAux_mem ns none n hn with hn | ⟨v, c, rfl⟩
  · exact .inl (h n hn)
  · exact .inr ⟨⟨rfl, (by intro l nm h; cases h), fun _ => trivial⟩, by rw [kids_new]; intro c hc; cases hc⟩

theorem good_text {objs : List Node} {lo : Nat} {env : Env} (n : Nat) :
    (∀ toks m, PGood objs lo [] (sentenceLoop env toks n m) id) ∧ (∀ toks m, PGood objs lo [] (parseItem env toks n m) id) ∧
    (∀ toks, PGood objs lo [] (parseStyle env toks n) id) ∧ (∀ toks, PGood objs lo [] (parseMacro env toks n) id) ∧
    (∀ t c, PGood objs lo [] (parseStr env n t c) id) ∧
    (∀ toks last st res reg tops rest acc ns st', Core objs lo st.uid res (reg ++ treg st) tops (acc ++ rest) → textMain env toks n last st acc = .ok (ns, st') →
      Core objs lo st'.uid res (reg ++ treg st') tops (ns ++ rest)) := by
  induction n with
  | zero =>
    refine ⟨fun _ _ => ?_, fun _ _ => ?_, fun _ => ?_, fun _ => ?_, fun _ _ => ?_, ?_⟩
    · unfold sentenceLoop; exact .raise _
    · unfold parseItem; exact .raise _
    · unfold parseStyle; exact .raise _
    · unfold parseMacro; exact .raise _
    · unfold parseStr; exact .raise _
    · intro toks last st res reg tops rest acc ns st' _ h; unfold textMain at h; cases h
  | succ n ih =>
    obtain ⟨i1, i2, i3, i4, i5, i6⟩ := ih
    have leaf : ∀ {d : NodeData} {c : Context}, d.id = 0 → (∀ l nm, d ≠ .header 0 l none nm) → (∀ objs, Resolves objs d) → Builds [] [Node.new d c] :=
      fun h1 h2 h3 => builds_new h1 h2 (by simp) (by simp) h3
    refine ⟨fun toks m => ?_, fun toks m => ?_, fun toks => ?_, fun toks => ?_, fun t c => ?_, ?_⟩
    · unfold sentenceLoop
      refine .bind (i2 toks m) fun ns => .ite (.pure builds_nil) ?_
      refine .bind (.frame0 ns (i1 toks m)) fun r => .pure (builds_sub ?_)
      intro x hx
      simp only [id, List.mem_append] at hx ⊢
      exact hx.symm
    · unfold parseItem
      refine .bind (.peek _) fun t => .ite (.pure builds_nil) ?_
      refine .orElse (.bind (.tm _) fun _ => .bind (.tm _) fun _ => .pure (leaf rfl (by intro l nm h; cases h) fun _ => trivial)) (.orElse (i4 toks) ?_)
      refine .orElse (.bind (.tm _) fun _ => .bind (.tm _) fun _ => .bind (.tm _) fun _ => .pure (leaf rfl (by intro l nm h; cases h) fun _ => trivial)) ?_
      refine .orElse (.bind (.tm _) fun _ => .bind (.tm _) fun _ => .bind (.tm _) fun _ => .pure (leaf rfl (by intro l nm h; cases h) fun _ => trivial)) ?_
      exact .orElse (i3 toks) (.bind (.tm _) fun _ => .pure (leaf rfl (by intro l nm h; cases h) fun _ => trivial))
    · unfold parseStyle
      refine .bind (.tm _) fun o => .bind (i1 _ _) fun content => .bind (.tm _) fun c => ?_
      intro st res reg tops rest hc
      refine ⟨?_, by intro _ h; cases h⟩
      intro a st' h
      cases h
      have h1 := hc.builds (builds_groupWords (pn := id content) (ns := content) fun _ h => h)
      exact h1.builds (builds_new rfl (by intro l nm h; cases h) (fun _ h => h) (by simp))
    · unfold parseMacro
      refine .bind (N := fun _ => []) ?_ fun x => ?_
      · unfold macroHead
        exact .bind (.tm _) fun _ => .bind (.tm _) fun _ => .bind (.tm _) fun _ => .bind (.tm _) fun _ => .bind (.tm _) fun _ => .bind (.tm _) fun _ =>
          .bind (N := fun _ => []) (.lift _ fun _ _ => builds_nil) fun _ => .pure builds_nil
      · exact good_dispatch i5 _ _ _ _
    · intro st res reg tops rest hc
      unfold parseStr
      split
      · exact ⟨(by intro _ _ h; cases h), (by intro _ h; cases h)⟩
      · split
        · exact ⟨(by intro _ _ h; cases h), (by intro _ h; cases h)⟩
        · rename_i ns s' hm
          refine ⟨?_, by intro _ h; cases h⟩
          intro a st' h
          cases h
          have h1 := i6 _ _ { uid := st.uid } res (reg ++ treg st) tops rest [] _ _ (by simpa [treg] using hc) hm
          refine h1.mono ?_ ?_ (fun _ h => List.mem_append_left _ h) (fun _ h => h)
          · exact fun e he => List.mem_append_left _ he
          · intro i l hi
            rcases List.mem_append.1 hi with hi | hi
            · exact hi
            · exact absurd hi treg_header
    · intro toks last st res reg tops rest acc ns st' hc h
      unfold textMain at h
      split at h
      · cases h
      · cases h; exact hc
      · split at h
        · cases h
        · split at h
          · cases h
          · split at h
            · rename_i ns1 s1 hs
              have h1 := (i1 toks none st res reg tops (acc ++ rest) hc).1 _ _ hs
              have h2 := h1.builds (builds_groupWords (pn := id ns1) (ns := ns1) fun _ h => h)
              refine i6 _ _ _ _ _ _ _ _ _ _ (h2.forget ?_) h
              intro m hm
              simp only [List.mem_append] at hm ⊢
              rcases hm with (hm | hm) | hm
              · exact .inr (.inl hm)
              · exact .inl hm
              · exact .inr (.inr hm)
            · cases h
            · cases h

/-- Parsing a text keeps the invariant. -/
theorem core_parseText {objs : List Node} {lo fuel uid : Nat} {env : Env} {text : Str} {sl sc : Nat} {src : Option Str} {r : TextResult} {res : List Nat} {reg : List (Nat × Tag)}
    {tops rest : List Node} (hc : Core objs lo uid res reg tops rest) (h : parseText fuel env text sl sc src uid = .ok r) :
    Core objs lo r.uid res (reg ++ r.footnoteMacros.map (fun e => (e.1, .mention e.2)) ++ r.headerLinks.map (fun e => (e.1, .link e.2))) tops (r.nodes ++ rest) := by
  unfold parseText at h
  split at h
  · cases h
  · split at h
    · cases h
    · rename_i ns s hm
      cases h
      have := (good_text (objs := objs) (lo := lo) (env := env) fuel).2.2.2.2.2 _ _ { uid := uid } res reg tops rest [] _ _ (by simpa [treg] using hc) hm
      rw [List.append_assoc]
      exact this

end Mau
