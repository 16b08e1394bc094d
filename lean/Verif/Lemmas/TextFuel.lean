import Verif.Model.TextParser

set_option linter.unusedSimpArgs false

/-!
# The text parser without recursion budget

The functions of the text parser carry a recursion budget. They are monotone in it, so each call has
a limit (`sentence`, `item`, `styleP`, `macroP`, `strP`, `mainP`), which is the error `fuel` exactly
if the call never ends. The limits satisfy the defining equations without the budget.
-/

namespace Mau

/-- `f n` is `b` for all large `n`. -/
def Ev {β : Type} (f : Nat → β) (b : β) : Prop := ∃ N, ∀ n ≥ N, f n = b

theorem Ev.const {β : Type} (b : β) : Ev (fun _ => b) b := ⟨0, fun _ _ => rfl⟩

theorem Ev.unique {β : Type} {f : Nat → β} {a b : β} (h1 : Ev f a) (h2 : Ev f b) : a = b := by
  obtain ⟨N, h1⟩ := h1
  obtain ⟨M, h2⟩ := h2
  rw [← h1 (max N M) (by omega), h2 (max N M) (by omega)]

theorem Ev.shift {β : Type} {f : Nat → β} {b : β} : Ev (fun n => f (n + 1)) b ↔ Ev f b := by
  constructor
  · rintro ⟨N, h⟩
    refine ⟨N + 1, fun n hn => ?_⟩
    obtain ⟨m, rfl⟩ : ∃ m, n = m + 1 := ⟨n - 1, by omega⟩
    exact h m (by omega)
  · rintro ⟨N, h⟩
    exact ⟨N, fun n hn => h (n + 1) (by omega)⟩

theorem Ev.congr {β : Type} {f g : Nat → β} {b : β} (h : Ev f b) (hfg : ∀ n, f n = g n) : Ev g b := by
  have : f = g := funext hfg
  rwa [← this]

/-- `a` is the error `fuel` or equal to `b`. -/
def PRes.Le {σ α : Type} (a b : PRes σ α) : Prop := a = .err .fuel ∨ a = b

theorem PRes.Le.refl {σ α : Type} (a : PRes σ α) : a.Le a := .inr rfl

/-- The same for results of the main loop. -/
def exLe {α : Type} (a b : Except Err α) : Prop := a = .error .fuel ∨ a = b

/-- Pointwise order of parsing functions. -/
def PM.Le {α : Type} (x y : PM α) : Prop := ∀ s, (x s).Le (y s)

theorem PM.Le.refl {α : Type} (x : PM α) : PM.Le x x := fun _ => .inr rfl

theorem PM.Le.bind {α β : Type} {x x' : PM α} {f f' : α → PM β} (h1 : PM.Le x x') (h2 : ∀ a, PM.Le (f a) (f' a)) :
    PM.Le (x >>= f) (x' >>= f') := by
  intro s
  change (PM.bind x f s).Le (PM.bind x' f' s)
  unfold PM.bind
  rcases h1 s with h | h
  · rw [h]; exact .inl rfl
  · rw [h]
    cases x' s with
    | ok a s' => exact h2 a s'
    | fail s' => exact .inr rfl
    | err e => exact .inr rfl

theorem PM.Le.orElse {α : Type} {x x' y y' : PM α} (h1 : PM.Le x x') (h2 : PM.Le y y') :
    PM.Le (PM.orElse x y) (PM.orElse x' y') := by
  intro s
  unfold PM.orElse
  rcases h1 s with h | h
  · rw [h]; exact .inl rfl
  · rw [h]
    cases x' s with
    | ok a s' => exact .inr rfl
    | fail s' => exact h2 _
    | err e => exact .inr rfl

theorem PM.Le.ite {α : Type} {c : Prop} [Decidable c] {x x' y y' : PM α} (h1 : PM.Le x x') (h2 : PM.Le y y') :
    PM.Le (if c then x else y) (if c then x' else y') := by
  split
  · exact h1
  · exact h2

/-- Sub-parsers in order. -/
def SubLe (f g : Str → Context → PM (List Node)) : Prop := ∀ v c, PM.Le (f v c) (g v c)

theorem le_optSub {f g : Str → Context → PM (List Node)} (h : SubLe f g) (o : Option CtxText) (d : List Node) :
    PM.Le (textOr f o d) (textOr g o d) := by
  cases o with
  | none => exact .refl _
  | some t => exact h _ _

theorem macroDispatch_le {f g : Str → Context → PM (List Node)} (h : SubLe f g) (env : Env) (name : Token)
    (p : ParsedArgs) (ctx : Context) : PM.Le (macroDispatch env f name p ctx) (macroDispatch env g name p ctx) := by
  unfold macroDispatch
  refine .ite ?_ (.ite ?_ (.ite ?_ (.ite ?_ (.ite (.refl _) (.ite (.refl _) (.ite ?_ (.refl _)))))))
  · unfold macroControlFn
    refine .bind (.refl _) fun r => ?_
    cases r with
    | none => exact .refl _
    | some x => exact h _ _
  · exact .bind (.refl _) fun t => .bind (le_optSub h _ _) fun _ => .refl _
  · exact .bind (.refl _) fun t => .bind (.refl _) fun _ => .bind (le_optSub h _ _) fun _ => .refl _
  · exact .bind (.refl _) fun t => .bind (le_optSub h _ _) fun _ => .refl _
  · exact .bind (.refl _) fun t => .bind (h _ _) fun _ => .refl _

/-- All functions of the text parser are monotone in the budget. -/
theorem text_mono (env : Env) (n : Nat) :
    (∀ toks m, PM.Le (sentenceLoop env toks n m) (sentenceLoop env toks (n + 1) m)) ∧
    (∀ toks m, PM.Le (parseItem env toks n m) (parseItem env toks (n + 1) m)) ∧
    (∀ toks, PM.Le (parseStyle env toks n) (parseStyle env toks (n + 1))) ∧
    (∀ toks, PM.Le (parseMacro env toks n) (parseMacro env toks (n + 1))) ∧
    (SubLe (parseStr env n) (parseStr env (n + 1))) ∧
    (∀ toks last s acc, exLe (textMain env toks n last s acc) (textMain env toks (n + 1) last s acc)) := by
  induction n with
  | zero =>
    refine ⟨?_, ?_, ?_, ?_, ?_, ?_⟩
    · intro toks m s; left; rfl
    · intro toks m s; left; rfl
    · intro toks s; left; rfl
    · intro toks s; left; rfl
    · intro v c s; left; rfl
    · intro toks last s acc; left; rfl
  | succ n ih =>
    obtain ⟨i1, i2, i3, i4, i5, i6⟩ := ih
    refine ⟨?_, ?_, ?_, ?_, ?_, ?_⟩
    · intro toks m
      simp only [sentenceLoop]
      exact .bind (i2 toks m) fun ns => .ite (.refl _) (.bind (i1 toks m) fun _ => .refl _)
    · intro toks m
      simp only [parseItem]
      exact .bind (.refl _) fun t => .ite (.refl _) (.orElse (.refl _) (.orElse (i4 toks)
        (.orElse (.refl _) (.orElse (.refl _) (.orElse (i3 toks) (.refl _))))))
    · intro toks
      simp only [parseStyle]
      exact .bind (.refl _) fun o => .bind (i1 toks _) fun _ => .refl _
    · intro toks
      simp only [parseMacro]
      exact .bind (.refl _) fun x => macroDispatch_le i5 _ _ _ _
    · intro v c s
      simp only [parseStr]
      cases lexText (TextBuffer.ofText v c.startLine c.startColumn c.source) with
      | error e => exact .inr rfl
      | ok toks =>
        simp only
        rcases i6 toks initialLast { uid := s.uid } [] with h | h
        · rw [h]; exact .inl rfl
        · rw [h]; exact .inr rfl
    · intro toks last s acc
      simp only [textMain]
      cases TM.peekIs ⟨toks, s.next⟩ .EOF with
      | error e => exact .inr rfl
      | ok b =>
        cases b with
        | true => exact .inr rfl
        | false =>
          simp only
          cases TM.peek ⟨toks, s.next⟩ with
          | error e => exact .inr rfl
          | ok nextTok =>
            simp only
            split
            · exact .inr rfl
            · rcases i1 toks none s with h | h
              · rw [h]; exact .inl rfl
              · rw [h]
                cases sentenceLoop env toks (n + 1) none s with
                | ok ns s' => exact i6 _ _ _ _
                | fail s' => exact .inr rfl
                | err e => exact .inr rfl

theorem ev_of_mono {σ α : Type} {f : Nat → PRes σ α} (h : ∀ n, (f n).Le (f (n + 1))) : ∃ r, Ev f r := by
  by_cases hx : ∃ n, f n ≠ .err .fuel
  · obtain ⟨n, hn⟩ := hx
    refine ⟨f n, n, fun m hm => ?_⟩
    induction m with
    | zero => have : n = 0 := by omega
              rw [this]
    | succ m ih =>
      by_cases he : n = m + 1
      · rw [he]
      · have := ih (by omega)
        rcases h m with h1 | h1
        · rw [this] at h1; exact absurd h1 hn
        · rw [← h1, this]
  · refine ⟨.err .fuel, 0, fun m _ => ?_⟩
    exact Classical.byContradiction fun hne => hx ⟨m, hne⟩

theorem ev_of_mono' {α : Type} {f : Nat → Except Err α} (h : ∀ n, exLe (f n) (f (n + 1))) : ∃ r, Ev f r := by
  by_cases hx : ∃ n, f n ≠ .error .fuel
  · obtain ⟨n, hn⟩ := hx
    refine ⟨f n, n, fun m hm => ?_⟩
    induction m with
    | zero => have : n = 0 := by omega
              rw [this]
    | succ m ih =>
      by_cases he : n = m + 1
      · rw [he]
      · have := ih (by omega)
        rcases h m with h1 | h1
        · rw [this] at h1; exact absurd h1 hn
        · rw [← h1, this]
  · refine ⟨.error .fuel, 0, fun m _ => ?_⟩
    exact Classical.byContradiction fun hne => hx ⟨m, hne⟩

/-- A family of parsing functions has a limit at each state. -/
def EvPM {α : Type} (f : Nat → PM α) (g : PM α) : Prop := ∀ s, Ev (fun n => f n s) (g s)

theorem evPM_of_mono {α : Type} {f : Nat → PM α} (h : ∀ n, PM.Le (f n) (f (n + 1))) : ∃ g, EvPM f g := by
  have : ∀ s, ∃ r, Ev (fun n => f n s) r := fun s => ev_of_mono fun n => h n s
  exact ⟨fun s => (this s).choose, fun s => (this s).choose_spec⟩

/-- The limit of `_parse_sentence` (before words are grouped). -/
noncomputable def sentence (env : Env) (toks : List Token) (m : Option Str) : PM (List Node) :=
  (evPM_of_mono fun n => (text_mono env n).1 toks m).choose

/-- The limit of `_parse_text`. -/
noncomputable def item (env : Env) (toks : List Token) (m : Option Str) : PM (List Node) :=
  (evPM_of_mono fun n => (text_mono env n).2.1 toks m).choose

/-- The limit of `_parse_style`. -/
noncomputable def styleP (env : Env) (toks : List Token) : PM (List Node) :=
  (evPM_of_mono fun n => (text_mono env n).2.2.1 toks).choose

/-- The limit of `_parse_macro`. -/
noncomputable def macroP (env : Env) (toks : List Token) : PM (List Node) :=
  (evPM_of_mono fun n => (text_mono env n).2.2.2.1 toks).choose

/-- The limit of `lex_and_parse` inside macros. -/
noncomputable def strP (env : Env) (v : Str) (c : Context) : PM (List Node) :=
  (evPM_of_mono fun n => (text_mono env n).2.2.2.2.1 v c).choose

/-- The limit of the main loop. -/
noncomputable def mainP (env : Env) (toks : List Token) (last : Token) (s : TextSt) (acc : List Node) :
    Except Err (List Node × TextSt) :=
  (ev_of_mono' fun n => (text_mono env n).2.2.2.2.2 toks last s acc).choose

theorem sentence_ev (env : Env) (toks : List Token) (m : Option Str) :
    EvPM (fun n => sentenceLoop env toks n m) (sentence env toks m) :=
  (evPM_of_mono fun n => (text_mono env n).1 toks m).choose_spec

theorem item_ev (env : Env) (toks : List Token) (m : Option Str) :
    EvPM (fun n => parseItem env toks n m) (item env toks m) :=
  (evPM_of_mono fun n => (text_mono env n).2.1 toks m).choose_spec

theorem styleP_ev (env : Env) (toks : List Token) : EvPM (fun n => parseStyle env toks n) (styleP env toks) :=
  (evPM_of_mono fun n => (text_mono env n).2.2.1 toks).choose_spec

theorem macroP_ev (env : Env) (toks : List Token) : EvPM (fun n => parseMacro env toks n) (macroP env toks) :=
  (evPM_of_mono fun n => (text_mono env n).2.2.2.1 toks).choose_spec

theorem strP_ev (env : Env) (v : Str) (c : Context) : EvPM (fun n => parseStr env n v c) (strP env v c) :=
  (evPM_of_mono fun n => (text_mono env n).2.2.2.2.1 v c).choose_spec

theorem mainP_ev (env : Env) (toks : List Token) (last : Token) (s : TextSt) (acc : List Node) :
    Ev (fun n => textMain env toks n last s acc) (mainP env toks last s acc) :=
  (ev_of_mono' fun n => (text_mono env n).2.2.2.2.2 toks last s acc).choose_spec

theorem EvPM.const {α : Type} (x : PM α) : EvPM (fun _ => x) x := fun _ => .const _

theorem EvPM.unique {α : Type} {f : Nat → PM α} {x y : PM α} (h1 : EvPM f x) (h2 : EvPM f y) : x = y :=
  funext fun s => (h1 s).unique (h2 s)

theorem EvPM.shift {α : Type} {f : Nat → PM α} {x : PM α} (h : EvPM f x) : EvPM (fun n => f (n + 1)) x :=
  fun s => Ev.shift.2 (h s)

theorem EvPM.bind {α β : Type} {x : Nat → PM α} {x' : PM α} {f : Nat → α → PM β} {f' : α → PM β}
    (h1 : EvPM x x') (h2 : ∀ a, EvPM (fun n => f n a) (f' a)) : EvPM (fun n => x n >>= f n) (x' >>= f') := by
  intro s
  change Ev (fun n => PM.bind (x n) (f n) s) (PM.bind x' f' s)
  obtain ⟨N, hN⟩ := h1 s
  cases hr : x' s with
  | ok a s' =>
    obtain ⟨M, hM⟩ := h2 a s'
    refine ⟨max N M, fun n hn => ?_⟩
    simp only [PM.bind, hN n (by omega), hr]
    exact hM n (by omega)
  | fail s' => exact ⟨N, fun n hn => by simp only [PM.bind, hN n hn, hr]⟩
  | err e => exact ⟨N, fun n hn => by simp only [PM.bind, hN n hn, hr]⟩

theorem EvPM.orElse {α : Type} {x y : Nat → PM α} {x' y' : PM α} (h1 : EvPM x x') (h2 : EvPM y y') :
    EvPM (fun n => PM.orElse (x n) (y n)) (PM.orElse x' y') := by
  intro s
  obtain ⟨N, hN⟩ := h1 s
  cases hr : x' s with
  | ok a s' => exact ⟨N, fun n hn => by simp only [PM.orElse, hN n hn, hr]⟩
  | fail s' =>
    obtain ⟨M, hM⟩ := h2 { s' with next := s.next }
    refine ⟨max N M, fun n hn => ?_⟩
    simp only [PM.orElse, hN n (by omega), hr]
    exact hM n (by omega)
  | err e => exact ⟨N, fun n hn => by simp only [PM.orElse, hN n hn, hr]⟩

theorem EvPM.ite {α : Type} {c : Prop} [Decidable c] {x y : Nat → PM α} {x' y' : PM α} (h1 : EvPM x x') (h2 : EvPM y y') :
    EvPM (fun n => if c then x n else y n) (if c then x' else y') := by
  split
  · exact h1
  · exact h2

theorem evSub_opt {f : Nat → Str → Context → PM (List Node)} {g : Str → Context → PM (List Node)}
    (h : ∀ v c, EvPM (fun n => f n v c) (g v c)) (o : Option CtxText) (d : List Node) :
    EvPM (fun n => textOr (f n) o d) (textOr g o d) := by
  cases o with
  | none => exact .const _
  | some t => exact h _ _

theorem macroDispatch_ev {f : Nat → Str → Context → PM (List Node)} {g : Str → Context → PM (List Node)}
    (h : ∀ v c, EvPM (fun n => f n v c) (g v c)) (env : Env) (name : Token) (p : ParsedArgs) (ctx : Context) :
    EvPM (fun n => macroDispatch env (f n) name p ctx) (macroDispatch env g name p ctx) := by
  unfold macroDispatch
  refine .ite ?_ (.ite ?_ (.ite ?_ (.ite ?_ (.ite (.const _) (.ite (.const _) (.ite ?_ (.const _)))))))
  · unfold macroControlFn
    refine .bind (.const _) fun r => ?_
    cases r with
    | none => exact .const _
    | some x => exact h _ _
  · exact .bind (.const _) fun t => .bind (evSub_opt h _ _) fun _ => .const _
  · exact .bind (.const _) fun t => .bind (.const _) fun _ => .bind (evSub_opt h _ _) fun _ => .const _
  · exact .bind (.const _) fun t => .bind (evSub_opt h _ _) fun _ => .const _
  · exact .bind (.const _) fun t => .bind (h _ _) fun _ => .const _

/-! ## The equations -/

theorem sentence_eq (env : Env) (toks : List Token) (m : Option Str) :
    sentence env toks m = (do
      let ns ← item env toks m
      if ns.isEmpty then return []
      let rest ← sentence env toks m
      return ns ++ rest) := by
  refine (sentence_ev env toks m).shift.unique ?_
  simp only [sentenceLoop]
  exact .bind (item_ev env toks m) fun ns => .ite (.const _) (.bind (sentence_ev env toks m) fun _ => .const _)

theorem item_eq (env : Env) (toks : List Token) (m : Option Str) :
    item env toks m = (do
      let t ← PM.peek toks (·.peek)
      if sentenceStop m t then return []
      PM.orElse (parseBackslash toks) <|
      PM.orElse (macroP env toks) <|
      PM.orElse (parseVerbatim toks) <|
      PM.orElse (parseEscaped toks) <|
      PM.orElse (styleP env toks) <|
      parseWord toks) := by
  refine (item_ev env toks m).shift.unique ?_
  simp only [parseItem]
  exact .bind (.const _) fun t => .ite (.const _) (.orElse (.const _) (.orElse (macroP_ev env toks)
        (.orElse (.const _) (.orElse (.const _) (.orElse (styleP_ev env toks) (.const _))))))

theorem styleP_eq (env : Env) (toks : List Token) :
    styleP env toks = (do
      let o ← PM.tm toks (·.get (some .LITERAL) none (some fun v => (styleName v).isSome))
      let content ← sentence env toks (some o.value)
      let c ← PM.tm toks (·.get (some .LITERAL) (some o.value))
      return [Node.new (.style ((styleName o.value).getD [])) (o.ctx.merge c.ctx) (groupWords content)]) := by
  refine (styleP_ev env toks).shift.unique ?_
  simp only [parseStyle]
  exact .bind (.const _) fun o => .bind (sentence_ev env toks _) fun _ => .const _

theorem macroP_eq (env : Env) (toks : List Token) :
    macroP env toks = (do
      let (name, p, ctx) ← macroHead env toks
      macroDispatch env (strP env) name p ctx) := by
  refine (macroP_ev env toks).shift.unique ?_
  simp only [parseMacro]
  exact .bind (.const _) fun x => macroDispatch_ev (strP_ev env) _ _ _ _

theorem strP_eq (env : Env) (text : Str) (ctx : Context) :
    strP env text ctx = fun s =>
      match lexText (TextBuffer.ofText text ctx.startLine ctx.startColumn ctx.source) with
      | .error e => .err e
      | .ok toks =>
        match mainP env toks initialLast { uid := s.uid } [] with
        | .error e => .err e
        | .ok (ns, s') => .ok ns { s with uid := s'.uid } := by
  refine (strP_ev env text ctx).shift.unique ?_
  intro s
  simp only [parseStr]
  cases lexText (TextBuffer.ofText text ctx.startLine ctx.startColumn ctx.source) with
  | error e => exact .const _
  | ok toks =>
    obtain ⟨N, hN⟩ := mainP_ev env toks initialLast { uid := s.uid } []
    exact ⟨N, fun n hn => by simp only [hN n hn]; cases mainP env toks initialLast { uid := s.uid } [] <;> rfl⟩

theorem mainP_eq (env : Env) (toks : List Token) (last : Token) (s : TextSt) (acc : List Node) :
    mainP env toks last s acc =
      match TM.peekIs ⟨toks, s.next⟩ .EOF with
      | .error e => .error e
      | .ok true => .ok (acc, s)
      | .ok false =>
        match TM.peek ⟨toks, s.next⟩ with
        | .error e => .error e
        | .ok nextTok =>
          if nextTok = last then .error (.parser .parseLoop (some nextTok.ctx))
          else
            match sentence env toks none s with
            | .ok ns s' => mainP env toks nextTok s' (acc ++ groupWords ns)
            | .fail _ => .error (.parser .cannotParse (some nextTok.ctx))
            | .err e => .error e := by
  refine (Ev.shift.2 (mainP_ev env toks last s acc)).unique ?_
  simp only [textMain]
  cases TM.peekIs ⟨toks, s.next⟩ .EOF with
  | error e => exact .const _
  | ok b =>
    cases b with
    | true => exact .const _
    | false =>
      simp only
      cases TM.peek ⟨toks, s.next⟩ with
      | error e => exact .const _
      | ok nextTok =>
        simp only
        split
        · exact .const _
        · obtain ⟨N, hN⟩ := sentence_ev env toks none s
          simp only at hN
          cases hr : sentence env toks none s with
          | ok ns s' =>
            obtain ⟨M, hM⟩ := mainP_ev env toks nextTok s' (acc ++ groupWords ns)
            refine ⟨max N M, fun n hn => ?_⟩
            simp only [hN n (by omega), hr]
            exact hM n (by omega)
          | fail s' => exact ⟨N, fun n hn => by simp only [hN n hn, hr]⟩
          | err e => exact ⟨N, fun n hn => by simp only [hN n hn, hr]⟩

/-- What `TextParser.lex_and_parse` computes: the result for every large enough recursion budget. -/
noncomputable def textP (env : Env) (text : Str) (sl sc : Nat) (src : Option Str) (uid : Nat) : Except Err TextResult :=
  match lexText (TextBuffer.ofText text sl sc src) with
  | .error e => .error e
  | .ok toks =>
    match mainP env toks initialLast { uid := uid } [] with
    | .error e => .error e
    | .ok (ns, s) => .ok ⟨ns, s.footnoteMacros, s.headerLinks, s.uid, s.places⟩

theorem textP_ev (env : Env) (text : Str) (sl sc : Nat) (src : Option Str) (uid : Nat) :
    Ev (fun n => parseText n env text sl sc src uid) (textP env text sl sc src uid) := by
  unfold parseText textP
  cases lexText (TextBuffer.ofText text sl sc src) with
  | error e => exact .const _
  | ok toks =>
    obtain ⟨N, hN⟩ := mainP_ev env toks initialLast { uid := uid } []
    exact ⟨N, fun n hn => by simp only [hN n hn]; cases mainP env toks initialLast { uid := uid } [] <;> rfl⟩

end Mau
