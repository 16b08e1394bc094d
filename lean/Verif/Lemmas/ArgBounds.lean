import Verif.Lemmas.Bounds
import Verif.Lemmas.NoToken
import Verif.Lemmas.Dict

set_option linter.unusedSimpArgs false

/-!
# What the argument parser returns: the values are parts of the text, or come from an alias
-/

namespace Mau
open Spec

theorem occurs_left {x a b : Str} (h : MayOccur x a) : MayOccur x (a ++ b) := h.trans (.of_infix (List.infix_append' [] a b))
theorem occurs_right {x a b : Str} (h : MayOccur x b) : MayOccur x (a ++ b) := h.trans (.of_infix ⟨a, [], by simp⟩)

/-- Behind a test that does not move, or none. -/
theorem safe_peekTest {α : Type} {g1 g2 : TokFn α} {R : List Token → α → Prop} (ty : TokenType) (v : Option Str) (h1 : TokSafe g1 R) (h2 : TokSafe g2 R) :
    TokSafe (fun tm => do if ← tm.peekIs ty v then g1 tm else g2 tm) R :=
  .test (fun _ _ _ hat x hx => absurd hx (hat.peekIs_total ty v none x)) h1 h2

theorem safe_argValue : TokSafe argValue fun pre t => MayOccur t.value (toksText pre) := by
  refine safe_peekTest _ _ ?_ ?_
  · refine .bind (safe_lit _) fun p1 o h1 => ?_
    refine .bind (safe_collectJoin _ _) fun p2 t h2 => ?_
    refine .bind (safe_lit _) fun p3 c h3 => ?_
    refine (TokSafe.pure _).mono fun p4 b h4 => ?_
    rw [h4.2, toksText_append, toksText_append]
    exact occurs_right (occurs_left h2.2)
  · exact (safe_collectJoin _ _).mono fun p t h => h.2

theorem safe_opt (ty : TokenType) (v : Option Str) :
    TokSafe (fun tm => (do let tm ← optToken ty v tm; Pure.pure ((), tm) : Except Err (Unit × TM))) fun _ _ => True := by
  intro tm ts e hat
  obtain ⟨h1, h2⟩ := safe_get (some ty) v none tm ts e hat
  dsimp only
  have key : ∀ r, optToken ty v tm = .ok r → r.tokens = tm.tokens ∧ ∃ pre ts', ts = pre ++ ts' ∧ At r ts' e := by
    intro r hr
    unfold optToken at hr
    split at hr
    · rename_i a tm' hx
      cases hr
      obtain ⟨h3, pre, ts', h4, h5, _⟩ := h2 _ _ hx
      exact ⟨h3, pre, ts', h4, h5⟩
    · cases hr
      exact ⟨rfl, [], ts, rfl, hat⟩
    · cases hr
  have err : ∀ x, optToken ty v tm = .error x → x = .token ∨ x.isMau = true := by
    intro x hr
    unfold optToken at hr
    split at hr
    · cases hr
    · cases hr
    · rename_i y _ hx
      cases hr
      exact h1 _ hx
  cases hx : optToken ty v tm with
  | ok r =>
    obtain ⟨h3, pre, ts', h4, h5⟩ := key r hx
    refine ⟨fun x hy => (by cases hy), fun a' tm'' hy => ?_⟩
    cases hy
    exact ⟨h3, pre, ts', h4, h5, trivial⟩
  | error x => exact ⟨fun y hy => (by cases hy; exact err x hx), fun a' tm'' hy => (by cases hy)⟩

theorem safe_opt_then {α : Type} (ty : TokenType) (v : Option Str) {g : TokFn α} {R : List Token → α → Prop} (h : ∀ p, TokSafe g fun q b => R (p ++ q) b) :
    TokSafe (fun tm => do let tm ← optToken ty v tm; g tm) R := by
  have := TokSafe.bind (k := fun x => g x.2) (safe_opt ty v) (R := R) fun p _ _ => h p
  intro tm ts e hat
  have h2 := this tm ts e hat
  dsimp only at h2
  dsimp only
  cases hx : optToken ty v tm with
  | ok r => rw [hx] at h2; exact h2
  | error x => rw [hx] at h2; exact h2

/-- The values of arguments, named or not. -/
def ArgItem.text : ArgItem → Str
  | .named _ n => n.value
  | .unnamed n => n.value

theorem strip_infix (s : Str) : strip s <:+: s := by
  unfold strip rstrip lstrip
  refine List.IsInfix.trans ?_ (List.dropWhile_suffix isPySpace).isInfix
  rw [← List.reverse_infix, List.reverse_reverse]
  exact (List.dropWhile_suffix _).isInfix

theorem safe_namedArgument : TokSafe namedArgument fun pre i => MayOccur i.text (toksText pre) := by
  unfold namedArgument
  refine .bind safe_text fun p1 k h1 => ?_
  refine .bind (safe_lit _) fun p2 o h2 => ?_
  refine .bind safe_argValue fun p3 t h3 => ?_
  refine safe_opt_then _ _ fun p4 => ?_
  refine safe_opt_then _ _ fun p5 => ?_
  refine (TokSafe.pure _).mono fun p6 b h => ?_
  rw [h.2]
  simp only [toksText_append]
  exact occurs_right (occurs_right (occurs_left ((MayOccur.of_infix (strip_infix _)).trans h3)))

theorem safe_unnamedArgument (on : Bool) : TokSafe (unnamedArgument on) fun pre i => MayOccur i.text (toksText pre) := by
  cases on with
  | true =>
    have : unnamedArgument true = fun _ => .error (.parser msgUnnamedAfterNamed none) := rfl
    rw [this]
    exact .error rfl _
  | false =>
    unfold unnamedArgument
    refine TokSafe.bind (f := argValue) safe_argValue fun p3 t h3 => ?_
    refine safe_opt_then _ _ fun p4 => ?_
    refine safe_opt_then _ _ fun p5 => ?_
    refine (TokSafe.pure _).mono fun p6 b h => ?_
    rw [h.2]
    simp only [toksText_append]
    exact occurs_left h3

theorem safe_tryFns {α : Type} {R : List Token → α → Prop} (next : Token) (fs : List (TokFn α)) (h : ∀ f ∈ fs, TokSafe f R) : TokSafe (tryFns next fs) R := by
  induction fs with
  | nil => exact .error rfl _
  | cons f fs ih =>
    intro tm ts e hat
    obtain ⟨h1, h2⟩ := h f (by simp) tm ts e hat
    obtain ⟨h3, h4⟩ := ih (fun g hg => h g (by simp [hg])) tm ts e hat
    unfold tryFns
    cases hx : f tm with
    | ok r =>
      refine ⟨fun x hy => (by cases hy), fun a tm' hy => ?_⟩
      cases hy
      exact h2 _ _ hx
    | error x =>
      rcases h1 x hx with rfl | hm
      · exact ⟨h3, h4⟩
      · cases x with
        | token => cases hm
        | py => cases hm
        | unmodelled => cases hm
        | fuel => cases hm
        | lexer => exact ⟨fun x hy => (by cases hy; exact .inr hm), fun a' tm'' hy => (by cases hy)⟩
        | parser => exact ⟨fun x hy => (by cases hy; exact .inr hm), fun a' tm'' hy => (by cases hy)⟩
        | visitor => exact ⟨fun x hy => (by cases hy; exact .inr hm), fun a' tm'' hy => (by cases hy)⟩

theorem at_peek {tm tm' : TM} {ts : List Token} {e : Token} (h : At tm ts e) (h' : At tm' ts e) : tm.peek = tm'.peek := by
  cases ts with
  | nil => rw [h.peek_nil, h'.peek_nil]
  | cons t ts => rw [h.peek_cons, h'.peek_cons]

/-- The loop of a parser ends, with a Mau error or with values satisfying the functions' conditions. -/
theorem parseLoop_safe {α : Type} {fs : List α → List (TokFn α)} {R : List Token → α → Prop} (hfs : ∀ acc, ∀ f ∈ fs acc, TokSafe f R) (n : Nat) :
    ∀ (tm : TM) (ts : List Token) (e last : Token) (acc : List α), At tm ts e → (ts.length + 2 ≤ n ∨ 1 ≤ n ∧ tm.peek = .ok last) →
      (∀ x, parseLoop fs n last tm acc = .error x → x.isMau = true) ∧
      ∀ out, parseLoop fs n last tm acc = .ok out → ∃ new, out = acc ++ new ∧ ∀ a ∈ new, ∃ pre, pre <:+: ts ∧ R pre a := by
  induction n with
  | zero => intro tm ts e last acc hat hn; exfalso; omega
  | succ n ih =>
    intro tm ts e last acc hat hn
    unfold parseLoop
    cases h1 : tm.peekIs .EOF with
    | error x => exact absurd h1 (hat.peekIs_total _ _ _ _)
    | ok b =>
      cases b with
      | true =>
        simp only [Bind.bind, Except.bind, if_true, Pure.pure, Except.pure]
        refine ⟨fun x h => (by cases h), fun out h => ⟨[], ?_, by simp⟩⟩
        cases h; simp
      | false =>
        simp only [Bind.bind, Except.bind, Bool.false_eq_true, if_false]
        cases h2 : tm.peek with
        | error x =>
          have := hat.peek_error h2
          subst this
          exact absurd h2 (nt_peek tm)
        | ok t =>
          dsimp only
          by_cases hl : t = last
          · simp only [if_pos hl]
            exact ⟨fun x h => (by cases h; rfl), fun out h => (by cases h)⟩
          · simp only [if_neg hl]
            have hlen : ts.length + 2 ≤ n + 1 := by
              rcases hn with hn | ⟨_, hp⟩
              · exact hn
              · rw [h2] at hp; cases hp; exact absurd rfl hl
            obtain ⟨h3, h4⟩ := safe_tryFns t (fs acc) (hfs acc) tm ts e hat
            cases h5 : tryFns t (fs acc) tm with
            | error x =>
              dsimp only
              refine ⟨fun y h => ?_, fun out h => (by cases h)⟩
              cases h
              rcases h3 x h5 with rfl | hm
              · exact absurd h5 (nt_tryFns t (fs acc) tm)
              · exact hm
            | ok r =>
              obtain ⟨a, tm'⟩ := r
              obtain ⟨_, pre, ts', h6, h7, h8⟩ := h4 a tm' h5
              dsimp only
              have hnext : ts'.length + 2 ≤ n ∨ 1 ≤ n ∧ tm'.peek = .ok t := by
                cases pre with
                | nil => right; exact ⟨by omega, by rw [← h2]; exact at_peek h7 (by rw [h6] at hat; exact hat)⟩
                | cons p ps => left; rw [h6] at hlen; simp at hlen; omega
              obtain ⟨h9, h10⟩ := ih tm' ts' e t (acc ++ [a]) h7 hnext
              refine ⟨h9, fun out h => ?_⟩
              obtain ⟨new, h11, h12⟩ := h10 out h
              refine ⟨a :: new, by rw [h11]; simp, ?_⟩
              intro b hb
              rcases List.mem_cons.1 hb with rfl | hb
              · exact ⟨pre, ⟨[], ts', by simp [h6]⟩, h8⟩
              · obtain ⟨q, hq, hr⟩ := h12 b hb
                exact ⟨q, hq.trans ⟨pre, [], by simp [h6]⟩, hr⟩

/-! ## Texts and their tokens -/

theorem kept_infix (l : Str) : keptLine l <:+: l := by
  unfold keptLine
  split
  · exact List.infix_refl _
  · obtain ⟨sp, _, h⟩ := dropTrailing_split l
    exact ⟨[], sp, h.symm⟩

theorem flatten_lines (ls : List Str) : ((ls.map keptLine).flatten).Sublist (joinWith ['\n'] ls) := by
  induction ls with
  | nil => exact List.nil_sublist _
  | cons l ls ih =>
    cases ls with
    | nil => simpa [joinWith] using (kept_infix l).sublist
    | cons m ms =>
      rw [joinWith_cons_of_ne (by simp), List.map_cons, List.flatten_cons]
      have := (kept_infix l).sublist.append (ih.trans (List.sublist_cons_self '\n' _))
      simpa using this

theorem kept_mayOccur (text : Str) : MayOccur ((Spec.lines text).map keptLine).flatten text := by
  unfold Spec.lines
  split
  · exact ⟨List.nil_sublist _, fun _ _ => List.nil_infix⟩
  · refine ⟨?_, fun _ hn => ?_⟩
    · have := flatten_lines (splitChar '\n' text)
      rwa [join_split] at this
    · rw [splitChar_of_not_mem hn]
      simpa using kept_infix text

theorem lexText_toks (text : Str) (sl sc : Nat) (src : Option Str) :
    ∃ init e, lexText (TextBuffer.ofText text sl sc src) = .ok (init ++ [e]) ∧ e.type = .EOF ∧ e.value = [] ∧ MayOccur (toksText init) text := by
  obtain ⟨init, e, h1, h2, h3, _⟩ := inlineTokens_ends textCuts src (Spec.lines text) sl sc
  obtain ⟨ts, h4, h5⟩ := C06_text_lossless text sl sc src
  have he : ts = init ++ [e] := by
    rw [lexText_eq, h1] at h4; injection h4 with h4; exact h4.symm
  refine ⟨init, e, by rw [h4, he], h2, h3, ?_⟩
  have : toksText init = ((Spec.lines text).map keptLine).flatten := by
    rw [← h5, he]; simp [toksText, h3]
  rw [this]
  exact kept_mayOccur text

theorem lexArgs_toks (text : Str) (sl sc : Nat) (src : Option Str) :
    ∃ init e, lexArgs (TextBuffer.ofText text sl sc src) = .ok (init ++ [e]) ∧ e.type = .EOF ∧ e.value = [] ∧ MayOccur (toksText init) text := by
  obtain ⟨init, e, h1, h2, h3, _⟩ := inlineTokens_ends argsCuts src (Spec.lines text) sl sc
  obtain ⟨ts, h4, h5⟩ := C06_arguments_lossless text sl sc src
  have he : ts = init ++ [e] := by
    rw [lexArgs_eq, h1] at h4; injection h4 with h4; exact h4.symm
  refine ⟨init, e, by rw [h4, he], h2, h3, ?_⟩
  have : toksText init = ((Spec.lines text).map keptLine).flatten := by
    rw [← h5, he]; simp [toksText, h3]
  rw [this]
  exact kept_mayOccur text

theorem infix_toksText {a b : List Token} (h : a <:+: b) : toksText a <:+: toksText b := by
  obtain ⟨p, q, rfl⟩ := h
  exact ⟨toksText p, toksText q, by simp⟩

/-- The items of an argument list are parts of it. -/
theorem args_items (text : Str) (sl sc : Nat) (src : Option Str) :
    ∃ ts, lexArgs (TextBuffer.ofText text sl sc src) = .ok ts ∧
      (∀ x, parseLoop argFns (ts.length + 2) initialLast { tokens := ts } [] = .error x → x.isMau = true) ∧
      ∀ items, parseLoop argFns (ts.length + 2) initialLast { tokens := ts } [] = .ok items → ∀ i ∈ items, MayOccur i.text text := by
  obtain ⟨init, e, h1, h2, h3, h4⟩ := lexArgs_toks text sl sc src
  refine ⟨_, h1, ?_⟩
  have hfs : ∀ (acc : List ArgItem), ∀ f ∈ argFns acc, TokSafe f fun pre i => MayOccur i.text (toksText pre) := by
    intro acc f hf
    simp only [argFns, List.mem_cons, List.not_mem_nil, or_false] at hf
    rcases hf with rfl | rfl
    · exact safe_namedArgument
    · exact safe_unnamedArgument _
  have := parseLoop_safe hfs ((init ++ [e]).length + 2) { tokens := init ++ [e] } init e initialLast [] (At.start init e ⟨h2, h3⟩) (.inl (by simp))
  refine ⟨this.1, fun items hi i hm => ?_⟩
  obtain ⟨new, hn, hr⟩ := this.2 items hi
  rw [List.nil_append] at hn
  subst hn
  obtain ⟨pre, hp, ho⟩ := hr i hm
  exact ho.trans ((MayOccur.of_infix (infix_toksText hp)).trans h4)

/-! ## Arguments -/

/-- The values of the arguments. -/
def ParsedArgs.Has (p : ParsedArgs) (v : Str) : Prop := (∃ n ∈ p.unnamed, n.value = v) ∨ ∃ kn ∈ p.named, kn.2.value = v

theorem namedOf_mem (items : List ArgItem) : ∀ kn ∈ namedOf items, ∃ i ∈ items, i.text = kn.2.value := by
  have : ∀ (l : List ArgItem) (d : Dict CtxText), (∀ kn ∈ d, ∃ i ∈ items, i.text = kn.2.value) → (∀ i ∈ l, i ∈ items) →
      ∀ kn ∈ l.foldl (fun d i => match i with | .named k n => Dict.set d k n | .unnamed _ => d) d, ∃ i ∈ items, i.text = kn.2.value := by
    intro l
    induction l with
    | nil => intro d hd _; exact hd
    | cons i l ih =>
      intro d hd hl
      refine ih _ ?_ (fun j hj => hl j (by simp [hj]))
      cases i with
      | unnamed n => exact hd
      | named k n =>
        intro kn hk
        rcases Dict.mem_set hk with rfl | hk
        · exact ⟨_, hl (.named k n) (by simp), rfl⟩
        · exact hd kn hk
  exact this items [] (by simp) (fun _ h => h)

theorem isoPass_value (c : Char) (mark : IsoNode → IsoNode) (hm : ∀ n, (mark n).node = n.node) (n : IsoNode) :
    (isoPass c mark n).node.value <:+ n.node.value := by
  unfold isoPass
  split
  · rename_i d rest h
    split
    · rw [hm, h]; exact List.suffix_cons _ _
    · exact List.suffix_refl _
  · exact List.suffix_refl _

theorem isoPass_alias (c : Char) (mark : IsoNode → IsoNode) (hm : ∀ n, (mark n).isAlias = n.isAlias) (n : IsoNode) :
    (isoPass c mark n).isAlias = n.isAlias := by
  unfold isoPass
  split
  · split
    · rw [hm]
    · rfl
  · rfl

/-- What isolation leaves: parts of the unnamed values; an alias had the sign `@`. -/
theorem isolate_bounds {u : List CtxText} {n : Dict CtxText} :
    (∀ x, isolate u n = .error x → x.isMau = true) ∧ ∀ p, isolate u n = .ok p → p.named = n ∧
      (∀ m ∈ p.unnamed, ∃ m0 ∈ u, m.value <:+ m0.value) ∧ ∀ m, p.alias = some m → ∃ m0 ∈ u, m.value <:+ m0.value ∧ '@' ∈ m0.value := by
  have hval : ∀ l : List CtxText, ∀ m ∈ ((((l.map fun n => ({ node := n } : IsoNode)).map
      (isoPass '#' fun n => { n with isTag := true })).map (isoPass '*' fun n => { n with isSubtype := true })).map
        (isoPass '@' fun n => { n with isAlias := true })), ∃ m0 ∈ l, m.node.value <:+ m0.value ∧ (m.isAlias = true → '@' ∈ m0.value) := by
    intro l m hm
    obtain ⟨m3, hm3, e3⟩ := List.mem_map.1 hm
    obtain ⟨m2, hm2, e2⟩ := List.mem_map.1 hm3
    obtain ⟨m1, hm1, e1⟩ := List.mem_map.1 hm2
    obtain ⟨m0, h0, e0⟩ := List.mem_map.1 hm1
    have v1 : m2.node.value <:+ m1.node.value := e1 ▸ isoPass_value '#' (fun n => { n with isTag := true }) (fun _ => rfl) m1
    have v2 : m3.node.value <:+ m2.node.value := e2 ▸ isoPass_value '*' (fun n => { n with isSubtype := true }) (fun _ => rfl) m2
    have v3 : m.node.value <:+ m3.node.value := e3 ▸ isoPass_value '@' (fun n => { n with isAlias := true }) (fun _ => rfl) m3
    have a0 : m1.isAlias = false := by rw [← e0]
    have a1 : m2.isAlias = false := by rw [← e1, isoPass_alias '#' (fun n => { n with isTag := true }) (fun _ => rfl)]; exact a0
    have a2 : m3.isAlias = false := by rw [← e2, isoPass_alias '*' (fun n => { n with isSubtype := true }) (fun _ => rfl)]; exact a1
    have v0 : m1.node.value = m0.value := by rw [← e0]
    rw [v0] at v1
    refine ⟨m0, h0, v3.trans (v2.trans v1), fun ha => ?_⟩
    rw [← e3] at ha
    unfold isoPass at ha
    split at ha
    · rename_i c rest hv
      split at ha
      · rename_i hc
        subst hc
        exact (v2.trans v1).mem (by rw [hv]; simp)
      · rw [a2] at ha; cases ha
    · rw [a2] at ha; cases ha
  unfold isolate
  dsimp only
  split
  · exact ⟨fun x h => (by cases h; rfl), fun p h => (by cases h)⟩
  · split
    · exact ⟨fun x h => (by cases h; rfl), fun p h => (by cases h)⟩
    · refine ⟨fun x h => (by cases h), fun p h => ?_⟩
      cases h
      refine ⟨rfl, ?_, ?_⟩
      · intro m hm
        obtain ⟨q, hq, rfl⟩ := List.mem_map.1 hm
        obtain ⟨m0, h0, h1, _⟩ := hval u q (List.mem_filter.1 hq).1
        exact ⟨m0, h0, h1⟩
      · intro m hm
        have hm' := List.mem_of_mem_head? hm
        obtain ⟨q, hq, rfl⟩ := List.mem_map.1 hm'
        obtain ⟨m0, h0, h1, h2⟩ := hval u q (List.mem_filter.1 hq).1
        exact ⟨m0, h0, h1, h2 (by simpa using (List.mem_filter.1 hq).2)⟩

theorem setNames_mem {α : Type} (u : List α) (n : Dict α) (names : List Str) :
    (∀ x ∈ (setNames u n names).1, x ∈ u) ∧ ∀ kn ∈ (setNames u n names).2, kn ∈ n ∨ kn.2 ∈ u := by
  unfold setNames
  refine ⟨fun x hx => List.mem_of_mem_drop hx, fun kn hk => ?_⟩
  rcases Dict.mem_update hk with hk | hk
  · exact .inl hk
  · rcases Dict.mem_update hk with hk | hk
    · cases hk
    · exact .inr (List.of_mem_zip hk).2

theorem has_setNames {p : ParsedArgs} {names : List Str} {k : Str} {n : CtxText} (h : Dict.get? (p.setNames names).named k = some n) : p.Has n.value := by
  have := Dict.mem_of_get? h
  rcases (setNames_mem p.unnamed p.named names).2 _ this with h | h
  · exact .inr ⟨_, h, rfl⟩
  · exact .inl ⟨_, h, rfl⟩

theorem applyAlias_has {p : ParsedArgs} {al : CtxText} {a : Alias} {missing : List Str} {v : Str} (h : (applyAlias p al a missing).Has v) :
    p.Has v ∨ ∃ k, Dict.get? a.args k = some v := by
  have hfold : ∀ (l : List Str) (d : Dict CtxText), (∀ kn ∈ d, kn ∈ p.named ∨ ∃ k, Dict.get? a.args k = some kn.2.value) →
      ∀ kn ∈ l.foldl (fun d k => match Dict.get? a.args k with | some v => Dict.set d k ⟨v, al.ctx⟩ | none => d) d,
        kn ∈ p.named ∨ ∃ k, Dict.get? a.args k = some kn.2.value := by
    intro l
    induction l with
    | nil => intro d hd; exact hd
    | cons k l ih =>
      intro d hd
      refine ih _ ?_
      cases hk : Dict.get? a.args k with
      | none => simp only [hk]; exact hd
      | some w =>
        simp only [hk]
        intro kn hkn
        rcases Dict.mem_set hkn with rfl | hkn
        · exact .inr ⟨k, hk⟩
        · exact hd kn hkn
  have hn := hfold missing p.named (fun kn hk => .inl hk)
  unfold applyAlias at h
  dsimp only at h
  rcases h with ⟨n, hm, rfl⟩ | ⟨kn, hm, rfl⟩
  · exact .inl (.inl ⟨n, (setNames_mem _ _ _).1 n hm, rfl⟩)
  · rcases (setNames_mem _ _ _).2 kn hm with hm | hm
    · rcases hn kn hm with hm | hm
      · exact .inl (.inr ⟨kn, hm, rfl⟩)
      · exact .inr hm
    · exact .inl (.inl ⟨_, hm, rfl⟩)

/-- C22/C35: the values of parsed arguments are parts of the text, or come from an alias named in it; errors are Mau errors, or come from looking up an alias. -/
theorem parseArgs_bounds (env : Env) (text : Str) (sl sc : Nat) (src : Option Str) :
    (∀ x, parseArgs env text sl sc src = .error x → x.isMau = true ∨ ('@' ∈ text ∧ ∃ name, MayOccur name text ∧ lookupAlias env name = .error x)) ∧
    ∀ p, parseArgs env text sl sc src = .ok p → ∀ v, p.Has v →
      MayOccur v text ∨ ('@' ∈ text ∧ ∃ name a k, lookupAlias env name = .ok a ∧ Dict.get? a.args k = some v) := by
  obtain ⟨ts, h1, h2, h3⟩ := args_items text sl sc src
  unfold parseArgs
  rw [h1]
  simp only [Bind.bind, Except.bind]
  suffices hs : (∀ x, parseArgTokens env ts = .error x → x.isMau = true ∨ ('@' ∈ text ∧ ∃ name, MayOccur name text ∧ lookupAlias env name = .error x)) ∧
      ∀ p, parseArgTokens env ts = .ok p → ∀ v, p.Has v →
        MayOccur v text ∨ ('@' ∈ text ∧ ∃ name a k, lookupAlias env name = .ok a ∧ Dict.get? a.args k = some v) by
    unfold locateArgs
    cases hp : parseArgTokens env ts with
    | ok p => exact ⟨fun x h => (by cases h), fun q h => (by cases h; exact hs.2 _ hp)⟩
    | error e =>
      refine ⟨fun x h => ?_, fun q h => (by cases hd : ts.head? <;> rw [hd] at h <;> cases h)⟩
      have hx : x = e ∨ e.isMau = true ∧ x.isMau = true := by
        split at h
        · rename_i e' t he _
          cases he
          injection h with h
          subst h
          cases e <;> first | exact .inl rfl | (rename_i c; cases c <;> exact .inr ⟨rfl, rfl⟩)
        · cases h; exact .inl rfl
      rcases hx with rfl | ⟨_, hx⟩
      · exact hs.1 _ hp
      · exact .inl hx
  unfold parseArgTokens
  simp only [Bind.bind, Except.bind]
  cases h4 : parseLoop argFns (ts.length + 2) initialLast { tokens := ts } [] with
  | error x => exact ⟨fun y h => (by cases h; exact .inl (h2 _ h4)), fun p h => (by cases h)⟩
  | ok items =>
    have hi := h3 items h4
    dsimp only
    have hun : ∀ m ∈ unnamedOf items, MayOccur m.value text := by
      intro m hm
      unfold unnamedOf at hm
      obtain ⟨i, hi1, hi2⟩ := List.mem_filterMap.1 hm
      cases i with
      | named => cases hi2
      | unnamed n => cases hi2; exact hi _ hi1
    have hna : ∀ kn ∈ namedOf items, MayOccur kn.2.value text := by
      intro kn hk
      obtain ⟨i, h5, h6⟩ := namedOf_mem items kn hk
      rw [← h6]; exact hi i h5
    obtain ⟨h5, h6⟩ := isolate_bounds (u := unnamedOf items) (n := namedOf items)
    unfold isolateTagsAndSubtype
    cases h7 : isolate (unnamedOf items) (namedOf items) with
    | error x => exact ⟨fun y h => (by cases h; exact .inl (h5 _ h7)), fun p h => (by cases h)⟩
    | ok q =>
      obtain ⟨e1, e2, e3⟩ := h6 q h7
      have hq : ∀ v, q.Has v → MayOccur v text := by
        rintro v (⟨m, hm, rfl⟩ | ⟨kn, hk, rfl⟩)
        · obtain ⟨m0, h0, h8⟩ := e2 m hm
          exact (MayOccur.of_infix h8.isInfix).trans (hun m0 h0)
        · rw [e1] at hk; exact hna kn hk
      simp only [Bind.bind, Except.bind]
      cases h8 : q.alias with
      | none =>
        refine ⟨fun y h => (by cases h), fun p h => ?_⟩
        cases h
        exact fun v hv => .inl (hq v hv)
      | some al =>
        obtain ⟨m0, h9, h10, h11⟩ := e3 al h8
        have hat : '@' ∈ text := (hun m0 h9).mem h11
        dsimp only
        cases h12 : lookupAlias env al.value with
        | error x =>
          refine ⟨fun y h => ?_, fun p h => (by cases h)⟩
          cases h
          exact .inr ⟨hat, al.value, (MayOccur.of_infix h10.isInfix).trans (hun m0 h9), h12⟩
        | ok a =>
          refine ⟨fun y h => (by cases h), fun p h => ?_⟩
          cases h
          intro v hv
          rcases applyAlias_has hv with hv | ⟨k, hk⟩
          · exact .inl (hq v hv)
          · exact .inr ⟨hat, al.value, a, k, h12, hk⟩

end Mau
