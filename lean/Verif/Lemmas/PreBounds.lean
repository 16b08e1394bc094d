import Verif.Lemmas.TextErrs

set_option linter.unusedSimpArgs false

/-!
# The errors and the characters of the preprocessor

Preprocessing fails with Mau errors only, and the characters of its result come from the text and from the values of variables.
-/

namespace Mau
open Spec

theorem cutLine_chars (cut : Cutter) (n : Nat) : ∀ s, ∀ c ∈ piecesText (cutLine cut n s), c ∈ s := by
  induction n with
  | zero => intro s c hc; simp [cutLine, piecesText] at hc
  | succ n ih =>
    intro s c hc
    unfold cutLine at hc
    split at hc
    · simp [piecesText] at hc
    · simp only [piecesText, List.map_cons, List.flatten_cons, List.mem_append, pieceText] at hc
      rcases hc with hc | hc
      · exact List.mem_of_mem_take hc
      · exact List.mem_of_mem_drop (ih _ c hc)

theorem place_chars (ln : Nat) (src : Option Str) (ps : List Piece) : ∀ col, ∀ t ∈ place ln src col ps, ∀ c ∈ t.value, c ∈ piecesText ps := by
  induction ps with
  | nil => intro col t ht; cases ht
  | cons p ps ih =>
    intro col t ht c hc
    simp only [piecesText, List.map_cons, List.flatten_cons, List.mem_append]
    cases p with
    | tok ty v =>
      simp only [place, List.mem_cons] at ht
      rcases ht with rfl | ht
      · exact .inl hc
      · exact .inr (ih _ t ht c hc)
    | skip v => exact .inr (ih _ t ht c hc)

/-- The characters of the tokens are characters of the lines. -/
theorem inlineTokens_chars (cut : Cutter) (src : Option Str) (ls : List Str) : ∀ ln col, ∀ t ∈ inlineTokens cut src ln col ls, ∀ c ∈ t.value, ∃ l ∈ ls, c ∈ l := by
  induction ls with
  | nil =>
    intro ln col t ht c hc
    simp only [inlineTokens, List.mem_singleton] at ht
    subst ht
    cases hc
  | cons l rest ih =>
    intro ln col t ht c hc
    have later : t ∈ inlineTokens cut src (ln + 1) 0 rest → ∃ l' ∈ l :: rest, c ∈ l' := by
      intro h
      obtain ⟨l', h1, h2⟩ := ih _ _ t h c hc
      exact ⟨l', List.mem_cons_of_mem _ h1, h2⟩
    simp only [inlineTokens] at ht
    split at ht
    · split at ht
      · simp only [List.mem_singleton] at ht
        subst ht
        cases hc
      · simp only [List.mem_cons] at ht
        rcases ht with rfl | ht
        · exact ⟨l, List.mem_cons_self, hc⟩
        · exact later ht
    · simp only [List.mem_append] at ht
      rcases ht with ht | ht
      · exact ⟨l, List.mem_cons_self, cutLine_chars cut _ l c (place_chars _ _ _ _ t ht c hc)⟩
      · split at ht
        · simp only [List.mem_singleton] at ht
          subst ht
          cases hc
        · exact later ht

theorem lines_chars {text l : Str} (hl : l ∈ Spec.lines text) {c : Char} (hc : c ∈ l) : c ∈ text := by
  unfold Spec.lines at hl
  split at hl
  · cases hl
  · have : ∀ (s : Str), ∀ l ∈ splitChar '\n' s, ∀ c ∈ l, c ∈ s := by
      intro s
      induction s with
      | nil => intro l hl c hc; simp [splitChar] at hl; subst hl; cases hc
      | cons a s ih =>
        intro l hl c hc
        unfold splitChar at hl
        split at hl
        · simp only [List.mem_cons] at hl
          rcases hl with rfl | hl
          · cases hc
          · exact List.mem_cons_of_mem _ (ih l hl c hc)
        · revert hl
          cases hs : splitChar '\n' s with
          | nil =>
            intro hl
            simp only [List.mem_singleton] at hl
            subst hl
            simp only [List.mem_singleton] at hc
            subst hc
            exact List.mem_cons_self
          | cons x xs =>
            intro hl
            simp only [List.mem_cons] at hl
            rcases hl with rfl | hl
            · simp only [List.mem_cons] at hc
              rcases hc with rfl | hc
              · exact List.mem_cons_self
              · exact List.mem_cons_of_mem _ (ih x (by rw [hs]; simp) c hc)
            · exact List.mem_cons_of_mem _ (ih l (by rw [hs]; simp [hl]) c hc)
    exact this text l hl c hc

theorem lexPre_toks (text : Str) (sl sc : Nat) (src : Option Str) :
    ∃ init e, lexPre (TextBuffer.ofText text sl sc src) = .ok (init ++ [e]) ∧ e.type = .EOF ∧ e.value = [] ∧ ∀ c ∈ toksText init, c ∈ text := by
  obtain ⟨init, e, h1, h2, h3, _⟩ := inlineTokens_ends preCuts src (Spec.lines text) sl sc
  refine ⟨init, e, by rw [lexPre_eq, h1], h2, h3, fun c hc => ?_⟩
  simp only [toksText, List.mem_flatten, List.mem_map] at hc
  obtain ⟨_, ⟨t, ht, rfl⟩, hc⟩ := hc
  obtain ⟨l, hl, hcl⟩ := inlineTokens_chars preCut src (Spec.lines text) sl sc t (by rw [h1]; simp [ht]) c hc
  exact lines_chars hl hcl

/-- The character comes from the value of a variable. -/
def InValue (env : Env) (c : Char) : Prop := ∃ kv ∈ env, c ∈ kv.2.pyStr

/-- The result comes from the tokens and the variables. -/
def FromToks (env : Env) (pre : List Token) (a : CtxText) : Prop := ∀ c ∈ a.value, c ∈ toksText pre ∨ InValue env c

theorem mem_toksText {ts : List Token} {t : Token} (ht : t ∈ ts) {c : Char} (hc : c ∈ t.value) : c ∈ toksText ts := by
  simp only [toksText, List.mem_flatten, List.mem_map]
  exact ⟨_, ⟨t, ht, rfl⟩, hc⟩

theorem safe_preEscapedChar (env : Env) : TokSafe preEscapedChar (FromToks env) := by
  unfold preEscapedChar
  refine .bind (safe_lit _) fun p1 b h1 => ?_
  refine .bind (safe_get none none none) fun p2 ch h2 => ?_
  refine (TokSafe.pure _).mono fun p3 a h3 => ?_
  obtain ⟨rfl, rfl⟩ := h3
  intro c hc
  left
  have hch : c ∈ ch.value → c ∈ toksText (p1 ++ (p2 ++ [])) := by
    intro hc
    rcases h2.2 with rfl | ⟨_, _, h⟩
    · exact mem_toksText (t := ch) (by simp) hc
    · rw [h] at hc; cases hc
  dsimp only at hc
  split at hc
  · exact hch hc
  · simp only [List.mem_cons] at hc
    rcases hc with rfl | hc
    · exact mem_toksText (t := b) (by rw [h1.1]; simp) (by rw [h1.2]; simp)
    · exact hch hc

theorem safe_preVerbatim (env : Env) : TokSafe preVerbatim (FromToks env) := by
  unfold preVerbatim
  refine .bind (safe_lit _) fun p1 o h1 => ?_
  refine .bind (safe_collectJoin _ _) fun p2 t h2 => ?_
  refine .bind (safe_lit _) fun p3 k h3 => ?_
  refine (TokSafe.pure _).mono fun p4 a h4 => ?_
  obtain ⟨rfl, rfl⟩ := h4
  intro c hc
  left
  have ho : '`' ∈ toksText (p1 ++ (p2 ++ (p3 ++ []))) := mem_toksText (t := o) (by rw [h1.1]; simp) (by rw [h1.2]; simp)
  simp only [List.mem_append, List.mem_singleton] at hc
  rcases hc with (rfl | hc) | rfl
  · exact ho
  · simp only [toksText_append, List.mem_append]
    exact .inr (.inl (h2.2.mem hc))
  · exact ho

theorem safe_preCurly (env : Env) : TokSafe (preCurly env) (FromToks env) := by
  unfold preCurly
  refine .bind (safe_lit _) fun p1 o h1 => ?_
  refine .bind (safe_collectJoin _ _) fun p2 t h2 => ?_
  refine .bind (safe_lit _) fun p3 k h3 => ?_
  dsimp only
  split
  · intro tm ts e hat
    cases hx : tm.peekIs .LITERAL (some ['}']) with
    | error x => exact absurd hx (hat.peekIs_total _ _ none x)
    | ok r =>
      simp only [hx, Bind.bind, Except.bind]
      cases r with
      | false => exact TokSafe.error (by rfl) _ tm ts e hat
      | true =>
        refine TokSafe.bind (k := fun x => Pure.pure (⟨t.value ++ ['}'], o.ctx.merge x.1.ctx⟩, x.2)) (safe_lit ['}'])
          (R := fun q b => FromToks env (p1 ++ (p2 ++ (p3 ++ q))) b) (fun p4 k2 h4 => ?_) tm ts e hat
        refine (TokSafe.pure (⟨t.value ++ ['}'], o.ctx.merge k2.ctx⟩ : CtxText)).mono fun p5 a h5 => ?_
        obtain ⟨rfl, rfl⟩ := h5
        intro c hc
        left
        simp only [List.mem_append, List.mem_singleton] at hc
        rcases hc with hc | rfl
        · simp only [toksText_append, List.mem_append]
          exact .inr (.inl (h2.2.mem hc))
        · exact mem_toksText (t := k) (by rw [h3.1]; simp) (by rw [h3.2]; simp)
  · unfold Env.getitem
    cases hg : Dict.get? env t.value with
    | none => exact TokSafe.error (by rfl) _
    | some v =>
      refine (TokSafe.pure _).mono fun p4 a h4 => ?_
      obtain ⟨rfl, rfl⟩ := h4
      intro c hc
      exact .inr ⟨_, Dict.mem_of_get? hg, hc⟩

theorem safe_prePass (env : Env) : TokSafe prePass (FromToks env) := by
  unfold prePass
  refine .bind (safe_get none none none) fun p1 t h1 => ?_
  refine (TokSafe.pure _).mono fun p2 a h2 => ?_
  obtain ⟨rfl, rfl⟩ := h2
  intro c hc
  left
  rcases h1.2 with rfl | ⟨_, _, h⟩
  · exact mem_toksText (t := t) (by simp) hc
  · rw [h] at hc; cases hc

/-- Errors and characters of preprocessing. -/
theorem preprocessNodes_bounds (env : Env) (text : Str) (sl sc : Nat) (src : Option Str) :
    (∀ x, preprocessNodes env text sl sc src = .error x → x.isMau = true) ∧
    ∀ ns, preprocessNodes env text sl sc src = .ok ns → ∀ n ∈ ns, ∀ c ∈ n.value, c ∈ text ∨ InValue env c := by
  obtain ⟨init, e, h1, h2, h3, h4⟩ := lexPre_toks text sl sc src
  unfold preprocessNodes
  rw [h1]
  have hfs : ∀ (acc : List CtxText), ∀ f ∈ preFns env, TokSafe f (FromToks env) := by
    intro acc f hf
    simp only [preFns, List.mem_cons, List.not_mem_nil, or_false] at hf
    rcases hf with rfl | rfl | rfl | rfl
    · exact safe_preEscapedChar env
    · exact safe_preVerbatim env
    · exact safe_preCurly env
    · exact safe_prePass env
  have := parseLoop_safe (fs := fun _ => preFns env) hfs ((init ++ [e]).length + 2) { tokens := init ++ [e] } init e initialLast []
    (At.start init e ⟨h2, h3⟩) (.inl (by simp))
  refine ⟨this.1, fun ns hn n hm c hc => ?_⟩
  obtain ⟨new, hn2, hr⟩ := this.2 ns hn
  rw [List.nil_append] at hn2
  subst hn2
  obtain ⟨pre, hp, ho⟩ := hr n hm
  rcases ho c hc with h | h
  · exact .inl (h4 c ((infix_toksText hp).mem h))
  · exact .inr h

theorem processedText_chars {ns : List CtxText} {c : Char} (hc : c ∈ (processedText ns).value) : ∃ n ∈ ns, c ∈ n.value := by
  rw [processedText, fromTokenList_value] at hc
  simp only [toksText, List.mem_flatten, List.mem_map] at hc
  obtain ⟨_, ⟨_, ⟨n, hn, rfl⟩, rfl⟩, hc⟩ := hc
  exact ⟨n, hn, hc⟩

theorem preprocess_bounds (env : Env) (text : Str) (sl sc : Nat) (src : Option Str) :
    (∀ x, preprocess env text sl sc src = .error x → x.isMau = true) ∧
    ∀ t, preprocess env text sl sc src = .ok t → ∀ c ∈ t.value, c ∈ text ∨ InValue env c := by
  obtain ⟨h1, h2⟩ := preprocessNodes_bounds env text sl sc src
  unfold preprocess
  cases hp : preprocessNodes env text sl sc src with
  | error x => exact ⟨fun y hy => (by cases hy; exact h1 _ hp), fun t ht => (by cases ht)⟩
  | ok ns =>
    refine ⟨fun y hy => (by cases hy), fun t ht => ?_⟩
    cases ht
    intro c hc
    obtain ⟨n, hn, hc⟩ := processedText_chars hc
    exact h2 ns hp n hn c hc

end Mau
