import Verif.Spec.Sound
import Verif.Props.Errors
import Verif.Props.Preprocess
import Verif.Lemmas.DocEndsNested

/-!
# Lemmas: the texts of well-formed documents

The errors of safe texts are Mau errors, and visible texts give nodes.
-/

set_option linter.unusedSimpArgs false

namespace Mau
open Spec

/-! ## Preprocessing -/

/-- What a piece without an opening brace becomes. -/
theorem preItem_plain {env : Env} {s o : Str} (h : PreItem env s o) (hb : '{' ∉ s) : o.Sublist s ∧ ('\\' ∉ s → o = s) := by
  cases h with
  | mark c h => exact ⟨.refl _, fun _ => rfl⟩
  | unit h =>
    cases h with
    | plain c h => exact ⟨.refl _, fun _ => rfl⟩
    | brace => exact ⟨.refl _, fun _ => rfl⟩
    | escBrace c h => exact ⟨.cons _ (.refl _), fun h => absurd (by simp) h⟩
    | escOther c h => exact ⟨.refl _, fun _ => rfl⟩
    | span raw h => exact ⟨.refl _, fun _ => rfl⟩
    | ref raw v h hd hv => exact absurd (by simp) hb
    | double raw h hd => exact absurd (by simp) hb

theorem preItems_plain {env : Env} {items : List (Str × Str)} (h : ∀ i ∈ items, PreItem env i.1 i.2) (hb : '{' ∉ (items.map (·.1)).flatten) :
    ((items.map (·.2)).flatten).Sublist (items.map (·.1)).flatten ∧
      ('\\' ∉ (items.map (·.1)).flatten → (items.map (·.2)).flatten = (items.map (·.1)).flatten) := by
  induction items with
  | nil => exact ⟨.refl _, fun _ => rfl⟩
  | cons i is ih =>
    simp only [List.map_cons, List.flatten_cons, List.mem_append, not_or] at hb ⊢
    obtain ⟨h1, h2⟩ := preItem_plain (h i (by simp)) hb.1
    obtain ⟨h3, h4⟩ := ih (fun j hj => h j (by simp [hj])) hb.2
    exact ⟨h1.append h3, fun hx => by rw [h2 hx.1, h4 hx.2]⟩

/-- A text without references is kept, up to backslashes and spaces at the end. -/
theorem preprocess_written {env : Env} {text : Str} (hn : '\n' ∉ text) (hb : '{' ∉ text) {sl sc : Nat} {src : Option Str} {t : Token}
    (h : preprocess env text sl sc src = .ok t) : MayOccur t.value text := by
  obtain ⟨items, tail, sp, h1, h2, h3, h4, h5⟩ := C21_nothing_lost env text hn sl sc src t h
  obtain ⟨h6, h7⟩ := preItems_plain h1 (fun hx => hb (by rw [h2]; simp only [List.mem_append]; exact .inl (.inl hx)))
  rw [h5]
  refine ⟨h6.trans ?_, fun hs _ => ?_⟩
  · rw [h2, List.append_assoc]; exact List.sublist_append_left _ _
  · rw [h7 (fun hx => hs (by rw [h2]; simp only [List.mem_append]; exact .inl (.inl hx)))]
    exact ⟨[], tail ++ sp, by rw [h2]; simp⟩

theorem preItem_head {env : Env} {s o : Str} (h : PreItem env s o) {c : Char} {r : Str} (hs : s = c :: r) (h1 : c ≠ '\\') (h2 : c ≠ '{') : ∃ r', o = c :: r' := by
  cases h with
  | mark d h => injection hs with e _; subst e; exact ⟨_, rfl⟩
  | unit h =>
    cases h with
    | plain d h => injection hs with e _; subst e; exact ⟨_, rfl⟩
    | brace => injection hs with e _; subst e; exact ⟨_, rfl⟩
    | escBrace d h => injection hs with e _; exact absurd e.symm h1
    | escOther d h => injection hs with e _; exact absurd e.symm h1
    | span raw h => injection hs with e _; subst e; exact ⟨_, rfl⟩
    | ref raw v h hd hv => injection hs with e _; exact absurd e.symm h2
    | double raw h hd => injection hs with e _; exact absurd e.symm h2

theorem preItem_ne {env : Env} {s o : Str} (h : PreItem env s o) : s ≠ [] := by
  cases h with
  | mark d h => simp
  | unit h => cases h <;> simp

/-- A text that starts with something visible still does after preprocessing. -/
theorem preprocess_head {env : Env} {text : Str} (hn : '\n' ∉ text) {c : Char} {r : Str} (ht : text = c :: r) (h0 : c ≠ ' ') (h1 : c ≠ '\\') (h2 : c ≠ '{')
    {sl sc : Nat} {src : Option Str} {t : Token} (h : preprocess env text sl sc src = .ok t) : ∃ r', t.value = c :: r' := by
  obtain ⟨items, tail, sp, h3, h4, h5, h6, h7⟩ := C21_nothing_lost env text hn sl sc src t h
  cases items with
  | nil =>
    rw [ht] at h4
    rcases h5 with rfl | rfl
    · cases sp with
      | nil => cases h4
      | cons d sp =>
        injection h4 with e _
        exact absurd (e.trans (h6 d (by simp))) h0
    · injection h4 with e _
      exact absurd e h1
  | cons i is =>
    obtain ⟨d, s', hs⟩ : ∃ d s', i.1 = d :: s' := by
      cases hi : i.1 with
      | nil => exact absurd hi (preItem_ne (h3 i (by simp)))
      | cons d s' => exact ⟨d, s', rfl⟩
    have e : d = c := by
      rw [ht] at h4
      simp only [List.map_cons, List.flatten_cons, hs, List.cons_append] at h4
      injection h4 with e _
      exact e.symm
    subst e
    obtain ⟨r', hr⟩ := preItem_head (h3 i (by simp)) hs h1 h2
    rw [h7, List.map_cons, List.flatten_cons, hr]
    exact ⟨_, rfl⟩

/-! ## Errors of texts -/

/-- The settings of the parser: variables with the prefix `mau.parser.`. -/
def settings (env : Env) : Env := env.filter fun kv => startsWith kv.1 c%"mau.parser."

/-- Looking up an alias fails with a Mau error. -/
def AliasOk (env : Env) : Prop := ∀ name x, lookupAlias env name = .error x → x.isMau = true

/-- The parts of a written text have no errors other than Mau errors. -/
theorem written_parts {env : Env} (ha : AliasOk env) (hp : EnvAll NoParen env) (n : Nat) : ∀ v : Str, v.length ≤ n →
    ¬ (MayOccur c%"[if" v ∧ MayOccur c%":](" v) → ¬ MayOccur c%"[ifeval:" v → Errors (·.isMau = true) env v := by
  induction n with
  | zero =>
    intro v hv _ _
    have : v = [] := List.length_eq_zero_iff.1 (by omega)
    subst this
    exact
    { mau := fun _ hx => hx
      alias := fun _ _ hb _ _ => absurd hb.1 (by simp)
      empty := fun h1 _ => absurd (h1.mem (c := '(') (by simp)) (by simp)
      notText := fun _ hb _ _ _ => absurd hb.1 (by simp)
      sub := fun _ _ _ _ hv _ => absurd hv.1.1 (by simp) }
  | succ n ih =>
    intro v hv h1 h2
    exact
    { mau := fun _ hx => hx
      alias := fun x name _ _ hx => ha name x hx
      empty := fun h3 h4 => absurd ⟨h4, h3⟩ h1
      notText := fun _ _ h3 _ _ => absurd h3 h2
      sub := fun w c s x hw hx => by
        obtain ⟨_, ⟨h3, h4⟩ | ⟨h3, key, h4⟩ | ⟨h3, _⟩⟩ := hw
        · exact strP_errors (ih w (by omega) (fun h => h1 ⟨h.1.trans h3, h.2.trans h3⟩) (fun h => h2 (h.trans h3))) c s x hx
        · exact strP_noBracket_mau (fun hb => hp _ _ h4 hb.2) c s x hx
        · exact absurd h3 h2 }

theorem noParen_errors {env : Env} {v : Str} (h : '(' ∉ v) : Errors (·.isMau = true) env v where
  mau := fun _ hx => hx
  alias := fun _ _ hb _ _ => absurd hb.2 h
  empty := fun h1 _ => absurd (h1.mem (by simp)) h
  notText := fun _ hb _ _ _ => absurd hb.2 h
  sub := fun _ _ _ _ hv _ => absurd hv.1.2 h

/-- The processed form of a safe text has no errors other than Mau errors. -/
theorem safe_errors {env : Env} (ha : AliasOk env) (hp : EnvAll NoParen env) {text : Str} (h : SafeText text) (hn : '\n' ∉ text) {sl sc : Nat} {src : Option Str}
    {t : Token} (ht : preprocess env text sl sc src = .ok t) : Errors (·.isMau = true) env t.value := by
  rcases h with h | ⟨h1, h2, h3⟩
  · refine noParen_errors fun hc => ?_
    rcases (preprocess_bounds env text sl sc src).2 t ht _ hc with hc | ⟨kv, hkv, hc⟩
    · exact h hc
    · exact hp _ _ hkv hc
  · have ho := preprocess_written hn h1 ht
    exact written_parts ha hp _ _ (Nat.le_refl _) (fun h => h2 ⟨h.1.trans ho, h.2.trans ho⟩) (fun h => h3 (h.trans ho))

/-- A Mau error, or the recursion budget is exceeded. -/
def Decent (e : Err) : Prop := e.isMau = true ∨ e = .fuel

theorem parseText_mono {env : Env} {v : Str} {n sl sc : Nat} {src : Option Str} {uid : Nat} {r : Except Err TextResult}
    (hx : parseText n env v sl sc src uid = r) (hf : r ≠ .error .fuel) {m : Nat} (hm : n ≤ m) : parseText m env v sl sc src uid = r := by
  induction hm with
  | refl => exact hx
  | @step m _ ih =>
    rcases parseText_le m env v sl sc src uid with h | h
    · rw [ih] at h; exact absurd h hf
    · rw [← h, ih]

theorem parseText_decent {env : Env} {v : Str} (h : Errors (·.isMau = true) env v) {n sl sc : Nat} {src : Option Str} {uid : Nat} {x : Err}
    (hx : parseText n env v sl sc src uid = .error x) : Decent x := by
  by_cases hf : x = .fuel
  · exact .inr hf
  · left
    obtain ⟨N, hN⟩ := textP_ev env v sl sc src uid
    have h2 := parseText_mono hx (by simpa using hf) (Nat.le_max_left n N)
    have h3 := (hN _ (Nat.le_max_right n N)).symm.trans h2
    exact textP_errors h h3

/-! ## Visible texts -/

theorem groupWordsAux_some (x : Str × Context × Context) (ns : List Node) : groupWordsAux (some x) ns ≠ [] := by
  induction ns generalizing x with
  | nil => obtain ⟨v, c0, c1⟩ := x; simp [groupWordsAux]
  | cons n ns ih =>
    obtain ⟨v, c0, c1⟩ := x
    unfold groupWordsAux
    split <;> first | simp | (rename_i h; cases h) | skip
    all_goals first | exact ih _ | simp_all

theorem groupWords_ne {ns : List Node} (h : ns ≠ []) : groupWords ns ≠ [] := by
  cases ns with
  | nil => exact absurd rfl h
  | cons n ns =>
    unfold groupWords groupWordsAux
    split
    all_goals first | exact groupWordsAux_some _ _ | simp_all

/-- The result is not empty. -/
def NE (f : PM (List Node)) (s : TextSt) : Prop := ∀ ns s', f s = .ok ns s' → ns ≠ []

theorem NE.pure {n : Node} {ns : List Node} {s : TextSt} : NE (Pure.pure (n :: ns)) s := by
  intro a b h; cases h; simp

theorem NE.bind {α : Type} {x : PM α} {g : α → PM (List Node)} {s : TextSt} (h : ∀ a s', x s = .ok a s' → NE (g a) s') : NE (x >>= g) s := by
  intro ns s' hx
  cases hxs : x s with
  | ok a s1 => rw [pm_bind_ok hxs] at hx; exact h a s1 hxs ns s' hx
  | fail s1 => rw [pm_bind_fail hxs] at hx; cases hx
  | err e => rw [pm_bind_err hxs] at hx; cases hx

theorem NE.orElse {x y : PM (List Node)} {s : TextSt} (h1 : NE x s) (h2 : ∀ s', s'.next = s.next → NE y s') : NE (PM.orElse x y) s := by
  intro ns s' hx
  unfold PM.orElse at hx
  cases hxs : x s with
  | ok a s1 => rw [hxs] at hx; cases hx; exact h1 _ _ hxs
  | fail s1 => rw [hxs] at hx; exact h2 { s1 with next := s.next } rfl _ _ hx
  | err e => rw [hxs] at hx; cases hx

/-- A literal is required, but the next token is another one. -/
theorem getLit_not_ok {toks : List Token} {s : TextSt} {t : Token} (ht : toks[s.next]? = some t) {v : Str} (h : ¬ (t.type = .LITERAL ∧ t.value = v)) (a : Token) (s' : TextSt) :
    PM.tm toks (·.get (some .LITERAL) (some v)) s ≠ .ok a s' := by
  unfold PM.tm TM.get TM.peek
  simp only [ht]
  have : TM.checkToken t (some .LITERAL) (some v) none = .error .token := by
    unfold TM.checkToken
    by_cases h1 : t.type = .LITERAL
    · have h2 : ¬ t.value = v := fun h2 => h ⟨h1, h2⟩
      simp [h1, Ne.symm h2]
    · simp [Ne.symm h1]
  rw [this]
  simp

theorem NE.item {env : Env} {toks : List Token} {n : Nat} {s : TextSt} {t : Token} (ht : toks[s.next]? = some t) (h1 : t.type ≠ .EOF) (h2 : t.type ≠ .EOL)
    (h3 : ¬ (t.type = .LITERAL ∧ t.value = ['['])) : NE (parseItem env toks n none) s := by
  cases n with
  | zero => intro ns s' h; simp only [parseItem] at h; cases h
  | succ n =>
    unfold parseItem
    refine .bind fun a s' ha => ?_
    have ha' : a = t ∧ s' = s := by
      unfold PM.peek TM.peek at ha
      simp only [ht, TM.checkToken] at ha
      simp at ha
      exact ⟨ha.1.symm, ha.2.symm⟩
    obtain ⟨rfl, rfl⟩ := ha'
    have hs : sentenceStop none a = false := by simp [sentenceStop, h1, h2]
    simp only [hs, Bool.false_eq_true, if_false]
    refine .orElse (.bind fun _ _ _ => .bind fun _ _ _ => .pure) fun s1 e1 => ?_
    refine .orElse ?_ fun s2 e2 => ?_
    · cases n with
      | zero => intro ns s' h; simp only [parseMacro] at h; cases h
      | succ n =>
        unfold parseMacro macroHead
        refine .bind fun p s' hp => ?_
        exfalso
        revert hp
        have hq : ∀ a s', PM.tm toks (·.get (some .LITERAL) (some ['['])) s1 ≠ .ok a s' := getLit_not_ok (by rw [e1]; exact ht) h3
        cases hg : PM.tm toks (·.get (some .LITERAL) (some ['['])) s1 with
        | ok a s2 => exact absurd hg (hq a s2)
        | fail s2 => rw [pm_bind_fail hg]; intro h; cases h
        | err e => rw [pm_bind_err hg]; intro h; cases h
    refine .orElse (.bind fun _ _ _ => .bind fun _ _ _ => .bind fun _ _ _ => .pure) fun s3 e3 => ?_
    refine .orElse (.bind fun _ _ _ => .bind fun _ _ _ => .bind fun _ _ _ => .pure) fun s4 e4 => ?_
    refine .orElse ?_ fun s5 e5 => .bind fun _ _ _ => .pure
    cases n with
    | zero => intro ns s' h; simp only [parseStyle] at h; cases h
    | succ n =>
      unfold parseStyle
      exact .bind fun _ _ _ => .bind fun _ _ _ => .bind fun _ _ _ => .pure

theorem textMain_ne {env : Env} {toks : List Token} {n : Nat} : ∀ {last : Token} {s s' : TextSt} {acc ns : List Node}, acc ≠ [] →
    textMain env toks n last s acc = .ok (ns, s') → ns ≠ [] := by
  induction n with
  | zero => intro last s s' acc ns _ h; simp only [textMain] at h; cases h
  | succ n ih =>
    intro last s s' acc ns ha h
    unfold textMain at h
    split at h
    · cases h
    · cases h; exact ha
    · split at h
      · cases h
      · split at h
        · cases h
        · split at h
          · exact ih (by simp [ha]) h
          · cases h
          · cases h

theorem lines_head {c : Char} {r : Str} (hnl : c ≠ '\n') : ∃ l rest, Spec.lines (c :: r) = (c :: l) :: rest := by
  unfold Spec.lines
  rw [if_neg (by simp)]
  rw [splitChar, if_neg hnl]
  split
  · exact ⟨[], [], rfl⟩
  · exact ⟨_, _, rfl⟩

theorem textToks_head {c : Char} {r : Str} (h0 : c ≠ ' ') (h1 : c ≠ '[') (hnl : c ≠ '\n') (sl sc : Nat) (src : Option Str) :
    ∃ t ts, lexText (TextBuffer.ofText (c :: r) sl sc src) = .ok (t :: ts) ∧ t.type ≠ .EOF ∧ t.type ≠ .EOL ∧ ¬ (t.type = .LITERAL ∧ t.value = ['[']) := by
  obtain ⟨l, rest, hl⟩ := lines_head (r := r) hnl
  rw [lexText_eq, hl]
  have hb : isBlank (c :: l) = false := by simp [isBlank, h0]
  unfold inlineTokens
  simp only [hb, Bool.false_eq_true, if_false, List.length_cons, cutLine, place, List.cons_append]
  refine ⟨_, _, rfl, ?_⟩
  unfold textCut
  split
  · rename_i h; injection h with h _; exact absurd h h0
  · rename_i h; injection h with h h'
    subst h; subst h'
    split
    · simp [tokAt, h1]
    · simp [tokAt]
  · rename_i h; cases h

/-- A text that starts with something visible gives nodes. -/
theorem parseText_visible {env : Env} {text : Str} {c : Char} {r : Str} (ht : text = c :: r) (h0 : c ≠ ' ') (h1 : c ≠ '[') (hnl : c ≠ '\n') {n sl sc : Nat} {src : Option Str} {uid : Nat}
    {res : TextResult} (h : parseText n env text sl sc src uid = .ok res) : res.nodes ≠ [] := by
  subst ht
  obtain ⟨t, ts, e, h2, h3, h4⟩ := textToks_head (r := r) h0 h1 hnl sl sc src
  unfold parseText at h
  rw [e] at h
  dsimp only at h
  split at h
  · cases h
  · rename_i ns s hm
    cases h
    cases n with
    | zero => simp only [textMain] at hm; cases hm
    | succ n =>
      unfold textMain at hm
      have hp : TM.peekIs ⟨t :: ts, 0⟩ .EOF = .ok false := by
        unfold TM.peekIs TM.peek TM.checkToken
        simp [Ne.symm h2]
      simp only [hp] at hm
      have hq : TM.peek ⟨t :: ts, 0⟩ = .ok t := by
        unfold TM.peek TM.checkToken
        simp
      simp only [hq] at hm
      split at hm
      · cases hm
      · split at hm
        · rename_i ns1 s1 hs
          refine textMain_ne ?_ hm
          rw [List.nil_append]
          refine groupWords_ne ?_
          cases n with
          | zero => simp only [sentenceLoop] at hs; cases hs
          | succ n =>
            have hi : NE (sentenceLoop env (t :: ts) (n + 1) none) { uid := uid } := by
              unfold sentenceLoop
              refine .bind fun a s' ha => ?_
              have := NE.item (t := t) (by rfl) h2 h3 h4 _ _ ha
              have he : a.isEmpty = false := by cases a <;> simp_all
              simp only [he, Bool.false_eq_true, if_false]
              refine .bind fun b s'' _ => ?_
              intro x y hx
              cases hx
              cases a <;> simp_all
            exact hi _ _ hs
        · cases hm
        · cases hm

/-! ## Settings -/

/-- The settings of a parser without a configuration. -/
def baseSettings : Env := Env.fromDict baseEnvItems c%"mau.parser"

/-- The built-in settings, and after them variables that are not settings. -/
def BaseFirst (e : Env) : Prop := ∃ rest, e = baseSettings ++ rest ∧ ∀ k ∈ Dict.keys rest, startsWith k c%"mau.parser." = false

/-- The variables: no macros in them, no settings but the built-in ones, and the names of the project. -/
structure Standard (V : Project) (env : Env) : Prop where
  plain : EnvAll NoParen env
  base : BaseFirst env
  names : ∀ k ∈ Dict.keys env, startsWith k c%"mau.parser." = true ∨ V.names k
  distinct : Dict.Distinct env

theorem base_eq : baseSettings = [(c%"mau.parser.source_highlight_style_aliases.+", .str c%"add"), (c%"mau.parser.source_highlight_style_aliases.-", .str c%"remove"),
       (c%"mau.parser.source_highlight_style_aliases.!", .str c%"important"), (c%"mau.parser.source_highlight_style_aliases.x", .str c%"error"),
       (c%"mau.parser.aliases.source.args.engine", .str c%"source"), (c%"mau.parser.aliases.source.names", .list [c%"language"] c%"['language']")] := by
  decide +kernel

theorem base_settings : settings baseSettings = baseSettings := by rw [base_eq]; decide

variable {V : Project}

theorem Standard.sett {env : Env} (h : Standard V env) : settings env = baseSettings := by
  obtain ⟨rest, rfl, hr⟩ := h.base
  have : settings rest = [] := by
    unfold settings
    rw [List.filter_eq_nil_iff]
    rintro ⟨k, v⟩ hm
    rw [hr k (List.mem_map.2 ⟨_, hm, rfl⟩)]
    simp
  have h2 : settings (baseSettings ++ rest) = settings baseSettings ++ settings rest := List.filter_append ..
  rw [h2, this, base_settings, List.append_nil]

theorem startsWith_trans {a b c : Str} (h1 : startsWith a b = true) (h2 : startsWith b c = true) : startsWith a c = true := by
  unfold startsWith at *
  exact List.isPrefixOf_iff_prefix.2 ((List.isPrefixOf_iff_prefix.1 h2).trans (List.isPrefixOf_iff_prefix.1 h1))

theorem get?_settings {env : Env} {key : Str} (h : startsWith key c%"mau.parser." = true) : Dict.get? (settings env) key = Dict.get? env key := by
  unfold settings
  induction env with
  | nil => rfl
  | cons kv env ih =>
    obtain ⟨k, v⟩ := kv
    rw [List.filter_cons]
    split
    · simp only [Dict.get?]
      split
      · rfl
      · exact ih
    · rename_i hk
      rw [ih]
      simp only [Dict.get?]
      rw [if_neg]
      rintro rfl
      exact hk h

/-- A setting is looked up among the settings. -/
theorem get_settings {env : Env} {key : Str} (h : startsWith key c%"mau.parser." = true) : Env.get env key = Env.get (settings env) key := by
  unfold Env.get
  rw [get?_settings h]
  cases Dict.get? env key with
  | some v => rfl
  | none =>
    dsimp only
    have : (settings env).filter (fun kv => startsWith kv.1 (key ++ ['.'])) = env.filter (fun kv => startsWith kv.1 (key ++ ['.'])) := by
      unfold settings
      rw [List.filter_filter]
      refine List.filter_congr fun kv _ => ?_
      cases hk : startsWith kv.1 (key ++ ['.']) with
      | false => simp
      | true =>
        have : startsWith kv.1 key = true := startsWith_trans hk (by unfold startsWith; exact List.isPrefixOf_iff_prefix.2 (List.prefix_append _ _))
        simp [startsWith_trans this h]
    rw [this]

theorem Standard.usual {env : Env} (h : Standard V env) : Usual env := by
  intro k hk
  left
  have h1 : startsWith k c%"mau.parser." = true := by
    simp only [List.mem_cons, List.not_mem_nil, or_false] at hk
    rcases hk with rfl | rfl | rfl <;> decide
  rw [get_settings h1, h.sett, base_eq]
  simp only [List.mem_cons, List.not_mem_nil, or_false] at hk
  rcases hk with rfl | rfl | rfl <;> decide

theorem lookupAlias_settings {env : Env} (name : Str) : lookupAlias env name = lookupAlias (settings env) name := by
  unfold lookupAlias
  rw [get_settings (env := env) (key := c%"mau.parser.aliases") (by decide)]

theorem base_aliases : Env.get baseSettings c%"mau.parser.aliases" = .namespace [(c%"source.args.engine", .str c%"source"), (c%"source.names", .list [c%"language"] c%"['language']")] := by
  decide +kernel

/-- The only built-in alias is `source`. -/
theorem standard_alias {env : Env} (h : Standard V env) (name : Str) :
    lookupAlias env name = if name = c%"source" then .ok ⟨[(c%"engine", c%"source")], [c%"language"], none⟩ else .error (.parser (.unknownAlias name) none) := by
  rw [lookupAlias_settings, h.sett]
  by_cases hn : name = c%"source"
  · subst hn
    rw [if_pos rfl]
    decide +kernel
  · rw [if_neg hn]
    unfold lookupAlias
    rw [base_aliases]
    dsimp only
    have : Env.asdict [(c%"source.args.engine", .str c%"source"), (c%"source.names", .list [c%"language"] c%"['language']")] =
        .ok [(c%"source", .dict [(c%"args", .dict [(c%"engine", .leaf (.str c%"source"))]), (c%"names", .leaf (.list [c%"language"] c%"['language']"))])] := by rfl
    rw [this]
    simp only [Bind.bind, Except.bind, Dict.get?]
    rw [if_neg (by exact fun h => hn h.symm)]
    rfl

theorem Standard.alias {env : Env} (h : Standard V env) : AliasOk env := by
  intro name x hx
  rw [standard_alias h] at hx
  split at hx
  · cases hx
  · cases hx; rfl

/-! ## Inline text in documents -/

/-- Safe text has no errors other than Mau errors. -/
theorem inline_decent {P : Parser} {s : DocSt} (hs : Standard V s.env) {t : Str} (ht : SafeText t) (hn : '\n' ∉ t) {ctx : Context} {e : Err}
    (h : P.inline s t ctx = .error e) : Decent e := by
  have hnt := nt_inline P s t ctx
  unfold Parser.inline docText at h
  have hb := preprocessNodes_bounds s.env t ctx.startLine ctx.startColumn ctx.source
  cases hp : preprocessNodes s.env t ctx.startLine ctx.startColumn ctx.source with
  | error x =>
    rw [hp] at h
    have := hb.1 x hp
    cases x <;> first | (cases h; exact .inl this) | cases this
  | ok ns =>
    rw [hp] at h
    have hpre : preprocess s.env t ctx.startLine ctx.startColumn ctx.source = .ok (processedText ns) := by
      unfold preprocess
      rw [hp]; rfl
    have he := safe_errors hs.alias hs.plain ht hn hpre
    cases ns with
    | nil => cases h
    | cons a as =>
      dsimp only at h
      cases hq : parseText P.fuel s.env (processedText (a :: as)).value ctx.startLine ctx.startColumn ctx.source s.uid with
      | error x =>
        rw [hq] at h
        have := parseText_decent he hq
        cases x <;> first | (cases h; exact this) | (rcases this with h | h <;> cases h)
      | ok r => rw [hq] at h; cases h

theorem inline_rest {P : Parser} {s s' : DocSt} {t : Str} {ctx : Context} {ns : List Node} (h : P.inline s t ctx = .ok (ns, s')) :
    s' = { s with uid := s'.uid, footnoteMacros := s'.footnoteMacros, linkMacros := s'.linkMacros, places := s'.places } := by
  unfold Parser.inline docText at h
  cases hp : preprocessNodes s.env t ctx.startLine ctx.startColumn ctx.source with
  | error x => rw [hp] at h; cases x <;> cases h
  | ok l =>
    rw [hp] at h
    cases l with
    | nil => cases h; rfl
    | cons a as =>
      dsimp only at h
      cases hq : parseText P.fuel s.env (processedText (a :: as)).value ctx.startLine ctx.startColumn ctx.source s.uid with
      | error x => rw [hq] at h; cases x <;> cases h
      | ok r => rw [hq] at h; cases h; rfl

/-- Visible text gives nodes. -/
theorem inline_visible {P : Parser} {s s' : DocSt} {t : Str} (hv : Visible t) (hn : '\n' ∉ t) {ctx : Context} {ns : List Node}
    (h : P.inline s t ctx = .ok (ns, s')) : ns ≠ [] := by
  obtain ⟨c, r, rfl, h0, h1, h2, h3⟩ := hv
  unfold Parser.inline docText at h
  cases hp : preprocessNodes s.env (c :: r) ctx.startLine ctx.startColumn ctx.source with
  | error x => rw [hp] at h; cases x <;> cases h
  | ok l =>
    have hpre : preprocess s.env (c :: r) ctx.startLine ctx.startColumn ctx.source = .ok (processedText l) := by
      unfold preprocess
      rw [hp]; rfl
    obtain ⟨r', hr⟩ := preprocess_head hn rfl h0 h1 h2 hpre
    rw [hp] at h
    cases l with
    | nil => cases hr
    | cons a as =>
      dsimp only at h
      cases hq : parseText P.fuel s.env (processedText (a :: as)).value ctx.startLine ctx.startColumn ctx.source s.uid with
      | error x => rw [hq] at h; cases x <;> cases h
      | ok res =>
        rw [hq] at h
        cases h
        exact parseText_visible hr h0 h3 (fun h => hn (by simp [h])) hq

end Mau
