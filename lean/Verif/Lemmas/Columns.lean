import Verif.Spec.Columns
import Verif.Lemmas.ArgColumns

set_option linter.unusedSimpArgs false

/-!
# The columns of inline nodes
-/

namespace Mau
open Spec

/-! ## Escapes -/

/-- Not ending in a backslash that escapes nothing. -/
inductive Whole : Str → Prop where
  | nil : Whole []
  | plain (c : Char) (r : Str) (hc : c ≠ '\\') (h : Whole r) : Whole (c :: r)
  | esc (c : Char) (r : Str) (h : Whole r) : Whole ('\\' :: c :: r)

theorem spelled_plain {c : Char} (hc : c ≠ '\\') (r : Str) : spelled (c :: r) = c :: spelled r := by
  rw [spelled.eq_def]; simp only [if_neg hc]

theorem spelled_esc (c : Char) (r : Str) : spelled ('\\' :: c :: r) = c :: spelled r := by
  rw [spelled.eq_def]; simp only [if_pos]

theorem spelled_append {s : Str} (h : Whole s) (t : Str) : spelled (s ++ t) = spelled s ++ spelled t := by
  induction h with
  | nil => rfl
  | plain c r hc _ ih => rw [List.cons_append, spelled_plain hc, spelled_plain hc, ih]; rfl
  | esc c r _ ih => rw [List.cons_append, List.cons_append, spelled_esc, spelled_esc, ih]; rfl

theorem Whole.append {s t : Str} (h : Whole s) (h2 : Whole t) : Whole (s ++ t) := by
  induction h with
  | nil => exact h2
  | plain c r hc _ ih => exact .plain c _ hc ih
  | esc c r _ ih => exact .esc c _ ih

theorem whole_of {s : Str} (h : '\\' ∉ s) : Whole s ∧ spelled s = s := by
  induction s with
  | nil => exact ⟨.nil, rfl⟩
  | cons c r ih =>
    have hc : c ≠ '\\' := by rintro rfl; exact h (by simp)
    obtain ⟨h1, h2⟩ := ih (fun hx => h (by simp [hx]))
    exact ⟨.plain c r hc h1, by rw [spelled_plain hc, h2]⟩

/-! ## The tokens of a line and their places -/

/-- The tokens `toks` are those of the text `T`, which starts at the column `col` of the line `ln`. -/
structure Lay (toks ts0 : List Token) (e : Token) (T : Str) (ln col : Nat) (src : Option Str) : Prop where
  toks : toks = ts0 ++ [e]
  eof : e.type = .EOF ∧ e.value = []
  text : TextToks T ts0
  ctxs : ∀ t ts, t :: ts <:+ ts0 → t.ctx = spanAt ln col src (T.length - (toksText (t :: ts)).length) (T.length - (toksText ts).length)
  last : T.getLast? = some '\\' → e.ctx = spanAt ln col src T.length T.length
  newline : '\n' ∉ T

/-- The parser stands before column `a`. -/
def Stand (toks ts0 : List Token) (e : Token) (T : Str) (a : Nat) (st : TextSt) : Prop :=
  ∃ ts, ts <:+ ts0 ∧ Pos toks st ts e ∧ T.length = a + (toksText ts).length

section
variable {toks ts0 : List Token} {e : Token} {T : Str} {ln col : Nat} {src : Option Str} {st st' : TextSt} {a b : Nat}

theorem Stand.reset (h : Stand toks ts0 e T a st) (s' : TextSt) : Stand toks ts0 e T a { s' with next := st.next } := h

theorem Stand.same (h : Stand toks ts0 e T a st) (hn : st'.next = st.next) : Stand toks ts0 e T a st' := by
  obtain ⟨ts, h1, h2, h3⟩ := h
  refine ⟨ts, h1, ?_, h3⟩
  unfold Pos at h2 ⊢
  rw [hn]; exact h2

theorem Stand.le (h : Stand toks ts0 e T a st) : a ≤ T.length := by obtain ⟨ts, _, _, h⟩ := h; omega

theorem toksText_suffix (L : Lay toks ts0 e T ln col src) {ts : List Token} (h : ts <:+ ts0) (ha : T.length = a + (toksText ts).length) :
    T.drop a = toksText ts := by
  obtain ⟨pre, rfl⟩ := h
  have e1 := L.text.text
  rw [toksText_append] at e1
  have : (toksText pre).length = a := by rw [← e1, List.length_append] at ha; omega
  rw [← e1, ← this, List.drop_left]

theorem value_ne (L : Lay toks ts0 e T ln col src) {t : Token} {ts : List Token} (h : t :: ts <:+ ts0) : t.value ≠ [] := by
  have := L.text.suffix h
  intro hv
  generalize toksText (t :: ts) = s at this
  cases this <;> simp_all

/-- Reading a token of the text. -/
theorem get_stand (L : Lay toks ts0 e T ln col src) {ty : Option TokenType} {v : Option Str} {f : Option (Str → Bool)} {t : Token}
    (hs : Stand toks ts0 e T a st) (h : PM.tm toks (fun tm => tm.get ty v f) st = .ok t st') :
    TM.checkToken t ty v f = .ok t ∧ ((∃ ts, t :: ts <:+ ts0 ∧ Pos toks st (t :: ts) e ∧ st' = { st with next := st.next + 1 } ∧
      Stand toks ts0 e T (a + t.value.length) st' ∧ T.drop a = t.value ++ T.drop (a + t.value.length) ∧
      t.ctx = spanAt ln col src a (a + t.value.length)) ∨ (t = e ∧ a = T.length ∧ Stand toks ts0 e T a st')) := by
  obtain ⟨ts, h1, h2, h3⟩ := hs
  cases ts with
  | nil =>
    cases hc : TM.checkToken e ty v f with
    | error er =>
      exfalso
      have hp := At.peek_nil h2 ty v f
      simp only [PM.tm, TM.get, hp, hc] at h
      cases er <;> cases h
    | ok t' =>
      obtain ⟨tm', g1, g2, g3⟩ := At.get_nil h2
      have hte : t' = e := by
        unfold TM.checkToken at hc
        repeat' split at hc
        all_goals first | (cases hc; rfl) | cases hc
      subst hte
      have hg : TM.get ⟨toks, st.next⟩ ty v f = .ok (t', tm') := by
        have hp := At.peek_nil h2 ty v f
        have hp0 := At.peek_nil h2 none none none
        rw [check_any] at hp0
        unfold TM.get at g1 ⊢
        rw [hp0] at g1
        rw [hp, hc]
        exact g1
      simp only [PM.tm, hg] at h
      cases h
      refine ⟨hc, .inr ⟨rfl, by simpa [toksText] using h3.symm, [], h1, ?_, h3⟩⟩
      obtain ⟨tk, nx⟩ := tm'
      simp at g2; subst g2
      exact g3
  | cons t1 ts =>
    cases hc : TM.checkToken t1 ty v f with
    | error er =>
      exfalso
      have hp := At.peek_cons h2 ty v f
      simp only [PM.tm, TM.get, hp, hc] at h
      cases er <;> cases h
    | ok t' =>
      have hte : t' = t1 := by
        unfold TM.checkToken at hc
        repeat' split at hc
        all_goals first | (cases hc; rfl) | cases hc
      subst hte
      rw [tm_get h2 hc] at h
      cases h
      have hl : (toksText (t :: ts)).length = t.value.length + (toksText ts).length := by simp [toksText]
      have hsuf : ts <:+ ts0 := (List.suffix_cons _ _).trans h1
      have hb : T.length = (a + t.value.length) + (toksText ts).length := by omega
      refine ⟨hc, .inl ⟨ts, h1, h2, rfl, ⟨ts, hsuf, h2.next, hb⟩, ?_, ?_⟩⟩
      · rw [toksText_suffix L h1 h3, toksText_suffix L hsuf hb]; simp [toksText]
      · rw [L.ctxs _ _ h1]
        congr 1 <;> omega

/-- Reading a token of a given type. -/
theorem get_typed (L : Lay toks ts0 e T ln col src) {ty : TokenType} (hty : ty ≠ .EOF) {v : Option Str} {f : Option (Str → Bool)} {t : Token}
    (hs : Stand toks ts0 e T a st) (h : PM.tm toks (fun tm => tm.get (some ty) v f) st = .ok t st') :
    TM.checkToken t (some ty) v f = .ok t ∧ ∃ ts, t :: ts <:+ ts0 ∧ Pos toks st (t :: ts) e ∧ st' = { st with next := st.next + 1 } ∧
      Stand toks ts0 e T (a + t.value.length) st' ∧ T.drop a = t.value ++ T.drop (a + t.value.length) ∧
      t.ctx = spanAt ln col src a (a + t.value.length) := by
  obtain ⟨h1, h2⟩ := get_stand L hs h
  refine ⟨h1, ?_⟩
  rcases h2 with h2 | ⟨rfl, _⟩
  · exact h2
  · exfalso
    unfold TM.checkToken at h1
    simp only [Option.getD_some, L.eof.1] at h1
    rw [if_pos hty] at h1
    cases h1

/-- Reading a special character. -/
theorem get_lit (L : Lay toks ts0 e T ln col src) {c : Char} {t : Token} (hs : Stand toks ts0 e T a st)
    (h : PM.tm toks (fun tm => tm.get (some .LITERAL) (some [c])) st = .ok t st') :
    t.type = .LITERAL ∧ t.value = [c] ∧ ∃ ts, t :: ts <:+ ts0 ∧ Pos toks st (t :: ts) e ∧ st' = { st with next := st.next + 1 } ∧
      Stand toks ts0 e T (a + 1) st' ∧ T.drop a = c :: T.drop (a + 1) ∧ t.ctx = spanAt ln col src a (a + 1) := by
  obtain ⟨h1, ts, h2, h3, h4, h5, h6, h7⟩ := get_typed L (by decide) hs h
  rw [check_value] at h1
  split at h1
  · rename_i hc
    rw [hc.2] at h5 h6 h7
    exact ⟨hc.1, hc.2, ts, h2, h3, h4, h5, h6, h7⟩
  · cases h1

end


/-! ## Functions that do not move -/

/-- The function does not move, and its results have the property. -/
def Rests {α : Type} (f : PM α) (P : α → Prop) : Prop := ∀ st x st', f st = .ok x st' → st'.next = st.next ∧ P x

namespace Rests
variable {α β : Type} {P : α → Prop} {R : β → Prop}

theorem pure {a : α} (h : P a) : Rests (Pure.pure a : PM α) P := by intro st x st' hx; cases hx; exact ⟨rfl, h⟩

theorem bind {f : PM α} {g : α → PM β} (hf : Rests f P) (hg : ∀ a, P a → Rests (g a) R) : Rests (f >>= g) R := by
  intro st x st' hx
  change PM.bind f g st = _ at hx
  unfold PM.bind at hx
  split at hx
  · rename_i a s1 h1
    obtain ⟨n1, p1⟩ := hf _ _ _ h1
    obtain ⟨n2, p2⟩ := hg a p1 _ _ _ hx
    exact ⟨n2.trans n1, p2⟩
  · cases hx
  · cases hx

theorem raise (e : Err) : Rests (PM.raise e : PM α) P := by
  intro st x st' hx
  cases e <;> cases hx

theorem lift (x : Except Err α) : Rests (PM.lift x) (fun a => x = .ok a) := by
  intro st a st' hx
  unfold PM.lift at hx
  split at hx
  · cases hx; exact ⟨rfl, rfl⟩
  · cases hx
  · cases hx

theorem fresh : Rests PM.fresh (fun _ => True) := by intro st x st' hx; cases hx; exact ⟨rfl, trivial⟩

theorem mono {Q : α → Prop} {f : PM α} (h : Rests f P) (hq : ∀ a, P a → Q a) : Rests f Q := fun st x st' hx => ⟨(h st x st' hx).1, hq _ (h st x st' hx).2⟩

theorem mandatory (p : ParsedArgs) (key : Str) (m : Msg) (cx : Context) : Rests (Mau.mandatory p key m cx) (fun _ => True) := by
  unfold Mau.mandatory
  split
  · exact .pure trivial
  · exact raise _

theorem textOr {sub : Str → Context → PM (List Node)} (hs : ∀ v c, Rests (sub v c) (fun _ => True)) (o : Option CtxText) (default : List Node) :
    Rests (Mau.textOr sub o default) (fun _ => True) := by
  unfold Mau.textOr
  split
  · exact hs _ _
  · exact .pure trivial

end Rests

/-- There are no single words among the nodes. -/
def Wordless (ns : List Node) : Prop := ∀ n ∈ ns, ∀ v, n.data ≠ .word v

theorem wordless_group : ∀ (ns : List Node) (cur : Option (Str × Context × Context)), Wordless (groupWordsAux cur ns) := by
  intro ns
  induction ns with
  | nil =>
    intro cur
    cases cur with
    | none => intro n hn; cases hn
    | some x =>
      obtain ⟨v, c0, c1⟩ := x
      intro n hn
      simp only [groupWordsAux, List.mem_singleton] at hn
      subst hn
      intro w h; cases h
  | cons n ns ih =>
    intro cur
    obtain ⟨d, ar, c, cont, la, ex⟩ := n
    by_cases hw : ∃ v, d = .word v
    · obtain ⟨v, rfl⟩ := hw
      cases cur with
      | none => exact ih _
      | some x => obtain ⟨w, c0, c1⟩ := x; exact ih _
    · have hw' : ∀ v, d ≠ .word v := fun v h => hw ⟨v, h⟩
      cases cur with
      | none =>
        rw [groupWordsAux]
        · intro n hn
          rcases List.mem_cons.1 hn with rfl | hn
          · exact hw'
          · exact ih none n hn
        · intro v _ _ _ _ _ h; cases h; exact hw' _ rfl
      | some x =>
        obtain ⟨w, c0, c1⟩ := x
        rw [groupWordsAux]
        · intro n hn
          rcases List.mem_cons.1 hn with rfl | hn
          · intro v h; cases h
          · rcases List.mem_cons.1 hn with rfl | hn
            · exact hw'
            · exact ih none n hn
        · intro v _ _ _ _ _ h; cases h; exact hw' _ rfl

theorem wordless_main {env : Env} {toks : List Token} (n : Nat) : ∀ last s acc ns s', Wordless acc → textMain env toks n last s acc = .ok (ns, s') →
    Wordless ns := by
  induction n with
  | zero => intro last s acc ns s' _ h; simp only [textMain] at h; cases h
  | succ n ih =>
    intro last s acc ns s' ha h
    simp only [textMain] at h
    split at h
    · cases h
    · cases h; exact ha
    · split at h
      · cases h
      · split at h
        · cases h
        · split at h
          · refine ih _ _ _ _ _ ?_ h
            intro n hn
            rcases List.mem_append.1 hn with hn | hn
            · exact ha n hn
            · exact wordless_group _ _ n hn
          · cases h
          · cases h

theorem rests_parseStr (env : Env) (n : Nat) (v : Str) (c : Context) : Rests (parseStr env n v c) Wordless := by
  intro st x st' hx
  cases n with
  | zero => simp only [parseStr] at hx; cases hx
  | succ n =>
    simp only [parseStr] at hx
    split at hx
    · cases hx
    · split at hx
      · cases hx
      · rename_i h; cases hx; exact ⟨rfl, wordless_main _ _ _ _ _ _ (fun _ h => by cases h) h⟩

/-- One of the arguments. -/
def Among (p : ParsedArgs) (x : CtxText) : Prop := x ∈ p.unnamed ∨ ∃ kn ∈ p.named, kn.2 = x

/-- The nodes in a macro: none, those of an argument, or the text of an argument. -/
def Innards (sub : Str → Context → PM (List Node)) (p : ParsedArgs) (ns : List Node) : Prop :=
  ns = [] ∨ ∃ x, Among p x ∧ ((∃ s s', sub x.value x.ctx s = .ok ns s') ∨ ns = [Node.new (.text x.value) x.ctx [] {} []])

/-- What a macro makes. -/
def Made (name : Str) (ctx : Context) (sub : Str → Context → PM (List Node)) (p : ParsedArgs) (ns : List Node) : Prop :=
  (c%"if" <+: name ∧ Wordless ns) ∨ ∃ n, ns = [n] ∧ n.ctx = ctx ∧ MacroNode name n.data ∧ Innards sub p n.content

theorem made_one {name : Str} {ctx : Context} {d : NodeData} {sub : Str → Context → PM (List Node)} {p : ParsedArgs} {cs : List Node} {ar : NodeArgs}
    (h : MacroNode name d) (hi : Innards sub p cs) : Made name ctx sub p [Node.new d ctx cs ar] :=
  .inr ⟨_, rfl, rfl, h, hi⟩

theorem made_empty {name : Str} {ctx : Context} {d : NodeData} {sub : Str → Context → PM (List Node)} {p : ParsedArgs} {ar : NodeArgs}
    (h : MacroNode name d) : Made name ctx sub p [Node.new d ctx [] ar] := made_one h (.inl rfl)

theorem among_setNames {p : ParsedArgs} {names : List Str} {k : Str} {x : CtxText} (h : Dict.get? (p.setNames names).named k = some x) : Among p x := by
  have := Dict.mem_of_get? h
  rcases (setNames_mem p.unnamed p.named names).2 _ this with h | h
  · exact .inr ⟨_, h, rfl⟩
  · exact .inl h

theorem rests_mandatory {p : ParsedArgs} (names : List Str) (key : Str) (m : Msg) (cx : Context) :
    Rests (Mau.mandatory (p.setNames names) key m cx) (Among p) := by
  unfold Mau.mandatory
  split
  · rename_i h; exact .pure (among_setNames h)
  · exact .raise _

theorem rests_textOr {sub : Str → Context → PM (List Node)} (hs : ∀ v c, Rests (sub v c) Wordless) {p : ParsedArgs} (names : List Str) (key : Str)
    {default : List Node} (hd : Innards sub p default) : Rests (Mau.textOr sub (Dict.get? (p.setNames names).named key) default) (Innards sub p) := by
  cases h : Dict.get? (p.setNames names).named key with
  | none => exact .pure hd
  | some x =>
    intro st ns st' hx
    exact ⟨(hs _ _ st ns st' hx).1, .inr ⟨x, among_setNames h, .inl ⟨st, st', hx⟩⟩⟩

theorem rests_dispatch (env : Env) {sub : Str → Context → PM (List Node)} (hs : ∀ v c, Rests (sub v c) Wordless) (name : Token) (p : ParsedArgs) (ctx : Context) :
    Rests (macroDispatch env sub name p ctx) (Made name.value ctx sub p) := by
  unfold macroDispatch
  split
  · rename_i hif
    have hpre : c%"if" <+: name.value := by simpa [startsWith] using hif
    unfold macroControlFn
    refine .bind (.lift _) fun o _ => ?_
    cases o with
    | none => exact .pure (.inl ⟨hpre, (fun _ h => by cases h)⟩)
    | some vc => exact (hs _ _).mono fun ns h => .inl ⟨hpre, h⟩
  split
  · rename_i _ hn
    unfold macroLinkFn
    exact .bind (rests_mandatory _ _ _ _) fun t ht => .bind (rests_textOr hs _ _ (.inr ⟨t, ht, .inr rfl⟩)) fun ns hi => .pure (made_one (.inl hn) hi)
  split
  · rename_i _ _ hn
    unfold macroHeaderFn
    refine .bind (rests_mandatory _ _ _ _) fun t _ => .bind .fresh fun i _ => .bind (rests_textOr hs _ _ (.inl rfl)) fun ns hi => ?_
    intro st x st' hx
    cases hx
    exact ⟨rfl, made_one hn hi⟩
  split
  · rename_i _ _ _ hn
    unfold macroMailtoFn
    exact .bind (rests_mandatory _ _ _ _) fun t ht => .bind (rests_textOr hs _ _ (.inr ⟨t, ht, .inr rfl⟩)) fun ns hi => .pure (made_one (.inr hn) hi)
  split
  · rename_i _ _ _ _ hn
    unfold macroImageFn
    exact .bind (.mandatory _ _ _ _) fun t _ => .pure (made_empty hn)
  split
  · rename_i _ _ _ _ _ hn
    unfold macroFootnoteFn
    refine .bind (.mandatory _ _ _ _) fun t _ => .bind .fresh fun i _ => ?_
    intro st x st' hx
    cases hx
    exact ⟨rfl, made_empty hn⟩
  split
  · rename_i _ _ _ _ _ _ hn
    unfold macroClassFn
    refine .bind (rests_mandatory _ _ _ _) fun t ht => .bind (P := Innards sub p) ?_ fun ns hi => .pure (made_one hn hi)
    intro st ns st' hx
    exact ⟨(hs _ _ st ns st' hx).1, .inr ⟨t, ht, .inl ⟨st, st', hx⟩⟩⟩
  split
  · rename_i _ _ _ _ _ _ _ hn
    unfold macroUnicodeFn
    exact .bind (.mandatory _ _ _ _) fun t _ => .pure (made_empty hn)
  split
  · rename_i _ _ _ _ _ _ _ _ hn
    unfold macroRawFn
    exact .bind (.mandatory _ _ _ _) fun t _ => .pure (made_empty hn)
  · exact .pure (made_empty rfl)

/-! ## Pieces -/

section
variable (ln col : Nat) (src : Option Str) (T : Str)

/-- What `_parse_text` makes of the columns `a` to `b`. -/
inductive Chunk : Nat → Nat → List Node → Prop where
  | word {a b : Nat} {v : Str} (hab : a < b) (hb : b ≤ T.length) (hv : v = spelled (between T a b)) (hw : Whole (between T a b) ∨ b = T.length) :
      Chunk a b [Node.new (.word v) (spanAt ln col src a b)]
  | node {a b : Nat} {n : Node} (hab : a < b) (hb : b ≤ T.length) (hc : n.ctx = spanAt ln col src a b) (hs : Spells (between T a b) n.data)
      (hin : ∀ k, n.data = .style k → Tiles ln col src T (a + 1) (b - 1) n.content)
      (hmac : ∃ i j, (a ≤ i ∧ i ≤ j ∧ j ≤ b) ∧
        ((∀ k, n.data ≠ .style k) → Unadorned (between T a b) → n.content ≠ [emptyText] → Tiles ln col src T i j n.content)) : Chunk a b [n]
  | control {a b : Nat} {any : List Node} (hab : a < b) (hb : b ≤ T.length) (hw : Wordless any)
      (hs : ∃ name args, c%"if" <+: name ∧ between T a b = c%"[" ++ name ++ c%"](" ++ args ++ c%")") : Chunk a b any

/-- What `_parse_sentence` makes of the columns `a` to `b`, before words are joined. -/
inductive Strip : Nat → Nat → List Node → Prop where
  | nil {a : Nat} : Strip a a []
  | last {a b : Nat} (h : Chunk ln col src T a b []) : Strip a b []
  | cons {a b c : Nat} {ns ms : List Node} (h : Chunk ln col src T a b ns) (hne : ns ≠ []) (hs : Strip b c ms) : Strip a c (ns ++ ms)

end

section
variable {ln col : Nat} {src : Option Str} {T : Str} {a b c : Nat}

theorem spells_wordless {s v : Str} (h : Spells s (.word v)) : False := by
  obtain ⟨_, _, h, _⟩ := h
  exact h

theorem group_other {n : Node} (hn : ∀ v, n.data ≠ .word v) (ns : List Node) :
    groupWordsAux none (n :: ns) = n :: groupWordsAux none ns ∧
    ∀ v c0 c1, groupWordsAux (some (v, c0, c1)) (n :: ns) = Node.new (.text v) (c0.merge c1) :: n :: groupWordsAux none ns := by
  obtain ⟨d, ar, c, cont, la, ex⟩ := n
  constructor
  · rw [groupWordsAux]
    intro v _ _ _ _ _ h; cases h; exact hn _ rfl
  · intro v c0 c1
    rw [groupWordsAux]
    intro v _ _ _ _ _ h; cases h; exact hn _ rfl

theorem group_others {any : List Node} (hw : Wordless any) (hne : any ≠ []) (ns : List Node) :
    groupWordsAux none (any ++ ns) = any ++ groupWordsAux none ns ∧
    ∀ v c0 c1, groupWordsAux (some (v, c0, c1)) (any ++ ns) = Node.new (.text v) (c0.merge c1) :: (any ++ groupWordsAux none ns) := by
  have h1 : ∀ any : List Node, Wordless any → groupWordsAux none (any ++ ns) = any ++ groupWordsAux none ns := by
    intro any hw
    induction any with
    | nil => rfl
    | cons n any ih => rw [List.cons_append, (group_other (hw n (by simp)) _).1, ih fun m hm => hw m (by simp [hm])]; rfl
  refine ⟨h1 any hw, fun v c0 c1 => ?_⟩
  cases any with
  | nil => exact absurd rfl hne
  | cons n any => rw [List.cons_append, (group_other (hw n (by simp)) _).2, h1 any fun m hm => hw m (by simp [hm])]; rfl

/-- The words read since column `a0`. -/
structure Held (ln col : Nat) (src : Option Str) (T : Str) (a0 a : Nat) (v : Str) (c0 c1 : Context) : Prop where
  lt : a0 < a
  le : a ≤ T.length
  ctx : ∃ x y, c0 = spanAt ln col src a0 x ∧ c1 = spanAt ln col src y a ∧ a0 ≤ y ∧ x ≤ a
  text : v = spelled (between T a0 a)
  whole : Whole (between T a0 a) ∨ a = T.length

theorem Held.tile {a0 : Nat} {v : Str} {c0 c1 : Context} {ns : List Node} (h : Held ln col src T a0 a v c0 c1) (ht : Tiles ln col src T a b ns) :
    Tiles ln col src T a0 b (Node.new (.text v) (c0.merge c1) :: ns) := by
  obtain ⟨x, y, rfl, rfl, h1, h2⟩ := h.ctx
  refine .node (i := a0) (j := a0) h.lt h.le ?_ (.inl h.text) (by intro k hk; cases hk) ⟨Nat.le_refl _, Nat.le_refl _, Nat.le_of_lt h.lt⟩
    (fun _ _ _ => .nil) ht
  rw [merge_span h1 h2]; rfl

theorem tiles_group {ns : List Node} (h : Strip ln col src T a b ns) :
    Tiles ln col src T a b (groupWordsAux none ns) ∧
    ∀ a0 v c0 c1, Held ln col src T a0 a v c0 c1 → Tiles ln col src T a0 b (groupWordsAux (some (v, c0, c1)) ns) := by
  induction h with
  | nil => exact ⟨.nil, fun a0 v c0 c1 hh => hh.tile .nil⟩
  | @last a b h =>
    generalize hn : ([] : List Node) = any at h
    cases h with
    | word => cases hn
    | node => cases hn
    | control hab hb hw hs =>
      subst hn
      exact ⟨.control (any := []) hab hb hs .nil, fun a0 v c0 c1 hh => hh.tile (.control (any := []) hab hb hs .nil)⟩
  | @cons a b c ns ms h hne hms ih =>
    cases h with
    | @word v hab hb hv hw =>
      refine ⟨ih.2 _ _ _ _ ⟨hab, hb, ⟨b, a, rfl, rfl, Nat.le_refl _, Nat.le_refl _⟩, hv, hw⟩, fun a0 w c0 c1 hh => ?_⟩
      obtain ⟨x, y, rfl, rfl, h1, h2⟩ := hh.ctx
      have hlt := hh.lt
      have hwhole : Whole (between T a0 a) := by
        rcases hh.whole with h | h
        · exact h
        · omega
      have eb := between_append (T := T) (Nat.le_of_lt hlt) (Nat.le_of_lt hab) hb
      refine ih.2 a0 _ _ _ ⟨by omega, hb, ⟨x, a, rfl, rfl, by omega, by omega⟩, ?_, ?_⟩
      · rw [eb, spelled_append hwhole, hh.text, hv]
      · rcases hw with hw | hw
        · exact .inl (by rw [eb]; exact hwhole.append hw)
        · exact .inr hw
    | @node n hab hb hc hs hin hmac =>
      have hn : ∀ v, n.data ≠ .word v := by intro v hv; rw [hv] at hs; exact spells_wordless hs
      obtain ⟨i, j, hij, hmac⟩ := hmac
      have ht := Tiles.node hab hb hc hs hin hij hmac ih.1
      refine ⟨?_, fun a0 v c0 c1 hh => ?_⟩
      · rw [List.singleton_append, (group_other hn ms).1]; exact ht
      · rw [List.singleton_append, (group_other hn ms).2]; exact hh.tile ht
    | control hab hb hw hs =>
      have ht := Tiles.control (any := ns) hab hb hs ih.1
      refine ⟨?_, fun a0 v c0 c1 hh => ?_⟩
      · rw [(group_others hw hne ms).1]; exact ht
      · rw [(group_others hw hne ms).2]; exact hh.tile ht

theorem Spec.Tiles.append {ns ms : List Node} (h : Tiles ln col src T a b ns) (h2 : Tiles ln col src T b c ms) : Tiles ln col src T a c (ns ++ ms) := by
  induction h with
  | nil => exact h2
  | node hab hb hc hs hin hij hmac _ _ _ ih => exact .node hab hb hc hs hin hij hmac (ih h2)
  | control hab hb hs _ ih => rw [List.append_assoc]; exact .control hab hb hs (ih h2)

end


/-! ## The alternatives -/

theorem pm_inv {α β : Type} {x : PM α} {f : α → PM β} {s s' : TextSt} {b : β} (h : (x >>= f) s = .ok b s') : ∃ a s1, x s = .ok a s1 ∧ f a s1 = .ok b s' := by
  change PM.bind x f s = _ at h
  unfold PM.bind at h
  split at h
  · rename_i a s1 h1; exact ⟨a, s1, h1, h⟩
  · cases h
  · cases h

section
variable {toks ts0 : List Token} {e : Token} {T : Str} {ln col : Nat} {src : Option Str} {st st' : TextSt} {a b : Nat} {ns : List Node}

theorem value_cases (L : Lay toks ts0 e T ln col src) {t : Token} {ts : List Token} (h : t :: ts <:+ ts0) :
    (t.type = .LITERAL ∧ t.value = ['\\']) ∨ '\\' ∉ t.value := by
  have := L.text.suffix h
  generalize toksText (t :: ts) = s at this
  cases this with
  | lit c _ r _ hc ht hv h =>
    by_cases hb : c = '\\'
    · subst hb; exact .inl ⟨ht, hv⟩
    · right; rw [hv]; simpa using fun h => hb h.symm
  | space _ _ _ hv => right; rw [hv]; decide
  | txt v _ _ _ hv hne hc => right; rw [hv]; intro hx; exact (wordChar_iff.1 (hc _ hx)).1 (by decide)

theorem pos_suffix (L : Lay toks ts0 e T ln col src) {ts : List Token} (h : Pos toks st ts e) : ts <:+ ts0 := by
  rcases h.drop with h | ⟨rfl, _⟩
  · have : ts ++ [e] <:+ ts0 ++ [e] := by rw [← h, ← L.toks]; exact List.drop_suffix _ _
    obtain ⟨p, hp⟩ := this
    rw [← List.append_assoc] at hp
    exact ⟨p, List.append_inj_left' hp rfl⟩
  · exact List.nil_suffix

/-- Between two places where the parser stands. -/
theorem slice_eq {x : Str} (h : T.drop a = x ++ T.drop b) (ha : a ≤ T.length) (hb : b ≤ T.length) : between T a b = x ∧ b = a + x.length := by
  have hl := congrArg List.length h
  simp at hl
  have : b = a + x.length := by omega
  exact ⟨between_eq h this, this⟩

theorem chunk_backslash (L : Lay toks ts0 e T ln col src) (hs : Stand toks ts0 e T a st) (h : parseBackslash toks st = .ok ns st') :
    ∃ b, Stand toks ts0 e T b st' ∧ Chunk ln col src T a b ns := by
  unfold parseBackslash at h
  obtain ⟨o, s1, h1, h⟩ := pm_inv h
  obtain ⟨t, s2, h2, h⟩ := pm_inv h
  cases h
  obtain ⟨_, _, _, _, _, _, g5, g6, g7⟩ := get_lit L hs h1
  obtain ⟨_, k⟩ := get_stand L g5 h2
  rcases k with ⟨ts, k1, k2, k3, k4, k5, k6⟩ | ⟨rfl, k1, k2⟩
  · have hne := value_ne L k1
    have hlen : t.value.length ≠ 0 := by simpa using hne
    obtain ⟨sl, _⟩ := slice_eq (x := '\\' :: t.value) (T := T) (a := a) (b := a + 1 + t.value.length) (by rw [g6, k5]; rfl) hs.le k4.le
    have hw : Whole ('\\' :: t.value) ∧ spelled ('\\' :: t.value) = t.value := by
      rcases value_cases L k1 with ⟨_, hv⟩ | hv
      · rw [hv]; exact ⟨.esc _ _ .nil, rfl⟩
      · cases hval : t.value with
        | nil => exact absurd hval hne
        | cons d r =>
          rw [hval] at hv
          obtain ⟨w1, w2⟩ := whole_of (s := r) fun hx => hv (by simp [hx])
          exact ⟨.esc _ _ w1, by rw [spelled_esc, w2]⟩
    refine ⟨_, k4, ?_⟩
    rw [g7, k6, merge_span (by omega) (by omega)]
    exact .word (by omega) k4.le (by rw [sl, hw.2]) (.inl (by rw [sl]; exact hw.1))
  · have hd : T.drop a = ['\\'] := by rw [g6, k1, List.drop_length]
    have hlast : T.getLast? = some '\\' := by
      have := List.getLast?_drop (l := T) (i := a)
      rw [hd, if_neg (by have := g5.le; omega)] at this
      simpa using this.symm
    obtain ⟨sl, _⟩ := slice_eq (x := ['\\']) (T := T) (a := a) (b := a + 1) g6 hs.le g5.le
    refine ⟨_, k2, ?_⟩
    rw [g7, L.last hlast, merge_span (by omega) (by omega), L.eof.2, ← k1]
    exact .word (by omega) (by omega) (by rw [sl]; rfl) (.inr k1)

theorem backslash_goes {t : Token} {ts : List Token} (hp : Pos toks st (t :: ts) e) (ht : t.type = .LITERAL ∧ t.value = ['\\']) :
    ∃ ns st', parseBackslash toks st = .ok ns st' := by
  have h0 := tm_get hp (ty := some .LITERAL) (v := some ['\\']) (f := none) (by rw [check_value, if_pos ht])
  unfold parseBackslash
  rw [pm_bind_ok h0]
  cases ts with
  | nil =>
    obtain ⟨s', g1, _⟩ := tm_get_nil hp.next
    rw [pm_bind_ok g1]; exact ⟨_, _, rfl⟩
  | cons t2 ts =>
    rw [pm_bind_ok (tm_get hp.next (check_any t2))]; exact ⟨_, _, rfl⟩

theorem macroArgs_length : ∀ (k : Nat) (s args rest : Str), macroArgs k s = some (args, rest) → rest.length < s.length := by
  intro k
  induction k with
  | zero => intro s args rest h; simp [macroArgs] at h
  | succ k ih =>
    intro s args rest h
    cases s with
    | nil => simp [macroArgs] at h
    | cons c s =>
      simp only [macroArgs] at h
      split at h
      · cases h; simp
      · split at h
        · cases hc : closing '"' s with
          | none => rw [hc] at h; simp at h
          | some x =>
            obtain ⟨raw, s2⟩ := x
            rw [hc] at h
            simp only [Option.map_eq_some_iff] at h
            obtain ⟨⟨a, b⟩, h1, h2⟩ := h
            cases h2
            have := ih _ _ _ h1
            have := closing_length hc
            simp; omega
        · cases hc : closing ')' (c :: s) with
          | none => rw [hc] at h; simp at h
          | some x =>
            obtain ⟨raw, s2⟩ := x
            rw [hc] at h
            cases h
            exact closing_length hc

/-- Collecting up to a closing character. -/
theorem closing_stand (L : Lay toks ts0 e T ln col src) {c : Char} (hc : c ∈ textLiterals) (hb : c ≠ '\\') {t z : Token} {s1 s2 : TextSt} (hs : Stand toks ts0 e T a st)
    (h : PM.tm toks (fun tm => tm.collectJoin [Token.generate .LITERAL [c], Token.generate .EOL]) st = .ok t s1)
    (h2 : PM.tm toks (fun tm => tm.get (some .LITERAL) (some [c])) s1 = .ok z s2) :
    ∃ raw b, Span c raw ∧ t.value = unescape c raw ∧ T.drop a = raw ++ [c] ++ T.drop (b + 1) ∧ Stand toks ts0 e T (b + 1) s2 ∧ z.ctx = spanAt ln col src b (b + 1) ∧
      a ≤ b := by
  obtain ⟨ts, k1, k2, k3⟩ := hs
  have hT := toksText_suffix L k1 k3
  have ht := L.text.suffix k1
  rw [← hT] at ht
  obtain ⟨m1, m2⟩ := tm_closing k2 ht (stopsAt_eol c) hc hb
  cases hcl : closing c (T.drop a) with
  | none =>
    exfalso
    obtain ⟨tok, s', g1, g2⟩ := m2 hcl
    rw [g1] at h
    cases h
    rw [tm_get_nil_fail g2 (by rw [check_value, if_neg (by simp [g2.eof.1])])] at h2
    cases h2
  | some x =>
    obtain ⟨raw, rest⟩ := x
    obtain ⟨cx, s', t', ts', g1, g2, g3, g4, g5, g6⟩ := m1 raw rest hcl
    rw [g1] at h
    cases h
    obtain ⟨sp, hd⟩ := span_of_closing hcl
    have hlen := congrArg List.length hd
    simp at hlen
    have hrest := g5.text
    have hst : Stand toks ts0 e T (a + raw.length) s1 := ⟨t' :: ts', pos_suffix L g2, g2, by simp [g4, hrest]; omega⟩
    obtain ⟨_, _, _, _, _, _, q1, q2, q3⟩ := get_lit L hst h2
    refine ⟨raw, a + raw.length, sp, rfl, ?_, q1, q3, by omega⟩
    have := drop_between (T := T) (a := a) (b := a + raw.length) (by omega)
    have e1 : between T a (a + raw.length) = raw := by
      unfold between; rw [hd, Nat.add_sub_cancel_left, List.take_left]
    rw [this, e1, q2, List.append_assoc]; rfl

theorem chunk_verbatim (L : Lay toks ts0 e T ln col src) (hs : Stand toks ts0 e T a st) (h : parseVerbatim toks st = .ok ns st') :
    ∃ b, Stand toks ts0 e T b st' ∧ Chunk ln col src T a b ns := by
  unfold parseVerbatim at h
  obtain ⟨o, s1, h1, h⟩ := pm_inv h
  obtain ⟨t, s2, h2, h⟩ := pm_inv h
  obtain ⟨z, s3, h3, h⟩ := pm_inv h
  cases h
  obtain ⟨_, _, _, _, _, _, g5, g6, g7⟩ := get_lit L hs h1
  obtain ⟨raw, b, k1, k2, k3, k4, k5, k6⟩ := closing_stand L (by decide) (by decide) g5 h2 h3
  obtain ⟨sl, hb⟩ := slice_eq (x := ['`'] ++ raw ++ ['`']) (T := T) (a := a) (b := b + 1) (by rw [g6, k3]; simp) hs.le k4.le
  refine ⟨_, k4, .node (by omega) k4.le ?_ ⟨raw, sl, k1, k2⟩ (by intro k hk; cases hk)
    ⟨a, a, ⟨Nat.le_refl _, Nat.le_refl _, by omega⟩, fun _ _ _ => .nil⟩⟩
  show o.ctx.merge z.ctx = _
  rw [g7, k5, merge_span (by omega) (by omega)]

theorem chunk_escaped (L : Lay toks ts0 e T ln col src) (hs : Stand toks ts0 e T a st) (h : parseEscaped toks st = .ok ns st') :
    ∃ b, Stand toks ts0 e T b st' ∧ Chunk ln col src T a b ns := by
  unfold parseEscaped at h
  obtain ⟨o, s1, h1, h⟩ := pm_inv h
  obtain ⟨t, s2, h2, h⟩ := pm_inv h
  obtain ⟨z, s3, h3, h⟩ := pm_inv h
  cases h
  obtain ⟨hc, ts, g1, _, _, g5, g6, g7⟩ := get_typed L (by decide) hs h1
  rw [check_pred] at hc
  have hval : ∃ c, (c = '$' ∨ c = '%') ∧ o.value = [c] := by
    split at hc
    · rename_i hm
      have hk := L.text.kinds o (g1.subset (by simp))
      rcases hk with hk | ⟨_, d, hd, hv⟩
      · rw [hm.1] at hk; cases hk
      · refine ⟨d, ?_, hv⟩
        have := hm.2
        rw [hv] at this
        simp [isEscapeMarker] at this
        exact this
    · cases hc
  obtain ⟨c, hc2, hv⟩ := hval
  rw [hv] at g5 g6 g7 h2 h3
  obtain ⟨raw, b, k1, k2, k3, k4, k5, k6⟩ := closing_stand L (by rcases hc2 with rfl | rfl <;> decide) (by rcases hc2 with rfl | rfl <;> decide) g5 h2 h3
  simp only [List.length_singleton] at g6 g7 k3 k6
  obtain ⟨sl, hb⟩ := slice_eq (x := [c] ++ raw ++ [c]) (T := T) (a := a) (b := b + 1) (by rw [g6, k3]; simp) hs.le k4.le
  refine ⟨_, k4, .node (by omega) k4.le ?_ (.inr ⟨c, raw, hc2, sl, k1, k2⟩) (by intro k hk; cases hk)
    ⟨a, a, ⟨Nat.le_refl _, Nat.le_refl _, by omega⟩, fun _ _ _ => .nil⟩⟩
  show o.ctx.merge z.ctx = _
  rw [g7, k5, merge_span (by omega) (by omega)]

theorem chunk_word (L : Lay toks ts0 e T ln col src) (hs : Stand toks ts0 e T a st) (hlt : a < T.length)
    (hb : ∀ t ts, Pos toks st (t :: ts) e → ¬ (t.type = .LITERAL ∧ t.value = ['\\'])) (h : parseWord toks st = .ok ns st') :
    ∃ b, Stand toks ts0 e T b st' ∧ Chunk ln col src T a b ns := by
  unfold parseWord at h
  obtain ⟨t, s1, h1, h⟩ := pm_inv h
  cases h
  obtain ⟨_, k⟩ := get_stand L hs h1
  rcases k with ⟨ts, k1, k2, k3, k4, k5, k6⟩ | ⟨rfl, k1, k2⟩
  · have hne := value_ne L k1
    have hlen : t.value.length ≠ 0 := by simpa using hne
    obtain ⟨sl, _⟩ := slice_eq k5 hs.le k4.le
    have hv : '\\' ∉ t.value := (value_cases L k1).resolve_left (hb t ts k2)
    obtain ⟨w1, w2⟩ := whole_of hv
    refine ⟨_, k4, ?_⟩
    rw [k6]
    exact .word (by omega) k4.le (by rw [sl, w2]) (.inl (by rw [sl]; exact w1))
  · omega

theorem Lay.spread (L : Lay toks ts0 e T ln col src) : Spread toks ts0 e T ln col src :=
  ⟨L.toks, L.eof, L.text.text, toks_ne L.text.toks, L.ctxs⟩

theorem collectArgs_stand (L : Lay toks ts0 e T ln col src) {t : Token} (hs : Stand toks ts0 e T a st)
    (h : PM.tm toks collectMacroArgs st = .ok t st') :
    ∃ b, a ≤ b ∧ Stand toks ts0 e T b st' ∧ ('\\' ∉ between T a b → Cut T ln col src a b t.value t.ctx) := by
  unfold PM.tm at h
  split at h
  · rename_i x tm hx
    cases h
    obtain ⟨ts, k1, k2, k3⟩ := hs
    obtain ⟨b, f1, f2, f3⟩ := collectMacroArgs_here L.spread (by
      intro u hu hty hv
      rcases L.text.kinds u hu with hk | ⟨_, d, hd, hv'⟩
      · rw [hk] at hty; cases hty
      · rw [hv'] at hv
        injection hv with hv _
        subst hv
        exact absurd hd (by decide)) (tm := ⟨toks, st.next⟩) ⟨rfl, ts, k1, k2, k3⟩ hx
    obtain ⟨g0, ts', g1, g2, g3⟩ := f2
    refine ⟨b, f1, ⟨ts', g1, ?_, g3⟩, f3⟩
    obtain ⟨tk, nx⟩ := tm
    simp at g0; subst g0
    exact g2
  · cases h
  · cases h

theorem between_between {t : Str} {d x y : Nat} (ht : t = between T d (d + t.length)) (hxy : x ≤ y) (hy : y ≤ t.length) (hT : d + t.length ≤ T.length) :
    between t x y = between T (d + x) (d + y) := by
  have e1 := between_append (T := T) (a := d) (b := d + x) (c := d + t.length) (by omega) (by omega) hT
  have e2 := between_append (T := T) (a := d + x) (b := d + y) (c := d + t.length) (by omega) (by omega) hT
  rw [← ht, e2] at e1
  have l1 : (between T d (d + x)).length = x := by rw [between_length (by omega) (by omega)]; omega
  have l2 : (between T (d + x) (d + y)).length = y - x := by rw [between_length (by omega) (by omega)]; omega
  have e3 : t.drop x = between T (d + x) (d + y) ++ between T (d + y) (d + t.length) := by
    generalize between T (d + y) (d + t.length) = r at e1 ⊢
    rw [e1, List.drop_left' l1]
  show (t.drop x).take (y - x) = _
  rw [e3, ← l2, List.take_left]

/-- Nodes that cover a part of a text. -/
theorem Spec.Tiles.shift {t : Str} {d x y : Nat} (ht : t = between T d (d + t.length)) (hT : d + t.length ≤ T.length)
    (h : Tiles ln (col + d) src t x y ns) : Tiles ln col src T (d + x) (d + y) ns := by
  induction h with
  | nil => exact .nil
  | @node a b c i j n ns hab hb hc hs hin hij hmac h ihin ihmac ih =>
    have e1 := between_between ht (Nat.le_of_lt hab) hb hT
    refine .node (i := d + i) (j := d + j) (by omega) (by omega) ?_ (by rw [← e1]; exact hs) ?_ ⟨by omega, by omega, by omega⟩ ?_ ih
    · rw [hc]; simp only [spanAt]; congr 1 <;> omega
    · intro k hk
      have := ihin k hk
      rw [show d + (b - 1) = d + b - 1 by omega] at this
      exact this
    · intro h1 h2 h3
      rw [← e1] at h2
      exact ihmac h1 h2 h3
  | @control a b c any ns hab hb hs h ih =>
    have e1 := between_between ht (Nat.le_of_lt hab) hb hT
    exact .control (by omega) (by omega) (by rw [← e1]; exact hs) ih

theorem Spec.Tiles.none {x y : Nat} (h : Tiles ln col src [] x y ns) : ns = [] ∧ x = y := by
  cases h with
  | nil => exact ⟨rfl, rfl⟩
  | node hab hb => simp at hb; omega
  | control hab hb => simp at hb; omega

/-- The nodes of a text inside a macro cover the text. -/
def Within (env : Env) (n : Nat) : Prop := ∀ (v : Str) (c : Context) (st st' : TextSt) (ns : List Node), '\n' ∉ v → '\\' ∉ v → parseStr env n v c st = .ok ns st' →
  ∃ t, t <+: v ∧ Tiles c.startLine c.startColumn c.source t 0 t.length ns

/-- The nodes of an argument cover its columns. -/
theorem innards_tiles {env : Env} {n d b : Nat} {at' : Token} {p : ParsedArgs} (hW : Within env n) (hn : '\n' ∉ T) (hdb : d ≤ b) (hbT : b ≤ T.length)
    (hc : Cut T ln col src d b at'.value at'.ctx) (hu : Unadorned (between T d b)) (hp : processArguments env at' = .ok p)
    (hi : Innards (parseStr env n) p ns) (he : ns ≠ [emptyText]) : ∃ i j, (d ≤ i ∧ i ≤ j ∧ j ≤ b) ∧ Tiles ln col src T i j ns := by
  have empty : ns = [] → ∃ i j, (d ≤ i ∧ i ≤ j ∧ j ≤ b) ∧ Tiles ln col src T i j ns := by
    rintro rfl; exact ⟨d, d, ⟨by omega, by omega, hdb⟩, .nil⟩
  rcases hi with hi | ⟨x, hx, hi⟩
  · exact empty hi
  have hv : at'.value = between T d b := by
    rcases hc with ⟨h1, h2, -⟩ | ⟨_, _, h, _⟩
    · rw [h2, h1]; simp [between]
    · exact h
  obtain ⟨l1, l2⟩ := args_lie (v := at'.value) (by rw [hv]; exact not_between hn _ _) (by rw [hv]; exact hu.1) (by rw [hv]; exact hu.2.1)
    (by rw [hv]; exact hu.2.2) hp
  have hx : x ∈ p.unnamed := by
    rcases hx with hx | ⟨kn, hk, -⟩
    · exact hx
    · rw [l2] at hk; cases hk
  obtain ⟨a', b', hcut⟩ := l1 x hx
  rcases hcut with ⟨-, h0, h0'⟩ | ⟨h1, h2, h3, h4⟩
  · -- an empty argument
    rcases hi with ⟨s, s', hi⟩ | hi
    · rw [h0] at hi
      obtain ⟨t, ht, htl⟩ := hW _ _ _ _ _ (by simp) (by simp) hi
      rw [List.prefix_nil] at ht
      subst ht
      exact empty htl.none.1
    · refine absurd ?_ he
      rw [hi, h0, h0']; rfl
  · have hne : d < b := by
      rcases hc with ⟨e1, e2, -⟩ | ⟨h, _⟩
      · rw [e2] at h2; simp at h2; omega
      · exact h
    obtain ⟨-, -, -, hctx⟩ := hc.resolve_left (by omega)
    have hlen : at'.value.length = b - d := by rw [hv, between_length hdb hbT]
    have hv' : at'.value = between T d (d + at'.value.length) := by rw [hlen, show d + (b - d) = b by omega]; exact hv
    have h2' : d + b' ≤ b := by have : b' ≤ at'.value.length := h2; omega
    have e1 := between_between hv' (Nat.le_of_lt h1) h2 (by omega)
    rw [h3] at hi
    rw [h4, hctx] at hi
    simp only [spanAt] at hi
    rw [e1] at hi
    have hsub : ∀ c, c ∉ between T d b → c ∉ between T (d + a') (d + b') := by
      intro c hc hx
      rw [← e1, hv] at hx
      exact not_between hc _ _ hx
    rcases hi with ⟨s, s', hi⟩ | hi
    · obtain ⟨t, ht, htl⟩ := hW _ _ _ _ _ (not_between hn _ _) (hsub _ hu.1) hi
      have hl := ht.length_le
      rw [between_length (by omega) (by omega)] at hl
      have ht' : t = between T (d + a') (d + a' + t.length) := by
        obtain ⟨r, hr⟩ := ht
        have := between_append (T := T) (a := d + a') (b := d + a' + t.length) (c := d + b') (by omega) (by omega) (by omega)
        rw [← hr] at this
        exact (List.append_inj this (by rw [between_length (by omega) (by omega)]; omega)).1
      refine ⟨d + a', d + a' + t.length, ⟨by omega, by omega, by omega⟩, ?_⟩
      dsimp only at htl
      rw [Nat.add_assoc] at htl
      have hT' : d + a' + t.length ≤ T.length := by omega
      exact Spec.Tiles.shift (d := d + a') (x := 0) ht' hT' htl
    · subst hi
      refine ⟨d + a', d + b', ⟨by omega, by omega, by omega⟩, .node (i := d + a') (j := d + a') (by omega) (by omega) ?_ (.inl ?_) (by intro k hk; cases hk)
        ⟨by omega, by omega, by omega⟩ (fun _ _ _ => .nil) .nil⟩
      · simp only [spanAt, Node.new, Node.ctx]; congr 1 <;> omega
      · rw [(whole_of (hsub _ hu.1)).2]

theorem chunk_macro (L : Lay toks ts0 e T ln col src) {env : Env} {n : Nat} (hW : ∀ k < n, Within env k) (hs : Stand toks ts0 e T a st)
    (h : parseMacro env toks n st = .ok ns st') :
    ∃ b, Stand toks ts0 e T b st' ∧ Chunk ln col src T a b ns := by
  cases n with
  | zero => simp only [parseMacro] at h; cases h
  | succ n =>
    simp only [parseMacro] at h
    obtain ⟨⟨name, p, ctx⟩, s1, h1, h⟩ := pm_inv h
    unfold macroHead at h1
    obtain ⟨o, s2, h2, h1⟩ := pm_inv h1
    obtain ⟨nm, s3, h3, h1⟩ := pm_inv h1
    obtain ⟨x1, s4, h4, h1⟩ := pm_inv h1
    obtain ⟨x2, s5, h5, h1⟩ := pm_inv h1
    obtain ⟨at', s6, h6, h1⟩ := pm_inv h1
    obtain ⟨z, s7, h7, h1⟩ := pm_inv h1
    obtain ⟨p', s8, h8, h1⟩ := pm_inv h1
    cases h1
    obtain ⟨_, _, _, _, _, _, a5, a6, a7⟩ := get_lit L hs h2
    obtain ⟨_, _, _, _, _, b5, b6, b7⟩ := get_typed L (by decide) a5 h3
    obtain ⟨_, _, _, _, _, _, c5, c6, c7⟩ := get_lit L b5 h4
    obtain ⟨_, _, _, _, _, _, d5, d6, d7⟩ := get_lit L c5 h5
    obtain ⟨b, e1, e2, e3⟩ := collectArgs_stand L d5 h6
    obtain ⟨_, _, _, _, _, _, f5, f6, f7⟩ := get_lit L e2 h7
    have g8 := Rests.lift (processArguments env at') _ _ _ h8
    have f8 := f5.same g8.1
    obtain ⟨g9, hmade⟩ := rests_dispatch env (rests_parseStr env n) name p (o.ctx.merge z.ctx) _ _ _ h
    have f9 := f8.same g9
    have hd : T.drop a = (c%"[" ++ name.value ++ c%"](" ++ between T (a + 1 + name.value.length + 1 + 1) b ++ c%")") ++ T.drop (b + 1) := by
      rw [a6, b6, c6, d6, drop_between e1, f6]
      simp
    obtain ⟨sl, hb⟩ := slice_eq hd hs.le f9.le
    have hctx : o.ctx.merge z.ctx = spanAt ln col src a (b + 1) := by rw [a7, f7, merge_span (by omega) (by omega)]
    refine ⟨b + 1, f9, ?_⟩
    rcases hmade with ⟨hif, hw⟩ | ⟨m, rfl, hc, hm, hinn⟩
    · exact .control (by omega) f9.le hw ⟨_, _, hif, sl⟩
    · refine .node (by omega) f9.le (hc.trans hctx) ?_ ?_ ?_
      · rw [sl]
        cases hm' : m.data with
        | text v => rw [hm'] at hm; exact hm.elim
        | verbatim v => rw [hm'] at hm; exact hm.elim
        | style v => rw [hm'] at hm; exact hm.elim
        | _ => rw [hm'] at hm; exact ⟨_, _, hm, rfl⟩
      · intro k hk; rw [hk] at hm; exact hm.elim
      · by_cases hu : Unadorned (between T a (b + 1)) ∧ m.content ≠ [emptyText]
        · have hu2 : Unadorned (between T (a + 1 + name.value.length + 1 + 1) b) := by
            have hmem : ∀ c, c ∉ between T a (b + 1) → c ∉ between T (a + 1 + name.value.length + 1 + 1) b := by
              intro c hc hx
              refine hc ?_
              rw [sl]; simp [hx]
            exact ⟨hmem _ hu.1.1, hmem _ hu.1.2.1, hmem _ hu.1.2.2⟩
          obtain ⟨i, j, q1, q2⟩ := innards_tiles (hW n (by omega)) L.newline e1 e2.le (e3 hu2.1) hu2 g8.2 hinn hu.2
          exact ⟨i, j, ⟨by omega, q1.2.1, by omega⟩, fun _ _ _ => q2⟩
        · exact ⟨a, a, ⟨Nat.le_refl _, Nat.le_refl _, by omega⟩, fun _ h1 h2 => absurd ⟨h1, h2⟩ hu⟩

theorem orElse_inv {α : Type} {f g : PM α} {s s' : TextSt} {x : α} (h : PM.orElse f g s = .ok x s') :
    f s = .ok x s' ∨ ∃ s2, f s = .fail s2 ∧ g { s2 with next := s.next } = .ok x s' := by
  unfold PM.orElse at h
  split at h
  · rename_i h1; cases h; exact .inl h1
  · rename_i s2 h1; exact .inr ⟨s2, h1, h⟩
  · cases h

/-- Tiles only cover columns from left to right. -/
theorem Strip.le (h : Strip ln col src T a b ns) : a ≤ b := by
  induction h with
  | nil => exact Nat.le_refl _
  | last h => cases h <;> omega
  | cons h _ _ ih => cases h <;> omega

theorem text_strips (L : Lay toks ts0 e T ln col src) {env : Env} (n : Nat) (hW : ∀ k < n, Within env k) :
    (∀ m st st' a ns, Stand toks ts0 e T a st → sentenceLoop env toks n m st = .ok ns st' → ∃ b, Stand toks ts0 e T b st' ∧ Strip ln col src T a b ns) ∧
    (∀ m st st' a ns, Stand toks ts0 e T a st → parseItem env toks n m st = .ok ns st' →
      (ns = [] ∧ Stand toks ts0 e T a st') ∨ ∃ b, Stand toks ts0 e T b st' ∧ Chunk ln col src T a b ns) ∧
    (∀ st st' a ns, Stand toks ts0 e T a st → parseStyle env toks n st = .ok ns st' → ∃ b, Stand toks ts0 e T b st' ∧ Chunk ln col src T a b ns) := by
  induction n with
  | zero =>
    refine ⟨?_, ?_, ?_⟩
    · intro m st st' a ns _ h; simp only [sentenceLoop] at h; cases h
    · intro m st st' a ns _ h; simp only [parseItem] at h; cases h
    · intro st st' a ns _ h; simp only [parseStyle] at h; cases h
  | succ n ih =>
    obtain ⟨ih1, ih2, ih3⟩ := ih fun k hk => hW k (by omega)
    refine ⟨?_, ?_, ?_⟩
    · intro m st st' a ns hs h
      simp only [sentenceLoop] at h
      obtain ⟨ms, s1, h1, h⟩ := pm_inv h
      rcases ih2 m st s1 a ms hs h1 with ⟨rfl, hs1⟩ | ⟨b, hs1, hc⟩
      · simp only [List.isEmpty_nil, if_true] at h
        cases h
        exact ⟨a, hs1, .nil⟩
      · cases ms with
        | nil =>
          simp only [List.isEmpty_nil, if_true] at h
          cases h
          exact ⟨b, hs1, .last hc⟩
        | cons x xs =>
          simp only [List.isEmpty_cons, Bool.false_eq_true, if_false] at h
          obtain ⟨rest, s2, h2, h⟩ := pm_inv h
          cases h
          obtain ⟨c, hs2, hr⟩ := ih1 m s1 _ b rest hs1 h2
          exact ⟨c, hs2, .cons hc (by simp) hr⟩
    · intro m st st' a ns hs h
      simp only [parseItem] at h
      obtain ⟨t, s1, h1, h⟩ := pm_inv h
      obtain ⟨ts, k1, k2, k3⟩ := id hs
      cases ts with
      | nil =>
        rw [peek_end_ok k2] at h1
        cases h1
        rw [if_pos (by simp [sentenceStop, L.eof.1, L.eof.2])] at h
        cases h
        exact .inl ⟨rfl, hs⟩
      | cons t1 ts =>
        rw [peek_ok k2] at h1
        cases h1
        split at h
        · cases h; exact .inl ⟨rfl, hs⟩
        · right
          have hlt : a < T.length := by
            have := value_ne L k1
            have : t.value.length ≠ 0 := by simpa using this
            simp at k3
            omega
          -- the alternatives, one after the other
          rcases orElse_inv h with r1 | ⟨s2, r1, h⟩
          · exact chunk_backslash L hs r1
          have hnb : ¬ (t.type = .LITERAL ∧ t.value = ['\\']) := by
            intro ht
            obtain ⟨_, _, hg⟩ := backslash_goes k2 ht
            rw [r1] at hg; cases hg
          rcases orElse_inv h with r1 | ⟨s3, _, h⟩
          · exact chunk_macro L (fun k hk => hW k (by omega)) (hs.reset _) r1
          rcases orElse_inv h with r1 | ⟨s4, _, h⟩
          · exact chunk_verbatim L (hs.reset _) r1
          rcases orElse_inv h with r1 | ⟨s5, _, h⟩
          · exact chunk_escaped L (hs.reset _) r1
          rcases orElse_inv h with r1 | ⟨s6, _, h⟩
          · exact ih3 _ _ _ _ (hs.reset _) r1
          refine chunk_word L (hs.reset _) hlt ?_ h
          intro t' ts' hp
          have e1 := At.peek_cons hp none none none
          have e2 := At.peek_cons k2 none none none
          rw [check_any] at e1 e2
          rw [e2] at e1
          cases e1
          exact hnb
    · intro st st' a ns hs h
      simp only [parseStyle] at h
      obtain ⟨o, s1, h1, h⟩ := pm_inv h
      obtain ⟨cs, s2, h2, h⟩ := pm_inv h
      obtain ⟨z, s3, h3, h⟩ := pm_inv h
      cases h
      obtain ⟨hc, ts, g1, _, _, g5, g6, g7⟩ := get_typed L (by decide) hs h1
      rw [check_pred] at hc
      have hval : ∃ c k, styleOf c = some k ∧ o.value = [c] := by
        split at hc
        · rename_i hm
          have hk := L.text.kinds o (g1.subset (by simp))
          rcases hk with hk | ⟨_, d, hd, hv⟩
          · rw [hm.1] at hk; cases hk
          · have := hm.2
            rw [hv, styleName_eq, Option.isSome_iff_exists] at this
            obtain ⟨k, hk⟩ := this
            exact ⟨d, k, hk, hv⟩
        · cases hc
      obtain ⟨c, k, hk, hv⟩ := hval
      rw [hv] at g5 g6 g7 h2 h3
      simp only [List.length_singleton] at g5 g6 g7
      obtain ⟨b, i1, i2⟩ := ih1 _ _ _ _ _ g5 h2
      obtain ⟨_, _, _, _, _, _, q5, q6, q7⟩ := get_lit L i1 h3
      have hab := i2.le
      obtain ⟨sl, hb⟩ := slice_eq (x := [c] ++ between T (a + 1) b ++ [c]) (T := T) (a := a) (b := b + 1)
        (by rw [g6, drop_between hab, q6]; simp) hs.le q5.le
      refine ⟨b + 1, q5, .node (by omega) q5.le ?_ ?_ ?_ ⟨a, a, ⟨Nat.le_refl _, Nat.le_refl _, by omega⟩, fun h => absurd rfl (h _)⟩⟩
      · show o.ctx.merge z.ctx = _
        rw [g7, q7, merge_span (by omega) (by omega)]
      · show Spells _ (.style ((styleName o.value).getD []))
        rw [hv, styleName_eq, hk]
        exact ⟨c, _, hk, sl⟩
      · intro _ _
        exact (tiles_group i2).1

theorem main_tiles (L : Lay toks ts0 e T ln col src) {env : Env} (n : Nat) (hW : ∀ k < n, Within env k) : ∀ last st acc ns st' a, Stand toks ts0 e T a st → Tiles ln col src T 0 a acc →
    textMain env toks n last st acc = .ok (ns, st') → Tiles ln col src T 0 T.length ns := by
  induction n with
  | zero => intro last st acc ns st' a _ _ h; simp only [textMain] at h; cases h
  | succ n ih =>
    intro last st acc ns st' a hs ha h
    simp only [textMain] at h
    split at h
    · cases h
    · rename_i hp
      cases h
      obtain ⟨ts, k1, k2, k3⟩ := hs
      cases ts with
      | nil => have : a = T.length := by simpa [toksText] using k3.symm
               rw [← this]; exact ha
      | cons t ts =>
        exfalso
        have := At.peekIs_cons' k2 .EOF
        rw [hp] at this
        have hk := L.text.kinds t (k1.subset (by simp))
        rcases hk with hk | ⟨hk, _⟩ <;> simp [hk] at this
    · split at h
      · cases h
      · split at h
        · cases h
        · split at h
          · rename_i hr
            obtain ⟨b, i1, i2⟩ := (text_strips L n fun k hk => hW k (by omega)).1 _ _ _ _ _ hs hr
            exact ih (fun k hk => hW k (by omega)) _ _ _ _ _ b i1 (ha.append (tiles_group i2).1) h
          · cases h
          · cases h

end


/-! ## The tokens of a line -/

theorem text_lay (text : Str) (hnl : '\n' ∉ text) (hb : text = [] ∨ isBlank text = false) (hl : trimEnd text = text ∨ (trimEnd text).getLast? ≠ some '\\')
    (sl sc : Nat) (src : Option Str) :
    ∃ ts e, lexText (TextBuffer.ofText text sl sc src) = .ok (ts ++ [e]) ∧ Lay (ts ++ [e]) ts e (trimEnd text) sl sc src := by
  obtain ⟨ts, e, h1, h2, h3, h4, _⟩ := text_single text hnl hb sl sc src
  refine ⟨ts, e, h1, rfl, ⟨h2, h3⟩, h4, ?_, ?_, ?_⟩
  case refine_3 =>
    obtain ⟨sp, -, hsp, -⟩ := trimEnd_spec text
    intro hx
    exact hnl (by rw [hsp]; simp [hx])
  all_goals
    rw [lexText_eq] at h1
    simp only [Except.ok.injEq] at h1
  · intro t us hs
    rcases hb with rfl | hb
    · have := h4.nil_inv
      subst this
      simp at hs
    · have he : text ≠ [] := by rintro rfl; simp [isBlank] at hb
      have hls : Spec.lines text = [text] := by simp [Spec.lines, he, splitChar_of_not_mem hnl]
      rw [hls] at h1
      simp only [inlineTokens, hb, Bool.false_eq_true, if_false] at h1
      have hts : ts = place sl src sc (cutLine textCut text.length text) := by
        split at h1
        · exact (List.append_inj' h1 rfl).1.symm
        · exact (List.append_inj' h1 rfl).1.symm
      have hT := h4.text
      rw [hts, place_text (cutLine_pieces _ _)] at hT
      rw [hts] at hs
      rw [← hT]
      exact place_ctx (cutLine_pieces _ _) _ _ _ hs
  · intro hlast
    have htr : trimEnd text = text := hl.resolve_right fun h => h hlast
    rw [htr]
    rcases hb with rfl | hb
    · simp only [Spec.lines, if_true, inlineTokens] at h1
      have : ts = [] := h4.nil_inv
      subst this
      simp only [List.nil_append, List.cons.injEq, and_true] at h1
      rw [← h1]; rfl
    · have he : text ≠ [] := by rintro rfl; simp [isBlank] at hb
      have hls : Spec.lines text = [text] := by simp [Spec.lines, he, splitChar_of_not_mem hnl]
      rw [hls] at h1
      simp only [inlineTokens, hb, Bool.false_eq_true, if_false] at h1
      have hts : ts = place sl src sc (cutLine textCut text.length text) := by
        split at h1
        · exact (List.append_inj' h1 rfl).1.symm
        · exact (List.append_inj' h1 rfl).1.symm
      have hT := h4.text
      rw [hts, place_text (cutLine_pieces _ _), htr] at hT
      rw [if_pos ⟨trivial, by rw [hT]⟩] at h1
      have := (List.append_inj' h1 rfl).2
      simp only [List.cons.injEq, and_true] at this
      rw [← this]; rfl

/-- The text parser on a blank text. -/
theorem blank_main {env : Env} {t e : Token} {uid n : Nat} {ns : List Node} {s' : TextSt} (he : e.type = .EOF ∧ e.value = []) (h4 : t.type = .EOL) (h5 : t.value ≠ [])
    (h : textMain env [t, e] n initialLast { uid := uid } [] = .ok (ns, s')) : ns = [Node.new (.text t.value) (t.ctx.merge t.ctx)] := by
  have hp : Pos [t, e] ({ uid := uid } : TextSt) [t] e := At.start [t] e he
  have hstop : sentenceStop none t = false := by simp [sentenceStop, h4, h5]
  have hi := item_go env none hp hstop
  rw [alternatives_word hp (by simp [h4]) (by simp [h4]) (by simp [h4]) (by simp [h4]) (by simp [h4])] at hi
  have hs := sentence_go env none hi (by simp) (sentence_stop env none (item_end env none hp.next))
  have hm : mainP env [t, e] initialLast { uid := uid } [] =
      .ok ([Node.new (.text t.value) (t.ctx.merge t.ctx)], { ({ uid := uid } : TextSt) with next := 1 }) := by
    rw [mainP_eq, At.peekIs_cons' hp]
    have hpk : TM.peek ⟨[t, e], ({ uid := uid } : TextSt).next⟩ = .ok t := by rw [At.peek_cons hp]; exact check_any t
    have hne : t ≠ initialLast := by rintro rfl; simp [initialLast, Token.generate] at h4
    simp only [h4, reduceCtorEq, decide_false, hpk, if_neg hne]
    rw [hs]
    simp only
    rw [mainP_eq, At.peekIs_nil' hp.next]
    simp only [he.1, decide_true]
    rfl
  obtain ⟨N, hN⟩ := mainP_ev env [t, e] initialLast { uid := uid } []
  have hk : ∀ k, textMain env [t, e] (n + k) initialLast { uid := uid } [] = .ok (ns, s') := by
    intro k
    induction k with
    | zero => exact h
    | succ k ih =>
      rcases (text_mono env (n + k)).2.2.2.2.2 [t, e] initialLast { uid := uid } [] with h1 | h1
      · rw [ih] at h1; cases h1
      · rw [← Nat.add_assoc, ← h1, ih]
  have h1 : textMain env [t, e] (n + N) initialLast { uid := uid } [] = _ := hN (n + N) (by omega)
  rw [hk N, hm] at h1
  cases h1
  rfl

theorem within_all (env : Env) (n : Nat) : Within env n := by
  induction n using Nat.strongRecOn with
  | _ n ih =>
    intro v c st st' ns hn hb h
    cases n with
    | zero => simp only [parseStr] at h; cases h
    | succ n =>
      simp only [parseStr] at h
      by_cases hbl : v = [] ∨ isBlank v = false
      · have hsub : trimEnd v <+: v := by
          obtain ⟨sp, -, hsp, -⟩ := trimEnd_spec v
          exact ⟨sp, hsp.symm⟩
        have hlast : (trimEnd v).getLast? ≠ some '\\' := fun hx => hb (hsub.subset (List.mem_of_getLast? hx))
        obtain ⟨ts, e, h1, L⟩ := text_lay v hn hbl (.inr hlast) c.startLine c.startColumn c.source
        rw [h1] at h
        dsimp only at h
        split at h
        · cases h
        · rename_i hm
          cases h
          have hs : Stand (ts ++ [e]) ts e (trimEnd v) 0 { uid := st.uid } :=
            ⟨ts, List.suffix_refl _, (At.start ts e L.eof : At ⟨ts ++ [e], 0⟩ ts e), by rw [L.text.text]; omega⟩
          exact ⟨trimEnd v, hsub, main_tiles L n (fun k hk => ih k (by omega)) _ _ _ _ _ 0 hs .nil hm⟩
      · have hne : v ≠ [] := fun hx => hbl (.inl hx)
        have hblank : isBlank v = true := by
          cases hx : isBlank v with
          | true => rfl
          | false => exact absurd (.inr hx) hbl
        have hl : Spec.lines v = [v] := by simp [Spec.lines, hne, splitChar_of_not_mem hn]
        rw [lexText_eq, hl] at h
        simp only [inlineTokens, hblank, if_true, hne, false_and, if_false] at h
        split at h
        · cases h
        · rename_i hm
          cases h
          have := blank_main ⟨rfl, rfl⟩ rfl hne hm
          subst this
          refine ⟨v, List.prefix_refl _, .node (i := 0) (j := 0) (List.length_pos_iff.2 hne) (Nat.le_refl _) ?_ (.inl ?_) (by intro k hk; cases hk)
            ⟨by omega, by omega, by omega⟩ (fun _ _ _ => .nil) .nil⟩
          · simp only [Node.new, Node.ctx, tokAt, Context.merge, spanAt]
            congr 1 <;> omega
          · have : between v 0 v.length = v := by simp [between]
            rw [this, (whole_of hb).2]; rfl

theorem parseText_tiles {fuel : Nat} {env : Env} {text : Str} {line column uid : Nat} {source : Option Str} {r : TextResult}
    (hn : '\n' ∉ text) (hb : text = [] ∨ isBlank text = false) (hl : trimEnd text = text ∨ (trimEnd text).getLast? ≠ some '\\')
    (h : parseText fuel env text line column source uid = .ok r) :
    Tiles line column source (trimEnd text) 0 (trimEnd text).length r.nodes := by
  obtain ⟨ts, e, h1, L⟩ := text_lay text hn hb hl line column source
  unfold parseText at h
  rw [h1] at h
  dsimp only at h
  split at h
  · cases h
  · rename_i hm
    cases h
    have hs : Stand (ts ++ [e]) ts e (trimEnd text) 0 { uid := uid } :=
      ⟨ts, List.suffix_refl _, (At.start ts e L.eof : At ⟨ts ++ [e], 0⟩ ts e), by rw [L.text.text]; omega⟩
    exact main_tiles L fuel (fun k _ => within_all env k) _ _ _ _ _ 0 hs .nil hm

end Mau
