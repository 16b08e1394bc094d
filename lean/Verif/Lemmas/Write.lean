import Verif.Spec.Write
import Verif.Props.Plain

set_option linter.unusedSimpArgs false

/-!
# Written text is read back
-/

namespace Mau
open Spec

/-! ## Variables -/

theorem pre_append {env : Env} {a a' b b' : Str} (h1 : PreUnits env a a') (h2 : PreUnits env b b') : PreUnits env (a ++ b) (a' ++ b') :=
  units_append h1 h2

theorem pre_plain {env : Env} {s : Str} (h : ∀ c ∈ s, c ∉ c%"\\`{}") : PreUnits env s s := by
  refine units_plain fun c hc hp => h c hc ?_
  rcases hp with rfl | rfl | rfl | rfl <;> decide

theorem pre_guarding {env : Env} {K : Str} (hK : K = [] ∨ K = argMarks) (t : Str) :
    PreUnits env (guarding (textMarks ++ braces ++ K) t) (guarding (textMarks ++ [] ++ K) t) := by
  induction t with
  | nil => exact .nil
  | cons c t ih =>
    unfold guarding at ih ⊢
    rw [List.flatMap_cons, List.flatMap_cons]
    refine units_append ?_ ih
    by_cases hb : c = '{' ∨ c = '}'
    · have e1 : c ∈ textMarks ++ braces ++ K := by rcases hb with rfl | rfl <;> simp [braces]
      have e2 : c ∉ textMarks ++ [] ++ K := by
        rcases hb with rfl | rfl <;> rcases hK with rfl | rfl <;> decide
      rw [if_pos e1, if_neg e2]
      exact units_one (.escBrace c hb)
    · have hb1 : c ∉ braces := by
        intro h
        simp only [braces, List.mem_cons, List.not_mem_nil, or_false] at h
        exact hb h
      by_cases hm : c ∈ textMarks ++ [] ++ K
      · have e1 : c ∈ textMarks ++ braces ++ K := by
          simp only [List.append_nil, List.mem_append] at hm ⊢
          rcases hm with h | h
          · exact .inl (.inl h)
          · exact .inr h
        rw [if_pos e1, if_pos hm]
        exact units_one (.escOther c (by simpa using hb))
      · have e1 : c ∉ textMarks ++ braces ++ K := by
          simp only [List.append_nil, List.mem_append] at hm ⊢
          rintro ((h | h) | h)
          · exact hm (.inl h)
          · exact hb1 h
          · exact hm (.inr h)
        rw [if_neg e1, if_neg hm]
        refine units_one (.plain c ?_)
        rintro (rfl | rfl | h)
        · exact hm (List.mem_append_left _ (by decide))
        · exact hm (List.mem_append_left _ (by decide))
        · exact hb h

theorem span_guarding {K t : Str} (hK : K = [] ∨ K = argMarks) (h : '\\' ∉ t) : Span '`' (guarding ('`' :: K) t) := by
  induction t with
  | nil => exact .nil
  | cons c t ih =>
    unfold guarding at ih ⊢
    rw [List.flatMap_cons]
    have ih := ih (fun hc => h (by simp [hc]))
    by_cases hc : c ∈ '`' :: K
    · rw [if_pos hc]; exact .esc c _ ih
    · rw [if_neg hc]
      exact .plain c _ (fun e => hc (by simp [e])) (fun e => h (by simp [e])) ih

theorem style_mark {c : Char} (h : (styleOf c).isSome) : c ∈ c%"_*^~" := by
  unfold styleOf at h
  by_cases h1 : c = '_'; · subst h1; decide
  by_cases h2 : c = '*'; · subst h2; decide
  by_cases h3 : c = '^'; · subst h3; decide
  by_cases h4 : c = '~'; · subst h4; decide
  rw [if_neg h1, if_neg h2, if_neg h3, if_neg h4] at h
  cases h

theorem pre_mark {env : Env} {c : Char} (h : (styleOf c).isSome) : PreUnits env [c] [c] := by
  refine pre_plain fun d hd => ?_
  rw [List.mem_singleton.1 hd]
  have : ∀ x ∈ c%"_*^~", x ∉ c%"\\`{}" := by decide
  exact this c (style_mark h)

theorem guarding_nil (t : Str) : guarding [] t = t := by
  unfold guarding
  induction t with
  | nil => rfl
  | cons c t ih => rw [List.flatMap_cons, ih]; rfl

theorem pre_target {env : Env} {t : Str} (h : ∀ c ∈ t, c ∉ c%"\"\\`\n") : PreUnits env (guarding braces t) (guarding [] t) := by
  rw [guarding_nil]
  induction t with
  | nil => exact .nil
  | cons c t ih =>
    unfold guarding at ih ⊢
    rw [List.flatMap_cons]
    refine units_append (a' := [c]) ?_ (ih fun d hd => h d (by simp [hd]))
    have hc := h c (by simp)
    by_cases hb : c ∈ braces
    · rw [if_pos hb]
      simp only [braces, List.mem_cons, List.not_mem_nil, or_false] at hb
      exact units_one (.escBrace c hb)
    · rw [if_neg hb]
      refine units_one (.plain c ?_)
      rintro (rfl | rfl | rfl | rfl)
      · exact hc (by decide)
      · exact hc (by decide)
      · exact hb (by decide)
      · exact hb (by decide)

/-- What may stand in front of a text: nothing, or a backslash if the text starts with an ordinary character. -/
def Ahead (K pre : Str) (r : Rich) : Prop :=
  pre = [] ∨ pre = ['\\'] ∧ ∃ c t rest, r = .text (c :: t) rest ∧ c ∉ textMarks ++ braces ++ K

theorem guarding_cons (set : Str) (c : Char) (t : Str) : guarding set (c :: t) = (if c ∈ set then ['\\', c] else [c]) ++ guarding set t := by
  unfold guarding; rw [List.flatMap_cons]

theorem pre_ahead {env : Env} {K pre : Str} {r : Rich} (hK : K = [] ∨ K = argMarks) (ha : Ahead K pre r)
    (h : PreUnits env (r.write braces K) (r.write [] K))
    (hr : ∀ t rest, r = .text t rest → PreUnits env (rest.write braces K) (rest.write [] K)) :
    PreUnits env (pre ++ r.write braces K) (pre ++ r.write [] K) := by
  rcases ha with rfl | ⟨rfl, c, t, rest, rfl, hc⟩
  · exact h
  · simp only [Rich.write, guarding_cons]
    have hc2 : c ∉ textMarks ++ [] ++ K := by
      intro h; apply hc
      simp only [List.append_nil, List.mem_append] at h ⊢
      rcases h with h | h
      · exact .inl (.inl h)
      · exact .inr h
    rw [if_neg hc, if_neg hc2]
    have h1 : PreUnits env ['\\', c] ['\\', c] := by
      refine units_one (.escOther c ⟨?_, ?_⟩) <;> rintro rfl <;> exact hc (by simp [braces])
    have := units_append h1 (units_append (pre_guarding (env := env) hK t) (hr _ rest rfl))
    simpa using this

theorem ahead_opening {K set : Str} {r : Rich} (h : ∀ c ∈ set, c ∉ textMarks ++ braces ++ K) : Ahead K (r.opening set) r := by
  unfold Rich.opening
  cases r with
  | text t rest =>
    cases t with
    | nil => exact .inl rfl
    | cons c t =>
      by_cases hc : c ∈ set
      · have e : Rich.startsWith set (.text (c :: t) rest) = true := by simp [Rich.startsWith, hc]
        rw [e]
        exact .inr ⟨rfl, c, t, rest, rfl, h c hc⟩
      · have e : Rich.startsWith set (.text (c :: t) rest) = false := by simp [Rich.startsWith, hc]
        rw [e]
        exact .inl rfl
  | _ => exact .inl rfl

theorem pre_values {env : Env} {vs : List Str} (h : ∀ v ∈ vs, ∀ c ∈ v, c ∉ c%"\"\\`\n") :
    PreUnits env (joinWith c%", " (vs.map fun v => c%"\"" ++ guarding braces v ++ c%"\"")) (joinWith c%", " (vs.map fun v => c%"\"" ++ guarding [] v ++ c%"\"")) := by
  induction vs with
  | nil => exact .nil
  | cons v vs ih =>
    have h1 : PreUnits env (c%"\"" ++ guarding braces v ++ c%"\"") (c%"\"" ++ guarding [] v ++ c%"\"") :=
      units_append (units_append (pre_plain (by decide)) (pre_target (h v (by simp)))) (pre_plain (by decide))
    have h2 := ih fun w hw => h w (by simp [hw])
    cases vs with
    | nil => exact h1
    | cons w vs => exact units_append (units_append h1 (pre_plain (by decide))) h2

theorem call_name_ne {call : Call} {vs : List Str} (h : call.Ok vs) : call.name ≠ [] := by
  cases call with
  | custom name => exact h.count.1
  | _ => simp [Call.name]

theorem call_name_char {call : Call} {vs : List Str} (h : call.Ok vs) : ∀ c ∈ call.name, c ∉ inlineSpecial ++ c%" {}\n" := by
  cases call with
  | custom name => exact h.count.2.1
  | _ => decide

theorem call_name_plain {call : Call} {vs : List Str} (h : call.Ok vs) : ∀ c ∈ call.name, c ∉ c%"\\`{}" := by
  intro c hc hx
  have hd : ∀ c ∈ c%"\\`{}", c ∈ inlineSpecial ++ c%" {}\n" := by decide
  exact call_name_char h c hc (hd c hx)

theorem call_name_word {call : Call} {vs : List Str} (h : call.Ok vs) : ∀ c ∈ call.name, nameChar c := by
  intro c hc
  have := call_name_char h c hc
  simp only [List.mem_append, not_or] at this
  exact ⟨this.1, fun e => this.2 (by rw [e]; decide)⟩

theorem pre_write (env : Env) (r : Rich) : ∀ (links : Bool) (m : Option Char) (K : Str) (_ : K = [] ∨ K = argMarks), r.Ok links m →
    PreUnits env (r.write braces K) (r.write [] K) ∧
    ∀ t rest, r = .text t rest → PreUnits env (rest.write braces K) (rest.write [] K) := by
  induction r with
  | nil => intro links m K hK h; exact ⟨.nil, fun _ _ e => by cases e⟩
  | text t rest ih =>
    intro links m K hK h
    have hr := (ih links m K hK h.2.2.2).1
    refine ⟨?_, fun _ _ e => by cases e; exact hr⟩
    simp only [Rich.write]
    exact units_append (pre_guarding hK t) hr
  | verbatim t rest ih =>
    intro links m K hK h
    refine ⟨?_, fun _ _ e => by cases e⟩
    simp only [Rich.write]
    refine units_append ?_ (ih links m K hK h.2.2).1
    exact units_one (.span _ (span_guarding hK h.1))
  | style mark inner rest ih1 ih2 =>
    intro links m K hK h
    refine ⟨?_, fun _ _ e => by cases e⟩
    simp only [Rich.write]
    exact units_append (units_append (units_append (pre_mark h.1) (ih1 _ _ K hK h.2.2.1).1) (pre_mark h.1)) (ih2 _ _ K hK h.2.2.2).1
  | link target inner rest ih1 ih2 =>
    intro links m K hK h
    refine ⟨?_, fun _ _ e => by cases e⟩
    obtain ⟨h1, h2, h3, h4, h5, h6, h7, h8⟩ := h
    have hi := ih1 _ _ argMarks (.inr rfl) h4
    simp only [Rich.write]
    refine units_append (units_append ?_ (pre_plain (by decide))) (ih2 _ _ K hK h8).1
    rw [List.append_assoc, List.append_assoc (c%"[link](\"" ++ guarding [] target ++ c%"\", \"")]
    refine units_append (units_append (units_append (pre_plain (by decide)) (pre_target h2)) (pre_plain (by decide))) ?_
    exact pre_ahead (.inr rfl) (ahead_opening (by decide)) hi.1 hi.2
  | call kind values rest ih =>
    intro links m K hK h
    refine ⟨?_, fun _ _ e => by cases e⟩
    obtain ⟨h1, h2, h3⟩ := h
    simp only [Rich.write]
    refine units_append (units_append (units_append (units_append (units_append (pre_plain (by decide)) (pre_plain (call_name_plain h2))) (pre_plain (by decide)))
      (pre_values fun v hv c hc hx => (h2.plain v hv).1 c hc ?_)) (pre_plain (by decide))) (ih links m K hK h3).1
    simp only [List.mem_cons, List.not_mem_nil, or_false] at hx ⊢
    rcases hx with hx | hx | hx | hx <;> simp [hx]
  | classes names inner rest ih1 ih =>
    intro links m K hK h
    refine ⟨?_, fun _ _ e => by cases e⟩
    obtain ⟨h1, h2, h3, h4, h5, h6⟩ := h
    simp only [Rich.write]
    refine units_append (units_append (units_append (units_append (units_append (pre_plain (by decide))
      (pre_values fun v hv c hc hx => (h3 v hv).1 c hc ?_)) (pre_plain (by decide))) (ih1 _ _ argMarks (.inr rfl) h4).1) (pre_plain (by decide))) (ih links m K hK h6).1
    simp only [List.mem_cons, List.not_mem_nil, or_false] at hx ⊢
    rcases hx with hx | hx | hx | hx <;> simp [hx]

/-! ## The nodes -/

/-- The nodes of the text, each character of plain text a word. -/
def Spec.Rich.words : Rich → List Node
  | .nil => []
  | .text t rest => charWords t ++ rest.words
  | .verbatim t rest => node (.verbatim t) :: rest.words
  | .style mark inner rest => node (.style ((styleOf mark).getD [])) inner.nodes :: rest.words
  | .link target inner rest => node (.macroLink target) inner.nodes :: rest.words
  | .call kind values rest => kind.node values :: rest.words
  | .classes names inner rest => node (.macroClass names) inner.nodes :: rest.words

theorem joinWords_text {r : Rich} (h : r.isText = false) (acc : Str) (hr : joinWords none r.words = r.nodes) :
    joinWords (some acc) r.words = node (.text acc) :: r.nodes := by
  cases r with
  | text t rest => cases h
  | nil => rfl
  | verbatim t rest =>
    simp only [Rich.words, Rich.nodes] at hr ⊢
    rw [joinWords_cons] at hr ⊢
    simp only [node, Node.new, Node.data] at hr ⊢
    rw [hr]
  | style mark inner rest =>
    simp only [Rich.words, Rich.nodes] at hr ⊢
    rw [joinWords_cons] at hr ⊢
    simp only [node, Node.new, Node.data] at hr ⊢
    rw [hr]
  | link target inner rest =>
    simp only [Rich.words, Rich.nodes] at hr ⊢
    rw [joinWords_cons] at hr ⊢
    simp only [node, Node.new, Node.data] at hr ⊢
    rw [hr]
  | call kind values rest =>
    simp only [Rich.words, Rich.nodes] at hr ⊢
    rw [joinWords_cons] at hr ⊢
    cases kind <;> (simp only [Call.node, node, Node.new, Node.data] at hr ⊢; rw [hr])
  | classes names inner rest =>
    simp only [Rich.words, Rich.nodes] at hr ⊢
    rw [joinWords_cons] at hr ⊢
    simp only [node, Node.new, Node.data] at hr ⊢
    rw [hr]

theorem joinWords_words (r : Rich) : ∀ (links : Bool) (m : Option Char), r.Ok links m → joinWords none r.words = r.nodes := by
  induction r with
  | nil => intro _ _ _; rfl
  | text t rest ih =>
    intro links m h
    have hr := ih links m h.2.2.2
    simp only [Rich.words, Rich.nodes]
    cases t with
    | nil => exact absurd rfl h.1
    | cons c t =>
      have e1 : joinWords none (charWords (c :: t) ++ rest.words) = joinWords (some [c]) (charWords t ++ rest.words) := rfl
      rw [e1, joinWords_charWords]
      exact joinWords_text h.2.2.1 _ hr
  | verbatim t rest ih =>
    intro links m h
    have hr := ih links m h.2.2
    simp only [Rich.words, Rich.nodes]
    rw [joinWords_cons]
    simp only [node, Node.new, Node.data]
    rw [hr]
  | style mark inner rest ih1 ih =>
    intro links m h
    have hr := ih links m h.2.2.2
    simp only [Rich.words, Rich.nodes]
    rw [joinWords_cons]
    simp only [node, Node.new, Node.data]
    rw [hr]
  | link target inner rest ih1 ih =>
    intro links m h
    have hr := ih links m h.2.2.2.2.2.2.2
    simp only [Rich.words, Rich.nodes]
    rw [joinWords_cons]
    simp only [node, Node.new, Node.data]
    rw [hr]
  | call kind values rest ih =>
    intro links m h
    have hr := ih links m h.2.2
    simp only [Rich.words, Rich.nodes]
    rw [joinWords_cons]
    cases kind <;> (simp only [Call.node, node, Node.new, Node.data]; rw [hr])
  | classes names inner rest ih1 ih =>
    intro links m h
    have hr := ih links m h.2.2.2.2.2
    simp only [Rich.words, Rich.nodes]
    rw [joinWords_cons]
    simp only [node, Node.new, Node.data]
    rw [hr]

/-! ## Text in quotes -/

/-- `m` is the value of the quoted text `a` between brackets. -/
inductive InQuotes : (a m : Str) → Prop where
  | nil : InQuotes [] []
  | plain (c : Char) {a m : Str} (hc : c ∉ c%"\\\")") (h : InQuotes a m) : InQuotes (c :: a) (c :: m)
  | mark (c : Char) {a m : Str} (hc : c ∈ argMarks) (h : InQuotes a m) : InQuotes ('\\' :: c :: a) (c :: m)
  | pair (c : Char) {a m : Str} (hc : c ∉ argMarks) (h : InQuotes a m) : InQuotes ('\\' :: c :: a) ('\\' :: c :: m)

theorem InQuotes.append {a m b n : Str} (h1 : InQuotes a m) (h2 : InQuotes b n) : InQuotes (a ++ b) (m ++ n) := by
  induction h1 with
  | nil => exact h2
  | plain c hc _ ih => exact .plain c hc ih
  | mark c hc _ ih => exact .mark c hc ih
  | pair c hc _ ih => exact .pair c hc ih

theorem InQuotes.span {a m : Str} (h : InQuotes a m) : Span ')' a := by
  induction h with
  | nil => exact .nil
  | plain c hc _ ih => exact .plain c _ (fun e => hc (by simp [e])) (fun e => hc (by simp [e])) ih
  | mark c hc _ ih => exact .esc c _ ih
  | pair c hc _ ih => exact .esc c _ ih

theorem InQuotes.unescape {a m : Str} (h : InQuotes a m) (b : Str) : Spec.unescape ')' (a ++ b) = escapeQuotes m ++ Spec.unescape ')' b := by
  induction h with
  | nil => rfl
  | plain c hc _ ih =>
    have e1 : escChar c = false := by simp [escChar]; exact fun e => hc (by simp [e])
    have e2 : c ≠ '"' := fun e => hc (by simp [e])
    unfold Spec.unescape at ih ⊢
    rw [List.cons_append, unesc_plain e1, ih]
    simp [escapeQuotes, e2]
  | mark c hc _ ih =>
    simp only [argMarks, List.mem_cons, List.not_mem_nil, or_false] at hc
    unfold Spec.unescape at ih ⊢
    rcases hc with rfl | rfl
    · simp only [List.cons_append, unesc, escapeQuotes, ih]; simp [escChar, escapeQuotes]
    · simp only [List.cons_append, unesc, escapeQuotes, ih]; simp [escChar, escapeQuotes]
  | pair c hc _ ih =>
    have e1 : c ≠ ')' := fun e => hc (by simp [e, argMarks])
    have e2 : c ≠ '"' := fun e => hc (by simp [e, argMarks])
    unfold Spec.unescape at ih ⊢
    simp only [List.cons_append, unesc, escapeQuotes, ih]; simp [escChar, escapeQuotes, e1, e2]

theorem InQuotes.quotable {a m : Str} (h : InQuotes a m) : Quotable m := by
  induction h with
  | nil => exact .nil
  | plain c hc _ ih => exact .plain c _ (fun e => hc (by simp [e])) ih
  | mark c hc _ ih => exact .plain c _ (fun e => by subst e; simp [argMarks] at hc) ih
  | pair c hc _ ih => exact .pair c _ (fun e => hc (by simp [e, argMarks])) ih

theorem inQuotes_plain {s : Str} (h : ∀ c ∈ s, c ∉ c%"\\\")") : InQuotes s s := by
  induction s with
  | nil => exact .nil
  | cons c s ih => exact .plain c (h c (by simp)) (ih fun d hd => h d (by simp [hd]))

theorem inQuotes_text (t : Str) : InQuotes (guarding (textMarks ++ [] ++ argMarks) t) (guarding (textMarks ++ [] ++ []) t) := by
  induction t with
  | nil => exact .nil
  | cons c t ih =>
    rw [guarding_cons, guarding_cons]
    refine .append ?_ ih
    have hd : ∀ x ∈ textMarks, x ∉ argMarks := by decide
    simp only [List.append_nil] at *
    by_cases h1 : c ∈ textMarks
    · rw [if_pos (by simp [h1]), if_pos h1]
      exact .pair c (hd c h1) .nil
    · rw [if_neg h1]
      by_cases h2 : c ∈ argMarks
      · rw [if_pos (by simp [h2])]
        exact .mark c h2 .nil
      · rw [if_neg (by simp [h1, h2])]
        refine .plain c (fun e => ?_) .nil
        simp only [List.mem_cons, List.not_mem_nil, or_false] at e
        rcases e with rfl | rfl | rfl
        · exact h1 (by decide)
        · exact h2 (by decide)
        · exact h2 (by decide)

theorem inQuotes_verbatim {t : Str} (h : '\\' ∉ t) : InQuotes (guarding ('`' :: argMarks) t) (guarding ['`'] t) := by
  induction t with
  | nil => exact .nil
  | cons c t ih =>
    rw [guarding_cons, guarding_cons]
    refine .append ?_ (ih fun e => h (by simp [e]))
    have hc : c ≠ '\\' := fun e => h (by simp [e])
    by_cases h1 : c = '`'
    · subst h1
      exact .pair '`' (by decide) .nil
    · by_cases h2 : c ∈ argMarks
      · rw [if_pos (by simp [h2]), if_neg (by simp [h1])]
        exact .mark c h2 .nil
      · rw [if_neg (by simp [h1, h2]), if_neg (by simp [h1])]
        refine .plain c (fun e => ?_) .nil
        simp only [List.mem_cons, List.not_mem_nil, or_false] at e
        rcases e with rfl | rfl | rfl
        · exact hc rfl
        · exact h2 (by decide)
        · exact h2 (by decide)

theorem inQuotes_mark {c : Char} (h : (styleOf c).isSome) : InQuotes [c] [c] := by
  refine inQuotes_plain fun d hd => ?_
  rw [List.mem_singleton.1 hd]
  have : ∀ x ∈ c%"_*^~", x ∉ c%"\\\")" := by decide
  exact this c (style_mark h)

theorem inQuotes_write (r : Rich) : ∀ (m : Option Char), r.Ok false m → InQuotes (r.write [] argMarks) (r.write [] []) := by
  induction r with
  | nil => intro m h; exact .nil
  | text t rest ih => intro m h; exact .append (inQuotes_text t) (ih m h.2.2.2)
  | verbatim t rest ih =>
    intro m h
    exact .append (.append (.append (inQuotes_plain (by decide)) (inQuotes_verbatim h.1)) (inQuotes_plain (by decide))) (ih m h.2.2)
  | style mark inner rest ih1 ih2 =>
    intro m h
    exact .append (.append (.append (inQuotes_mark h.1) (ih1 _ h.2.2.1)) (inQuotes_mark h.1)) (ih2 m h.2.2.2)
  | link target inner rest ih1 ih2 => intro m h; exact absurd h.1 (by decide)
  | call kind values rest ih => intro m h; exact absurd h.1 (by decide)
  | classes names inner rest ih1 ih => intro m h; exact absurd h.1 (by decide)

theorem inQuotes_opening {r : Rich} {m : Option Char} (h : r.Ok false m) :
    InQuotes (r.opening c%"#@" ++ r.write [] argMarks) (r.opening c%"#@" ++ r.write [] []) := by
  rcases ahead_opening (K := argMarks) (set := c%"#@") (r := r) (by decide) with e | ⟨e, c, t, rest, rfl, hc⟩
  · rw [e]; exact inQuotes_write r m h
  · rw [e]
    have hr := inQuotes_write rest m h.2.2.2
    have hc1 : c ∉ textMarks := fun hx => hc (by simp [hx])
    have hc2 : c ∉ argMarks := fun hx => hc (by simp [hx])
    have h1 : guarding (textMarks ++ [] ++ argMarks) (c :: t) = c :: guarding (textMarks ++ [] ++ argMarks) t := by
      rw [guarding_cons, if_neg (by simp [hc1, hc2])]; rfl
    have h2 : guarding (textMarks ++ [] ++ []) (c :: t) = c :: guarding (textMarks ++ [] ++ []) t := by
      rw [guarding_cons, if_neg (by simp [hc1])]; rfl
    simp only [Rich.write]
    rw [h1, h2]
    exact .pair c hc2 (.append (inQuotes_text t) hr)

/-! ## Characters of the written text -/

theorem guarding_mem {set t : Str} {c : Char} (h : c ∈ guarding set t) : c = '\\' ∨ c ∈ t := by
  unfold guarding at h
  obtain ⟨d, hd, h⟩ := List.mem_flatMap.1 h
  split at h
  · simp only [List.mem_cons, List.not_mem_nil, or_false] at h
    rcases h with rfl | rfl
    · exact .inl rfl
    · exact .inr hd
  · rw [List.mem_singleton.1 h]; exact .inr hd

theorem no_newline {set t : Str} (h : '\n' ∉ t) : '\n' ∉ guarding set t := by
  intro hc
  rcases guarding_mem hc with e | e
  · exact absurd e (by decide)
  · exact h e

theorem ahead_no_newline {K pre : Str} {r : Rich} (h : Ahead K pre r) : '\n' ∉ pre := by
  rcases h with rfl | ⟨rfl, -⟩ <;> decide

theorem values_no_newline {vars : Str} {vs : List Str} (h : ∀ v ∈ vs, '\n' ∉ v) :
    '\n' ∉ joinWith c%", " (vs.map fun v => c%"\"" ++ guarding vars v ++ c%"\"") := by
  induction vs with
  | nil => exact List.not_mem_nil
  | cons v vs ih =>
    have h1 : '\n' ∉ c%"\"" ++ guarding vars v ++ c%"\"" := by
      simp only [List.mem_append, not_or]
      exact ⟨⟨by decide, no_newline (h v (by simp))⟩, by decide⟩
    have h2 := ih fun w hw => h w (by simp [hw])
    cases vs with
    | nil => exact h1
    | cons w vs =>
      intro hx
      rcases List.mem_append.1 hx with hx | hx
      · rcases List.mem_append.1 hx with hx | hx
        · exact h1 hx
        · exact absurd hx (by decide)
      · exact h2 hx

theorem write_no_newline (vars : Str) (r : Rich) : ∀ (links : Bool) (m : Option Char) (K : Str), r.Ok links m → '\n' ∉ r.write vars K := by
  induction r with
  | nil => intro links m K h; simp [Rich.write]
  | text t rest ih =>
    intro links m K h
    have h1 := ih _ _ K h.2.2.2
    have h2 := no_newline (set := textMarks ++ vars ++ K) h.2.1
    simp only [Rich.write, List.mem_append, not_or]
    exact ⟨h2, h1⟩
  | verbatim t rest ih =>
    intro links m K h
    have h1 := ih _ _ K h.2.2
    have h2 := no_newline (set := '`' :: K) h.2.1
    simp only [Rich.write, List.mem_append, not_or]
    exact ⟨⟨⟨by decide, h2⟩, by decide⟩, h1⟩
  | style mark inner rest ih1 ih2 =>
    intro links m K h
    have h1 := ih1 _ _ K h.2.2.1
    have h2 := ih2 _ _ K h.2.2.2
    have h3 : '\n' ∉ [mark] := by
      intro hx
      have hm := style_mark h.1
      rw [← List.mem_singleton.1 hx] at hm
      exact absurd hm (by decide)
    simp only [Rich.write, List.mem_append, not_or]
    exact ⟨⟨⟨h3, h1⟩, h3⟩, h2⟩
  | link target inner rest ih1 ih2 =>
    intro links m K h
    obtain ⟨h1, h2, h3, h4, h5, h6, h7, h8⟩ := h
    have k1 := ih1 _ _ argMarks h4
    have k2 := ih2 _ _ K h8
    have k3 : '\n' ∉ guarding vars target := no_newline fun hx => h2 _ hx (by decide)
    have k4 := ahead_no_newline (ahead_opening (K := argMarks) (set := c%"#@") (r := inner) (by decide))
    simp only [Rich.write, List.mem_append, not_or]
    exact ⟨⟨⟨⟨⟨⟨by decide, k3⟩, by decide⟩, k4⟩, k1⟩, by decide⟩, k2⟩
  | call kind values rest ih =>
    intro links m K h
    obtain ⟨h1, h2, h3⟩ := h
    have k1 := ih _ _ K h3
    have k2 : '\n' ∉ kind.name := fun hx => call_name_char h2 _ hx (by decide)
    have k3 := values_no_newline (vars := vars) fun v hv hx => (h2.plain v hv).1 _ hx (by decide)
    simp only [Rich.write, List.mem_append, not_or]
    exact ⟨⟨⟨⟨⟨by decide, k2⟩, by decide⟩, k3⟩, by decide⟩, k1⟩
  | classes names inner rest ih1 ih =>
    intro links m K h
    obtain ⟨h1, h2, h3, h4, h5, h6⟩ := h
    have k1 := ih1 _ _ argMarks h4
    have k2 := ih _ _ K h6
    have k3 := values_no_newline (vars := vars) fun v hv hx => (h3 v hv).1 _ hx (by decide)
    simp only [Rich.write, List.mem_append, not_or]
    exact ⟨⟨⟨⟨⟨by decide, k3⟩, by decide⟩, k1⟩, by decide⟩, k2⟩

theorem last_ahead {K pre s : Str} {r : Rich} (ha : Ahead K pre r) (h : s.getLast? ≠ some ' ') : (pre ++ s).getLast? ≠ some ' ' := by
  rw [List.getLast?_append]
  cases hl : s.getLast? with
  | some c => rw [hl] at h; simpa using h
  | none =>
    rcases ha with rfl | ⟨rfl, -⟩ <;> simp

theorem unescape_guarding {t : Str} (h : '\\' ∉ t) : unescape '`' (guarding ['`'] t) = t := by
  induction t with
  | nil => rfl
  | cons c t ih =>
    have ih := ih fun e => h (by simp [e])
    have hc : c ≠ '\\' := fun e => h (by simp [e])
    rw [guarding_cons]
    unfold unescape at ih ⊢
    by_cases h1 : c = '`'
    · subst h1
      rw [if_pos (by simp)]
      simp only [List.cons_append, List.nil_append, unesc, ih]
      simp [escChar]
    · rw [if_neg (by simp [h1]), List.singleton_append, unesc_plain (by simp [escChar, hc]), ih]

/-! ## The text of a line is read -/

/-- The meaning of macros that add nothing to the collections. -/
def Hushed (env : Env) : Str → Str → List Node → Prop := fun name args ns => MacroMeans env name args (.ok ns) ∧ MacroHush env name args

open Classical in
/-- The meaning of the macros that add nothing to the collections. -/
noncomputable def hushMeaning (env : Env) : Macros := fun name args => if MacroHush env name args then meaning env name args else none

theorem hushMeaning_right (env : Env) : MacrosRight env (hushMeaning env) := by
  intro name args r h
  unfold hushMeaning at h
  split at h
  · exact meaning_right env name args r h
  · cases h

theorem hushMeaning_hush (env : Env) (name args : Str) (ns : List Node) (h : hushMeaning env name args = some (.ok ns)) :
    MacroHush env name args := by
  unfold hushMeaning at h
  split at h
  · assumption
  · cases h

theorem hushMeaning_agrees (env : Env) : Agrees (Hushed env) (hushMeaning env) := by
  intro name args ns h
  unfold hushMeaning
  rw [if_pos h.2]
  exact meaning_eq h.1

/-- Reading the text gives these nodes, and nothing is collected. -/
def QuietText (env : Env) (s : Str) (ns : List Node) : Prop :=
  ∀ sl sc src uid, ∃ res, textP env s sl sc src uid = .ok res ∧ anonList res.nodes = ns ∧
    res.footnoteMacros = [] ∧ res.headerLinks = [] ∧ res.uid = uid ∧ res.places = []

theorem quiet_line {env : Env} {s : Str} {ns : List Node} (h : Inline (Hushed env) none s ns) (hn : '\n' ∉ s) (hl : s.getLast? ≠ some ' ') :
    QuietText env s (joinWords none ns) := by
  have e : inlineText (hushMeaning env) s = some (.ok (joinWords none ns)) := by
    rw [inlineText_loop _ hl, loop_line (hushMeaning_agrees env) (.line (line_of_inline h))]
  have := text_sound_hush (Q := True) (hushMeaning_right env) (fun _ => hushMeaning_hush env) hn e
  intro sl sc src uid
  obtain ⟨res, h1, h2, h3⟩ := this sl sc src uid
  exact ⟨res, h1, h2, h3 trivial⟩

theorem QuietText.parses {env : Env} {s : Str} {ns : List Node} (h : QuietText env s ns) : ParsesTo env s ns :=
  TextDenotes.parsesTo fun sl sc src uid => let ⟨res, h1, h2, _⟩ := h sl sc src uid; ⟨res, h1, h2⟩

theorem inline_text {R : Str → Str → List Node → Prop} {m : Option Char} (t : Str) : Inline R m (guarding (textMarks ++ [] ++ []) t) (charWords t) := by
  simp only [List.append_nil]
  induction t with
  | nil => exact .nil
  | cons c t ih =>
    rw [guarding_cons]
    by_cases hc : c ∈ textMarks
    · rw [if_pos hc]; exact .esc c ih
    · rw [if_neg hc]; exact .char c hc ih

theorem inline_ahead {R : Str → Str → List Node → Prop} {m : Option Char} {K pre : Str} {r : Rich} (ha : Ahead K pre r)
    (h : Inline R m (r.write [] []) r.words)
    (hr : ∀ t rest, r = .text t rest → Inline R m (rest.write [] []) rest.words) : Inline R m (pre ++ r.write [] []) r.words := by
  rcases ha with rfl | ⟨rfl, c, t, rest, rfl, hc⟩
  · exact h
  · have hc1 : c ∉ textMarks ++ [] ++ [] := by
      simp only [List.append_nil]
      exact fun hx => hc (by simp [hx])
    simp only [Rich.write, guarding_cons]
    rw [if_neg hc1]
    exact .esc c (inline_append (inline_text t) (hr _ _ rfl))

/-- The arguments of a link, as written. -/
theorem link_args {target a m : Str} (ht : ∀ c ∈ target, c ∉ c%"\"\\`\n") (h : InQuotes a m) :
    MacroArgsForm (c%"\"" ++ target ++ c%"\", \"" ++ a ++ c%"\"") (quoted target ++ c%"," ++ c%" " ++ quoted m) := by
  have h1 : '"' ∉ target := fun hx => ht _ hx (by decide)
  have h2 : '\\' ∉ target := fun hx => ht _ hx (by decide)
  have hq : InQuotes c%" " c%" " := inQuotes_plain (by decide)
  have hs : Span ')' (c%", \"" ++ a ++ c%"\"") := by
    refine .plain _ _ (by decide) (by decide) (.plain _ _ (by decide) (by decide) (.plain _ _ (by decide) (by decide) ?_))
    have : ∀ {x : Str}, Span ')' x → Span ')' (x ++ c%"\"") := by
      intro x hx
      induction hx with
      | nil => exact .plain _ _ (by decide) (by decide) .nil
      | plain c r k1 k2 _ ih => exact .plain c _ k1 k2 ih
      | esc c r _ ih => exact .esc c _ ih
    exact this h.span
  have e : unescape ')' (c%", \"" ++ a ++ c%"\"") = c%"," ++ c%" " ++ quoted m := by
    have e1 : unescape ')' (c%", \"" ++ a ++ c%"\"") = c%", \"" ++ unescape ')' (a ++ c%"\"") := by
      unfold unescape
      rw [List.append_assoc]
      exact unesc_plains (by decide)
    rw [e1, h.unescape]
    simp [quoted, unescape, unesc, escChar]
  have := MacroArgsForm.quoted (q := target) (span_plain h1 h2) (MacroArgsForm.bare hs (by simp) (by simp))
  rw [unescape_plain h2, e] at this
  rw [quoted_plain h1]
  simpa using this

theorem link_plain {target a m : Str} (ht : ∀ c ∈ target, c ∉ c%"\"\\`\n") (hh : ∀ c ∈ c%"#*@", target.head? ≠ some c) (h : InQuotes a m)
    (hn : '\n' ∉ m) (hm : ∀ c ∈ c%"#*@", m.head? ≠ some c) : PlainArgs (quoted target ++ c%"," ++ c%" " ++ quoted m) [.pos target, .pos m] := by
  have h2 : '\\' ∉ target := fun hx => ht _ hx (by decide)
  have h3 : '\n' ∉ target := fun hx => ht _ hx (by decide)
  refine ⟨.cons (.posQuoted (quotable_plain h2) h3) (by simp) (.one (.posQuoted h.quotable hn)), ⟨[target, m], [], by simp⟩, by simp [keyed], ?_⟩
  intro v hv
  simp [positional] at hv
  rcases hv with rfl | rfl
  · exact ⟨hh _ (by decide), hh _ (by decide), hh _ (by decide)⟩
  · exact ⟨hm _ (by decide), hm _ (by decide), hm _ (by decide)⟩

/-- A link with a quiet text is quiet. -/
theorem link_hushed {env : Env} {target m args : Str} {ns : List Node} (h : PlainArgs args [.pos target, .pos m]) (hq : QuietText env m ns) :
    Hushed env c%"link" args [node (.macroLink target) ns] := by
  refine ⟨macro_gives (.link h rfl rfl hq.parses), ?_⟩
  intro nameTok argsTok cx st st' ms hn ha hb
  obtain ⟨p, e1, e2, e3⟩ := macro_args (env := env) h argsTok ha
  rw [macroBody_eq e1, dispatch_link hn] at hb
  obtain ⟨k1, _⟩ := e3 linkNames (by decide)
  obtain ⟨c1, g1⟩ := param_some (n := c%"target") (v := target) k1 (by decide) rfl
  obtain ⟨c2, g2⟩ := param_some (n := c%"text") (v := m) k1 (by decide) rfl
  obtain ⟨res, r1, r2, r3, r4, r5, r6⟩ := hq c2.startLine c2.startColumn c2.source st.uid
  have q1 : textOr (strP env) (Dict.get? (p.setNames linkNames).named c%"text") [Node.new (.text target) c1] st = .ok res.nodes st := by
    rw [g2]
    have := strP_of_textP (ctx := c2) (st := st) r1
    rw [r5] at this
    exact this
  have : macroLinkFn (strP env) p cx st = .ok [Node.new (.macroLink target) cx res.nodes] st := by
    unfold macroLinkFn
    change PM.bind _ _ st = _
    exact (pm_bind_ok (mandatory_some g1 st)).trans (pm_bind_ok q1)
  rw [this] at hb
  cases hb
  exact Same.refl

/-- The arguments of a macro, each in quotes. -/
def quotedValues (vs : List Str) : Str := joinWith c%", " (vs.map fun v => c%"\"" ++ guarding [] v ++ c%"\"")

theorem quotedValues_mem {vs : List Str} (h : ∀ v ∈ vs, ∀ c ∈ v, c ∉ c%"\\)") : ∀ c ∈ quotedValues vs, c ∉ c%"\\)" := by
  unfold quotedValues
  induction vs with
  | nil => intro c hc; cases hc
  | cons v vs ih =>
    have h1 : ∀ c ∈ c%"\"" ++ guarding [] v ++ c%"\"", c ∉ c%"\\)" := by
      intro c hc
      rw [guarding_nil] at hc
      simp only [List.mem_append] at hc
      rcases hc with (hc | hc) | hc
      · revert c; decide
      · exact h v (by simp) c hc
      · revert c; decide
    have h2 := ih fun w hw => h w (by simp [hw])
    cases vs with
    | nil => exact h1
    | cons w vs =>
      intro c hx
      rcases List.mem_append.1 hx with hx | hx
      · rcases List.mem_append.1 hx with hx | hx
        · exact h1 c hx
        · exact (by decide : ∀ c ∈ c%", ", c ∉ c%"\\)") c hx
      · exact h2 c hx

theorem call_args {vs : List Str} (hne : vs ≠ []) (h : ∀ v ∈ vs, ∀ c ∈ v, c ∉ c%"\"\\`)\n") :
    MacroArgsForm (quotedValues vs) (quotedValues vs) := by
  cases vs with
  | nil => exact absurd rfl hne
  | cons v vs =>
    have h1 : '"' ∉ v := fun hx => h v (by simp) _ hx (by decide)
    have h2 : '\\' ∉ v := fun hx => h v (by simp) _ hx (by decide)
    cases vs with
    | nil =>
      have := MacroArgsForm.quoted (q := v) (span_plain h1 h2) .nil
      rw [unescape_plain h2] at this
      simpa [quotedValues, joinWith, guarding_nil] using this
    | cons w vs =>
      have hm := quotedValues_mem (vs := w :: vs) fun x hx c hc hcc => h x (by simp [List.mem_cons.1 hx]) c hc (by
        simp only [List.mem_cons, List.not_mem_nil, or_false] at hcc ⊢
        rcases hcc with rfl | rfl <;> simp)
      have e : quotedValues (v :: w :: vs) = c%"\"" ++ v ++ c%"\"" ++ (c%", " ++ quotedValues (w :: vs)) := by
        simp [quotedValues, joinWith, guarding_nil]
      have k1 : ')' ∉ c%", " ++ quotedValues (w :: vs) := by
        rw [List.mem_append, not_or]
        exact ⟨by decide, fun hx => hm _ hx (by decide)⟩
      have k2 : '\\' ∉ c%", " ++ quotedValues (w :: vs) := by
        rw [List.mem_append, not_or]
        exact ⟨by decide, fun hx => hm _ hx (by decide)⟩
      have := MacroArgsForm.quoted (q := v) (span_plain h1 h2) (MacroArgsForm.bare (span_plain k1 k2) (by simp) (by simp))
      rw [unescape_plain h2, unescape_plain k2] at this
      rw [e]
      exact this

theorem values_writes {vs : List Str} (h : ∀ v ∈ vs, ∀ c ∈ v, c ∉ c%"\"\\`)\n") : WritesAll (vs.map Arg.pos) (quotedValues vs) := by
  induction vs with
  | nil => exact .nil
  | cons v vs ih =>
    have h1 : '"' ∉ v := fun hx => h v (by simp) _ hx (by decide)
    have h2 : '\\' ∉ v := fun hx => h v (by simp) _ hx (by decide)
    have h3 : '\n' ∉ v := fun hx => h v (by simp) _ hx (by decide)
    have hw : Writes (.pos v) (c%"\"" ++ guarding [] v ++ c%"\"") := by
      rw [guarding_nil, ← quoted_plain h1]
      exact .posQuoted (quotable_plain h2) h3
    have h2 := ih fun w hw => h w (by simp [hw])
    cases vs with
    | nil => exact .one hw
    | cons w vs =>
      have := WritesAll.cons (sp := c%" ") hw (by decide) h2
      simpa [quotedValues, joinWith] using this

theorem positional_values (vs : List Str) : positional (vs.map Arg.pos) = vs ∧ keyed (vs.map Arg.pos) = [] := by
  induction vs with
  | nil => exact ⟨rfl, rfl⟩
  | cons v vs ih =>
    unfold positional keyed at ih ⊢
    simp only [List.map_cons, List.filterMap_cons]
    exact ⟨by rw [ih.1], ih.2⟩

theorem values_plain {call : Call} {vs : List Str} (h : call.Ok vs) : PlainArgs (quotedValues vs) (vs.map Arg.pos) := by
  refine ⟨values_writes fun v hv => (h.plain v hv).1, ⟨vs, [], by simp⟩, ?_, ?_⟩
  · rw [(positional_values vs).2]; exact List.nodup_nil
  · rw [(positional_values vs).1]
    intro v hv
    have := (h.plain v hv).2
    exact ⟨this _ (by decide), this _ (by decide), this _ (by decide)⟩

/-- Such a macro adds nothing to the collections. -/
theorem call_hushed {env : Env} {call : Call} {vs : List Str} (h : call.Ok vs) : Hushed env call.name (quotedValues vs) [call.node vs] := by
  have hp := values_plain h
  refine ⟨macro_gives ?_, ?_⟩
  · cases call with
    | image =>
      have hc : vs.length ≤ 4 := h.count
      match vs, h.some, hc, hp with
      | [a], _, _, hp => exact .image hp rfl
      | [a, b], _, _, hp => exact .image hp rfl
      | [a, b, c], _, _, hp => exact .image hp rfl
      | [a, b, c, d], _, _, hp => exact .image hp rfl
      | a :: b :: c :: d :: e :: l, _, hc, _ => simp at hc
    | unicode =>
      have hc : vs.length = 1 := h.count
      match vs, hc, hp with
      | [a], _, hp => exact .unicode hp rfl
    | raw =>
      have hc : vs.length = 1 := h.count
      match vs, hc, hp with
      | [a], _, hp => exact .raw hp rfl
    | custom name =>
      have := MacroGives.other (env := env) hp h.count.2.2.1 h.count.2.2.2
      rw [(positional_values vs).1, (positional_values vs).2] at this
      exact this
  · intro nameTok argsTok cx st st' ms hn ha hb
    obtain ⟨p, e1, e2, e3⟩ := macro_args (env := env) hp argsTok ha
    have hm : ∀ {q : ParsedArgs} {key : Str} {m : Msg} {f : CtxText → Node}, PM.bind (mandatory q key m cx) (fun v => (pure [f v] : PM (List Node))) st = .ok ms st' → Same st st' := by
      intro q key m f hb
      cases hg : Dict.get? q.named key with
      | none =>
        exfalso
        have hb : PM.bind (mandatory q key m cx) (fun v => (pure [f v] : PM (List Node))) st = .ok ms st' := hb
        unfold mandatory at hb
        rw [hg] at hb
        cases hb
      | some v =>
        have hb := (pm_bind_ok (mandatory_some hg st)).symm.trans hb
        cases hb
        exact Same.refl
    cases call with
    | image => rw [macroBody_eq e1, dispatch_image hn] at hb; exact hm hb
    | unicode => rw [macroBody_eq e1, dispatch_unicode hn] at hb; exact hm hb
    | raw => rw [macroBody_eq e1, dispatch_raw hn] at hb; exact hm hb
    | custom name =>
      rw [macroBody_eq e1, dispatch_other (by rw [hn]; exact h.count.2.2.1) (by rw [hn]; exact h.count.2.2.2)] at hb
      cases hb
      exact Same.refl

/-! ### Text with classes -/

theorem strip_last {s : Str} (h : strip s = s) : s.getLast? ≠ some ' ' := by
  intro e
  rw [← h] at e
  unfold strip rstrip at e
  rw [List.getLast?_reverse] at e
  have := List.head?_dropWhile_not isPySpace (lstrip s).reverse
  rw [e] at this
  exact absurd this (by decide)

theorem span_more {stop : Char} {x y : Str} (h1 : stop ∉ x) (h2 : '\\' ∉ x) (h : Span stop y) : Span stop (x ++ y) := by
  induction x with
  | nil => exact h
  | cons c x ih =>
    simp at h1 h2
    exact .plain c _ (Ne.symm h1.1) (Ne.symm h2.1) (ih h1.2 h2.2)

theorem span_quote {x : Str} (h : Span ')' x) : Span ')' (x ++ c%"\"") := by
  induction h with
  | nil => exact .plain _ _ (by decide) (by decide) .nil
  | plain c r k1 k2 _ ih => exact .plain c _ k1 k2 ih
  | esc c r _ ih => exact .esc c _ ih

/-- Arguments in quotes, and another one with a name. -/
theorem class_args {cs : List Str} {a m : Str} (hne : cs ≠ []) (h : ∀ v ∈ cs, ∀ c ∈ v, c ∉ c%"\"\\`)\n") (hq : InQuotes a m) :
    MacroArgsForm (quotedValues cs ++ c%", text=\"" ++ a ++ c%"\"") (quotedValues cs ++ c%", text=" ++ quoted m) := by
  cases cs with
  | nil => exact absurd rfl hne
  | cons v vs =>
    have h1 : '"' ∉ v := fun hx => h v (by simp) _ hx (by decide)
    have h2 : '\\' ∉ v := fun hx => h v (by simp) _ hx (by decide)
    obtain ⟨x, ex, k1, k2, k3⟩ : ∃ x, quotedValues (v :: vs) = c%"\"" ++ v ++ c%"\"" ++ x ∧ ')' ∉ x ∧ '\\' ∉ x ∧ x.head? ≠ some '"' := by
      cases vs with
      | nil => exact ⟨[], by simp [quotedValues, joinWith, guarding_nil], by simp, by simp, by simp⟩
      | cons w vs =>
        have hm := quotedValues_mem (vs := w :: vs) fun x hx c hc hcc => h x (by simp [List.mem_cons.1 hx]) c hc (by
          simp only [List.mem_cons, List.not_mem_nil, or_false] at hcc ⊢
          rcases hcc with rfl | rfl <;> simp)
        refine ⟨c%", " ++ quotedValues (w :: vs), by simp [quotedValues, joinWith, guarding_nil], ?_, ?_, by simp⟩
        · rw [List.mem_append, not_or]
          exact ⟨by decide, fun hx => hm _ hx (by decide)⟩
        · rw [List.mem_append, not_or]
          exact ⟨by decide, fun hx => hm _ hx (by decide)⟩
    have j1 : ')' ∉ x ++ c%", text=\"" := by rw [List.mem_append, not_or]; exact ⟨k1, by decide⟩
    have j2 : '\\' ∉ x ++ c%", text=\"" := by rw [List.mem_append, not_or]; exact ⟨k2, by decide⟩
    have hs : Span ')' (x ++ c%", text=\"" ++ a ++ c%"\"") := span_quote (span_more j1 j2 hq.span)
    have e : unescape ')' (x ++ c%", text=\"" ++ a ++ c%"\"") = x ++ c%", text=" ++ quoted m := by
      have e1 : unescape ')' (x ++ c%", text=\"" ++ a ++ c%"\"") = x ++ c%", text=\"" ++ unescape ')' (a ++ c%"\"") := by
        unfold unescape
        rw [List.append_assoc]
        refine unesc_plains fun c hc => ?_
        simp only [escChar, beq_eq_false_iff_ne]
        rintro rfl
        exact j2 hc
      rw [e1, hq.unescape]
      simp [quoted, unescape, unesc, escChar]
    have := MacroArgsForm.quoted (q := v) (span_plain h1 h2) (MacroArgsForm.bare hs (by simp) (by
      cases x with
      | nil => simp
      | cons d x => simpa using k3))
    rw [unescape_plain h2, e] at this
    rw [ex]
    simpa using this

theorem class_writes {cs : List Str} {m : Str} (hne : cs ≠ []) (h : ∀ v ∈ cs, ∀ c ∈ v, c ∉ c%"\"\\`)\n") (hm : Quotable m) (hn : '\n' ∉ m) (hs : strip m = m) :
    WritesAll (cs.map Arg.pos ++ [.key c%"text" m]) (quotedValues cs ++ c%", text=" ++ quoted m) := by
  induction cs with
  | nil => exact absurd rfl hne
  | cons v vs ih =>
    have h1 : '"' ∉ v := fun hx => h v (by simp) _ hx (by decide)
    have h2 : '\\' ∉ v := fun hx => h v (by simp) _ hx (by decide)
    have h3 : '\n' ∉ v := fun hx => h v (by simp) _ hx (by decide)
    have hw : Writes (.pos v) (c%"\"" ++ guarding [] v ++ c%"\"") := by
      rw [guarding_nil, ← quoted_plain h1]
      exact .posQuoted (quotable_plain h2) h3
    cases vs with
    | nil =>
      have := WritesAll.cons (sp := c%" ") hw (by decide) (.one (.keyQuoted (k := c%"text") (by decide) (by decide) (by decide) hm hn hs))
      simpa [quotedValues, joinWith] using this
    | cons w vs =>
      have := WritesAll.cons (sp := c%" ") hw (by decide) (ih (by simp) fun w hw => h w (by simp [hw]))
      simpa [quotedValues, joinWith] using this

theorem class_plain {cs : List Str} {m : Str} (hne : cs ≠ []) (h : ∀ v ∈ cs, (∀ c ∈ v, c ∉ c%"\"\\`)\n") ∧ ∀ c ∈ c%"#*@", v.head? ≠ some c) (hm : Quotable m) (hn : '\n' ∉ m)
    (hs : strip m = m) : PlainArgs (quotedValues cs ++ c%", text=" ++ quoted m) (cs.map Arg.pos ++ [.key c%"text" m]) ∧
      positional (cs.map Arg.pos ++ [.key c%"text" m]) = cs ∧ keyed (cs.map Arg.pos ++ [.key c%"text" m]) = [(c%"text", m)] := by
  have e1 : positional (cs.map Arg.pos ++ [.key c%"text" m]) = cs := by
    have := (positional_values cs).1
    unfold positional at this ⊢
    rw [List.filterMap_append, this]
    simp
  have e2 : keyed (cs.map Arg.pos ++ [.key c%"text" m]) = [(c%"text", m)] := by
    have := (positional_values cs).2
    unfold keyed at this ⊢
    rw [List.filterMap_append, this]
    rfl
  refine ⟨⟨class_writes hne (fun v hv => (h v hv).1) hm hn hs, ⟨cs, [(c%"text", m)], by simp⟩, by rw [e2]; simp, ?_⟩, e1, e2⟩
  rw [e1]
  intro v hv
  have := (h v hv).2
  exact ⟨this _ (by decide), this _ (by decide), this _ (by decide)⟩

/-- Quiet text with classes is quiet. -/
theorem class_hushed {env : Env} {m args : Str} {cs : List Str} {as : List Arg} {ns : List Node} (h : PlainArgs args as) (h1 : positional as = cs)
    (h2 : keyed as = [(c%"text", m)]) (hq : QuietText env m ns) : Hushed env c%"class" args [node (.macroClass cs) ns] := by
  have ht : argument classNames as c%"text" = some m := by unfold argument; rw [h2]; rfl
  have hl : leftover classNames as = cs := by unfold leftover unkeyed; rw [h1, h2]; rfl
  refine ⟨?_, ?_⟩
  · have := macro_gives (.cls h ht hq.parses)
    rw [hl] at this
    exact this
  intro nameTok argsTok cx st st' ms hn ha hb
  obtain ⟨p, e1, e2, e3⟩ := macro_args (env := env) h argsTok ha
  rw [macroBody_eq e1, dispatch_class hn] at hb
  obtain ⟨k1, _⟩ := e3 classNames (by decide)
  obtain ⟨c2, g2⟩ := param_some (n := c%"text") (v := m) k1 (by decide) ht
  obtain ⟨res, r1, r2, r3, r4, r5, r6⟩ := hq c2.startLine c2.startColumn c2.source st.uid
  have q1 : strP env m c2 st = .ok res.nodes st := by
    have := strP_of_textP (ctx := c2) (st := st) r1
    rw [r5] at this
    exact this
  unfold macroClassFn at hb
  change PM.bind _ _ st = _ at hb
  have hb := (pm_bind_ok (mandatory_some g2 st)).symm.trans hb
  have hb := (pm_bind_ok q1).symm.trans hb
  cases hb
  exact Same.refl

theorem head_opening {r : Rich} {m : Option Char} (h : r.Ok false m) (hn : r ≠ .nil) (hs : r.isStar = false) :
    ∀ c ∈ c%"#*@", (r.opening c%"#@" ++ r.write [] []).head? ≠ some c := by
  intro c hc he
  cases r with
  | nil => exact hn rfl
  | text t rest =>
    cases t with
    | nil => exact h.1 rfl
    | cons d t =>
      by_cases hd : d ∈ c%"#@"
      · have e : Rich.opening c%"#@" (.text (d :: t) rest) = ['\\'] := by
          have : Rich.startsWith c%"#@" (.text (d :: t) rest) = true := by simp only [Rich.startsWith, List.contains_iff_mem]; exact hd
          unfold Rich.opening; rw [this]; rfl
        rw [e] at he
        simp at he
        subst he
        exact absurd hc (by decide)
      · have e : Rich.opening c%"#@" (.text (d :: t) rest) = [] := by
          have : Rich.startsWith c%"#@" (.text (d :: t) rest) = false := by
            rw [Bool.eq_false_iff]; intro hx; simp only [Rich.startsWith, List.contains_iff_mem] at hx; exact hd hx
          unfold Rich.opening; rw [this]; rfl
        rw [e] at he
        simp only [Rich.write, guarding_cons, List.nil_append] at he
        by_cases hm : d ∈ textMarks ++ [] ++ []
        · rw [if_pos hm] at he
          simp at he
          subst he
          exact absurd hc (by decide)
        · rw [if_neg hm] at he
          simp at he
          subst he
          simp only [List.mem_cons, List.not_mem_nil, or_false] at hc
          rcases hc with rfl | rfl | rfl
          · exact hd (by decide)
          · exact hm (by decide)
          · exact hd (by decide)
  | verbatim t rest =>
    simp [Rich.opening, Rich.startsWith, Rich.write] at he
    subst he
    exact absurd hc (by decide)
  | style mark inner rest =>
    simp [Rich.opening, Rich.startsWith, Rich.write] at he
    subst he
    have hm := style_mark h.1
    simp only [List.mem_cons, List.not_mem_nil, or_false] at hc hm
    rcases hc with rfl | rfl | rfl
    · exact absurd hm (by decide)
    · simp [Rich.isStar] at hs
    · exact absurd hm (by decide)
  | link target inner rest => exact absurd h.1 (by decide)
  | call kind values rest => exact absurd h.1 (by decide)
  | classes names inner rest => exact absurd h.1 (by decide)

theorem inline_write (env : Env) (r : Rich) : ∀ (links : Bool) (m : Option Char), r.Ok links m →
    Inline (Hushed env) m (r.write [] []) r.words ∧ ∀ t rest, r = .text t rest → Inline (Hushed env) m (rest.write [] []) rest.words := by
  induction r with
  | nil => intro links m h; exact ⟨.nil, fun _ _ e => by cases e⟩
  | text t rest ih =>
    intro links m h
    have hr := (ih links m h.2.2.2).1
    exact ⟨inline_append (inline_text t) hr, fun _ _ e => by cases e; exact hr⟩
  | verbatim t rest ih =>
    intro links m h
    refine ⟨?_, fun _ _ e => by cases e⟩
    have := Inline.verbatim (R := Hushed env) (m := m) (span_guarding (K := []) (.inl rfl) h.1) (ih links m h.2.2).1
    rw [unescape_guarding h.1] at this
    exact this
  | style mark inner rest ih1 ih2 =>
    intro links m h
    refine ⟨?_, fun _ _ e => by cases e⟩
    obtain ⟨k, hk⟩ := Option.isSome_iff_exists.1 h.1
    have := Inline.style (R := Hushed env) mark k hk h.2.1 (ih1 _ _ h.2.2.1).1 (ih2 _ _ h.2.2.2).1
    rw [joinWords_words inner _ _ h.2.2.1] at this
    simp only [Rich.write, Rich.words, hk]
    exact this
  | link target inner rest ih1 ih2 =>
    intro links m h
    refine ⟨?_, fun _ _ e => by cases e⟩
    obtain ⟨h1, h2, h3, h4, h5, h6, h7, h8⟩ := h
    have hq := inQuotes_opening h4
    have ha := ahead_opening (K := argMarks) (set := c%"#@") (r := inner) (by decide)
    have hin := inline_ahead ha (ih1 _ _ h4).1 (ih1 _ _ h4).2
    have hn : '\n' ∉ inner.opening c%"#@" ++ inner.write [] [] := by
      rw [List.mem_append, not_or]
      exact ⟨ahead_no_newline ha, write_no_newline [] inner _ _ [] h4⟩
    have hquiet := quiet_line hin hn (last_ahead ha h6)
    rw [joinWords_words inner _ _ h4] at hquiet
    have hl := link_hushed (link_plain h2 h3 hq hn (head_opening h4 h5 h7)) hquiet
    have := Inline.call (m := m) (name := c%"link") (by decide) name_link (link_args h2 hq) hl (by simp) (ih2 _ _ h8).1
    simpa [Rich.write, Rich.words, macroText, guarding_nil] using this
  | call kind values rest ih =>
    intro links m h
    refine ⟨?_, fun _ _ e => by cases e⟩
    obtain ⟨h1, h2, h3⟩ := h
    have := Inline.call (m := m) (call_name_ne h2) (call_name_word h2) (call_args h2.some fun v hv => (h2.plain v hv).1) (call_hushed (env := env) h2) (by simp)
      (ih _ _ h3).1
    simpa [Rich.write, Rich.words, macroText, quotedValues] using this
  | classes names inner rest ih1 ih =>
    intro links m h
    refine ⟨?_, fun _ _ e => by cases e⟩
    obtain ⟨h1, h2, h3, h4, h5, h6⟩ := h
    have hq := inQuotes_write inner _ h4
    have hn : '\n' ∉ inner.write [] [] := write_no_newline [] inner _ _ [] h4
    have hquiet := quiet_line (ih1 _ _ h4).1 hn (strip_last h5)
    rw [joinWords_words inner _ _ h4] at hquiet
    obtain ⟨p1, p2, p3⟩ := class_plain h2 h3 hq.quotable hn h5
    have hl := class_hushed p1 p2 p3 hquiet
    have := Inline.call (m := m) (name := c%"class") (by decide) (by unfold nameChar; decide) (class_args h2 (fun v hv => (h3 v hv).1) hq) hl (by simp) (ih _ _ h6).1
    simpa [Rich.write, Rich.words, macroText, quotedValues] using this

/-! ## Lines -/

theorem ahead_protection (r : Rich) : Ahead [] r.protection r := by
  have key := ahead_opening (K := []) (set := c%"/-<:.= #@") (r := r) (by decide)
  unfold Rich.opening at key
  unfold Rich.protection
  split
  · rename_i h
    rw [if_pos h] at key
    exact key
  · cases r with
    | text t rest =>
      cases t with
      | nil => exact .inl rfl
      | cons c t =>
        dsimp only
        split
        · rename_i h
          exact .inr ⟨rfl, c, t, rest, rfl, by simpa using h.1⟩
        · exact .inl rfl
    | _ => exact .inl rfl

theorem guarding_last (set t : Str) : (guarding set t).getLast? = t.getLast? := by
  rcases List.eq_nil_or_concat t with rfl | ⟨t, c, rfl⟩
  · rfl
  · unfold guarding
    rw [List.concat_eq_append, List.flatMap_append, List.getLast?_append, List.getLast?_append]
    simp only [List.flatMap_cons, List.flatMap_nil, List.append_nil]
    split <;> rfl

theorem write_last (v1 v2 K : Str) (r : Rich) : (r.write v1 K).getLast? = (r.write v2 K).getLast? := by
  induction r with
  | nil => rfl
  | text t rest ih => simp only [Rich.write, List.getLast?_append, ih, guarding_last]
  | verbatim t rest ih => simp only [Rich.write, List.getLast?_append, ih, guarding_last]
  | style mark inner rest ih1 ih2 => simp only [Rich.write, List.getLast?_append, ih2]; simp
  | link target inner rest ih1 ih2 => simp only [Rich.write, List.getLast?_append, ih2]; simp
  | call kind values rest ih => simp only [Rich.write, List.getLast?_append, ih]; simp
  | classes names inner rest ih1 ih => simp only [Rich.write, List.getLast?_append, ih]; simp

theorem write_ne {v K : Str} {r : Rich} {links : Bool} {m : Option Char} (h : r.Ok links m) (hn : r ≠ .nil) : r.write v K ≠ [] := by
  cases r with
  | nil => exact absurd rfl hn
  | text t rest =>
    cases t with
    | nil => exact absurd rfl h.1
    | cons c t => simp only [Rich.write, guarding_cons]; split <;> simp
  | verbatim t rest => simp [Rich.write]
  | style mark inner rest => simp [Rich.write]
  | link target inner rest => simp [Rich.write]
  | call kind values rest => simp [Rich.write]
  | classes names inner rest => simp [Rich.write]

theorem line_no_newline {r : Rich} (h : r.Ok true none) : '\n' ∉ r.line := by
  unfold Rich.line
  rw [List.mem_append, not_or]
  exact ⟨ahead_no_newline (ahead_protection r), write_no_newline _ r _ _ _ h⟩

/-- The text of a line is read, and nothing else happens. -/
theorem Spec.Rich.inlined {r : Rich} (h : r.Ok true none) (hne : r ≠ .nil) (hl : r.line.getLast? ≠ some ' ') (s : DocSt) (ctx : Context) :
    ∃ N ms, anonList ms = r.nodes ∧ ∀ P : Parser, N ≤ P.fuel → P.inline s r.line ctx = .ok (ms, s) := by
  have ha := ahead_protection r
  have hp := pre_write s.env r true none [] (.inl rfl) h
  have hpre : PreUnits s.env r.line (r.protection ++ r.write [] []) := pre_ahead (.inl rfl) ha hp.1 hp.2
  have hv := C17_pieces s.env _ _ hpre (line_no_newline h) (not_spacesAfterSpecial hl) ctx.startLine ctx.startColumn ctx.source
  have hi := inline_write s.env r true none h
  have hlast : (r.write [] []).getLast? ≠ some ' ' := by
    intro hx
    apply hl
    unfold Rich.line
    rw [List.getLast?_append, write_last braces [] [] r, hx]
    rfl
  have hq := quiet_line (inline_ahead ha hi.1 hi.2) (by
    rw [List.mem_append, not_or]
    exact ⟨ahead_no_newline ha, write_no_newline [] r _ _ [] h⟩) (last_ahead ha hlast)
  rw [joinWords_words r _ _ h] at hq
  obtain ⟨res, r1, r2, r3, r4, r5, r6⟩ := hq ctx.startLine ctx.startColumn ctx.source s.uid
  obtain ⟨N, hN⟩ := textP_ev s.env (r.protection ++ r.write [] []) ctx.startLine ctx.startColumn ctx.source s.uid
  refine ⟨N, res.nodes, r2, fun P hP => ?_⟩
  obtain ⟨tok, t1, t2⟩ := map_ok hv
  have hx := (hN P.fuel hP).trans r1
  rw [t2] at hx
  unfold preprocess at t1
  unfold Parser.inline docText
  cases hpn : preprocessNodes s.env r.line ctx.startLine ctx.startColumn ctx.source with
  | error e => rw [hpn] at t1; cases t1
  | ok ps =>
    rw [hpn] at t1
    cases t1
    cases ps with
    | nil =>
      have := write_ne (v := []) (K := []) h hne
      have e : r.protection ++ r.write [] [] = [] := t2
      rw [List.append_eq_nil_iff] at e
      exact absurd e.2 this
    | cons p ps =>
      dsimp only at hx ⊢
      rw [hx]
      dsimp only
      rw [r3, r4, r5, r6]
      simp

end Mau
