import Verif.Lemmas.DocProps

set_option linter.unusedSimpArgs false

/-!
# Text without macros collects no mentions
-/

namespace Mau
open Spec

/-- No opening bracket among the tokens. -/
def NoBracket (toks : List Token) : Prop := ∀ t ∈ toks, t.value ≠ ['[']

theorem get_bracket {toks : List Token} (h : NoBracket toks) (s : TextSt) :
    ∀ a s', PM.tm toks (·.get (some .LITERAL) (some ['['])) s ≠ .ok a s' := by
  intro a s' hx
  unfold PM.tm at hx
  dsimp only at hx
  cases hg : TM.get ⟨toks, s.next⟩ (some .LITERAL) (some ['[']) with
  | error e => rw [hg] at hx; cases e <;> cases hx
  | ok r =>
    unfold TM.get at hg
    split at hg
    · cases hg
    · rename_i t hp
      obtain ⟨t', hm, hc⟩ : ∃ t' ∈ toks, TM.checkToken t' (some .LITERAL) (some ['[']) none = .ok t := by
        unfold TM.peek at hp
        dsimp only at hp
        split at hp
        · rename_i t' ht
          exact ⟨t', List.mem_of_getElem? ht, hp⟩
        · split at hp
          · cases hp
          · rename_i t' ht
            exact ⟨t', List.mem_of_getLast? ht, hp⟩
      have hv := h t' hm
      unfold TM.checkToken at hc
      have e : ((some ['['] : Option Str) ≠ some t'.value) := fun e => hv (Option.some.inj e).symm
      split at hc
      · cases hc
      · simp [e] at hc

theorem Quiet.parseMacro {env : Env} {toks : List Token} (h : NoBracket toks) (n : Nat) : Quiet (parseMacro env toks n) := by
  cases n with
  | zero => unfold Mau.parseMacro; exact Quiet.raise _
  | succ n =>
    intro s
    have hq := Quiet.tm (toks := toks) (·.get (some .LITERAL) (some ['['])) s
    have hb := get_bracket h s
    unfold Mau.parseMacro macroHead
    change (∀ a s', PM.bind (PM.bind _ _) _ s = .ok a s' → _) ∧ ∀ s', PM.bind (PM.bind _ _) _ s = .fail s' → _
    unfold PM.bind
    cases hx : PM.tm toks (·.get (some .LITERAL) (some ['['])) s with
    | ok a s1 => exact absurd hx (hb a s1)
    | fail s1 => exact ⟨(by intro _ _ h; cases h), (by intro _ h; cases h; exact hq.2 _ hx)⟩
    | err e => exact ⟨(by intro _ _ h; cases h), (by intro _ h; cases h)⟩

theorem quiet_text {env : Env} {toks : List Token} (h : NoBracket toks) (n : Nat) :
    (∀ m, Quiet (sentenceLoop env toks n m)) ∧ (∀ m, Quiet (parseItem env toks n m)) ∧ Quiet (parseStyle env toks n) := by
  induction n with
  | zero => exact ⟨fun _ => by unfold sentenceLoop; exact Quiet.raise _, fun _ => by unfold parseItem; exact Quiet.raise _, by unfold parseStyle; exact Quiet.raise _⟩
  | succ n ih =>
    obtain ⟨i1, i2, i3⟩ := ih
    refine ⟨fun m => ?_, fun m => ?_, ?_⟩
    · unfold sentenceLoop
      exact .bind (i2 m) fun ns => .ite (.pure _) (.bind (i1 m) fun _ => .pure _)
    · unfold parseItem
      refine .bind (.peek _) fun t => .ite (.pure _) ?_
      refine .orElse (.bind (.tm _) fun _ => .bind (.tm _) fun _ => .pure _) (.orElse (.parseMacro h n) ?_)
      refine .orElse (.bind (.tm _) fun _ => .bind (.tm _) fun _ => .bind (.tm _) fun _ => .pure _) ?_
      refine .orElse (.bind (.tm _) fun _ => .bind (.tm _) fun _ => .bind (.tm _) fun _ => .pure _) ?_
      exact .orElse i3 (.bind (.tm _) fun _ => .pure _)
    · unfold parseStyle
      exact .bind (.tm _) fun _ => .bind (i1 _) fun _ => .bind (.tm _) fun _ => .pure _

theorem quiet_main {env : Env} {toks : List Token} (h : NoBracket toks) (n : Nat) : ∀ last s acc ns s',
    textMain env toks n last s acc = .ok (ns, s') → s' = { s with next := s'.next } := by
  induction n with
  | zero => intro last s acc ns s' hx; cases hx
  | succ n ih =>
    intro last s acc ns s' hx
    unfold textMain at hx
    split at hx
    · cases hx
    · cases hx; rfl
    · split at hx
      · cases hx
      · split at hx
        · cases hx
        · split at hx
          · rename_i ns1 s1 hs
            have h1 := ((quiet_text h n).1 none s).1 _ _ hs
            have h2 := ih _ _ _ _ _ hx
            rw [h2, h1]
          · cases hx
          · cases hx

theorem mem_keptLine {l : Str} {c : Char} (h : c ∈ keptLine l) : c ∈ l := by
  unfold keptLine at h
  split at h
  · exact h
  · unfold dropTrailing at h
    rw [List.mem_reverse] at h
    exact List.mem_reverse.1 ((List.dropWhile_suffix _).subset h)

theorem mem_splitChar {sep : Char} {s l : Str} {c : Char} (hl : l ∈ splitChar sep s) (hc : c ∈ l) : c ∈ s := by
  induction s generalizing l with
  | nil => simp at hl; subst hl; exact hc
  | cons d s ih =>
    by_cases hd : d = sep
    · subst hd
      rw [splitChar_sep] at hl
      rcases List.mem_cons.1 hl with rfl | hl
      · cases hc
      · exact List.mem_cons_of_mem _ (ih hl hc)
    · obtain ⟨l1, ls, e1, e2⟩ := splitChar_cons_ne hd s
      rw [e2] at hl
      rcases List.mem_cons.1 hl with rfl | hl
      · rcases List.mem_cons.1 hc with rfl | hc
        · exact List.mem_cons_self
        · exact List.mem_cons_of_mem _ (ih (by rw [e1]; exact List.mem_cons_self) hc)
      · exact List.mem_cons_of_mem _ (ih (by rw [e1]; exact List.mem_cons_of_mem _ hl) hc)

/-- A text without an opening bracket contains no mentions and takes no identity numbers. -/
theorem parseText_quiet {fuel : Nat} {env : Env} {text : Str} {ln col : Nat} {src : Option Str} {uid : Nat} {r : TextResult}
    (h : '[' ∉ text) (hr : parseText fuel env text ln col src uid = .ok r) : r.footnoteMacros = [] ∧ r.headerLinks = [] ∧ r.uid = uid ∧ r.places = [] := by
  obtain ⟨ts, h1, h2⟩ := C06_text_lossless text ln col src
  unfold parseText at hr
  rw [h1] at hr
  dsimp only at hr
  have hb : NoBracket ts := by
    intro t ht e
    have : '[' ∈ (ts.map (·.value)).flatten := List.mem_flatten.2 ⟨t.value, List.mem_map.2 ⟨t, ht, rfl⟩, by rw [e]; simp⟩
    rw [h2] at this
    obtain ⟨l, hl, hc⟩ := List.mem_flatten.1 this
    obtain ⟨l', hl', rfl⟩ := List.mem_map.1 hl
    have hc := mem_keptLine hc
    unfold Spec.lines at hl'
    split at hl'
    · cases hl'
    · exact h (mem_splitChar hl' hc)
  cases hm : textMain env ts fuel initialLast { uid := uid } [] with
  | error e => rw [hm] at hr; cases hr
  | ok p =>
    rw [hm] at hr
    have := quiet_main hb _ _ _ _ _ _ hm
    cases hr
    rw [this]
    exact ⟨rfl, rfl, rfl, rfl⟩

end Mau
