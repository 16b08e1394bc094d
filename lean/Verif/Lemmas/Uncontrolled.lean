import Verif.Props.Preprocess
import Verif.Props.Mentions
import Verif.Lemmas.EnvAll
import Verif.Lemmas.PreBounds
import Verif.Spec.Reached

set_option linter.unusedSimpArgs false

/-!
# Texts in which no control macro can begin
-/

namespace Mau
open Spec

theorem Spec.Follows.append {a : Str} (b : Str) (h : Follows a) : Follows (a ++ b) := by
  match a, h with
  | c :: r, h =>
    refine ⟨h.1, h.2.1, fun e => ?_⟩
    have := h.2.2 e
    cases r with
    | nil => exact this.elim
    | cons d r => exact this

theorem Spec.Uncontrolled.suffix {a b : Str} (h : Uncontrolled (a ++ b)) : Uncontrolled b := fun x y e => h (a ++ x) y (by rw [e]; simp)

theorem uncontrolled_nil : Uncontrolled [] := by
  intro a b h
  cases a <;> cases h

theorem Spec.Uncontrolled.no_if {s : Str} (h : Uncontrolled s) : ¬ c%"[if" <:+: s := by
  rintro ⟨a, b, e⟩
  have := h a (c%"if" ++ b) (by rw [← e]; simp)
  exact (this.2.2 rfl).1 rfl

theorem uncontrolled_plain {s : Str} (h : '[' ∉ s) : Uncontrolled s := by
  intro a b e
  exact absurd (by rw [e]; simp) h

/-- A character in front. -/
theorem uncontrolled_cons {c : Char} {s : Str} : Uncontrolled (c :: s) ↔ (c = '[' → Follows s) ∧ Uncontrolled s := by
  constructor
  · exact fun h => ⟨fun e => h [] s (by rw [e]; rfl), h.suffix (a := [c])⟩
  · rintro ⟨h1, h2⟩ a b e
    cases a with
    | nil => cases e; exact h1 rfl
    | cons x a => cases e; exact h2 _ _ rfl

/-- Recursively, so that it can be checked. -/
def Spec.uncontrolled : Str → Bool
  | [] => true
  | c :: s => (c != '[' || decide (Follows s)) && Spec.uncontrolled s

theorem uncontrolled_iff {s : Str} : uncontrolled s = true ↔ Uncontrolled s := by
  induction s with
  | nil => exact ⟨fun _ => uncontrolled_nil, fun _ => rfl⟩
  | cons c s ih =>
    rw [uncontrolled_cons, ← ih, Spec.uncontrolled]
    by_cases h : c = '[' <;> simp [h]

instance : DecidablePred Uncontrolled := fun _ => decidable_of_iff _ uncontrolled_iff

theorem Spec.Uncontrolled.append {a b : Str} (ha : Uncontrolled a) (hb : Uncontrolled b) : Uncontrolled (a ++ b) := by
  induction a with
  | nil => exact hb
  | cons c a ih =>
    rw [uncontrolled_cons] at ha
    rw [List.cons_append, uncontrolled_cons]
    exact ⟨fun e => (ha.1 e).append b, ih ha.2⟩

/-- The pieces of the text keep their beginnings, unless they are references or escaped. -/
theorem item_same {env : Env} {s o : Str} (h : PreItem env s o) {c : Char} {r : Str} (hs : s = c :: r) (h1 : c ≠ '{') (h2 : c ≠ '\\') : o = s := by
  cases h with
  | unit h =>
    cases h with
    | plain => rfl
    | brace => rfl
    | escBrace => cases hs; exact absurd rfl h2
    | escOther => rfl
    | span => rfl
    | ref => cases hs; exact absurd rfl h1
    | double => cases hs; exact absurd rfl h1
  | mark => rfl

theorem item_ne {env : Env} {s o : Str} (h : PreItem env s o) : s ≠ [] := by
  cases h with
  | unit h => cases h <;> simp
  | mark => simp

theorem item_i {env : Env} {s o : Str} (h : PreItem env s o) {r : Str} (hs : s = 'i' :: r) : r = [] := by
  cases h with
  | unit h =>
    cases h with
    | plain => cases hs; rfl
    | brace => cases hs
    | escBrace => cases hs
    | escOther => cases hs
    | span => cases hs
    | ref => cases hs
    | double => cases hs
  | mark c h => cases hs; rcases h with h | h <;> cases h

theorem items_head {env : Env} {items : List (Str × Str)} (hi : ∀ i ∈ items, PreItem env i.1 i.2) {tail : Str} (ht : tail = [] ∨ tail = ['\\']) {c : Char} {r : Str}
    (h : (items.map (·.1)).flatten ++ tail = c :: r) (h1 : c ≠ '{') (h2 : c ≠ '\\') : ∃ s rest, items = (c :: s, c :: s) :: rest ∧ (rest.map (·.1)).flatten ++ tail = r.drop s.length ∧ s.length ≤ r.length := by
  cases items with
  | nil =>
    rcases ht with rfl | rfl
    · cases h
    · cases h; exact absurd rfl h2
  | cons i rest =>
    obtain ⟨s, o⟩ := i
    have hso := hi (s, o) (by simp)
    cases s with
    | nil => exact absurd rfl (item_ne hso)
    | cons d s =>
      simp at h
      obtain ⟨rfl, rfl⟩ := h
      have := item_same hso rfl h1 h2
      dsimp only at this
      subst this
      exact ⟨s, rest, rfl, by simp, by simp⟩

theorem items_follow {env : Env} {items : List (Str × Str)} (hi : ∀ i ∈ items, PreItem env i.1 i.2) {tail : Str} (ht : tail = [] ∨ tail = ['\\'])
    (h : Follows ((items.map (·.1)).flatten ++ tail)) : Follows (items.map (·.2)).flatten := by
  cases hx : (items.map (·.1)).flatten ++ tail with
  | nil => rw [hx] at h; exact h.elim
  | cons c r =>
    rw [hx] at h
    obtain ⟨s, rest, rfl, h1, h2⟩ := items_head hi ht hx h.1 h.2.1
    refine ⟨h.1, h.2.1, fun e => ?_⟩
    have h3 := h.2.2 e
    subst e
    have := item_i (hi _ List.mem_cons_self) rfl
    subst this
    cases r with
    | nil => exact h3.elim
    | cons d r =>
      obtain ⟨s, rest, rfl, -, -⟩ := items_head (fun i hi' => hi i (List.mem_cons_of_mem _ hi')) ht h1 h3.2.1 h3.2.2
      simp
      exact h3

theorem unescape_nil : unescape '}' [] = [] := rfl

theorem unescape_cons {c : Char} (h : c ≠ '\\') (r : Str) : unescape '}' (c :: r) = c :: unescape '}' r := by
  unfold unescape
  rw [unesc.eq_def]
  simp [escChar, h]

theorem unescape_esc (c : Char) (r : Str) : unescape '}' ('\\' :: c :: r) = (if c = '}' then [c] else ['\\', c]) ++ unescape '}' r := by
  unfold unescape
  rw [unesc.eq_def]
  by_cases h : c = '}' <;> simp [h, escChar]

theorem unescape_follows {raw R : Str} (h : Span '}' raw) (hf : Follows (raw ++ '}' :: R)) : Follows (unescape '}' raw ++ ['}']) := by
  cases h with
  | nil => exact ⟨by decide, by decide, fun e => by cases e⟩
  | esc c r h => exact absurd rfl hf.2.1
  | plain c r hc1 hc2 h =>
    rw [unescape_cons (by assumption)]
    refine ⟨hf.1, hf.2.1, fun e => ?_⟩
    have h3 := hf.2.2 e
    cases h with
    | nil => exact ⟨by decide, by decide, by decide⟩
    | esc d r h => exact absurd rfl h3.2.2
    | plain d r _ hd h => rw [unescape_cons (by assumption)]; exact h3

theorem unescape_uncontrolled {raw R : Str} (h : Span '}' raw) (hf : Uncontrolled (raw ++ '}' :: R)) : Uncontrolled (unescape '}' raw ++ ['}']) := by
  induction h with
  | nil => exact uncontrolled_plain (by decide)
  | plain c r hc1 hc2 h ih =>
    rw [unescape_cons (by assumption), List.cons_append, uncontrolled_cons]
    rw [List.cons_append, uncontrolled_cons] at hf
    exact ⟨fun e => unescape_follows h (hf.1 e), ih hf.2⟩
  | esc c r h ih =>
    simp only [List.cons_append, uncontrolled_cons] at hf
    obtain ⟨-, h1, h2⟩ := hf
    rw [unescape_esc]
    split
    · rename_i e
      subst e
      rw [List.append_assoc, List.cons_append, uncontrolled_cons]
      exact ⟨(by intro h; cases h), ih h2⟩
    · simp only [List.append_assoc, List.cons_append, List.nil_append, uncontrolled_cons]
      exact ⟨(by intro h; cases h), fun e => unescape_follows h (h1 e), ih h2⟩

/-- A piece that stays as it is. -/
theorem kept_uncontrolled {x S O : Str} (hx : ∀ y, x ≠ y ++ ['[', 'i']) (hf : Follows S → Follows O) (ho : Uncontrolled O) (h : Uncontrolled (x ++ S)) : Uncontrolled (x ++ O) := by
  induction x with
  | nil => exact ho
  | cons c x ih =>
    rw [List.cons_append, uncontrolled_cons] at h ⊢
    refine ⟨fun e => ?_, ih (fun y e => hx (c :: y) (by rw [e]; rfl)) h.2⟩
    have h1 := h.1 e
    match x, hx, h1 with
    | [], _, h1 => exact hf h1
    | [d], hx, h1 =>
      refine ⟨h1.1, h1.2.1, fun e' => ?_⟩
      subst e e'
      exact absurd rfl (hx [])
    | d :: d' :: x, _, h1 => exact h1

theorem items_uncontrolled {env : Env} (he : EnvAll Harmless env) {items : List (Str × Str)} (hi : ∀ i ∈ items, PreItem env i.1 i.2) {tail : Str} (ht : tail = [] ∨ tail = ['\\'])
    (h : Uncontrolled ((items.map (·.1)).flatten ++ tail)) : Uncontrolled (items.map (·.2)).flatten := by
  induction items with
  | nil => exact uncontrolled_nil
  | cons i items ih =>
    obtain ⟨s, o⟩ := i
    have hr : ∀ i ∈ items, PreItem env i.1 i.2 := fun i hi' => hi i (List.mem_cons_of_mem _ hi')
    simp only [List.map_cons, List.flatten_cons, List.append_assoc] at h ⊢
    have ih := ih hr h.suffix
    have hf := items_follow hr ht
    have last : ∀ (y r : Str) (c : Char), c ≠ 'i' → r ++ [c] ≠ y ++ ['[', 'i'] := by
      intro y r c hc e
      have : (r ++ [c]).getLast? = (y ++ ['[', 'i']).getLast? := by rw [e]
      rw [List.getLast?_append, List.getLast?_append] at this
      simp at this
      exact hc this
    have single : ∀ (y : Str) (c : Char), [c] ≠ y ++ ['[', 'i'] := by
      intro y c e
      have := congrArg List.length e
      simp at this
    cases hi (s, o) List.mem_cons_self with
    | unit hu =>
      cases hu with
      | plain c => exact kept_uncontrolled (fun y => single y c) hf ih h
      | brace => exact kept_uncontrolled (fun y => single y _) hf ih h
      | escBrace c hc => exact (uncontrolled_plain (by rcases hc with rfl | rfl <;> decide)).append ih
      | escOther c =>
        refine kept_uncontrolled (fun y e => ?_) hf ih h
        cases y with
        | nil => cases e
        | cons d y =>
          injection e with _ e
          exact single y c e
      | span raw => exact kept_uncontrolled (fun y => last y ('`' :: raw) '`' (by decide)) hf ih h
      | ref raw v h1 h2 h3 => exact (he _ _ (Dict.mem_of_get? h3)).1.append ih
      | double raw h1 h2 =>
        refine Uncontrolled.append (unescape_uncontrolled h1 (R := '}' :: ((items.map (·.1)).flatten ++ tail)) ?_) ih
        rw [List.cons_append, uncontrolled_cons] at h
        simpa using h.2
    | mark c => exact kept_uncontrolled (fun y => single y c) hf ih h

theorem preTrim_uncontrolled {text : Str} (h : Uncontrolled text) : Uncontrolled (preTrim text) := by
  rcases preTrim_cases text with ⟨-, e⟩ | ⟨s, c, sp, e, hc, -, -, e'⟩
  · rw [e]; exact h
  · rw [e']
    rw [e] at h
    clear e e'
    have hci : c ≠ 'i' ∧ c ≠ '[' := by rcases hc with rfl | rfl | rfl | rfl <;> decide
    induction s with
    | nil => exact uncontrolled_plain (by simp; exact Ne.symm hci.2)
    | cons d s ih =>
      rw [List.cons_append, uncontrolled_cons] at h ⊢
      refine ⟨fun e => ?_, ih h.2⟩
      have h1 := h.1 e
      match s, h1 with
      | [], h1 => exact ⟨h1.1, h1.2.1, fun e => absurd e hci.1⟩
      | [d], h1 => exact h1
      | d :: d' :: s, h1 => exact h1

/-- Replacing references in such a text gives such a text. -/
theorem preprocess_uncontrolled {env : Env} (he : EnvAll Harmless env) {text : Str} (hn : '\n' ∉ text) (h : Uncontrolled text) {sl sc : Nat} {src : Option Str} {t : Token}
    (hp : preprocess env text sl sc src = .ok t) : Uncontrolled t.value ∧ '\n' ∉ t.value := by
  constructor
  · have e := preprocess_eq env text hn sl sc src
    rw [hp] at e
    obtain ⟨items, h1, h2, h3⟩ := preText_items _ _ _ (Nat.le_refl _) e.symm
    have h3 : t.value = _ := h3
    rw [h3]
    have hu := preTrim_uncontrolled h
    rcases h2 with h2 | h2
    · exact items_uncontrolled he h1 (tail := []) (.inl rfl) (by rw [List.append_nil, ← h2]; exact hu)
    · exact items_uncontrolled he h1 (.inr rfl) (by rw [← h2]; exact hu)
  · intro hc
    unfold preprocess at hp
    obtain ⟨ns, hns, hp⟩ := map_ok hp
    subst hp
    obtain ⟨n, hn', hc⟩ := processedText_chars hc
    rcases (preprocessNodes_bounds _ _ _ _ _).2 ns hns n hn' _ hc with h | ⟨⟨k, v⟩, hk, hc⟩
    · exact hn h
    · exact (he k v hk).2 hc

end Mau
