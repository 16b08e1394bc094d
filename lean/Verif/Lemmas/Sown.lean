import Verif.Spec.Reached
import Verif.Lemmas.Stock
import Verif.Lemmas.PlacesWhole

set_option linter.unusedSimpArgs false
set_option linter.unusedVariables false

/-!
# The mentions in the text of a document are collected
-/

namespace Mau
open Spec

theorem Spec.Reached.split {x : Node} {ns : List Node} (h : Reached x ns) : ∃ n ∈ ns, x = n ∨ (Opens n.data ∧ Reached x n.content) ∨ ∃ e ∈ n.labels, Reached x [e.2] := by
  cases h with
  | here h => exact ⟨x, h, .inl rfl⟩
  | content hn ho h => exact ⟨_, hn, .inr (.inl ⟨ho, h⟩)⟩
  | label hn he h => exact ⟨_, hn, .inr (.inr ⟨_, he, h⟩)⟩

theorem Spec.Reached.one {x : Node} {ns : List Node} (h : Reached x ns) : ∃ n ∈ ns, Reached x [n] := by
  cases h with
  | here h => exact ⟨x, h, .here (by simp)⟩
  | content hn ho h => exact ⟨_, hn, .content (by simp) ho h⟩
  | label hn he h => exact ⟨_, hn, .label (by simp) he h⟩

theorem Spec.Reached.mono {x : Node} {ns ms : List Node} (h : Reached x ns) (hm : ∀ n ∈ ns, n ∈ ms) : Reached x ms := by
  cases h with
  | here h => exact .here (hm _ h)
  | content hn ho h => exact .content (hm _ hn) ho h
  | label hn he h => exact .label (hm _ hn) he h

theorem Spec.Reached.occ {x : Node} {ns : List Node} (h : Reached x ns) : Occ x ns := by
  induction h with
  | here h => exact ⟨x, h, .refl⟩
  | content hn ho h ih =>
    obtain ⟨m, hm, hs⟩ := ih
    exact ⟨_, hn, .kid (by simp [kids, hm]) hs⟩
  | label hn he h ih =>
    obtain ⟨m, hm, hs⟩ := ih
    simp only [List.mem_singleton] at hm
    subst hm
    refine ⟨_, hn, .kid ?_ hs⟩
    unfold kids
    exact List.mem_append_left _ (List.mem_append_right _ (List.mem_map.2 ⟨_, he, rfl⟩))

/-- The mentions and links in the text of `ns` which are not completed yet are collected. -/
def Known (s : DocSt) (ns : List Node) : Prop :=
  ∀ x, Reached x ns → (∀ i nm, x.data = .macroFootnote i nm none → (i, nm) ∈ s.footnoteMacros) ∧ ∀ i nm, x.data = .macroHeader i nm none → (i, nm) ∈ s.linkMacros

/-- More is collected. -/
def Gained (s s' : DocSt) : Prop := (∀ e ∈ s.footnoteMacros, e ∈ s'.footnoteMacros) ∧ ∀ e ∈ s.linkMacros, e ∈ s'.linkMacros

theorem Gained.refl {s : DocSt} : Gained s s := ⟨fun _ h => h, fun _ h => h⟩

theorem Known.grow {s s' : DocSt} {ns : List Node} (h : Known s ns) (g : Gained s s') : Known s' ns :=
  fun x hx => ⟨fun i nm e => g.1 _ ((h x hx).1 i nm e), fun i nm e => g.2 _ ((h x hx).2 i nm e)⟩

theorem Known.nil {s : DocSt} : Known s [] := by
  intro x hx
  obtain ⟨n, hn, -⟩ := hx.split
  cases hn

theorem Known.all {s : DocSt} {ns : List Node} (h : ∀ n ∈ ns, Known s [n]) : Known s ns := by
  intro x hx
  obtain ⟨n, hn, hx⟩ := hx.one
  exact h n hn x hx

theorem Known.each {s : DocSt} {ns : List Node} (h : Known s ns) : ∀ n ∈ ns, Known s [n] := by
  intro n hn x hx
  exact h x (hx.mono fun m hm => by simp only [List.mem_singleton] at hm; exact hm ▸ hn)

theorem Known.cons {s : DocSt} {n : Node} {ns : List Node} (h : Known s [n]) (h' : Known s ns) : Known s (n :: ns) := by
  refine .all fun m hm => ?_
  rcases List.mem_cons.1 hm with rfl | hm
  · exact h
  · exact h'.each m hm

theorem Known.append {s : DocSt} {ns ms : List Node} (h : Known s ns) (h' : Known s ms) : Known s (ns ++ ms) := by
  refine .all fun m hm => ?_
  rcases List.mem_append.1 hm with hm | hm
  · exact h.each m hm
  · exact h'.each m hm

/-- Not a mention or link. -/
def Mute (d : NodeData) : Prop := (∀ i nm, d ≠ .macroFootnote i nm none) ∧ ∀ i nm, d ≠ .macroHeader i nm none

theorem Known.new {s : DocSt} {d : NodeData} {c : Context} {ns : List Node} {a : NodeArgs} {labels : Dict Node} (hd : Mute d) (hc : Opens d → Known s ns)
    (hl : ∀ e ∈ labels, Known s [e.2]) : Known s [Node.new d c ns a labels] := by
  intro x hx
  obtain ⟨n, hn, h⟩ := hx.split
  simp only [List.mem_singleton] at hn
  subst hn
  rcases h with rfl | ⟨ho, h⟩ | ⟨e, he, h⟩
  · exact ⟨fun i nm e => absurd e (hd.1 i nm), fun i nm e => absurd e (hd.2 i nm)⟩
  · exact hc ho x h
  · exact hl e he x h

/-- The nodes of a text: what is reached is in the text. -/
theorem reached_inText {exact : Bool} {src : Option Str} {sl : Nat} {x : Node} {ns : List Node} (h : Reached x ns) (hi : ∀ n ∈ ns, InlineAt exact src sl n) : InText x ns := by
  induction h with
  | here h => exact .here h
  | @content ns n hn ho h ih =>
    cases hi n hn with
    | empty => exact ho.elim
    | node hd hq hl he hc =>
      have hh := ih hc
      revert ho hd
      cases hdd : n.data <;> intro ho hd <;> first | exact ho.elim | exact hd.elim | skip
      exact .style hn hdd hh
  | @label ns n e hn he h ih =>
    cases hi n hn with
    | empty => cases he
    | node hd hq hl _ hc => rw [hl] at he; cases he

/-- All mentions so far are collected, and no variable brings in a control macro. -/
structure Sown (s : DocSt) : Prop where
  env : EnvAll Harmless s.env
  nodes : Known s s.nodes
  groups : Known s (members s.groups)
  labels : ∀ e ∈ s.labelBuf, Known s [e.2]

/-- `f` ends in a state with `Q`, or fails in one that is in order, or there is an error. -/
abbrev Sows {α : Type} (f : DM α) (s : DocSt) (Q : α → DocSt → Prop) : Prop := Ends (fun _ => True) Sown (fun _ => f) s Q

theorem Sows.out {α : Type} {f : DM α} {s : DocSt} {Q : α → DocSt → Prop} (h : Sows f s Q) : (∀ a s', f s = .ok a s' → Q a s') ∧ ∀ s', f s = .fail s' → Sown s' := by
  obtain ⟨r, ⟨N, hN⟩, hm⟩ := h
  have := hN N (Nat.le_refl _)
  subst this
  exact ⟨fun a s' e => by simpa [e, Meets] using hm, fun s' e => by simpa [e, Meets] using hm⟩

theorem Sown.of {s s' : DocSt} (h : Sown s) (h1 : s'.nodes = s.nodes := by rfl) (h2 : ∀ e ∈ s'.labelBuf, e ∈ s.labelBuf := by exact fun _ h => h) (h3 : s'.env = s.env := by rfl)
    (h4 : Gained s s' := by exact Gained.refl) (h5 : s'.groups = s.groups := by rfl) : Sown s' :=
  ⟨h3 ▸ h.env, h1 ▸ h.nodes.grow h4, h5 ▸ h.groups.grow h4, fun e he => (h.labels e (h2 e he)).grow h4⟩

/-- The loop goes on. -/
def Proceeds (toks : List Token) (s : DocSt) : Prop := Sown s ∧ Stock (toks.drop s.next)

/-- Texts. -/
theorem Sows.docText {fuel : Nat} {text : Str} {ctx : Context} {s : DocSt} {Q : List Node → DocSt → Prop} (hs : Sown s) (hn : '\n' ∉ text) (hu : Uncontrolled text)
    (hq : ∀ ns s', (∃ u f k pl, s' = { s with uid := u, footnoteMacros := f, linkMacros := k, places := pl }) → Gained s s' → Known s' ns → Q ns s') : Sows (Mau.docText fuel text ctx) s Q := by
  refine .const ?_
  unfold Mau.docText
  cases hp : preprocessNodes s.env text ctx.startLine ctx.startColumn ctx.source with
  | error e =>
    split
    · exact hs
    · trivial
    · rename_i h; cases h
    · rename_i h; cases h
  | ok ns =>
    cases ns with
    | nil => exact hq [] s ⟨s.uid, s.footnoteMacros, s.linkMacros, s.places, rfl⟩ .refl .nil
    | cons n ns =>
      dsimp only
      have hpre : preprocess s.env text ctx.startLine ctx.startColumn ctx.source = .ok (processedText (n :: ns)) := by unfold preprocess; rw [hp]; rfl
      obtain ⟨h1, h2⟩ := preprocess_uncontrolled hs.env hn hu hpre
      cases ht : parseText fuel s.env (processedText (n :: ns)).value ctx.startLine ctx.startColumn ctx.source s.uid with
      | error e =>
        split
        · exact hs
        · trivial
        · rename_i h; cases h
      | ok r =>
        refine hq r.nodes _ ⟨_, _, _, _, rfl⟩ ⟨fun e h => List.mem_append_left _ h, fun e h => List.mem_append_left _ h⟩ fun x hx => ?_
        have htop := parseText_places (exact := false) (fun h => nomatch h) (fun h => nomatch h) ht
        obtain ⟨k1, k2⟩ := C64_collected_partial h2 h1.no_if ht (reached_inText hx fun m hm => (htop m hm).1)
        exact ⟨fun i nm e => List.mem_append_right _ (k1 i nm none e), fun i nm e => List.mem_append_right _ (k2 i nm none e)⟩

theorem Sows.popControl {s : DocSt} {Q : Bool → DocSt → Prop} (hs : Sown s) (hq : ∀ v c, Q v { s with controlBuf := c }) : Sows Mau.popControl s Q := by
  refine .const ?_
  unfold Mau.popControl
  split
  · exact hq true s.controlBuf
  · unfold DM.lift
    split
    · exact hq _ none
    · exact hs.of
    · trivial

/-- Saving a node. -/
theorem Sows.save {n : Node} {s : DocSt} {Q : Unit → DocSt → Prop} (hs : Sown s) (hq : ∀ c ns, (ns = s.nodes ∨ ns = s.nodes ++ [n]) → Q () { s with controlBuf := c, nodes := ns }) :
    Sows (saveIfControl n) s Q := by
  unfold saveIfControl
  refine Ends.bind (Q := fun _ s' => ∃ c, s' = { s with controlBuf := c }) (Sows.popControl hs (fun v c => ⟨c, rfl⟩)) ?_
  rintro v s1 ⟨c, rfl⟩
  refine Ends.ite (fun _ => .modify ?_) (fun _ => .pure ?_)
  · exact hq c _ (.inr rfl)
  · exact hq c _ (.inl rfl)

theorem Sows.popArgs {s : DocSt} {Q : NodeArgs → DocSt → Prop} (hq : ∀ a, Q a { s with argsBuf := none }) : Sows Mau.popArgs s Q := .const (hq _)

theorem Sows.popLabels {s : DocSt} {Q : Dict Node → DocSt → Prop} (hq : Q s.labelBuf { s with labelBuf := [] }) : Sows Mau.popLabels s Q := .const hq

/-- The end of most processing functions. -/
theorem Sows.finish {toks : List Token} {d : NodeData} {c : Context} {ns : List Node} {a : NodeArgs} {s : DocSt} (hs : Sown s) (hd : Mute d) (hc : Opens d → Known s ns)
    (hF : Stock (toks.drop s.next)) : Sows (do let labels ← Mau.popLabels; saveIfControl (Node.new d c ns a labels)) s (fun _ s' => Proceeds toks s') := by
  refine Ends.bind (Q := fun lb s' => lb = s.labelBuf ∧ s' = { s with labelBuf := [] }) (Sows.popLabels ⟨rfl, rfl⟩) ?_
  rintro lb s1 ⟨rfl, rfl⟩
  refine Sows.save (s := { s with labelBuf := [] }) ⟨hs.env, hs.nodes, hs.groups, fun _ h => (nomatch h)⟩ ?_
  intro c ns hns
  refine ⟨⟨hs.env, ?_, hs.groups, (fun _ h => (nomatch h))⟩, hF⟩
  rcases hns with rfl | rfl
  · exact hs.nodes
  · exact hs.nodes.append (.new hd hc hs.labels)

section
variable {toks : List Token} (hE : EndsWithEof toks)
include hE

/-- A token. -/
theorem Sows.tok {ty : TokenType} {v : Option Str} {f : Option (Str → Bool)} {s : DocSt} {Q : Token → DocSt → Prop} (h1 : ty ≠ .EOF) (h2 : ty ≠ .BLOCK) (h3 : ty ≠ .ARGUMENTS) (hs : Sown s)
    (hF : Stock (toks.drop s.next))
    (hq : ∀ t, t.type = ty → toks[s.next]? = some t → '\n' ∉ t.value → (ty = .TEXT → Uncontrolled t.value) → Stock (toks.drop (s.next + 1)) → Q t { s with next := s.next + 1 }) :
    Sows (DM.tm toks (·.get (some ty) v f)) s Q := by
  refine Ends.tok hE h1 hs fun t ht hty _ => ?_
  obtain ⟨k1, k2, k3⟩ := hF.next ht (by rw [hty]; exact h1) (by rw [hty]; exact h2) (by rw [hty]; exact h3)
  exact hq t hty ht k1 (fun h => k2 (hty.trans h)) k3

theorem sown_eol {s : DocSt} (hm : Sown s) (hF : Stock (toks.drop s.next)) : Sows (eolProc toks) s (fun _ s' => Proceeds toks s') := by
  unfold eolProc
  refine Ends.bind (Sows.tok hE (by simp) (by simp) (by simp) hm hF fun t _ _ _ _ h4 => ?_) (fun a s' h => .pure h)
  exact ⟨hm.of, h4⟩

theorem sown_rule {s : DocSt} (hm : Sown s) (hF : Stock (toks.drop s.next)) : Sows (ruleProc toks) s (fun _ s' => Proceeds toks s') := by
  unfold ruleProc
  refine Ends.bind (Q := fun t s' => s' = { s with next := s.next + 1 } ∧ Stock (toks.drop (s.next + 1)))
    (Sows.tok hE (by simp) (by simp) (by simp) hm hF fun t _ _ _ _ h4 => ⟨rfl, h4⟩) ?_
  rintro t s1 ⟨rfl, h4⟩
  refine Ends.bind (Q := fun _ s' => s' = { s with next := s.next + 1, argsBuf := none }) (Sows.popArgs fun _ => rfl) ?_
  rintro args s1 rfl
  exact Sows.finish hm.of ⟨fun _ _ e => (nomatch e), fun _ _ e => (nomatch e)⟩ (fun h => h.elim) h4

theorem sown_label {fuel : Nat} {s : DocSt} (hm : Sown s) (hF : Stock (toks.drop s.next)) : Sows (labelProc fuel toks) s (fun _ s' => Proceeds toks s') := by
  unfold labelProc
  refine Ends.bind (Q := fun t s' => s' = { s with next := s.next + 1 } ∧ Stock (toks.drop (s.next + 1)))
    (Sows.tok hE (by simp) (by simp) (by simp) hm hF fun t _ _ _ _ h4 => ⟨rfl, h4⟩) ?_
  rintro pre s1 ⟨rfl, h4⟩
  dsimp only
  refine Ends.bind (Q := fun t s' => s' = { s with next := s.next + 2 } ∧ '\n' ∉ t.value ∧ Uncontrolled t.value ∧ Stock (toks.drop (s.next + 2)))
    (Sows.tok hE (by simp) (by simp) (by simp) hm.of h4 fun t _ _ k1 k2 k3 => ⟨rfl, k1, k2 rfl, k3⟩) ?_
  rintro t s1 ⟨rfl, k1, k2, k3⟩
  refine Ends.bind (Sows.docText (Q := fun ns s' => (∃ u f k pl, s' = { s with next := s.next + 2, uid := u, footnoteMacros := f, linkMacros := k, places := pl }) ∧ Gained s s' ∧ Known s' ns)
    (s := { s with next := s.next + 2 }) hm.of k1 k2 fun ns s' h1 h2 h3 => ⟨h1, h2, h3⟩) ?_
  rintro ns s1 ⟨⟨u, f, k, pl, rfl⟩, hg, hk⟩
  refine .modify ⟨⟨hm.env, hm.nodes.grow hg, hm.groups.grow hg, fun e he => ?_⟩, k3⟩
  rcases Dict.mem_set he with he | he
  · subst he
    exact .new ⟨fun _ _ e => (nomatch e), fun _ _ e => (nomatch e)⟩ (fun _ => hk) (fun _ h => (nomatch h))
  · exact (hm.labels e he).grow hg

theorem sown_control {s : DocSt} (hm : Sown s) (hF : Stock (toks.drop s.next)) : Sows (controlProc toks) s (fun _ s' => Proceeds toks s') := by
  unfold controlProc
  refine Ends.bind (Q := fun t s' => s' = { s with next := s.next + 1 } ∧ Stock (toks.drop (s.next + 1)))
    (Sows.tok hE (by simp) (by simp) (by simp) hm hF fun t _ _ _ _ h4 => ⟨rfl, h4⟩) ?_
  rintro pre s1 ⟨rfl, h4⟩
  refine Ends.bind (Q := fun t s' => s' = { s with next := s.next + 2 } ∧ Stock (toks.drop (s.next + 2)))
    (Sows.tok hE (by simp) (by simp) (by simp) hm.of h4 fun t _ _ _ _ k3 => ⟨rfl, k3⟩) ?_
  rintro op s1 ⟨rfl, h4'⟩
  refine Ends.bind (Q := fun t s' => s' = { s with next := s.next + 3 } ∧ Stock (toks.drop (s.next + 3)))
    (Sows.tok hE (by simp) (by simp) (by simp) hm.of h4' fun t _ _ _ _ k3 => ⟨rfl, k3⟩) ?_
  rintro cond s1 ⟨rfl, k4⟩
  refine Ends.bind (Q := fun a s' => s' = { s with next := s.next + 3 }) (.get rfl) ?_
  rintro s2 s1 rfl
  refine Ends.bind (Q := fun a s' => s' = { s with next := s.next + 3 }) (.lift hm.of (fun _ _ => trivial) fun _ _ => rfl) ?_
  rintro o s1 rfl
  cases o with
  | none => exact .raise trivial (by simp)
  | some c =>
    refine Ends.bind (Q := fun a s' => s' = { s with next := s.next + 3 }) (.lift hm.of (fun _ _ => trivial) fun _ hc => rfl) ?_
    rintro o s1 rfl
    exact .modify ⟨hm.of, k4⟩

theorem sown_arguments {s : DocSt} (hm : Sown s) (hF : Stock (toks.drop s.next)) : Sows (argumentsProc toks) s (fun _ s' => Proceeds toks s') := by
  unfold argumentsProc
  refine Ends.bind (Q := fun t s' => t.type = .ARGUMENTS ∧ toks[s.next]? = some t ∧ s' = { s with next := s.next + 1 }) (Ends.tok hE (by simp) hm fun t h1 h2 _ => ⟨h2, h1, rfl⟩) ?_
  rintro a s1 ⟨ha, hag, rfl⟩
  refine Ends.bind (Q := fun t s' => toks[s.next + 1]? = some t ∧ s' = { s with next := s.next + 2 }) (Ends.tok hE (by simp) hm.of fun t h1 h2 _ => ⟨h1, rfl⟩) ?_
  rintro t s1 ⟨htg, rfl⟩
  refine Ends.bind (Q := fun t s' => toks[s.next + 2]? = some t ∧ s' = { s with next := s.next + 3 }) (Ends.tok hE (by simp) hm.of fun t h1 h2 _ => ⟨h1, rfl⟩) ?_
  rintro c s1 ⟨hcg, rfl⟩
  have hF' : Stock (toks.drop (s.next + 3)) := by
    rw [drop_of_get hag, drop_of_get htg, drop_of_get hcg] at hF
    generalize toks.drop (s.next + 3) = q at hF
    cases hF with
    | one h1 h2 h3 => exact absurd ha h3
    | args _ _ _ hr => exact hr
    | block h1 => rw [ha] at h1; cases h1
    | bare h1 => rw [ha] at h1; cases h1
  refine Ends.bind (Q := fun a s' => s' = { s with next := s.next + 3 }) (.get rfl) ?_
  rintro s2 s1 rfl
  refine Ends.bind (Q := fun a s' => s' = { s with next := s.next + 3 }) (.lift hm.of (fun _ _ => trivial) fun _ _ => rfl) ?_
  rintro o s1 rfl
  exact .modify ⟨hm.of, hF'⟩

theorem sown_header {fuel : Nat} {s : DocSt} (hm : Sown s) (hF : Stock (toks.drop s.next)) : Sows (headerProc fuel toks) s (fun _ s' => Proceeds toks s') := by
  unfold headerProc
  refine Ends.bind (Q := fun t s' => s' = { s with next := s.next + 1 } ∧ Stock (toks.drop (s.next + 1)))
    (Sows.tok hE (by simp) (by simp) (by simp) hm hF fun t _ _ _ _ h4 => ⟨rfl, h4⟩) ?_
  rintro h s1 ⟨rfl, h4⟩
  refine Ends.bind (Q := fun t s' => s' = { s with next := s.next + 2 } ∧ '\n' ∉ t.value ∧ Uncontrolled t.value ∧ Stock (toks.drop (s.next + 2)))
    (Sows.tok hE (by simp) (by simp) (by simp) hm.of h4 fun t _ _ k1 k2 k3 => ⟨rfl, k1, k2 rfl, k3⟩) ?_
  rintro t s1 ⟨rfl, k1, k2, k3⟩
  dsimp only
  refine Ends.bind (Q := fun _ s' => s' = { s with next := s.next + 2, uid := s.uid + 1 }) (.fresh rfl) ?_
  rintro id s1 rfl
  refine Ends.bind (Sows.docText (Q := fun ns s' => (∃ u f k pl, s' = { s with next := s.next + 2, uid := u, footnoteMacros := f, linkMacros := k, places := pl }) ∧ Gained s s' ∧ Known s' ns)
    (s := { s with next := s.next + 2, uid := s.uid + 1 }) hm.of k1 k2 fun ns s' h1 h2 h3 => ⟨h1, h2, h3⟩) ?_
  rintro ns s1 ⟨⟨u, f, k, pl, rfl⟩, hg, hk⟩
  refine Ends.bind (Q := fun _ s' => s' = { s with next := s.next + 2, uid := u, footnoteMacros := f, linkMacros := k, places := pl, argsBuf := none }) (Sows.popArgs fun _ => rfl) ?_
  rintro args s1 rfl
  refine Ends.bind (Q := fun c s' => s' = { s with next := s.next + 2, uid := u, footnoteMacros := f, linkMacros := k, places := pl, argsBuf := none })
    (.lift (hm.of (h4 := hg)) (fun _ _ => trivial) fun _ h => rfl) ?_
  rintro c s1 rfl
  refine Ends.bind (Q := fun lb s' => lb = s.labelBuf ∧ s' = { s with next := s.next + 2, uid := u, footnoteMacros := f, linkMacros := k, places := pl, argsBuf := none, labelBuf := [] })
    (Sows.popLabels ⟨rfl, rfl⟩) ?_
  rintro lb s1 ⟨rfl, rfl⟩
  have hdone : ∀ (s' : DocSt), s'.next = s.next + 2 → s'.labelBuf = [] → s'.env = s.env → s'.footnoteMacros = f → s'.linkMacros = k →
      (s'.nodes = s.nodes ∨ ∃ i l a b c args, s'.nodes = s.nodes ++ [Node.new (.header i l a b) c ns args s.labelBuf]) → s'.groups = s.groups → Proceeds toks s' := by
    intro s' e1 e2 e3 e5 e6 e4 e7
    have hg' : Gained s s' := ⟨by rw [e5]; exact hg.1, by rw [e6]; exact hg.2⟩
    refine ⟨⟨by rw [e3]; exact hm.env, ?_, by rw [e7]; exact hm.groups.grow hg', by rw [e2]; exact fun _ h => (nomatch h)⟩, by rw [e1]; exact k3⟩
    rcases e4 with e4 | ⟨i, l, a, b, c, args, e4⟩ <;> rw [e4]
    · exact hm.nodes.grow hg'
    · refine (hm.nodes.grow hg').append (.new ⟨fun _ _ e => (nomatch e), fun _ _ e => (nomatch e)⟩ (fun _ => hk.grow ⟨?_, ?_⟩) fun e he => (hm.labels e he).grow hg')
      · rw [e5]; exact fun _ h => h
      · rw [e6]; exact fun _ h => h
  refine Ends.bind (Q := fun _ s' => ∃ o, s' = { s with next := s.next + 2, uid := u, footnoteMacros := f, linkMacros := k, places := pl, argsBuf := none, labelBuf := [], controlBuf := o })
    (Sows.popControl ⟨hm.env, hm.nodes.grow hg, hm.groups.grow hg, fun _ h => (nomatch h)⟩ fun _ c => ⟨c, rfl⟩) ?_
  rintro v s1 ⟨o, rfl⟩
  refine Ends.ite (fun _ => ?_) (fun _ => .pure (hdone _ rfl rfl rfl rfl rfl (.inl rfl) rfl))
  refine Ends.bind (Q := fun _ s' => s'.next = s.next + 2 ∧ s'.labelBuf = [] ∧ s'.env = s.env ∧ s'.footnoteMacros = f ∧ s'.linkMacros = k ∧ s'.nodes = s.nodes ∧ s'.groups = s.groups) ?_ ?_
  · unfold registerHeader
    refine Ends.bind (Q := fun _ s' => s'.next = s.next + 2 ∧ s'.labelBuf = [] ∧ s'.env = s.env ∧ s'.footnoteMacros = f ∧ s'.linkMacros = k ∧ s'.nodes = s.nodes ∧ s'.groups = s.groups) ?_ fun _ s' h => .modify h
    unfold registerName
    split
    · exact .pure ⟨rfl, rfl, rfl, rfl, rfl, rfl, rfl⟩
    · refine Ends.bind (Q := fun a s' => s'.next = s.next + 2 ∧ s'.labelBuf = [] ∧ s'.env = s.env ∧ s'.footnoteMacros = f ∧ s'.linkMacros = k ∧ s'.nodes = s.nodes ∧ s'.groups = s.groups) (.get ⟨rfl, rfl, rfl, rfl, rfl, rfl, rfl⟩) ?_
      rintro s2 s1 hs1
      exact Ends.ite (fun _ => .raise trivial (by simp)) (fun _ => .modify hs1)
  · rintro _ s1 ⟨e1, e2, e3, e5, e6, e4, e7⟩
    exact .modify (hdone _ e1 e2 e3 e5 e6 (.inr ⟨_, _, _, _, _, _, by rw [e4]⟩) e7)

end

end Mau
