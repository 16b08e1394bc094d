import Verif.Lemmas.PlacesWhole
import Verif.Props.Includes

set_option linter.unusedSimpArgs false

/-!
# C72: nodes are where they were read

The file and the line that a node records are those it was read from.
-/

namespace Mau
open Spec

theorem parseDoc_rows {cfg : Config} {fuel : Nat} {text : Str} {env : Env} {source : Option Str} {s : DocSt} (exact : Bool)
    (hv : exact = true → Undisturbed env) (hl : ∀ l ∈ splitChar '\n' text, Named exact l) (h : parseDoc cfg fuel text env source = .ok s) :
    ∃ b, Rows ⟨cfg.files, exact, source, lastLine text, alienOf cfg⟩ 0 s.nodes b := by
  have := (((parseDocument_places cfg fuel exact ⟨text, env, 0, 0, source, [], 1, []⟩ ⟨by show 0 < 1; omega, by rintro n ⟨m, hm, _⟩; cases hm⟩ hv hl).1 s h)).1
  simpa only [NestedReq.scope, Nat.zero_add] using this

theorem lines_named {text : Str} {k : Str} (hk : ∀ l ∈ lines text, ¬ LineDefines l k) : ∀ l ∈ splitChar '\n' text, ¬ LineDefines l k := by
  unfold Spec.lines at hk
  split at hk
  · rename_i e
    subst e
    intro l hl
    simp only [splitChar, List.mem_singleton] at hl
    subst hl
    rintro ⟨v, h | h | h⟩ <;> cases h
  · exact hk

theorem Rows.begins {P : Scope} {a b : Nat} {ns : List Node} (h : Rows P a ns b) : ∀ n ∈ ns, Begins P.exact P.src P.last a P.last n.ctx := by
  induction h with
  | nil h => intro n hn; cases hn
  | @cons a l b n ns h hr ht ih =>
    intro m hm
    have h1 := hr.upper
    have h2 := hr.inside
    have h3 := hr.ends
    rcases List.mem_cons.1 hm with rfl | hm
    · exact ⟨hr.source, fun hx => by have := hr.same hx; omega, by omega, by omega, by omega⟩
    · have := ih m hm
      exact ⟨this.source, fun hx => Nat.le_trans h (this.lower hx), this.upper, this.inside, this.ends⟩

/-- C72: whatever the text and the variables are, every node of the document that is not inline text says that it has been read from the file of the document (or
an included one), and starts on a line of it. -/
theorem C72_places {cfg : Config} {fuel : Nat} {text : Str} {env : Env} {source : Option Str} {s : DocSt} (h : parseDoc cfg fuel text env source = .ok s) :
    ∀ n ∈ s.nodes, Begins false source (lastLine text) 0 (lastLine text) n.ctx ∧ Located cfg.files false source (lastLine text) 0 (lastLine text) n := by
  obtain ⟨b, hr⟩ := parseDoc_rows (exact := false) (fun h => by cases h) (fun _ _ h => by cases h) h
  exact fun n hn => ⟨hr.begins n hn, (hr.clip (by simp)).located (lo := 0) (hi := lastLine text) (fun h => (by cases h)) (by simp) n hn⟩

/-- C72: if no value of a variable has a newline and no variable has an empty name, that holds for every node, and the nodes of the document and the content of
every node start one after the other. -/
theorem C72_exact {cfg : Config} {fuel : Nat} {text : Str} {env : Env} {source : Option Str} {s : DocSt}
    (hv : Undisturbed env) (hl : ∀ l ∈ lines text, ¬ LineDefines l []) (h : parseDoc cfg fuel text env source = .ok s) :
    InOrder s.nodes ∧
    ∀ n ∈ s.nodes, Begins true source (lastLine text) 0 (lastLine text) n.ctx ∧ Located cfg.files true source (lastLine text) 0 (lastLine text) n := by
  obtain ⟨b, hr⟩ := parseDoc_rows (exact := true) (fun _ => hv) (fun l h _ => lines_named hl l h) h
  exact ⟨hr.order rfl, fun n hn => ⟨hr.begins n hn, (hr.clip (by simp)).located (lo := 0) (hi := lastLine text) (fun _ => Nat.zero_le _) (by simp) n hn⟩⟩

theorem spanned {P : Scope} {a b : Nat} {ns : List Node} (h : Rows P a ns b) {c : Context} (hs : spanOf ns = .ok c) :
    Begins P.exact P.src P.last a P.last (Node.new .document c ns).ctx ∧ Located P.files P.exact P.src P.last a P.last (Node.new .document c ns) := by
  obtain ⟨l, h1, h2, h3, h4, h5⟩ := h.span hs
  have hu := h4.upper
  have he := h4.ends
  have hb : Begins P.exact P.src P.last a P.last c := ⟨h4.source, fun hx => by have := h4.same hx; omega, by omega, by omega, by omega⟩
  have hlo : P.exact = true → c.startLine ≤ l := fun _ => hu
  exact ⟨hb, .read (fun _ e => by cases e) hb (fun hx => h5.order hx) (h5.located hlo (Nat.le_refl _))
    (fun e he => by cases he) rfl⟩

/-- C72: the document as a whole. -/
theorem C72_document {cfg : Config} {fuel : Nat} {text : Str} {env : Env} {source : Option Str} {s : DocSt} {d : Node}
    (h : parseDoc cfg fuel text env source = .ok s) (hd : s.output.document = some d) :
    (Begins false source (lastLine text) 0 (lastLine text) d.ctx ∧ Located cfg.files false source (lastLine text) 0 (lastLine text) d) ∧
    (Undisturbed env → (∀ l ∈ lines text, ¬ LineDefines l []) →
      Begins true source (lastLine text) 0 (lastLine text) d.ctx ∧ Located cfg.files true source (lastLine text) 0 (lastLine text) d) := by
  unfold DocSt.output at hd
  dsimp only at hd
  split at hd
  · cases hd
  · rename_i c hs
    cases hd
    refine ⟨?_, fun hv hl => ?_⟩
    · obtain ⟨b, hr⟩ := parseDoc_rows (exact := false) (fun h => by cases h) (fun _ _ h => by cases h) h
      exact spanned hr hs
    · obtain ⟨b, hr⟩ := parseDoc_rows (exact := true) (fun _ => hv) (fun l h _ => lines_named hl l h) h
      exact spanned hr hs

/-- C72: the nodes of a line of text are on that line: they say so, and so does everything in them. (Macros that link to a header get the text of the header later.) -/
theorem C72_line {fuel : Nat} {env : Env} {text : Str} {line column uid : Nat} {source : Option Str} {r : TextResult} (files : Str → Except Bool Str)
    (hv : Undisturbed env) (hn : '\n' ∉ text) (h : parseText fuel env text line column source uid = .ok r) :
    ∀ n ∈ r.nodes, n.ctx.source = source ∧ n.ctx.startLine = line ∧ Located files true source line line line n := by
  have := parseText_places (exact := true) (fun _ => hv) (fun _ => hn) h
  intro n hm
  exact ⟨((this n hm).2 rfl).1, ((this n hm).2 rfl).2.1, this.located files (Nat.le_refl _) (fun _ => Nat.le_refl _) (Nat.le_refl _) n hm⟩

/-! ## Examples -/

/-- Where the nodes are, without their content. -/
def contexts (x : Except Err DocSt) : List (Option Str × Nat × Nat) :=
  match x with
  | .ok s => s.nodes.map fun n => (n.ctx.source, n.ctx.startLine, n.ctx.endLine)
  | .error _ => []

/-- Where the content of the nodes is. -/
def innerContexts (x : Except Err DocSt) : List (List (Option Str × Nat × Nat)) :=
  match x with
  | .ok s => s.nodes.map fun n => n.content.map fun n => (n.ctx.source, n.ctx.startLine, n.ctx.endLine)
  | .error _ => []

/-- A document of sixteen lines; every node is where its first line is, and the nodes of the included file are in that file. -/
def placesText : Str := c%"// c\n= Title\n\nfirst\nsecond\n\n----\nin\n\n----\n\n* one\n** two\n* three\n\n<< mau:a.mau"

/-- The file included by it. -/
def placesFiles : Config := exampleFiles [(c%"a.mau", c%"\n\n\n= Included\n\ntext")]

/-- The hypotheses of `C72_exact` are met, and it says that the nodes are where they are. -/
example :
    Undisturbed [(c%"x", .str c%"1")] ∧ (∀ l ∈ lines placesText, ¬ LineDefines l []) ∧ lastLine placesText = 15 ∧
    contexts (parseDoc placesFiles 30 placesText [(c%"x", .str c%"1")] (some c%"m")) =
      [(some c%"m", 1, 1), (some c%"m", 3, 4), (some c%"m", 6, 9), (some c%"m", 11, 13), (some c%"m", 15, 15)] ∧
    innerContexts (parseDoc placesFiles 30 placesText [(c%"x", .str c%"1")] (some c%"m")) =
      [[(some c%"m", 1, 1)], [(some c%"m", 3, 3), (some c%"m", 4, 4)], [(some c%"m", 7, 7)], [(some c%"m", 11, 11), (some c%"m", 12, 12), (some c%"m", 13, 13)],
       [(some c%"a.mau", 3, 3), (some c%"a.mau", 5, 5)]] := by
  refine ⟨⟨?_, by decide⟩, ?_, by decide, by decide +kernel, by decide +kernel⟩
  · intro k v h
    simp only [List.mem_singleton, Prod.mk.injEq] at h
    obtain ⟨rfl, rfl⟩ := h
    decide
  · have e : lines placesText = [c%"// c", c%"= Title", c%"", c%"first", c%"second", c%"", c%"----", c%"in", c%"", c%"----", c%"", c%"* one", c%"** two", c%"* three", c%"",
        c%"<< mau:a.mau"] := by decide
    rw [e]
    intro l hl
    simp only [List.mem_cons, List.not_mem_nil, or_false] at hl
    rcases hl with rfl | rfl | rfl | rfl | rfl | rfl | rfl | rfl | rfl | rfl | rfl | rfl | rfl | rfl | rfl | rfl <;> rintro ⟨v, h | h | h⟩ <;> simp at h

/-- The hypotheses of `C72_exact` are needed. If there is a variable with an empty name, the text of `[ifeval:x==1](y, "")` is that of this variable and has no position, so that a
header on line 3 starts on line 0; and if the value of a variable has a newline, nodes of its text start on lines that the document does not have. -/
theorem C72_disturbed :
    contexts (parseDoc {} 30 c%"\n\n\n= [ifeval:x==1](y, \"\")\n" [(c%"", .str c%"hidden"), (c%"x", .str c%"0")] (some c%"m")) = [(some c%"m", 0, 3)] ∧
    innerContexts (parseDoc {} 30 c%"\n\n\n= [ifeval:x==0](y)" [(c%"y", .str c%"hid\n_den_"), (c%"x", .str c%"0")] (some c%"m")) =
      [[(some c%"m", 3, 3), (some c%"m", 4, 4)]] ∧ lastLine c%"\n\n\n= [ifeval:x==0](y)" = 3 := by
  refine ⟨by decide +kernel, by decide +kernel, by decide⟩

end Mau
