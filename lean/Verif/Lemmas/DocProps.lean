import Verif.Spec.Nodes
import Verif.Spec.Lists
import Verif.Lemmas.DocCompose
import Verif.Props.Text

set_option linter.unusedSimpArgs false

/-!
# Supporting lemmas for the properties of documents
-/

namespace Mau
open Spec

/-! ## Inline text -/

theorem Spec.OnlyMentions.refl (s : DocSt) : OnlyMentions s s := ⟨rfl, List.prefix_rfl, List.prefix_rfl⟩

theorem Spec.OnlyMentions.trans {a b c : DocSt} (h1 : OnlyMentions a b) (h2 : OnlyMentions b c) : OnlyMentions a c := by
  refine ⟨?_, h1.footnotes.trans h2.footnotes, h1.links.trans h2.links⟩
  rw [h2.rest, h1.rest]

theorem parsesTo_unique {env : Env} {text : Str} {ns ms : List Node} (h1 : ParsesTo env text ns) (h2 : ParsesTo env text ms) : ns = ms := by
  obtain ⟨N, hN⟩ := h1 0 0 none 0
  obtain ⟨M, hM⟩ := h2 0 0 none 0
  obtain ⟨r1, e1, a1⟩ := hN (max N M) (by omega)
  obtain ⟨r2, e2, a2⟩ := hM (max N M) (by omega)
  rw [e1] at e2
  cases e2
  rw [← a1, ← a2]

theorem parsesTo_empty {env : Env} {ns : List Node} (h : ParsesTo env [] ns) : ns = [] :=
  parsesTo_unique h (C28_plain_text env [] (by simp) (by simp))

theorem inline_only {P : Parser} {s s' : DocSt} {text : Str} {ctx : Context} {ns : List Node}
    (h : P.inline s text ctx = .ok (ns, s')) : OnlyMentions s s' := by
  unfold Parser.inline docText at h
  cases hp : preprocessNodes s.env text ctx.startLine ctx.startColumn ctx.source with
  | error e => rw [hp] at h; cases e <;> cases h
  | ok ps =>
    rw [hp] at h
    cases ps with
    | nil => cases h; exact OnlyMentions.refl _
    | cons p ps =>
      dsimp only at h
      cases hq : parseText P.fuel s.env (processedText (p :: ps)).value ctx.startLine ctx.startColumn ctx.source s.uid with
      | error e => rw [hq] at h; cases e <;> cases h
      | ok r =>
        rw [hq] at h
        cases h
        exact ⟨rfl, List.prefix_append _ _, List.prefix_append _ _⟩

theorem inline_of_inlines {s : DocSt} {text : Str} {ns : List Node} (h : Inlines s.env text ns) (ctx : Context) :
    ∃ N ms s', anonList ms = ns ∧ ∀ P : Parser, N ≤ P.fuel → P.inline s text ctx = .ok (ms, s') := by
  obtain ⟨tok, hp, ht⟩ := h ctx.startLine ctx.startColumn ctx.source
  unfold preprocess at hp
  cases hq : preprocessNodes s.env text ctx.startLine ctx.startColumn ctx.source with
  | error e => rw [hq] at hp; cases hp
  | ok ps =>
    rw [hq] at hp
    cases hp
    cases ps with
    | nil =>
      refine ⟨0, [], s, (parsesTo_empty ht).symm, fun P _ => ?_⟩
      unfold Parser.inline docText
      rw [hq]
    | cons p ps =>
      obtain ⟨N, hN⟩ := ht ctx.startLine ctx.startColumn ctx.source s.uid
      obtain ⟨M, hM⟩ := textP_ev s.env (processedText (p :: ps)).value ctx.startLine ctx.startColumn ctx.source s.uid
      obtain ⟨r, h1, h2⟩ := hN (max N M) (by omega)
      refine ⟨max N M, r.nodes, { s with uid := r.uid, footnoteMacros := s.footnoteMacros ++ r.footnoteMacros, linkMacros := s.linkMacros ++ r.headerLinks, places := s.places ++ r.places },
        h2, fun P hP => ?_⟩
      have h3 := hM (max N M) (by omega)
      have h4 := hM P.fuel (by omega)
      dsimp only at h3 h4
      rw [← h3, h1] at h4
      unfold Parser.inline docText
      rw [hq]
      dsimp only
      rw [h4]

theorem Spec.OnlyMentions.env {s s' : DocSt} (h : OnlyMentions s s') : s'.env = s.env := by rw [h.rest]
theorem Spec.OnlyMentions.nodes {s s' : DocSt} (h : OnlyMentions s s') : s'.nodes = s.nodes := by rw [h.rest]
theorem Spec.OnlyMentions.argsBuf {s s' : DocSt} (h : OnlyMentions s s') : s'.argsBuf = s.argsBuf := by rw [h.rest]
theorem Spec.OnlyMentions.labelBuf {s s' : DocSt} (h : OnlyMentions s s') : s'.labelBuf = s.labelBuf := by rw [h.rest]
theorem Spec.OnlyMentions.controlBuf {s s' : DocSt} (h : OnlyMentions s s') : s'.controlBuf = s.controlBuf := by rw [h.rest]
theorem Spec.OnlyMentions.allowed {s s' : DocSt} (h : OnlyMentions s s') : Spec.allowed s' = Spec.allowed s := by
  unfold Spec.allowed; rw [h.controlBuf, h.env]

theorem inlineLines_spec {P : Parser} : ∀ {ls : List Str} {s s' : DocSt} {ln col : Nat} {ns : List Node},
    P.inlineLines s (textToks P.src ln col ls) = .ok (ns, s') → OnlyMentions s s' ∧ ParagraphLines P s.env ln col ls ns := by
  intro ls
  induction ls with
  | nil => intro s s' ln col ns h; cases h; exact ⟨OnlyMentions.refl _, .nil⟩
  | cons l ls ih =>
    intro s s' ln col ns h
    obtain ⟨r, h1, h2⟩ := bind_ok_except h
    obtain ⟨rs, h3, h4⟩ := bind_ok_except h2
    cases h4
    obtain ⟨i1, i2⟩ := ih h3
    have o := inline_only h1
    refine ⟨o.trans i1, .cons ⟨s, r.2, rfl, h1⟩ ?_⟩
    rw [← o.env]
    exact i2

end Mau
