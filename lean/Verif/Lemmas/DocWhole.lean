import Verif.Lemmas.Finalised
import Verif.Lemmas.DocTokens
import Verif.Lemmas.DocLink
import Verif.Lemmas.DocGoodLoop

set_option linter.unusedSimpArgs false
set_option linter.unusedVariables false

/-!
# The invariant holds for whole documents
-/

namespace Mau
open Spec

theorem place_pieces {ln : Nat} {src : Option Str} {col : Nat} {ps : List Piece} {t : Token}
    (h : t ∈ place ln src col ps) : Piece.tok t.type t.value ∈ ps := by
  induction ps generalizing col with
  | nil => simp [place] at h
  | cons p ps ih =>
    cases p with
    | tok ty v =>
      simp [place] at h
      rcases h with h | h
      · subst h; simp [tokAt]
      · exact List.mem_cons_of_mem _ (ih h)
    | skip v =>
      simp [place] at h
      exact List.mem_cons_of_mem _ (ih h)

theorem linePieces_header {l v : Str} (h : Piece.tok .HEADER v ∈ linePieces l) : v ≠ [] := by
  rcases linePieces_iff.1 (rfl : linePieces l = linePieces l) with h1 | ⟨_, h1⟩
  · generalize linePieces l = ps at h h1
    have hT : ∀ {t ps}, Tail t ps → Piece.tok .HEADER v ∉ ps := by
      intro t ps ht hm
      cases ht <;> simp at hm
    cases h1 with
    | incl sp ty t ps a b c d e => 
      rcases List.mem_append.1 h with h | h
      · simp at h
      · exact absurd h (hT e)
    | variable_ nm t ps a b c e => 
      rcases List.mem_append.1 h with h | h
      · simp at h
      · exact absurd h (hT e)
    | _ => simp at h <;> simp [h]
  · rw [h1] at h
    simp at h

theorem docTokens_headers (src : Option Str) (ls : List Str) (ln col : Nat) (ts : List Token)
    (h : docTokens src ln col ls = .ok ts) : ∀ t ∈ ts, t.type = .HEADER → t.value ≠ [] := by
  revert ts
  refine docTokens_rec (src := src) (P := fun _ _ _ r => ∀ ts, r = .ok ts → ∀ t ∈ ts, t.type = .HEADER → t.value ≠ [])
    ?_ ?_ ?_ ?_ ?_ ?_ ?_ ?_ ls ln col
  · intro ln col ts h; simp at h; rw [← h]; simp [tokAt]
  · intro ln col ts h; simp at h; rw [← h]; simp [tokAt]
  · intro ln col l rest _ _ ih ts h
    obtain ⟨x, hx, rfl⟩ := map_ok h
    intro t ht
    rcases List.mem_cons.1 ht with rfl | ht
    · simp [tokAt]
    · exact ih x hx t ht
  · intro ln col rest _ ts h; simp at h
  · intro ln col cs rest _ ih ts h; exact ih ts h
  · intro ln col l rest _ _ ts h; simp at h
  · intro ln col l cs rest _ _ ih ts h
    obtain ⟨x, hx, rfl⟩ := map_ok h
    intro t ht
    simp only [List.mem_cons, List.mem_append] at ht
    rcases ht with (rfl | ht) | rfl | ht
    · simp [tokAt]
    · unfold contentToken at ht
      split at ht
      · simp at ht
      · simp at ht; simp [ht]
    · simp [tokAt]
    · exact ih x hx t ht
  · intro ln col l rest _ ih ts h
    obtain ⟨x, hx, rfl⟩ := map_ok h
    intro t ht
    rcases List.mem_append.1 ht with ht | ht
    · intro e
      have := place_pieces ht
      rw [e] at this
      exact linePieces_header this
    · exact ih x hx t ht

/-- A parser that is done is finished. -/
theorem Finalised.finished {cfg : Config} {lo : Nat} {base : List Node} {s s' : DocSt} {os os' : List Node} (h : Finalised cfg lo base s os s' os') : Finished lo base s' := by
  obtain ⟨h1, h2, h2a, h2b, h2c, h3, h4, h5⟩ := h.after
  refine ⟨⟨h2, ?_⟩, h2a, h2b, h2c, os', h3, h4, h.settled, h5⟩
  intro b hb n hn
  obtain ⟨m, hm, hs⟩ := hn
  refine h.settled n (occ_append.2 (.inr (occ_append.2 (.inl (occ_append.2 (.inl ⟨b, hb, ?_⟩))))))
  exact occ_kids (occ_mono (fun x hx => List.mem_append_left _ (List.mem_append_left _ hx)) ⟨m, hm, hs⟩)

theorem WF.started {lo : Nat} {base : List Node} {s : DocSt} {res : List Nat} {ps : List Node} (h : WF lo base s res ps) : WF lo base (start s) res ps :=
  ⟨h.old, h.bodies, h.order, h.tocNodup, h.groups, h.core⟩

/-- Reading lines keeps the invariant. -/
theorem run_wf {P : Parser} (hn : NestedGood P.nested) {lo : Nat} {base : List Node} {ln col : Nat} {ls : List Str} {s s' : DocSt} (hw : WF lo base s [] [])
    (h : P.run ln col ls s = .ok s') : WF lo base s' [] [] := by
  unfold Parser.run at h
  cases hd : docTokens P.src ln col ls with
  | error e => rw [hd] at h; cases h
  | ok toks =>
    rw [hd] at h
    obtain ⟨s1, h1, rfl⟩ := map_ok h
    exact (DGood.docLoop (DGood.docFns hn P.cfg P.fuel (docTokens_headers _ _ _ _ _ hd)) _ _ _ _ h1 hw.started).started

theorem parseDocument_good (cfg : Config) (n : Nat) : NestedGood (parseDocument cfg n) := by
  induction n with
  | zero => intro req inner h; cases h
  | succ n ih =>
    intro req inner h h0 hold
    have hr := parseDocument_run cfg n req (parseDocument_objects_ok h)
    rw [h] at hr
    obtain ⟨s0, h1, h2⟩ := bind_ok_except hr.symm
    have hw : WF req.uid req.objs s0 [] [] := run_wf (P := parser cfg n req.source) ih (WF.initial h0 hold) h1
    obtain ⟨os, os', hf⟩ := finalise_spec hw h2
    obtain ⟨a, b, c, d, e⟩ := hf.finished
    exact ⟨a, b, c, d, e⟩

/-- A parsed document is the finalisation of the state after its last line. -/
theorem parsed_spec {cfg : Config} {n : Nat} {req : NestedReq} {s' : DocSt} (h : parseDocument cfg n req = .ok s') (h0 : 0 < req.uid) (hold : ∀ n, Occ n req.objs → n.data.id < req.uid) :
    ∃ m s0 os os', n = m + 1 ∧ (parser cfg m req.source).run req.startLine req.startColumn (splitChar '\n' req.text) (initial req) = .ok s0 ∧ finalise cfg s0 = .ok (start s') ∧
      Finalised cfg req.uid req.objs s0 os (start s') os' := by
  cases n with
  | zero => cases h
  | succ n =>
    have hr := parseDocument_run cfg n req (parseDocument_objects_ok h)
    rw [h] at hr
    obtain ⟨s0, h1, h2⟩ := bind_ok_except hr.symm
    have hw : WF req.uid req.objs s0 [] [] := run_wf (P := parser cfg n req.source) (parseDocument_good cfg n) (WF.initial h0 hold) h1
    obtain ⟨os, os', hf⟩ := finalise_spec hw h2
    exact ⟨n, s0, os, os', rfl, h1, h2, hf⟩

end Mau
