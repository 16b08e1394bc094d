import Verif.Lemmas.Sown

set_option linter.unusedSimpArgs false
set_option linter.unusedVariables false

/-!
# The mentions in paragraphs and lists are collected
-/

namespace Mau
open Spec

/-- States that differ in the position, identities and mentions only. -/
def Beyond (s s' : DocSt) : Prop := (∃ i u f k pl, s' = { s with next := i, uid := u, footnoteMacros := f, linkMacros := k, places := pl }) ∧ Gained s s'

theorem Gained.trans {a b c : DocSt} (h : Gained a b) (h' : Gained b c) : Gained a c := ⟨fun e he => h'.1 e (h.1 e he), fun e he => h'.2 e (h.2 e he)⟩

theorem Beyond.refl {s : DocSt} : Beyond s s := ⟨⟨s.next, s.uid, s.footnoteMacros, s.linkMacros, s.places, rfl⟩, .refl⟩

theorem Beyond.trans {s s1 s2 : DocSt} (h1 : Beyond s s1) (h2 : Beyond s1 s2) : Beyond s s2 := by
  obtain ⟨⟨i, u, f, k, pl, rfl⟩, g1⟩ := h1
  obtain ⟨⟨i', u', f', k', pl', rfl⟩, g2⟩ := h2
  exact ⟨⟨i', u', f', k', pl', rfl⟩, g1.trans g2⟩

theorem Beyond.sown {s s' : DocSt} (h : Beyond s s') (hm : Sown s) : Sown s' := by
  obtain ⟨⟨i, u, f, k, pl, rfl⟩, g⟩ := h
  exact hm.of (h4 := g)

theorem Beyond.moved {s : DocSt} (i : Nat) : Beyond s { s with next := i } := ⟨⟨i, s.uid, s.footnoteMacros, s.linkMacros, s.places, rfl⟩, .refl⟩

/-- Texts. -/
theorem Sows.texts {fuel : Nat} {text : Str} {ctx : Context} {s : DocSt} (hs : Sown s) (hn : '\n' ∉ text) (hu : Uncontrolled text) :
    Sows (Mau.docText fuel text ctx) s (fun ns s' => Beyond s s' ∧ s'.next = s.next ∧ Known s' ns) :=
  Sows.docText hs hn hu fun ns s' ⟨u, f, k, pl, e⟩ g hk => ⟨⟨⟨s.next, u, f, k, pl, e⟩, g⟩, by rw [e], hk⟩

/-- The lines of a paragraph. -/
theorem sown_lines {fuel : Nat} : ∀ {ts : List Token} {s : DocSt}, Sown s → (∀ t ∈ ts, '\n' ∉ t.value ∧ Uncontrolled t.value) →
    Sows (paragraphLines fuel ts) s (fun ns s' => Beyond s s' ∧ s'.next = s.next ∧ Known s' ns) := by
  intro ts
  induction ts with
  | nil => intro s hs _; exact .pure ⟨.refl, rfl, .nil⟩
  | cons t ts ih =>
    intro s hs ht
    unfold paragraphLines
    refine Ends.bind (Sows.texts hs (ht t (by simp)).1 (ht t (by simp)).2) ?_
    rintro ns s1 ⟨h1, h2, h3⟩
    refine Ends.bind (ih (h1.sown hs) fun u hu => ht u (by simp [hu])) ?_
    rintro rest s2 ⟨k1, k2, k3⟩
    refine .pure ⟨h1.trans k1, by rw [k2, h2], .cons ?_ k3⟩
    exact .new ⟨fun _ _ e => (nomatch e), fun _ _ e => (nomatch e)⟩ (fun _ => h3.grow k1.2) (fun _ h => (nomatch h))

section
variable {toks : List Token} (hE : EndsWithEof toks)
include hE

theorem sown_collect {n : Nat} : ∀ {s : DocSt}, Sown s → Stock (toks.drop s.next) →
    Sows (collectLines toks n) s (fun ts s' => (∀ t ∈ ts, '\n' ∉ t.value ∧ Uncontrolled t.value) ∧ Stock (toks.drop s'.next) ∧ Beyond s s') := by
  induction n with
  | zero => intro s hm hF; exact .raise trivial (by simp)
  | succ n ih =>
    intro s hm hF
    unfold collectLines
    refine Ends.bind (Q := fun t s' => s' = s) (Ends.peek hE hm trivial fun t _ _ => rfl) ?_
    rintro t s1 rfl
    refine Ends.ite (fun _ => ?_) (fun _ => .pure ⟨fun _ h => (nomatch h), hF, .refl⟩)
    refine Ends.bind (Q := fun t s' => s' = { s1 with next := s1.next + 1 } ∧ '\n' ∉ t.value ∧ Uncontrolled t.value ∧ Stock (toks.drop (s1.next + 1)))
      (Sows.tok hE (by simp) (by simp) (by simp) hm hF fun t _ _ h1 h2 h3 => ⟨rfl, h1, h2 rfl, h3⟩) ?_
    rintro u s2 ⟨rfl, h1, h2, h3⟩
    refine Ends.bind (ih (s := { s1 with next := s1.next + 1 }) hm.of h3) ?_
    rintro rest s3 ⟨h5, h6, h7⟩
    refine .pure ⟨?_, h6, Beyond.trans (.moved _) h7⟩
    intro v hv
    rcases List.mem_cons.1 hv with rfl | hv
    · exact ⟨h1, h2⟩
    · exact h5 v hv

theorem sown_paragraph {fuel : Nat} {s : DocSt} (hm : Sown s) (hF : Stock (toks.drop s.next)) : Sows (paragraphProc fuel toks) s (fun _ s' => Proceeds toks s') := by
  unfold paragraphProc
  refine Ends.bind (sown_collect hE hm hF) ?_
  rintro ts s1 ⟨h1, h2, h3⟩
  refine Ends.bind (sown_lines (h3.sown hm) h1) ?_
  rintro ns s2 ⟨h4, h5, h6⟩
  have h7 := (h3.trans h4).sown hm
  rw [← h5] at h2
  refine Ends.bind (Q := fun _ s' => s' = { s2 with argsBuf := none }) (Sows.popArgs fun _ => rfl) ?_
  rintro args s3 rfl
  refine Ends.bind (Q := fun x s' => s' = { s2 with argsBuf := none }) (.lift h7.of (fun _ _ => trivial) fun _ _ => rfl) ?_
  rintro x s3 rfl
  exact Sows.finish h7.of ⟨fun _ _ e => (nomatch e), fun _ _ e => (nomatch e)⟩ (fun _ => h6) h2

/-! ## Lists -/

theorem sown_item {fuel : Nat} {h : Token} {s : DocSt} (hm : Sown s) (hF : Stock (toks.drop s.next)) :
    Sows (listItem fuel toks h) s (fun n s' => Known s' [n] ∧ Stock (toks.drop s'.next) ∧ Beyond s s') := by
  unfold listItem
  refine Ends.bind (Q := fun t s' => s' = { s with next := s.next + 1 } ∧ '\n' ∉ t.value ∧ Uncontrolled t.value ∧ Stock (toks.drop (s.next + 1)))
    (Sows.tok hE (by simp) (by simp) (by simp) hm hF fun t _ _ k1 k2 k3 => ⟨rfl, k1, k2 rfl, k3⟩) ?_
  rintro t s1 ⟨rfl, k1, k2, k3⟩
  refine Ends.bind (Sows.texts (s := { s with next := s.next + 1 }) hm.of k1 k2) ?_
  rintro ns s1 ⟨h1, h2, h3⟩
  cases hz : ns.getLast? with
  | none => exact .raise trivial (by simp)
  | some z =>
    refine .pure ⟨?_, by rw [h2]; exact k3, Beyond.trans (.moved _) h1⟩
    exact .new ⟨fun _ _ e => (nomatch e), fun _ _ e => (nomatch e)⟩ (fun _ => h3) (fun _ h => (nomatch h))

theorem sown_list_nodes {fuel : Nat} (n : Nat) :
    (∀ {s : DocSt}, Sown s → Stock (toks.drop s.next) →
      Sows (listNodes fuel toks n) s (fun ns s' => Known s' ns ∧ Stock (toks.drop s'.next) ∧ Beyond s s')) ∧
    ∀ {level : Nat} {s : DocSt}, Sown s → Stock (toks.drop s.next) →
      Sows (listLoop fuel toks n level) s (fun ns s' => Known s' ns ∧ Stock (toks.drop s'.next) ∧ Beyond s s') := by
  induction n with
  | zero => exact ⟨fun _ _ => by unfold listNodes; exact .raise trivial (by simp), fun _ _ => by unfold listLoop; exact .raise trivial (by simp)⟩
  | succ n ih =>
    obtain ⟨ih1, ih2⟩ := ih
    constructor
    · intro s hm hF
      unfold listNodes
      refine Ends.bind (Q := fun t s' => s' = { s with next := s.next + 1 } ∧ Stock (toks.drop (s.next + 1)))
        (Sows.tok hE (by simp) (by simp) (by simp) hm hF fun t _ h0 h1 h2 h3 => ⟨rfl, h3⟩) ?_
      rintro h s1 ⟨rfl, h4⟩
      refine Ends.bind (sown_item hE (s := { s with next := s.next + 1 }) hm.of h4) ?_
      rintro item s2 ⟨hi, hf, hb⟩
      have hb1 := Beyond.trans (.moved _) hb
      refine Ends.bind (ih2 (hb1.sown hm) hf) ?_
      rintro rest s3 ⟨hr, hf', hb'⟩
      exact .pure ⟨.cons (hi.grow hb'.2) hr, hf', hb1.trans hb'⟩
    · intro level s hm hF
      unfold listLoop
      refine Ends.bind (Q := fun t s' => s' = s ∧ (t.type ≠ .EOF → toks[s.next]? = some t))
        (Ends.peek hE hm trivial fun t hp h => ⟨rfl, fun hx => (h hx).1⟩) ?_
      rintro t s1 ⟨rfl, ht⟩
      refine Ends.ite (fun _ => .pure ⟨.nil, hF, .refl⟩) (fun hnot => ?_)
      refine Ends.ite (fun _ => .raise trivial (by simp)) (fun hlist => ?_)
      have hty : t.type = .LIST := by simpa using hlist
      have ht := ht (by rw [hty]; simp)
      obtain ⟨h1, h2, h4⟩ := hF.next ht (by rw [hty]; simp) (by rw [hty]; simp) (by rw [hty]; simp)
      refine Ends.ite (fun _ => ?_) (fun _ => Ends.ite (fun _ => ?_) (fun _ => .pure ⟨.nil, hF, .refl⟩))
      · refine Ends.bind (Q := fun u s' => s' = { s1 with next := s1.next + 1 }) ?_ ?_
        · refine Ends.next hE hm (fun u hu => ?_) (fun u hu hg _ => rfl)
          intro he
          obtain ⟨init, e, rfl, _⟩ := hE
          unfold TM.peek at hu
          simp only [ht] at hu
          have := chk_ok hu
          subst this
          rw [hty] at he; cases he
        rintro u s2 rfl
        refine Ends.bind (sown_item hE (s := { s1 with next := s1.next + 1 }) hm.of h4) ?_
        rintro item s2 ⟨hi, hf, hb⟩
        have hb1 := Beyond.trans (.moved _) hb
        refine Ends.bind (ih2 (hb1.sown hm) hf) ?_
        rintro rest s3 ⟨hr, hf', hb'⟩
        exact .pure ⟨.cons (hi.grow hb'.2) hr, hf', hb1.trans hb'⟩
      · refine Ends.bind (Q := fun _ s' => s' = s1) (.lift hm (fun _ _ => trivial) fun _ _ => rfl) ?_
        rintro ordered s2 rfl
        refine Ends.bind (ih1 hm hF) ?_
        rintro subs s3 ⟨k5, k6, k7⟩
        cases hz : subs.getLast? with
        | none => exact .raise trivial (by simp)
        | some z =>
          refine Ends.bind (ih2 (k7.sown hm) k6) ?_
          rintro rest s4 ⟨hr, hf', hb'⟩
          refine .pure ⟨.cons ?_ hr, hf', k7.trans hb'⟩
          exact .new ⟨fun _ _ e => (nomatch e), fun _ _ e => (nomatch e)⟩ (fun _ => k5.grow hb'.2) (fun _ h => (nomatch h))

theorem sown_list {fuel : Nat} {s : DocSt} (hm : Sown s) (hF : Stock (toks.drop s.next)) : Sows (listProc fuel toks) s (fun _ s' => Proceeds toks s') := by
  unfold listProc
  refine Ends.bind (Q := fun _ s' => s' = s) (Ends.peek hE hm trivial fun t _ _ => rfl) ?_
  rintro h s1 rfl
  refine Ends.bind (Q := fun _ s' => s' = s1) (.lift hm (fun _ _ => trivial) fun _ _ => rfl) ?_
  rintro ordered s2 rfl
  refine Ends.bind ((sown_list_nodes hE _).1 hm hF) ?_
  rintro ns s3 ⟨k5, k6, k7⟩
  have h7 := k7.sown hm
  refine Ends.bind (Q := fun _ s' => s' = { s3 with argsBuf := none }) (Sows.popArgs fun _ => rfl) ?_
  rintro args s4 rfl
  refine Ends.bind (Q := fun _ s' => s' = { s3 with argsBuf := none }) (.get rfl) ?_
  rintro s5 s4 rfl
  refine Ends.bind (Q := fun _ s' => s' = { s3 with argsBuf := none }) (.lift h7.of (fun _ _ => trivial) fun _ _ => rfl) ?_
  rintro ⟨start, latest⟩ s4 rfl
  refine Ends.bind (Q := fun _ s' => s' = { s3 with argsBuf := none, latest := latest }) (.modify rfl) ?_
  rintro _ s4 rfl
  refine Ends.bind (Q := fun x s' => s' = { s3 with argsBuf := none, latest := latest }) (.lift h7.of (fun _ _ => trivial) fun _ _ => rfl) ?_
  rintro x s4 rfl
  exact Sows.finish h7.of ⟨fun _ _ e => (nomatch e), fun _ _ e => (nomatch e)⟩ (fun _ => k5) k6

end

end Mau
