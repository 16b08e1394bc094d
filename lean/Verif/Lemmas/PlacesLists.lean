import Verif.Lemmas.PlacesDoc

set_option linter.unusedSimpArgs false
set_option linter.unusedVariables false

/-!
# Where paragraphs and lists come from
-/

namespace Mau
open Spec

/-- Tokens on the lines `a` to `b`. -/
inductive ToksIn (P : Scope) : Nat → List Token → Nat → Prop where
  | nil {a b : Nat} (h : a ≤ b) : ToksIn P a [] b
  | cons {a b : Nat} {t : Token} {ts : List Token} (h : TokOn P.src a t) (hl : t.ctx.startLine ≤ P.last) (hn : '\n' ∉ t.value) (ht : ToksIn P t.ctx.startLine ts b) :
      ToksIn P a (t :: ts) b

section
variable {P : Scope} {lo b : Nat} {toks : List Token}

theorem ToksIn.le {a b : Nat} {ts : List Token} (h : ToksIn P a ts b) : a ≤ b := by
  induction h with
  | nil h => exact h
  | cons h _ _ _ ih => exact Nat.le_trans h.from_ ih

/-- States that differ in the position, identities and mentions only. -/
def Beside (P : Scope) (lo : Nat) (s s' : DocSt) : Prop :=
  ∃ i u f k pl, s' = { s with next := i, uid := u, footnoteMacros := f, linkMacros := k, places := pl } ∧ (Tracked P lo s → Tracked P lo s')

theorem Beside.refl {s : DocSt} : Beside P lo s s := ⟨s.next, s.uid, s.footnoteMacros, s.linkMacros, s.places, rfl, fun h => h⟩

theorem Beside.trans {s s1 s2 : DocSt} (h1 : Beside P lo s s1) (h2 : Beside P lo s1 s2) : Beside P lo s s2 := by
  obtain ⟨i, u, f, k, pl, rfl, h1⟩ := h1
  obtain ⟨i', u', f', k', pl', rfl, h2⟩ := h2
  exact ⟨i', u', f', k', pl', rfl, fun h => h2 (h1 h)⟩

theorem Beside.mine {s s' : DocSt} (h : Beside P lo s s') (hm : Mine P lo b s) : Mine P lo b s' := by
  obtain ⟨i, u, f, k, pl, rfl, ht⟩ := h
  exact hm.of rfl (fun _ h => h) rfl ht

theorem Beside.moved {s : DocSt} (i : Nat) : Beside P lo s { s with next := i } := ⟨i, s.uid, s.footnoteMacros, s.linkMacros, s.places, rfl, fun h => h⟩

/-- Inline nodes in a node of the lines `l` to `sl`. -/
theorem TopsAt.inside {sl : Nat} {ns : List Node} {c : Context} (h : TopsAt P.exact P.src sl ns) (hlast : sl ≤ P.last) (h1 : P.exact = true → c.startLine ≤ sl ∧ sl ≤ c.endLine) :
    ∀ m ∈ ns, Located P.files P.exact P.src P.last c.startLine c.endLine m := by
  intro m hm
  by_cases hx : P.exact = true
  · exact h.located P.files hlast (fun _ => (h1 hx).1) (h1 hx).2 m hm
  · have hx' : P.exact = false := by simpa using hx
    rw [hx'] at h ⊢
    cases (h m hm).1 with
    | empty => exact .empty rfl rfl
    | node hd => exact .vague hd

theorem TopsAt.ordered {sl : Nat} {ns : List Node} (h : TopsAt P.exact P.src sl ns) : P.exact = true → InOrder ns := by
  intro hx
  rw [hx] at h
  exact h.order

theorem no_labels {b : Nat} : ∀ e ∈ ([] : Dict Node), Located P.files P.exact P.src P.last 0 b e.2 := fun _ h => (nomatch h)

/-- The lines of a paragraph. -/
theorem places_lines {J : DocSt → Prop} {fuel : Nat} : ∀ {ts : List Token} {a b : Nat} {s : DocSt}, (∀ s', Beside P lo s s' → J s') → Calmly P.exact s.env → Tracked P lo s → lo ≤ a → ToksIn P a ts b →
    Tri P lo J (paragraphLines fuel ts) s (fun ns s' => Rows P a ns b ∧ Beside P lo s s' ∧ s'.next = s.next) := by
  intro ts
  induction ts with
  | nil =>
    intro a b s hj henv hsf hlo h
    cases h with
    | nil h => exact .pure ⟨.nil h, .refl, rfl⟩
  | cons t ts ih =>
    intro a b s hj henv hsf hlo h
    cases h with
    | cons h hl hn ht =>
      unfold paragraphLines
      refine Ends.bind (Q := fun ns s' => TopsAt P.exact P.src t.ctx.startLine ns ∧ Beside P lo s s' ∧ s'.next = s.next)
        (Tri.docText (P := P) (hj _ .refl) henv hsf (Nat.le_trans hlo h.from_) hl hn h.source fun ns u f k pl h h' => ⟨h, ⟨_, u, f, k, pl, rfl, fun _ => h'⟩, rfl⟩) ?_
      rintro ns s1 ⟨htop, hs, hnx⟩
      have he : Calmly P.exact s1.env ∧ Tracked P lo s1 := by obtain ⟨i, u, f, k, pl, rfl, h'⟩ := hs; exact ⟨henv, h' hsf⟩
      refine Ends.bind (ih (fun s' h' => hj s' (hs.trans h')) he.1 he.2 (Nat.le_trans hlo h.from_) ht) ?_
      rintro rest s2 ⟨hr, hs2, hnx2⟩
      refine .pure ⟨.cons h.from_ ?_ hr, hs.trans hs2, by rw [hnx2, hnx]⟩
      refine Row.new (by intro uri e; cases e) (.of_tok h) hl htop.ordered (htop.inside hl fun _ => ⟨Nat.le_refl _, ?_⟩) (no_labels (b := 0)) (Nat.zero_le _)
      rw [h.ends]; exact Nat.le_refl _

theorem isOrdered_mauless {t : Token} {e : Err} (h : isOrdered t = .error e) : e.isMau = false := by
  unfold isOrdered at h
  split at h
  · cases h; rfl
  · cases h

theorem pyInt_mauless {v : Str} {e : Err} (h : pyInt v = .error e) : e.isMau = false := by
  unfold pyInt at h
  split at h
  · cases h; rfl
  · dsimp only at h
    split at h
    · cases h; rfl
    · cases h

theorem listStart_mauless {o : Option Str} {i : Int} {n : Nat} {e : Err} (h : listStart o i n = .error e) : e.isMau = false := by
  unfold listStart at h
  split at h
  · cases h
  · split at h
    · cases h
    · split at h
      · rename_i x hx; cases h; exact pyInt_mauless hx
      · cases h

/-- The token at the end has no value. -/
theorem peek_eof (hE : EndsWithEof toks) {i : Nat} {t : Token} (h : TM.peek ⟨toks, i⟩ = .ok t) (ht : t.type = .EOF) : t.value = [] := by
  obtain ⟨init, e, rfl, h1, h2, h3⟩ := hE
  have key : t ∈ init ++ [e] := by
    unfold TM.peek at h
    simp only [List.getLast?_concat] at h
    split at h
    · rename_i u hu
      have := chk_ok h
      subst this
      exact List.mem_of_getElem? hu
    · have := chk_ok h
      subst this
      simp
  rcases List.mem_append.1 key with hk | hk
  · exact absurd ht (h3 t hk)
  · rw [List.mem_singleton] at hk
    subst hk
    exact h2

variable (hE : EndsWithEof toks)
include hE

theorem places_collect {n : Nat} : ∀ {a : Nat} {s : DocSt}, Mine P lo b s → Feed P.src P.last a (toks.drop s.next) →
    Tri P lo (Mine P lo b) (collectLines toks n) s (fun ts s' => ∃ c, ToksIn P a ts c ∧ Feed P.src P.last c (toks.drop s'.next) ∧ Beside P lo s s') := by
  induction n with
  | zero => intro a s hm hF; exact .raise (.other rfl) (by simp)
  | succ n ih =>
    intro a s hm hF
    unfold collectLines
    refine Ends.bind (Q := fun t s' => s' = s) (Ends.peek hE hm .token fun t _ _ => rfl) ?_
    rintro t s1 rfl
    refine Ends.ite (fun _ => ?_) (fun _ => .pure ⟨a, .nil (Nat.le_refl _), hF, .refl⟩)
    refine Ends.bind (Q := fun t s' => s' = { s1 with next := s1.next + 1 } ∧ TokOn P.src a t ∧ t.ctx.startLine ≤ P.last ∧ '\n' ∉ t.value ∧ Feed P.src P.last t.ctx.startLine (toks.drop (s1.next + 1)))
      (Tri.tok hE (by simp) (by simp) hm hF fun t _ _ h1 h2 h3 h4 => ⟨rfl, h1, h2, h3, h4⟩) ?_
    rintro u s2 ⟨rfl, h1, h2, h3, h4⟩
    refine Ends.bind (ih (hm.of rfl (fun _ h => h) rfl) h4) ?_
    rintro rest s3 ⟨c, h5, h6, h7⟩
    exact .pure ⟨c, .cons h1 h2 h3 h5, h6, Beside.trans (.moved _) h7⟩

theorem places_paragraph {fuel : Nat} {s : DocSt} (hm : Mine P lo b s) (hF : Feed P.src P.last b (toks.drop s.next)) :
    Tri P lo (Mine P lo b) (paragraphProc fuel toks) s (fun _ s' => Goes P lo toks s') := by
  unfold paragraphProc
  refine Ends.bind (places_collect hE hm hF) ?_
  rintro ts s1 ⟨c, h1, h2, h3⟩
  have henv : Calmly P.exact s1.env := (h3.mine hm).env
  refine Ends.bind (places_lines (J := Mine P lo b) (fun s' h => (h3.trans h).mine hm) henv (h3.mine hm).safe hm.le h1) ?_
  rintro ns s2 ⟨h4, h5, h6⟩
  have h7 := h3.trans h5
  rw [← h6] at h2
  clear h3 h5 h6
  obtain ⟨i, u, f, k, pl, rfl, h7⟩ := h7
  refine Ends.bind (Q := fun _ s' => s' = { s with next := i, uid := u, footnoteMacros := f, linkMacros := k, places := pl, argsBuf := none }) (Tri.popArgs fun _ => rfl) ?_
  rintro args s3 rfl
  have hm' : Mine P lo b { s with next := i, uid := u, footnoteMacros := f, linkMacros := k, places := pl, argsBuf := none } := hm.of rfl (fun _ h => h) rfl h7
  refine Ends.bind (Q := fun x s' => spanOf ns = .ok x ∧ s' = { s with next := i, uid := u, footnoteMacros := f, linkMacros := k, places := pl, argsBuf := none })
    (.lift hm' (fun e he => .other (spanOf_mauless he)) fun _ h => ⟨h, rfl⟩) ?_
  rintro x s3 ⟨hsp, rfl⟩
  obtain ⟨l, k1, k2, k3, k4, k5⟩ := h4.span hsp
  refine Tri.finish (l := l) hm' (fun labels hl => ?_) k1 k2 h2
  exact Row.new (by intro uri e; cases e) k4 k3 (fun hx => k5.order hx) (k5.located (fun hx => Nat.le_of_eq (k4.same hx)) (Nat.le_refl _)) hl k1

/-! ## Lists -/

theorem places_item {fuel : Nat} {h : Token} {a : Nat} {s : DocSt} (hm : Mine P lo b s) (hlo : lo ≤ a) (h1 : TokOn P.src a h) (h2 : h.ctx.startLine ≤ P.last)
    (hF : Feed P.src P.last h.ctx.startLine (toks.drop s.next)) :
    Tri P lo (Mine P lo b) (listItem fuel toks h) s (fun n s' => Row P h.ctx.startLine n ∧ Feed P.src P.last h.ctx.startLine (toks.drop s'.next) ∧ Beside P lo s s') := by
  unfold listItem
  refine Ends.bind (Q := fun t s' => s' = { s with next := s.next + 1 } ∧ TokOn P.src h.ctx.startLine t ∧ t.ctx.startLine ≤ P.last ∧ '\n' ∉ t.value ∧ Feed P.src P.last t.ctx.startLine (toks.drop (s.next + 1)))
    (Tri.tok hE (by simp) (by simp) hm hF fun t _ _ k1 k2 k3 k4 => ⟨rfl, k1, k2, k3, k4⟩) ?_
  rintro t s1 ⟨rfl, k1, k2, k3, k4⟩
  refine Ends.bind (Q := fun ns s' => TopsAt P.exact P.src t.ctx.startLine ns ∧ ∃ u f k pl, (P.exact = true → Safe P lo pl f k s.groupNodes s.controlBuf) ∧ s' = { s with next := s.next + 1, uid := u, footnoteMacros := f, linkMacros := k, places := pl })
    (Tri.docText (P := P) (hm.of rfl (fun _ h => h) rfl) hm.env hm.safe (Nat.le_trans hlo (Nat.le_trans h1.from_ k1.from_)) k2 k3 k1.source
      fun ns u f k pl h hsf => ⟨h, u, f, k, pl, hsf, rfl⟩) ?_
  rintro ns s1 ⟨ht, u, f, k, pl, hsf, rfl⟩
  cases hz : ns.getLast? with
  | none => exact .raise (.other rfl) (by simp)
  | some z =>
    have hzt : P.exact = true → t.ctx.startLine ≤ z.ctx.startLine ∧ t.ctx.startLine ≤ z.ctx.endLine := by
      intro hx
      obtain ⟨_, e1, e2⟩ := (ht z (List.mem_of_getLast? hz)).2 hx
      omega
    have hctx : CtxAt P h.ctx.startLine (h.ctx.merge z.ctx) := (CtxAt.of_tok h1).merge fun hx => Nat.le_trans k1.from_ (hzt hx).1
    refine .pure ⟨?_, k4.mono k1.from_, ⟨_, _, _, _, _, rfl, fun _ => hsf⟩⟩
    refine Row.new (by intro uri e; cases e) hctx h2 ht.ordered (ht.inside k2 fun hx => ⟨?_, ?_⟩) (no_labels (b := 0)) (Nat.zero_le _)
    · rw [hctx.same hx]; exact k1.from_
    · have := (hzt hx).2; simp only [Context.merge]; omega

theorem places_list_nodes {fuel : Nat} (n : Nat) :
    (∀ {a : Nat} {s : DocSt}, Mine P lo b s → lo ≤ a → Feed P.src P.last a (toks.drop s.next) →
      Tri P lo (Mine P lo b) (listNodes fuel toks n) s (fun ns s' => ∃ l c, a ≤ l ∧ l ≤ c ∧ l ≤ P.last ∧ (∀ t, toks[s.next]? = some t → t.ctx.startLine = l ∧ TokOn P.src a t) ∧
        Rows P l ns c ∧ Feed P.src P.last c (toks.drop s'.next) ∧ Beside P lo s s')) ∧
    ∀ {a level : Nat} {s : DocSt}, Mine P lo b s → lo ≤ a → Feed P.src P.last a (toks.drop s.next) →
      Tri P lo (Mine P lo b) (listLoop fuel toks n level) s (fun ns s' => ∃ c, Rows P a ns c ∧ Feed P.src P.last c (toks.drop s'.next) ∧ Beside P lo s s') := by
  induction n with
  | zero => exact ⟨fun _ _ _ => by unfold listNodes; exact .raise (.other rfl) (by simp), fun _ _ _ => by unfold listLoop; exact .raise (.other rfl) (by simp)⟩
  | succ n ih =>
    obtain ⟨ih1, ih2⟩ := ih
    constructor
    · intro a s hm hlo hF
      unfold listNodes
      refine Ends.bind (Q := fun t s' => s' = { s with next := s.next + 1 } ∧ toks[s.next]? = some t ∧ TokOn P.src a t ∧ t.ctx.startLine ≤ P.last ∧
          Feed P.src P.last t.ctx.startLine (toks.drop (s.next + 1)))
        (Tri.tok hE (by simp) (by simp) hm hF fun t _ h0 h1 h2 h3 h4 => ⟨rfl, h0, h1, h2, h4⟩) ?_
      rintro h s1 ⟨rfl, h0, h1, h2, h4⟩
      refine Ends.bind (places_item hE (s := { s with next := s.next + 1 }) (hm.of rfl (fun _ h => h) rfl) hlo h1 h2 h4) ?_
      rintro item s2 ⟨hi, hf, hb⟩
      refine Ends.bind (ih2 (hb.mine (hm.of rfl (fun _ h => h) rfl)) (Nat.le_trans hlo h1.from_) hf) ?_
      rintro rest s3 ⟨c, hr, hf', hb'⟩
      refine .pure ⟨h.ctx.startLine, c, h1.from_, hr.le, h2, ?_, .cons (Nat.le_refl _) hi hr, hf', Beside.trans (Beside.trans (.moved _) hb) hb'⟩
      intro t ht
      rw [h0] at ht
      injection ht with ht
      subst ht
      exact ⟨rfl, h1⟩
    · intro a level s hm hlo hF
      unfold listLoop
      refine Ends.bind (Q := fun t s' => s' = s ∧ (t.type ≠ .EOF → toks[s.next]? = some t) ∧ (t.type = .EOF → t.value = []))
        (Ends.peek hE hm .token fun t hp h => ⟨rfl, fun hx => (h hx).1, fun hx => peek_eof hE hp hx⟩) ?_
      rintro t s1 ⟨rfl, ht, hte⟩
      refine Ends.ite (fun _ => .pure ⟨a, .nil (Nat.le_refl _), hF, .refl⟩) (fun hnot => ?_)
      refine Ends.ite (fun _ => .raise ?_ (by simp)) (fun hlist => ?_)
      · have hne : t.type ≠ .EOF := fun hx => hnot ⟨.inl hx, hte hx⟩
        obtain ⟨h1, h2⟩ := hF.any (ht hne) hne
        exact .at (.of_tok h1) (Nat.le_trans hlo h1.from_) h2
      have hty : t.type = .LIST := by simpa using hlist
      have ht := ht (by rw [hty]; simp)
      obtain ⟨h1, h2, h3, h4⟩ := hF.next ht (by rw [hty]; simp) (by rw [hty]; simp)
      refine Ends.ite (fun _ => ?_) (fun _ => Ends.ite (fun _ => ?_) (fun _ => .pure ⟨a, .nil (Nat.le_refl _), hF, .refl⟩))
      · refine Ends.bind (Q := fun u s' => u = t ∧ s' = { s1 with next := s1.next + 1 }) ?_ ?_
        · refine Ends.next hE hm (fun u hu => ?_) (fun u hu hg _ => ?_)
          · intro he
            obtain ⟨init, e, rfl, _⟩ := hE
            unfold TM.peek at hu
            simp only [ht] at hu
            have := chk_ok hu
            subst this
            rw [hty] at he; cases he
          · rw [ht] at hg; injection hg with hg; exact ⟨hg.symm, rfl⟩
        rintro u s2 ⟨rfl, rfl⟩
        refine Ends.bind (places_item hE (s := { s1 with next := s1.next + 1 }) (hm.of rfl (fun _ h => h) rfl) hlo h1 h2 h4) ?_
        rintro item s2 ⟨hi, hf, hb⟩
        refine Ends.bind (ih2 (hb.mine (hm.of rfl (fun _ h => h) rfl)) (Nat.le_trans hlo h1.from_) hf) ?_
        rintro rest s3 ⟨c, hr, hf', hb'⟩
        exact .pure ⟨c, .cons h1.from_ hi hr, hf', Beside.trans (Beside.trans (.moved _) hb) hb'⟩
      · refine Ends.bind (Q := fun _ s' => s' = s1) (.lift hm (fun e he => .other (isOrdered_mauless he)) fun _ _ => rfl) ?_
        rintro ordered s2 rfl
        refine Ends.bind (ih1 hm hlo hF) ?_
        rintro subs s3 ⟨l, c, k1, k2, k3, k4, k5, k6, k7⟩
        obtain ⟨k8, k9⟩ := k4 t ht
        subst k8
        cases hz : subs.getLast? with
        | none => exact .raise (.other rfl) (by simp)
        | some z =>
          refine Ends.bind (ih2 (k7.mine hm) (Nat.le_trans hlo (Nat.le_trans k1 k2)) k6) ?_
          rintro rest s4 ⟨c', hr, hf', hb'⟩
          refine .pure ⟨c', .cons k1 ?_ (hr.left k2), hf', k7.trans hb'⟩
          have hzm := List.mem_of_getLast? hz
          have hctx : CtxAt P t.ctx.startLine (t.ctx.merge z.ctx) := (CtxAt.of_tok k9).merge fun hx => k5.starts hx z hzm
          refine Row.new (by intro uri e; cases e) hctx k3 (fun hx => k5.order hx) ?_ (no_labels (b := 0)) (Nat.zero_le _)
          exact (k5.fit hz).located (fun hx => Nat.le_of_eq (hctx.same hx)) (by simp only [Context.merge]; omega)

theorem places_list {fuel : Nat} {s : DocSt} (hm : Mine P lo b s) (hF : Feed P.src P.last b (toks.drop s.next)) :
    Tri P lo (Mine P lo b) (listProc fuel toks) s (fun _ s' => Goes P lo toks s') := by
  unfold listProc
  refine Ends.bind (Q := fun _ s' => s' = s) (Ends.peek hE hm .token fun t _ _ => rfl) ?_
  rintro h s1 rfl
  refine Ends.bind (Q := fun _ s' => s' = s1) (.lift hm (fun e he => .other (isOrdered_mauless he)) fun _ _ => rfl) ?_
  rintro ordered s2 rfl
  refine Ends.bind ((places_list_nodes hE _).1 hm hm.le hF) ?_
  rintro ns s3 ⟨l, c, k1, k2, k3, _, k5, k6, k7⟩
  obtain ⟨i, u, f, k, pl, rfl, k7⟩ := k7
  refine Ends.bind (Q := fun _ s' => s' = { s2 with next := i, uid := u, footnoteMacros := f, linkMacros := k, places := pl, argsBuf := none }) (Tri.popArgs fun _ => rfl) ?_
  rintro args s3 rfl
  refine Ends.bind (Q := fun _ s' => s' = { s2 with next := i, uid := u, footnoteMacros := f, linkMacros := k, places := pl, argsBuf := none }) (.get rfl) ?_
  rintro s4 s3 rfl
  refine Ends.bind (Q := fun _ s' => s' = { s2 with next := i, uid := u, footnoteMacros := f, linkMacros := k, places := pl, argsBuf := none })
    (.lift (hm.of rfl (fun _ h => h) rfl k7) (fun e he => .other (listStart_mauless he)) fun _ _ => rfl) ?_
  rintro ⟨start, latest⟩ s3 rfl
  refine Ends.bind (Q := fun _ s' => s' = { s2 with next := i, uid := u, footnoteMacros := f, linkMacros := k, places := pl, argsBuf := none, latest := latest }) (.modify rfl) ?_
  rintro _ s3 rfl
  have hm' : Mine P lo b { s2 with next := i, uid := u, footnoteMacros := f, linkMacros := k, places := pl, argsBuf := none, latest := latest } := hm.of rfl (fun _ h => h) rfl k7
  refine Ends.bind (Q := fun x s' => spanOf ns = .ok x ∧ s' = { s2 with next := i, uid := u, footnoteMacros := f, linkMacros := k, places := pl, argsBuf := none, latest := latest })
    (.lift hm' (fun e he => .other (spanOf_mauless he)) fun _ h => ⟨h, rfl⟩) ?_
  rintro x s3 ⟨hsp, rfl⟩
  obtain ⟨l', j1, j2, j3, j4, j5⟩ := k5.span hsp
  refine Tri.finish (l := l') hm' (fun labels hl => ?_) (Nat.le_trans k1 j1) j2 k6
  exact Row.new (by intro uri e; cases e) j4 j3 (fun hx => j5.order hx) (j5.located (fun hx => Nat.le_of_eq (j4.same hx)) (Nat.le_refl _)) hl (Nat.le_trans k1 j1)

end

end Mau
