import Verif.Lemmas.PlacesLists

set_option linter.unusedSimpArgs false
set_option linter.unusedVariables false

/-!
# Where blocks, included files and the nodes of whole documents come from
-/

namespace Mau
open Spec

/-- In this mode no line may define the variable with the empty name. -/
def Named (exact : Bool) (l : Str) : Prop := exact = true → ¬ LineDefines l []

/-- The scope of a request. -/
abbrev NestedReq.scope (files : Str → Except Bool Str) (alien : Err → Prop) (exact : Bool) (req : NestedReq) : Scope :=
  ⟨files, exact, req.source, req.startLine + lastLine req.text, alien⟩

/-- The parser of a nested text puts nodes where they come from, and its errors point there. -/
def NestedAt (files : Str → Except Bool Str) (alien : Err → Prop) (nested : NestedParser) : Prop :=
  ∀ exact req, Fresh req → Calmly exact req.env → (∀ l ∈ splitChar '\n' req.text, Named exact l) →
    (∀ s', nested req = .ok s' → (∃ c, Rows (req.scope files alien exact) req.startLine s'.nodes c) ∧ Calmly exact s'.env ∧ Tracked (req.scope files alien exact) req.startLine s') ∧
    ∀ e, nested req = .error e → Blame (req.scope files alien exact) req.startLine e

/-- The identities in use are smaller than the next one. -/
def Young (s : DocSt) : Prop := 0 < s.uid ∧ ∀ n, Occ n s.objs → n.data.id < s.uid

theorem definition_defines {env : Env} {name value : Str} {ctx : Context} {d : Str × Str} (v : Str) (h : definition env name value ctx = .ok d) :
    LineDefines (':' :: (name ++ ':' :: v)) d.1 := by
  refine ⟨v, ?_⟩
  unfold definition at h
  split at h
  · rename_i hp
    injection h with h
    subst h
    cases name with
    | nil => cases hp
    | cons x r =>
      simp only [startsWith, List.isPrefixOf, Bool.and_true, beq_iff_eq] at hp
      subst hp
      exact .inr (.inl rfl)
  · split at h
    · rename_i hp
      injection h with h
      subst h
      cases name with
      | nil => cases hp
      | cons x r =>
        simp only [startsWith, List.isPrefixOf, Bool.and_true, beq_iff_eq] at hp
        subst hp
        exact .inr (.inr rfl)
    · split at h
      · cases h
      · split at h
        · cases h
        · split at h
          · cases h
          · injection h with h
            subst h
            exact .inl rfl

theorem definition_error {env : Env} {name value : Str} {ctx : Context} {e : Err} (h : definition env name value ctx = .error e) :
    (∃ m, e = .parser m (some ctx)) ∨ preprocess env value ctx.startLine ctx.startColumn ctx.source = .error e := by
  unfold definition at h
  split at h
  · cases h
  · split at h
    · cases h
    · split at h
      · cases h; exact .inl ⟨_, rfl⟩
      · split at h
        · rename_i hp; cases h; exact .inr hp
        · split at h
          · cases h; exact .inl ⟨_, rfl⟩
          · cases h

theorem sourceLine_mauless {p : SourceParams} {l : Str} {e : Err} (h : sourceLine p l = .error e) : e.isMau = false := by
  unfold sourceLine at h
  split at h
  · cases h
  · split at h
    · cases h; rfl
    · dsimp only at h
      split at h
      · cases h
      · split at h
        · cases h
        · split at h
          · split at h
            · rename_i x hx
              cases h
              unfold styleAlias at hx
              split at hx
              · cases hx
              · cases hx
              · cases hx; rfl
            · cases h
          · split at h <;> cases h

theorem sourceLines_mauless {p : SourceParams} {c : Context} : ∀ {ls : List Str} {i : Nat} {e : Err}, sourceLines p c i ls = .error e → e.isMau = false := by
  intro ls
  induction ls with
  | nil => intro i e h; cases h
  | cons l ls ih =>
    intro i e h
    unfold sourceLines at h
    cases h1 : sourceLine p l with
    | error x => rw [h1] at h; cases h; exact sourceLine_mauless h1
    | ok r =>
      rw [h1] at h
      cases h2 : sourceLines p c (i + 1) ls with
      | error x => simp only [h2, Bind.bind, Except.bind] at h; cases h; exact ih h2
      | ok r => simp only [h2, Bind.bind, Except.bind] at h; cases h

theorem sourceEngine_mauless {env : Env} {t : Token} {args : NodeArgs} {e : Err} (h : sourceEngine env t args = .error e) : e.isMau = false := by
  unfold sourceEngine at h
  dsimp only at h
  have key : ∀ (al : List (Str × Nested)) (a : Str) (p q : Str) (b : Option Str) (r : NodeArgs),
      (do let ls ← sourceLines ⟨a, p, q, al⟩ t.ctx 0 (splitChar '\n' t.value); return (b, ls, r) : Except Err (Option Str × List Node × NodeArgs)) = .error e → e.isMau = false := by
    intro al a p q b r h
    cases h2 : sourceLines ⟨a, p, q, al⟩ t.ctx 0 (splitChar '\n' t.value) with
    | error x => simp only [h2, Bind.bind, Except.bind] at h; cases h; exact sourceLines_mauless h2
    | ok r => simp only [h2, Bind.bind, Except.bind] at h; cases h
  split at h
  · exact key _ _ _ _ _ _ h
  · rename_i x hx
    cases h3 : Env.asdict x with
    | error y => simp only [h3, Bind.bind, Except.bind] at h; cases h; exact asdict_mauless _ _ h3
    | ok al => simp only [h3, Bind.bind, Except.bind] at h; exact key _ _ _ _ _ _ h
  · cases h; rfl

theorem definition_oneLine {exact : Bool} {env : Env} {name value : Str} {ctx : Context} {d : Str × Str} (he : Calmly exact env) (hv : '\n' ∉ value)
    (h : definition env name value ctx = .ok d) : exact = true → '\n' ∉ d.2 := by
  intro hx
  unfold definition at h
  split at h
  · injection h with h; subst h; simp
  · split at h
    · injection h with h; subst h; simp
    · split at h
      · cases h
      · split at h
        · cases h
        · rename_i p hp
          split at h
          · cases h
          · injection h with h
            subst h
            intro hc
            rcases (preprocess_bounds _ _ _ _ _).2 p hp _ hc with h | h
            · exact hv h
            · obtain ⟨⟨k, v⟩, h1, h2⟩ := h
              exact (he hx).values k v h1 h2

theorem undisturbed_set {env : Env} (h : Undisturbed env) {k v : Str} (hk : k ≠ []) (hv : '\n' ∉ v) : Undisturbed (Env.setitem env k (.leaf (.str v))) := by
  have e : Env.setitem env k (.leaf (.str v)) = Dict.set env k (.str v) := rfl
  rw [e]
  refine ⟨fun j w hm => ?_, ?_⟩
  · rcases Dict.mem_set hm with hm | hm
    · injection hm with _ hm
      subst hm
      exact hv
    · exact h.values j w hm
  · rw [Dict.get?_set, if_neg (by simpa using Ne.symm hk)]
    exact h.names

/-- Lines one below the other. -/
theorem rows_mapIdx {P : Scope} {hi : Nat} {f : Nat → Str → Node} {ls : List Str} {st : Nat} (hf : ∀ i l, i < ls.length → Row P (st + i) (f i l)) (h1 : st + ls.length ≤ hi + 1)
    (h2 : st ≤ hi) : Rows P st (ls.mapIdx f) hi := by
  induction ls generalizing st f with
  | nil => exact .nil h2
  | cons l ls ih =>
    rw [List.mapIdx_cons]
    simp only [List.length_cons] at h1 hf
    refine .cons (Nat.le_refl _) (hf 0 l (by omega)) ?_
    cases ls with
    | nil => exact .nil h2
    | cons m ls =>
      simp only [List.length_cons] at h1 hf ih
      refine (ih (st := st + 1) (f := fun i => f (i + 1)) (fun i l hi => ?_) (by omega) (by omega)).left (Nat.le_succ _)
      have := hf (i + 1) l (by omega)
      rwa [show st + 1 + i = st + (i + 1) by omega]

section
variable {P : Scope} {lo b : Nat} {toks : List Token}

theorem blockLine_ctx {c : Context} (hs : c.source = P.src) (i : Nat) (l : Str) : CtxAt P (c.startLine + i) (blockLineCtx c i l) :=
  ⟨hs, Nat.le_refl _, fun _ => rfl, Nat.le_refl _⟩

theorem rows_raw {t : Token} {hi : Nat} (hs : t.ctx.source = P.src) (h1 : t.ctx.startLine + lastLine t.value ≤ hi) (h2 : hi ≤ P.last) : Rows P t.ctx.startLine (rawLines t) hi := by
  have hlen : 0 < (splitChar '\n' t.value).length := List.length_pos_iff.2 (splitChar_ne_nil _ _)
  unfold lastLine at h1
  refine rows_mapIdx (fun i l hi => ?_) (by omega) (by omega)
  exact Row.new (by intro uri e; cases e) (blockLine_ctx hs i l) (by omega) (fun _ => .nil) (fun _ h => (nomatch h)) (no_labels (b := 0)) (Nat.zero_le _)

theorem row_source {c : Context} (hs : c.source = P.src) {i : Nat} {l : Str} {r : SrcLine} (hl : c.startLine + i ≤ P.last) : Row P (c.startLine + i) (sourceLineNode c i l r) := by
  unfold sourceLineNode
  dsimp only
  split
  · exact Row.new (by intro uri e; cases e) (blockLine_ctx hs i l) hl (fun _ => .nil) (fun _ h => (nomatch h)) (no_labels (b := 0)) (Nat.zero_le _)
  · rename_i m hm
    have hmark : Row P (c.startLine + i) (Node.new (.sourceMarker m) { blockLineCtx c i l with startColumn := (blockLineCtx c i l).startColumn + r.content.length }) :=
      Row.new (by intro uri e; cases e) ⟨hs, Nat.le_refl _, fun _ => rfl, Nat.le_refl _⟩ hl (fun _ => .nil) (fun _ h => (nomatch h)) (no_labels (b := 0)) (Nat.zero_le _)
    refine Row.new (by intro uri e; cases e) ⟨hs, Nat.le_refl _, fun _ => rfl, Nat.le_refl _⟩ hl (fun _ => ?_) (fun x hx => ?_) (no_labels (b := 0)) (Nat.zero_le _)
    · exact List.pairwise_singleton _ _
    · rw [List.mem_singleton] at hx
      subst hx
      exact hmark.loc

theorem rows_source {p : SourceParams} {c : Context} (hs : c.source = P.src) {hi : Nat} (h2 : hi ≤ P.last) : ∀ {ls : List Str} {i : Nat} {ns : List Node},
    sourceLines p c i ls = .ok ns → c.startLine + i + ls.length ≤ hi + 1 → c.startLine + i ≤ hi → Rows P (c.startLine + i) ns hi := by
  intro ls
  induction ls with
  | nil => intro i ns h _ h3; cases h; exact .nil h3
  | cons l ls ih =>
    intro i ns h h1 h3
    unfold sourceLines at h
    obtain ⟨r, hr, h⟩ := bind_ok_except h
    obtain ⟨rest, hrest, h⟩ := bind_ok_except h
    cases h
    simp only [List.length_cons] at h1
    refine .cons (Nat.le_refl _) (row_source hs (by omega)) ?_
    cases ls with
    | nil => cases hrest; exact .nil h3
    | cons m ls =>
      simp only [List.length_cons] at h1 ih
      exact (ih hrest (by omega) (by omega)).left (by omega)

/-- The same nodes, labels, variables and position. -/
structure Level (P : Scope) (lo : Nat) (s s' : DocSt) : Prop where
  nodes : s'.nodes = s.nodes
  labels : s'.labelBuf = s.labelBuf
  env : s'.env = s.env
  next : s'.next = s.next
  safe : Tracked P lo s → Tracked P lo s'

theorem Level.refl {s : DocSt} : Level P lo s s := ⟨rfl, rfl, rfl, rfl, fun h => h⟩

theorem Level.mine {s s' : DocSt} (h : Level P lo s s') (hm : Mine P lo b s) : Mine P lo b s' := hm.of h.nodes (by rw [h.labels]; exact fun _ h => h) h.env h.safe

/-- What is known of a block that is read: its delimiters `o` and `c` and its content. -/
structure BlockAt (P : Scope) (b : Nat) (o c : Token) (content : Option Token) : Prop where
  opens : TokOn P.src b o
  closes : TokOn P.src o.ctx.startLine c
  last : c.ctx.startLine ≤ P.last
  text : ∀ t, content = some t → t.ctx.source = P.src ∧ o.ctx.startLine ≤ t.ctx.startLine ∧ t.ctx.startLine + lastLine t.value ≤ c.ctx.startLine ∧
    ∀ l ∈ splitChar '\n' t.value, Named P.exact l

theorem places_content {nested : NestedParser} (hN : NestedAt P.files P.alien nested) {o c t : Token} (hB : BlockAt P b o c (some t)) {args : NodeArgs} {s : DocSt} (hm : Mine P lo b s) (hy : Young s) :
    Tri P lo (Mine P lo b) (blockContent nested t args) s (fun ns s' => Mine P lo b s' ∧ s'.next = s.next ∧ Rows P o.ctx.startLine ns c.ctx.startLine) := by
  obtain ⟨h1, h2, h3, h4⟩ := hB.text t rfl
  have hlo : lo ≤ t.ctx.startLine := Nat.le_trans hm.le (Nat.le_trans hB.opens.from_ h2)
  have hhi : t.ctx.startLine + lastLine t.value ≤ P.last := Nat.le_trans h3 hB.last
  obtain ⟨hok, herr⟩ := hN P.exact ⟨t.value, s.env, t.ctx.startLine, t.ctx.startColumn, t.ctx.source, [], s.uid, s.objs⟩ hy hm.env h4
  refine .const ?_
  unfold blockContent
  split
  · exact hm
  · rename_i e _ hi
    intro hx
    cases herr e hi hx with
    | here h =>
      cases h with
      | lexer k1 k2 =>
        simp only [h1]
        exact .here (.lexer (Nat.le_trans hlo k1) (Nat.le_trans k2 hhi))
      | parser hs k1 k2 => exact .here (.parser (hs.trans h1) (Nat.le_trans hlo k1) (Nat.le_trans k2 hhi))
    | alien h => exact .alien h
    | footnote name => exact .footnote name
    | other h => exact .other h
  · rename_i inner hi
    obtain ⟨⟨x, hr⟩, he, hsf⟩ := hok inner hi
    have hr' : Rows P o.ctx.startLine inner.nodes c.ctx.startLine := by
      have := (hr.clip (by simp)).wider (last := P.last) (by simp only; have := hB.last; omega)
      simp only [h1] at this
      exact (this.left h2).right h3
    dsimp only
    split
    · refine ⟨⟨hm.rows, hm.labels, he, fun hx => ?_⟩, rfl, hr'⟩
      have ha := hm.safe hx
      have hb := hsf hx
      refine ⟨fun p hp => ?_, fun q hq => ?_, fun q hq => ?_, fun q hq => ?_, ha.control⟩
      · rcases List.mem_append.1 hp with hp | hp
        · exact ha.places p hp
        · obtain ⟨k1, k2, k3⟩ := hb.places p hp
          exact ⟨k1.trans h1, Nat.le_trans hlo k2, Nat.le_trans k3 hhi⟩
      · rcases List.mem_append.1 hq with hq | hq
        · obtain ⟨c, hc⟩ := ha.notes q hq; exact ⟨c, List.mem_append_left _ hc⟩
        · obtain ⟨c, hc⟩ := hb.notes q hq; exact ⟨c, List.mem_append_right _ hc⟩
      · obtain ⟨c, hc⟩ := ha.links q hq; exact ⟨c, List.mem_append_left _ hc⟩
      · obtain ⟨c, hc⟩ := ha.groups q hq; exact ⟨c, List.mem_append_left _ hc⟩
    · exact ⟨⟨hm.rows, hm.labels, he, hm.safe⟩, rfl, hr'⟩

theorem places_engine {nested : NestedParser} (hN : NestedAt P.files P.alien nested) {o c : Token} {content : Option Token} (hB : BlockAt P b o c content) {engine : Str} {classes : List Str}
    {args : NodeArgs} {ctx : Context} {s : DocSt} (hm : Mine P lo b s) (hy : Young s) (hctx : CtxAt P o.ctx.startLine ctx) :
    Tri P lo (Mine P lo b) (blockEngine nested engine classes content args ctx) s
      (fun r s' => Mine P lo b s' ∧ s'.next = s.next ∧ (∀ uri, r.1 ≠ .includeMau uri) ∧ Rows P o.ctx.startLine r.2.1 c.ctx.startLine) := by
  have hle := hB.closes.from_
  have hB' : BlockAt P b o c (content.filter (fun t => !t.value.isEmpty)) := by
    refine ⟨hB.opens, hB.closes, hB.last, fun t ht => hB.text t ?_⟩
    cases content with
    | none => cases ht
    | some x =>
      rw [Option.filter_some] at ht
      split at ht
      · exact ht
      · cases ht
  unfold blockEngine
  generalize content.filter (fun t => !t.value.isEmpty) = content' at hB'
  dsimp only
  refine Ends.ite (fun _ => ?_) (fun _ => Ends.ite (fun _ => ?_) (fun _ => Ends.ite (fun _ => ?_) (fun _ => .raise (.at hctx (Nat.le_trans hm.le hB.opens.from_) (Nat.le_trans hle hB.last)) (by simp))))
  · cases content' with
    | none => exact .pure ⟨hm, rfl, (fun _ e => by cases e), .nil hle⟩
    | some t =>
      refine Ends.bind (places_content hN hB' hm hy) ?_
      rintro ns s1 ⟨h1, h2, h3⟩
      exact .pure ⟨h1, h2, (fun _ e => by cases e), h3⟩
  · cases content' with
    | none => exact .pure ⟨hm, rfl, (fun _ e => by cases e), .nil hle⟩
    | some t =>
      obtain ⟨h1, h2, h3, h4⟩ := hB'.text t rfl
      exact .pure ⟨hm, rfl, (fun _ e => by cases e), (rows_raw h1 h3 hB.last).left h2⟩
  · cases content' with
    | none => exact .pure ⟨hm, rfl, (fun _ e => by cases e), .nil hle⟩
    | some t =>
      obtain ⟨h1, h2, h3, h4⟩ := hB'.text t rfl
      refine Ends.bind (Q := fun _ s' => s' = s) (.get rfl) ?_
      rintro s2 s1 rfl
      refine Ends.bind (Q := fun r s' => s' = s1 ∧ Rows P o.ctx.startLine r.2.1 c.ctx.startLine) (.lift hm (fun e he => .other (sourceEngine_mauless he)) fun r hr => ⟨rfl, ?_⟩) ?_
      · unfold sourceEngine at hr
        have key : ∃ p, sourceLines p t.ctx 0 (splitChar '\n' t.value) = .ok r.2.1 := by
          dsimp only at hr
          split at hr
          all_goals
            obtain ⟨al, hal, hr⟩ := bind_ok_except hr
            first
              | cases hal; done
              | (obtain ⟨ls, h5, hr⟩ := bind_ok_except hr
                 cases hr
                 exact ⟨_, h5⟩)
        obtain ⟨p, hp⟩ := key
        have hlen : 0 < (splitChar '\n' t.value).length := List.length_pos_iff.2 (splitChar_ne_nil _ _)
        unfold lastLine at h3
        exact (rows_source h1 hB.last hp (by omega) (by omega)).left h2
      · rintro ⟨lang, ls, args'⟩ s3 ⟨rfl, h5⟩
        exact .pure ⟨hm, rfl, (fun _ e => by cases e), h5⟩

theorem addBlock_at {groups : Dict (Dict Node)} {g p : Str} {n : Node} {e : Err} (h : addBlock groups g p n = .error e) : ∃ m, e = .parser m (some n.ctx) := by
  unfold addBlock at h
  dsimp only at h
  split at h
  · cases h; exact ⟨_, rfl⟩
  · cases h

/-- The position of the node of a footnote: none, or a line of the document. -/
def OwnAt (P : Scope) (l : Nat) (own : Context) : Prop := own = Context.empty ∨ own.source = P.src ∧ l ≤ own.startLine ∧ own.startLine ≤ P.last

theorem BlockAt.own {o c : Token} {content : Option Token} (hB : BlockAt P b o c content) (engine : Str) : OwnAt P o.ctx.startLine (blockOwn engine content) := by
  unfold blockOwn
  split
  · rename_i t
    obtain ⟨h1, h2, h3, -⟩ := hB.text t rfl
    have := hB.last
    split
    · exact .inr ⟨h1, h2, by omega⟩
    · exact .inl rfl
  · exact .inl rfl

theorem places_place {data : NodeData} {ns : List Node} {args : NodeArgs} {labels : Dict Node} {ctx own : Context} {s : DocSt} {l b' : Nat} (hm : Mine P lo b s) (hctx : CtxAt P l ctx) (hown : OwnAt P l own)
    (hr : ∀ a, Row P l (Node.new data ctx ns a labels)) (hb : b ≤ l) (hl : l ≤ b') (hF : Feed P.src P.last b' (toks.drop s.next)) :
    Tri P lo (Mine P lo b) (placeBlock data ns args labels ctx own) s (fun _ s' => Goes P lo toks s') := by
  have hgo : Goes P lo toks s := ⟨b', hm.right (by omega), hF⟩
  unfold placeBlock
  split
  · refine Ends.bind (Q := fun _ s' => s' = s) (.get rfl) ?_
    rintro s2 s1 rfl
    refine Ends.ite (fun _ => .raise (fun _ => ?_) (by simp)) (fun _ => .modify ?_)
    · rcases hown with rfl | ⟨h1, h2, h3⟩
      · exact .footnote _
      · exact .here (.parser h1 (Nat.le_trans (Nat.le_trans hm.le hb) h2) h3)
    · exact ⟨b', (hm.right (by omega)).of rfl (fun _ h => h) rfl, hF⟩
  · dsimp only
    split
    · refine Ends.bind (Q := fun _ s' => s' = s) (.get rfl) ?_
      rintro s2 s1 rfl
      refine Ends.bind (Q := fun _ s' => s' = s1) (.lift hm (fun e he => ?_) fun _ _ => rfl) ?_
      · obtain ⟨m, rfl⟩ := addBlock_at he
        exact .at hctx (Nat.le_trans hm.le hb) (hr {}).inside
      rintro gs s3 rfl
      exact .modify ⟨b', (hm.right (by omega)).of rfl (fun _ h => h) rfl, hF⟩
    · refine Tri.save hm ?_
      intro o nodes ho hns
      refine ⟨b', ⟨?_, fun e he => (hm.labels e he).mono (fun _ => Nat.le_refl _) (by omega), hm.env, fun hx => (hm.safe hx).pop ho⟩, hF⟩
      rcases hns with rfl | rfl
      · exact hm.rows.right (by omega)
      · exact (hm.rows.snoc hb (hr _)).right hl

variable (hE : EndsWithEof toks)
include hE

theorem places_blockText {s : DocSt} (hm : Mine P lo b s) :
    Tri P lo (Mine P lo b) (blockText toks) s (fun o s' => (o = none ∧ s' = s) ∨ ∃ t, o = some t ∧ t.type = .TEXT ∧ toks[s.next]? = some t ∧ s' = { s with next := s.next + 1 }) := by
  unfold blockText
  refine Ends.bind (Q := fun _ s' => s' = s) (Ends.peek hE hm .token fun t _ _ => rfl) ?_
  rintro t s1 rfl
  refine Ends.ite (fun _ => ?_) (fun _ => .pure (.inl ⟨rfl, rfl⟩))
  refine Ends.bind (Q := fun t s' => t.type = .TEXT ∧ toks[s1.next]? = some t ∧ s' = { s1 with next := s1.next + 1 }) (Ends.tok hE (by simp) hm fun t h1 h2 _ => ⟨h2, h1, rfl⟩) ?_
  rintro u s2 ⟨h1, h2, rfl⟩
  exact .pure (.inr ⟨u, rfl, h1, h2, rfl⟩)

theorem places_block (hT : TokFrom (Named P.exact) toks) {nested : NestedParser} (hN : NestedAt P.files P.alien nested) {s : DocSt} (hm : Mine P lo b s)
    (hF : Feed P.src P.last b (toks.drop s.next)) (hy : Young s) : Tri P lo (Mine P lo b) (blockProc nested toks) s (fun _ s' => Goes P lo toks s') := by
  unfold blockProc
  refine Ends.bind (Q := fun t s' => t.type = .BLOCK ∧ toks[s.next]? = some t ∧ s' = { s with next := s.next + 1 }) (Ends.tok hE (by simp) hm fun t h1 h2 _ => ⟨h2, h1, rfl⟩) ?_
  rintro o s1 ⟨ho, hog, rfl⟩
  refine Ends.bind (places_blockText hE (hm.of rfl (fun _ h => h) rfl)) ?_
  intro content s1 hcont
  refine Ends.bind (Q := fun c s' => BlockAt P b o c content ∧ ∃ i, s' = { s with next := i } ∧ Feed P.src P.last c.ctx.startLine (toks.drop i)) ?_ ?_
  · have hj : Mine P lo b s1 := by
      rcases hcont with ⟨_, rfl⟩ | ⟨t, _, _, _, rfl⟩ <;> exact hm.of rfl (fun _ h => h) rfl
    refine Ends.tok hE (by simp) hj fun c hcg hct _ => ?_
    have hd := drop_of_get hog
    rw [hd] at hF
    rcases hcont with ⟨rfl, rfl⟩ | ⟨t, rfl, htt, htg, rfl⟩
    · have hd2 := drop_of_get hcg
      dsimp only at hd2 hcg
      rw [hd2] at hF
      generalize hq : toks.drop (s.next + 1 + 1) = q at hF
      cases hF with
      | one h1 h2 => exact absurd ho h2
      | bare h1 h2 h3 h4 h5 h6 => exact ⟨⟨h3, h4, h5, by intro t e; cases e⟩, _, rfl, by rw [hq]; exact h6⟩
      | block h1 h2 h3 => rw [hct] at h3; cases h3
    · have hd1 := drop_of_get htg
      have hd2 := drop_of_get hcg
      dsimp only at hd2 hcg hd1 htg
      rw [hd1, hd2] at hF
      have hblock := (hT s.next).block o t _ (by rw [hd, hd1]) ho htt
      generalize hq : toks.drop (s.next + 1 + 1 + 1) = q at hF
      cases hF with
      | one h1 h2 => exact absurd ho h2
      | bare h1 h2 => rw [htt] at h2; cases h2
      | block h1 h2 h3 h4 h5 h6 h7 h8 h9 h10 =>
        refine ⟨⟨h4, h5, h6, ?_⟩, _, rfl, by rw [hq]; exact h10⟩
        intro t' e
        injection e with e
        subst e
        exact ⟨h7, h8, h9, hblock⟩
  rintro c s2 ⟨hB, i, rfl, hF'⟩
  refine Ends.bind (Q := fun _ s' => s' = { s with next := i, argsBuf := none }) (Tri.popArgs fun _ => rfl) ?_
  rintro args s3 rfl
  dsimp only
  have hctx : CtxAt P o.ctx.startLine (o.ctx.merge c.ctx) := (CtxAt.of_tok hB.opens).merge fun _ => hB.closes.from_
  refine Ends.bind (places_engine hN hB (hm.of rfl (fun _ h => h) rfl) hy hctx) ?_
  rintro r s3 ⟨h1, h2, h3, h4⟩
  refine Ends.bind (Q := fun lb s' => lb = s3.labelBuf ∧ s' = { s3 with labelBuf := [] }) (Tri.popLabels ⟨rfl, rfl⟩) ?_
  rintro lb s4 ⟨rfl, rfl⟩
  refine places_place (l := o.ctx.startLine) (b' := c.ctx.startLine) ⟨h1.rows, (fun _ h => (nomatch h)), h1.env, h1.safe⟩ hctx (hB.own _) (fun a => ?_) hB.opens.from_ hB.closes.from_
    (by show Feed _ _ _ (toks.drop s3.next); rw [h2]; exact hF')
  refine Row.new h3 hctx (Nat.le_trans hB.closes.from_ hB.last) (fun hx => h4.order hx) ?_ h1.labels hB.opens.from_
  refine h4.located (fun hx => Nat.le_of_eq (hctx.same hx)) ?_
  have := hB.closes.ends
  simp only [Context.merge]; omega

theorem places_variable (hT : TokFrom (Named P.exact) toks) {s : DocSt} (hm : Mine P lo b s) (hF : Feed P.src P.last b (toks.drop s.next)) :
    Tri P lo (Mine P lo b) (variableProc toks) s (fun _ s' => Goes P lo toks s') := by
  unfold variableProc
  refine Ends.bind (Q := fun t s' => s' = { s with next := s.next + 1 } ∧ t.type = .VARIABLE ∧ toks[s.next]? = some t ∧ TokOn P.src b t ∧ t.ctx.startLine ≤ P.last ∧ Feed P.src P.last t.ctx.startLine (toks.drop (s.next + 1)))
    (Tri.tok hE (by simp) (by simp) hm hF fun t h0 hg h1 h2 h3 h4 => ⟨rfl, h0, hg, h1, h2, h4⟩) ?_
  rintro o s1 ⟨rfl, ho, hog, h1, h2, h4⟩
  refine Ends.bind (Q := fun t s' => s' = { s with next := s.next + 2 } ∧ toks[s.next + 1]? = some t ∧ TokOn P.src o.ctx.startLine t ∧ Feed P.src P.last t.ctx.startLine (toks.drop (s.next + 2)))
    (Tri.tok hE (by simp) (by simp) (hm.of rfl (fun _ h => h) rfl) h4 fun t _ hg k1 k2 k3 k4 => ⟨rfl, hg, k1, k4⟩) ?_
  rintro n s1 ⟨rfl, hng, h1', h4'⟩
  refine Ends.bind (Q := fun t s' => s' = { s with next := s.next + 3 } ∧ t.type = .LITERAL ∧ toks[s.next + 2]? = some t ∧ TokOn P.src o.ctx.startLine t ∧ Feed P.src P.last t.ctx.startLine (toks.drop (s.next + 3)))
    (Tri.tok hE (by simp) (by simp) (hm.of rfl (fun _ h => h) rfl) h4' fun t h0 hg k1 k2 k3 k4 => ⟨rfl, h0, hg, k1.mono h1'.from_, k4⟩) ?_
  rintro c s1 ⟨rfl, hc, hcg, k1, k4⟩
  obtain ⟨val, hL⟩ := (hT s.next).var o n c _ (by rw [drop_of_get hog, drop_of_get hng, drop_of_get hcg]) ho hc
  have hctx : CtxAt P o.ctx.startLine (o.ctx.merge c.ctx) := (CtxAt.of_tok h1).merge fun _ => k1.from_
  refine Ends.bind (Q := fun v s' => '\n' ∉ v.1 ∧ CtxAt P o.ctx.startLine v.2 ∧ ∃ i b', s' = { s with next := i } ∧ b ≤ b' ∧ Feed P.src P.last b' (toks.drop i)) ?_ ?_
  · have hm3 : Mine P lo b { s with next := s.next + 3 } := hm.of rfl (fun _ h => h) rfl
    unfold variableText
    refine Ends.bind (Q := fun t s' => s' = { s with next := s.next + 3 } ∧ TM.peek ⟨toks, s.next + 3⟩ = .ok t ∧ (t.type ≠ .EOF → toks[s.next + 3]? = some t))
      (Ends.peek hE hm3 .token fun t h0 h => ⟨rfl, h0, fun hx => (h hx).1⟩) ?_
    rintro t s1 ⟨rfl, hpk, hg⟩
    refine Ends.ite (fun hty => ?_) (fun _ => .pure ⟨by simp, hctx, _, _, rfl, Nat.le_trans h1.from_ k1.from_, k4⟩)
    have hg := hg (by rw [hty]; simp)
    obtain ⟨e1, e2, e3, e4⟩ := k4.next hg (by rw [hty]; simp) (by rw [hty]; simp)
    refine Ends.bind (Q := fun u s' => u = t ∧ s' = { s with next := s.next + 4 }) ?_ ?_
    · refine Ends.next hE hm3 (fun u hu => ?_) (fun u hu hgu _ => ?_)
      · dsimp only at hu
        rw [hpk] at hu
        injection hu with hu
        rw [← hu, hty]; simp
      · rw [hg] at hgu; injection hgu with hgu; exact ⟨hgu.symm, rfl⟩
    rintro u s1 ⟨rfl, rfl⟩
    exact .pure ⟨e3, hctx.merge fun _ => Nat.le_trans k1.from_ e1.from_, _, _, rfl, Nat.le_trans h1.from_ (Nat.le_trans k1.from_ e1.from_), e4⟩
  rintro v s1 ⟨hv, hvc, i, b', rfl, hb', hF'⟩
  refine Ends.bind (Q := fun a s' => a = { s with next := i } ∧ s' = { s with next := i }) (.get ⟨rfl, rfl⟩) ?_
  rintro s2 s1 ⟨rfl, rfl⟩
  refine Ends.bind (Q := fun d s' => s' = { s with next := i } ∧ definition s.env n.value v.1 v.2 = .ok d) (.lift (hm.of rfl (fun _ h => h) rfl) (fun e he => ?_) fun d hd => ⟨rfl, hd⟩) ?_
  · have hlo := Nat.le_trans hm.le h1.from_
    rcases definition_error he with ⟨m, rfl⟩ | he
    · exact .at hvc hlo h2
    · refine .on (l := o.ctx.startLine) (fun hx => ?_) hlo h2
      rw [hvc.source, hvc.same hx] at he
      exact preprocess_fails hv he
  rintro d s1 ⟨rfl, hd⟩
  refine .modify ⟨b', ⟨hm.rows.right hb', fun e he => (hm.labels e he).mono (fun _ => Nat.le_refl _) hb', fun hx => ?_, hm.safe⟩, hF'⟩
  refine undisturbed_set (hm.env hx) ?_ (definition_oneLine hm.env hv hd hx)
  intro e
  have := definition_defines val hd
  rw [e] at this
  exact hL hx this

end

end Mau
