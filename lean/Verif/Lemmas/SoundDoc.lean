import Verif.Lemmas.SoundSteps
import Verif.Props.Includes
import Verif.Props.Ending

set_option linter.unusedSimpArgs false

/-!
# Well-formed documents: reading all lines
-/

namespace Mau
open Spec

variable {V : Project}

theorem docTokens_mau (src : Option Str) (ls : List Str) (ln col : Nat) {e : Err} (h : docTokens src ln col ls = .error e) : e.isMau = true := by
  revert e
  refine docTokens_rec (src := src) (P := fun _ _ _ r => ∀ {e}, r = .error e → e.isMau = true) ?_ ?_ ?_ ?_ ?_ ?_ ?_ ?_ ls ln col
  · intro ln col e h; cases h
  · intro ln col e h; cases h
  · intro ln col l rest _ _ ih e h
    exact ih (map_error h)
  · intro ln col rest _ e h; cases h; rfl
  · intro ln col cs rest _ ih e h; exact ih h
  · intro ln col l rest _ _ e h; cases h; rfl
  · intro ln col l cs rest _ _ ih e h
    exact ih (map_error h)
  · intro ln col l rest _ ih e h
    exact ih (map_error h)

theorem Fair.reads {P : Parser} {ln col ln' : Nat} {ls rest : List Str} {s : DocSt} {x : Except Err DocSt} (h : Reads P ln col ls s x ln' rest) (hx : Fair V x)
    (hr : ∀ s', Orderly V s' → Fair V (P.run ln' 0 rest s')) : Fair V (P.run ln col ls s) := by
  cases x with
  | ok s' => rw [h.ok s' rfl]; exact hr s' (hx.ok s' rfl)
  | error e =>
    cases hd : docTokens P.src ln' 0 rest with
    | error e' => rw [h.lex e' hd]; exact .error (.inl (docTokens_mau _ _ _ _ hd))
    | ok ts => rw [h.err e rfl ⟨ts, hd⟩]; exact .error (hx.err e rfl)

theorem lists_nonempty {L : Nat} {es : List Entry} {ns : List Node} (h : Lists L es ns) (he : es ≠ []) : ns ≠ [] := by
  cases h with
  | nil => exact absurd rfl he
  | item => simp
  | sub => simp

theorem special_text {l : Str} {ps : List Piece} (h : SpecialLine l ps) (hl : '\n' ∉ l) (hp : ps ≠ []) : '\n' ∉ piecesText ps := by
  rcases lineForm_text h.1 with h' | h'
  · exact absurd h' hp
  · rwa [h']

theorem sound_run {cfg : Config} (hf : Readable cfg) (hfiles : ∀ f t, V.files f → cfg.files f = .ok t → Sound V (splitChar '\n' t)) {n : Nat} {src : Option Str}
    (hN : ∀ req, Starts V req.env → Sound V (splitChar '\n' req.text) → FairInner V (parseDocument cfg n req)) {ls : List Str} (h : Sound V ls) :
    (∀ l ∈ ls, '\n' ∉ l) → ∀ ln col s, Orderly V s → Fair V ((parser cfg n src).run ln col ls s) := by
  have hblock : ∀ {ch : Char} {cs rest : List Str} (hd : Delimits ch cs) (hcn : ∀ l ∈ cs, '\n' ∉ l) (ln col : Nat) (s : DocSt) (ho : Orderly V s)
      (hc : engineOf (Spec.args s) = c%"default" → Sound V cs) (hr : ∀ ln col s', Orderly V s' → Fair V ((parser cfg n src).run ln col rest s')),
      Fair V ((parser cfg n src).run ln col (blockLines ch cs ++ rest) s) := by
    intro ch cs rest hd hcn ln col s ho hc hr
    have e : blockLines ch cs ++ rest = [ch, ch, ch, ch] :: (cs ++ [ch, ch, ch, ch] :: rest) := by simp [blockLines]
    rw [e]
    refine .reads (reads_block (clean_parser cfg n src) hd.noComment hd.noSpace hd.inside) (fair_block ho _ fun he t ht hne => ?_) (hr _ _)
    unfold contentTok at ht
    split at ht
    · cases ht
    · rename_i hcs
      cases ht
      refine hN _ (.inl ho.settled) ?_
      show Sound V (splitChar '\n' (joinWith ['\n'] cs))
      rw [split_join hcs hcn]
      exact hc he
  have hargsRaw : ∀ {a : Str} {rest : List Str} (ln col : Nat) (s : DocSt) (_ : ∀ e, argumentsStep s (tokAt .TEXT a ln (col + 1) src) = .error e → Decent e)
      (_ : ∀ s', argumentsStep s (tokAt .TEXT a ln (col + 1) src) = .ok s' → Fair V ((parser cfg n src).run (ln + 1) 0 rest s')),
      Fair V ((parser cfg n src).run ln col (('[' :: (a ++ [']'])) :: rest) s) := by
    intro a rest ln col s hx hr
    have hrd := reads_arguments (P := parser cfg n src) (ln := ln) (col := col) (a := a) (rest := rest) (s := s)
    cases hst : argumentsStep s (tokAt .TEXT a ln (col + 1) src) with
    | ok s' => rw [hrd.ok s' hst]; exact hr s' hst
    | error e =>
      cases hd : docTokens src (ln + 1) 0 rest with
      | error e' => rw [hrd.lex e' hd]; exact .error (.inl (docTokens_mau _ _ _ _ hd))
      | ok ts => rw [hrd.err e hst ⟨ts, hd⟩]; exact .error (hx e hst)
  have hargs : ∀ {a : Str} {rest : List Str} (ln col : Nat) (s : DocSt) (_ : Fair V (argumentsStep s (tokAt .TEXT a ln (col + 1) src)))
      (_ : ∀ s', argumentsStep s (tokAt .TEXT a ln (col + 1) src) = .ok s' → Fair V ((parser cfg n src).run (ln + 1) 0 rest s')),
      Fair V ((parser cfg n src).run ln col (('[' :: (a ++ [']'])) :: rest) s) := fun ln col s hx hr => hargsRaw ln col s hx.err hr
  have hincl : ∀ uri text req, V.files uri → (parser cfg n src).cfg.files uri = .ok text → req.text = text → Starts V req.env → FairInner V ((parser cfg n src).nested req) := by
    intro uri text req h0 h1 h2 h3
    exact hN req h3 (h2 ▸ hfiles uri text h0 h1)
  induction h with
  | nil =>
    intro _ ln col s ho
    have e : (parser cfg n src).run ln col [] s = .ok (start s) := by
      rw [run_eq, docTokens]
      exact runToks_eof _ _ _ _ _ _ rfl
    rw [e]
    exact .good (ho.like (s' := start s) rfl rfl)
  | blank h _ ih =>
    intro hn ln col s ho
    rw [run_blank h]
    exact ih (fun l hl => hn l (by simp [hl])) _ _ _ ho
  | comment h _ ih =>
    intro hn ln col s ho
    rw [run_comment h]
    exact ih (fun l hl => hn l (by simp [hl])) _ _ _ ho
  | comments h _ ih =>
    intro hn ln col s ho
    rw [run_comments h]
    exact ih (fun l hl => hn l (by simp [hl])) _ _ _ ho
  | rule _ ih =>
    intro hn ln col s ho
    exact .reads reads_rule (fair_rule ho _) (ih (fun l hl => hn l (by simp [hl])) _ _)
  | @label l role sp t rest h ht _ ih =>
    intro hn ln col s ho
    have := special_text h (hn l (by simp)) (by simp)
    refine .reads (reads_label h) (fair_label ho ht ?_ _) (ih (fun l hl => hn l (by simp [hl])) _ _)
    simp [piecesText, pieceText] at this
    exact this.2.2
  | @define l name v rest h hu hv _ ih =>
    intro hn ln col s ho
    exact .reads (reads_define h) (fair_define ho hu hv _) (ih (fun l hl => hn l (by simp [hl])) _ _)
  | @flag l name rest h hu hnt _ ih =>
    intro hn ln col s ho
    exact .reads (reads_define_none hnt h) (fair_define ho hu (by simp) _) (ih (fun l hl => hn l (by simp [hl])) _ _)
  | @control l op sp t rest h ht hp _ ih =>
    intro hn ln col s ho
    have := special_text h (hn l (by simp)) (by simp)
    refine .reads (reads_control h) (fair_control ho ht hp ?_) (ih (fun l hl => hn l (by simp [hl])) _ _)
    simp [piecesText, pieceText] at this
    exact this.2.2
  | @arguments a rest h _ ih =>
    intro hn ln col s ho
    have hna : '\n' ∉ a := fun h' => hn _ (List.mem_cons_self) (by simp [h'])
    have hx := fair_arguments (s := s) ho (t := tokAt .TEXT a ln (col + 1) src) h hna
    exact hargs ln col s hx fun s' hs' => ih (fun l hl => hn l (by simp [hl])) _ _ _ (hx.ok s' hs')
  | @plainArguments a as rest h hl hg _ ih =>
    intro hn ln col s ho
    obtain ⟨b, h1, h2, _⟩ := fair_plainArguments (s := s) ho (t := tokAt .TEXT a ln (col + 1) src) h hl hg
    have h3 : Orderly V { s with argsBuf := some b } := ⟨ho.settled, fun x hx => by cases hx; exact h2⟩
    refine hargs ln col s (by rw [h1]; exact .good h3) fun s' hs' => ?_
    rw [h1] at hs'
    injection hs' with hs'
    subst hs'
    exact ih (fun l hl => hn l (by simp [hl])) _ _ _ h3
  | @code a ch cs rest ha hd _ ih =>
    intro hn ln col s ho
    obtain ⟨b, h1, h2, h4⟩ := fair_code (s := s) ho (t := tokAt .TEXT a ln (col + 1) src) ha
    have h3 : Orderly V { s with argsBuf := some b } := ⟨ho.settled, fun x hx => by cases hx; exact h2⟩
    refine hargs ln col s (by rw [h1]; exact .good h3) fun s' hs' => ?_
    rw [h1] at hs'
    injection hs' with hs'
    subst hs'
    refine hblock hd (fun l hl => hn l (by simp [blockLines, hl])) _ _ _ h3 (fun he => ?_) (ih (fun l hl => hn l (by simp [hl])))
    exact absurd he h4
  | @header l signs sp t rest h ht hv _ ih =>
    intro hn ln col s ho
    have := special_text h (hn l (by simp)) (by simp)
    refine .reads (reads_header h) (fair_header ho ht hv ?_ _ _ _) (ih (fun l hl => hn l (by simp [hl])) _ _)
    simp [piecesText, pieceText] at this
    exact this.2.2
  | @paragraph ls rest h hne hnt _ ih =>
    intro hn ln col s ho
    exact .reads (reads_paragraph (fun l hl => (h l hl).1) hne hnt) (fair_paragraph ho hne (fun l hl => ⟨(h l hl).2, hn l (by simp [hl])⟩) _ _ _)
      (ih (fun l hl => hn l (by simp [hl])) _ _)
  | @list i is rest h ht ha _ ih =>
    intro hn ln col s ho
    have hin : ∀ j ∈ i :: is, SafeText j.text ∧ Visible j.text ∧ '\n' ∉ j.text := by
      intro j hj
      refine ⟨(ht j hj).1, (ht j hj).2, ?_⟩
      have := special_text (h j hj).1 (hn j.line (List.mem_append_left _ (List.mem_map.2 ⟨j, hj, rfl⟩))) (by simp)
      simp [piecesText, pieceText] at this
      exact this.2.2.2
    obtain ⟨h1, h2⟩ := fair_items (P := parser cfg n src) (src := src) (is := i :: is) (ln := ln) (col := col) ho hin
    have hrest : ∀ l ∈ rest, '\n' ∉ l := fun l hl => hn l (List.mem_append_right _ hl)
    cases hits : (parser cfg n src).items s (itemToks src ln col (i :: is)) with
    | error e =>
      cases hd : docTokens src (ln + (i :: is).length) 0 rest with
      | ok ts => rw [reads_list_err h ha hits ⟨ts, hd⟩]; exact .error (h1 e hits)
      | error e' =>
        rw [run_eq, itemToks_docTokens (src := (parser cfg n src).src) (ln := ln) (col := col) (rest := rest) (fun j hj => (h j hj).1) (is := i :: is) (by simp)]
        rw [show docTokens (parser cfg n src).src _ 0 rest = .error e' from hd]
        exact .error (.inl (docTokens_mau _ _ _ _ hd))
    | ok r =>
      obtain ⟨es, s1⟩ := r
      have h3 := h2 _ hits
      obtain ⟨ns, hL, hrd⟩ := reads_list h ha hits
      refine .reads hrd (fair_list h3.1 (lists_nonempty hL ?_)) (ih hrest _ _)
      intro he
      have := h3.2
      dsimp only at this
      rw [he] at this
      cases this
  | @block ch cs rest hd _ _ ihc ih =>
    rename_i hc _
    intro hn ln col s ho
    exact hblock hd (fun l hl => hn l (by simp [blockLines, hl])) _ _ _ ho (fun _ => hc) (ih (fun l hl => hn l (by simp [hl])))
  | @unclosed ch rest h1 h2 =>
    intro hn ln col s ho
    unfold Parser.run
    by_cases hch : ch = '/'
    · subst hch
      rw [docTokens_comment_open h2]
      exact .error (.inl rfl)
    · rw [docTokens_block_open (isDelim_same hch h1) h2]
      exact .error (.inl rfl)
  | @«include» l sp ty rest h h1 h2 _ ih =>
    intro hn ln col s ho
    exact .reads (reads_include (clean_parser cfg n src) h) (fair_include hf ho h1 h2 _ _) (ih (fun l hl => hn l (by simp [hl])) _ _)
  | @includeArgs l sp ty a rest h h1 h2 _ ih =>
    intro hn ln col s ho
    exact .reads (reads_include_args (clean_parser cfg n src) h) (fair_includeInline hf ho h1 h2 _ _) (ih (fun l hl => hn l (by simp [hl])) _ _)
  | @includeMau l sp a as rest h hv ha _ ih =>
    intro hn ln col s ho
    refine .reads (reads_include_args (clean_parser cfg n src) h) ?_ (ih (fun l hl => hn l (by simp [hl])) _ _)
    unfold Parser.includeInline
    split
    · exact .error (.inl rfl)
    · obtain ⟨p, h1, h3, h2⟩ := plain_arguments (env := s.env) (t := tokAt .TEXT a ln (col + 2 + sp.length + c%"mau".length + 1) (parser cfg n src).src) ha.plain ha.literal
      rw [h1]
      refine fair_includeMau hf ho.settled hv hincl ?_ ?_ _
      · intro x v hm
        rw [h2] at hm
        exact ha.call x v hm
      · intro u hu
        rw [h3, h2] at hu
        exact ha.file u (hu.imp id Dict.mem_of_get?)
  | @includeMauArgs l sp a as rest h hv ha _ ih =>
    intro hn ln col s ho
    obtain ⟨p, h1, h5, h2⟩ := plain_arguments (env := s.env) (t := tokAt .TEXT a ln (col + 1) src) ha.plain ha.literal
    have h3 : argumentsStep s (tokAt .TEXT a ln (col + 1) src) = .ok { s with argsBuf := some p.arguments } := by unfold argumentsStep; rw [h1]; rfl
    refine hargsRaw ln col s (h3 ▸ (by exact fun e he => nomatch he)) fun s' hs' => ?_
    rw [h3] at hs'
    injection hs' with hs'
    subst hs'
    refine .reads (reads_include (clean_parser cfg n src) h) ?_ (ih (fun l hl => hn l (by simp [hl])) _ _)
    refine fair_includeMau hf ho.settled hv hincl ?_ ?_ _
    · intro x v hm
      exact ha.call x v (h2 ▸ hm)
    · intro u hu
      change p.arguments.unnamed.head? = _ ∨ Dict.get? p.arguments.named _ = _ at hu
      rw [h5, h2] at hu
      exact ha.file u (hu.imp id Dict.mem_of_get?)
  | @includeGroup l sp a as rest h ha _ ih =>
    intro hn ln col s ho
    refine .reads (reads_include_args (clean_parser cfg n src) h) ?_ (ih (fun l hl => hn l (by simp [hl])) _ _)
    unfold Parser.includeInline
    split
    · exact .error (.inl rfl)
    · obtain ⟨p, h1, h2, h3⟩ := plain_arguments (env := s.env) (t := tokAt .TEXT a ln (col + 2 + sp.length + c%"blockgroup".length + 1) (parser cfg n src).src) ha.plain ha.literal
      rw [h1]
      refine fair_group ho.settled ?_ _
      rw [h2, h3]
      exact ha.group.imp id fun ⟨v, hv⟩ => by rw [Dict.get?_of_mem ha.plain.keys hv]; simp
  | @includeGroupArgs l sp a as rest h ha _ ih =>
    intro hn ln col s ho
    obtain ⟨p, h1, h2, h4⟩ := plain_arguments (env := s.env) (t := tokAt .TEXT a ln (col + 1) src) ha.plain ha.literal
    have h3 : argumentsStep s (tokAt .TEXT a ln (col + 1) src) = .ok { s with argsBuf := some p.arguments } := by unfold argumentsStep; rw [h1]; rfl
    refine hargsRaw ln col s (h3 ▸ (by exact fun e he => nomatch he)) fun s' hs' => ?_
    rw [h3] at hs'
    injection hs' with hs'
    subst hs'
    refine .reads (reads_include (clean_parser cfg n src) h) ?_ (ih (fun l hl => hn l (by simp [hl])) _ _)
    refine fair_group ho.settled ?_ _
    show p.arguments.unnamed ≠ [] ∨ Dict.get? p.arguments.named _ ≠ none
    rw [h2, h4]
    exact ha.group.imp id fun ⟨v, hv⟩ => by rw [Dict.get?_of_mem ha.plain.keys hv]; simp

theorem sound_document {cfg : Config} (hf : Readable cfg) (hfiles : ∀ f t, V.files f → cfg.files f = .ok t → Sound V (splitChar '\n' t)) (n : Nat) : ∀ req, Starts V req.env →
    Sound V (splitChar '\n' req.text) → FairInner V (parseDocument cfg n req) := by
  induction n with
  | zero => intro req _ _; exact ⟨fun e h => (by cases h; exact .inr rfl), fun s h => (nomatch h)⟩
  | succ n ih =>
    intro req hs hd
    have ho : Orderly V (initial req) := ⟨hs.init, fun a ha => (nomatch ha)⟩
    have := sound_run (src := req.source) hf hfiles (fun r hr => ih r hr) hd (fun l hl => sep_not_mem_of_mem_split hl) req.startLine req.startColumn _ ho
    have hk := parserObjects_ok.2 hs.init.usual
    have hrun := parseDocument_run cfg n req hk
    cases hx : (parser cfg n req.source).run req.startLine req.startColumn (splitChar '\n' req.text) (initial req) with
    | error e =>
      rw [parseDocument_error hk hx]
      exact ⟨fun e' h => (by cases h; exact this.err _ hx), fun s h => (nomatch h)⟩
    | ok s =>
      have hs1 := this.ok s hx
      rw [hx] at hrun
      change _ = finalise cfg s at hrun
      have hfin := finalise_outcome cfg s
      refine ⟨fun e h => ?_, fun d h => ?_⟩
      · rw [h] at hrun
        change Except.error e = _ at hrun
        rw [← hrun] at hfin
        split at hfin
        · cases hfin; exact .inl rfl
        · split at hfin
          · cases hfin; exact .inl rfl
          · split at hfin
            · cases hfin; exact .inl rfl
            · obtain ⟨_, h'⟩ := hfin; cases h'
      · rw [h] at hrun
        change Except.ok (start d) = _ at hrun
        have := (rest_finalise hrun.symm).env
        change d.env = s.env at this
        rw [this]; exact hs1.settled

end Mau
