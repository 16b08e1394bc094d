import Verif.Props.Environment
import Verif.Lemmas.DocLink
import Verif.Lemmas.DocKeeps
import Verif.Spec.Includes

set_option linter.unusedSimpArgs false

/-!
# Environments and arguments of reachable states have distinct keys

Python dictionaries have distinct keys. In the model dictionaries are lists of pairs; the states a parser reaches keep the keys
distinct.
-/

namespace Mau
open Spec

/-! ## Arguments -/

theorem distinct_setNames {α : Type} {u : List α} {n : Dict α} (h : Dict.Distinct n) (names : List Str) : Dict.Distinct (setNames u n names).2 :=
  Dict.distinct_update h _

theorem distinct_namedOf (items : List ArgItem) : Dict.Distinct (namedOf items) := by
  unfold namedOf
  have : ∀ (is : List ArgItem) (d : Dict CtxText), Dict.Distinct d →
      Dict.Distinct (is.foldl (fun d i => match i with | .named k n => Dict.set d k n | .unnamed _ => d) d) := by
    intro is
    induction is with
    | nil => intro d h; exact h
    | cons i is ih =>
      intro d h
      refine ih _ ?_
      cases i with
      | unnamed n => exact h
      | named k n => exact Dict.distinct_set h _ _
  exact this items [] Dict.distinct_nil

theorem isolate_named {u : List CtxText} {n : Dict CtxText} {p : ParsedArgs} (h : isolate u n = .ok p) : p.named = n := by
  unfold isolate at h
  dsimp only at h
  split at h
  · cases h
  · split at h
    · cases h
    · cases h; rfl

theorem distinct_applyAlias {p : ParsedArgs} (h : Dict.Distinct p.named) (al : CtxText) (a : Alias) (m : List Str) :
    Dict.Distinct (applyAlias p al a m).named := by
  unfold applyAlias
  refine distinct_setNames ?_ _
  have : ∀ (m : List Str) (d : Dict CtxText), Dict.Distinct d →
      Dict.Distinct (m.foldl (fun d k => match Dict.get? a.args k with | some v => Dict.set d k ⟨v, al.ctx⟩ | none => d) d) := by
    intro m
    induction m with
    | nil => intro d h; exact h
    | cons k m ih =>
      intro d h
      refine ih _ ?_
      dsimp only
      split
      · exact Dict.distinct_set h _ _
      · exact h
  exact this m _ h

theorem distinct_parseArgs {env : Env} {text : Str} {l c : Nat} {src : Option Str} {p : ParsedArgs} (h : parseArgs env text l c src = .ok p) :
    Dict.Distinct p.named := by
  unfold parseArgs at h
  obtain ⟨ts, _, h⟩ := bind_ok_except h
  replace h : parseArgTokens env ts = .ok p := by
    unfold locateArgs at h
    split at h
    · cases h
    · exact h
  obtain ⟨items, _, h⟩ := bind_ok_except h
  unfold isolateTagsAndSubtype at h
  obtain ⟨q, hq, h⟩ := bind_ok_except h
  have hd : Dict.Distinct q.named := by rw [isolate_named hq]; exact distinct_namedOf _
  split at h
  · cases h; exact hd
  · obtain ⟨a, _, h⟩ := bind_ok_except h
    cases h
    exact distinct_applyAlias hd _ _ _

theorem distinct_mapVals {α β : Type} {d : Dict α} (h : Dict.Distinct d) (f : Str × α → β) :
    Dict.Distinct (d.map fun kv => (kv.1, f kv)) := by
  unfold Dict.Distinct Dict.keys at *
  rw [List.map_map]
  exact h

theorem distinct_arguments {env : Env} {t : Token} {p : ParsedArgs} (h : processArgumentsWithVariables env t = .ok p) :
    Dict.Distinct p.arguments.named := by
  unfold processArgumentsWithVariables at h
  obtain ⟨x, _, h⟩ := bind_ok_except h
  exact distinct_mapVals (distinct_parseArgs h) _

/-! ## States -/

/-- The dictionaries of the state have distinct keys. -/
structure Tidy (s : DocSt) : Prop where
  env : s.env.Distinct
  args : ∀ a, s.argsBuf = some a → Dict.Distinct a.named

theorem Tidy.args' {s : DocSt} (h : Tidy s) : Dict.Distinct (Spec.args s).named := by
  unfold Spec.args
  cases hb : s.argsBuf with
  | none => exact Dict.distinct_nil
  | some a => exact h.args a hb

theorem distinct_initEnv {env : Env} (h : env.Distinct) : (initEnv env).Distinct := by
  unfold initEnv Env.update
  dsimp only
  rw [if_neg (by simp)]
  refine Dict.distinct_update ?_ _
  unfold Env.fromDict Env.dupdate
  exact Dict.distinct_update Dict.distinct_nil _

theorem tidy_initial {req : NestedReq} (h : req.env.Distinct) : Tidy (initial req) :=
  ⟨distinct_initEnv h, by intro a ha; cases ha⟩

/-- A parser for blocks and included files that keeps the environment tidy. -/
def TidyNested (nested : NestedParser) : Prop := ∀ req inner, nested req = .ok inner → req.env.Distinct → inner.env.Distinct

theorem tidy_frame {nested : NestedParser} (hn : TidyNested nested) {ok : Option Str → Prop} : Frame (fun s s' => Tidy s → Tidy s') nested ok where
  refl _ h := h
  trans h1 h2 h := h2 (h1 h)
  args s a ha h := ⟨h.env, fun x hx => by
    obtain ⟨e, t, p, hp, rfl⟩ := ha x hx
    exact distinct_arguments hp⟩
  labels _ _ h := ⟨h.env, h.args⟩
  control _ _ h := ⟨h.env, h.args⟩
  latest _ _ h := ⟨h.env, h.args⟩
  env s k v _ h := ⟨Dict.distinct_update h.env _, h.args⟩
  node _ _ h := ⟨h.env, h.args⟩
  text _ _ _ _ _ _ _ _ h := ⟨h.env, h.args⟩
  fresh _ h := ⟨h.env, h.args⟩
  name _ _ h := ⟨h.env, h.args⟩
  header _ _ _ h := ⟨h.env, h.args⟩
  body _ _ h := ⟨h.env, h.args⟩
  group _ _ h := ⟨h.env, h.args⟩
  block s req inner hi _ _ he _ _ h := ⟨hn req inner hi (by rw [he]; exact h.env), h.args⟩
  merge _ _ _ _ h := ⟨h.env, h.args⟩
  forbid _ _ h := ⟨h.env, h.args⟩
  mau _ _ _ _ _ _ _ _ _ _ _ h := ⟨h.env, h.args⟩
  tocNode _ _ h := ⟨h.env, h.args⟩
  footnoteList _ _ h := ⟨h.env, h.args⟩
  groupNode _ _ _ h := ⟨h.env, h.args⟩

/-! ## Completing the document keeps the environment, the include calls and the forbidden files -/

/-- What completing the document does not touch. -/
structure Rest (s s' : DocSt) : Prop where
  env : s'.env = s.env
  calls : s'.includeCalls = s.includeCalls
  forbidden : s'.forbidden = s.forbidden
  places : s'.places = s.places
  notes : s'.footnoteMacros = s.footnoteMacros
  links : s'.linkMacros = s.linkMacros
  groups : s'.groupNodes = s.groupNodes
  control : s'.controlBuf = s.controlBuf

theorem Rest.refl (s : DocSt) : Rest s s := ⟨rfl, rfl, rfl, rfl, rfl, rfl, rfl, rfl⟩
theorem Rest.trans {a b c : DocSt} (h1 : Rest a b) (h2 : Rest b c) : Rest a c :=
  ⟨h2.env.trans h1.env, h2.calls.trans h1.calls, h2.forbidden.trans h1.forbidden, h2.places.trans h1.places, h2.notes.trans h1.notes, h2.links.trans h1.links,
   h2.groups.trans h1.groups, h2.control.trans h1.control⟩


theorem rest_updateNode (s : DocSt) (id : Nat) (f : Node → Node) : Rest s (s.updateNode id f) := ⟨rfl, rfl, rfl, rfl, rfl, rfl, rfl, rfl⟩

theorem rest_foldl {α : Type} (g : DocSt → α → DocSt) (hg : ∀ s a, Rest s (g s a)) : ∀ (l : List α) (s : DocSt), Rest s (l.foldl g s)
  | [], s => Rest.refl s
  | a :: l, s => (hg s a).trans (rest_foldl g hg l (g s a))

theorem rest_linkFootnotes (fns : Dict Node) : ∀ (l : List (Nat × Str)) (s s' : DocSt), linkFootnotes fns l s = .ok s' → Rest s s'
  | [], s, s', h => by cases h; exact Rest.refl s
  | (id, name) :: l, s, s', h => by
    unfold linkFootnotes at h
    split at h
    · cases h
    · exact (rest_updateNode _ _ _).trans (rest_linkFootnotes fns l _ s' h)

theorem rest_processFootnotes {cfg : Config} {s s' : DocSt} (h : processFootnotes cfg s = .ok s') : Rest s s' := by
  unfold processFootnotes at h
  dsimp only at h
  split at h
  · cases h
  · rename_i s1 h1
    cases h
    have a : Rest s s1 := Rest.trans (b := { s with uid := (makeFootnotes cfg 1 s.uid s.bodies).2, objs := s.objs ++ (makeFootnotes cfg 1 s.uid s.bodies).1.map (·.2) })
      ⟨rfl, rfl, rfl, rfl, rfl, rfl, rfl, rfl⟩ (rest_linkFootnotes _ _ _ _ h1)
    exact a.trans (rest_foldl _ (fun s id => rest_updateNode s id _) _ _)

theorem rest_processToc (cfg : Config) (s : DocSt) : Rest s (processToc cfg s) := by
  unfold processToc
  split
  · exact Rest.refl s
  · dsimp only
    refine Rest.trans (rest_foldl _ (fun s h => ?_) _ _) (rest_foldl _ (fun s id => rest_updateNode s id _) _ _)
    unfold setHeaderId
    split
    · exact Rest.refl s
    · split
      · exact rest_updateNode _ _ _
      · exact Rest.refl s

theorem rest_linkHeaders : ∀ (l : List (Nat × Str)) (s s' : DocSt), linkHeaders l s = .ok s' → Rest s s'
  | [], s, s', h => by cases h; exact Rest.refl s
  | (id, name) :: l, s, s', h => by
    unfold linkHeaders at h
    split at h
    · cases h
    · exact ((rest_updateNode _ _ _).trans (rest_updateNode _ _ _)).trans (rest_linkHeaders l _ s' h)

theorem rest_processGroups : ∀ (l : List (Nat × Str)) (s s' : DocSt), processGroups l s = .ok s' → Rest s s'
  | [], s, s', h => by cases h; exact Rest.refl s
  | (id, name) :: l, s, s', h => by
    unfold processGroups at h
    split at h
    · cases h
    · exact (rest_updateNode _ _ _).trans (rest_processGroups l _ s' h)

theorem rest_finalise {cfg : Config} {s s' : DocSt} (h : finalise cfg s = .ok s') : Rest s s' := by
  unfold finalise at h
  obtain ⟨s1, h1, h⟩ := bind_ok_except h
  dsimp only at h
  obtain ⟨s2, h2, h⟩ := bind_ok_except h
  exact (rest_processFootnotes h1).trans ((rest_processToc cfg s1).trans ((rest_linkHeaders _ _ _ h2).trans (rest_processGroups _ _ _ h)))

/-- A parsed document: its lines were read, and then it was completed. -/
theorem parseDocument_ok {cfg : Config} {n : Nat} {req : NestedReq} {d : DocSt} (h : parseDocument cfg n req = .ok d) :
    ∃ m s, n = m + 1 ∧ (parser cfg m req.source).run req.startLine req.startColumn (splitChar '\n' req.text) (initial req) = .ok s ∧
      finalise cfg s = .ok (start d) := by
  cases n with
  | zero => cases h
  | succ m =>
    have e := parseDocument_run cfg m req (parseDocument_objects_ok h)
    rw [h] at e
    cases hr : (parser cfg m req.source).run req.startLine req.startColumn (splitChar '\n' req.text) (initial req) with
    | error x => rw [hr] at e; cases e
    | ok s => rw [hr] at e; exact ⟨m, s, rfl, hr, e.symm⟩

theorem tidy_parseDocument (cfg : Config) (n : Nat) : TidyNested (parseDocument cfg n) := by
  induction n with
  | zero => intro req inner h; cases h
  | succ n ih =>
    intro req inner h hd
    obtain ⟨m, s, hm, hr, hf⟩ := parseDocument_ok h
    cases hm
    have := run_keeps (P := parser cfg n req.source) (tidy_frame (nested := (parser cfg n req.source).nested) ih) (fun s k h => ⟨h.env, h.args⟩) hr (tidy_initial hd)
    have e : (start inner).env = s.env := (rest_finalise hf).env
    have e' : inner.env = s.env := e
    rw [e']
    exact this.env

/-- Reading lines keeps the state tidy. -/
theorem tidy_run {cfg : Config} {n : Nat} {src : Option Str} {ln col : Nat} {ls : List Str} {s s' : DocSt}
    (h : (parser cfg n src).run ln col ls s = .ok s') (ht : Tidy s) : Tidy s' :=
  run_keeps (P := parser cfg n src) (tidy_frame (nested := (parser cfg n src).nested) (tidy_parseDocument cfg n)) (fun _ _ h => ⟨h.env, h.args⟩) h ht

end Mau
