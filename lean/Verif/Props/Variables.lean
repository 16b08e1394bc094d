import Verif.Lemmas.DocVars
import Verif.Props.Includes
import Verif.Props.Cli

set_option linter.unusedSimpArgs false

/-!
# C71: variables change only where the document says so
-/

namespace Mau
open Spec

/-- An environment that has the default variables. -/
structure Ready (env : Env) : Prop where
  distinct : env.Distinct
  defaults : ∀ j, builtin j ≠ none → Dict.get? env j ≠ none

theorem ready_init {env : Env} (h : env.Distinct) : Ready (initEnv env) := by
  refine ⟨distinct_initEnv h, fun j hj => ?_⟩
  rw [C50_defaults h]
  cases Dict.get? env j <;> simp [hj]

theorem init_ready {env : Env} (h : Ready env) (k : Str) : Dict.get? (initEnv env) k = Dict.get? env k := by
  rw [C50_defaults h.distinct]
  cases hk : Dict.get? env k with
  | some v => rfl
  | none =>
    cases hb : builtin k with
    | none => rfl
    | some v => exact absurd hk (h.defaults k (by rw [hb]; simp))

theorem Ready.setitem {env : Env} (h : Ready env) (k v : Str) : Ready (Env.setitem env k (.leaf (.str v))) := by
  have e : Env.setitem env k (.leaf (.str v)) = Dict.set env k (.str v) := rfl
  rw [e]
  refine ⟨Dict.distinct_set h.distinct _ _, fun j hj => ?_⟩
  rw [Dict.get?_set]
  split
  · simp
  · exact h.defaults j hj

/-- The variable `k` stays as it is. -/
def SameVar (k : Str) (s s' : DocSt) : Prop := Ready s.env → Ready s'.env ∧ Dict.get? s'.env k = Dict.get? s.env k

theorem SameVar.of_env {k : Str} {s s' : DocSt} (h : s'.env = s.env) : SameVar k s s' := by
  intro hr; rw [h]; exact ⟨hr, rfl⟩

/-- A parser for the contents of blocks that leaves the variable `k` alone if no line defines it. -/
def NestedVar (k : Str) (nested : NestedParser) : Prop := ∀ req inner, nested req = .ok inner → (∀ l ∈ splitChar '\n' req.text, ¬ LineDefines l k) →
  req.env.Distinct → Ready inner.env ∧ Dict.get? inner.env k = Dict.get? (initEnv req.env) k

theorem var_frame {k : Str} {nested : NestedParser} (hn : NestedVar k nested) {ok : Option Str → Prop} :
    Frame (SameVar k) nested ok (· ≠ k) (fun text => ∀ l ∈ splitChar '\n' text, ¬ LineDefines l k) where
  refl _ h := ⟨h, rfl⟩
  trans h1 h2 h := ⟨(h2 (h1 h).1).1, (h2 (h1 h).1).2.trans (h1 h).2⟩
  args _ _ _ := .of_env rfl
  labels _ _ := .of_env rfl
  control _ _ := .of_env rfl
  latest _ _ := .of_env rfl
  env s j v hj h := by
    refine ⟨h.setitem j v, ?_⟩
    have e : Env.setitem s.env j (.leaf (.str v)) = Dict.set s.env j (.str v) := rfl
    show Dict.get? (Env.setitem s.env j (.leaf (.str v))) k = _
    rw [e, Dict.get?_set]
    simp [hj]
  node _ _ := .of_env rfl
  text _ _ _ _ _ _ _ _ := .of_env rfl
  fresh _ := .of_env rfl
  name _ _ := .of_env rfl
  header _ _ _ := .of_env rfl
  body _ _ := .of_env rfl
  group _ _ := .of_env rfl
  block s req inner hi _ _ he _ ht h := by
    obtain ⟨h1, h2⟩ := hn req inner hi ht (by rw [he]; exact h.distinct)
    exact ⟨h1, by show Dict.get? inner.env k = _; rw [h2, he, init_ready h]⟩
  merge _ _ _ _ := .of_env rfl
  forbid _ _ := .of_env rfl
  mau _ _ _ _ _ _ _ _ _ _ _ := .of_env rfl
  tocNode _ _ := .of_env rfl
  footnoteList _ _ := .of_env rfl
  groupNode _ _ _ := .of_env rfl

theorem run_var {k : Str} {P : Parser} (hn : NestedVar k P.nested) {ln col : Nat} {ls : List Str} {s s' : DocSt} (hnl : ∀ l ∈ ls, '\n' ∉ l)
    (hL : ∀ l ∈ ls, ¬ LineDefines l k) (h : P.run ln col ls s = .ok s') : SameVar k s s' :=
  run_keeps_from (L := fun l => ¬ LineDefines l k) (var_frame hn) (fun _ _ => .of_env rfl) hnl hL (fun l j hl hj e => hl (e ▸ hj)) (fun _ h => h) h

theorem nested_var (k : Str) (cfg : Config) (n : Nat) : NestedVar k (parseDocument cfg n) := by
  induction n with
  | zero => intro req inner h; cases h
  | succ n ih =>
    intro req inner h hL hd
    obtain ⟨m, s, hm, hr, hf⟩ := parseDocument_ok h
    cases hm
    obtain ⟨h1, h2⟩ := run_var (P := parser cfg n req.source) ih (fun l hl => sep_not_mem_of_mem_split hl) hL hr (ready_init hd)
    have e : (start inner).env = s.env := (rest_finalise hf).env
    have e' : inner.env = s.env := e
    rw [e']
    exact ⟨h1, h2⟩

/-- C71: a variable which no line of the document defines — outside or inside of blocks — has at the end the value it was given from outside, or else the
default. Included files, arguments, macros and everything else leave it alone. -/
theorem C71_untouched {cfg : Config} {fuel : Nat} {text : Str} {env : Env} {source : Option Str} {s : DocSt} {k : Str} (hd : env.Distinct)
    (h : parseDoc cfg fuel text env source = .ok s) (hk : ∀ l ∈ lines text, ¬ LineDefines l k) :
    Dict.get? s.env k = (Dict.get? env k).or (builtin k) := by
  have hk' : ∀ l ∈ splitChar '\n' text, ¬ LineDefines l k := by
    unfold Spec.lines at hk
    split at hk
    · rename_i e
      subst e
      intro l hl
      simp only [splitChar, List.mem_singleton] at hl
      subst hl
      rintro ⟨v, h | h | h⟩ <;> cases h
    · exact hk
  obtain ⟨_, h2⟩ := nested_var k cfg fuel _ _ h hk' hd
  rw [h2]
  exact C50_defaults hd k

theorem ready_frame {nested : NestedParser} (hn : ∀ req inner, nested req = .ok inner → req.env.Distinct → Ready inner.env) {ok : Option Str → Prop} :
    Frame (fun s s' => Ready s.env → Ready s'.env) nested ok where
  refl _ h := h
  trans h1 h2 h := h2 (h1 h)
  args _ _ _ h := h
  labels _ _ h := h
  control _ _ h := h
  latest _ _ h := h
  env s j v _ h := h.setitem j v
  node _ _ h := h
  text _ _ _ _ _ _ _ _ h := h
  fresh _ h := h
  name _ _ h := h
  header _ _ _ h := h
  body _ _ h := h
  group _ _ h := h
  block s req inner hi _ _ he _ _ h := hn req inner hi (by rw [he]; exact h.distinct)
  merge _ _ _ _ h := h
  forbid _ _ h := h
  mau _ _ _ _ _ _ _ _ _ _ _ h := h
  tocNode _ _ h := h
  footnoteList _ _ h := h
  groupNode _ _ _ h := h

theorem nested_ready (cfg : Config) (n : Nat) : ∀ req inner, parseDocument cfg n req = .ok inner → req.env.Distinct → Ready inner.env := by
  induction n with
  | zero => intro req inner h; cases h
  | succ n ih =>
    intro req inner h hd
    obtain ⟨m, s, hm, hr, hf⟩ := parseDocument_ok h
    cases hm
    have := run_keeps (P := parser cfg n req.source) (ready_frame (nested := (parser cfg n req.source).nested) ih) (fun _ _ h => h) hr (ready_init hd)
    have e : (start inner).env = s.env := (rest_finalise hf).env
    have e' : inner.env = s.env := e
    rw [e']
    exact this

/-- C71: a variable that is defined keeps its value until a line defines it again. -/
theorem C71_until_redefined {cfg : Config} {n : Nat} {src : Option Str} {ln0 col0 ln col : Nat} {before rest : List Str} {req : NestedReq} {s s' : DocSt} {name value v : Str}
    (hd : req.env.Distinct) (h0 : (parser cfg n src).run ln0 col0 before (initial req) = .ok s)
    (hn : VarName name) (hp : name.head? ≠ some '+') (hm : name.head? ≠ some '-') (hv : Replaced s.env value v) (hne : v ≠ [])
    (hnl : ∀ l ∈ rest, '\n' ∉ l) (hk : ∀ l ∈ rest, ¬ LineDefines l name)
    (h : (parser cfg n src).run ln col (definitionLine name value :: rest) s = .ok s') :
    Dict.get? s'.env name = some (.str v) := by
  have hready : Ready s.env :=
    run_keeps (P := parser cfg n src) (ready_frame (nested := (parser cfg n src).nested) (nested_ready cfg n)) (fun _ _ h => h) h0 (ready_init hd)
  rw [value_step hn hp hm hv hne] at h
  have := (run_var (P := parser cfg n src) (nested_var name cfg n) hnl hk h (hready.setitem name v)).2
  exact this.trans (setitem_defines s.env name v).1

/-- C71: the visitor, and so every template, works with the variables as the document leaves them: one that no line of the document defines has the value given from
outside, or else the default. -/
theorem C71_visitor {cfg : Config} {fuel : Nat} {env : Env} {v : CliVisitor} {text source rendered : Str} (hd : env.Distinct)
    (h : (mauProcess cfg fuel env v text source).result = .ok rendered) :
    ∃ final output, v.process final output = .ok rendered ∧
      ∀ k, (∀ l ∈ lines text, ¬ LineDefines l k) → Dict.get? final k = (Dict.get? env k).or (builtin k) := by
  obtain ⟨⟨s, h1, h2⟩, _⟩ := C70_success h
  exact ⟨s.env, s.output, h2, fun k hk => C71_untouched hd h1 hk⟩

/-- The variables of a document. -/
def finalVar (x : Except Err DocSt) (k : Str) : Option Val :=
  match x with
  | .ok s => Dict.get? s.env k
  | .error _ => none

/-- A document whose lines do not define `x` but everything around it, and one that defines `x` in a block. -/
example :
    (∀ l ∈ lines c%":y:1\n:xx:2\n:x\\\n{x}:\n", ¬ LineDefines l c%"x") ∧
    finalVar (parseDoc {} 20 c%":y:1\n:xx:2\n{x}\n" [(c%"x", .str c%"0")]) c%"x" = some (.str c%"0") ∧
    finalVar (parseDoc {} 20 c%":y:1\n:xx:2\n{x}\n" [(c%"x", .str c%"0")]) c%"y" = some (.str c%"1") ∧
    finalVar (parseDoc {} 20 c%"++++\n:+x:\n++++\n" [(c%"x", .str c%"0")]) c%"x" = some (.str c%"true") := by
  refine ⟨?_, by decide +kernel, by decide +kernel, by decide +kernel⟩
  intro l hl
  have e : lines c%":y:1\n:xx:2\n:x\\\n{x}:\n" = [c%":y:1", c%":xx:2", c%":x\\", c%"{x}:", c%""] := by decide
  rw [e] at hl
  simp only [List.mem_cons, List.not_mem_nil, or_false] at hl
  rcases hl with rfl | rfl | rfl | rfl | rfl <;> rintro ⟨v, h | h | h⟩ <;> simp at h

end Mau
