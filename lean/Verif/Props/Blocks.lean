import Verif.Spec.Blocks
import Verif.Props.Document

set_option linter.unusedSimpArgs false

/-!
# Properties C41, C42, C48: blocks
-/

namespace Mau
open Spec

theorem argIs_iff {a : NodeArgs} {key v : Str} : truthy (Dict.get? a.named key) = some v ↔ ArgIs a key v := truthy_some

theorem noArg_iff {a : NodeArgs} {key : Str} : truthy (Dict.get? a.named key) = none ↔ NoArg a key := by
  rw [truthy_none]
  constructor
  · intro h v hv; exact h ⟨v, hv⟩
  · rintro h ⟨v, hv⟩; exact h v hv

theorem dict_set_new {α : Type} {d : Dict α} {k : Str} {v : α} (h : Dict.get? d k = none) : Dict.set d k v = d ++ [(k, v)] := by
  induction d with
  | nil => rfl
  | cons kv d ih =>
    obtain ⟨a, b⟩ := kv
    by_cases ha : a = k
    · subst ha; simp [Dict.get?] at h
    · simp only [Dict.get?, ha, ↓reduceIte] at h
      simp only [Dict.set, ha, ↓reduceIte, ih h, List.cons_append]

theorem has_false {α : Type} {d : Dict α} {k : Str} : Dict.has d k = false ↔ Dict.get? d k = none := by
  unfold Dict.has
  cases Dict.get? d k <;> simp

/-- A finished block is placed. -/
theorem placed {s s1 s2 : DocSt} {d : NodeData} {ns : List Node} {a : NodeArgs} {labels : Dict Node} {ctx own : Context}
    (hs : s1 = { s with argsBuf := none, labelBuf := [] }) (h : placeStep s1 d ns a labels ctx own = .ok s2) :
    Placed a s (Node.new d ctx ns a labels) (Node.new d own ns {} labels) s2 := by
  subst hs
  unfold placeStep at h
  have key : ∀ {x : Except Err DocSt}, x = .ok s2 → NoArg a c%"footnote" → NoArg a c%"group" ∨ NoArg a c%"position" →
      x = (do let keep ← Spec.allowed { s with argsBuf := none, labelBuf := [] }; return put { s with argsBuf := none, labelBuf := [] } keep (Node.new d ctx ns a labels)) →
      Placed a s (Node.new d ctx ns a labels) (Node.new d own ns {} labels) s2 := by
    intro x hx h1 h2 he
    rw [hx] at he
    obtain ⟨keep, h5, h6⟩ := bind_ok_except he.symm
    cases h6
    exact .document h1 h2 h5
  split at h
  · rename_i name hf
    split at h
    · cases h
    · rename_i hb
      have hn : Dict.get? s.bodies name = none := has_false.1 (by simpa using hb)
      cases h
      dsimp only
      rw [dict_set_new hn]
      exact .footnote (argIs_iff.1 hf) hn
  · rename_i hf
    have hf := noArg_iff.1 hf
    cases hg : truthy (Dict.get? a.named c%"group") with
    | none =>
      rw [hg] at h
      exact key h hf (.inl (noArg_iff.1 hg)) rfl
    | some g =>
      cases hp : truthy (Dict.get? a.named c%"position") with
      | none =>
        rw [hg, hp] at h
        exact key h hf (.inr (noArg_iff.1 hp)) rfl
      | some p =>
        rw [hg, hp] at h
        obtain ⟨gs, h5, h6⟩ := bind_ok_except h
        cases h6
        unfold addBlock at h5
        dsimp only at h5
        split at h5
        · cases h5
        · rename_i hb
          cases h5
          have hn : Dict.get? ((Dict.get? s.groups g).getD []) p = none := has_false.1 (by simpa using hb)
          refine .group hf (argIs_iff.1 hg) (argIs_iff.1 hp) hn ?_ ?_
          · rw [Dict.get?_set, if_pos rfl, dict_set_new hn]
          · intro g' hg'
            rw [Dict.get?_set, if_neg (Ne.symm hg')]

/-- The arguments of a block, without the classes and the engine. -/
def blockArgs (s : DocSt) : NodeArgs :=
  { args s with named := Dict.erase (Dict.erase (args s).named c%"classes") c%"engine" }

theorem block_success {P : Parser} (hP : Clean P) {ln col : Nat} {ch : Char} {cs rest : List Str} {s s' : DocSt} (hd : Delimits ch cs)
    (h : P.run ln col (blockLines ch cs ++ rest) s = .ok s') :
    ∃ s2, P.blockStep s (contentTok P.src (ln + 1) cs) ((at_ P.src ln col 4).merge (at_ P.src (ln + cs.length + 1) 0 4)) = .ok s2 ∧
      P.run (ln + cs.length + 2) 0 rest s2 = .ok s' := by
  have e : blockLines ch cs ++ rest = [ch, ch, ch, ch] :: (cs ++ [ch, ch, ch, ch] :: rest) := by simp [blockLines]
  rw [e] at h
  exact Reads.success (reads_block hP hd.noComment hd.noSpace hd.inside) h

theorem classes_spec (v : Option Str) : Classes v (classesOf v) := by
  unfold Classes classesOf
  cases v with
  | none => rfl
  | some v =>
    cases v with
    | nil => rfl
    | cons c cs => exact ⟨join_split _ _, fun _ h => sep_not_mem_of_mem_split h⟩

theorem get?_engine (s : DocSt) : Dict.get? (Dict.erase (args s).named c%"classes") c%"engine" = Dict.get? (args s).named c%"engine" := by
  rw [Dict.get?_erase]; rfl

/-! ## C41 — raw blocks -/

theorem rawLines_eq (src : Option Str) (v : Str) (c : Context) (hc : c.startColumn = 0) (hsrc : c.source = src) : ∀ (ls : List Str) (k : Nat),
    ls.mapIdx (fun i l => Node.new (.rawLine l) (blockLineCtx c (k + i) l)) = rawNodes src (c.startLine + k) ls := by
  intro ls
  induction ls with
  | nil => intro k; rfl
  | cons l ls ih =>
    intro k
    rw [List.mapIdx_cons, rawNodes]
    congr 1
    · unfold blockLineCtx at_
      simp only [Nat.add_zero, hc, hsrc]
    · have := ih (k + 1)
      rw [← Nat.add_assoc] at this
      rw [← this]
      congr 1
      funext i l
      congr 2
      omega

theorem splitChar_join {ls : List Str} (hne : ls ≠ []) (h : ∀ l ∈ ls, '\n' ∉ l) : splitChar '\n' (joinWith ['\n'] ls) = ls := by
  induction ls with
  | nil => exact absurd rfl hne
  | cons l ls ih =>
    cases ls with
    | nil => exact splitChar_of_not_mem (h l (by simp))
    | cons m ms =>
      rw [joinWith_cons_of_ne (by simp), List.append_assoc]
      rw [List.singleton_append, splitChar_append_sep (h l (by simp)), ih (by simp) (fun x hx => h x (by simp [hx]))]

/-- No content: no line at all, or just one empty line. -/
def NoContent (cs : List Str) : Prop := cs = [] ∨ cs = [[]]

/-- The content of a block as a token. -/
theorem content_token (src : Option Str) (ln : Nat) (cs : List Str) :
    (NoContent cs → (contentTok src ln cs).filter (fun t => !t.value.isEmpty) = none) ∧
    (¬ NoContent cs → (contentTok src ln cs).filter (fun t => !t.value.isEmpty) =
      some ⟨.TEXT, joinWith ['\n'] cs, ⟨ln, 0, ln + cs.length - 1, (cs.getLastD []).length, src⟩⟩) := by
  constructor
  · rintro (rfl | rfl) <;> rfl
  · intro h
    have h1 : cs ≠ [] := fun e => h (.inl e)
    have hne : joinWith ['\n'] cs ≠ [] := by
      cases cs with
      | nil => exact absurd rfl h1
      | cons l ls =>
        cases ls with
        | nil =>
          intro e
          exact h (.inr (by rw [show l = [] from e]))
        | cons m ms =>
          rw [joinWith_cons_of_ne (by simp)]
          simp
    unfold contentTok
    rw [if_neg h1, Option.filter_some]
    have : (joinWith ['\n'] cs).isEmpty = false := by
      cases hj : joinWith ['\n'] cs with
      | nil => exact absurd hj hne
      | cons _ _ => rfl
    simp [this]

theorem ownPlace_other {engine : Str} {content : Option Token} (h : engine ≠ c%"source") : ownPlace engine content = Context.empty := by
  unfold ownPlace
  split
  · rw [if_neg]; simp [h]
  · rfl

theorem ownPlace_none {engine : Str} {src : Option Str} {ln : Nat} {cs : List Str} (h : NoContent cs) : ownPlace engine (contentTok src ln cs) = Context.empty := by
  rcases h with rfl | rfl
  · rfl
  · unfold ownPlace contentTok
    rw [if_neg (by simp)]
    dsimp only
    rw [if_neg]
    simp [joinWith]

theorem ownPlace_source {src : Option Str} {ln : Nat} {cs : List Str} (h : ¬ NoContent cs) :
    ownPlace c%"source" (contentTok src ln cs) = ⟨ln, 0, ln + cs.length - 1, (cs.getLastD []).length, src⟩ := by
  have h1 := (content_token src ln cs).2 h
  obtain ⟨h2, h3⟩ := Option.filter_eq_some_iff.1 h1
  unfold ownPlace
  rw [h2]
  dsimp only at h3 ⊢
  rw [if_pos]
  simp [h3]

/-- The span of a block of `n` content lines. -/
def blockCtx (src : Option Str) (ln col n : Nat) : Context := (at_ src ln col 4).merge (at_ src (ln + n + 1) 0 4)

/-- C41: a raw block, read successfully: it has one raw line per line of the content, in order, with the same text and the position
of this line (a content of just one empty line counts as no content). -/
theorem C41_raw {P : Parser} (hP : Clean P) {ln col : Nat} {ch : Char} {cs rest : List Str} {s s' : DocSt} (hd : Delimits ch cs)
    (hnl : ∀ l ∈ cs, '\n' ∉ l) (he : Dict.get? (args s).named c%"engine" = some c%"raw") (h : P.run ln col (blockLines ch cs ++ rest) s = .ok s') :
    ∃ s2 classes, Classes (Dict.get? (args s).named c%"classes") classes ∧ P.run (ln + cs.length + 2) 0 rest s2 = .ok s' ∧
      Placed (blockArgs s) s
        (Node.new (.raw classes) (blockCtx P.src ln col cs.length) (rawNodes P.src (ln + 1) (if cs = [[]] then [] else cs)) (blockArgs s) s.labelBuf)
        (Node.new (.raw classes) Context.empty (rawNodes P.src (ln + 1) (if cs = [[]] then [] else cs)) {} s.labelBuf) s2 := by
  obtain ⟨s2, h1, h2⟩ := block_success hP hd h
  refine ⟨s2, classesOf (Dict.get? (args s).named c%"classes"), classes_spec _, h2, ?_⟩
  unfold Parser.blockStep at h1
  dsimp only at h1
  rw [get?_engine, he, Option.getD_some] at h1
  obtain ⟨r, h3, h4⟩ := bind_ok_except h1
  have key : r = ((.raw (classesOf (Dict.get? (args s).named c%"classes")), rawNodes P.src (ln + 1) (if cs = [[]] then [] else cs), blockArgs s), { s with argsBuf := none }) := by
    unfold Parser.engineStep at h3
    obtain ⟨c1, c2⟩ := content_token P.src (ln + 1) cs
    rw [if_neg (by decide), if_pos rfl] at h3
    by_cases hcs : NoContent cs
    · rw [c1 hcs] at h3
      cases h3
      rcases hcs with rfl | rfl <;> rfl
    · rw [c2 hcs] at h3
      cases h3
      have := rawLines_eq P.src (joinWith ['\n'] cs) ⟨ln + 1, 0, ln + 1 + cs.length - 1, (cs.getLastD []).length, P.src⟩ rfl rfl cs 0
      unfold rawLines
      dsimp only
      rw [splitChar_join (fun e => hcs (.inl e)) hnl, if_neg (fun e => hcs (.inr e))]
      simp only [Nat.zero_add, Nat.add_zero] at this
      rw [this]
      rfl
  rw [key, ownPlace_other (by decide)] at h4
  exact placed rfl h4

/-- C41: the texts of the raw lines are the lines. -/
theorem C41_lines (src : Option Str) (cs : List Str) : ∀ ln, (rawNodes src ln cs).map rawText = cs := by
  induction cs with
  | nil => intro ln; rfl
  | cons l ls ih => intro ln; rw [rawNodes, List.map_cons, ih]; rfl

/-- C41: joining the raw lines gives the content back. -/
theorem C41_join (src : Option Str) (cs : List Str) (ln : Nat) :
    joinWith ['\n'] ((rawNodes src ln (if cs = [[]] then [] else cs)).map rawText) = joinWith ['\n'] cs := by
  rw [C41_lines]
  split
  · rename_i h; rw [h]; rfl
  · rfl

/-! ## C42 — source blocks -/

theorem splitStrAux_char (d : Char) : ∀ (n : Nat) (s cur : Str), s.length ≤ n →
    splitStrAux [d] n cur s = match splitChar d s with | [] => [] | l :: ls => (cur.reverse ++ l) :: ls := by
  intro n
  induction n with
  | zero =>
    intro s cur h
    cases s with
    | nil => simp [splitStrAux, splitChar]
    | cons c s => simp at h
  | succ n ih =>
    intro s cur h
    cases s with
    | nil => simp [splitStrAux, splitChar]
    | cons c s =>
      rw [splitStrAux]
      by_cases hc : c = d
      · subst hc
        have : ([c] : Str).isPrefixOf (c :: s) = true := by simp [List.isPrefixOf]
        rw [if_pos this, splitChar_sep]
        dsimp only
        rw [show (c :: s).drop ([c] : Str).length = s from rfl, ih s [] (by simpa using h)]
        cases hs : splitChar c s with
        | nil => exact absurd hs (splitChar_ne_nil _ _)
        | cons l ls => simp
      · have : ¬ ([d] : Str).isPrefixOf (c :: s) = true := by simp [List.isPrefixOf]; exact fun e => hc e.symm
        rw [if_neg this, ih s (c :: cur) (by simpa using h)]
        obtain ⟨l, ls, e1, e2⟩ := splitChar_cons_ne hc s
        rw [e1, e2]
        simp

theorem splitStr_char (d : Char) (s : Str) : splitStr [d] s = splitChar d s := by
  unfold splitStr
  rw [splitStrAux_char d _ s [] (by omega)]
  cases hs : splitChar d s with
  | nil => exact absurd hs (splitChar_ne_nil _ _)
  | cons l ls => simp

theorem splitChar_append (d : Char) (a b : Str) : splitChar d (a ++ d :: b) = splitChar d a ++ splitChar d b := by
  induction a with
  | nil => rw [List.nil_append, splitChar_sep]; rfl
  | cons c a ih =>
    by_cases hc : c = d
    · subst hc
      rw [List.cons_append, splitChar_sep, splitChar_sep, ih]; rfl
    · obtain ⟨l, ls, e1, e2⟩ := splitChar_cons_ne hc a
      obtain ⟨l', ls', e3, e4⟩ := splitChar_cons_ne hc (a ++ d :: b)
      rw [List.cons_append, e4, e2]
      rw [ih, e1] at e3
      cases e3
      rfl

/-- Cut at the last occurrence of a character. -/
theorem last_cut (d : Char) (s : Str) : d ∉ s ∨ ∃ a b, s = a ++ d :: b ∧ d ∉ b := by
  induction s with
  | nil => exact .inl (by simp)
  | cons c s ih =>
    rcases ih with h | ⟨a, b, rfl, hb⟩
    · by_cases hc : c = d
      · subst hc; exact .inr ⟨[], s, rfl, h⟩
      · exact .inl (by simp [Ne.symm hc, h])
    · exact .inr ⟨c :: a, b, rfl, hb⟩

theorem styleAlias_ok {al : List (Str × Nested)} {st r : Str} (h : styleAlias al st = .ok r) : r = (aliasOf al st).getD st := by
  unfold styleAlias at h
  unfold aliasOf
  split at h
  · rename_i e; rw [e]; cases h; rfl
  · rename_i v e; rw [e]; cases h; rfl
  · cases h

/-- C42: the meaning of one line, for delimiters and prefixes of one character. -/
theorem C42_line {d p : Char} {dflt : Str} {al : List (Str × Nested)} {line : Str} {r : SrcLine}
    (h : sourceLine ⟨[d], [p], dflt, al⟩ line = .ok r) : CodeOf d p dflt (aliasOf al) line ⟨r.content, r.marker, r.highlight⟩ := by
  unfold sourceLine at h
  dsimp only at h
  have hends : endsWith line [d] = true ↔ line.getLast? = some d := by
    unfold endsWith
    rw [List.isSuffixOf_iff_suffix]
    constructor
    · rintro ⟨t, rfl⟩; simp
    · intro hl
      rw [List.getLast?_eq_some_iff] at hl
      obtain ⟨t, rfl⟩ := hl
      exact ⟨t, rfl⟩
  split at h
  · rename_i hn
    cases h
    refine .plain (fun e => ?_)
    rw [hends.2 e] at hn
    cases hn
  · rename_i hn
    have hl : line.getLast? = some d := hends.1 (by simpa using hn)
    obtain ⟨body, rfl⟩ := List.getLast?_eq_some_iff.1 hl
    rw [if_neg (by simp), List.dropLast_concat, splitStr_char] at h
    rcases last_cut d body with hb | ⟨code, label, rfl, hb⟩
    · rw [splitChar_of_not_mem hb] at h
      rw [List.getLast?_singleton] at h
      dsimp only at h
      rw [if_pos (show ([body] : List Str).length < 2 by simp)] at h
      cases h
      exact .single hb
    · rw [splitChar_append, splitChar_of_not_mem hb] at h
      have hlen : ¬ (splitChar d code ++ [label]).length < 2 := by
        have := List.length_pos_iff.2 (splitChar_ne_nil d code)
        simp only [List.length_append, List.length_singleton]; omega
      rw [List.getLast?_concat] at h
      dsimp only at h
      rw [if_neg hlen, List.dropLast_concat, join_split] at h
      have hstart : startsWith label [p] = true ↔ label.head? = some p := by
        unfold startsWith
        cases label with
        | nil => simp
        | cons c l => simp [List.isPrefixOf]; exact ⟨fun e => e.symm, fun e => e.symm⟩
      split at h
      · rename_i hs
        have hh := hstart.1 hs
        cases label with
        | nil => cases hh
        | cons c st =>
          simp at hh
          subst hh
          rw [List.drop_one, List.tail_cons] at h
          cases st with
          | nil =>
            dsimp only at h
            cases ha : styleAlias al dflt with
            | error e => rw [ha] at h; cases h
            | ok v =>
              rw [ha] at h
              cases h
              rw [styleAlias_ok ha]
              have : code ++ d :: [c] ++ [d] = code ++ [d, c, d] := by simp
              rw [this]
              exact .default (by simpa using hb)
          | cons e st =>
            dsimp only at h
            cases ha : styleAlias al (e :: st) with
            | error e => rw [ha] at h; cases h
            | ok v =>
              rw [ha] at h
              cases h
              rw [styleAlias_ok ha]
              exact .style hb (by simp)
      · rename_i hs
        split at h
        · rename_i he
          have : label = [] := by simpa using he
          subst this
          cases h
          have : code ++ d :: [] ++ [d] = code ++ [d, d] := by simp
          rw [this]
          exact .empty
        · rename_i he
          cases h
          exact .marker hb (by simpa using he) (fun e => hs (hstart.2 e))

theorem sourceLines_code {d p : Char} {dflt : Str} {al : List (Str × Nested)} {c : Context} : ∀ {ls : List Str} {i : Nat} {ns : List Node},
    sourceLines ⟨[d], [p], dflt, al⟩ c i ls = .ok ns → CodeNodes d p dflt (aliasOf al) (i + 1) ls ns := by
  intro ls
  induction ls with
  | nil => intro i ns h; cases h; exact .nil
  | cons l ls ih =>
    intro i ns h
    rw [sourceLines] at h
    obtain ⟨r, h1, h2⟩ := bind_ok_except h
    obtain ⟨rest, h3, h4⟩ := bind_ok_except h2
    cases h4
    have hc := C42_line h1
    have hr := ih h3
    unfold sourceLineNode
    split
    · rename_i hm
      exact .plain (r := ⟨r.content, r.marker, r.highlight⟩) hc hm hr
    · rename_i m hm
      exact .marked (r := ⟨r.content, r.marker, r.highlight⟩) hc hm hr

theorem splitStrAux_spec {sep : Str} (hsep : sep ≠ []) (n : Nat) : ∀ (cur s : Str), s.length ≤ n →
    ∃ p ps, splitStrAux sep n cur s = (cur.reverse ++ p) :: ps ∧ s = joinWith sep (p :: ps) ∧
      ∀ q ∈ p :: ps, ¬ sep <:+:  q := by
  have hnil : ¬ sep <:+:  [] := by
    rintro ⟨a, b, h⟩
    simp at h
    exact hsep h.2.1
  induction n with
  | zero =>
    intro cur s hs
    have : s = [] := by cases s <;> simp_all
    subst this
    exact ⟨[], [], by simp [splitStrAux], by simp [joinWith], by simpa using hnil⟩
  | succ n ih =>
    intro cur s hs
    cases s with
    | nil => exact ⟨[], [], by simp [splitStrAux], by simp [joinWith], by simpa using hnil⟩
    | cons c s =>
      unfold splitStrAux
      cases hp : (sep).isPrefixOf (c :: s) with
      | true =>
        obtain ⟨r, hr⟩ := List.isPrefixOf_iff_prefix.1 hp
        have hrl : r.length ≤ n := by
          have := congrArg List.length hr
          have hp' := List.length_pos_iff.2 hsep
          simp at this hs
          omega
        obtain ⟨p, ps, h1, h2, h3⟩ := ih [] r hrl
        have hd : (c :: s).drop sep.length = r := by rw [← hr]; simp
        refine ⟨[], p :: ps, ?_, ?_, ?_⟩
        · simp only [if_true]
          simp only [hd, h1]
          simp
        · rw [← hr, h2]
          simp [joinWith]
        · intro q hq
          rcases List.mem_cons.1 hq with rfl | hq
          · exact hnil
          · exact h3 q hq
      | false =>
        obtain ⟨p, ps, h1, h2, h3⟩ := ih (c :: cur) s (by simpa using hs)
        refine ⟨c :: p, ps, ?_, ?_, ?_⟩
        · simp only [Bool.false_eq_true, if_false]
          rw [h1]
          simp
        · rw [h2]
          cases ps <;> simp [joinWith]
        · intro q hq
          rcases List.mem_cons.1 hq with rfl | hq
          · rintro ⟨a, b, hab⟩
            cases a with
            | cons a0 a =>
              simp only [List.cons_append, List.cons.injEq] at hab
              exact h3 p (by simp) ⟨a, b, hab.2⟩
            | nil =>
              have : (sep).isPrefixOf (c :: s) = true := by
                rw [List.isPrefixOf_iff_prefix]
                refine ⟨b ++ (s.drop p.length), ?_⟩
                have hs' : s = p ++ s.drop p.length := by
                  conv => lhs; rw [← List.take_append_drop p.length s]
                  congr 1
                  rw [h2]
                  cases ps <;> simp [joinWith]
                have : c :: s = (c :: p) ++ s.drop p.length := by
                  rw [List.cons_append, ← hs']
                rw [this, ← hab]
                simp
              rw [hp] at this
              cases this
          · exact h3 q (by simp [hq])

theorem joinWith_concat (sep : Str) (m : Str) : ∀ (p : Str) (qs : List Str), joinWith sep ((p :: qs) ++ [m]) = joinWith sep (p :: qs) ++ sep ++ m
  | p, [] => by simp [joinWith]
  | p, q :: qs => by
    have := joinWith_concat sep m q qs
    simp only [List.cons_append] at this ⊢
    rw [joinWith, this]
    · simp [joinWith]
    · simp

/-- C42: the meaning of one line, for every delimiter and prefix. An accepted line means one of the cases of `CutOf`. -/
theorem C42_line_any {del pre dflt : Str} {al : List (Str × Nested)} {line : Str} {r : SrcLine}
    (h : sourceLine ⟨del, pre, dflt, al⟩ line = .ok r) : CutOf del pre dflt (aliasOf al) line ⟨r.content, r.marker, r.highlight⟩ := by
  unfold sourceLine at h
  dsimp only at h
  split at h
  · rename_i hn
    cases h
    refine .plain (fun e => ?_)
    rw [endsWith, List.isSuffixOf_iff_suffix.2 e] at hn
    cases hn
  · rename_i hn
    have hs : del <:+ line := List.isSuffixOf_iff_suffix.1 (by simpa [endsWith] using hn)
    split at h
    · cases h
    · rename_i hne
      have hdel : del ≠ [] := fun e => hne (by rw [e]; rfl)
      have hl : line ≠ [] := by
        rintro rfl
        exact hdel (List.suffix_nil.1 hs)
      obtain ⟨c, hc⟩ : ∃ c, line = line.dropLast ++ [c] := ⟨_, (List.dropLast_concat_getLast hl).symm⟩
      obtain ⟨p, ps, e1, e2, e3⟩ := splitStrAux_spec hdel (line.dropLast.length + 1) [] line.dropLast (by omega)
      generalize line.dropLast = body at *
      subst hc
      have e1 : splitStr del body = p :: ps := by simpa [splitStr] using e1
      rw [e1] at h
      rcases List.eq_nil_or_concat ps with rfl | ⟨qs, mark, rfl⟩
      · rw [List.getLast?_singleton] at h
        dsimp only at h
        rw [if_pos (by simp)] at h
        cases h
        refine .single hs ?_
        rw [e2]
        exact e3 p (by simp)
      · rw [List.concat_eq_append] at h e2 e3
        rw [← List.cons_append, List.getLast?_concat, List.dropLast_concat] at h
        dsimp only at h
        rw [if_neg (by simp)] at h
        have hb : body = joinWith del (p :: qs) ++ del ++ mark := by
          rw [e2, ← List.cons_append, joinWith_concat]
        have hm : ¬ del <:+: mark := e3 mark (by simp)
        generalize joinWith del (p :: qs) = code at *
        subst hb
        split at h
        · rename_i hp
          have hp : pre <+: mark := List.isPrefixOf_iff_prefix.1 (by simpa [startsWith] using hp)
          cases mark with
          | nil =>
            cases ha : styleAlias al dflt with
            | error e => simp only [List.drop_nil, ha] at h; cases h
            | ok v =>
              simp only [List.drop_nil, ha] at h
              cases h
              rw [styleAlias_ok ha]
              exact .default hs hm hp (by simp)
          | cons x st =>
            rw [List.drop_one, List.tail_cons] at h
            cases st with
            | nil =>
              dsimp only at h
              cases ha : styleAlias al dflt with
              | error e => rw [ha] at h; cases h
              | ok v =>
                rw [ha] at h
                cases h
                rw [styleAlias_ok ha]
                exact .default hs hm hp (by simp)
            | cons e st =>
              dsimp only at h
              cases ha : styleAlias al (e :: st) with
              | error e => rw [ha] at h; cases h
              | ok v =>
                rw [ha] at h
                cases h
                rw [styleAlias_ok ha]
                exact .style hs hm hp (by simp)
        · rename_i hp
          have hp : ¬ pre <+: mark := fun e => hp (by simpa [startsWith] using e)
          split at h
          · rename_i he
            have : mark = [] := by simpa using he
            subst this
            cases h
            rw [List.append_nil] at hs ⊢
            exact .empty hs (fun e => hp (by rw [e]; exact List.nil_prefix))
          · rename_i he
            cases h
            exact .marker hs hm (by simpa using he) hp

/-- C42: every line is accepted, if the delimiter is not empty and the aliases of the styles are texts. -/
theorem C42_line_total {del pre dflt : Str} {al : List (Str × Nested)} (hdel : del ≠ []) (hal : ∀ kv ∈ al, ∃ v, kv.2 = .leaf (.str v)) (line : Str) :
    ∃ r, sourceLine ⟨del, pre, dflt, al⟩ line = .ok r := by
  have hs : ∀ st, ∃ v, styleAlias al st = .ok v := by
    intro st
    unfold styleAlias
    cases hg : Dict.get? al st with
    | none => exact ⟨_, rfl⟩
    | some x =>
      obtain ⟨v, hv⟩ := hal _ (Dict.mem_of_get? hg)
      dsimp only at hv
      subst hv
      exact ⟨_, rfl⟩
  unfold sourceLine
  dsimp only
  split
  · exact ⟨_, rfl⟩
  · rw [if_neg (by simpa using hdel)]
    split
    · exact ⟨_, rfl⟩
    · split
      · exact ⟨_, rfl⟩
      · split
        · split
          · rename_i e he
            exact absurd he (by obtain ⟨v, hv⟩ := hs _; rw [hv]; exact fun h => nomatch h)
          · exact ⟨_, rfl⟩
        · split <;> exact ⟨_, rfl⟩

theorem sourceLines_cut {del pre dflt : Str} {al : List (Str × Nested)} {c : Context} : ∀ {ls : List Str} {i : Nat} {ns : List Node},
    sourceLines ⟨del, pre, dflt, al⟩ c i ls = .ok ns → CodeRows (CutOf del pre dflt (aliasOf al)) (i + 1) ls ns := by
  intro ls
  induction ls with
  | nil => intro i ns h; cases h; exact .nil
  | cons l ls ih =>
    intro i ns h
    rw [sourceLines] at h
    obtain ⟨r, h1, h2⟩ := bind_ok_except h
    obtain ⟨rest, h3, h4⟩ := bind_ok_except h2
    cases h4
    have hc := C42_line_any h1
    have hr := ih h3
    unfold sourceLineNode
    split
    · rename_i hm
      exact .plain (r := ⟨r.content, r.marker, r.highlight⟩) hc hm hr
    · rename_i m hm
      exact .marked (r := ⟨r.content, r.marker, r.highlight⟩) hc hm hr

theorem setNames_language (a : NodeArgs) :
    ∃ left v, Language a v left ∧ (a.setNames [c%"language"]).unnamed = left ∧
      (Dict.get? (a.setNames [c%"language"]).named c%"language").getD c%"text" = v ∧
      (∀ k, k ≠ c%"language" → Dict.get? (a.setNames [c%"language"]).named k = Dict.get? a.named k) ∧
      (a.setNames [c%"language"]).tags = a.tags ∧ (a.setNames [c%"language"]).subtype = a.subtype := by
  cases hl : Dict.get? a.named c%"language" with
  | some v =>
    have hf : ([c%"language"] : List Str).filter (fun n => !Dict.has a.named n) = [] := by
      simp [Dict.has, hl]
    refine ⟨a.unnamed, v, .named hl, ?_⟩
    unfold NodeArgs.setNames Mau.setNames
    simp only [hf, List.length_nil, List.drop_zero, List.zip_nil_left]
    refine ⟨by first | rfl | trivial, ?_, fun k _ => rfl, trivial, trivial⟩
    show (Dict.get? a.named c%"language").getD _ = v
    rw [hl]; rfl
  | none =>
    have hf : ([c%"language"] : List Str).filter (fun n => !Dict.has a.named n) = [c%"language"] := by
      simp [Dict.has, hl]
    cases hu : a.unnamed with
    | nil =>
      refine ⟨[], c%"text", .default hl hu, ?_⟩
      unfold NodeArgs.setNames Mau.setNames
      simp only [hf, hu, List.drop_nil, List.zip_nil_right]
      refine ⟨by first | rfl | trivial, ?_, fun k _ => rfl, trivial, trivial⟩
      show (Dict.get? a.named c%"language").getD _ = _
      rw [hl]; rfl
    | cons v vs =>
      refine ⟨vs, v, .first hl hu, ?_⟩
      unfold NodeArgs.setNames Mau.setNames
      simp only [hf, hu]
      refine ⟨by first | rfl | trivial, ?_, ?_, trivial, trivial⟩
      · show (Dict.get? (Dict.set a.named c%"language" v) c%"language").getD _ = v
        rw [Dict.get?_set, if_pos rfl]; rfl
      · intro k hk
        show Dict.get? (Dict.set a.named c%"language" v) k = _
        rw [Dict.get?_set, if_neg (Ne.symm hk)]

theorem sourceEngine_any {env : Env} {t : Token} {a0 : NodeArgs} {q : Option Str × List Node × NodeArgs} (h : sourceEngine env t a0 = .ok q) :
    ∃ dict lang left, StyleAliases env (aliasOf dict) ∧ Language a0 lang left ∧ q.1 = some lang ∧
      LeftOver a0 left [c%"marker_delimiter", c%"highlight_marker", c%"highlight_default_style", c%"language"] q.2.2 ∧
      sourceLines ⟨(Dict.get? a0.named c%"marker_delimiter").getD c%":", (Dict.get? a0.named c%"highlight_marker").getD c%"@",
        (Dict.get? a0.named c%"highlight_default_style").getD c%"default", dict⟩ t.ctx 0 (splitChar '\n' t.value) = .ok q.2.1 := by
  unfold sourceEngine at h
  simp only [NodeArgs.pop] at h
  generalize ha : ({ a0 with named := Dict.erase (Dict.erase (Dict.erase a0.named c%"marker_delimiter") c%"highlight_marker") c%"highlight_default_style" } : NodeArgs) = a1 at h
  have hg : ∀ k, Dict.get? a1.named k = if k ∈ [c%"marker_delimiter", c%"highlight_marker", c%"highlight_default_style"] then none else Dict.get? a0.named k := by
    intro k
    rw [← ha]
    simp only [Dict.get?_erase, List.mem_cons, List.not_mem_nil, or_false]
    by_cases h1 : k = c%"marker_delimiter"
    · subst h1; simp
    · by_cases h2 : k = c%"highlight_marker"
      · subst h2; simp
      · by_cases h3 : k = c%"highlight_default_style"
        · subst h3; simp
        · rw [if_neg (Ne.symm h3), if_neg (Ne.symm h2), if_neg (Ne.symm h1), if_neg (by rintro (e | e | e) <;> contradiction)]
  have hu : a1.unnamed = a0.unnamed := by rw [← ha]
  have ht : a1.tags = a0.tags := by rw [← ha]
  have hsb : a1.subtype = a0.subtype := by rw [← ha]
  obtain ⟨left, lang, hl, l1, l2, l3, l4, l5⟩ := setNames_language a1
  have hlang : Language a0 lang left := by
    have e := hg c%"language"
    rw [if_neg (by decide)] at e
    cases hl with
    | named h => rw [hu]; exact .named (e ▸ h)
    | first h h' => exact .first (e ▸ h) (hu ▸ h')
    | default h h' => exact .default (e ▸ h) (hu ▸ h')
  have key : ∀ dict, StyleAliases env (aliasOf dict) →
      ((do
        let ls ← sourceLines ⟨(Dict.get? a0.named c%"marker_delimiter").getD c%":", (Dict.get? (Dict.erase a0.named c%"marker_delimiter") c%"highlight_marker").getD c%"@",
            (Dict.get? (Dict.erase (Dict.erase a0.named c%"marker_delimiter") c%"highlight_marker") c%"highlight_default_style").getD c%"default", dict⟩ t.ctx 0 (splitChar '\n' t.value)
        return (some ((Dict.get? (a1.setNames [c%"language"]).named c%"language").getD c%"text"), ls,
          { a1.setNames [c%"language"] with named := Dict.erase (a1.setNames [c%"language"]).named c%"language" }) : Except Err (Option Str × List Node × NodeArgs)) = .ok q) →
      ∃ dict lang left, StyleAliases env (aliasOf dict) ∧ Language a0 lang left ∧ q.1 = some lang ∧
        LeftOver a0 left [c%"marker_delimiter", c%"highlight_marker", c%"highlight_default_style", c%"language"] q.2.2 ∧
        sourceLines ⟨(Dict.get? a0.named c%"marker_delimiter").getD c%":", (Dict.get? a0.named c%"highlight_marker").getD c%"@",
        (Dict.get? a0.named c%"highlight_default_style").getD c%"default", dict⟩ t.ctx 0 (splitChar '\n' t.value) = .ok q.2.1 := by
    intro dict hal hq
    obtain ⟨ls, h1, h2⟩ := bind_ok_except hq
    cases h2
    refine ⟨dict, lang, left, hal, hlang, by rw [← l2], ⟨l1, ?_, by rw [← ht]; exact l4, by rw [← hsb]; exact l5⟩, ?_⟩
    · intro k
      dsimp only
      rw [Dict.get?_erase]
      by_cases hk : k = c%"language"
      · subst hk; rw [if_pos rfl, if_pos (by decide)]
      · rw [if_neg (Ne.symm hk), l3 k hk, hg k]
        have : (k ∈ [c%"marker_delimiter", c%"highlight_marker", c%"highlight_default_style"]) =
            (k ∈ [c%"marker_delimiter", c%"highlight_marker", c%"highlight_default_style", c%"language"]) := by
          simp only [List.mem_cons, List.not_mem_nil, or_false, hk]
        simp only [this]
    · rw [Dict.get?_erase, if_neg (by decide), Dict.get?_erase, if_neg (by decide), Dict.get?_erase, if_neg (by decide)] at h1
      exact h1
  split at h
  · rename_i hn
    exact key [] (by rw [show aliasOf [] = fun _ => none by funext x; rfl]; exact .none hn) h
  · rename_i e hn
    obtain ⟨dict, h1, h2⟩ := bind_ok_except h
    exact key dict (.some hn h1) h2
  · cases h

theorem source_read {P : Parser} (hP : Clean P) {ln col : Nat} {ch : Char} {cs rest : List Str} {s s' : DocSt} (hd : Delimits ch cs)
    (hnl : ∀ l ∈ cs, '\n' ∉ l) (hcs : ¬ NoContent cs) (he : Dict.get? (args s).named c%"engine" = some c%"source")
    (h : P.run ln col (blockLines ch cs ++ rest) s = .ok s') :
    ∃ s2 classes dict lang left a ns, Classes (Dict.get? (args s).named c%"classes") classes ∧ P.run (ln + cs.length + 2) 0 rest s2 = .ok s' ∧
      StyleAliases s.env (aliasOf dict) ∧ Language (args s) lang left ∧ LeftOver (args s) left sourceKeys a ∧
      (∃ c, sourceLines ⟨(Dict.get? (args s).named c%"marker_delimiter").getD c%":", (Dict.get? (args s).named c%"highlight_marker").getD c%"@",
        (Dict.get? (args s).named c%"highlight_default_style").getD c%"default", dict⟩ c 0 cs = .ok ns) ∧
      Placed a s (Node.new (.source (some lang) classes) (blockCtx P.src ln col cs.length) ns a s.labelBuf)
        (Node.new (.source (some lang) classes) ⟨ln + 1, 0, ln + cs.length, (cs.getLastD []).length, P.src⟩ ns {} s.labelBuf) s2 := by
  obtain ⟨s2, h1, h2⟩ := block_success hP hd h
  unfold Parser.blockStep at h1
  dsimp only at h1
  rw [get?_engine, he, Option.getD_some] at h1
  obtain ⟨r, h3, h4⟩ := bind_ok_except h1
  unfold Parser.engineStep at h3
  rw [if_neg (by decide), if_neg (by decide), if_pos rfl, (content_token P.src (ln + 1) cs).2 hcs] at h3
  dsimp only at h3
  obtain ⟨q, h5, h6⟩ := bind_ok_except h3
  have e6 : r = ((.source q.1 (classesOf (Dict.get? (args s).named c%"classes")), q.2.1, q.2.2), { s with argsBuf := none }) := by
    cases h6; rfl
  subst e6
  have g1 : ∀ k, k ≠ c%"classes" → k ≠ c%"engine" →
      Dict.get? (Dict.erase (Dict.erase (args s).named c%"classes") c%"engine") k = Dict.get? (args s).named k := by
    intro k h1 h2
    rw [Dict.get?_erase, if_neg (Ne.symm h2), Dict.get?_erase, if_neg (Ne.symm h1)]
  obtain ⟨al, lang, left, q1, q2, q3, q4, q5⟩ := sourceEngine_any h5
  dsimp only at q2 q4 q5
  rw [g1 _ (by decide) (by decide), g1 _ (by decide) (by decide), g1 _ (by decide) (by decide), splitChar_join (fun e => hcs (.inl e)) hnl] at q5
  have hlang : Language (args s) lang left := by
    cases q2 with
    | named h => exact .named (by rw [← g1 _ (by decide) (by decide)]; exact h)
    | first h h' => exact .first (by rw [← g1 _ (by decide) (by decide)]; exact h) h'
    | default h h' => exact .default (by rw [← g1 _ (by decide) (by decide)]; exact h) h'
  refine ⟨s2, classesOf (Dict.get? (args s).named c%"classes"), al, lang, left, q.2.2, q.2.1, classes_spec _, h2, q1, hlang, ⟨q4.unnamed, ?_, q4.tags, q4.subtype⟩, ⟨_, q5⟩, ?_⟩
  · intro k
    rw [q4.named k]
    dsimp only
    by_cases hc : k = c%"classes"
    · subst hc; rw [if_neg (by decide), if_pos (by decide)]
      rw [Dict.get?_erase, if_neg (by decide), Dict.get?_erase, if_pos rfl]
    · by_cases hen : k = c%"engine"
      · subst hen; rw [if_neg (by decide), if_pos (by decide)]
        rw [Dict.get?_erase, if_pos rfl]
      · rw [g1 k hc hen]
        have : (k ∈ [c%"marker_delimiter", c%"highlight_marker", c%"highlight_default_style", c%"language"]) = (k ∈ sourceKeys) := by
          simp only [sourceKeys, List.mem_cons, List.not_mem_nil, or_false, hc, hen, false_or]
        simp only [this]
  · rw [q3, ownPlace_source hcs, show ln + 1 + cs.length - 1 = ln + cs.length by omega] at h4
    exact placed rfl h4

/-- C42: a source block with content, read successfully, whose marker delimiter and highlight prefix are one character: it has one
code line per line of the content, numbered from 1, and each is what `CodeOf` says. -/
theorem C42_source_partial {P : Parser} (hP : Clean P) {ln col : Nat} {ch : Char} {cs rest : List Str} {s s' : DocSt} (hd : Delimits ch cs)
    (hnl : ∀ l ∈ cs, '\n' ∉ l) (hcs : ¬ NoContent cs) (he : Dict.get? (args s).named c%"engine" = some c%"source") {d p : Char}
    (hdel : (Dict.get? (args s).named c%"marker_delimiter").getD c%":" = [d]) (hpre : (Dict.get? (args s).named c%"highlight_marker").getD c%"@" = [p])
    (h : P.run ln col (blockLines ch cs ++ rest) s = .ok s') :
    ∃ s2 classes al lang left a ns, Classes (Dict.get? (args s).named c%"classes") classes ∧ P.run (ln + cs.length + 2) 0 rest s2 = .ok s' ∧
      StyleAliases s.env al ∧ Language (args s) lang left ∧ LeftOver (args s) left sourceKeys a ∧
      CodeNodes d p ((Dict.get? (args s).named c%"highlight_default_style").getD c%"default") al 1 cs ns ∧
      Placed a s (Node.new (.source (some lang) classes) (blockCtx P.src ln col cs.length) ns a s.labelBuf)
        (Node.new (.source (some lang) classes) ⟨ln + 1, 0, ln + cs.length, (cs.getLastD []).length, P.src⟩ ns {} s.labelBuf) s2 := by
  obtain ⟨s2, classes, dict, lang, left, a, ns, h1, h2, h3, h4, h5, ⟨c, h6⟩, h7⟩ := source_read hP hd hnl hcs he h
  rw [hdel, hpre] at h6
  exact ⟨s2, classes, _, lang, left, a, ns, h1, h2, h3, h4, h5, sourceLines_code h6, h7⟩

/-- C42: a source block with content, read successfully, whatever the marker delimiter and the highlight prefix are: it has one code line per line of the content,
numbered from 1; lines that do not end with the delimiter are unchanged, and the others are cut as `CutOf` says. (For delimiters and prefixes of more than one
character the marker is not the label of the line, see `C42_long_delimiter` and `C42_long_prefix`.) -/
theorem C42_any_partial {P : Parser} (hP : Clean P) {ln col : Nat} {ch : Char} {cs rest : List Str} {s s' : DocSt} (hd : Delimits ch cs)
    (hnl : ∀ l ∈ cs, '\n' ∉ l) (hcs : ¬ NoContent cs) (he : Dict.get? (args s).named c%"engine" = some c%"source")
    (h : P.run ln col (blockLines ch cs ++ rest) s = .ok s') :
    ∃ s2 classes al lang left a ns, Classes (Dict.get? (args s).named c%"classes") classes ∧ P.run (ln + cs.length + 2) 0 rest s2 = .ok s' ∧
      StyleAliases s.env al ∧ Language (args s) lang left ∧ LeftOver (args s) left sourceKeys a ∧
      CodeRows (CutOf ((Dict.get? (args s).named c%"marker_delimiter").getD c%":") ((Dict.get? (args s).named c%"highlight_marker").getD c%"@")
        ((Dict.get? (args s).named c%"highlight_default_style").getD c%"default") al) 1 cs ns ∧
      Placed a s (Node.new (.source (some lang) classes) (blockCtx P.src ln col cs.length) ns a s.labelBuf)
        (Node.new (.source (some lang) classes) ⟨ln + 1, 0, ln + cs.length, (cs.getLastD []).length, P.src⟩ ns {} s.labelBuf) s2 := by
  obtain ⟨s2, classes, dict, lang, left, a, ns, h1, h2, h3, h4, h5, ⟨c, h6⟩, h7⟩ := source_read hP hd hnl hcs he h
  exact ⟨s2, classes, _, lang, left, a, ns, h1, h2, h3, h4, h5, sourceLines_cut h6, h7⟩

/-- C42: without content there are no code lines. -/
theorem C42_empty {P : Parser} (hP : Clean P) {ln col : Nat} {ch : Char} {cs rest : List Str} {s s' : DocSt} (hd : Delimits ch cs)
    (hcs : NoContent cs) (he : Dict.get? (args s).named c%"engine" = some c%"source") (h : P.run ln col (blockLines ch cs ++ rest) s = .ok s') :
    ∃ s2 classes, Classes (Dict.get? (args s).named c%"classes") classes ∧ P.run (ln + cs.length + 2) 0 rest s2 = .ok s' ∧
      Placed (blockArgs s) s (Node.new (.source none classes) (blockCtx P.src ln col cs.length) [] (blockArgs s) s.labelBuf)
        (Node.new (.source none classes) Context.empty [] {} s.labelBuf) s2 := by
  obtain ⟨s2, h1, h2⟩ := block_success hP hd h
  refine ⟨s2, classesOf (Dict.get? (args s).named c%"classes"), classes_spec _, h2, ?_⟩
  unfold Parser.blockStep at h1
  dsimp only at h1
  rw [get?_engine, he, Option.getD_some] at h1
  obtain ⟨r, h3, h4⟩ := bind_ok_except h1
  unfold Parser.engineStep at h3
  rw [if_neg (by decide), if_neg (by decide), if_pos rfl, (content_token P.src (ln + 1) cs).1 hcs] at h3
  cases h3
  rw [ownPlace_none hcs] at h4
  exact placed rfl h4

theorem endsWith_char {line : Str} {d : Char} : endsWith line [d] = true ↔ line.getLast? = some d := by
  unfold endsWith
  rw [List.isSuffixOf_iff_suffix]
  constructor
  · rintro ⟨t, rfl⟩; simp
  · intro hl
    rw [List.getLast?_eq_some_iff] at hl
    obtain ⟨t, rfl⟩ := hl
    exact ⟨t, rfl⟩

/-- C42: a line has exactly one meaning (and is accepted), if the aliases of the styles are texts. -/
theorem C42_line_unique {d p : Char} {dflt : Str} {al : List (Str × Nested)} {line : Str} {r : CodeLine}
    (hal : ∀ kv ∈ al, ∃ v, kv.2 = .leaf (.str v)) (h : CodeOf d p dflt (aliasOf al) line r) :
    sourceLine ⟨[d], [p], dflt, al⟩ line = .ok ⟨r.code, r.marker, r.highlight⟩ := by
  have hst : ∀ st, styleAlias al st = .ok ((aliasOf al st).getD st) := by
    intro st
    unfold styleAlias aliasOf
    cases hg : Dict.get? al st with
    | none => rfl
    | some n =>
      have : ∃ k, (k, n) ∈ al := by
        clear hal h
        induction al with
        | nil => cases hg
        | cons kv al ih =>
          obtain ⟨a, b⟩ := kv
          rw [Dict.get?] at hg
          split at hg
          · cases hg; exact ⟨a, by simp⟩
          · obtain ⟨k, hk⟩ := ih hg; exact ⟨k, by simp [hk]⟩
      obtain ⟨k, hk⟩ := this
      obtain ⟨v, hv⟩ := hal _ hk
      dsimp only at hv
      subst hv
      rfl
  have cut : ∀ code label : Str, d ∉ label → sourceLine ⟨[d], [p], dflt, al⟩ (code ++ d :: label ++ [d]) =
      (if startsWith label [p] then
          match styleAlias al (match label.drop 1 with | [] => dflt | m => m) with
          | .error e => .error e
          | .ok st => .ok ⟨code, none, some st⟩
        else if label.isEmpty then .ok ⟨code, none, none⟩
        else .ok ⟨code, some label, none⟩) := by
    intro code label hb
    unfold sourceLine
    dsimp only
    rw [if_neg (by rw [endsWith_char.2 List.getLast?_concat]; simp), if_neg (by simp), List.dropLast_concat, splitStr_char, splitChar_append, splitChar_of_not_mem hb,
      List.getLast?_concat]
    dsimp only
    have hlen : ¬ (splitChar d code ++ [label]).length < 2 := by
      have := List.length_pos_iff.2 (splitChar_ne_nil d code)
      simp only [List.length_append, List.length_singleton]; omega
    rw [if_neg hlen, List.dropLast_concat, join_split]
    cases label.drop 1 <;> simp only [hst]
  cases h with
  | plain hl =>
    unfold sourceLine
    rw [if_pos]
    cases he : endsWith line [d] with
    | false => rfl
    | true => exact absurd (endsWith_char.1 he) hl
  | @single code hc =>
    unfold sourceLine
    dsimp only
    rw [if_neg (by rw [endsWith_char.2 (by simp)]; simp), if_neg (by simp), List.dropLast_concat, splitStr_char, splitChar_of_not_mem hc]
    rfl
  | @empty code =>
    have e : code ++ [d, d] = code ++ d :: [] ++ [d] := by simp
    rw [e, cut _ _ (by simp)]
    rfl
  | @marker code label hd hl hp =>
    rw [cut _ _ hd, if_neg, if_neg]
    · simpa using hl
    · unfold startsWith
      cases label with
      | nil => simp
      | cons c l => simp [List.isPrefixOf]; intro e; subst e; exact hp rfl
  | @style code st hd hs =>
    rw [cut _ _ hd, if_pos (by simp [startsWith, List.isPrefixOf])]
    cases st with
    | nil => exact absurd rfl hs
    | cons c st => simp only [List.drop_one, List.tail_cons, hst]
  | @default code hd =>
    have e : code ++ [d, p, d] = code ++ d :: [p] ++ [d] := by simp
    rw [e, cut _ _ (by simpa using hd), if_pos (by simp [startsWith, List.isPrefixOf])]
    simp only [List.drop_one, List.tail_cons, hst]

/-- C42, counterexample: with the marker delimiter `::` the line `a::b::` should have the code `a` and the marker `b`, but its marker
is `b:`. -/
theorem C42_long_delimiter : (sourceLine ⟨c%"::", c%"@", c%"default", []⟩ c%"a::b::").toOption.map (fun r => (r.content, r.marker)) =
    some (c%"a", some c%"b:") := by decide

/-- C42, counterexample: with the highlight prefix `!!` the line `a:!!b:` should have the highlight style `b`, but it has `!b`. -/
theorem C42_long_prefix : (sourceLine ⟨c%":", c%"!!", c%"default", []⟩ c%"a:!!b:").toOption.map (fun r => (r.content, r.highlight)) =
    some (c%"a", some c%"!b") := by decide

/-- An example: three lines with a marker, a highlight style and neither. -/
example : CodeNodes ':' '@' c%"default" (fun _ => none) 1 [c%"x = 1:1:", c%"y = 2:@add:", c%"z"]
    [Node.new (.sourceLine 1 c%"x = 1" none) Context.empty [Node.new (.sourceMarker c%"1") Context.empty],
      Node.new (.sourceLine 2 c%"y = 2" (some c%"add")) Context.empty [], Node.new (.sourceLine 3 c%"z" none) Context.empty []] :=
  .marked (r := ⟨c%"x = 1", some c%"1", none⟩) (.marker (code := c%"x = 1") (label := c%"1") (by decide) (by decide) (by decide)) rfl
    (.plain (r := ⟨c%"y = 2", none, some c%"add"⟩) (.style (code := c%"y = 2") (st := c%"add") (by decide) (by decide)) rfl
      (.plain (r := ⟨c%"z", none, none⟩) (.plain (by decide)) rfl .nil))

example : CodeRows (CutOf c%"::" c%"!!" c%"default" (fun _ => none)) 1 [c%"a::b::", c%"x:", c%"y::!!c::", c%"::"]
    [Node.new (.sourceLine 1 c%"a" none) Context.empty [Node.new (.sourceMarker c%"b:") Context.empty], Node.new (.sourceLine 2 c%"x:" none) Context.empty [],
      Node.new (.sourceLine 3 c%"y" (some c%"!c:")) Context.empty [], Node.new (.sourceLine 4 c%"::" none) Context.empty []] :=
  .marked (r := ⟨c%"a", some c%"b:", none⟩) (.marker (code := c%"a") (mark := c%"b:") (c := ':') (by decide) (by decide) (by decide) (by decide)) rfl
    (.plain (r := ⟨c%"x:", none, none⟩) (.plain (by decide)) rfl
      (.plain (r := ⟨c%"y", none, some c%"!c:"⟩) (.style (code := c%"y") (x := '!') (st := c%"!c:") (c := ':') (by decide) (by decide) (by decide) (by decide)) rfl
        (.plain (r := ⟨c%"::", none, none⟩) (.single (body := c%":") (c := ':') (by decide) (by decide)) rfl .nil)))

/-! ## C48 — isolation -/

theorem default_block {P : Parser} (hP : Clean P) {ln col : Nat} {ch : Char} {cs rest : List Str} {s s' : DocSt} (hd : Delimits ch cs)
    (hcs : ¬ NoContent cs) (he : (Dict.get? (args s).named c%"engine").getD c%"default" = c%"default")
    (h : P.run ln col (blockLines ch cs ++ rest) s = .ok s') :
    ∃ inner s1 s2 classes, Classes (Dict.get? (args s).named c%"classes") classes ∧ P.nested (contentOf P (ln + 1) cs s) = .ok inner ∧ P.run (ln + cs.length + 2) 0 rest s2 = .ok s' ∧
      s1 = (if Dict.get? (args s).named c%"isolate" = some c%"false" then mergeManagers { s with env := inner.env, uid := inner.uid, objs := inner.objs } inner
        else { s with env := inner.env, uid := inner.uid, objs := inner.objs }) ∧
      Placed (blockArgs s) s1
        (Node.new (.block classes) (blockCtx P.src ln col cs.length) inner.nodes (blockArgs s) s.labelBuf)
        (Node.new (.block classes) Context.empty inner.nodes {} s.labelBuf) s2 := by
  obtain ⟨s2, h1, h2⟩ := block_success hP hd h
  unfold Parser.blockStep at h1
  dsimp only at h1
  rw [get?_engine, he] at h1
  obtain ⟨r, h3, h4⟩ := bind_ok_except h1
  unfold Parser.engineStep at h3
  rw [if_pos rfl, (content_token P.src (ln + 1) cs).2 hcs] at h3
  dsimp only at h3
  obtain ⟨q, h5, h6⟩ := bind_ok_except h3
  cases h6
  unfold Parser.contentStep at h5
  obtain ⟨inner, h7, h8⟩ := bind_ok_except h5
  cases h8
  have hiso : Dict.get? (Dict.erase (Dict.erase (args s).named c%"classes") c%"engine") c%"isolate" = Dict.get? (args s).named c%"isolate" := by
    rw [Dict.get?_erase, if_neg (by decide), Dict.get?_erase, if_neg (by decide)]
  dsimp only at h4
  rw [hiso, ownPlace_other (by decide)] at h4
  refine ⟨inner, _, s2, classesOf (Dict.get? (args s).named c%"classes"), classes_spec _, h7, h2, rfl, ?_⟩
  refine placed ?_ h4
  split <;> rfl

theorem placed_same {a : NodeArgs} {s s2 : DocSt} {n n' : Node} (h : Placed a s n n' s2) : SameCollections s s2 := by
  cases h <;> refine ⟨?_, ?_, ?_, ?_, ?_, ?_⟩ <;> first | rfl | (unfold put; split <;> rfl)

/-- C48: a block (with the default engine and without `isolate=false`): its content is read as a document of its own, and nothing of
what this document collects — headers, tables of contents, footnotes, footnote lists, header links — is added to the enclosing one.
Only a text of a footnote can be added: the block itself, if it has the argument `footnote`. -/
theorem C48_isolated {P : Parser} (hP : Clean P) {ln col : Nat} {ch : Char} {cs rest : List Str} {s s' : DocSt} (hd : Delimits ch cs)
    (hcs : ¬ NoContent cs) (he : (Dict.get? (args s).named c%"engine").getD c%"default" = c%"default")
    (hi : Dict.get? (args s).named c%"isolate" ≠ some c%"false") (h : P.run ln col (blockLines ch cs ++ rest) s = .ok s') :
    ∃ inner s2 classes, Classes (Dict.get? (args s).named c%"classes") classes ∧ P.nested (contentOf P (ln + 1) cs s) = .ok inner ∧ P.run (ln + cs.length + 2) 0 rest s2 = .ok s' ∧
      SameCollections s s2 ∧ (NoArg (blockArgs s) c%"footnote" → s2.bodies = s.bodies) ∧
      Placed (blockArgs s) { s with env := inner.env, uid := inner.uid, objs := inner.objs }
        (Node.new (.block classes) (blockCtx P.src ln col cs.length) inner.nodes (blockArgs s) s.labelBuf)
        (Node.new (.block classes) Context.empty inner.nodes {} s.labelBuf) s2 := by
  obtain ⟨inner, s1, s2, classes, h0, h1, h2, h3, h4⟩ := default_block hP hd hcs he h
  rw [if_neg hi] at h3
  subst h3
  refine ⟨inner, s2, classes, h0, h1, h2, ?_, ?_, h4⟩
  · have := placed_same h4
    exact ⟨this.headers, this.tocs, this.mentions, this.lists, this.links, this.targets⟩
  · intro hf
    cases h4 with
    | footnote h _ => exact absurd h (hf _)
    | group => rfl
    | document => unfold put; split <;> rfl

/-- C48: a block with `isolate=false`: all headers, tables of contents, footnotes and footnote lists of its content are added to those of
the enclosing document, after those found before. -/
theorem C48_not_isolated {P : Parser} (hP : Clean P) {ln col : Nat} {ch : Char} {cs rest : List Str} {s s' : DocSt} (hd : Delimits ch cs)
    (hcs : ¬ NoContent cs) (he : (Dict.get? (args s).named c%"engine").getD c%"default" = c%"default")
    (hi : Dict.get? (args s).named c%"isolate" = some c%"false") (hdist : ∀ inner, P.nested (contentOf P (ln + 1) cs s) = .ok inner → Dict.Distinct inner.bodies)
    (h : P.run ln col (blockLines ch cs ++ rest) s = .ok s') :
    ∃ inner s1 s2 classes, Classes (Dict.get? (args s).named c%"classes") classes ∧ P.nested (contentOf P (ln + 1) cs s) = .ok inner ∧ P.run (ln + cs.length + 2) 0 rest s2 = .ok s' ∧
      Merged s inner s1 ∧ SameCollections s1 s2 ∧
      Placed (blockArgs s) s1
        (Node.new (.block classes) (blockCtx P.src ln col cs.length) inner.nodes (blockArgs s) s.labelBuf)
        (Node.new (.block classes) Context.empty inner.nodes {} s.labelBuf) s2 := by
  obtain ⟨inner, s1, s2, classes, h0, h1, h2, h3, h4⟩ := default_block hP hd hcs he h
  rw [if_pos hi] at h3
  refine ⟨inner, s1, s2, classes, h0, h1, h2, ?_, placed_same h4, h4⟩
  subst h3
  exact ⟨rfl, rfl, rfl, rfl, fun name => Dict.get?_update _ (hdist _ h1) name, rfl, rfl⟩

/-! ## C75 — engines -/

/-- C75: a block with the default engine and without content gives an empty block. -/
theorem C75_empty {P : Parser} (hP : Clean P) {ln col : Nat} {ch : Char} {cs rest : List Str} {s s' : DocSt} (hd : Delimits ch cs)
    (hcs : NoContent cs) (he : (Dict.get? (args s).named c%"engine").getD c%"default" = c%"default") (h : P.run ln col (blockLines ch cs ++ rest) s = .ok s') :
    ∃ s2 classes, Classes (Dict.get? (args s).named c%"classes") classes ∧ P.run (ln + cs.length + 2) 0 rest s2 = .ok s' ∧
      Placed (blockArgs s) s (Node.new (.block classes) (blockCtx P.src ln col cs.length) [] (blockArgs s) s.labelBuf)
        (Node.new (.block classes) Context.empty [] {} s.labelBuf) s2 := by
  obtain ⟨s2, h1, h2⟩ := block_success hP hd h
  refine ⟨s2, classesOf (Dict.get? (args s).named c%"classes"), classes_spec _, h2, ?_⟩
  unfold Parser.blockStep at h1
  dsimp only at h1
  rw [get?_engine, he] at h1
  obtain ⟨r, h3, h4⟩ := bind_ok_except h1
  unfold Parser.engineStep at h3
  rw [if_pos rfl, (content_token P.src (ln + 1) cs).1 hcs] at h3
  cases h3
  rw [ownPlace_none hcs] at h4
  exact placed rfl h4

/-- C75: an engine other than `default`, `raw` and `source` is a Mau error that names it and points at the block, whatever the content. -/
theorem C75_unknown {P : Parser} (hP : Clean P) {ln col : Nat} {ch : Char} {cs rest : List Str} {s : DocSt} (hd : Delimits ch cs) {engine : Str}
    (he : Dict.get? (args s).named c%"engine" = some engine) (hne : engine ∉ [c%"default", c%"raw", c%"source"])
    (hl : Lexes P.src (ln + cs.length + 2) rest) :
    P.run ln col (blockLines ch cs ++ rest) s =
      .error (.parser (.text (c%"Engine '" ++ engine ++ c%"' is not available.")) (some (blockCtx P.src ln col cs.length))) := by
  have e : blockLines ch cs ++ rest = [ch, ch, ch, ch] :: (cs ++ [ch, ch, ch, ch] :: rest) := by simp [blockLines]
  rw [e]
  refine (reads_block hP hd.noComment hd.noSpace hd.inside).err _ ?_ hl
  simp only [List.mem_cons, List.not_mem_nil, or_false, not_or] at hne
  unfold Parser.blockStep
  dsimp only
  rw [get?_engine, he, Option.getD_some]
  unfold Parser.engineStep
  rw [if_neg hne.1, if_neg hne.2.1, if_neg hne.2.2]
  rfl

/-- C75: a block that is read has one of the three engines. -/
theorem C75_known {P : Parser} (hP : Clean P) {ln col : Nat} {ch : Char} {cs rest : List Str} {s s' : DocSt} (hd : Delimits ch cs) {engine : Str}
    (he : Dict.get? (args s).named c%"engine" = some engine) (h : P.run ln col (blockLines ch cs ++ rest) s = .ok s') :
    engine ∈ [c%"default", c%"raw", c%"source"] := by
  obtain ⟨s2, h1, h2⟩ := block_success hP hd h
  unfold Parser.blockStep at h1
  dsimp only at h1
  rw [get?_engine, he, Option.getD_some] at h1
  obtain ⟨r, h3, h4⟩ := bind_ok_except h1
  unfold Parser.engineStep at h3
  by_cases e1 : engine = c%"default"
  · simp [e1]
  · by_cases e2 : engine = c%"raw"
    · simp [e2]
    · by_cases e3 : engine = c%"source"
      · simp [e3]
      · rw [if_neg e1, if_neg e2, if_neg e3] at h3; cases h3

/-- An unknown engine, and an empty block with classes. -/
example : (match parseDoc {} 20 c%"a\n\n[engine=python]\n----\nx\n----\n" with | .error e => some e | .ok _ => none) =
      some (.parser (.text c%"Engine 'python' is not available.") (some ⟨3, 0, 5, 4, none⟩)) ∧
    (match parseDoc {} 20 c%"[classes=\"x,y\"]\n----\n----\n" with | .error _ => none | .ok s => some (s.nodes.map fun n => (n.data, n.content.length))) =
      some [(.block [c%"x", c%"y"], 0)] := by
  decide +kernel

example : Classes (some c%"x,y") [c%"x", c%"y"] ∧ ¬ Classes (some c%"x,y") [c%"x,y"] ∧ ¬ Classes (some c%"x,y") [c%"x"] ∧ ¬ Classes none [c%"x"] := by
  unfold Classes; decide

end Mau
