import Verif.Spec.ListTree
import Verif.Props.Document

set_option linter.unusedSimpArgs false

/-!
# Properties C39, C40: lists
-/

namespace Mau
open Spec

/-! ## C39 — lists keep every item -/

theorem itemsOf_item {L : Nat} {n : Node} (h : IsItem L n) : itemsOf n = [n] := by
  obtain ⟨d, a, c, cs, ls, ex⟩ := n
  have : d = .listItem L := h
  subst this
  rw [itemsOf]
  intro o m st hh
  cases hh

/-- The entries are items of the level of their marks. -/
def GoodEntries (es : List Entry) : Prop := ∀ e ∈ es, IsItem e.level e.2

theorem lists_items {L : Nat} {es : List Entry} {ns : List Node} (h : Lists L es ns) (hg : GoodEntries es) : itemsOfAll ns = es.map (·.2) := by
  induction h with
  | nil => rfl
  | @item L e es ns he hs ih =>
    rw [itemsOfAll, itemsOf_item (hg e (by simp)), ih (fun x hx => hg x (by simp [hx]))]
    rfl
  | @sub L e inside after subs ns last hlt hi ha hmax hl ih1 ih2 =>
    rw [itemsOfAll, ih2 (fun x hx => hg x (by simp [hx]))]
    have : itemsOf (Node.new (.list (numbered e.1) false 1) (e.1.ctx.merge last.ctx) subs) = itemsOfAll subs := by
      rw [Node.new, itemsOf]
    rw [this, ih1 (fun x hx => hg x (by simp at hx ⊢; rcases hx with h | h <;> simp [h])), List.map_append]

theorem lists_first {L : Nat} {e : Entry} {es : List Entry} {ns : List Node} (h : Lists L (e :: es) ns) (he : e.level = L) :
    ∃ ms, ns = e.2 :: ms := by
  generalize hq : e :: es = q at h
  cases h with
  | nil => cases hq
  | item h' hs => cases hq; exact ⟨_, rfl⟩
  | sub hlt hi ha hmax hl => simp at hq; rw [hq.1] at he; omega

theorem lists_nested {L : Nat} {es : List Entry} {ns : List Node} (h : Lists L es ns) (hg : GoodEntries es) : ListTree L ns := by
  induction h with
  | nil => exact .nil
  | @item L e es ns he hs ih =>
    have := hg e (by simp)
    rw [he] at this
    exact .item this (ih (fun x hx => hg x (by simp [hx])))
  | @sub L e inside after subs ns last hlt hi ha hmax hl ih1 ih2 =>
    obtain ⟨ms, rfl⟩ := lists_first hi rfl
    refine .sub hlt (hg e (by simp)) (ih1 (fun x hx => hg x (by simp at hx ⊢; rcases hx with h | h <;> simp [h])))
      (ih2 (fun x hx => hg x (by simp [hx]))) ?_
    rintro K o' st' ctx' m ms' ns' rfl hm
    generalize hns : Node.new (.list o' false st') ctx' (m :: ms') :: ns' = q at ha
    cases ha with
    | nil => cases hns
    | @item _ f fs ms h' hs =>
      have h1 : f.2 = Node.new (.list o' false st') ctx' (m :: ms') := (List.cons.inj hns).1.symm
      have h2 : IsItem f.level f.2 := hg f (by simp)
      rw [h1] at h2
      cases h2
    | @sub _ f ins aft subs' ns2 last' hlt' hi' ha' hmax' hl' =>
      have h3 := hmax f (by simp)
      obtain ⟨ms2, rfl⟩ := lists_first hi' rfl
      have h4 : m = f.2 := by
        simp [Node.new] at hns
        exact hns.1.2.2.1
      have h5 : IsItem f.level f.2 := hg f (by simp)
      rw [← h4] at h5
      have : K = f.level := by
        unfold IsItem at hm h5
        rw [hm] at h5
        cases h5; rfl
      omega

/-- The entries of some lines. -/
inductive EntriesOf : List Entry → List ItemLine → Prop where
  | nil : EntriesOf [] []
  | cons {e : Entry} {es : List Entry} {i : ItemLine} {is : List ItemLine} (h : e.1.value = i.mark) (hs : EntriesOf es is) :
      EntriesOf (e :: es) (i :: is)

theorem entriesOf_length {es : List Entry} {is : List ItemLine} (h : EntriesOf es is) : es.length = is.length := by
  induction h with
  | nil => rfl
  | cons h hs ih => rw [List.length_cons, List.length_cons, ih]

theorem entriesOf_split {a b : List Entry} {is : List ItemLine} (h : EntriesOf (a ++ b) is) : ∃ is1 is2, is = is1 ++ is2 ∧ EntriesOf a is1 ∧ EntriesOf b is2 := by
  induction a generalizing is with
  | nil => exact ⟨[], is, rfl, .nil, h⟩
  | cons e a ih =>
    cases h with
    | cons h hs =>
      obtain ⟨i1, i2, rfl, h1, h2⟩ := ih hs
      exact ⟨_ :: i1, i2, rfl, .cons h h1, h2⟩

theorem lists_marked {L : Nat} {es : List Entry} {ns : List Node} (h : Lists L es ns) (hg : GoodEntries es) :
    ∀ {is : List ItemLine}, EntriesOf es is → Marked ns is := by
  induction h with
  | nil => intro is he; cases he; exact .nil
  | @item L e es ns he hs ih =>
    intro is hes
    cases hes with
    | cons h1 h2 => exact .item (hg e (by simp)) (ih (fun x hx => hg x (by simp [hx])) h2)
  | @sub L e inside after subs ns last hlt hi ha hmax hl ih1 ih2 =>
    intro is hes
    obtain ⟨is1, is2, rfl, h1, h2⟩ := entriesOf_split hes
    have m1 := ih1 (fun x hx => hg x (by simp at hx ⊢; rcases hx with h | h <;> simp [h])) h1
    have m2 := ih2 (fun x hx => hg x (by simp [hx])) h2
    cases h1 with
    | cons h3 h4 => exact .sub (by unfold numbered; rw [h3]) m1 m2

theorem items_nodes {P : Parser} {is : List ItemLine} : ∀ {s s1 : DocSt} {ln col : Nat} {es : List Entry},
    P.items s (itemToks P.src ln col is) = .ok (es, s1) → ItemNodes P s.env ln col is (es.map (·.2)) ∧ GoodEntries es ∧ EntriesOf es is := by
  induction is with
  | nil =>
    intro s s1 ln col es h
    cases h
    exact ⟨.nil, (by intro e he; cases he), .nil⟩
  | cons i is ih =>
    intro s s1 ln col es h
    rw [itemToks, Parser.items] at h
    obtain ⟨r, h1, h2⟩ := bind_ok_except h
    obtain ⟨rs, h3, h4⟩ := bind_ok_except h2
    cases h4
    obtain ⟨q, h5, h6⟩ := bind_ok_except h1
    have o := inline_only h5
    cases hq : q.1.getLast? with
    | none => rw [hq] at h6; cases h6
    | some last =>
      rw [hq] at h6
      cases h6
      obtain ⟨i1, i2, i3⟩ := ih h3
      have oe : q.2.env = s.env := o.env
      dsimp only at i1
      rw [oe] at i1
      refine ⟨.cons ⟨s, q.2, rfl, h5⟩ (by intro e; rw [e] at hq; cases hq) i1, ?_, .cons rfl i3⟩
      intro e he
      rcases List.mem_cons.1 he with rfl | he
      · rfl
      · exact i2 e he

/-- A successful reading of list lines. -/
theorem list_success {P : Parser} {ln col : Nat} {i : ItemLine} {is : List ItemLine} {rest : List Str} {s s' : DocSt}
    (hi : ∀ j ∈ i :: is, j.Ok ∧ i.mark.length ≤ j.mark.length) (hr : AfterList i.mark.length rest)
    (h : P.run ln col ((i :: is).map (·.line) ++ rest) s = .ok s') :
    ∃ es s1 ns s2, P.items s (itemToks P.src ln col (i :: is)) = .ok (es, s1) ∧ Lists i.mark.length es ns ∧
      listStep s1 (tokAt .LIST i.mark ln (col + i.indent.length) P.src) ns = .ok s2 ∧ P.run (ln + (i :: is).length) 0 rest s2 = .ok s' := by
  cases hit : P.items s (itemToks P.src ln col (i :: is)) with
  | ok r =>
    obtain ⟨es, s1⟩ := r
    obtain ⟨ns, h1, h2⟩ := reads_list hi hr hit
    obtain ⟨s2, h3, h4⟩ := Reads.success h2 h
    exact ⟨es, s1, ns, s2, rfl, h1, h3, h4⟩
  | error e =>
    exfalso
    by_cases hx : Lexes P.src (ln + (i :: is).length) rest
    · rw [reads_list_err hi hr hit hx] at h; cases h
    · have hlex := itemToks_docTokens (src := P.src) (ln := ln) (col := col) (rest := rest) (fun j hj => (hi j hj).1) (is := i :: is) (by simp)
      unfold Lexes at hx
      cases hd : docTokens P.src (ln + (i :: is).length) 0 rest with
      | ok ts => exact hx ⟨ts, hd⟩
      | error e' =>
        rw [run_eq, hlex, hd] at h
        cases h

/-- C39: list lines at least as deep as the first, up to the end of the list, read successfully: one list is finished (and appended
unless the pending control forbids it). Its items, read depth-first, are the items of the lines, in order, each with its level and
the parse of its text. Items of one list have one level, nested lists are deeper, and each list is numbered exactly if its first line
is marked by `#`. It has the pending arguments and labels, and reading goes on after the lines. -/
theorem C39_list {P : Parser} {ln col : Nat} {i : ItemLine} {is : List ItemLine} {rest : List Str} {s s' : DocSt}
    (hi : ∀ j ∈ i :: is, j.Ok ∧ i.mark.length ≤ j.mark.length) (hr : AfterList i.mark.length rest)
    (h : P.run ln col ((i :: is).map (·.line) ++ rest) s = .ok s') :
    ∃ items ns s1 keep st ctx, ItemNodes P s.env ln col (i :: is) items ∧ itemsOfAll ns = items ∧ ListTree i.mark.length ns ∧
      Marked ns (i :: is) ∧ s1 = { s with uid := s1.uid, footnoteMacros := s1.footnoteMacros, linkMacros := s1.linkMacros, places := s1.places, latest := s1.latest } ∧
      Spec.allowed s = .ok keep ∧
      P.run (ln + (i :: is).length) 0 rest (put s1 keep (Node.new (.list (i.mark.head? == some '#') true st) ctx ns (args s) s.labelBuf)) = .ok s' := by
  obtain ⟨es, s1, ns, s2, h1, h2, h3, h4⟩ := list_success hi hr h
  obtain ⟨g1, g2, g3⟩ := items_nodes h1
  have o := items_only h1
  obtain ⟨r, h5, h6⟩ := bind_ok_except h3
  obtain ⟨c, h7, h8⟩ := bind_ok_except h6
  obtain ⟨keep, h9, h10⟩ := bind_ok_except h8
  cases h10
  have ha : args s1 = args s := by unfold args; rw [o.argsBuf]
  refine ⟨es.map (·.2), ns, { s1 with latest := r.2 }, keep, r.1, c, g1, lists_items h2 g2, lists_nested h2 g2, lists_marked h2 g2 g3, ?_, ?_, ?_⟩
  · conv => lhs; rw [o.rest]
  · rw [← o.allowed]; exact h9
  · rw [← h4]
    change _ = P.run _ 0 rest (put { s1 with latest := r.2 } keep (Node.new (.list _ true r.1) c ns (args s1) s1.labelBuf))
    rw [ha, o.labelBuf]
    rfl

theorem afterList_mono {L M : Nat} {rest : List Str} (h : AfterList L rest) (hLM : L ≤ M) : AfterList M rest := by
  induction h with
  | nil => exact .nil
  | empty rest => exact .empty rest
  | lower h hl => exact .lower h (by omega)
  | comment h _ ih => exact .comment h ih
  | comments h _ ih => exact .comments h ih

theorem itemNodes_append {P : Parser} {env : Env} {is js : List ItemLine} : ∀ {ln col : Nat} {ns ms : List Node}, is ≠ [] → ItemNodes P env ln col is ns →
    ItemNodes P env (ln + is.length) 0 js ms → ItemNodes P env ln col (is ++ js) (ns ++ ms) := by
  induction is with
  | nil => intro ln col ns ms h; exact absurd rfl h
  | cons i is ih =>
    intro ln col ns ms _ h1 h2
    cases h1 with
    | cons h hne hs =>
      refine .cons h hne ?_
      cases is with
      | nil =>
        cases hs
        exact h2
      | cons j is =>
        refine ih (by simp) hs ?_
        have : ln + 1 + (j :: is).length = ln + (i :: j :: is).length := by simp; omega
        rw [this]; exact h2

theorem itemsOfAll_append (a b : List Node) : itemsOfAll (a ++ b) = itemsOfAll a ++ itemsOfAll b := by
  induction a with
  | nil => rfl
  | cons n a ih => rw [List.cons_append, itemsOfAll, itemsOfAll, ih, List.append_assoc]

/-- C39: any sequence of list lines, up to the end of the list, without a control: the lists that are appended to the document
contain exactly the items of the lines, read depth-first, in order, each with its level and the parse of its text. Each is a list of some
level (a line less deep than the first line of a list starts a new list). -/
theorem C39_lines {P : Parser} {is : List ItemLine} {rest : List Str} (hne : is ≠ []) (hi : ∀ j ∈ is, j.Ok) (hr : AfterList 1 rest) :
    ∀ {ln col : Nat} {s s' : DocSt}, s.controlBuf = none → P.run ln col (is.map (·.line) ++ rest) s = .ok s' →
    ∃ items lists s2, ItemNodes P s.env ln col is items ∧ itemsOfAll lists = items ∧ s2.nodes = s.nodes ++ lists ∧
      (∀ n ∈ lists, ∃ L o st, n.data = .list o true st ∧ n.content ≠ [] ∧ ListTree L n.content) ∧
      P.run (ln + is.length) 0 rest s2 = .ok s' := by
  generalize hn : is.length = m
  induction m using Nat.strongRecOn generalizing is with
  | _ m ih =>
    intro ln col s s' hc h
    cases is with
    | nil => exact absurd rfl hne
    | cons i is =>
      have hmark : 1 ≤ i.mark.length := by
        have := lineForm_list_ne (hi i (by simp)).1
        exact List.length_pos_iff.2 this
      obtain ⟨as, bs, rfl, ha, hb⟩ := takeWhile_split (fun j : ItemLine => decide (i.mark.length ≤ j.mark.length)) is
      have hgood : ∀ j ∈ i :: as, j.Ok ∧ i.mark.length ≤ j.mark.length := by
        intro j hj
        rcases List.mem_cons.1 hj with rfl | hj
        · exact ⟨hi j (by simp), Nat.le_refl _⟩
        · exact ⟨hi j (by simp [hj]), by simpa using ha j hj⟩
      have hafter : AfterList i.mark.length (bs.map (·.line) ++ rest) := by
        cases bs with
        | nil => exact afterList_mono hr hmark
        | cons b bs =>
          refine .lower (hi b (by simp)) ?_
          have := hb b (by simp)
          simpa using this
      have e : (i :: (as ++ bs)).map (·.line) ++ rest = (i :: as).map (·.line) ++ (bs.map (·.line) ++ rest) := by simp
      rw [e] at h
      obtain ⟨items, ns, s1, keep, st, ctx, q1, q2, q3, q4, q5, q6, q7⟩ := C39_list hgood hafter h
      have hk : keep = true := by
        unfold Spec.allowed at q6
        rw [hc] at q6
        cases q6; rfl
      subst hk
      have hn1 : s1.nodes = s.nodes := by rw [q5]
      have he1 : s1.env = s.env := by rw [q5]
      have hns : ns ≠ [] := by
        rintro rfl
        cases q1 with
        | cons => cases q2
      have hlist : ∀ n ∈ [Node.new (.list (i.mark.head? == some '#') true st) ctx ns (args s) s.labelBuf], ∃ L o st, n.data = .list o true st ∧ n.content ≠ [] ∧ ListTree L n.content := by
        intro n hn
        simp at hn
        subst hn
        exact ⟨i.mark.length, _, _, rfl, hns, q3⟩
      have hput : (put s1 true (Node.new (.list (i.mark.head? == some '#') true st) ctx ns (args s) s.labelBuf)).nodes =
          s.nodes ++ [Node.new (.list (i.mark.head? == some '#') true st) ctx ns (args s) s.labelBuf] := by
        rw [put_nodes, hn1]; rfl
      have hone : itemsOfAll [Node.new (.list (i.mark.head? == some '#') true st) ctx ns (args s) s.labelBuf] = items := by
        rw [itemsOfAll, itemsOfAll, List.append_nil, Node.new, itemsOf, q2]
      cases bs with
      | nil =>
        refine ⟨items, _, _, ?_, hone, hput, hlist, ?_⟩
        · simpa using q1
        · have : (i :: as).length = m := by simpa using hn
          rw [← this]
          exact q7
      | cons b bs =>
        obtain ⟨items2, lists2, s2, p1, p2, p3, p4, p5⟩ := ih (b :: bs).length (by rw [← hn]; simp; omega) (by simp) (fun j hj => hi j (by simp at hj ⊢; rcases hj with h | h <;> simp [h])) rfl
          (put_control _ _ _) q7
        rw [put_env, he1] at p1
        refine ⟨items ++ items2, Node.new (.list (i.mark.head? == some '#') true st) ctx ns (args s) s.labelBuf :: lists2, s2, ?_, ?_, ?_, ?_, ?_⟩
        · exact itemNodes_append (by simp) q1 p1
        · rw [show ∀ (a : Node) b, a :: b = [a] ++ b from fun _ _ => rfl, itemsOfAll_append, hone, p2]
        · rw [p3, hput, List.append_assoc]; rfl
        · intro n hn
          rcases List.mem_cons.1 hn with rfl | hn
          · exact hlist _ (by simp)
          · exact p4 n hn
        · have : ln + (i :: as).length + (b :: bs).length = ln + m := by rw [← hn]; simp; omega
          rw [← this]; exact p5

/-- The lines of the example: two items, two nested ones, one item. -/
def exampleItems : List ItemLine :=
  [⟨[], c%"*", c%" ", c%"a"⟩, ⟨c%"  ", c%"##", c%" ", c%"b"⟩, ⟨c%"  ", c%"##", c%" ", c%"c"⟩, ⟨[], c%"*", c%" ", c%"d"⟩]

theorem exampleItems_ok : ∀ j ∈ exampleItems, j.Ok := by
  have key : ∀ ind mark sp v : Str, Spaces ind → mark ≠ [] → (∀ c ∈ mark, isListChar c = true) → sp ≠ [] → Spaces sp → NoHead (· == ' ') v →
      ¬ Spaces (ind ++ mark ++ sp ++ v) → (∀ ch, ind ++ mark ++ sp ++ v ≠ [ch, ch, ch, ch]) → (⟨ind, mark, sp, v⟩ : ItemLine).Ok :=
    fun ind mark sp v h1 h2 h3 h4 h5 h6 h7 h8 => ⟨.list ind mark sp v h1 h2 h3 h4 h5 h6, h7, h8⟩
  intro j hj
  unfold exampleItems at hj
  simp only [List.mem_cons, List.mem_nil_iff, or_false] at hj
  rcases hj with rfl | rfl | rfl | rfl
  · exact key _ _ _ _ (by unfold Spaces; decide) (by decide) (by decide) (by decide) (by unfold Spaces; decide) (by unfold NoHead; intro c r h; cases h; decide)
      (by unfold Spaces; decide) (by intro ch h; have := congrArg List.length h; simp at this)
  · exact key _ _ _ _ (by unfold Spaces; decide) (by decide) (by decide) (by decide) (by unfold Spaces; decide) (by unfold NoHead; intro c r h; cases h; decide)
      (by unfold Spaces; decide) (by intro ch h; have := congrArg List.length h; simp at this)
  · exact key _ _ _ _ (by unfold Spaces; decide) (by decide) (by decide) (by decide) (by unfold Spaces; decide) (by unfold NoHead; intro c r h; cases h; decide)
      (by unfold Spaces; decide) (by intro ch h; have := congrArg List.length h; simp at this)
  · exact key _ _ _ _ (by unfold Spaces; decide) (by decide) (by decide) (by decide) (by unfold Spaces; decide) (by unfold NoHead; intro c r h; cases h; decide)
      (by unfold Spaces; decide) (by intro ch h; have := congrArg List.length h; simp at this)

/-- Concrete list lines, at the end of the document, that are read successfully. -/
example : (∀ j ∈ exampleItems, j.Ok) ∧ AfterList 1 [] ∧
    ((parser {} 19 none).run 0 0 (exampleItems.map (·.line) ++ []) (initial ⟨[], [], 0, 0, none, [], 1, []⟩)).isOk = true :=
  ⟨exampleItems_ok, .nil, by decide +kernel⟩

/-! ## C40 — numbering -/

/-- The start and the kind of the lists among the nodes, and the number of their items. -/
def listStarts (x : Except Err DocSt) : Option (List (Bool × Int)) :=
  match x with
  | .ok s => some (s.nodes.filterMap fun n => match n.data with | .list o _ st => some (o, st) | _ => none)
  | .error _ => none

/-- Constructs other than lists do not touch the number for the next automatic list. -/
theorem construct_latest {P : Parser} {s s1 : DocSt} {ln col : Nat} {ls rest : List Str} {k : Kind} {a : NodeArgs} {x : Except Err DocSt}
    (h : Construct P s ln col ls rest k a x) (hk : k ≠ .list) (hx : x = .ok s1) : s1.latest = s.latest := by
  have hput : ∀ (s : DocSt) keep n, (put s keep n).latest = s.latest := by intro s keep n; unfold put used; split <;> rfl
  have hincl : ∀ {s s1 : DocSt} {ty : Str} {a : NodeArgs} {ctx : Context}, P.includeStep s ty a ctx = .ok s1 → s1.latest = s.latest := by
    intro s s1 ty a ctx hx
    obtain ⟨r, h1, h2⟩ := bind_ok_except hx
    obtain ⟨keep, h3, h4⟩ := bind_ok_except h2
    cases h4
    rw [hput]
    unfold Parser.includeNodeStep at h1
    split at h1
    · obtain ⟨q, h5, h6⟩ := bind_ok_except h1; cases h6; rfl
    · split at h1
      · unfold Parser.includeMauStep at h1
        dsimp only at h1
        split at h1
        · cases h1
        · split at h1
          · cases h1
          · obtain ⟨t, h5, h6⟩ := bind_ok_except h1
            obtain ⟨e, h7, h8⟩ := bind_ok_except h6
            obtain ⟨i, h9, h10⟩ := bind_ok_except h8
            cases h10; rfl
      · split at h1
        · obtain ⟨q, h5, h6⟩ := bind_ok_except h1; cases h6; rfl
        · split at h1
          · cases h1; rfl
          · split at h1
            · cases h1; rfl
            · split at h1
              · dsimp only at h1
                split at h1
                · cases h1
                · cases h1; rfl
              · cases h1; rfl
  cases h with
  | rule =>
    obtain ⟨keep, h1, h2⟩ := bind_ok_except hx
    cases h2
    exact hput _ _ _
  | header hl =>
    obtain ⟨r, h1, h2⟩ := bind_ok_except hx
    obtain ⟨c, h3, h4⟩ := bind_ok_except h2
    obtain ⟨keep, h5, h6⟩ := bind_ok_except h4
    have o := inline_only h1
    have e : r.2.latest = s.latest := by rw [o.rest]
    split at h6
    · obtain ⟨s2, h7, h8⟩ := bind_ok_except h6
      cases h8
      change s2.latest = _
      rw [← e]
      unfold nameHeader at h7
      split at h7
      · cases h7; rfl
      · split at h7
        · cases h7
        · cases h7; rfl
    · cases h6; exact e
  | paragraph hl hne hr =>
    obtain ⟨r, h1, h2⟩ := bind_ok_except hx
    obtain ⟨c, h3, h4⟩ := bind_ok_except h2
    obtain ⟨keep, h5, h6⟩ := bind_ok_except h4
    cases h6
    rw [hput, (inlineLines_spec h1).1.rest]
  | list hi hr hits hns => exact absurd rfl hk
  | block h1 h2 hc =>
    obtain ⟨r, h1, h2⟩ := bind_ok_except hx
    have e1 : r.2.latest = s.latest := by
      unfold Parser.engineStep at h1
      split at h1
      · split at h1
        · cases h1; rfl
        · obtain ⟨q, h5, h6⟩ := bind_ok_except h1
          cases h6
          obtain ⟨inner, h7, h8⟩ := bind_ok_except h5
          cases h8
          dsimp only
          split <;> rfl
      · split at h1
        · split at h1 <;> (cases h1; rfl)
        · split at h1
          · split at h1
            · cases h1; rfl
            · obtain ⟨q, h5, h6⟩ := bind_ok_except h1
              cases h6; rfl
          · cases h1
    unfold placeStep at h2
    split at h2
    · split at h2
      · cases h2
      · cases h2; exact e1
    · split at h2
      · obtain ⟨g, h5, h6⟩ := bind_ok_except h2
        cases h6; exact e1
      · obtain ⟨keep, h5, h6⟩ := bind_ok_except h2
        cases h6
        rw [hput]; exact e1
  | incl hl => exact hincl hx
  | inclArgs hl ha =>
    unfold Parser.includeInline at hx
    split at hx
    · cases hx
    · obtain ⟨p, h1, h2⟩ := bind_ok_except hx
      exact hincl h2

theorem prelude_latest {P : Parser} {rest ls : List Str} {ln col : Nat} {s s1 : DocSt} {as : List Attached}
    (h : Prelude P rest ln col ls s as s1) : s1.latest = s.latest := by
  induction h with
  | nil => rfl
  | blank h hs ih => exact ih
  | comment h hs ih => exact ih
  | comments h hs ih => exact ih
  | arguments h hs ih => exact ih
  | label hl h hs ih => rw [ih]; dsimp only; rw [(inline_only h).rest]
  | control hl hv hn h hs ih => exact ih
  | define hl h hs ih =>
    obtain ⟨d, h1, h2⟩ := bind_ok_except h
    cases h2; exact ih
  | flag hl hr h hs ih =>
    obtain ⟨d, h1, h2⟩ := bind_ok_except h
    cases h2; exact ih

theorem digit_facts {c : Char} (h : isDigitAscii c = true) : isPySpace c = false ∧ ¬ c.toNat ≥ 128 ∧ c ≠ '-' ∧ c ≠ '+' := by
  unfold isDigitAscii at h
  simp only [Bool.and_eq_true, decide_eq_true_eq] at h
  obtain ⟨h1, h2⟩ := h
  have n1 : 48 ≤ c.toNat := h1
  have n2 : c.toNat ≤ 57 := h2
  refine ⟨?_, by omega, ?_, ?_⟩
  · unfold isPySpace
    simp only [Bool.or_eq_false_iff, Bool.and_eq_false_iff, decide_eq_false_iff_not, beq_eq_false_iff_ne]
    omega
  · rintro rfl; revert n1; decide
  · rintro rfl; revert n1; decide

theorem dropWhile_none {p : Char → Bool} {s : Str} (h : ∀ c ∈ s, p c = false) : s.dropWhile p = s := by
  cases s with
  | nil => rfl
  | cons c s => rw [List.dropWhile_cons, h c (by simp)]; rfl

theorem intDigits_decimal {ds : Str} (h : ∀ c ∈ ds, isDigitAscii c = true) : ∀ (b : Bool) (acc : Nat), (b = true ∨ ds ≠ []) →
    intDigits b acc ds = some (ds.foldl (fun n c => 10 * n + (c.toNat - '0'.toNat)) acc) := by
  induction ds with
  | nil => intro b acc hb; rcases hb with rfl | hb
           · rfl
           · exact absurd rfl hb
  | cons c ds ih =>
    intro b acc _
    rw [intDigits, if_pos (h c (by simp)), ih (fun x hx => h x (by simp [hx])) true _ (.inl rfl)]
    rw [List.foldl_cons, Nat.mul_comm acc 10]
    rfl

/-- A string of digits is read as its decimal value. -/
theorem pyInt_decimal {ds : Str} (h : ∀ c ∈ ds, isDigitAscii c = true) (hne : ds ≠ []) : pyInt ds = .ok (decimal ds : Int) := by
  have hs : strip ds = ds := by
    unfold strip rstrip lstrip
    rw [dropWhile_none (fun c hc => (digit_facts (h c hc)).1), dropWhile_none (fun c hc => (digit_facts (h c (List.mem_reverse.1 hc))).1), List.reverse_reverse]
  unfold pyInt
  have ha : ds.any (fun c => decide (c.toNat ≥ 128)) = false := by
    rw [List.any_eq_false]
    intro c hc
    have := (digit_facts (h c hc)).2.1
    simpa using this
  rw [ha, hs]
  cases ds with
  | nil => exact absurd rfl hne
  | cons c r =>
    have hc := digit_facts (h c (by simp))
    have key : ∀ p : Bool × Str, p = (false, c :: r) → (match intDigits false 0 p.2 with
        | none => (.error (.py .valueError) : Except Err Int)
        | some n => .ok (if p.1 then -(n : Int) else n)) = .ok (decimal (c :: r) : Int) := by
      rintro p rfl
      dsimp only
      rw [intDigits_decimal h false 0 (.inr hne)]
      rfl
    simp only [Bool.false_eq_true, ↓reduceIte]
    refine key _ ?_
    split
    · rename_i e; cases e; exact absurd rfl hc.2.2.1
    · rename_i e; cases e; exact absurd rfl hc.2.2.2
    · rfl

theorem decimal_append (acc : Nat) (g h : Str) : (g ++ h).foldl (fun n c => 10 * n + (c.toNat - '0'.toNat)) acc =
    h.foldl (fun n c => 10 * n + (c.toNat - '0'.toNat)) (g.foldl (fun n c => 10 * n + (c.toNat - '0'.toNat)) acc) := List.foldl_append

/-- The digits accepted are groups of digits separated by underscores. After a digit, the first group can be empty. -/
theorem intDigits_groups : ∀ {ds : Str} {b : Bool} {acc n : Nat}, intDigits b acc ds = some n →
    ∃ g gs, ds = joinWith ['_'] (g :: gs) ∧ (b = false → g ≠ []) ∧ (∀ c ∈ g, isDigitAscii c = true) ∧ (∀ g' ∈ gs, g' ≠ [] ∧ ∀ c ∈ g', isDigitAscii c = true) ∧
      n = (g ++ gs.flatten).foldl (fun n c => 10 * n + (c.toNat - '0'.toNat)) acc
  | [], b, acc, n, h => by
    unfold intDigits at h
    split at h
    · rename_i hb
      cases h
      refine ⟨[], [], rfl, ?_, ?_, ?_, rfl⟩
      · intro e; rw [e] at hb; cases hb
      · intro c hc; cases hc
      · intro c hc; cases hc
    · cases h
  | c :: cs, b, acc, n, h => by
    unfold intDigits at h
    split at h
    · rename_i hd
      obtain ⟨g, gs, e, h1, h2, h3, h4⟩ := intDigits_groups h
      refine ⟨c :: g, gs, ?_, ?_, ?_, h3, ?_⟩
      · rw [e]; cases gs <;> rfl
      · intro _ e; cases e
      · intro x hx
        rcases List.mem_cons.1 hx with rfl | hx
        · exact hd
        · exact h2 x hx
      · rw [h4, List.cons_append, List.foldl_cons, Nat.mul_comm acc 10]; rfl
    · split at h
      · rename_i hd hu
        simp only [Bool.and_eq_true, beq_iff_eq] at hu
        obtain ⟨rfl, rfl⟩ := hu
        obtain ⟨g, gs, e, h1, h2, h3, h4⟩ := intDigits_groups h
        refine ⟨[], g :: gs, ?_, ?_, ?_, ?_, ?_⟩
        · rw [e]; rfl
        · intro e; cases e
        · intro x hx; cases hx
        · intro g' hg
          rcases List.mem_cons.1 hg with rfl | hg
          · exact ⟨h1 rfl, h2⟩
          · exact h3 g' hg
        · rw [h4]; simp
      · cases h

/-- Only whole numbers are read as numbers. -/
theorem pyInt_number {v : Str} {n : Int} (h : pyInt v = .ok n) : WholeNumber v n := by
  unfold pyInt at h
  split at h
  · cases h
  · have key : ∀ (sign ds : Str) (neg : Bool), strip v = sign ++ ds → (sign = [] ∧ neg = false ∨ sign = ['+'] ∧ neg = false ∨ sign = ['-'] ∧ neg = true) →
        (match intDigits false 0 ds with
          | none => (.error (.py .valueError) : Except Err Int)
          | some n => .ok (if neg then -(n : Int) else n)) = .ok n → WholeNumber v n := by
      intro sign ds neg hv hs h
      split at h
      · cases h
      · rename_i m hm
        cases h
        obtain ⟨g, gs, e, h1, h2, h3, h4⟩ := intDigits_groups hm
        subst e
        refine .mk hv (by simp) ?_ ?_
        · intro g' hg
          rcases List.mem_cons.1 hg with rfl | hg
          · exact ⟨h1 rfl, h2⟩
          · exact h3 g' hg
        · have e : m = decimal (g :: gs).flatten := by rw [h4]; rfl
          subst e
          rcases hs with ⟨a, rfl⟩ | ⟨a, rfl⟩ | ⟨a, rfl⟩
          · exact .inl ⟨a, rfl⟩
          · exact .inr (.inl ⟨a, rfl⟩)
          · exact .inr (.inr ⟨a, rfl⟩)
    split at h
    rename_i neg ds heq
    split at heq
    · rename_i r e; cases heq; exact key ['-'] _ true e (.inr (.inr ⟨rfl, rfl⟩)) h
    · rename_i r e; cases heq; exact key ['+'] _ false e (.inr (.inl ⟨rfl, rfl⟩)) h
    · cases heq; exact key [] _ false rfl (.inl ⟨rfl, rfl⟩) h

/-- Underscores between digits. -/
example : WholeNumber c%" +1_0 " 10 :=
  .mk (sign := ['+']) (groups := [['1'], ['0']]) (by decide) (by decide) (by decide) (.inr (.inl ⟨rfl, by decide⟩))

/-- C40: the start of a list. A list read successfully starts at 1, at the given number, or (`start=auto`) at the number left by the
previous list; it leaves the number `st` plus the number of its direct children. -/
theorem C40_start {P : Parser} {ln col : Nat} {i : ItemLine} {is : List ItemLine} {rest : List Str} {s s' : DocSt}
    (hi : ∀ j ∈ i :: is, j.Ok ∧ i.mark.length ≤ j.mark.length) (hr : AfterList i.mark.length rest)
    (h : P.run ln col ((i :: is).map (·.line) ++ rest) s = .ok s') :
    ∃ s2 ns st keep ctx, StartOf (args s) s.latest st ∧ s2.latest = st + ns.length ∧ ListTree i.mark.length ns ∧
      s2.nodes = s.nodes ++ (if keep then [Node.new (.list (i.mark.head? == some '#') true st) ctx ns (args s) s.labelBuf] else []) ∧
      Spec.allowed s = .ok keep ∧ ((∀ j ∈ is, j.mark.length = i.mark.length) → ns.length = (i :: is).length) ∧
      P.run (ln + (i :: is).length) 0 rest s2 = .ok s' := by
  obtain ⟨es, s1, ns, s2, h1, h2, h3, h4⟩ := list_success hi hr h
  obtain ⟨g1, g2, g3⟩ := items_nodes h1
  have o := items_only h1
  obtain ⟨r, h5, h6⟩ := bind_ok_except h3
  obtain ⟨c, h7, h8⟩ := bind_ok_except h6
  obtain ⟨keep, h9, h10⟩ := bind_ok_except h8
  have ha : args s1 = args s := by unfold args; rw [o.argsBuf]
  have hl : s1.latest = s.latest := by rw [o.rest]
  have hput : ∀ (s : DocSt) keep n, (put s keep n).latest = s.latest := by intro s keep n; unfold put used; split <;> rfl
  rw [ha, hl] at h5
  have key : StartOf (args s) s.latest r.1 ∧ r.2 = r.1 + ns.length := by
    unfold listStart at h5
    cases hv : Dict.get? (args s).named c%"start" with
    | none =>
      rw [hv] at h5
      cases h5
      exact ⟨.default hv, by dsimp only; omega⟩
    | some v =>
      rw [hv] at h5
      dsimp only at h5
      split at h5
      · rename_i e
        subst e
        cases h5
        exact ⟨.auto hv, rfl⟩
      · rename_i e
        cases hp : pyInt v with
        | error e => rw [hp] at h5; cases h5
        | ok n =>
          rw [hp] at h5
          cases h5
          exact ⟨.number hv e (pyInt_number hp), by dsimp only; omega⟩
  cases h10
  refine ⟨_, ns, r.1, keep, c, key.1, ?_, lists_nested h2 g2, ?_, ?_, ?_, h4⟩
  · rw [hput]; exact key.2
  · rw [put_nodes]
    change s1.nodes ++ (if keep then [Node.new (.list (numbered (tokAt .LIST i.mark ln (col + i.indent.length) P.src)) true r.1) c ns (args s1) s1.labelBuf] else []) = _
    rw [ha, o.labelBuf, o.nodes]
    rfl
  · rw [← o.allowed]; exact h9
  · intro hflat
    have hlen : ∀ {L : Nat} {es : List Entry} {ns : List Node}, Lists L es ns → (∀ e ∈ es, e.level = L) → ns.length = es.length := by
      intro L es ns hL
      induction hL with
      | nil => intro _; rfl
      | item he hs ih => intro hall; simp [ih (fun x hx => hall x (by simp [hx]))]
      | @sub L e _ _ _ _ _ hlt hi ha hmax hl ih1 ih2 => intro hall; exact absurd (hall e (by simp)) (by omega)
    have hall : ∀ {es : List Entry} {is : List ItemLine} {L : Nat}, EntriesOf es is → (∀ j ∈ is, j.mark.length = L) → (∀ e ∈ es, e.level = L) ∧ es.length = is.length := by
      intro es is L he
      induction he with
      | nil => intro _; exact ⟨(by intro e he; cases he), rfl⟩
      | @cons e es i is hm hs ih =>
        intro hall
        obtain ⟨i1, i2⟩ := ih (fun x hx => hall x (by simp [hx]))
        refine ⟨fun x hx => ?_, by simp [i2]⟩
        rcases List.mem_cons.1 hx with rfl | hx
        · have h1 := hall i (by simp)
          rw [← hm] at h1
          exact h1
        · exact i1 x hx
    obtain ⟨a1, a2⟩ := hall (L := i.mark.length) g3 (fun j hj => by rcases List.mem_cons.1 hj with rfl | hj
                                                                    · rfl
                                                                    · exact hflat j hj)
    rw [hlen h2 a1, a2]

theorem noLists_latest {P : Parser} {rest ls : List Str} {ln : Nat} {s s1 : DocSt} (h : NoLists P rest ln ls s s1) : s1.latest = s.latest := by
  induction h with
  | nil => rfl
  | construct hk hpre hc h ih => rw [ih, construct_latest hc hk rfl, prelude_latest hpre]

theorem noLists_run {P : Parser} (hP : Clean P) {rest ls : List Str} {ln : Nat} {s s1 : DocSt} (h : NoLists P rest ln ls s s1) :
    P.run ln 0 (ls ++ rest) s = P.run (ln + ls.length) 0 rest s1 := by
  induction h with
  | nil => rfl
  | @construct ln pre ls after s s1 s2 s3 as k a hk hpre hc h ih =>
    have h1 : P.run ln 0 (pre ++ (ls ++ (after ++ rest))) s = P.run (ln + pre.length) 0 (ls ++ (after ++ rest)) s1 := by
      rcases prelude_run hpre with rfl | h
      · cases hpre; rfl
      · exact h
    have h2 := (construct_reads hP hc).ok s2 rfl
    have e : pre ++ ls ++ after ++ rest = pre ++ (ls ++ (after ++ rest)) := by simp
    have e2 : ln + pre.length + ls.length + after.length = ln + (pre ++ ls ++ after).length := by simp; omega
    rw [e, h1, h2, ih, e2]

/-- C40: automatic numbering continues. A list whose lines all have the same level starts at `st` and has `k` lines; other constructs
follow, then, after its arguments with `start=auto`, a list. It starts at `st + k`.
What is missing to the full property: the number left by a list counts the nested lists among its children, is also set by
lists that are not numbered, and is 0 before the first list (see `C40_counts_nested`, `C40_counts_bullets`, `C40_first_auto`). -/
theorem C40_continues_partial {P : Parser} (hP : Clean P) {ln : Nat} {i j : ItemLine} {is js : List ItemLine} {between pre rest : List Str}
    {s s' : DocSt}
    (hi : ∀ l ∈ i :: is, l.Ok ∧ l.mark.length = i.mark.length) (hj : ∀ l ∈ j :: js, l.Ok ∧ j.mark.length ≤ l.mark.length)
    (hr1 : AfterList i.mark.length (between ++ (pre ++ ((j :: js).map (·.line) ++ rest)))) (hr2 : AfterList j.mark.length rest)
    (h : P.run ln 0 ((i :: is).map (·.line) ++ (between ++ (pre ++ ((j :: js).map (·.line) ++ rest)))) s = .ok s') :
    ∃ s2 st, StartOf (args s) s.latest st ∧
      (∀ s3 s4 as, NoLists P (pre ++ ((j :: js).map (·.line) ++ rest)) (ln + (i :: is).length) between s2 s3 →
        Prelude P ((j :: js).map (·.line) ++ rest) (ln + (i :: is).length + between.length) 0 pre s3 as s4 →
        Dict.get? (args s4).named c%"start" = some c%"auto" →
        ∃ s5 keep ctx ns, Spec.allowed s4 = .ok keep ∧
          s5.nodes = s4.nodes ++ (if keep then [Node.new (.list (j.mark.head? == some '#') true (st + (i :: is).length)) ctx ns (args s4) s4.labelBuf] else []) ∧
          P.run (ln + (i :: is).length + between.length + pre.length + (j :: js).length) 0 rest s5 = .ok s') := by
  obtain ⟨s2, ns, st, keep, ctx, q1, q2, q3, q4, q5, q6, q7⟩ := C40_start (fun l hl => ⟨(hi l hl).1, by rw [(hi l hl).2]; exact Nat.le_refl _⟩) hr1 h
  refine ⟨s2, st, q1, fun s3 s4 as hb hp hauto => ?_⟩
  rw [noLists_run hP hb] at q7
  have h1 : P.run (ln + (i :: is).length + between.length) 0 (pre ++ ((j :: js).map (·.line) ++ rest)) s3 =
      P.run (ln + (i :: is).length + between.length + pre.length) 0 ((j :: js).map (·.line) ++ rest) s4 := by
    rcases prelude_run hp with rfl | h
    · cases hp; rfl
    · exact h
  rw [h1] at q7
  obtain ⟨s5, ns', st', keep', ctx', p1, p2, p3, p4, p5, p6, p7⟩ := C40_start hj hr2 q7
  have hlat : s4.latest = st + (i :: is).length := by
    rw [prelude_latest hp, noLists_latest hb, q2, q6 (fun l hl => (hi l (by simp [hl])).2)]
  have hst : st' = st + (i :: is).length := by
    rw [← hlat]
    cases p1 with
    | default h => rw [hauto] at h; cases h
    | auto h => rfl
    | number h hv hn => rw [hauto] at h; cases h; exact absurd rfl hv
  rw [hst] at p4
  exact ⟨s5, keep', ctx', ns', p5, p4, p7⟩

/-- The full C40 is false: a nested list counts as an item. Three lines, two of them at the first level: the next list starts at 4. -/
theorem C40_counts_nested :
    listStarts (parseDoc {} 20 c%"# a\n## b\n# c\n\n[start=auto]\n# d") = some [(true, 1), (true, 4)] := by decide +kernel

/-- The full C40 is false: a list that is not numbered counts. -/
theorem C40_counts_bullets :
    listStarts (parseDoc {} 20 c%"# a\n\n* x\n* y\n* z\n\n[start=auto]\n# d") = some [(true, 1), (false, 1), (true, 4)] := by decide +kernel

/-- The full C40 is false: without a previous list, automatic numbering starts at 0. -/
theorem C40_first_auto : listStarts (parseDoc {} 20 c%"[start=auto]\n# d") = some [(true, 0)] := by decide +kernel

/-- Numbering continues in a concrete document. -/
example : listStarts (parseDoc {} 20 c%"[start=7]\n# a\n# b\n\ntext\n\n[start=auto]\n# d\n# e\n\n[start=auto]\n# f") =
    some [(true, 7), (true, 9), (true, 11)] := by decide +kernel

/-- `start=12` is the number 12. -/
example : pyInt c%"12" = .ok 12 := pyInt_decimal (by decide) (by decide)

end Mau
