import Verif.Lemmas.DocSteps
import Verif.Spec.Lists

set_option linter.unusedSimpArgs false

/-!
# Lists
-/

namespace Mau
open Spec

/-- The tokens of list lines. -/
def lineToks (ls : List ListLine) : List Token := ls.flatMap fun l => [l.1, l.2]

theorem lineToks_length (ls : List ListLine) : (lineToks ls).length = 2 * ls.length := by
  induction ls with
  | nil => rfl
  | cons l ls ih =>
    have : lineToks (l :: ls) = l.1 :: l.2 :: lineToks ls := rfl
    rw [this]; simp [ih]; omega

theorem item_gives {P : Parser} {k : Nat} {s : DocSt} {l : ListLine} {pre ts : List Token} (hp : pre.length = k) (ht : l.2.type = .TEXT) :
    Gives (k + 1) (P.item s l) (listItem P.fuel (pre ++ l.2 :: ts) l.1 { s with next := k }) := by
  unfold Parser.item listItem
  have h1 : (pre ++ l.2 :: ts)[k]? = some l.2 := by
    rw [List.getElem?_append_right (by omega)]; simp [hp]
  refine Gives.after (get_at h1 (chk_type ht)) ?_
  refine Gives.seq inline_gives fun r hr => ?_
  cases r.1.getLast? with
  | none => intro _; rfl
  | some l => rfl

theorem items_length {P : Parser} {ls : List ListLine} {s s' : DocSt} {es : List Entry} (h : P.items s ls = .ok (es, s')) :
    es.map (·.1) = ls.map (·.1) := by
  induction ls generalizing s s' es with
  | nil => cases h; rfl
  | cons l ls ih =>
    unfold Parser.items at h
    obtain ⟨r, hr, h⟩ := bind_ok_except h
    obtain ⟨rs, hrs, h⟩ := bind_ok_except h
    cases h
    simp [ih hrs]

theorem items_append {P : Parser} {xs ys : List ListLine} {s : DocSt} :
    P.items s (xs ++ ys) = (P.items s xs >>= fun r => P.items r.2 ys >>= fun r2 => .ok (r.1 ++ r2.1, r2.2)) := by
  induction xs generalizing s with
  | nil =>
    change P.items s ys = (P.items s ys >>= fun r2 => _)
    cases P.items s ys <;> rfl
  | cons l xs ih =>
    change (P.item s l >>= fun r => _) = ((P.item s l >>= fun r => _) >>= _)
    cases P.item s l with
    | error e => rfl
    | ok r =>
      change (P.items r.2 (xs ++ ys) >>= fun rs => _) = ((P.items r.2 xs >>= fun rs => _) >>= _)
      rw [ih]
      cases P.items r.2 xs with
      | error e => rfl
      | ok rs =>
        change ((P.items rs.2 ys >>= fun r2 => _) >>= _) = (P.items rs.2 ys >>= _)
        cases P.items rs.2 ys <;> rfl

/-- What ends a list of level `L`: the end, an empty line, or a shallower item. -/
def EndsList (L : Nat) (u : Token) : Prop :=
  ((u.type = .EOF ∨ u.type = .EOL) ∧ u.value = []) ∨ (u.type = .LIST ∧ u.value.length < L)

/-- The result of the list functions. -/
def GivesList (k L : Nat) (x : Except Err (List Entry × DocSt)) (r : PRes DocSt (List Node)) : Prop :=
  match x with
  | .ok (es, s') => ∃ ns, Lists L es ns ∧ r = .ok ns { s' with next := k }
  | .error e => e ≠ .token → r = .err e

theorem isOrdered_mark {t : Token} (h : t.value ≠ []) : isOrdered t = .ok (numbered t) := by
  unfold isOrdered numbered
  cases hv : t.value with
  | nil => exact absurd hv h
  | cons c cs => simp

theorem lists_ne {L : Nat} {e : Entry} {es : List Entry} {ns : List Node} (h : Lists L (e :: es) ns) : ns ≠ [] := by
  cases h <;> simp

theorem takeWhile_split {α : Type} (p : α → Bool) (l : List α) : ∃ a b, l = a ++ b ∧ (∀ x ∈ a, p x = true) ∧ (∀ x ∈ b.head?, p x = false) := by
  induction l with
  | nil => exact ⟨[], [], rfl, by simp, by simp⟩
  | cons x l ih =>
    cases hx : p x with
    | false => exact ⟨[], x :: l, rfl, by simp, by simpa using hx⟩
    | true =>
      obtain ⟨a, b, h1, h2, h3⟩ := ih
      exact ⟨x :: a, b, by simp [h1], by simpa [hx] using h2, h3⟩

theorem listLoop_run {P : Parser} (m : Nat) : ∀ (ls : List ListLine) (L n : Nat) (pre ts : List Token) (u : Token) (s : DocSt),
    ls.length ≤ m → 2 * ls.length < n → (∀ l ∈ ls, l.1.type = .LIST ∧ l.2.type = .TEXT ∧ l.1.value ≠ [] ∧ L ≤ l.1.value.length) → EndsList L u →
    GivesList (pre.length + 2 * ls.length) L (P.items s ls)
      (listLoop P.fuel (pre ++ (lineToks ls ++ u :: ts)) n L { s with next := pre.length }) := by
  induction m with
  | zero =>
    intro ls L n pre ts u s hm hn hls hu
    have : ls = [] := List.length_eq_zero_iff.1 (by omega)
    subst this
    obtain ⟨n, rfl⟩ : ∃ k, n = k + 1 := ⟨n - 1, by omega⟩
    refine ⟨[], .nil _, ?_⟩
    unfold listLoop
    have h1 : (pre ++ (lineToks [] ++ u :: ts))[pre.length]? = some u := by
      rw [List.getElem?_append_right (by omega)]; simp [lineToks]
    refine (DM.bind_of_ok (peek_at h1 chk_any)).trans ?_
    rcases hu with hu | ⟨h2, h3⟩
    · rw [if_pos hu]; rfl
    · rw [if_neg (by rw [h2]; simp), if_neg (by simp [h2]), if_neg (by omega), if_neg (by omega)]; rfl
  | succ m ih =>
    intro ls L n pre ts u s hm hn hls hu
    cases ls with
    | nil => exact ih [] L n pre ts u s (by simp) hn hls hu
    | cons l ls =>
      obtain ⟨n, rfl⟩ : ∃ k, n = k + 1 := ⟨n - 1, by omega⟩
      obtain ⟨hl1, hl2, hl3, hl4⟩ := hls l (by simp)
      have etoks : pre ++ (lineToks (l :: ls) ++ u :: ts) = pre ++ l.1 :: l.2 :: (lineToks ls ++ u :: ts) := rfl
      rw [etoks]
      unfold listLoop
      have h1 : (pre ++ l.1 :: l.2 :: (lineToks ls ++ u :: ts))[pre.length]? = some l.1 := by
        rw [List.getElem?_append_right (by omega)]; simp
      have hpk : DM.peek (pre ++ l.1 :: l.2 :: (lineToks ls ++ u :: ts)) (·.peek) { s with next := pre.length } =
        .ok l.1 { s with next := pre.length } := peek_at h1 chk_any
      rw [DM.bind_of_ok hpk, if_neg (by rw [hl1]; simp), if_neg (by simp [hl1])]
      by_cases hlev : l.1.value.length = L
      · rw [if_pos hlev]
        have hgt : DM.tm (pre ++ l.1 :: l.2 :: (lineToks ls ++ u :: ts)) (·.get) { s with next := pre.length } =
          .ok l.1 { s with next := pre.length + 1 } := get_at h1 chk_any
        rw [DM.bind_of_ok hgt]
        have hi := item_gives (P := P) (k := pre.length + 1) (s := s) (l := l) (pre := pre ++ [l.1]) (ts := lineToks ls ++ u :: ts) (by simp) hl2
        rw [show pre ++ [l.1] ++ l.2 :: (lineToks ls ++ u :: ts) = pre ++ l.1 :: l.2 :: (lineToks ls ++ u :: ts) by simp] at hi
        unfold Parser.items
        cases hit : P.item s l with
        | error e =>
          rw [hit] at hi
          intro he
          exact DM.bind_of_err (hi he)
        | ok r =>
          rw [hit] at hi
          rw [DM.bind_of_ok hi]
          have hrec := ih ls L n (pre ++ [l.1, l.2]) ts u r.2 (by simp at hm; omega) (by simp at hn; omega) (fun l h => hls l (by simp [h])) hu
          rw [show pre ++ [l.1, l.2] ++ (lineToks ls ++ u :: ts) = pre ++ l.1 :: l.2 :: (lineToks ls ++ u :: ts) by simp,
            show (pre ++ [l.1, l.2]).length = pre.length + 1 + 1 by simp] at hrec
          change GivesList _ L (P.items r.2 ls >>= _) _
          cases hits : P.items r.2 ls with
          | error e =>
            rw [hits] at hrec
            intro he
            exact DM.bind_of_err (hrec he)
          | ok rs =>
            rw [hits] at hrec
            obtain ⟨ns, hns, hrun⟩ := hrec
            refine ⟨r.1 :: ns, .item hlev hns, ?_⟩
            rw [DM.bind_of_ok hrun]
            change PRes.ok (r.1 :: ns) _ = _
            simp only [List.length_cons]
            rw [show pre.length + 1 + 1 + 2 * ls.length = pre.length + 2 * (ls.length + 1) by omega]
      · rw [if_neg hlev, if_pos (by omega)]
        rw [DM.bind_of_ok (a := numbered l.1) (s1 := { s with next := pre.length }) (by rw [isOrdered_mark hl3]; rfl)]
        obtain ⟨inside, after, rfl, hin, hout⟩ := takeWhile_split (fun x : ListLine => decide (l.1.value.length ≤ x.1.value.length)) ls
        obtain ⟨n, rfl⟩ : ∃ k, n = k + 1 := ⟨n - 1, by simp at hn; omega⟩
        -- the token after the nested list
        obtain ⟨v, vs, hv, hvs⟩ : ∃ v vs, lineToks after ++ u :: ts = v :: vs ∧ EndsList l.1.value.length v := by
          cases after with
          | nil =>
            refine ⟨u, ts, rfl, ?_⟩
            rcases hu with hu | ⟨h2, h3⟩
            · exact .inl hu
            · exact .inr ⟨h2, by omega⟩
          | cons a as =>
            refine ⟨a.1, a.2 :: (lineToks as ++ u :: ts), rfl, .inr ⟨(hls a (by simp)).1, ?_⟩⟩
            have := hout a (by simp)
            simpa using this
        have happ : lineToks (inside ++ after) ++ u :: ts = lineToks inside ++ v :: vs := by
          rw [← hv]; simp [lineToks]
        rw [happ] at h1 ⊢
        have hsub : GivesList (pre.length + 2 + 2 * inside.length) l.1.value.length (P.items s (l :: inside))
            (listNodes P.fuel (pre ++ l.1 :: l.2 :: (lineToks inside ++ v :: vs)) (n + 1) { s with next := pre.length }) := by
          unfold listNodes
          have hgt : DM.tm (pre ++ l.1 :: l.2 :: (lineToks inside ++ v :: vs)) (·.get (some .LIST)) { s with next := pre.length } =
            .ok l.1 { s with next := pre.length + 1 } := get_at h1 (chk_type hl1)
          rw [DM.bind_of_ok hgt]
          have hi := item_gives (P := P) (k := pre.length + 1) (s := s) (l := l) (pre := pre ++ [l.1]) (ts := lineToks inside ++ v :: vs) (by simp) hl2
          rw [show pre ++ [l.1] ++ l.2 :: (lineToks inside ++ v :: vs) = pre ++ l.1 :: l.2 :: (lineToks inside ++ v :: vs) by simp] at hi
          unfold Parser.items
          cases hit : P.item s l with
          | error e =>
            rw [hit] at hi
            intro he
            exact DM.bind_of_err (hi he)
          | ok r =>
            rw [hit] at hi
            rw [DM.bind_of_ok hi]
            have hrec := ih inside l.1.value.length n (pre ++ [l.1, l.2]) vs v r.2 (by simp at hm; omega) (by simp at hn; omega)
              (fun x h => ⟨(hls x (by simp [h])).1, (hls x (by simp [h])).2.1, (hls x (by simp [h])).2.2.1, by simpa using hin x h⟩) hvs
            rw [show pre ++ [l.1, l.2] ++ (lineToks inside ++ v :: vs) = pre ++ l.1 :: l.2 :: (lineToks inside ++ v :: vs) by simp,
              show (pre ++ [l.1, l.2]).length = pre.length + 1 + 1 by simp] at hrec
            change GivesList _ _ (P.items r.2 inside >>= _) _
            cases hits : P.items r.2 inside with
            | error e =>
              rw [hits] at hrec
              intro he
              exact DM.bind_of_err (hrec he)
            | ok rs =>
              rw [hits] at hrec
              obtain ⟨ns, hns, hrun⟩ := hrec
              refine ⟨r.1 :: ns, .item rfl hns, ?_⟩
              rw [DM.bind_of_ok hrun]
              rfl
        rw [show l :: (inside ++ after) = (l :: inside) ++ after from rfl, items_append]
        cases hits : P.items s (l :: inside) with
        | error e =>
          rw [hits] at hsub
          intro he
          exact DM.bind_of_err (hsub he)
        | ok rs =>
          rw [hits] at hsub
          obtain ⟨subs, hsubs, hrun⟩ := hsub
          rw [DM.bind_of_ok hrun]
          obtain ⟨es, se⟩ := rs
          obtain ⟨e, es', rfl⟩ : ∃ e es', es = e :: es' := by
            have := items_length hits
            cases es with
            | nil => simp at this
            | cons e es' => exact ⟨_, _, rfl⟩
          have he1 : e.1 = l.1 := by have := items_length hits; simp at this; exact this.1
          have hlast : ∃ last, subs.getLast? = some last := by
            cases hg : subs.getLast? with
            | none => exact absurd (List.getLast?_eq_none_iff.1 hg) (lists_ne hsubs)
            | some x => exact ⟨x, rfl⟩
          obtain ⟨last, hlast⟩ := hlast
          rw [hlast]
          simp only
          have hrec := ih after L (n + 1) (pre ++ l.1 :: l.2 :: lineToks inside) ts u se (by simp at hm; omega) (by simp at hn; omega)
            (fun x h => hls x (by simp [h])) hu
          rw [hv] at hrec
          rw [show pre ++ l.1 :: l.2 :: lineToks inside ++ v :: vs = pre ++ l.1 :: l.2 :: (lineToks inside ++ v :: vs) by simp,
            show (pre ++ l.1 :: l.2 :: lineToks inside).length = pre.length + 2 + 2 * inside.length by simp [lineToks_length]; omega] at hrec
          change GivesList _ L (P.items se after >>= _) _
          cases hits2 : P.items se after with
          | error e =>
            rw [hits2] at hrec
            intro he
            exact DM.bind_of_err (hrec he)
          | ok rs2 =>
            rw [hits2] at hrec
            obtain ⟨ns, hns, hrun2⟩ := hrec
            refine ⟨_, .sub (last := last) (e := e) (inside := es') (after := rs2.1) (subs := subs) (ns := ns) ?_ ?_ hns ?_ hlast, ?_⟩
            · show L < e.1.value.length
              rw [he1]; omega
            · have : e.level = l.1.value.length := by unfold Entry.level; rw [he1]
              rw [this]; exact hsubs
            · intro f hf
              have hl := items_length (es := rs2.1) (s' := rs2.2) hits2
              cases h2 : rs2.1 with
              | nil => rw [h2] at hf; simp at hf
              | cons g gs =>
                rw [h2] at hf hl
                simp at hf
                subst hf
                cases after with
                | nil => simp at hl
                | cons a as =>
                  simp at hl
                  have := hout a (by simp)
                  simp at this
                  show g.1.value.length < e.1.value.length
                  rw [he1, hl.1]; exact this
            · rw [DM.bind_of_ok hrun2, he1]
              refine congrArg (fun k => PRes.ok _ { rs2.2 with next := k }) ?_
              simp only [List.length_append, List.length_cons]
              omega

theorem item_keeps {P : Parser} {s : DocSt} {l : ListLine} {r : Node × DocSt} (h : P.item s l = .ok r) :
    ∃ uid fm lm pl, r.2 = { s with uid := uid, footnoteMacros := fm, linkMacros := lm, places := pl } := by
  unfold Parser.item at h
  obtain ⟨a, ha, h⟩ := bind_ok_except h
  split at h
  · cases h
  · cases h; exact inline_keeps ha

theorem items_keeps {P : Parser} {ls : List ListLine} {s : DocSt} {r : List Entry × DocSt} (h : P.items s ls = .ok r) :
    ∃ uid fm lm pl, r.2 = { s with uid := uid, footnoteMacros := fm, linkMacros := lm, places := pl } := by
  induction ls generalizing s r with
  | nil => cases h; exact ⟨_, _, _, _, rfl⟩
  | cons l ls ih =>
    unfold Parser.items at h
    obtain ⟨a, ha, h⟩ := bind_ok_except h
    obtain ⟨b, hb, h⟩ := bind_ok_except h
    cases h
    obtain ⟨u, f, m, pl, e⟩ := item_keeps ha
    obtain ⟨u2, f2, m2, pl2, e2⟩ := ih hb
    exact ⟨u2, f2, m2, pl2, by rw [e2, e]⟩

/-- The processing function for lists on a run of list lines that are at least as deep as the first. -/
theorem list_does {P : Parser} {s s1 : DocSt} {l : ListLine} {ls : List ListLine} {ts : List Token} {u : Token} {es : List Entry}
    (hls : ∀ x ∈ l :: ls, x.1.type = .LIST ∧ x.2.type = .TEXT ∧ x.1.value ≠ [] ∧ l.1.value.length ≤ x.1.value.length)
    (hu : EndsList l.1.value.length u) (hits : P.items s (l :: ls) = .ok (es, s1)) :
    ∃ ns, Lists l.1.value.length es ns ∧
      Does (2 * (l :: ls).length) (listStep s1 l.1 ns) (listProc P.fuel (lineToks (l :: ls) ++ u :: ts) (start s)) := by
  obtain ⟨h1, h2, h3, _⟩ := hls l (by simp)
  have hr := listLoop_run (P := P) (ls.length) ls l.1.value.length ((lineToks (l :: ls) ++ u :: ts).length + 1) [l.1, l.2] ts u
  unfold Parser.items at hits
  obtain ⟨r, hr1, hits⟩ := bind_ok_except hits
  obtain ⟨rs, hrs, hits⟩ := bind_ok_except hits
  cases hits
  have hr := hr r.2 (Nat.le_refl _) (by simp [lineToks_length]; omega) (fun x hx => hls x (by simp [hx])) hu
  rw [hrs] at hr
  obtain ⟨ns, hns, hrun⟩ := hr
  refine ⟨r.1 :: ns, .item rfl hns, ?_⟩
  have etoks : lineToks (l :: ls) ++ u :: ts = l.1 :: l.2 :: (lineToks ls ++ u :: ts) := rfl
  have etoks2 : [l.1, l.2] ++ (lineToks ls ++ u :: ts) = l.1 :: l.2 :: (lineToks ls ++ u :: ts) := rfl
  rw [etoks2] at hrun
  rw [etoks] at hrun ⊢
  unfold listProc
  refine Does.after (peek_at (t := l.1) rfl (chk_type h1)) ?_
  refine Does.after (a := numbered l.1) (s1 := start s) (by rw [isOrdered_mark h3]; rfl) ?_
  have hn : listNodes P.fuel (l.1 :: l.2 :: (lineToks ls ++ u :: ts)) ((l.1 :: l.2 :: (lineToks ls ++ u :: ts)).length + 2) (start s) =
      .ok (r.1 :: ns) { rs.2 with next := 2 * (l :: ls).length } := by
    unfold listNodes
    refine (DM.bind_of_ok (get_at (t := l.1) rfl (chk_type h1))).trans ?_
    have hi := item_gives (P := P) (k := 1) (s := s) (l := l) (pre := [l.1]) (ts := lineToks ls ++ u :: ts) rfl h2
    rw [hr1] at hi
    refine (DM.bind_of_ok hi).trans ?_
    refine (DM.bind_of_ok hrun).trans ?_
    refine congrArg (fun k => PRes.ok _ { rs.2 with next := k }) ?_
    simp; omega
  refine Does.after hn ?_
  unfold listStep
  refine Does.after (m := popArgs) rfl ?_
  refine Does.after (m := DM.get) rfl ?_
  refine Does.lift fun st hst => ?_
  refine Does.after (m := DM.modify _) (a := ()) rfl ?_
  refine Does.lift fun ctx hctx => ?_
  refine Does.after (m := popLabels) rfl ?_
  exact Does.put (s := { rs.2 with latest := st.2 })

/-- The processing function for lists if an item fails. -/
theorem list_fails {P : Parser} {s : DocSt} {l : ListLine} {ls : List ListLine} {ts : List Token} {u : Token} {e : Err}
    (hls : ∀ x ∈ l :: ls, x.1.type = .LIST ∧ x.2.type = .TEXT ∧ x.1.value ≠ [] ∧ l.1.value.length ≤ x.1.value.length)
    (hu : EndsList l.1.value.length u) (hits : P.items s (l :: ls) = .error e) (he : e ≠ .token) :
    listProc P.fuel (lineToks (l :: ls) ++ u :: ts) (start s) = .err e := by
  obtain ⟨h1, h2, h3, _⟩ := hls l (by simp)
  have hr := listLoop_run (P := P) (ls.length) ls l.1.value.length ((lineToks (l :: ls) ++ u :: ts).length + 1) [l.1, l.2] ts u
  have etoks : lineToks (l :: ls) ++ u :: ts = l.1 :: l.2 :: (lineToks ls ++ u :: ts) := rfl
  have etoks2 : [l.1, l.2] ++ (lineToks ls ++ u :: ts) = l.1 :: l.2 :: (lineToks ls ++ u :: ts) := rfl
  have hi := item_gives (P := P) (k := 1) (s := s) (l := l) (pre := [l.1]) (ts := lineToks ls ++ u :: ts) rfl h2
  unfold listProc
  rw [etoks]
  refine (DM.bind_of_ok (peek_at (t := l.1) rfl (chk_type h1))).trans ?_
  refine (DM.bind_of_ok (a := numbered l.1) (s1 := start s) (f := DM.lift (isOrdered l.1)) (by rw [isOrdered_mark h3]; rfl)).trans ?_
  refine DM.bind_of_err ?_
  unfold listNodes
  refine (DM.bind_of_ok (get_at (t := l.1) rfl (chk_type h1))).trans ?_
  unfold Parser.items at hits
  cases hit : P.item s l with
  | error e' =>
    rw [hit] at hits hi
    cases hits
    exact DM.bind_of_err (hi he)
  | ok r =>
    rw [hit] at hits hi
    refine (DM.bind_of_ok hi).trans ?_
    have hr := hr r.2 (Nat.le_refl _) (by simp [lineToks_length]; omega) (fun x hx => hls x (by simp [hx])) hu
    rw [etoks2] at hr
    rw [etoks] at hr
    cases hrs : P.items r.2 ls with
    | error e' =>
      rw [hrs] at hr
      have : e' = e := by
        change ((P.items r.2 ls) >>= _) = _ at hits
        rw [hrs] at hits
        cases hits; rfl
      subst this
      exact DM.bind_of_err (hr he)
    | ok rs =>
      change ((P.items r.2 ls) >>= _) = _ at hits
      rw [hrs] at hits
      cases hits

end Mau
