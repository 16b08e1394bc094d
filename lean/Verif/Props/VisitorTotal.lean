import Verif.Props.Visitor
import Verif.Lemmas.Occur

set_option linter.unusedSimpArgs false

/-!
# C54: visiting succeeds unless references form a cycle
-/

namespace Mau
open Spec

theorem kids_smaller {c m : Node} (h : c ∈ kids m) : sizeOf c < sizeOf m := by
  obtain ⟨d, a, x, cs, ls, es⟩ := m
  unfold kids at h
  simp only [Node.content, Node.labels, Node.extra, List.mem_append, List.mem_map] at h
  rcases h with (h | ⟨kv, h, rfl⟩) | h
  · have := List.sizeOf_lt_of_mem h
    simp; omega
  · have h1 := List.sizeOf_lt_of_mem h
    have h2 : sizeOf kv.2 < sizeOf kv := by obtain ⟨k, v⟩ := kv; simp; omega
    simp; omega
  · have := List.sizeOf_lt_of_mem h
    simp; omega

/-- Induction over a tree. -/
theorem node_induction {P : Node → Prop} (h : ∀ n, (∀ c ∈ kids n, P c) → P n) (n : Node) : P n := by
  have : ∀ k, ∀ n : Node, sizeOf n < k → P n := by
    intro k
    induction k with
    | zero => intro n hn; omega
    | succ k ih =>
      intro n hn
      refine h n fun c hc => ih c ?_
      have := kids_smaller hc
      omega
  exact this _ n (Nat.lt_succ_self _)

theorem visitAll_total {v : Place → Node → Except Err VData} {ns : List Node}
    (h : ∀ n ∈ ns, ∀ p, ∃ d, v p n = .ok d) (at_ : Place) (k i : Nat) : ∃ xs, visitAll v at_ k i ns = .ok xs := by
  induction ns generalizing i with
  | nil => exact ⟨[], rfl⟩
  | cons n ns ih =>
    obtain ⟨d, hd⟩ := h n (by simp) ((k, i) :: at_)
    obtain ⟨xs, hxs⟩ := ih (fun m hm => h m (by simp [hm])) (i + 1)
    exact ⟨d :: xs, by unfold visitAll; rw [hd, hxs]; rfl⟩

theorem visitDict_total {v : Place → Node → Except Err VData} {ns : List (Str × Node)}
    (h : ∀ n ∈ ns, ∀ p, ∃ d, v p n.2 = .ok d) (at_ : Place) (k i : Nat) :
    ∃ xs, visitDict v at_ k i ns = .ok xs := by
  induction ns generalizing i with
  | nil => exact ⟨[], rfl⟩
  | cons n ns ih =>
    obtain ⟨key, n⟩ := n
    obtain ⟨d, hd⟩ := h (key, n) (by simp) ((k, i) :: at_)
    obtain ⟨xs, hxs⟩ := ih (fun m hm => h m (by simp [hm])) (i + 1)
    exact ⟨(key, d) :: xs, by unfold visitDict; rw [hd, hxs]; rfl⟩

/-- The identity a node refers to. -/
def refersTo (d : NodeData) : Option Nat := (reference d).bind (·.2)

/-- If the children and the node referred to can be visited, the node can be visited. -/
theorem accept_total {e : VisitEnv} {v : Place → Node → Except Err VData} {n : Node}
    (hk : ∀ c ∈ kids n, ∀ p, ∃ d, v p c = .ok d)
    (hr : ∀ id m, refersTo n.data = some id → e.objs.find? (fun x => x.data.id == id) = some m →
      ∀ p, ∃ d, v p m = .ok d) (at_ : Place) : ∃ d, acceptNode e (baseOps v) at_ n = .ok d := by
  have hc : ∀ c ∈ n.content, ∀ p, ∃ d, v p c = .ok d := fun c hc => hk c (by simp [kids, hc])
  obtain ⟨xs, hxs⟩ := visitAll_total hc at_ 0 0
  obtain ⟨ys, hys⟩ := visitAll_total (fun c hc => hk c (by simp [kids, hc]) : ∀ c ∈ n.extra, _) at_ 2 0
  obtain ⟨ls, hls⟩ := visitDict_total (ns := n.labels)
    (fun c hc => hk c.2 (by simp only [kids, List.mem_append, List.mem_map]; exact .inl (.inr ⟨c, hc, rfl⟩))) at_ 1 0
  obtain ⟨is, his⟩ := visitDict_total (v := v) (ns := n.content.map fun i =>
      (match i.data with | .blockgroupItem _ pos => pos | _ => ([] : Str), i)) (by
    intro kv hkv
    obtain ⟨c, hc', rfl⟩ := List.mem_map.1 hkv
    exact hc c hc') at_ 0 0
  have hlist : (baseOps v).list n at_ 0 n.content = .ok (.list xs) := by
    show (visitAll v at_ 0 0 n.content >>= _) = _
    rw [hxs]; rfl
  have hplain : (baseOps v).list n at_ 2 n.extra = .ok (.list ys) := by
    show (visitAll v at_ 2 0 n.extra >>= _) = _
    rw [hys]; rfl
  have hcont : contentData (baseOps v) at_ n = .ok [(c%"content", .list xs)] := by
    unfold contentData; rw [hlist]; rfl
  have hlab : labelsData (baseOps v) at_ n = .ok [(c%"labels", .obj ls)] := by
    unfold labelsData
    show (visitDict v at_ 1 0 n.labels >>= _) = _
    rw [hls]; rfl
  have href : ∀ r, (∀ id, r = some id → refersTo n.data = some id) → ∃ x, visitRef e (baseOps v) r = .ok x := by
    intro r h
    unfold visitRef
    cases r with
    | none => exact ⟨_, rfl⟩
    | some id =>
      dsimp only
      cases hf : e.objs.find? (fun x => x.data.id == id) with
      | none => exact ⟨_, rfl⟩
      | some m => exact hr id m (h id rfl) hf _
  have hone : (baseOps v).one = v := rfl
  have hdata : (baseOps v).data = v := rfl
  have main : ∃ fs, nodeFields e (baseOps v) at_ n = .ok fs := by
    unfold nodeFields
    cases hn : n.data with
    | macroHeader a b r =>
      obtain ⟨x, hx⟩ := href r (by rintro id rfl; rw [hn]; rfl)
      dsimp only; rw [hx, hcont]; exact ⟨_, rfl⟩
    | macroFootnote a b r =>
      obtain ⟨x, hx⟩ := href r (by rintro id rfl; rw [hn]; rfl)
      dsimp only; rw [hx]; exact ⟨_, rfl⟩
    | footnotesItem r =>
      obtain ⟨x, hx⟩ := href (some r) (by rintro id h; cases h; rw [hn]; rfl)
      dsimp only; rw [hx]; exact ⟨_, rfl⟩
    | tocItem r =>
      obtain ⟨x, hx⟩ := href (some r) (by rintro id h; cases h; rw [hn]; rfl)
      dsimp only; rw [hx, hlist]; exact ⟨_, rfl⟩
    | blockgroupItem g pos =>
      dsimp only
      cases hcn : n.content with
      | nil => exact ⟨_, rfl⟩
      | cons b bs =>
        obtain ⟨x, hx⟩ := hc b (by rw [hcn]; simp) ((0, 0) :: at_)
        dsimp only
        rw [hone, hdata, hx]; exact ⟨_, rfl⟩
    | sourceLine a b c =>
      dsimp only
      cases hcn : n.content with
      | nil => exact ⟨_, rfl⟩
      | cons b bs =>
        obtain ⟨x, hx⟩ := hc b (by rw [hcn]; simp) ((0, 0) :: at_)
        dsimp only
        rw [hone, hx]; exact ⟨_, rfl⟩
    | blockgroup a b =>
      dsimp only
      rw [hone, hlab]
      exact ⟨_, by erw [his]; rfl⟩
    | _ =>
      dsimp only
      first
      | exact ⟨_, rfl⟩
      | (rw [hcont, hlab]; exact ⟨_, rfl⟩)
      | (rw [hplain, hlist, hlab]; exact ⟨_, rfl⟩)
      | (rw [hlist, hlab]; exact ⟨_, rfl⟩)
      | (rw [hcont]; exact ⟨_, rfl⟩)
      | (rw [hlab]; exact ⟨_, rfl⟩)
  obtain ⟨fs, hfs⟩ := main
  exact ⟨_, by unfold acceptNode; rw [hfs]; rfl⟩

/-- References do not form cycles: the objects can be ordered so that the references in an object
lead to smaller ones. -/
def Acyclic (objs : List Node) : Prop :=
  ∃ rank : Nat → Nat, ∀ m ∈ objs, ∀ x, Sub x m → ∀ id, refersTo x.data = some id → rank id < rank m.data.id

/-- C54: if the references among headers and footnotes do not form a cycle, visiting a node succeeds;
and it gives its result at every sufficiently large recursion budget. -/
theorem C54_total (e : VisitEnv) (h : Acyclic e.objs) (n : Node) :
    ∃ N, ∀ k, N ≤ k → ∀ at_, ∃ d, visit e k at_ n = .ok d := by
  obtain ⟨rank, hrank⟩ := h
  have key : ∀ r, ∀ n : Node, (∀ x, Sub x n → ∀ id, refersTo x.data = some id → rank id < r) →
      ∃ N, ∀ k, N ≤ k → ∀ at_, ∃ d, visit e k at_ n = .ok d := by
    intro r
    induction r with
    | zero =>
      intro n
      induction n using node_induction with
      | h n ih =>
        intro hn
        have hall : ∀ l : List Node, (∀ c ∈ l, c ∈ kids n) →
            ∃ N, ∀ k, N ≤ k → ∀ c ∈ l, ∀ at_, ∃ d, visit e k at_ c = .ok d := by
          intro l
          induction l with
          | nil => intro _; exact ⟨0, by simp⟩
          | cons c l ihl =>
            intro hl
            obtain ⟨N1, h1⟩ := ih c (hl c (by simp)) (fun x hx => hn x (.kid (hl c (by simp)) hx))
            obtain ⟨N2, h2⟩ := ihl (fun d hd => hl d (by simp [hd]))
            refine ⟨N1 + N2, fun k hk d hd => ?_⟩
            rcases List.mem_cons.1 hd with rfl | hd'
            · exact h1 k (by omega)
            · exact h2 k (by omega) d hd'
        obtain ⟨N, hN⟩ := hall (kids n) (fun _ h => h)
        refine ⟨N + 1, fun k hk at_ => ?_⟩
        cases k with
        | zero => omega
        | succ k =>
          refine accept_total (hN k (by omega)) ?_ at_
          intro id m hid _
          exact absurd (hn n .refl id hid) (Nat.not_lt_zero _)
    | succ r ihr =>
      intro n
      induction n using node_induction with
      | h n ih =>
        intro hn
        have hall : ∀ l : List Node, (∀ c ∈ l, c ∈ kids n) →
            ∃ N, ∀ k, N ≤ k → ∀ c ∈ l, ∀ at_, ∃ d, visit e k at_ c = .ok d := by
          intro l
          induction l with
          | nil => intro _; exact ⟨0, by simp⟩
          | cons c l ihl =>
            intro hl
            obtain ⟨N1, h1⟩ := ih c (hl c (by simp)) (fun x hx => hn x (.kid (hl c (by simp)) hx))
            obtain ⟨N2, h2⟩ := ihl (fun d hd => hl d (by simp [hd]))
            refine ⟨N1 + N2, fun k hk d hd => ?_⟩
            rcases List.mem_cons.1 hd with rfl | hd'
            · exact h1 k (by omega)
            · exact h2 k (by omega) d hd'
        obtain ⟨N, hN⟩ := hall (kids n) (fun _ h => h)
        have hrefN : ∃ M, ∀ k, M ≤ k → ∀ id m, refersTo n.data = some id →
            e.objs.find? (fun x => x.data.id == id) = some m → ∀ p, ∃ d, visit e k p m = .ok d := by
          cases hid : refersTo n.data with
          | none => exact ⟨0, by intro k _ id m h; cases h⟩
          | some id =>
            cases hf : e.objs.find? (fun x => x.data.id == id) with
            | none => exact ⟨0, by intro k _ id' m h h'; cases h; rw [hf] at h'; cases h'⟩
            | some m =>
              have hm := List.mem_of_find?_eq_some hf
              have hmid : m.data.id = id := by
                have := List.find?_some hf
                simpa using this
              have hlt := hn n .refl id hid
              obtain ⟨M, hM⟩ := ihr m (fun x hx id' hid' => by
                have := hrank m hm x hx id' hid'
                rw [hmid] at this
                omega)
              exact ⟨M, by intro k hk id' m' h h'; cases h; rw [hf] at h'; cases h'; exact hM k hk⟩
        obtain ⟨M, hM⟩ := hrefN
        refine ⟨N + M + 1, fun k hk at_ => ?_⟩
        cases k with
        | zero => omega
        | succ k => exact accept_total (hN k (by omega)) (hM k (by omega)) at_
  -- every reference in `n` has a rank below some bound
  have bound : ∀ n : Node, ∃ r, ∀ x, Sub x n → ∀ id, refersTo x.data = some id → rank id < r := by
    intro n
    induction n using node_induction with
    | h n ih =>
      have hall : ∀ l : List Node, (∀ c ∈ l, c ∈ kids n) →
          ∃ r, ∀ c ∈ l, ∀ x, Sub x c → ∀ id, refersTo x.data = some id → rank id < r := by
        intro l
        induction l with
        | nil => intro _; exact ⟨0, by simp⟩
        | cons c l ihl =>
          intro hl
          obtain ⟨r1, h1⟩ := ih c (hl c (by simp))
          obtain ⟨r2, h2⟩ := ihl (fun d hd => hl d (by simp [hd]))
          refine ⟨r1 + r2, fun d hd x hx id hid => ?_⟩
          rcases List.mem_cons.1 hd with rfl | hd'
          · have := h1 x hx id hid; omega
          · have := h2 d hd' x hx id hid; omega
      obtain ⟨r, hr⟩ := hall (kids n) (fun _ h => h)
      cases hid : refersTo n.data with
      | none =>
        refine ⟨r, fun x hx id hx' => ?_⟩
        rcases sub_cases hx with rfl | ⟨c, hc, hs⟩
        · rw [hid] at hx'; cases hx'
        · exact hr c hc x hs id hx'
      | some i =>
        refine ⟨r + rank i + 1, fun x hx id hx' => ?_⟩
        rcases sub_cases hx with rfl | ⟨c, hc, hs⟩
        · rw [hid] at hx'; cases hx'; omega
        · have := hr c hc x hs id hx'; omega
  obtain ⟨r, hr⟩ := bound n
  exact key r n hr

/-- A document with a header that links to itself. -/
def selfLink : List Node :=
  [.new (.header 1 1 none none) Context.empty [.new (.macroHeader 2 c%"x" (some 1)) Context.empty]]

/-- C54: the proviso cannot be dropped. A header whose text links to the header itself is visited for
ever: whatever the recursion budget is, it is exhausted. -/
theorem C54_cycle (k : Nat) (at_ : Place) : ∀ n ∈ selfLink, visit { objs := selfLink } k at_ n = .error .fuel := by
  have key : ∀ k at_, visit { objs := selfLink } k at_
        (.new (.macroHeader 2 c%"x" (some 1)) Context.empty) = .error .fuel ∧
      visit { objs := selfLink } k at_
        (.new (.header 1 1 none none) Context.empty [.new (.macroHeader 2 c%"x" (some 1)) Context.empty])
          = .error .fuel := by
    intro k
    induction k with
    | zero => intro at_; exact ⟨rfl, rfl⟩
    | succ k ih =>
      intro at_
      constructor
      · show (acceptNode _ _ _ _) = _
        unfold acceptNode nodeFields
        simp only [Node.new, Node.data]
        have : visitRef { objs := selfLink } (baseOps (visit { objs := selfLink } k)) (some 1) =
            visit { objs := selfLink } k [(3, 1)] (.new (.header 1 1 none none) Context.empty
              [.new (.macroHeader 2 c%"x" (some 1)) Context.empty]) := rfl
        rw [this, (ih _).2]
        rfl
      · show (acceptNode _ _ _ _) = _
        unfold acceptNode nodeFields
        simp only [Node.new, Node.data]
        unfold contentData
        have : (baseOps (visit { objs := selfLink } k)).list
            (.new (.header 1 1 none none) Context.empty [.new (.macroHeader 2 c%"x" (some 1)) Context.empty])
            at_ 0 [.new (.macroHeader 2 c%"x" (some 1)) Context.empty] = .error .fuel := by
          show (visitAll (visit { objs := selfLink } k) at_ 0 0 _ >>= _) = _
          unfold visitAll
          rw [(ih _).1]
          rfl
        have this' : (baseOps (visit { objs := selfLink } k)).list
            (Node.mk (.header 1 1 none none) {} Context.empty
              [Node.mk (.macroHeader 2 c%"x" (some 1)) {} Context.empty [] [] []] [] []) at_ 0
            (Node.mk (.header 1 1 none none) {} Context.empty
              [Node.mk (.macroHeader 2 c%"x" (some 1)) {} Context.empty [] [] []] [] []).content
              = .error .fuel := this
        rw [this']
        rfl
  intro n hn
  simp only [selfLink, List.mem_cons, List.not_mem_nil, or_false] at hn
  subst hn
  exact (key k at_).2

end Mau
