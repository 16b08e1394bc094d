import Verif.Lemmas.Occur
import Verif.Spec.References

set_option linter.unusedSimpArgs false

/-!
# The invariant of identities

`Core objs lo uid res reg tops rest` is what holds of the trees `tops` and `rest` built by a parser whose counter of identities started at
`lo` and is at `uid`: identities are in this range, one identity belongs to one node, nodes with a registered identity (`reg`) have the
class they were registered for, reserved identities (`res`) are not used yet, headers without internal id are registered, and nodes
that will be completed by a group occur only as elements of `tops`. References point to the objects `objs`.
-/

namespace Mau
open Spec

/-- What an identity is registered for. -/
inductive Tag where
  | mention (name : Str)
  | link (target : Str)
  | header (level : Nat)
  | toc
  | footnotes
  | group (name : Str)

/-- The class of the nodes with a registered identity. -/
def Tag.Fits (t : Tag) (i : Nat) (d : NodeData) : Prop :=
  match t with
  | .mention nm => ∃ r, d = .macroFootnote i nm r
  | .link tg => ∃ r, d = .macroHeader i tg r
  | .header l => ∃ a b, d = .header i l a b
  | .toc => d = .toc i
  | .footnotes => d = .footnotes i
  | .group g => d = .blockgroup i g

theorem resolves_mono {objs objs2 : List Node} (h : ∀ o ∈ objs, o ∈ objs2) {d : NodeData} (hd : Resolves objs d) : Resolves objs2 d := by
  unfold Resolves at hd ⊢
  split <;> first | trivial | skip
  all_goals
    simp only at hd
    obtain ⟨o, ho, hd⟩ := hd
    exact ⟨o, h o ho, hd⟩

structure Core (objs : List Node) (lo uid : Nat) (res : List Nat) (reg : List (Nat × Tag)) (tops rest : List Node) : Prop where
  pos : 0 < lo
  le : lo ≤ uid
  range : ∀ n, Occ n (tops ++ rest) → n.data.id = 0 ∨ lo ≤ n.data.id ∧ n.data.id < uid
  same : ∀ n m, Occ n (tops ++ rest) → Occ m (tops ++ rest) → n.data.id ≠ 0 → n.data.id = m.data.id → n = m
  regRange : ∀ e ∈ reg, lo ≤ e.1 ∧ e.1 < uid
  fits : ∀ e ∈ reg, ∀ n, Occ n (tops ++ rest) → n.data.id = e.1 → e.2.Fits e.1 n.data
  resRange : ∀ i ∈ res, lo ≤ i ∧ i < uid
  resNodup : res.Nodup
  resReg : ∀ i ∈ res, ∀ e ∈ reg, e.1 ≠ i
  resOcc : ∀ i ∈ res, ∀ n, Occ n (tops ++ rest) → n.data.id ≠ i
  headers : ∀ n, Occ n (tops ++ rest) → ∀ i l nm, n.data = .header i l none nm → ∃ l', (i, Tag.header l') ∈ reg
  groupRest : ∀ i g, (i, Tag.group g) ∈ reg → ∀ n, Occ n rest → n.data.id ≠ i
  groupTops : ∀ i g, (i, Tag.group g) ∈ reg → ∀ m ∈ tops, ∀ n, Sub n m → n.data.id = i → n = m
  refs : ∀ n, Occ n (tops ++ rest) → Resolves objs n.data

namespace Core
variable {objs : List Node} {lo uid : Nat} {res : List Nat} {reg reg' : List (Nat × Tag)} {tops tops' rest rest' : List Node}

/-- Forget nodes and registrations (not of headers). -/
theorem mono (h : Core objs lo uid res reg tops rest) (hreg : ∀ e ∈ reg', e ∈ reg) (hhdr : ∀ i l, (i, Tag.header l) ∈ reg → (i, Tag.header l) ∈ reg')
    (htops : ∀ n ∈ tops', n ∈ tops ++ rest) (hrest : ∀ n ∈ rest', n ∈ rest) : Core objs lo uid res reg' tops' rest' := by
  have ho : ∀ n, Occ n (tops' ++ rest') → Occ n (tops ++ rest) := fun n => occ_mono (by
    intro m hm
    rcases List.mem_append.1 hm with hm | hm
    · exact htops m hm
    · exact List.mem_append_right _ (hrest m hm))
  exact {
    pos := h.pos
    le := h.le
    range := fun n hn => h.range n (ho n hn)
    same := fun n m hn hm => h.same n m (ho n hn) (ho m hm)
    regRange := fun e he => h.regRange e (hreg e he)
    fits := fun e he n hn => h.fits e (hreg e he) n (ho n hn)
    resRange := h.resRange
    resNodup := h.resNodup
    resReg := fun i hi e he => h.resReg i hi e (hreg e he)
    resOcc := fun i hi n hn => h.resOcc i hi n (ho n hn)
    headers := fun n hn i l nm hd => by
      obtain ⟨l', hl⟩ := h.headers n (ho n hn) i l nm hd
      exact ⟨l', hhdr i l' hl⟩
    groupRest := fun i g hg n hn => h.groupRest i g (hreg _ hg) n (occ_mono hrest hn)
    groupTops := fun i g hg m hm n hn hid => by
      rcases List.mem_append.1 (htops m hm) with hm | hm
      · exact h.groupTops i g (hreg _ hg) m hm n hn hid
      · exact absurd hid (h.groupRest i g (hreg _ hg) n ⟨m, hm, hn⟩)
    refs := fun n hn => h.refs n (ho n hn) }

theorem nodes (h : Core objs lo uid res reg tops rest) (htops : ∀ n ∈ tops', n ∈ tops ++ rest) (hrest : ∀ n ∈ rest', n ∈ rest) :
    Core objs lo uid res reg tops' rest' := h.mono (fun _ h => h) (fun _ _ h => h) htops hrest

theorem forget (h : Core objs lo uid res reg tops rest) (hrest : ∀ n ∈ rest', n ∈ rest) : Core objs lo uid res reg tops rest' :=
  h.nodes (fun _ hn => List.mem_append_left _ hn) hrest

/-- Give up reserved identities. -/
theorem release {res' : List Nat} (h : Core objs lo uid res reg tops rest) (hr : res'.Sublist res) : Core objs lo uid res' reg tops rest :=
  { h with
    resRange := fun i hi => h.resRange i (hr.subset hi)
    resNodup := hr.nodup h.resNodup
    resReg := fun i hi => h.resReg i (hr.subset hi)
    resOcc := fun i hi => h.resOcc i (hr.subset hi) }

/-- Reserve a new identity. -/
theorem fresh (h : Core objs lo uid res reg tops rest) : Core objs lo (uid + 1) (uid :: res) reg tops rest where
  pos := h.pos
  le := Nat.le_succ_of_le h.le
  range := fun n hn => (h.range n hn).imp id fun ⟨a, b⟩ => ⟨a, Nat.lt_succ_of_lt b⟩
  same := h.same
  regRange := fun e he => ⟨(h.regRange e he).1, Nat.lt_succ_of_lt (h.regRange e he).2⟩
  fits := h.fits
  resRange := by
    intro i hi
    rcases List.mem_cons.1 hi with rfl | hi
    · exact ⟨h.le, Nat.lt_succ_self _⟩
    · exact ⟨(h.resRange i hi).1, Nat.lt_succ_of_lt (h.resRange i hi).2⟩
  resNodup := List.nodup_cons.2 ⟨fun hi => Nat.lt_irrefl _ (h.resRange _ hi).2, h.resNodup⟩
  resReg := by
    intro i hi e he
    rcases List.mem_cons.1 hi with rfl | hi
    · exact Nat.ne_of_lt (h.regRange e he).2
    · exact h.resReg i hi e he
  resOcc := by
    intro i hi n hn
    rcases List.mem_cons.1 hi with rfl | hi
    · rcases h.range n hn with h0 | ⟨_, h1⟩
      · rw [h0]; exact Nat.ne_of_lt (Nat.lt_of_lt_of_le h.pos h.le)
      · exact Nat.ne_of_lt h1
    · exact h.resOcc i hi n hn
  headers := h.headers
  groupRest := h.groupRest
  groupTops := h.groupTops
  refs := h.refs

theorem occ_new {n x : Node} (hk : ∀ c ∈ kids n, c ∈ rest) : Occ x (tops ++ n :: rest) → x = n ∨ Occ x (tops ++ rest) := by
  intro h
  rw [occ_append, occ_cons] at h
  rcases h with h | h | h
  · exact .inr (occ_append.2 (.inl h))
  · rcases sub_cases h with h | h
    · exact .inl h
    · exact .inr (occ_append.2 (.inr (occ_mono hk h)))
  · exact .inr (occ_append.2 (.inr h))

/-- Build a node without identity. -/
theorem build (h : Core objs lo uid res reg tops rest) {n : Node} (hk : ∀ c ∈ kids n, c ∈ rest) (hid : n.data.id = 0) (hh : ∀ l nm, n.data ≠ .header 0 l none nm)
    (hr : Resolves objs n.data) : Core objs lo uid res reg tops (n :: rest) := by
  have hr0 : ∀ e ∈ reg, e.1 ≠ 0 := fun e he e0 => by have := (h.regRange e he).1; have := h.pos; omega
  exact {
    pos := h.pos
    le := h.le
    range := fun x hx => by
      rcases occ_new hk hx with rfl | hx
      · exact .inl hid
      · exact h.range x hx
    same := fun x y hx hy h0 he => by
      rcases occ_new hk hx with rfl | hx
      · exact absurd hid h0
      · rcases occ_new hk hy with rfl | hy
        · rw [hid] at he; exact absurd he h0
        · exact h.same x y hx hy h0 he
    regRange := h.regRange
    fits := fun e he x hx hx' => by
      rcases occ_new hk hx with rfl | hx
      · rw [hid] at hx'; exact absurd hx'.symm (hr0 e he)
      · exact h.fits e he x hx hx'
    resRange := h.resRange
    resNodup := h.resNodup
    resReg := h.resReg
    resOcc := fun i hi x hx => by
      rcases occ_new hk hx with rfl | hx
      · rw [hid]; have := (h.resRange i hi).1; have := h.pos; omega
      · exact h.resOcc i hi x hx
    headers := fun x hx i l nm hd => by
      rcases occ_new hk hx with rfl | hx
      · have : i = 0 := by rw [hd] at hid; exact hid
        subst this
        exact absurd hd (hh l nm)
      · exact h.headers x hx i l nm hd
    groupRest := fun i g hg x hx => by
      rcases occ_new (tops := []) hk (by simpa using hx) with rfl | hx
      · rw [hid]; exact Ne.symm (hr0 _ hg)
      · exact h.groupRest i g hg x (by simpa using hx)
    groupTops := h.groupTops
    refs := fun x hx => by
      rcases occ_new hk hx with rfl | hx
      · exact hr
      · exact h.refs x hx }

/-- Build a node with a reserved identity and register it (not for a group). -/
theorem use {i : Nat} (h : Core objs lo uid (i :: res) reg tops rest) {n : Node} {t : Tag} (hk : ∀ c ∈ kids n, c ∈ rest) (hid : n.data.id = i) (hf : t.Fits i n.data)
    (hg : ∀ g, t ≠ .group g) (hr : Resolves objs n.data := by trivial) : Core objs lo uid res ((i, t) :: reg) tops (n :: rest) := by
  have hi := h.resRange i (by simp)
  have h0 : i ≠ 0 := by have := h.pos; omega
  have hres := List.nodup_cons.1 h.resNodup
  exact {
    pos := h.pos
    le := h.le
    range := fun x hx => by
      rcases occ_new hk hx with rfl | hx
      · exact .inr (hid ▸ hi)
      · exact h.range x hx
    same := fun x y hx hy hx0 he => by
      rcases occ_new hk hx with rfl | hx'
      · rcases occ_new hk hy with rfl | hy
        · rfl
        · exact absurd (he.symm.trans hid) (h.resOcc i (by simp) y hy)
      · skip
        rcases occ_new hk hy with rfl | hy
        · exact absurd (he.trans hid) (h.resOcc i (by simp) x hx')
        · exact h.same x y hx' hy hx0 he
    regRange := fun e he => by
      rcases List.mem_cons.1 he with rfl | he
      · exact hi
      · exact h.regRange e he
    fits := fun e he x hx hx' => by
      rcases List.mem_cons.1 he with rfl | he
      · rcases occ_new hk hx with rfl | hx
        · exact hf
        · exact absurd hx' (h.resOcc i (by simp) x hx)
      · rcases occ_new hk hx with rfl | hx
        · exact absurd (hx'.symm.trans hid) (h.resReg i (by simp) e he)
        · exact h.fits e he x hx hx'
    resRange := fun j hj => h.resRange j (by simp [hj])
    resNodup := hres.2
    resReg := fun j hj e he => by
      rcases List.mem_cons.1 he with rfl | he
      · rintro rfl; exact hres.1 hj
      · exact h.resReg j (by simp [hj]) e he
    resOcc := fun j hj x hx => by
      rcases occ_new hk hx with rfl | hx
      · rw [hid]; rintro rfl; exact hres.1 hj
      · exact h.resOcc j (by simp [hj]) x hx
    headers := fun x hx j l nm hd => by
      rcases occ_new hk hx with rfl | hx
      · have : i = j := by rw [hd] at hid; exact hid.symm
        subst this
        cases t with
        | header l' => exact ⟨l', by simp⟩
        | mention => obtain ⟨r, hr⟩ := hf; rw [hd] at hr; cases hr
        | link => obtain ⟨r, hr⟩ := hf; rw [hd] at hr; cases hr
        | toc => rw [hd] at hf; cases hf
        | footnotes => rw [hd] at hf; cases hf
        | group g => exact absurd rfl (hg g)
      · obtain ⟨l', hl⟩ := h.headers x hx j l nm hd
        exact ⟨l', by simp [hl]⟩
    groupRest := fun j g hj x hx => by
      have hj : (j, Tag.group g) ∈ reg := by
        rcases List.mem_cons.1 hj with e | hj
        · cases e; exact absurd rfl (hg g)
        · exact hj
      rcases occ_new (tops := []) hk (by simpa using hx) with rfl | hx
      · rw [hid]; exact Ne.symm (h.resReg i (by simp) _ hj)
      · exact h.groupRest j g hj x (by simpa using hx)
    groupTops := fun j g hj m hm x hx => by
      have hj : (j, Tag.group g) ∈ reg := by
        rcases List.mem_cons.1 hj with e | hj
        · cases e; exact absurd rfl (hg g)
        · exact hj
      exact h.groupTops j g hj m hm x hx
    refs := fun x hx => by
      rcases occ_new hk hx with rfl | hx
      · exact hr
      · exact h.refs x hx }

/-- Register a reserved identity that no node will have. -/
theorem waste {i : Nat} (h : Core objs lo uid (i :: res) reg tops rest) (t : Tag) : Core objs lo uid res ((i, t) :: reg) tops rest := by
  have hi := h.resRange i (by simp)
  have hres := List.nodup_cons.1 h.resNodup
  exact { h with
    regRange := fun e he => by
      rcases List.mem_cons.1 he with rfl | he
      · exact hi
      · exact h.regRange e he
    fits := fun e he x hx hx' => by
      rcases List.mem_cons.1 he with rfl | he
      · exact absurd hx' (h.resOcc i (by simp) x hx)
      · exact h.fits e he x hx hx'
    resRange := fun j hj => h.resRange j (by simp [hj])
    resNodup := hres.2
    resReg := fun j hj e he => by
      rcases List.mem_cons.1 he with rfl | he
      · rintro rfl; exact hres.1 hj
      · exact h.resReg j (by simp [hj]) e he
    resOcc := fun j hj x hx => h.resOcc j (by simp [hj]) x hx
    headers := fun x hx j l nm hd => by
      obtain ⟨l', hl⟩ := h.headers x hx j l nm hd
      exact ⟨l', by simp [hl]⟩
    groupRest := fun j g hj x hx => by
      rcases List.mem_cons.1 hj with e | hj
      · cases e; exact h.resOcc i (by simp) x (occ_append.2 (.inr hx))
      · exact h.groupRest j g hj x hx
    groupTops := fun j g hj m hm x hx hx' => by
      rcases List.mem_cons.1 hj with e | hj
      · cases e; exact absurd hx' (h.resOcc i (by simp) x (occ_append.2 (.inl ⟨m, hm, hx⟩)))
      · exact h.groupTops j g hj m hm x hx hx' }

/-- Build a node with a reserved identity, register it, and make it an element of `tops`. -/
theorem useTop {i : Nat} (h : Core objs lo uid (i :: res) reg tops rest) {n : Node} {t : Tag} (hk : ∀ c ∈ kids n, c ∈ rest) (hid : n.data.id = i) (hf : t.Fits i n.data)
    (hr : Resolves objs n.data := by trivial) : Core objs lo uid res ((i, t) :: reg) (tops ++ [n]) rest := by
  by_cases hg : ∀ g, t ≠ .group g
  · exact (h.use hk hid hf hg hr).nodes (by simp; rintro x (hx | rfl) <;> simp [*]) (fun x hx => by simp [hx])
  · have hg : ∃ g, t = .group g := by
      cases t <;> first | exact ⟨_, rfl⟩ | exact absurd (fun g => by simp) hg
    obtain ⟨g, rfl⟩ := hg
    have w := h.waste (.group g)
    have hi := h.resRange i (by simp)
    have hres := List.nodup_cons.1 h.resNodup
    have ho : ∀ x, Occ x ((tops ++ [n]) ++ rest) → x = n ∨ Occ x (tops ++ rest) := by
      intro x hx
      refine occ_new hk (occ_mono ?_ hx)
      intro m hm
      simp only [List.mem_append, List.mem_cons, List.not_mem_nil, or_false] at hm ⊢
      rcases hm with (hm | hm) | hm
      · exact .inl hm
      · exact .inr (.inl hm)
      · exact .inr (.inr hm)
    exact {
      pos := h.pos
      le := h.le
      range := fun x hx => by
        rcases ho x hx with rfl | hx
        · exact .inr (hid ▸ hi)
        · exact h.range x hx
      same := fun x y hx hy hx0 he => by
        rcases ho x hx with rfl | hx'
        · rcases ho y hy with rfl | hy
          · rfl
          · exact absurd (he.symm.trans hid) (h.resOcc i (by simp) y hy)
        · rcases ho y hy with rfl | hy
          · exact absurd (he.trans hid) (h.resOcc i (by simp) x hx')
          · exact h.same x y hx' hy hx0 he
      regRange := w.regRange
      fits := fun e he x hx hx' => by
        rcases ho x hx with rfl | hx
        · rcases List.mem_cons.1 he with rfl | he
          · exact hf
          · exact absurd (hx'.symm.trans hid) (h.resReg i (by simp) e he)
        · exact w.fits e he x hx hx'
      resRange := w.resRange
      resNodup := w.resNodup
      resReg := w.resReg
      resOcc := fun j hj x hx => by
        rcases ho x hx with rfl | hx
        · rw [hid]; rintro rfl; exact hres.1 hj
        · exact w.resOcc j hj x hx
      headers := fun x hx j l nm hd => by
        rcases ho x hx with rfl | hx
        · have hf : x.data = .blockgroup i g := hf
          rw [hd] at hf; cases hf
        · exact w.headers x hx j l nm hd
      groupRest := w.groupRest
      groupTops := fun j g' hj m hm x hx hx' => by
        rcases List.mem_append.1 hm with hm | hm
        · exact w.groupTops j g' hj m hm x hx hx'
        · rw [List.mem_singleton] at hm
          subst hm
          rcases sub_cases hx with hx | hx
          · exact hx
          · exact absurd hx' (w.groupRest j g' hj x (occ_mono hk hx))
      refs := fun x hx => by
        rcases ho x hx with rfl | hx
        · exact hr
        · exact h.refs x hx }

/-- Take in trees that were built by another parser with higher identities. -/
theorem join {objs2 : List Node} {uid2 : Nat} {reg2 regs : List (Nat × Tag)} {tops2 rest2 news : List Node} (h : Core objs lo uid res reg tops rest) (h2 : Core objs2 uid uid2 [] reg2 tops2 rest2)
    (hobjs : ∀ o ∈ objs, o ∈ objs2)
    (hset : ∀ n, Occ n (tops2 ++ rest2) → ∀ i l nm, n.data ≠ .header i l none nm) (hnews : ∀ n ∈ news, n ∈ tops2 ++ rest2)
    (hregs : ∀ e ∈ regs, e ∈ reg ∨ e ∈ reg2 ∧ ∀ g, e.2 ≠ .group g) (hhdr : ∀ i l, (i, Tag.header l) ∈ reg → (i, Tag.header l) ∈ regs) :
    Core objs2 lo uid2 res regs tops (news ++ rest) := by
  have ho : ∀ x, Occ x (tops ++ (news ++ rest)) → Occ x (tops ++ rest) ∨ Occ x (tops2 ++ rest2) := by
    intro x hx
    rw [occ_append, occ_append] at hx
    rcases hx with hx | hx | hx
    · exact .inl (occ_append.2 (.inl hx))
    · exact .inr (occ_mono hnews hx)
    · exact .inl (occ_append.2 (.inr hx))
  have lo1 : ∀ x, Occ x (tops ++ rest) → x.data.id < uid := fun x hx => by
    rcases h.range x hx with e | e
    · rw [e]; exact Nat.lt_of_lt_of_le h.pos h.le
    · exact e.2
  have hi2 : ∀ x, Occ x (tops2 ++ rest2) → x.data.id = 0 ∨ uid ≤ x.data.id ∧ x.data.id < uid2 := h2.range
  exact {
    pos := h.pos
    le := Nat.le_trans h.le h2.le
    range := fun x hx => by
      rcases ho x hx with hx | hx
      · exact (h.range x hx).imp id fun e => ⟨e.1, Nat.lt_of_lt_of_le e.2 h2.le⟩
      · exact (h2.range x hx).imp id fun e => ⟨Nat.le_trans h.le e.1, e.2⟩
    same := fun x y hx hy h0 he => by
      rcases ho x hx with hx | hx <;> rcases ho y hy with hy | hy
      · exact h.same x y hx hy h0 he
      · have := lo1 x hx; rcases hi2 y hy with e | e <;> omega
      · have := lo1 y hy; rcases hi2 x hx with e | e <;> omega
      · exact h2.same x y hx hy h0 he
    regRange := fun e he => by
      rcases hregs e he with he | ⟨he, _⟩
      · exact ⟨(h.regRange e he).1, Nat.lt_of_lt_of_le (h.regRange e he).2 h2.le⟩
      · exact ⟨Nat.le_trans h.le (h2.regRange e he).1, (h2.regRange e he).2⟩
    fits := fun e he x hx hx' => by
      rcases hregs e he with he | ⟨he, _⟩ <;> rcases ho x hx with hx | hx
      · exact h.fits e he x hx hx'
      · have a := h.regRange e he; have := h.pos; rcases hi2 x hx with b | b <;> omega
      · have a := h2.regRange e he; have := lo1 x hx; omega
      · exact h2.fits e he x hx hx'
    resRange := fun i hi => ⟨(h.resRange i hi).1, Nat.lt_of_lt_of_le (h.resRange i hi).2 h2.le⟩
    resNodup := h.resNodup
    resReg := fun i hi e he => by
      rcases hregs e he with he | ⟨he, _⟩
      · exact h.resReg i hi e he
      · have a := h2.regRange e he; have := h.resRange i hi; omega
    resOcc := fun i hi x hx => by
      rcases ho x hx with hx | hx
      · exact h.resOcc i hi x hx
      · have a := h.resRange i hi; have := h.pos; rcases hi2 x hx with b | b <;> omega
    headers := fun x hx i l nm hd => by
      rcases ho x hx with hx | hx
      · obtain ⟨l', hl⟩ := h.headers x hx i l nm hd
        exact ⟨l', hhdr i l' hl⟩
      · exact absurd hd (hset x hx i l nm)
    groupRest := fun i g hg x hx => by
      have hg : (i, Tag.group g) ∈ reg := by
        rcases hregs _ hg with hg | ⟨_, hg⟩
        · exact hg
        · exact absurd rfl (hg g)
      rcases occ_append.1 hx with hx | hx
      · have a := h.regRange _ hg
        have := h.pos
        rcases hi2 x (occ_mono hnews hx) with b | b
        · intro e; dsimp only at a; omega
        · intro e; dsimp only at a; omega
      · exact h.groupRest i g hg x hx
    groupTops := fun i g hg m hm x hx => by
      have hg : (i, Tag.group g) ∈ reg := by
        rcases hregs _ hg with hg | ⟨_, hg⟩
        · exact hg
        · exact absurd rfl (hg g)
      exact h.groupTops i g hg m hm x hx
    refs := fun x hx => by
      rcases ho x hx with hx | hx
      · exact resolves_mono hobjs (h.refs x hx)
      · exact h2.refs x hx }

/-- More objects. -/
theorem more {objs2 : List Node} (h : Core objs lo uid res reg tops rest) (hobjs : ∀ o ∈ objs, o ∈ objs2) : Core objs2 lo uid res reg tops rest :=
  { h with refs := fun x hx => resolves_mono hobjs (h.refs x hx) }

end Core
end Mau
