import Verif.Spec.Cli
import Verif.Props.Environment

/-!
# C56, C57, C61 — the command line
-/

set_option linter.unusedSimpArgs false

namespace Mau
open Spec

theorem cliNamespace_eq {asked : Option Str} {default ns : Str} (h : Namespace asked default ns) :
    cliNamespace asked default = c%"mau." ++ ns := by
  rcases h with ⟨rfl, h⟩ | ⟨rfl | rfl, rfl⟩
  · have : ns.isEmpty = false := by cases ns <;> simp_all
    simp [cliNamespace, baseNamespace, this]
  · simp [cliNamespace, baseNamespace]
  · simp [cliNamespace, baseNamespace]

theorem splitChar_assigns {arg key value : Str} (h : Assigns arg key value) :
    splitChar '=' arg = [key, value] := by
  obtain ⟨rfl, h1, h2⟩ := h
  rw [splitChar_append_sep h1, splitChar_of_not_mem h2]

theorem assigns_of_split {arg key value : Str} (h : splitChar '=' arg = [key, value]) :
    Assigns arg key value := by
  have hj := join_split '=' arg
  rw [h] at hj
  have hn : ∀ l ∈ splitChar '=' arg, '=' ∉ l := fun l hl => sep_not_mem_of_mem_split hl
  rw [h] at hn
  refine ⟨by rw [← hj]; simp [joinWith], hn _ (by simp), hn _ (by simp)⟩

/-! ## Variables -/

/-- The dictionary after the assignments. -/
def assignAll (pairs : List (Str × Str)) (flat : Dict Val) : Dict Val :=
  pairs.foldl (fun d kv => Dict.set d kv.1 (.str kv.2)) flat

theorem collectVariables_pairs (pairs : List (Str × Str)) (h : ∀ kv ∈ pairs, '=' ∉ kv.1 ∧ '=' ∉ kv.2)
    (flat : Dict Val) : collectVariables (pairs.map fun kv => kv.1 ++ '=' :: kv.2) flat =
      .ok (assignAll pairs flat) := by
  induction pairs generalizing flat with
  | nil => rfl
  | cons kv pairs ih =>
    have hkv := h kv (by simp)
    simp only [List.map_cons, assignAll, List.foldl_cons]
    rw [collectVariables, splitChar_assigns ⟨rfl, hkv.1, hkv.2⟩]
    exact ih (fun kv h' => h kv (by simp [h'])) _

theorem get?_foldl_set (pairs : List (Str × Str)) (flat : Dict Val) (k : Str) :
    Dict.get? (assignAll pairs flat) k =
      ((lastValue pairs k).map Val.str).or (Dict.get? flat k) := by
  induction pairs generalizing flat with
  | nil => simp [lastValue, assignAll]
  | cons kv pairs ih =>
    rw [assignAll, List.foldl_cons, ← assignAll, ih]
    simp only [lastValue, List.reverse_cons, List.find?_append, Dict.get?_set]
    cases hf : List.find? (fun kv => decide (kv.1 = k)) pairs.reverse with
    | some x => simp
    | none =>
      by_cases hk : kv.1 = k
      · simp [hk]
      · simp [hk]

theorem distinct_foldl_set (pairs : List (Str × Str)) (flat : Dict Val) (h : flat.Distinct) :
    Dict.Distinct (assignAll pairs flat) := by
  induction pairs generalizing flat with
  | nil => exact h
  | cons kv pairs ih => exact ih _ (Dict.distinct_set h _ _)

theorem distinct_flattenItems (parent : Str) (kvs : List (Str × Nested)) (flat : Dict Val) (h : flat.Distinct) :
    (flattenItems parent kvs flat).Distinct := by
  induction kvs generalizing flat with
  | nil => simpa [flattenItems] using h
  | cons kv kvs ih =>
    obtain ⟨k, v⟩ := kv
    rw [flattenItems]
    exact ih _ (Dict.distinct_update h _)

theorem distinct_flattenNested (kvs : List (Str × Nested)) : (flattenNested kvs).Distinct :=
  distinct_flattenItems _ _ _ Dict.distinct_nil

/-- Updating with a dictionary under a namespace. -/
theorem get?_dupdate (e : Env) (d : List (Str × Nested)) (ns k : Str) :
    Dict.get? (Env.dupdate e d ns) k = (Dict.get? (Env.fromDict d ns) k).or (Dict.get? e k) := by
  unfold Env.fromDict Env.dupdate
  dsimp only
  generalize (if ns.isEmpty = true then d else [(ns, Nested.dict d)]) = x
  rw [Dict.get?_update _ (distinct_flattenNested x), Dict.update_nil_left (distinct_flattenNested x)]

theorem nonempty_foldl_set (pairs : List (Str × Str)) (h : pairs ≠ []) :
    assignAll pairs [] ≠ [] := by
  intro hc
  cases pairs with
  | nil => exact h rfl
  | cons kv pairs =>
    have h1 := get?_foldl_set (kv :: pairs) [] kv.1
    rw [hc] at h1
    have : (lastValue (kv :: pairs) kv.1).isSome := by
      simp only [lastValue, Option.isSome_map, List.find?_isSome]
      exact ⟨kv, by simp⟩
    cases hl : lastValue (kv :: pairs) kv.1 with
    | none => simp [hl] at this
    | some v => simp [hl] at h1

/-- C56 (variables): each `KEY=VALUE` of the command line is readable afterwards as `mau.NAMESPACE.KEY`, with the value given
last; every other variable is unchanged. -/
theorem C56_variables (e : Env) (pairs : List (Str × Str)) (h : ∀ kv ∈ pairs, '=' ∉ kv.1 ∧ '=' ∉ kv.2)
    (asked : Option Str) (ns : Str) (hns : Namespace asked c%"envvars" ns) :
    ∃ e', loadEnvironmentVariables e (pairs.map fun kv => kv.1 ++ '=' :: kv.2) asked = .ok e' ∧
      (∀ key v, lastValue pairs key = some v → Dict.get? e' (below ns key) = some (.str v)) ∧
      (∀ k, (∀ kv ∈ pairs, k ≠ below ns kv.1) → Dict.get? e' k = Dict.get? e k) := by
  unfold loadEnvironmentVariables
  rw [collectVariables_pairs pairs h, cliNamespace_eq hns]
  by_cases hp : pairs = []
  · subst hp
    refine ⟨e, rfl, ?_, fun _ _ => rfl⟩
    intro key v hv
    simp [lastValue] at hv
  · have hne := nonempty_foldl_set pairs hp
    have hd := distinct_foldl_set pairs [] Dict.distinct_nil
    have hg := fun k => get?_foldl_set pairs [] k
    generalize assignAll pairs [] = flat at *
    have hemp : flat.isEmpty = false := by cases flat <;> simp_all
    refine ⟨Env.dupdate e (Env.asItems flat) (c%"mau." ++ ns), ?_, ?_, ?_⟩
    · change (if flat.isEmpty = true then pure e else _ : Except Err Env) = _
      rw [hemp]; rfl
    · intro key v hv
      have h1 := (fromDict_namespace hd hne (ns := c%"mau." ++ ns) (by simp)).2 (below ns key) (.str v)
      rw [get?_dupdate, h1.2 ⟨key, by simp [below], by rw [hg, hv]; rfl⟩]
      rfl
    · intro k hk
      rw [get?_dupdate]
      cases hf : Dict.get? (Env.fromDict (Env.asItems flat) (c%"mau." ++ ns)) k with
      | none => rfl
      | some v =>
        obtain ⟨x, hx, hv⟩ := ((fromDict_namespace hd hne (ns := c%"mau." ++ ns) (by simp)).2 k v).1 hf
        rw [hg] at hv
        cases hl : lastValue pairs x with
        | none => simp [hl] at hv
        | some w =>
          simp only [lastValue, Option.map_eq_some_iff] at hl
          obtain ⟨kv, hkv, _⟩ := hl
          have hm := List.mem_of_find?_eq_some hkv
          have hx' := List.find?_some hkv
          simp at hx' hm
          exact absurd (by rw [hx, hx']; simp [below]) (hk kv hm)

/-- C56 (malformed variables): if some argument is not of the form `KEY=VALUE`, with exactly one equals sign, nothing is loaded and a `ValueError` is
raised. -/
theorem C56_malformed (e : Env) (args : List Str) (asked : Option Str) (bad : Str) (hb : bad ∈ args)
    (h : ∀ k v, ¬ Assigns bad k v) : loadEnvironmentVariables e args asked = .error (.py .valueError) := by
  have : ∀ flat, collectVariables args flat = .error (.py .valueError) := by
    induction args with
    | nil => simp at hb
    | cons a args ih =>
      intro flat
      rw [collectVariables]
      rcases List.mem_cons.1 hb with rfl | hb'
      · split
        · rename_i k v hs
          exact absurd (assigns_of_split hs) (h k v)
        · rfl
      · split
        · exact ih hb' _
        · rfl
  unfold loadEnvironmentVariables
  rw [this]
  rfl

/-- Two variables, one given twice; and a malformed one. -/
example : loadEnvironmentVariables [(c%"mau.envvars.b", .str c%"old"), (c%"x", .str c%"y")]
      [c%"a=1", c%"b=2", c%"a=3"] =
    .ok [(c%"mau.envvars.b", .str c%"2"), (c%"x", .str c%"y"), (c%"mau.envvars.a", .str c%"3")] ∧
    loadEnvironmentVariables [] [c%"a=1", c%"b=c=d"] = .error (.py .valueError) := by
  decide

/-! ## Files -/

theorem pathName_spec {dir name : Str} (hd : dir = [] ∨ dir.getLast? = some '/') (hn : name ≠ []) (h1 : name ≠ ['.'])
    (hs : '/' ∉ name) : pathName (dir ++ name) = name := by
  have hsplit : ∃ ls, splitChar '/' (dir ++ name) = ls ++ [name] := by
    rcases hd with rfl | hd
    · exact ⟨[], by simpa using splitChar_of_not_mem hs⟩
    · obtain ⟨d, rfl⟩ : ∃ d, dir = d ++ ['/'] := by
        rw [List.getLast?_eq_some_iff] at hd
        exact hd
      clear hd
      induction d with
      | nil => exact ⟨[[]], by simp [splitChar_of_not_mem hs]⟩
      | cons c d ih =>
        obtain ⟨ls, hls⟩ := ih
        by_cases hc : c = '/'
        · subst hc
          exact ⟨[] :: ls, by simp only [List.cons_append]; rw [splitChar_sep, hls]⟩
        · obtain ⟨l, ls', h2, h3⟩ := splitChar_cons_ne hc (d ++ ['/'] ++ name)
          rw [hls] at h2
          cases ls with
          | nil =>
            exfalso
            have hj := join_split '/' (d ++ ['/'] ++ name)
            rw [hls] at hj
            simp [joinWith] at hj
            exact hs (by rw [hj]; simp)
          | cons x xs =>
            simp at h2
            refine ⟨(c :: l) :: xs, ?_⟩
            simp only [List.cons_append]
            rw [h3, ← h2.2]
  obtain ⟨ls, hls⟩ := hsplit
  unfold pathName
  rw [hls]
  have : (!name.isEmpty && name != ['.']) = true := by
    cases name <;> simp_all
  simp [List.filter_append, this]

theorem pathStem_spec {dir key ext : Str} (hd : dir = [] ∨ dir.getLast? = some '/') (hk : key ≠ [] ∧ '/' ∉ key)
    (he : ext ≠ [] ∧ '/' ∉ ext ∧ '.' ∉ ext) : pathStem (dir ++ key ++ '.' :: ext) = key := by
  have hname : pathName (dir ++ (key ++ '.' :: ext)) = key ++ '.' :: ext := by
    refine pathName_spec hd (by simp) ?_ ?_
    · intro hc
      have := congrArg List.length hc
      cases key with
      | nil => exact hk.1 rfl
      | cons a key => simp at this
    · simp [hk.2, he.2.1]
  have hsp : splitChar '.' (key ++ '.' :: ext) = splitChar '.' key ++ [ext] := by
    generalize key = key'
    induction key' with
    | nil => simp [splitChar_of_not_mem he.2.2]
    | cons c k ih =>
      by_cases hc : c = '.'
      · subst hc; simp only [List.cons_append, splitChar_sep, ih]
      · obtain ⟨l, ls, h2, h3⟩ := splitChar_cons_ne hc (k ++ '.' :: ext)
        obtain ⟨l', ls', h2', h3'⟩ := splitChar_cons_ne hc k
        simp only [List.cons_append]
        rw [h3, h3']
        rw [ih, h2'] at h2
        simp at h2
        simp [h2]
  unfold pathStem
  rw [List.append_assoc, hname]
  dsimp only
  rw [hsp]
  have hne := splitChar_ne_nil '.' key
  have hj := join_split '.' key
  cases hs : splitChar '.' key with
  | nil => exact absurd hs hne
  | cons a as =>
    have hdl : (a :: as ++ [ext]).dropLast = a :: as := List.dropLast_concat
    have hgl : (a :: as ++ [ext]).getLast?.getD [] = ext := by
      rw [List.getLast?_append]; simp
    rw [hs] at hj
    have hk' : key.isEmpty = false := by cases key <;> simp_all
    have he' : (ext == []) = false := by cases ext <;> simp_all
    cases as with
    | nil => simp [joinWith] at hj; subst hj; simp [joinWith, hk', he']
    | cons b bs =>
      simp only [List.cons_append] at hdl hgl ⊢
      rw [hdl, hgl, hj, hk', he']
      rfl

/-- C56 (names of files): `KEY=PATH` stores the file under `KEY`, a plain path under the name of the file without
its extension. -/
theorem C56_file_names (arg key path : Str) (h : FileArg arg key path) : fileKey arg = (key, path) := by
  cases h with
  | keyed _ _ hk hp => simp [fileKey, splitChar_append_sep hk, splitChar_of_not_mem hp]
  | plain dir key ext hd hk he hq =>
    have h2 : splitChar '=' (dir ++ key ++ '.' :: ext) = [dir ++ key ++ '.' :: ext] := splitChar_of_not_mem hq
    simp only [fileKey, h2, pathStem_spec hd hk he]

theorem collectFiles_ok (load : Str → Option Nested) (files : List (Str × Str × Nested × Str))
    (h : ∀ f ∈ files, FileArg f.1 f.2.1 f.2.2.2 ∧ load f.2.2.2 = some f.2.2.1) (flat : List (Str × Nested)) :
    collectFiles load (files.map (·.1)) flat =
      .ok (Dict.update flat (files.map fun f => (f.2.1, f.2.2.1))) := by
  induction files generalizing flat with
  | nil => rfl
  | cons f files ih =>
    obtain ⟨h1, h2⟩ := h f (by simp)
    simp only [List.map_cons]
    rw [collectFiles, C56_file_names _ _ _ h1, h2]
    dsimp only
    rw [ih (fun f hf => h f (by simp [hf]))]
    rfl

theorem joinWith_dots {a : Str} {p : List Str} (hp : p ≠ []) : joinWith ['.'] (a :: p) = a ++ '.' :: joinWith ['.'] p := by
  cases p with
  | nil => exact absurd rfl hp
  | cons b p => simp [joinWith]

/-- Two keys, none a dotted prefix of the other, with what follows them. -/
theorem keyed_inj {k1 k2 : Str} {p1 p2 : List Str} (h1 : ¬ DottedPrefix k1 k2) (h2 : ¬ DottedPrefix k2 k1)
    (h : joinWith ['.'] (k1 :: p1) = joinWith ['.'] (k2 :: p2)) : k1 = k2 := by
  have key : ∀ {k1 k2 : Str} {p1 p2 : List Str}, ¬ DottedPrefix k1 k2 →
      joinWith ['.'] (k1 :: p1) = joinWith ['.'] (k2 :: p2) → k1.length < k2.length → False := by
    intro k1 k2 p1 p2 h1 h hl
    have hp1 : p1 ≠ [] := by
      rintro rfl
      have := congrArg List.length h
      by_cases hp2 : p2 = []
      · subst hp2; simp [joinWith] at this; omega
      · rw [joinWith_dots hp2] at this; simp [joinWith] at this; omega
    rw [joinWith_dots hp1] at h
    have h' : ∃ r, k1 ++ '.' :: joinWith ['.'] p1 = k2 ++ r := by
      by_cases hp2 : p2 = []
      · subst hp2; exact ⟨[], by simpa [joinWith] using h⟩
      · rw [joinWith_dots hp2] at h; exact ⟨_, h⟩
    obtain ⟨r, hr⟩ := h'
    have := List.append_eq_append_iff.1 hr
    rcases this with ⟨a, rfl, ha⟩ | ⟨a, ha, _⟩
    · cases a with
      | nil => simp at hl
      | cons c a =>
        simp at ha
        exact h1 ⟨a, by rw [ha.1]⟩
    · rw [ha] at hl; simp at hl; omega
  have hlen : k1.length = k2.length := by
    rcases Nat.lt_trichotomy k1.length k2.length with hl | hl | hl
    · exact (key h1 h hl).elim
    · exact hl
    · exact (key h2 h.symm hl).elim
  have h' : ∀ (k : Str) (p : List Str), (joinWith ['.'] (k :: p)).take k.length = k := by
    intro k p
    by_cases hp : p = []
    · subst hp; simp [joinWith]
    · rw [joinWith_dots hp]; simp
  rw [← h' k1 p1, h, hlen, h' k2 p2]

theorem keyed_inj_tail {k : Str} {p1 p2 : List Str} (h1 : ∀ s ∈ p1, s ≠ [] ∧ '.' ∉ s) (h2 : ∀ s ∈ p2, s ≠ [] ∧ '.' ∉ s)
    (h : joinWith ['.'] (k :: p1) = joinWith ['.'] (k :: p2)) : p1 = p2 := by
  by_cases hp1 : p1 = []
  · by_cases hp2 : p2 = []
    · rw [hp1, hp2]
    · subst hp1
      rw [joinWith_dots hp2] at h
      have := congrArg List.length h
      simp [joinWith] at this
  · by_cases hp2 : p2 = []
    · subst hp2
      rw [joinWith_dots hp1] at h
      have := congrArg List.length h
      simp [joinWith] at this
    · rw [joinWith_dots hp1, joinWith_dots hp2] at h
      simp at h
      rw [← split_join hp1 (fun l hl => (h1 l hl).2), h, split_join hp2 (fun l hl => (h2 l hl).2)]

/-- The variables of several configurations stored under keys below a namespace. -/
theorem fromDict_files {contents : List (Str × Nested)} (hd : Dict.Distinct contents) (hne : contents ≠ [])
    (hc : ∀ kc ∈ contents, Clean kc.2) (hpre : ∀ p ∈ Dict.keys contents, ∀ q ∈ Dict.keys contents, ¬ DottedPrefix p q)
    {ns : Str} (hns : ns ≠ []) (k : Str) (v : Val) :
    Dict.get? (Env.fromDict contents ns) k = some v ↔
      ∃ key c p, (key, c) ∈ contents ∧ at? p c = some v ∧ k = ns ++ '.' :: joinWith ['.'] (key :: p) := by
  have hat : ∀ p v, at? p (.dict [(ns, .dict contents)]) = some v ↔
      ∃ key c q, p = ns :: key :: q ∧ (key, c) ∈ contents ∧ at? q c = some v := by
    intro p v
    cases p with
    | nil => simp [at?]
    | cons a p =>
      rw [at?_cons, Dict.get?_cons]
      by_cases ha : ns = a
      · subst ha
        simp only [if_true, Option.bind_some]
        cases p with
        | nil => cases contents with
          | nil => exact absurd rfl hne
          | cons x xs => simp [at?]
        | cons b p =>
          rw [at?_cons]
          constructor
          · intro h1
            cases hg : Dict.get? contents b with
            | none => simp [hg] at h1
            | some n =>
              simp [hg] at h1
              exact ⟨b, n, p, rfl, Dict.mem_of_get? hg, h1⟩
          · rintro ⟨key, c, q, h1, h2, h3⟩
            simp at h1
            obtain ⟨rfl, rfl⟩ := h1
            simp [Dict.get?_of_mem hd h2, h3]
      · simp [ha]
        intro _ _ _ h1
        exact absurd h1.symm ha
  have hpj : ∀ key (q : List Str), pjoin [] (ns :: key :: q) = ns ++ '.' :: joinWith ['.'] (key :: q) := by
    intro key q
    rw [pjoin_cons, joinKey_nil, pjoin_of_ne hns, joinWith_dots (by simp)]
  have hinj : InjOn [] (.dict [(ns, .dict contents)]) := by
    intro p q v w hp hq hj
    obtain ⟨k1, c1, q1, rfl, hm1, hv1⟩ := (hat p v).1 hp
    obtain ⟨k2, c2, q2, rfl, hm2, hv2⟩ := (hat q w).1 hq
    rw [hpj, hpj] at hj
    simp at hj
    have hk1 : k1 ∈ Dict.keys contents := List.mem_map.2 ⟨_, hm1, rfl⟩
    have hk2 : k2 ∈ Dict.keys contents := List.mem_map.2 ⟨_, hm2, rfl⟩
    have hk := keyed_inj (hpre _ hk1 _ hk2) (hpre _ hk2 _ hk1) hj
    subst hk
    rw [keyed_inj_tail (clean_segs (hc _ hm1) _ _ hv1) (clean_segs (hc _ hm2) _ _ hv2) hj]
  have hdn : DistinctN (.dict [(ns, .dict contents)]) := by
    refine .dict _ (by simp [Dict.Distinct, Dict.keys]) ?_
    simp only [List.mem_singleton, forall_eq]
    exact .dict _ hd (fun kv hkv => clean_distinct (hc kv hkv))
  have hs := flattenNested_spec _ hdn hinj
  have heq : Env.fromDict contents ns = flattenNested [(ns, .dict contents)] := by
    simp only [Env.fromDict, Env.dupdate]
    rw [if_neg (by simpa using hns)]
    exact Dict.update_nil_left hs.1
  rw [heq, hs.2 k v]
  constructor
  · rintro ⟨p, _, h1, h2⟩
    obtain ⟨key, c, q, rfl, hm, hv⟩ := (hat p v).1 h1
    exact ⟨key, c, q, hm, hv, by rw [← h2, hpj]⟩
  · rintro ⟨key, c, q, hm, hv, rfl⟩
    exact ⟨ns :: key :: q, by simp, (hat _ v).2 ⟨key, c, q, rfl, hm, hv⟩, hpj key q⟩

/-- C56 (files): after loading environment files with different keys (none a dotted prefix of another one), the values of each file are readable as
`mau.NAMESPACE.KEY.PATH`; every other variable is unchanged. Each file is given by the argument, the key, the
content and the path. -/
theorem C56_files (load : Str → Option Nested) (e : Env) (files : List (Str × Str × Nested × Str))
    (h : ∀ f ∈ files, FileArg f.1 f.2.1 f.2.2.2 ∧ load f.2.2.2 = some f.2.2.1)
    (hclean : ∀ f ∈ files, Clean f.2.2.1) (hd : (files.map (·.2.1)).Nodup)
    (hpre : ∀ f ∈ files, ∀ g ∈ files, ¬ DottedPrefix f.2.1 g.2.1)
    (asked : Option Str) (ns : Str) (hns : Namespace asked c%"envfiles" ns) :
    ∃ e', loadEnvironmentFiles load e (files.map (·.1)) asked = .ok e' ∧
      (∀ f ∈ files, ∀ p v, at? p f.2.2.1 = some v →
        Dict.get? e' (below ns (joinWith ['.'] (f.2.1 :: p))) = some v) ∧
      (∀ k, (∀ f ∈ files, ∀ p v, at? p f.2.2.1 = some v → k ≠ below ns (joinWith ['.'] (f.2.1 :: p))) →
        Dict.get? e' k = Dict.get? e k) := by
  unfold loadEnvironmentFiles
  rw [collectFiles_ok load files h, cliNamespace_eq hns]
  have hdd : Dict.Distinct (files.map fun f => (f.2.1, f.2.2.1)) := by
    unfold Dict.Distinct Dict.keys
    simpa [List.map_map, Function.comp_def] using hd
  rw [Dict.update_nil_left hdd]
  by_cases hf : files = []
  · subst hf
    exact ⟨e, rfl, by simp, fun _ _ => rfl⟩
  · have hne : (files.map fun f => (f.2.1, f.2.2.1)) ≠ [] := by simpa using hf
    have hspec := fun k v => fromDict_files hdd hne (ns := c%"mau." ++ ns) (by
        simp only [List.mem_map]
        rintro _ ⟨f, hf, rfl⟩
        exact hclean f hf) (by
        simp only [Dict.keys, List.map_map, List.mem_map, Function.comp_def]
        rintro _ ⟨f, hf, rfl⟩ _ ⟨g, hg, rfl⟩
        exact hpre f hf g hg) (by simp) k v
    refine ⟨Env.dupdate e (files.map fun f => (f.2.1, f.2.2.1)) (c%"mau." ++ ns), ?_, ?_, ?_⟩
    · cases files with
      | nil => exact absurd rfl hf
      | cons a b => rfl
    · intro f hf p v hv
      rw [get?_dupdate, (hspec _ v).2 ⟨f.2.1, f.2.2.1, p, List.mem_map.2 ⟨f, hf, rfl⟩, hv, by simp [below]⟩]
      rfl
    · intro k hk
      rw [get?_dupdate]
      cases hg : Dict.get? (Env.fromDict (files.map fun f => (f.2.1, f.2.2.1)) (c%"mau." ++ ns)) k with
      | none => rfl
      | some v =>
        obtain ⟨key, c, p, hm, hv, hk'⟩ := (hspec k v).1 hg
        obtain ⟨f, hf, hfe⟩ := List.mem_map.1 hm
        cases hfe
        exact absurd (by rw [hk']; simp [below]) (hk f hf p v hv)

/-- C56 (unreadable files): if some file cannot be read or parsed, a `ConfigurationError` is raised. -/
theorem C56_unreadable (load : Str → Option Nested) (e : Env) (args : List Str) (asked : Option Str) (bad key path : Str)
    (hb : bad ∈ args) (hn : FileArg bad key path) (hl : load path = none) :
    loadEnvironmentFiles load e args asked = .error (.py .valueError) := by
  have : ∀ flat, collectFiles load args flat = .error (.py .valueError) := by
    induction args with
    | nil => simp at hb
    | cons a args ih =>
      intro flat
      rw [collectFiles]
      rcases List.mem_cons.1 hb with rfl | hb'
      · rw [C56_file_names _ _ _ hn, hl]
      · split
        · rfl
        · exact ih hb' _
  unfold loadEnvironmentFiles
  rw [this]
  rfl

/-- A file with a key and a file without. -/
example :
    let load : Str → Option Nested := fun p =>
      if p = c%"d/a.yaml" then some (.dict [(c%"x", .leaf (.str c%"1"))]) else some (.leaf (.str c%"2"))
    loadEnvironmentFiles load [] [c%"k.l=d/a.yaml", c%"d/e/book.tar.yaml"] (some c%"n") =
      .ok [(c%"mau.n.k.l.x", .str c%"1"), (c%"mau.n.book.tar", .str c%"2")] ∧
    FileArg c%"k.l=d/a.yaml" c%"k.l" c%"d/a.yaml" ∧ FileArg c%"d/e/book.tar.yaml" c%"book.tar" c%"d/e/book.tar.yaml" := by
  refine ⟨by rfl, FileArg.keyed c%"k.l" c%"d/a.yaml" (by decide) (by decide), ?_⟩
  exact FileArg.plain c%"d/e/" c%"book.tar" c%"yaml" (by decide) (by decide) (by decide) (by decide)

/-! ## C57 -/

theorem contains_cons {c : Char} {s t : Str} (h : ¬ Contains t (c :: s)) : ¬ Contains t s := by
  rintro ⟨a, b, rfl⟩
  exact h ⟨c :: a, b, by simp⟩

theorem not_prefix_mau {s : Str} (h : ¬ Contains c%".mau" s) : (c%".mau").isPrefixOf s = false := by
  cases hp : (c%".mau").isPrefixOf s with
  | false => rfl
  | true =>
    obtain ⟨r, hr⟩ := List.isPrefixOf_iff_prefix.1 hp
    exact absurd ⟨[], r, by rw [← hr]; simp⟩ h

theorem splitMau_none {s : Str} (h : ¬ Contains c%".mau" s) (cur : Str) (n : Nat) (hn : s.length ≤ n) :
    splitStrAux c%".mau" n cur s = [cur.reverse ++ s] := by
  induction s generalizing cur n with
  | nil => cases n <;> simp [splitStrAux]
  | cons c s ih =>
    cases n with
    | zero => simp at hn
    | succ n =>
      unfold splitStrAux
      rw [not_prefix_mau h]
      simp only [Bool.false_eq_true, if_false]
      rw [ih (contains_cons h) (c :: cur) n (by simpa using hn)]
      simp

/-- An occurrence of `.mau` does not overlap with another one. -/
theorem not_prefix_mau_append {c : Char} {s : Str} (h : ¬ Contains c%".mau" (c :: s)) :
    (c%".mau").isPrefixOf (c :: (s ++ c%".mau")) = false := by
  cases hp : (c%".mau").isPrefixOf (c :: (s ++ c%".mau")) with
  | false => rfl
  | true =>
    exfalso
    match s with
    | [] => simp [List.isPrefixOf] at hp
    | [a] => simp [List.isPrefixOf] at hp
    | [a, b] => simp [List.isPrefixOf] at hp
    | a :: b :: d :: s =>
      simp [List.isPrefixOf] at hp
      obtain ⟨rfl, rfl, rfl, rfl⟩ := hp
      exact h ⟨[], s, by simp⟩

theorem splitMau_end {s : Str} (h : ¬ Contains c%".mau" s) (cur : Str) (n : Nat) (hn : s.length + 4 ≤ n) :
    splitStrAux c%".mau" n cur (s ++ c%".mau") = [cur.reverse ++ s, []] := by
  induction s generalizing cur n with
  | nil =>
    match n, hn with
    | n + 1, _ =>
      simp only [List.nil_append]
      unfold splitStrAux
      simp [List.isPrefixOf]
      cases n <;> simp [splitStrAux]
  | cons c s ih =>
    cases n with
    | zero => simp at hn
    | succ n =>
      simp only [List.cons_append]
      unfold splitStrAux
      have := not_prefix_mau_append h
      rw [this]
      simp only [Bool.false_eq_true, if_false]
      rw [ih (contains_cons h) (c :: cur) n (by simp at hn; omega)]
      simp

theorem dirOf_append (a b : Str) (h : '/' ∉ b) : dirOf (a ++ b) = dirOf a := by
  unfold dirOf
  rw [List.reverse_append]
  congr 1
  have : ∀ (l m : Str), (∀ c ∈ l, c ≠ '/') → (l ++ m).dropWhile (· ≠ '/') = m.dropWhile (· ≠ '/') := by
    intro l m hl
    induction l with
    | nil => rfl
    | cons c l ih =>
      rw [List.cons_append, List.dropWhile_cons_of_pos]
      · exact ih (fun c hc => hl c (by simp [hc]))
      · simpa using hl c (by simp)
  apply this
  intro c hc hcc
  subst hcc
  exact h (by simpa using hc)

/-- C57 (part): for an input file `STEM.mau`, with no other occurrence of `.mau` in its path, the default output file is
`STEM.EXTENSION` in the same directory, which is not the input file unless the extension is `mau`. Missing: other names of
input files, see `C57_overwrites` and `C57_elsewhere`. -/
theorem C57_default_partial (stem ext : Str) (hs : ¬ Contains c%".mau" stem) (output : Option Str)
    (ho : output = none ∨ output = some []) (he : '/' ∉ ext) :
    outputFile (stem ++ c%".mau") output ext = stem ++ '.' :: ext ∧
    dirOf (stem ++ '.' :: ext) = dirOf (stem ++ c%".mau") ∧
    (ext ≠ c%"mau" → stem ++ '.' :: ext ≠ stem ++ c%".mau") := by
  refine ⟨?_, ?_, ?_⟩
  · have : pyReplace c%".mau" ('.' :: ext) (stem ++ c%".mau") = stem ++ '.' :: ext := by
      unfold pyReplace splitStr
      rw [splitMau_end hs [] _ (by simp)]
      simp [joinWith]
    rcases ho with rfl | rfl <;> simp [outputFile, this]
  · rw [dirOf_append _ _ (by simpa using he), dirOf_append _ _ (by decide)]
  · intro h hc
    simp at hc
    exact h hc

theorem splitMau_spec (n : Nat) : ∀ (cur s : Str), s.length ≤ n →
    ∃ p ps, splitStrAux c%".mau" n cur s = (cur.reverse ++ p) :: ps ∧ s = joinWith c%".mau" (p :: ps) ∧
      ∀ q ∈ p :: ps, ¬ Contains c%".mau" q := by
  have hnil : ¬ Contains c%".mau" [] := by
    rintro ⟨a, b, h⟩
    simp at h
  induction n with
  | zero =>
    intro cur s hs
    have : s = [] := by cases s <;> simp_all
    subst this
    exact ⟨[], [], by simp [splitStrAux], by simp [joinWith], by simpa using hnil⟩
  | succ n ih =>
    intro cur s hs
    cases s with
    | nil => exact ⟨[], [], by simp [splitStrAux], by simp [joinWith], by simpa using hnil⟩
    | cons c s =>
      unfold splitStrAux
      cases hp : (c%".mau").isPrefixOf (c :: s) with
      | true =>
        obtain ⟨r, hr⟩ := List.isPrefixOf_iff_prefix.1 hp
        have hrl : r.length ≤ n := by
          have := congrArg List.length hr
          simp at this hs
          omega
        obtain ⟨p, ps, h1, h2, h3⟩ := ih [] r hrl
        have hd : (c :: s).drop 4 = r := by rw [← hr]; rfl
        refine ⟨[], p :: ps, ?_, ?_, ?_⟩
        · simp only [if_true]
          simp only [show (c%".mau").length = 4 from rfl, hd, h1]
          simp
        · rw [← hr, h2]
          simp [joinWith]
        · intro q hq
          rcases List.mem_cons.1 hq with rfl | hq
          · exact hnil
          · exact h3 q hq
      | false =>
        obtain ⟨p, ps, h1, h2, h3⟩ := ih (c :: cur) s (by simpa using hs)
        refine ⟨c :: p, ps, ?_, ?_, ?_⟩
        · simp only [Bool.false_eq_true, if_false]
          rw [h1]
          simp
        · rw [h2]
          cases ps <;> simp [joinWith]
        · intro q hq
          rcases List.mem_cons.1 hq with rfl | hq
          · rintro ⟨a, b, hab⟩
            cases a with
            | cons a0 a =>
              simp only [List.cons_append, List.cons.injEq] at hab
              exact h3 p (by simp) ⟨a, b, hab.2⟩
            | nil =>
              have : (c%".mau").isPrefixOf (c :: s) = true := by
                rw [List.isPrefixOf_iff_prefix]
                refine ⟨b ++ (s.drop p.length), ?_⟩
                have hs' : s = p ++ s.drop p.length := by
                  conv => lhs; rw [← List.take_append_drop p.length s]
                  congr 1
                  rw [h2]
                  cases ps <;> simp [joinWith]
                have : c :: s = (c :: p) ++ s.drop p.length := by
                  rw [List.cons_append, ← hs']
                rw [this, hab]
                simp
              rw [hp] at this
              cases this
          · exact h3 q (by simp [hq])

theorem joinWith_le {a b : Str} (h : a.length ≤ b.length) : ∀ l : List Str, (joinWith a l).length ≤ (joinWith b l).length
  | [] => by simp [joinWith]
  | [x] => by simp [joinWith]
  | x :: y :: l => by
    have := joinWith_le h (y :: l)
    simp only [joinWith, List.length_append] at this ⊢
    omega

/-- C57 (exactly): without `-o` the name of the output file is that of the input file, in which every `.mau` is replaced by the extension of the
visitor, and nothing else; so the input file is overwritten exactly if there is no `.mau` in its name, or if the extension is `mau`. -/
theorem C57_exactly (input ext : Str) (output : Option Str) (ho : output = none ∨ output = some []) :
    (∃ parts : List Str, (∀ p ∈ parts, ¬ Contains c%".mau" p) ∧ input = joinWith c%".mau" parts ∧
      outputFile input output ext = joinWith ('.' :: ext) parts) ∧
    (outputFile input output ext = input ↔ ¬ Contains c%".mau" input ∨ ext = c%"mau") := by
  obtain ⟨p, ps, h1, h2, h3⟩ := splitMau_spec (input.length + 1) [] input (by omega)
  have hout : outputFile input output ext = joinWith ('.' :: ext) (p :: ps) := by
    have : pyReplace c%".mau" ('.' :: ext) input = joinWith ('.' :: ext) (p :: ps) := by
      unfold pyReplace splitStr
      rw [h1]
      rfl
    rcases ho with rfl | rfl <;> simp [outputFile, this]
  refine ⟨⟨p :: ps, h3, h2, hout⟩, ?_⟩
  rw [hout]
  constructor
  · intro h
    cases ps with
    | nil => exact .inl (by rw [h2]; exact h3 p (by simp))
    | cons q ps =>
      right
      rw [h2] at h
      simp only [joinWith, List.append_assoc] at h
      have h := List.append_cancel_left h
      have hlen : ('.' :: ext).length = (c%".mau").length := by
        have hl := congrArg List.length h
        simp only [List.length_append] at hl
        rcases Nat.lt_trichotomy ('.' :: ext).length (c%".mau").length with hlt | heq | hgt
        · have := joinWith_le (a := '.' :: ext) (b := c%".mau") (by omega) (q :: ps)
          omega
        · exact heq
        · have := joinWith_le (a := c%".mau") (b := '.' :: ext) (by omega) (q :: ps)
          omega
      have := (List.append_inj h hlen).1
      simpa using this
  · rintro (h | rfl)
    · cases ps with
      | nil => rw [h2]; rfl
      | cons q ps =>
        exfalso
        refine h ⟨p, joinWith c%".mau" (q :: ps), ?_⟩
        rw [h2]
        simp [joinWith]
    · exact h2.symm

/-- C57 fails for input files without `.mau` in their path: the default output file is the input file. -/
theorem C57_overwrites (input ext : Str) (h : ¬ Contains c%".mau" input) : outputFile input none ext = input := by
  unfold outputFile pyReplace splitStr
  rw [splitMau_none h [] _ (by omega)]
  simp [joinWith]

/-- C57 fails for directories with `.mau` in their name: the default output file is in another directory. -/
theorem C57_elsewhere : outputFile c%"docs.mau/a.mau" none c%"html" = c%"docs.html/a.html" := by decide

/-- An explicit output file is used as given. -/
theorem C57_explicit (input ext file : Str) (h : file ≠ []) : outputFile input (some file) ext = file := by
  have : file.isEmpty = false := by cases file <;> simp_all
  simp [outputFile, this]

/-- An input file as in the theorem. -/
example : ¬ Contains c%".mau" c%"docs/a.b" ∧ outputFile c%"docs/a.b.mau" none c%"html" = c%"docs/a.b.html" := by
  refine ⟨?_, by decide⟩
  rintro ⟨a, b, h⟩
  have := congrArg List.length h
  have ha : a.length ≤ 4 := by simp at this; omega
  have h2 : (c%"docs/a.b").drop a.length = c%".mau" ++ b := by rw [h]; simp
  match hn : a.length, ha with
  | 0, _ | 1, _ | 2, _ | 3, _ | 4, _ => rw [hn] at h2; simp at h2

/-! ## C61 -/

/-- C61: a run of the program that does not end normally (a malformed argument, an unreadable file, an error of the
lexer, the parser or the visitor, no visitor, lexing only) writes no file and prints no output; one that was asked to
stop after lexing says so. -/
theorem C61_no_output (w : CliWorld) (fuel : Nat) (a : CliArgs) (h : (cliMain w fuel a).status ≠ .done) :
    (cliMain w fuel a).written = none ∧ ((cliMain w fuel a).printed = none ∨
      a.lexerOnly = true ∧ (cliMain w fuel a).status = .exit 0 ∧
        (cliMain w fuel a).printed = some c%"Mau stopped after the lexing step as requested\n") := by
  unfold cliMain at h ⊢
  cases h1 : cliEnvironment w a with
  | error e => exact ⟨rfl, .inl rfl⟩
  | ok env =>
  cases h2 : w.read a.input with
  | none => exact ⟨rfl, .inl rfl⟩
  | some text =>
  simp only [h1, h2] at h ⊢
  unfold cliStep at h ⊢
  cases h3 : (mauLexer text a.input).result with
  | error e => exact ⟨rfl, .inl rfl⟩
  | ok toks =>
  cases h4 : a.lexerOnly with
  | true => exact ⟨rfl, .inr ⟨rfl, rfl, rfl⟩⟩
  | false =>
  simp only [h3, h4, Bool.false_eq_true, if_false] at h ⊢
  cases h5 : (mauParser w.cfg fuel env text a.input).result with
  | error e => exact ⟨rfl, .inl rfl⟩
  | ok s =>
  cases h6 : a.visitor with
  | none => exact ⟨rfl, .inl rfl⟩
  | some name =>
  simp only [h5, h6] at h ⊢
  cases h7 : Dict.get? w.visitors name with
  | none => exact ⟨rfl, .inl rfl⟩
  | some v =>
  simp only [h7] at h ⊢
  cases h8 : (mauVisitor v s.env s.output).result with
  | error e => exact ⟨rfl, .inl rfl⟩
  | ok rendered =>
  simp only [h8, writeOutput] at h
  split at h <;> exact absurd rfl h

theorem guarded_ok {α : Type} {x : Except Err α} {a : α} : (guarded x).result = .ok a ↔ x = .ok a := by
  unfold guarded
  cases x with
  | ok b => rfl
  | error e => dsimp only; split <;> exact ⟨fun h => (nomatch h), fun h => (nomatch h)⟩

theorem guarded_error {α : Type} {x : Except Err α} {e : Err} : (guarded x).result = .error e ↔ x = .error e := by
  unfold guarded
  cases x with
  | ok b => exact ⟨fun h => (nomatch h), fun h => (nomatch h)⟩
  | error e => dsimp only; split <;> exact ⟨fun h => (by cases h; rfl), fun h => (by cases h; rfl)⟩

/-- C61: a run that ends normally produces exactly the rendered document, with a newline: in the output file, or on the standard
output if the output file is `-`. -/
theorem C61_output (w : CliWorld) (fuel : Nat) (a : CliArgs) (h : (cliMain w fuel a).status = .done) :
    ∃ env text s name v rendered, cliEnvironment w a = .ok env ∧ w.read a.input = some text ∧
      parseDoc w.cfg fuel text env (some a.input) = .ok s ∧ a.visitor = some name ∧
      Dict.get? w.visitors name = some v ∧ v.process s.env s.output = .ok rendered ∧
      let file := outputFile a.input a.output v.extension
      (file = c%"-" → (cliMain w fuel a).printed = some (rendered ++ ['\n']) ∧ (cliMain w fuel a).written = none) ∧
      (file ≠ c%"-" → (cliMain w fuel a).written = some (file, rendered ++ ['\n']) ∧
        (cliMain w fuel a).printed = none) := by
  unfold cliMain at h ⊢
  cases h1 : cliEnvironment w a with
  | error e => simp [h1] at h
  | ok env =>
  cases h2 : w.read a.input with
  | none => simp [h1, h2] at h
  | some text =>
  simp only [h1, h2] at h ⊢
  have hf : ∀ e : Err, (if e.isMau then CliStatus.exit 1 else .raised e) ≠ .done := by
    intro e; split <;> simp
  unfold cliStep at h ⊢
  cases h3 : (mauLexer text a.input).result with
  | error e => simp only [h3] at h; exact absurd h (hf e)
  | ok toks =>
  cases h4 : a.lexerOnly with
  | true => simp [h3, h4] at h
  | false =>
  simp only [h3, h4, Bool.false_eq_true, if_false] at h ⊢
  cases h5 : (mauParser w.cfg fuel env text a.input).result with
  | error e => simp only [h5] at h; exact absurd h (hf e)
  | ok s =>
  simp only [h5] at h ⊢
  cases h6 : a.visitor with
  | none => simp [h6] at h
  | some name =>
  simp only [h6] at h ⊢
  cases h7 : Dict.get? w.visitors name with
  | none => simp [h7] at h
  | some v =>
  simp only [h7] at h ⊢
  cases h8 : (mauVisitor v s.env s.output).result with
  | error e => simp only [h8] at h; exact absurd h (hf e)
  | ok rendered =>
  refine ⟨env, text, s, name, v, rendered, rfl, rfl, guarded_ok.1 h5, rfl, h7, guarded_ok.1 h8, ?_⟩
  simp only
  unfold writeOutput
  constructor
  · intro hc; rw [hc]; simp
  · intro hc; simp [hc]

/-! ## C70 -/

theorem message_carries {e : Err} {m : Message} : e.message = some m ↔ Carries e m := by
  constructor
  · intro h
    cases e <;> simp only [Err.message, Option.some.injEq, reduceCtorEq] at h <;> subst h <;> constructor
  · intro h; cases h <;> rfl

theorem isMau_message {e : Err} : e.isMau = true ↔ ∃ m, Carries e m := by
  constructor
  · intro h
    cases e <;> simp only [Err.isMau, Bool.false_eq_true] at h
    · exact ⟨_, .lexer ..⟩
    · exact ⟨_, .parser ..⟩
    · exact ⟨_, .visitor ..⟩
  · rintro ⟨m, h⟩; cases h <;> rfl

theorem guarded_handled {α : Type} (x : Except Err α) :
    (∀ a, x = .ok a → (guarded x).handled = []) ∧
    (∀ e m, x = .error e → Carries e m → (guarded x).handled = [m]) ∧
    (∀ e, x = .error e → e.isMau = false → (guarded x).handled = []) := by
  refine ⟨?_, ?_, ?_⟩
  · rintro a rfl; rfl
  · rintro e m rfl h; simp [guarded, message_carries.2 h]
  · rintro e rfl h
    have : e.message = none := by cases e <;> simp_all [Err.isMau, Err.message]
    simp [guarded, this]

theorem andThen_error {α β : Type} {x : Guarded α} {f : α → Guarded β} {e : Err} (h : x.result = .error e) :
    x.andThen f = ⟨.error e, x.handled⟩ := by
  simp only [Guarded.andThen, h]

theorem andThen_ok {α β : Type} {x : Guarded α} {f : α → Guarded β} {a : α} (h : x.result = .ok a) :
    x.andThen f = ⟨(f a).result, x.handled ++ (f a).handled⟩ := by
  simp only [Guarded.andThen, h]

theorem andThen_silent {α β : Type} {x : Except Err α} {f : α → Guarded β} {a : α} (h : x = .ok a) :
    (guarded x).andThen f = f a := by
  subst h; rfl

/-- A document that can be parsed can be lexed. -/
theorem parse_lexes {cfg : Config} {fuel : Nat} {text : Str} {env : Env} {source : Option Str} {s : DocSt}
    (h : parseDoc cfg fuel text env source = .ok s) : ∃ toks, lexDocument (TextBuffer.ofText text 0 0 source) = .ok toks := by
  cases hl : lexDocument (TextBuffer.ofText text 0 0 source) with
  | ok toks => exact ⟨toks, rfl⟩
  | error e =>
    unfold parseDoc at h
    cases fuel with
    | zero => cases h
    | succ n => rw [parseDocument, hl] at h; cases h

/-- C70: `Mau.process` fails exactly if lexing the text, parsing it or visiting the document fails, and then with the same exception. The message handler gets
the message of a Mau exception once and nothing else, and nothing at all for other exceptions. -/
theorem C70_failure {cfg : Config} {fuel : Nat} {env : Env} {v : CliVisitor} {text source : Str} {e : Err} :
    ((mauProcess cfg fuel env v text source).result = .error e ↔ ProcessFails cfg fuel env v text source e) ∧
    ((mauProcess cfg fuel env v text source).result = .error e →
      (∀ m, Carries e m → (mauProcess cfg fuel env v text source).handled = [m]) ∧
      (e.isMau = false → (mauProcess cfg fuel env v text source).handled = [])) := by
  unfold mauProcess mauLexer mauParser mauVisitor
  cases hl : lexDocument (TextBuffer.ofText text 0 0 (some source)) with
  | error e1 =>
    rw [andThen_error (guarded_error.2 rfl)]
    refine ⟨⟨fun h => ?_, fun h => ?_⟩, fun h => ?_⟩
    · cases h; exact .lexer hl
    · cases h with
      | lexer h => rw [hl] at h; cases h; rfl
      | parser h1 => rw [hl] at h1; cases h1
      | visitor h1 => obtain ⟨_, h1⟩ := parse_lexes h1; rw [hl] at h1; cases h1
    · cases h
      exact ⟨fun m hm => (guarded_handled _).2.1 _ m rfl hm, fun hm => (guarded_handled _).2.2 _ rfl hm⟩
  | ok toks =>
    rw [andThen_silent rfl]
    cases hp : parseDoc cfg fuel text env (some source) with
    | error e1 =>
      rw [andThen_error (guarded_error.2 rfl)]
      refine ⟨⟨fun h => ?_, fun h => ?_⟩, fun h => ?_⟩
      · cases h; exact .parser hl hp
      · cases h with
        | lexer h => rw [hl] at h; cases h
        | parser h1 h2 => rw [hp] at h2; cases h2; rfl
        | visitor h1 => rw [hp] at h1; cases h1
      · cases h
        exact ⟨fun m hm => (guarded_handled _).2.1 _ m rfl hm, fun hm => (guarded_handled _).2.2 _ rfl hm⟩
    | ok s =>
      rw [andThen_silent rfl]
      refine ⟨⟨fun h => ?_, fun h => ?_⟩, fun h => ?_⟩
      · exact .visitor hp (guarded_error.1 h)
      · cases h with
        | lexer h => rw [hl] at h; cases h
        | parser h1 h2 => rw [hp] at h2; cases h2
        | visitor h1 h2 => rw [hp] at h1; cases h1; exact guarded_error.2 h2
      · have h := guarded_error.1 h
        exact ⟨fun m hm => (guarded_handled _).2.1 _ m h hm, fun hm => (guarded_handled _).2.2 _ h hm⟩

/-- C70: if `Mau.process` succeeds, the result is what the visitor makes of the document with the variables as the document
leaves them, and the message handler got no error. -/
theorem C70_success {cfg : Config} {fuel : Nat} {env : Env} {v : CliVisitor} {text source rendered : Str}
    (h : (mauProcess cfg fuel env v text source).result = .ok rendered) :
    (∃ s, parseDoc cfg fuel text env (some source) = .ok s ∧ v.process s.env s.output = .ok rendered) ∧
    (mauProcess cfg fuel env v text source).handled = [] := by
  unfold mauProcess mauLexer mauParser mauVisitor at h ⊢
  cases hl : lexDocument (TextBuffer.ofText text 0 0 (some source)) with
  | error e1 => rw [hl, andThen_error (guarded_error.2 rfl)] at h; cases h
  | ok toks =>
    rw [hl, andThen_silent rfl] at h
    rw [andThen_silent rfl]
    cases hp : parseDoc cfg fuel text env (some source) with
    | error e1 => rw [hp, andThen_error (guarded_error.2 rfl)] at h; cases h
    | ok s =>
      rw [hp, andThen_silent rfl] at h
      rw [andThen_silent rfl]
      have h := guarded_ok.1 h
      exact ⟨⟨s, rfl, h⟩, (guarded_handled _).1 _ h⟩

theorem cliStep_error {α : Type} {x : Except Err α} {e : Err} (next : α → CliResult) (h : x = .error e) :
    (∀ m, Carries e m → (cliStep (guarded x) next).status = .exit 1 ∧ LogsError (cliStep (guarded x) next).logged e) ∧
    (e.isMau = false → (cliStep (guarded x) next).status = .raised e ∧ (cliStep (guarded x) next).logged = []) := by
  unfold cliStep
  rw [guarded_error.2 h]
  constructor
  · intro m hm
    dsimp only
    rw [isMau_message.2 ⟨m, hm⟩, (guarded_handled x).2.1 e m h hm]
    refine ⟨rfl, ?_⟩
    cases hm with
    | lexer m l c src =>
      cases src with
      | none => exact LogsError.lexerNowhere m l c
      | some src =>
        have := LogsError.lexer m l c src
        simpa [logLines, positionStr] using this
    | parser m ctx =>
      cases ctx with
      | none => exact .parser m
      | some ctx =>
        have := LogsError.parserAt m ctx
        have hs : ctx.adjust.repr = written ctx := by
          obtain ⟨a, b, c, d, src⟩ := ctx
          rcases src with _ | _ | ⟨x, xs⟩ <;> simp [Context.repr, Context.adjust, Context.moveTo, written, placeText, countedFromOne]
        simpa [logLines, hs] using this
    | visitor m node =>
      rcases node with _ | ⟨type, ctx⟩
      · exact .visitor m
      · have hs : ctx.repr = placeText ctx := by
          obtain ⟨a, b, c, d, src⟩ := ctx
          rcases src with _ | _ | ⟨x, xs⟩ <;> simp [Context.repr, placeText]
        cases type with
        | nil =>
          have := LogsError.visitorUntyped m ctx
          simpa [logLines, hs] using this
        | cons a type =>
          have := LogsError.visitorAt m (a :: type) ctx (by simp)
          simpa [logLines, hs] using this
  · intro hm
    dsimp only
    rw [hm, (guarded_handled x).2.2 e h hm]
    exact ⟨rfl, rfl⟩

theorem cliStep_ok {α : Type} {x : Except Err α} {a : α} (next : α → CliResult) (h : x = .ok a) :
    cliStep (guarded x) next = next a := by
  subst h; rfl

/-- C70: on the command line, for a known visitor: a Mau error of any of the three steps is logged once, with its kind and text, and the exit code is 1. Other exceptions
are not caught, and not logged. -/
theorem C70_command {w : CliWorld} {fuel : Nat} {a : CliArgs} {env : Env} {text name : Str} {v : CliVisitor} {e : Err}
    (h1 : cliEnvironment w a = .ok env) (h2 : w.read a.input = some text) (h3 : a.lexerOnly = false)
    (h4 : a.visitor = some name) (h5 : Dict.get? w.visitors name = some v) (h : ProcessFails w.cfg fuel env v text a.input e) :
    (e.isMau = true → (cliMain w fuel a).status = .exit 1 ∧ LogsError (cliMain w fuel a).logged e) ∧
    (e.isMau = false → (cliMain w fuel a).status = .raised e ∧ (cliMain w fuel a).logged = []) := by
  have key : ∀ {r : CliResult}, ((∀ m, Carries e m → r.status = .exit 1 ∧ LogsError r.logged e) ∧
      (e.isMau = false → r.status = .raised e ∧ r.logged = [])) →
      (e.isMau = true → r.status = .exit 1 ∧ LogsError r.logged e) ∧ (e.isMau = false → r.status = .raised e ∧ r.logged = []) := by
    intro r hr
    refine ⟨fun hm => ?_, hr.2⟩
    obtain ⟨m, hm⟩ := isMau_message.1 hm
    exact hr.1 m hm
  apply key
  unfold cliMain mauLexer mauParser mauVisitor
  simp only [h1, h2, h3, h4, h5, Bool.false_eq_true, if_false]
  cases h with
  | lexer h => exact cliStep_error _ h
  | parser ht hp => rw [cliStep_ok _ ht]; exact cliStep_error _ hp
  | visitor hp hv =>
    obtain ⟨toks, ht⟩ := parse_lexes hp
    rw [cliStep_ok _ ht, cliStep_ok _ hp]
    exact cliStep_error _ hv

/-- C70: without errors nothing is logged. -/
theorem C70_quiet {w : CliWorld} {fuel : Nat} {a : CliArgs} (h : (cliMain w fuel a).status = .done) : (cliMain w fuel a).logged = [] := by
  have key : ∀ {α : Type} {x : Guarded α} {next : α → CliResult}, (cliStep x next).status = .done →
      ∃ b, cliStep x next = next b := by
    intro α x next hx
    unfold cliStep at hx ⊢
    split at hx
    · exact ⟨_, rfl⟩
    · dsimp only at hx; split at hx <;> cases hx
  unfold cliMain at h ⊢
  cases h1 : cliEnvironment w a with
  | error e => rfl
  | ok env =>
  cases h2 : w.read a.input with
  | none => rfl
  | some text =>
  simp only [h1, h2] at h ⊢
  obtain ⟨b, hb⟩ := key h
  rw [hb] at h ⊢
  split at h
  · rename_i hl; simp only [hl, if_true]
  · rename_i hl
    simp only [hl]
    obtain ⟨s, hs⟩ := key h
    simp only [Bool.false_eq_true, if_false, hs]
    rw [hs] at h
    split at h
    · cases h
    · split at h
      · cases h
      · obtain ⟨r, hr⟩ := key h
        simp only [*]
        unfold writeOutput
        split <;> rfl

/-- C61: Mau errors end the program with exit code 1. -/
theorem C61_exit (w : CliWorld) (fuel : Nat) (a : CliArgs) (env : Env) (text : Str) (er : Err)
    (h1 : cliEnvironment w a = .ok env) (h2 : w.read a.input = some text) (h3 : a.lexerOnly = false)
    (h4 : parseDoc w.cfg fuel text env (some a.input) = .error er) (h5 : er.isMau = true) :
    (cliMain w fuel a).status = .exit 1 := by
  have hlex : ∀ e, lexDocument (TextBuffer.ofText text 0 0 (some a.input)) = .error e → fuel ≠ 0 → e = er := by
    intro e he hfu
    unfold parseDoc at h4
    cases fuel with
    | zero => exact absurd rfl hfu
    | succ n =>
      rw [parseDocument, he] at h4
      simpa using h4
  have hfu : fuel ≠ 0 := by
    rintro rfl
    unfold parseDoc parseDocument at h4
    cases h4
    simp [Err.isMau] at h5
  obtain ⟨m, hm⟩ := isMau_message.1 h5
  unfold cliMain mauLexer mauParser
  simp only [h1, h2, h3, Bool.false_eq_true, if_false]
  cases hl : lexDocument (TextBuffer.ofText text 0 0 (some a.input)) with
  | error e => rw [hlex e hl hfu]; exact ((cliStep_error _ rfl).1 m hm).1
  | ok toks => rw [cliStep_ok _ rfl]; exact ((cliStep_error _ h4).1 m hm).1

/-- A complete run: the text of the document counted by a visitor, and a run that fails. -/
def exampleWorld : CliWorld where
  read := fun f => if f = c%"a.mau" then some c%"Hello {mau.envvars.x}\n" else if f = c%"b.mau" then some c%"[x\n" else none
  load := fun _ => none
  visitors := [(c%"count", ⟨c%"txt", fun _ o => .ok (natStr (o.document.elim 0 (·.content.length)))⟩)]

example :
    cliMain exampleWorld 20 { input := c%"a.mau", environmentVariables := [c%"x=world"], visitor := some c%"count" } =
      { status := .done, written := some (c%"a.txt", c%"1\n") } ∧
    cliMain exampleWorld 20 { input := c%"a.mau", visitor := some c%"count" } =
      { status := .exit 1, logged := [⟨c%"Parser error: ", some (.undefinedVariable c%"mau.envvars.x")⟩, ⟨c%"Context: a.mau:1,6-1,21", none⟩] } ∧
    cliMain exampleWorld 20 { input := c%"none.mau", visitor := some c%"count" } = { status := .raised (.py .osError) } := by
  refine ⟨by decide +kernel, by decide +kernel, by decide +kernel⟩

/-- Failures as in C70: an undefined variable, an unclosed block, and a visitor that rejects the document; the last visitor shows a variable
the document defines. -/
example :
    ProcessFails {} 20 [] ⟨c%"txt", fun _ _ => .ok []⟩ c%"{x}\n" c%"a.mau" (.parser (.undefinedVariable c%"x") (some ⟨0, 0, 0, 3, some c%"a.mau"⟩)) ∧
    ProcessFails {} 20 [] ⟨c%"txt", fun _ _ => .ok []⟩ c%"++++\nx\n" c%"a.mau" (.lexer .unclosedBlock 0 0 (some c%"a.mau")) ∧
    ProcessFails {} 20 [] ⟨c%"txt", fun _ _ => .error (.visitor (.text c%"no") none)⟩ c%"text\n" c%"a.mau" (.visitor (.text c%"no") none) ∧
    (mauProcess {} 20 [] ⟨c%"txt", fun env _ => match Dict.get? env c%"x" with | some (.str v) => .ok v | _ => .ok []⟩
      c%":x:value\ntext\n" c%"a.mau").result = .ok c%"value" := by
  refine ⟨?_, .lexer (by decide +kernel), ?_, by decide +kernel⟩
  · cases ht : lexDocument (TextBuffer.ofText c%"{x}\n" 0 0 (some c%"a.mau")) with
    | error e =>
      have h : (lexDocument (TextBuffer.ofText c%"{x}\n" 0 0 (some c%"a.mau"))).toOption.isSome = true := by decide +kernel
      rw [ht] at h; cases h
    | ok toks =>
      refine .parser ht ?_
      have h : (match parseDoc {} 20 c%"{x}\n" [] (some c%"a.mau") with | .ok _ => none | .error e => some e) =
        some (Err.parser (.undefinedVariable c%"x") (some ⟨0, 0, 0, 3, some c%"a.mau"⟩)) := by decide +kernel
      cases hp : parseDoc {} 20 c%"{x}\n" [] (some c%"a.mau") with
      | ok s => rw [hp] at h; cases h
      | error e => rw [hp] at h; cases h; rfl
  · cases hp : parseDoc {} 20 c%"text\n" [] (some c%"a.mau") with
    | ok s => exact .visitor hp rfl
    | error e =>
      have h : (parseDoc {} 20 c%"text\n" [] (some c%"a.mau")).toOption.isSome = true := by decide +kernel
      rw [hp] at h; cases h

end Mau
