import Verif.Spec.TemplateSources
import Verif.Props.Cli
import Verif.Props.Templates

set_option linter.unusedSimpArgs false

/-!
# C69: where templates come from
-/

namespace Mau
open Spec

/-- What one entry of a directory adds. -/
def entryValue (ext : Str) (pre : Str → Str) : FsEntry → Option Nested
  | .file name content => if endsWith name ext then some (.leaf (.str (pre content))) else none
  | .dir _ es => if (loadEntries ext pre es []).isEmpty then none else some (.dict (loadEntries ext pre es []))

theorem loadEntry_eq (ext : Str) (pre : Str → Str) (e : FsEntry) (r : List (Str × Nested)) :
    loadEntry ext pre e r = match entryValue ext pre e with
      | none => r
      | some n => Dict.set r (entryName e) n := by
  cases e with
  | file name content =>
    unfold loadEntry entryValue
    by_cases h : endsWith name ext = true
    · simp [h, entryName]
    · simp [h]
  | dir name es =>
    unfold loadEntry entryValue
    by_cases h : (loadEntries ext pre es []).isEmpty = true
    · simp [h]
    · simp [h, entryName]

theorem loadEntries_get? (ext : Str) (pre : Str → Str) (es : List FsEntry) (hd : (es.map entryName).Nodup) (r : List (Str × Nested)) (k : Str)
    (n : Nested) : Dict.get? (loadEntries ext pre es r) k = some n ↔
      (∃ e ∈ es, entryName e = k ∧ entryValue ext pre e = some n) ∨
      ((∀ e ∈ es, entryName e = k → entryValue ext pre e = none) ∧ Dict.get? r k = some n) := by
  induction es generalizing r with
  | nil => simp [loadEntries]
  | cons e es ih =>
    rw [loadEntries, ih (by simpa using (List.nodup_cons.1 hd).2), loadEntry_eq]
    have hne : ∀ e' ∈ es, entryName e' ≠ entryName e := by
      intro e' he' heq
      exact (List.nodup_cons.1 hd).1 (heq ▸ List.mem_map.2 ⟨e', he', rfl⟩)
    constructor
    · rintro (⟨e', h1, h2, h3⟩ | ⟨h1, h2⟩)
      · exact .inl ⟨e', by simp [h1], h2, h3⟩
      · cases hv : entryValue ext pre e with
        | none =>
          simp only [hv] at h2
          refine .inr ⟨?_, h2⟩
          intro e' he' hk
          rcases List.mem_cons.1 he' with rfl | he'
          · exact hv
          · exact h1 e' he' hk
        | some m =>
          simp only [hv, Dict.get?_set] at h2
          split at h2
          · rename_i hk
            cases h2
            exact .inl ⟨e, by simp, hk, hv⟩
          · rename_i hk
            refine .inr ⟨?_, h2⟩
            intro e' he' hk'
            rcases List.mem_cons.1 he' with rfl | he'
            · exact absurd hk' hk
            · exact h1 e' he' hk'
    · rintro (⟨e', h1, h2, h3⟩ | ⟨h1, h2⟩)
      · rcases List.mem_cons.1 h1 with rfl | h1
        · refine .inr ⟨?_, ?_⟩
          · intro e'' he'' hk''
            exact absurd (hk''.trans h2.symm) (hne e'' he'')
          · simp [h3, Dict.get?_set, h2]
        · exact .inl ⟨e', h1, h2, h3⟩
      · refine .inr ⟨fun e' he' => h1 e' (by simp [he']), ?_⟩
        cases hv : entryValue ext pre e with
        | none => exact h2
        | some m =>
          have : entryName e ≠ k := fun hk => by simp [h1 e (by simp) hk] at hv
          simp [Dict.get?_set, this, h2]

theorem endsWith_iff {s p : Str} : endsWith s p = true ↔ ∃ r, s = r ++ p := by
  unfold endsWith
  rw [List.isSuffixOf_iff_suffix]
  exact ⟨fun ⟨r, h⟩ => ⟨r, h.symm⟩, fun ⟨r, h⟩ => ⟨r, h.symm⟩⟩

theorem Spec.Directory.distinct {es : List FsEntry} (h : Directory es) : (es.map entryName).Nodup := by
  cases h; assumption
theorem Spec.Directory.sub {es : List FsEntry} (h : Directory es) {name : Str} {sub : List FsEntry} (hm : FsEntry.dir name sub ∈ es) : Directory sub := by
  cases h with
  | mk _ _ _ hs => exact hs _ _ hm

theorem templateFile_cons {ext name : Str} {es : List FsEntry} {k : Str} {p : List Str} {c : Str} (h : TemplateFile ext es (k :: name :: p) c) :
    ∃ sub, FsEntry.dir k sub ∈ es ∧ TemplateFile ext sub (name :: p) c := by
  obtain ⟨h1, dirs, stem, h2⟩ := h
  cases h1 with
  | dir hm hs =>
    refine ⟨_, hm, hs, ?_⟩
    cases dirs with
    | nil => cases h2
    | cons d dirs => exact ⟨dirs, stem, by simpa using (List.cons.inj h2).2⟩

/-- C69 (directories): the dictionary made of a directory has exactly the template files, at every depth, under their paths, with
their preprocessed contents. -/
theorem C69_directory (ext : Str) (pre : Str → Str) (es : List FsEntry) (h : Directory es) (path : List Str) (hp : path ≠ []) (v : Val) :
    at? path (.dict (loadEntries ext pre es [])) = some v ↔ ∃ content, TemplateFile ext es path content ∧ v = .str (pre content) := by
  induction path generalizing es with
  | nil => exact absurd rfl hp
  | cons k ks ih =>
    rw [at?_cons]
    constructor
    · intro hv
      cases hg : Dict.get? (loadEntries ext pre es []) k with
      | none => rw [hg] at hv; cases hv
      | some n =>
        rw [hg] at hv
        change at? ks n = some v at hv
        rcases (loadEntries_get? ext pre es h.distinct [] k n).1 hg with ⟨e, he, hk, hval⟩ | ⟨_, h2⟩
        · cases e with
          | file name content =>
            simp only [entryValue] at hval
            split at hval
            · rename_i hends
              cases hval
              cases ks with
              | cons _ _ => cases hv
              | nil =>
                cases hv
                obtain ⟨stem, hs⟩ := endsWith_iff.1 hends
                cases hk
                refine ⟨content, ⟨.file he, [], stem, ?_⟩, rfl⟩
                simp [entryName, hs]
            · cases hval
          | dir name sub =>
            simp only [entryValue] at hval
            split at hval
            · cases hval
            · rename_i hemp
              cases hval
              cases hk
              cases ks with
              | nil =>
                cases hl : loadEntries ext pre sub [] with
                | nil => simp [hl] at hemp
                | cons _ _ => rw [hl] at hv; cases hv
              | cons k2 ks =>
                obtain ⟨c, ⟨hc, dirs, stem, hd⟩, hv⟩ := (ih sub (h.sub he) (by simp)).1 hv
                exact ⟨c, ⟨.dir he hc, name :: dirs, stem, by simp [hd, entryName]⟩, hv⟩
        · cases h2
    · rintro ⟨c, hc, rfl⟩
      cases ks with
      | nil =>
        obtain ⟨h1, dirs, stem, h2⟩ := hc
        have hd : dirs = [] := by
          cases dirs with
          | nil => rfl
          | cons d dirs => simp at h2
        subst hd
        have hk : k = stem ++ ext := by simpa using h2
        cases h1 with
        | dir _ hs => cases hs
        | file hm =>
          have := (loadEntries_get? ext pre es h.distinct [] k (.leaf (.str (pre c)))).2
            (.inl ⟨_, hm, rfl, by simp only [entryValue]; rw [if_pos (endsWith_iff.2 ⟨stem, hk⟩)]⟩)
          rw [this]; rfl
      | cons k2 ks =>
        obtain ⟨sub, hm, ht⟩ := templateFile_cons hc
        have hat := (ih sub (h.sub hm) (by simp)).2 ⟨c, ht, rfl⟩
        have hne : (loadEntries ext pre sub []).isEmpty = false := by
          cases hl : loadEntries ext pre sub [] with
          | nil => rw [hl] at hat; simp [at?, Dict.get?] at hat
          | cons _ _ => rfl
        have := (loadEntries_get? ext pre es h.distinct [] k (.dict (loadEntries ext pre sub []))).2
          (.inl ⟨_, hm, rfl, by simp only [entryValue]; rw [if_neg (by simp [hne])]⟩)
        rw [this]; exact hat

theorem directory_distinct (ext : Str) (pre : Str → Str) (es : List FsEntry) (h : Directory es) : DistinctN (.dict (loadEntries ext pre es [])) := by
  induction h with
  | mk es hd hn _ ih =>
    have key : ∀ (l : List FsEntry), (∀ e ∈ l, e ∈ es) → ∀ r, DistinctN (.dict r) → DistinctN (.dict (loadEntries ext pre l r)) := by
      intro l
      induction l with
      | nil => intro _ r hr; exact hr
      | cons e l ihl =>
        intro hl r hr
        rw [loadEntries]
        refine ihl (fun e' he' => hl e' (by simp [he'])) _ ?_
        rw [loadEntry_eq]
        cases hv : entryValue ext pre e with
        | none => exact hr
        | some n =>
          refine distinctN_set hr _ ?_
          cases e with
          | file name content =>
            simp only [entryValue] at hv
            split at hv <;> cases hv
            exact .leaf _
          | dir name sub =>
            simp only [entryValue] at hv
            split at hv <;> cases hv
            exact ih name sub (hl _ (by simp))
    exact key es (fun _ h => h) [] (.dict [] Dict.distinct_nil (by simp))

/-- The function gives the value decided by the sources. -/
def Chain (w : TemplateWorld) (env : Env) (ss : List Source) (f : Str → Option Val) : Prop :=
  ∀ k v, f k = some v ↔ Decides w env ss k v

theorem Chain.nil (w : TemplateWorld) (env : Env) : Chain w env [] (fun _ => none) := by
  intro k v
  constructor
  · intro h; cases h
  · rintro ⟨b, s, a, h, _⟩; simp at h

theorem Chain.one {w : TemplateWorld} {env : Env} {s : Source} {f : Str → Option Val} (h : ∀ k v, f k = some v ↔ Offers w env s k v) :
    Chain w env [s] f := by
  intro k v
  rw [h]
  constructor
  · intro ho; exact ⟨[], s, [], rfl, ho, by simp⟩
  · rintro ⟨b, s', a, hs, ho, _⟩
    cases b with
    | nil => simp only [List.nil_append, List.cons.injEq] at hs; rw [hs.1]; exact ho
    | cons _ _ => simp at hs

theorem Chain.append {w : TemplateWorld} {env : Env} {ss ts : List Source} {f g : Str → Option Val} (hf : Chain w env ss f) (hg : Chain w env ts g) :
    Chain w env (ss ++ ts) (fun k => (g k).or (f k)) := by
  intro k v
  have none_of : g k = none → ∀ s ∈ ts, ∀ v', ¬ Offers w env s k v' := by
    -- a source that offers something makes the chain give something: take the last one
    intro hn
    have key : ∀ us : List Source, (∃ s ∈ us, ∃ v', Offers w env s k v') → ∃ v', Decides w env us k v' := by
      intro us
      induction us with
      | nil => rintro ⟨s, hs, _⟩; cases hs
      | cons u us ih =>
        rintro ⟨s, hs, v', ho⟩
        by_cases hex : ∃ s ∈ us, ∃ v', Offers w env s k v'
        · obtain ⟨v2, b, s2, a, h1, h2⟩ := ih hex
          exact ⟨v2, u :: b, s2, a, by simp [h1], h2⟩
        · rcases List.mem_cons.1 hs with rfl | hs
          · exact ⟨v', [], s, us, rfl, ho, fun s' hs' v2 ho' => hex ⟨s', hs', v2, ho'⟩⟩
          · exact absurd ⟨s, hs, v', ho⟩ hex
    intro s hs v' ho
    obtain ⟨v2, hd⟩ := key ts ⟨s, hs, v', ho⟩
    rw [(hg k v2).2 hd] at hn
    cases hn
  constructor
  · intro h
    cases hgk : g k with
    | some u =>
      simp only [hgk, Option.some_or, Option.some.injEq] at h
      obtain ⟨b, s, a, h1, h2⟩ := (hg k u).1 hgk
      exact ⟨ss ++ b, s, a, by simp [h1], h ▸ h2⟩
    | none =>
      simp only [hgk, Option.none_or] at h
      obtain ⟨b, s, a, h1, h2, h3⟩ := (hf k v).1 h
      refine ⟨b, s, a ++ ts, by simp [h1], h2, ?_⟩
      intro s' hs'
      rcases List.mem_append.1 hs' with hs' | hs'
      · exact h3 s' hs'
      · exact none_of hgk s' hs'
  · rintro ⟨b, s, a, h1, h2, h3⟩
    rcases List.append_eq_append_iff.1 h1 with ⟨c, hc, hcs⟩ | ⟨c, hc, hcs⟩
    · have : g k = some v := (hg k v).2 ⟨c, s, a, hcs, h2, h3⟩
      simp [this]
    · cases c with
      | nil =>
        have : g k = some v := (hg k v).2 ⟨[], s, a, by simpa using hcs.symm, h2, h3⟩
        simp [this]
      | cons x c =>
        simp only [List.cons_append, List.cons.injEq] at hcs
        obtain ⟨rfl, hcs⟩ := hcs
        have hfk : f k = some v := (hf k v).2 ⟨b, s, c, hc, h2, fun s' hs' => h3 s' (by simp [hcs, hs'])⟩
        cases hgk : g k with
        | none => simp [hgk, hfk]
        | some u =>
          obtain ⟨b', s', a', h4, h5, _⟩ := (hg k u).1 hgk
          exact absurd h5 (h3 s' (by simp [hcs, h4]) u)

theorem pjoin_dotted {k : Str} (h : k ≠ []) (p : List Str) : pjoin [] (k :: p) = dotted (k :: p) := by
  rw [pjoin_cons, joinKey_nil, pjoin_of_ne h]; rfl

/-- A dictionary without ambiguous names gives the values at its paths. -/
theorem fromDict_offers {d : List (Str × Nested)} (hd : DistinctN (.dict d)) (hk : ∀ kv ∈ d, kv.1 ≠ [])
    (hi : ∀ p q v v', p ≠ [] → q ≠ [] → at? p (.dict d) = some v → at? q (.dict d) = some v' → dotted p = dotted q → p = q) (k : Str) (v : Val) :
    Dict.get? (Env.fromDict d) k = some v ↔ ∃ p, p ≠ [] ∧ at? p (.dict d) = some v ∧ dotted p = k := by
  have hj : ∀ p v, p ≠ [] → at? p (.dict d) = some v → pjoin [] p = dotted p := by
    intro p v hp hat
    cases p with
    | nil => exact absurd rfl hp
    | cons a p =>
      refine pjoin_dotted ?_ p
      rw [at?_cons] at hat
      cases hg : Dict.get? d a with
      | none => rw [hg] at hat; cases hat
      | some n => exact hk _ (Dict.mem_of_get? hg)
  have hinj : InjOn [] (.dict d) := by
    intro p q v w hp hq hpq
    by_cases hp0 : p = []
    · subst hp0
      cases d with
      | cons _ _ => cases hp
      | nil =>
        by_cases hq0 : q = []
        · exact hq0.symm
        · rw [at?_empty hq0] at hq; cases hq
    · by_cases hq0 : q = []
      · subst hq0
        cases d with
        | cons _ _ => cases hq
        | nil => rw [at?_empty hp0] at hp; cases hp
      · rw [hj p v hp0 hp, hj q w hq0 hq] at hpq
        exact hi p q v w hp0 hq0 hp hq hpq
  have := flattenNested_spec d hd hinj
  unfold Env.fromDict Env.dupdate
  simp only [List.isEmpty_nil, if_true]
  rw [Dict.update_nil_left this.1, this.2]
  constructor
  · rintro ⟨p, h1, h2, h3⟩; exact ⟨p, h1, h2, by rw [← hj p v h1 h2]; exact h3⟩
  · rintro ⟨p, h1, h2, h3⟩; exact ⟨p, h1, h2, by rw [hj p v h1 h2]; exact h3⟩

theorem Spec.Orderly.distinctN {n : Nested} (h : Orderly n) : DistinctN n := by
  induction h with
  | leaf v => exact .leaf v
  | dict d hd _ ih => exact .dict d hd ih

theorem loadProviders_chain {w : TemplateWorld} {env : Env} {names : List Str} {provs : List (List (Str × Nested))}
    (h : names.map (Dict.get? w.providers) = provs.map some)
    (ho : ∀ d ∈ provs, Orderly (.dict d) ∧ (∀ kv ∈ d, kv.1 ≠ []) ∧
      ∀ p q v v', p ≠ [] → q ≠ [] → at? p (.dict d) = some v → at? q (.dict d) = some v' → dotted p = dotted q → p = q)
    {ss : List Source} {t : Env} (ht : Chain w env ss (Dict.get? t)) (htd : Dict.Distinct t) :
    ∃ t', loadProviders w.providers names t = .ok t' ∧ Chain w env (ss ++ provs.map .provider) (Dict.get? t') ∧ Dict.Distinct t' := by
  induction names generalizing provs ss t with
  | nil =>
    cases provs with
    | nil => exact ⟨t, rfl, by simpa using ht, htd⟩
    | cons _ _ => simp at h
  | cons n names ih =>
    cases provs with
    | nil => simp at h
    | cons d provs =>
      simp only [List.map_cons, List.cons.injEq] at h
      obtain ⟨h1, h2, h3⟩ := ho d (by simp)
      have hone : Chain w env [.provider d] (Dict.get? (Env.fromDict d)) :=
        Chain.one fun k v => fromDict_offers h1.distinctN h2 h3 k v
      have hch := ht.append hone
      have heq : (fun k => (Dict.get? (Env.fromDict d) k).or (Dict.get? t k)) = Dict.get? (Env.dupdate t d) := by
        funext k; rw [get?_dupdate]
      rw [heq] at hch
      obtain ⟨t', h4, h5, h6⟩ := ih h.2 (fun d hd => ho d (by simp [hd])) hch (Dict.distinct_update htd _)
      refine ⟨t', ?_, by simpa using h5, h6⟩
      unfold loadProviders
      rw [h.1]
      exact h4

theorem loadPaths_chain {w : TemplateWorld} {env : Env} {paths : List Str} {dirs : List (List FsEntry)}
    (h : paths.map (fun p => if p = [] then some [] else w.directory p) = dirs.map some)
    (ho : ∀ es ∈ dirs, Directory es ∧
      ∀ p q c c', TemplateFile w.extension es p c → TemplateFile w.extension es q c' → dotted p = dotted q → p = q)
    {ss : List Source} {t : Env} (ht : Chain w env ss (Dict.get? t)) (htd : Dict.Distinct t) :
    ∃ t', loadPaths w paths t = .ok t' ∧ Chain w env (ss ++ dirs.map .directory) (Dict.get? t') ∧ Dict.Distinct t' := by
  induction paths generalizing dirs ss t with
  | nil =>
    cases dirs with
    | nil => exact ⟨t, rfl, by simpa using ht, htd⟩
    | cons _ _ => simp at h
  | cons path paths ih =>
    cases dirs with
    | nil => simp at h
    | cons es dirs =>
      simp only [List.map_cons, List.cons.injEq] at h
      obtain ⟨h1, h2⟩ := ho es (by simp)
      have hload : loadPath w path = .ok (loadEntries w.extension w.preprocess es []) := by
        unfold loadPath
        have h0 := h.1
        cases path with
        | nil =>
          simp only [if_true, Option.some.injEq] at h0
          subst h0
          simp [loadEntries]
        | cons c path =>
          rw [if_neg (by simp)] at h0
          simp [h0]
      have hat := C69_directory w.extension w.preprocess es h1
      have hone : Chain w env [.directory es] (Dict.get? (Env.fromDict (loadEntries w.extension w.preprocess es []))) := by
        refine Chain.one fun k v => ?_
        rw [fromDict_offers (directory_distinct _ _ es h1)]
        · constructor
          · rintro ⟨p, hp, hv, hk⟩
            obtain ⟨c, hc, hv⟩ := (hat p hp v).1 hv
            exact ⟨p, c, hc, hk, hv⟩
          · rintro ⟨p, c, hc, hk, hv⟩
            have hp : p ≠ [] := by
              rintro rfl
              obtain ⟨_, dirs, stem, hx⟩ := hc
              simp at hx
            exact ⟨p, hp, (hat p hp v).2 ⟨c, hc, hv⟩, hk⟩
        · intro kv hkv
          have hg := Dict.get?_of_mem (by cases directory_distinct w.extension w.preprocess es h1; assumption) hkv
          rcases (loadEntries_get? _ _ es h1.distinct [] _ _).1 hg with ⟨e, he, hk, _⟩ | ⟨_, hn⟩
          · rw [← hk]
            cases h1 with
            | mk _ _ hn _ => exact hn e he
          · cases hn
        · intro p q v v' hp hq hv hv' hpq
          obtain ⟨c, hc, _⟩ := (hat p hp v).1 hv
          obtain ⟨c', hc', _⟩ := (hat q hq v').1 hv'
          exact h2 p q c c' hc hc' hpq
      have hch := ht.append hone
      have heq : (fun k => (Dict.get? (Env.fromDict (loadEntries w.extension w.preprocess es [])) k).or (Dict.get? t k)) =
          Dict.get? (Env.dupdate t (loadEntries w.extension w.preprocess es [])) := by
        funext k; rw [get?_dupdate]
      rw [heq] at hch
      obtain ⟨t', h4, h5, h6⟩ := ih h.2 (fun d hd => ho d (by simp [hd])) hch (Dict.distinct_update htd _)
      refine ⟨t', ?_, by simpa using h5, h6⟩
      unfold loadPaths
      rw [hload]
      exact h4

theorem configuredList_eq {env : Env} {key : Str} {xs : List Str} (h : Configured env key xs) : configuredList env key = .ok xs := by
  unfold configuredList
  rcases h with ⟨r, hr⟩ | ⟨s, hs, rfl⟩ | ⟨rfl, hn⟩
  · rw [C16_variable env key _ hr]
  · rw [C16_variable env key _ hs]
  · rw [(C16_default env key).2 hn]

/-- C69 (precedence): a name has the value of the last source that has one — first the default templates, then the
providers and the directories in the order in which they are configured, at last the templates of the configuration itself. -/
theorem C69_precedence (w : TemplateWorld) (env : Env) (names paths : List Str) (providers : List (List (Str × Nested)))
    (directories : List (List FsEntry)) (h : Sources w env names paths providers directories) :
    ∃ t, templatesEnv w env = .ok t ∧ Dict.Distinct t ∧
      ∀ name v, Dict.get? t name = some v ↔ Decides w env (allSources providers directories) name v := by
  obtain ⟨d0, hd0, _, hd1, e0, he0, hge⟩ := C14_flat_round_trip w.defaults h.distinct (fun k hk => (h.defaults k hk).1) (fun p hp q hq => (h.defaults p hp).2 q hq)
  have hdist : Dict.Distinct e0 := by
    unfold Env.fromEnvironment at he0
    rw [hd0] at he0
    cases he0
    exact Dict.distinct_update Dict.distinct_nil _
  have c0 : Chain w env [.defaults] (Dict.get? e0) := Chain.one fun k v => by rw [hge]; exact Iff.rfl
  obtain ⟨p, hp, cp, dp⟩ := loadProviders_chain (env := env) h.installed h.orderly (Chain.nil w env) (t := []) Dict.distinct_nil
  obtain ⟨f, hf, cf, df⟩ := loadPaths_chain (env := env) h.found h.unambiguous (Chain.nil w env) (t := []) Dict.distinct_nil
  have hc : ∃ c, customTemplates env = .ok c ∧ Dict.Distinct c ∧ ∀ k v, Dict.get? c k = some v ↔ Offers w env .custom k v := by
    unfold customTemplates
    by_cases hd : env.get c%"mau.visitor.templates.custom" = .default
    · refine ⟨[], by rw [hd], Dict.distinct_nil, fun k v => ?_⟩
      have := ((C16_default _ _).1 hd).2 k
      constructor
      · intro hx; cases hx
      · intro hx
        change Dict.get? env (c%"mau.visitor.templates.custom." ++ k) = some v at hx
        exact absurd (this.symm.trans hx) (by simp)
    · have : ∃ x, Dict.get? env (c%"mau.visitor.templates.custom" ++ '.' :: x) ≠ none := by
        by_cases hex : ∃ x, Dict.get? env (c%"mau.visitor.templates.custom" ++ '.' :: x) ≠ none
        · exact hex
        · refine absurd ((C16_default _ _).2 ⟨h.custom, fun x => ?_⟩) hd
          cases hg : Dict.get? env (c%"mau.visitor.templates.custom" ++ '.' :: x) with
          | none => rfl
          | some v => exact absurd ⟨x, by rw [hg]; simp⟩ hex
      obtain ⟨x, hx⟩ := this
      obtain ⟨sub, h1, h2, h3⟩ := C16_namespace env h.config _ h.custom x hx
      refine ⟨sub, by rw [h1], h2, fun k v => ?_⟩
      rw [h3]
      exact Iff.rfl
  obtain ⟨c, hce, dc, hco⟩ := hc
  refine ⟨Env.update (Env.update (Env.update e0 p) f) c, ?_, ?_, ?_⟩
  · unfold templatesEnv
    rw [he0, configuredList_eq h.requested, configuredList_eq h.searched, hce]
    simp only [bind, Except.bind, hp, hf, pure, Except.pure]
  · exact (C15_distinct _ c (C15_distinct _ f (C15_distinct _ p hdist [] []).2.1 [] []).2.1 [] []).2.1
  · have := ((c0.append cp).append cf).append (Chain.one hco)
    have heq : ([Source.defaults] ++ ([] ++ providers.map Source.provider) ++ ([] ++ directories.map Source.directory) ++ [Source.custom]) =
        allSources providers directories := by simp [allSources]
    rw [heq] at this
    intro name v
    rw [C15_update _ _ dc, C15_update _ _ df, C15_update _ _ dp]
    exact this name v

theorem addPart_fixed (parts : List Str) (t : Template) :
    (parts.foldl Template.addPart t).name = t.name ∧ (parts.foldl Template.addPart t).content = t.content := by
  induction parts generalizing t with
  | nil => exact ⟨rfl, rfl⟩
  | cons p ps ih =>
    rw [List.foldl_cons, (ih _).1, (ih _).2]
    unfold Template.addPart
    repeat' split
    all_goals exact ⟨rfl, rfl⟩

theorem fromName_ok {name : Str} (h : name ≠ []) (hd : name.head? ≠ some '.') (content : Str) :
    ∃ t, Template.fromName name content = .ok t ∧ t.name = name ∧ t.content = content := by
  unfold Template.fromName
  cases name with
  | nil => exact absurd rfl h
  | cons c name =>
    have hc : c ≠ '.' := by simpa using hd
    have : ∃ x r, splitChar '.' (c :: name) = (c :: x) :: r := by
      unfold splitChar
      rw [if_neg hc]
      split
      · rename_i h0; exact absurd h0 (splitChar_ne_nil _ _)
      · exact ⟨_, _, rfl⟩
    obtain ⟨x, r, hx⟩ := this
    rw [hx]
    exact ⟨_, rfl, addPart_fixed _ _⟩

theorem templateTexts_spec (ext : Str) (t : Env) (h : ∀ n v, (n, v) ∈ t → endsWith n ext = true → ∃ c, v = .str c) :
    ∃ texts, templateTexts ext t = .ok texts ∧ texts.keys = t.keys.filter (endsWith · ext) ∧
      ∀ n c, (n, c) ∈ texts ↔ (n, Val.str c) ∈ t ∧ endsWith n ext = true := by
  induction t with
  | nil => exact ⟨[], rfl, rfl, by simp⟩
  | cons kv t ih =>
    obtain ⟨k, v⟩ := kv
    obtain ⟨texts, h1, h2, h3⟩ := ih (fun n v hm => h n v (by simp [hm]))
    unfold templateTexts
    by_cases he : endsWith k ext = true
    · obtain ⟨c, rfl⟩ := h k v (by simp) he
      refine ⟨(k, c) :: texts, by simp [he, h1, bind, Except.bind, pure, Except.pure], ?_, ?_⟩
      · simp only [Dict.keys, List.map_cons, List.filter_cons, he, if_true] at h2 ⊢
        rw [h2]
      · intro n c'
        simp only [List.mem_cons, Prod.mk.injEq, h3, Val.str.injEq]
        constructor
        · rintro (⟨rfl, rfl⟩ | ⟨h4, h5⟩)
          · exact ⟨.inl ⟨rfl, rfl⟩, he⟩
          · exact ⟨.inr h4, h5⟩
        · rintro ⟨⟨rfl, rfl⟩ | h4, h5⟩
          · exact .inl ⟨rfl, rfl⟩
          · exact .inr ⟨h4, h5⟩
    · refine ⟨texts, by simp [he, h1], ?_, ?_⟩
      · simp only [Dict.keys, List.map_cons, List.filter_cons, he] at h2 ⊢
        simpa using h2
      · intro n c'
        rw [h3]
        simp only [List.mem_cons, Prod.mk.injEq]
        constructor
        · rintro ⟨h4, h5⟩; exact ⟨.inr h4, h5⟩
        · rintro ⟨⟨rfl, _⟩ | h4, h5⟩
          · exact absurd h5 he
          · exact ⟨h4, h5⟩

theorem readTemplates_spec (ext : Str) (texts : Dict Str)
    (h : ∀ n c, (n, c) ∈ texts → ∃ stem, n = stem ++ ext ∧ stem ≠ [] ∧ stem.head? ≠ some '.') :
    ∃ ts, readTemplates ext texts = .ok ts ∧ ts.map (fun t => (t.name ++ ext, t.content)) = texts ∧
      ∀ t ∈ ts, Template.fromName t.name t.content = .ok t := by
  induction texts with
  | nil => exact ⟨[], rfl, rfl, by simp⟩
  | cons kv texts ih =>
    obtain ⟨k, c⟩ := kv
    obtain ⟨ts, h1, h2, h3⟩ := ih (fun n c hm => h n c (by simp [hm]))
    obtain ⟨stem, rfl, hs, hd⟩ := h k c (by simp)
    obtain ⟨t, ht, hn, hc⟩ := fromName_ok hs hd c
    unfold readTemplates
    rw [if_pos (endsWith_iff.2 ⟨stem, rfl⟩)]
    have htake : (stem ++ ext).take ((stem ++ ext).length - ext.length) = stem := by
      rw [List.length_append, Nat.add_sub_cancel, List.take_left]
    rw [htake, ht, h1]
    refine ⟨t :: ts, rfl, by simp [h2, hn, hc], ?_⟩
    intro u hu
    rcases List.mem_cons.1 hu with rfl | hu
    · rw [hn, hc]; exact ht
    · exact h3 u hu

theorem insertTemplate_perm (t : Template) (us : List Template) : (insertTemplate t us).Perm (t :: us) := by
  induction us with
  | nil => exact .refl _
  | cons u us ih =>
    unfold insertTemplate
    split
    · exact (List.Perm.cons u ih).trans (List.Perm.swap t u us)
    · exact .refl _

theorem sortTemplates_perm (ts : List Template) : (sortTemplates ts).Perm ts := by
  unfold sortTemplates
  induction ts with
  | nil => exact .refl _
  | cons t ts ih => exact (insertTemplate_perm t _).trans (List.Perm.cons t ih)

/-- C69 (visitor): the templates of a visitor, and those Jinja knows, are exactly the names with the extension the sources decide about, without the
extension, each with the content of the strongest source. -/
theorem C69_visitor (w : TemplateWorld) (env : Env) (jinja : Dict Str → Jinja) (names paths prefixes : List Str)
    (providers : List (List (Str × Nested))) (directories : List (List FsEntry)) (h : Sources w env names paths providers directories)
    (hp : Configured env c%"mau.visitor.templates.prefixes" prefixes)
    (hname : ∀ name v, Decides w env (allSources providers directories) (name ++ w.extension) v →
      (∃ content, v = .str content) ∧ name ≠ [] ∧ name.head? ≠ some '.') :
    ∃ j defs, jinjaInit w env jinja = .ok j ∧ j.prefixes = prefixes ∧ j.env = env ∧ j.templates = sortTemplates defs ∧
      (∃ d, j.render = jinja d ∧ ∀ name content, Dict.get? d name = some content ↔
        Decides w env (allSources providers directories) (name ++ w.extension) (.str content)) ∧
      (defs.map (·.name)).Nodup ∧ (∀ t ∈ defs, Template.fromName t.name t.content = .ok t) ∧
      ∀ name content, (∃ t ∈ defs, t.name = name ∧ t.content = content) ↔
        Decides w env (allSources providers directories) (name ++ w.extension) (.str content) := by
  obtain ⟨t, ht, hd, hdec⟩ := C69_precedence w env names paths providers directories h
  have hmem : ∀ n v, (n, v) ∈ t ↔ Decides w env (allSources providers directories) n v := fun n v => by
    rw [← hdec, Dict.get?_iff_mem hd]
  obtain ⟨texts, h1, h2, h3⟩ := templateTexts_spec w.extension t (fun n v hm he => by
    obtain ⟨stem, rfl⟩ := endsWith_iff.1 he
    exact (hname stem v ((hmem _ _).1 hm)).1)
  obtain ⟨defs, h4, h5, h6⟩ := readTemplates_spec w.extension texts (fun n c hm => by
    obtain ⟨hm, he⟩ := (h3 n c).1 hm
    obtain ⟨stem, rfl⟩ := endsWith_iff.1 he
    exact ⟨stem, rfl, (hname stem _ ((hmem _ _).1 hm)).2⟩)
  have hnodup : (defs.map (·.name)).Nodup := by
    have hk : (defs.map (fun t => t.name ++ w.extension)).Nodup := by
      have : texts.keys = defs.map (fun t => t.name ++ w.extension) := by
        rw [← h5]; simp [Dict.keys, List.map_map, Function.comp_def]
      rw [← this, h2]
      exact List.Pairwise.filter _ hd
    unfold List.Nodup at hk ⊢
    rw [List.pairwise_map] at hk ⊢
    exact hk.imp fun hne heq => hne (by rw [heq])
  have hdefs : ∀ name content, (∃ t ∈ defs, t.name = name ∧ t.content = content) ↔
        Decides w env (allSources providers directories) (name ++ w.extension) (.str content) := by
    intro name content
    rw [← hmem]
    have : (∃ t ∈ defs, t.name = name ∧ t.content = content) ↔ (name ++ w.extension, content) ∈ texts := by
      rw [← h5, List.mem_map]
      constructor
      · rintro ⟨u, hu, rfl, rfl⟩; exact ⟨u, hu, rfl⟩
      · rintro ⟨u, hu, he⟩
        simp only [Prod.mk.injEq, List.append_cancel_right_eq] at he
        exact ⟨u, hu, he.1, he.2⟩
    rw [this, h3]
    exact ⟨fun hx => hx.1, fun hx => ⟨hx, endsWith_iff.2 ⟨name, rfl⟩⟩⟩
  have hdist : Dict.Distinct ((sortTemplates defs).map fun t => (t.name, t.content)) := by
    show (((sortTemplates defs).map fun t => (t.name, t.content)).map (·.1)).Nodup
    rw [List.map_map]
    exact (((sortTemplates_perm defs).map (·.name)).nodup_iff).2 hnodup
  refine ⟨{ templates := sortTemplates defs, prefixes := prefixes, env := env, render := jinja _ }, defs, ?_, rfl, rfl, rfl,
    ⟨Dict.update [] ((sortTemplates defs).map fun t => (t.name, t.content)), rfl, ?_⟩, hnodup, h6, hdefs⟩
  · unfold jinjaInit
    rw [configuredList_eq hp, ht]
    simp only [bind, Except.bind, h1, h4, pure, Except.pure]
  · intro name content
    rw [Dict.update_nil_left hdist, Dict.get?_iff_mem hdist, ← hdefs, List.mem_map]
    constructor
    · rintro ⟨u, hu, he⟩
      cases he
      exact ⟨u, mem_sortTemplates.1 hu, rfl, rfl⟩
    · rintro ⟨u, hu, rfl, rfl⟩
      exact ⟨u, mem_sortTemplates.2 hu, rfl⟩

/-- C69 (unknown provider): asking for a provider that is not installed is an error that names the first such provider. -/
theorem C69_unknown_provider (w : TemplateWorld) (env : Env) (jinja : Dict Str → Jinja) (names before after prefixes : List Str)
    (name : Str) (d : Env) (hd : Env.fromEnvironment w.defaults = .ok d)
    (hp : Configured env c%"mau.visitor.templates.prefixes" prefixes)
    (hn : Configured env c%"mau.visitor.templates.providers" names) (h : names = before ++ name :: after)
    (hb : ∀ b ∈ before, ∃ ts, Dict.get? w.providers b = some ts) (hx : Dict.get? w.providers name = none) :
    jinjaInit w env jinja = .error (.visitor (.text (c%"Template provider '" ++ name ++ c%"' is not available.")) none) := by
  have key : ∀ t, loadProviders w.providers names t = .error (.visitor (msgProvider name) none) := by
    rw [h]
    clear h hn
    induction before with
    | nil => intro t; simp [loadProviders, hx]
    | cons b before ih =>
      intro t
      obtain ⟨ts, hts⟩ := hb b (by simp)
      rw [List.cons_append, loadProviders, hts]
      exact ih (fun b hb' => hb b (by simp [hb'])) _
  unfold jinjaInit templatesEnv
  rw [configuredList_eq hp, hd, configuredList_eq hn]
  simp only [bind, Except.bind, key]
  rfl

/-- C69 (missing directory): a directory that cannot be read ends the run, and not with an error of Mau. -/
theorem C69_missing_directory (w : TemplateWorld) (env : Env) (jinja : Dict Str → Jinja)
    (before after prefixes : List Str) (path : Str) (d : Env) (hd : Env.fromEnvironment w.defaults = .ok d)
    (hp : Configured env c%"mau.visitor.templates.prefixes" prefixes)
    (hn : Configured env c%"mau.visitor.templates.providers" []) (hs : Configured env c%"mau.visitor.templates.paths" (before ++ path :: after))
    (hb : ∀ b ∈ before, b = [] ∨ ∃ es, w.directory b = some es) (hne : path ≠ []) (hx : w.directory path = none) :
    jinjaInit w env jinja = .error (.py .osError) := by
  have key : ∀ t, loadPaths w (before ++ path :: after) t = .error (.py .osError) := by
    clear hs
    induction before with
    | nil =>
      intro t
      cases path with
      | nil => exact absurd rfl hne
      | cons c path => simp [loadPaths, loadPath, hx]
    | cons b before ih =>
      intro t
      have : ∃ ts, loadPath w b = .ok ts := by
        unfold loadPath
        rcases hb b (by simp) with rfl | ⟨es, hes⟩
        · exact ⟨[], rfl⟩
        · cases b with
          | nil => exact ⟨[], rfl⟩
          | cons c b => exact ⟨_, by simp only [hes]; rfl⟩
      obtain ⟨ts, hts⟩ := this
      rw [List.cons_append, loadPaths, hts]
      exact ih (fun b hb' => hb b (by simp [hb'])) _
  unfold jinjaInit templatesEnv
  rw [configuredList_eq hp, hd, configuredList_eq hn, configuredList_eq hs]
  simp only [bind, Except.bind, loadProviders, key]

/-- A world with all kinds of sources. -/
def templateWorld : TemplateWorld where
  defaults := [(c%"text.j2", .str c%"D"), (c%"header.j2", .str c%"D"), (c%"word.j2", .str c%"D")]
  providers := [(c%"p", [(c%"text.j2", .leaf (.str c%"P")), (c%"list", .dict [(c%"item.j2", .leaf (.str c%"P"))]), (c%"header.j2", .leaf (.str c%"P"))])]
  directory := fun p => if p = c%"d" then
      some [.file c%"text.j2" c%"F", .dir c%"block" [.file c%"quote.j2" c%"F", .file c%"README" c%"x"], .dir c%"empty" []]
    else none

/-- A configuration that asks for them. -/
def templateConfig : Env :=
  [(c%"mau.visitor.templates.providers", .list [c%"p"] c%"['p']"), (c%"mau.visitor.templates.paths", .list [c%"d", []] c%"['d', '']"),
   (c%"mau.visitor.templates.custom.header.j2", .str c%"C")]

example : (match templatesEnv templateWorld templateConfig with | .ok t => t | .error _ => []) =
    [(c%"text.j2", .str c%"F"), (c%"header.j2", .str c%"C"), (c%"word.j2", .str c%"D"), (c%"list.item.j2", .str c%"P"),
     (c%"block.quote.j2", .str c%"F")] := by
  decide

theorem templateFiles_paths {p : List Str} {c : Str}
    (h : TemplateFile c%".j2" [.file c%"text.j2" c%"F", .dir c%"block" [.file c%"quote.j2" c%"F", .file c%"README" c%"x"], .dir c%"empty" []] p c) :
    p = [c%"text.j2"] ∨ p = [c%"block", c%"quote.j2"] := by
  obtain ⟨h, dirs, stem, he⟩ := h
  cases h with
  | file hm =>
    simp at hm
    exact .inl (by rw [hm.1])
  | dir hm hs =>
    simp at hm
    rcases hm with ⟨rfl, rfl⟩ | ⟨rfl, rfl⟩
    · cases hs with
      | file hm =>
        simp at hm
        rcases hm with ⟨rfl, rfl⟩ | ⟨rfl, rfl⟩
        · exact .inr rfl
        · exfalso
          have := congrArg List.getLast? he
          simp only [List.getLast?_concat] at this
          have h2 := congrArg (Option.map List.getLast?) this
          simp [List.getLast?_append] at h2
      | dir hm _ => simp at hm
    · cases hs with
      | file hm => cases hm
      | dir hm _ => cases hm

/-- The world and the configuration meet the hypotheses of C69. -/
theorem templateSources : Sources templateWorld templateConfig [c%"p"] [c%"d", []]
    [[(c%"text.j2", .leaf (.str c%"P")), (c%"list", .dict [(c%"item.j2", .leaf (.str c%"P"))]), (c%"header.j2", .leaf (.str c%"P"))]]
    [[.file c%"text.j2" c%"F", .dir c%"block" [.file c%"quote.j2" c%"F", .file c%"README" c%"x"], .dir c%"empty" []], []] where
  requested := .inl ⟨c%"['p']", rfl⟩
  searched := .inl ⟨c%"['d', '']", rfl⟩
  installed := rfl
  found := rfl
  custom := rfl
  config := by unfold Dict.Distinct; decide
  distinct := by unfold Dict.Distinct; decide
  defaults := by
    intro p hp
    have : p = c%"text.j2" ∨ p = c%"header.j2" ∨ p = c%"word.j2" := by simpa [templateWorld, Dict.keys] using hp
    refine ⟨by rcases this with rfl | rfl | rfl <;> decide, ?_⟩
    intro q hq
    have hq : q = c%"text.j2" ∨ q = c%"header.j2" ∨ q = c%"word.j2" := by simpa [templateWorld, Dict.keys] using hq
    rintro ⟨r, hr⟩
    rcases this with rfl | rfl | rfl <;> rcases hq with rfl | rfl | rfl <;> simp at hr
  orderly := by
    intro d hd
    rw [List.mem_singleton] at hd
    subst hd
    refine ⟨?_, by simp, ?_⟩
    · refine .dict _ (by unfold Dict.Distinct; decide) ?_
      intro kv hkv
      simp at hkv
      rcases hkv with rfl | rfl | rfl
      · exact .leaf _
      · refine .dict _ (by unfold Dict.Distinct; decide) ?_
        intro kv hkv
        simp at hkv
        subst hkv
        exact .leaf _
      · exact .leaf _
    · have key : ∀ p v, p ≠ [] → at? p (.dict [(c%"text.j2", .leaf (.str c%"P")), (c%"list", .dict [(c%"item.j2", .leaf (.str c%"P"))]),
          (c%"header.j2", .leaf (.str c%"P"))]) = some v → p = [c%"text.j2"] ∨ p = [c%"list", c%"item.j2"] ∨ p = [c%"header.j2"] := by
        intro p v hp hv
        cases p with
        | nil => exact absurd rfl hp
        | cons k p =>
          simp only [at?_cons, Dict.get?] at hv
          split at hv
          · rename_i hk; subst hk
            cases p with
            | nil => exact .inl rfl
            | cons _ _ => cases hv
          · split at hv
            · rename_i hk; subst hk
              cases p with
              | nil => cases hv
              | cons k p =>
                change at? (k :: p) (.dict [(c%"item.j2", .leaf (.str c%"P"))]) = some v at hv
                rw [at?_cons] at hv
                by_cases hk : c%"item.j2" = k
                · subst hk
                  cases p with
                  | nil => exact .inr (.inl rfl)
                  | cons _ _ => cases hv
                · rw [Dict.get?, if_neg hk] at hv
                  cases hv
            · split at hv
              · rename_i hk; subst hk
                cases p with
                | nil => exact .inr (.inr rfl)
                | cons _ _ => cases hv
              · cases hv
      intro p q v v' hp hq hv hv' hpq
      rcases key p v hp hv with rfl | rfl | rfl <;> rcases key q v' hq hv' with rfl | rfl | rfl <;>
        first | rfl | exact absurd hpq (by decide)
  unambiguous := by
    intro es hes
    simp at hes
    rcases hes with rfl | rfl
    · refine ⟨.mk _ (by decide) (by simp [entryName]) ?_, ?_⟩
      · intro name sub hm
        simp at hm
        rcases hm with ⟨rfl, rfl⟩ | ⟨rfl, rfl⟩
        · exact .mk _ (by decide) (by simp [entryName]) (by simp)
        · exact .mk _ (by decide) (by simp) (by simp)
      · intro p q c c' hp hq hpq
        rcases templateFiles_paths hp with rfl | rfl <;> rcases templateFiles_paths hq with rfl | rfl <;>
          first | rfl | exact absurd hpq (by decide)
    · refine ⟨.mk _ (by decide) (by simp) (by simp), ?_⟩
      intro p q c c' hp
      obtain ⟨hp, _⟩ := hp
      cases hp with
      | file hm => cases hm
      | dir hm _ => cases hm

/-- The directory is stronger than the provider, which is stronger than the defaults. -/
example : Decides templateWorld templateConfig
    (allSources [[(c%"text.j2", .leaf (.str c%"P")), (c%"list", .dict [(c%"item.j2", .leaf (.str c%"P"))]), (c%"header.j2", .leaf (.str c%"P"))]]
      [[.file c%"text.j2" c%"F", .dir c%"block" [.file c%"quote.j2" c%"F", .file c%"README" c%"x"], .dir c%"empty" []], []])
    c%"text.j2" (.str c%"F") := by
  obtain ⟨t, ht, _, h⟩ := C69_precedence _ _ _ _ _ _ templateSources
  refine (h _ _).1 ?_
  have : templatesEnv templateWorld templateConfig = .ok
      [(c%"text.j2", .str c%"F"), (c%"header.j2", .str c%"C"), (c%"word.j2", .str c%"D"), (c%"list.item.j2", .str c%"P"),
       (c%"block.quote.j2", .str c%"F")] := by decide
  rw [this] at ht
  cases ht
  rfl

/-- The hypotheses of the errors. -/
example : jinjaInit templateWorld [(c%"mau.visitor.templates.providers", .list [c%"p", c%"q"] c%"['p', 'q']")] (fun _ _ _ _ => .ok []) =
    .error (.visitor (.text c%"Template provider 'q' is not available.") none) :=
  C69_unknown_provider templateWorld _ _ [c%"p", c%"q"] [c%"p"] [] [] c%"q" _ rfl (.inr (.inr ⟨rfl, rfl, fun _ => rfl⟩)) (.inl ⟨_, rfl⟩) rfl
    (fun b hb => by rw [List.mem_singleton] at hb; subst hb; exact ⟨_, rfl⟩) rfl

/-- Here the providers are given as a text: each of its characters is the name of one. -/
example : jinjaInit templateWorld [(c%"mau.visitor.templates.providers", .str c%"pq")] (fun _ _ _ _ => .ok []) =
    .error (.visitor (.text c%"Template provider 'q' is not available.") none) :=
  C69_unknown_provider templateWorld _ _ [c%"p", c%"q"] [c%"p"] [] [] c%"q" _ rfl (.inr (.inr ⟨rfl, rfl, fun _ => rfl⟩)) (.inr (.inl ⟨_, rfl, rfl⟩)) rfl
    (fun b hb => by rw [List.mem_singleton] at hb; subst hb; exact ⟨_, rfl⟩) rfl

/-- Why `custom: {}` is excluded: the empty dictionary is not an environment, and the visitor cannot be made. -/
example : jinjaInit templateWorld [(c%"mau.visitor.templates.custom", .emptyDict)] (fun _ _ _ _ => .ok []) = .error (.py .attributeError) := rfl

end Mau
