import Verif.Lemmas.Evaluation
import Verif.Props.Logger
import Mathlib.Data.List.Perm.Lattice

/-!
Lemmas for reading the data of a run: the table of a scope, and the loop over the runs.
-/

namespace Verif.Evaluation

open Verif.Logger

variable {V : Type} [IntCast V]

/-- The values recorded at a path below the scope. -/
def vals (pts : List (Int × Stats V)) (p : List Str) : List V :=
  pts.filterMap fun x => if p = [wEnvStep] then some (x.1 : V) else x.2.dict.at? p

theorem vals_ne_nil {pts : List (Int × Stats V)} {p : List Str} (h : vals pts p ≠ []) :
    p = [wEnvStep] ∨ ∃ x ∈ pts, Shape (x.2.stds.isSome = true) p := by
  obtain ⟨v, hv⟩ := List.exists_mem_of_ne_nil _ h
  obtain ⟨x, hx, e⟩ := List.mem_filterMap.1 hv
  split_ifs at e with h1
  · exact Or.inl h1
  · exact Or.inr ⟨x, hx, x.2.at?_shape _ (by rw [e]; rfl)⟩

theorem Stats.at?_sum (s : Stats V) : ∀ k ∈ [wReturnsStat, wLensStat], ∀ m ∈ [wMean, wStd, wMax, wMin], (s.dict.at? [k, m]).isSome := by
  intro k hk m hm
  simp only [List.mem_cons, List.not_mem_nil, or_false] at hk hm
  rcases hk with rfl | rfl <;> rcases hm with rfl | rfl | rfl | rfl <;> rfl

theorem Stats.at?_mean (s : Stats V) : s.dict.at? [wReturnsStat, wMean] = some s.returns.mean := rfl

theorem vals_env (pts : List (Int × Stats V)) : vals pts [wEnvStep] = pts.map fun x => (x.1 : V) := by
  unfold vals
  simp only [if_true]
  induction pts with
  | nil => rfl
  | cons x l ih => rw [List.filterMap_cons, ih]; rfl

theorem vals_mean (pts : List (Int × Stats V)) : vals pts [wReturnsStat, wMean] = pts.map fun x => x.2.returns.mean := by
  unfold vals
  induction pts with
  | nil => rfl
  | cons x l ih =>
    rw [List.filterMap_cons, if_neg (by simp), x.2.at?_mean, ih]
    rfl

/-- Reading a scope without distributions. -/
theorem readScope (kids : List (Str × Tree V)) (hs : SolidAll kids) (pts : List (Int × Stats V)) (hne : pts ≠ [])
    (hstd : ∀ x ∈ pts, x.2.stds = none)
    (ht : ∀ p, p ≠ [] → treeAt kids p = if vals pts p = [] then none else some (vals pts p)) :
    ∃ fs, fromDataDict kids = some fs ∧ find wEnvStep fs = some (.arr (pts.map fun x => (x.1 : V))) ∧
      ∃ f, find wReturnsStat fs = some f ∧ meanOf f = some (pts.map fun x => x.2.returns.mean) := by
  have hval : ∀ p, p ≠ [] → (treeAt kids p).isSome → p = [wEnvStep] ∨ Shape False p := by
    intro p hp h
    rw [ht p hp] at h
    split_ifs at h with hv
    · simp at h
    · rcases vals_ne_nil hv with h | ⟨x, hx, h⟩
      · exact Or.inl h
      · exact Or.inr (h.mono (by rw [hstd x hx]; simp))
  have hsum : ∀ k ∈ [wReturnsStat, wLensStat], ∀ m ∈ [wMean, wStd, wMax, wMin], treeAt kids [k, m] = some (vals pts [k, m]) := by
    intro k hk m hm
    rw [ht _ (by simp), if_neg]
    obtain ⟨x, hx⟩ := List.exists_mem_of_ne_nil _ hne
    obtain ⟨v, hv⟩ := Option.isSome_iff_exists.1 (x.2.at?_sum k hk m hm)
    refine List.ne_nil_of_mem (a := v) ?_
    exact List.mem_filterMap.2 ⟨x, hx, by rw [if_neg (by simp), hv]⟩
  have htree : ∀ k t, find k kids = some t → ∃ f, convert (k, t) = some (k, f) ∧
      (∀ vs, t = .leaf vs → f = .arr vs) ∧ (∀ vs, treeAt kids [k, wMean] = some vs → meanOf f = some vs) := by
    intro k t hf
    cases t with
    | leaf vs =>
      have h1 := hval [k] (by simp) (by simp [treeAt, hf])
      have hk : k ∈ fieldNames := by
        rcases h1 with h | h
        · have : k = wEnvStep := by simpa using h
          rw [this]; decide
        · cases h with
          | num _ h =>
            have : ∀ k ∈ [wEpisodes, wSteps, wTime, wSpeed], k ∈ fieldNames := by decide +kernel
            exact this k h
      refine ⟨.arr vs, by simp [convert, hk], by rintro vs h; cases h; rfl, ?_⟩
      intro ws hws
      simp [treeAt, hf] at hws
    | node sub =>
      have hsol : Solid (.node sub) := hs.2 _ (find_mem _ _ _ hf)
      cases hsol with
      | node _ hn hnd hsub =>
        have hpath : ∀ m v, find m sub = some v → k ∈ [wReturnsStat, wLensStat] ∧ m ∈ [wMean, wStd, wMax, wMin] := by
          intro m v hm
          obtain ⟨p, hp⟩ := (hsub _ (find_mem _ _ _ hm)).path m sub hm
          rw [← treeAt_sub hf (m :: p) (by simp)] at hp
          rcases hval _ (by simp) hp with h | h
          · simp at h
          · cases h with
            | sum _ _ hk hm => exact ⟨hk, hm⟩
            | dim _ _ h _ => exact h.elim
        obtain ⟨⟨m0, v0⟩, h0⟩ := List.exists_mem_of_ne_nil _ hn
        have hk := (hpath m0 v0 (find_of_mem _ _ _ hnd h0)).1
        have hfind : ∀ m ∈ [wMean, wStd, wMax, wMin], find m sub = some (.leaf (vals pts [k, m])) := by
          intro m hm
          have := hsum k hk m hm
          rw [treeAt_sub hf [m] (by simp)] at this
          exact treeAt_leaf this
        have hlen : sub.length = 4 := by
          have hperm : (sub.map (·.1)).Perm [wMean, wStd, wMax, wMin] := by
            rw [List.perm_ext_iff_of_nodup hnd (by decide +kernel)]
            intro m
            constructor
            · intro h
              obtain ⟨⟨m', v⟩, hm, rfl⟩ := List.mem_map.1 h
              exact (hpath m' v (find_of_mem _ _ _ hnd hm)).2
            · intro h
              exact List.mem_map.2 ⟨_, find_mem _ _ _ (hfind m h), rfl⟩
          simpa using hperm.length_eq
        have hkf : k ∈ fieldNames := by
          have : ∀ k ∈ [wReturnsStat, wLensStat], k ∈ fieldNames := by decide +kernel
          exact this k hk
        refine ⟨.summary (.leaf (vals pts [k, wMean])) (.leaf (vals pts [k, wStd])) (.leaf (vals pts [k, wMax]))
          (.leaf (vals pts [k, wMin])), ?_, (by rintro vs h; cases h), ?_⟩
        · simp only [convert, if_pos hkf, toSummary, hfind wMean (by simp), hfind wStd (by simp), hfind wMax (by simp),
            hfind wMin (by simp), hlen, if_true, Option.map_some]
        · intro vs h
          rw [hsum k hk wMean (by simp)] at h
          exact h
  obtain ⟨fs, h1, h2⟩ := mapM_convert kids (by
    rintro ⟨k, t⟩ hkt
    obtain ⟨f, hf, _⟩ := htree k t (find_of_mem _ _ _ hs.1 hkt)
    rw [hf]; rfl)
  refine ⟨fs, h1, ?_, ?_⟩
  · have hleaf : treeAt kids [wEnvStep] = some (pts.map fun x => (x.1 : V)) := by
      rw [ht _ (by simp), vals_env, if_neg]
      simpa using hne
    have hf := treeAt_leaf hleaf
    obtain ⟨f, hc, ha, _⟩ := htree _ _ hf
    rw [h2, hf, Option.bind_some, hc, Option.map_some, ha _ rfl]
  · have hm := hsum wReturnsStat (by simp) wMean (by simp)
    rw [vals_mean] at hm
    obtain ⟨t, hf⟩ := find_head (k := wReturnsStat) (p := [wMean]) (d := kids) (by rw [hm]; rfl)
    obtain ⟨f, hc, _, hmean⟩ := htree _ _ hf
    exact ⟨f, by rw [h2, hf, Option.bind_some, hc, Option.map_some], hmean _ hm⟩

/-- What is restored from the log of a run: the dictionaries of the two scopes. -/
theorem run_restored (log : List (Item V)) (h : LogOk log) (hne : ∃ b, points b log ≠ []) :
    ∃ d, (runDir log).restored = some d ∧ (SolidAll d ∧ ∀ b p, treeAt d (scopeName b :: p) =
        if vals (points b log) p = [] then none else some (vals (points b log) p)) ∧ ∀ b, points b log ≠ [] → ∃ kids, find (scopeName b) d = some (.node kids) ∧
      kids ≠ [] ∧ SolidAll kids ∧
      ∀ p, p ≠ [] → treeAt kids p = if vals (points b log) p = [] then none else some (vals (points b log) p) := by
  obtain ⟨file, tree, hf, hr, ht⟩ := C131_round_trip (log.map Item.write)
    (by
      intro w hw
      obtain ⟨it, hit, rfl⟩ := List.mem_map.1 hw
      exact Item.write_good log h it hit)
    (log_prefix log h)
  have hsol := restoreLogged_solid file tree hr
  have ht' : ∀ b p, treeAt tree (scopeName b :: p) = if vals (points b log) p = [] then none else some (vals (points b log) p) := by
    intro b p
    rw [ht, log_values log h b p]
    rfl
  have hnode : ∀ b, points b log ≠ [] → ∃ kids, find (scopeName b) tree = some (.node kids) ∧
      kids ≠ [] ∧ SolidAll kids ∧
      ∀ p, p ≠ [] → treeAt kids p = if vals (points b log) p = [] then none else some (vals (points b log) p) := by
    intro b hb
    obtain ⟨kids, hk, _⟩ := treeAt_node (d := tree) (k := scopeName b) (k' := wEnvStep) (p := []) (by
      rw [ht', vals_env, if_neg (by simpa using hb)]; rfl)
    have := hsol.2 _ (find_mem _ _ _ hk)
    cases this with
    | node _ h1 h2 h3 =>
      refine ⟨kids, hk, h1, ⟨h2, h3⟩, ?_⟩
      intro p hp
      rw [← ht' b p, treeAt_sub hk p hp]
  refine ⟨tree, ?_, ⟨hsol, ht'⟩, hnode⟩
  have hd : (runDir log).data = some tree := by simp [runDir, hf, hr]
  obtain ⟨b, hb⟩ := hne
  obtain ⟨kids, hk, _⟩ := hnode b hb
  unfold Entry.restored
  rw [hd]
  cases tree with
  | nil => simp [find] at hk
  | cons a l => rfl

/-- Loading a run without distributions. -/
theorem loadEntry_run (log : List (Item V)) (h : LogOk log) (hp : Plain log) (acc : Acc V) :
    loadEntry acc (runDir log) = some
      { testRows := acc.testRows ++ [(points true log).map fun x => x.2.returns.mean]
        testStep := some (.arr ((points true log).map fun x => (x.1 : V)))
        trainRows := acc.trainRows ++ [(points false log).map fun x => x.2.returns.mean]
        trainStep := some (.arr ((points false log).map fun x => (x.1 : V))) } := by
  obtain ⟨d, hd, _, hk⟩ := run_restored log h ⟨true, hp.test⟩
  obtain ⟨test, ht, htn, hts, htv⟩ := hk true hp.test
  obtain ⟨train, hr, hrn, hrs, hrv⟩ := hk false hp.train
  obtain ⟨ft, h1, h2, f, h3, h4⟩ := readScope test hts _ hp.test (hp.stds true) htv
  obtain ⟨fr, r1, r2, g, r3, r4⟩ := readScope train hrs _ hp.train (hp.stds false) hrv
  have hsc : scopes d = some (some (test, train)) := by
    unfold scopes
    have e1 : find wTest d = some (.node test) := ht
    have e2 : find wTrain d = some (.node train) := hr
    rw [e1, e2]
    cases test with
    | nil => exact absurd rfl htn
    | cons a l => rfl
  unfold loadEntry
  rw [if_neg (by simp [runDir]), hd, Option.bind_some, hsc, Option.bind_some]
  simp only [h1, r1, Option.bind_some, addScope, h3, h4, r3, r4, Option.map_some, h2, r2]

/-- Loading fails if there are test data and a scope has a key which is not known. -/
theorem loadEntry_unknown (e : Entry V) (hh : e.hidden = false) (hd : e.isDir = true) (d : List (Str × Tree V)) (he : e.restored = some d)
    (hs : SolidAll d) (x : Str) (q : List Str) (ht : (treeAt d (wTest :: x :: q)).isSome)
    (b : Bool) (k : Str) (p : List Str) (hk : (treeAt d (scopeName b :: k :: p)).isSome) (hf : k ∉ fieldNames) (acc : Acc V) :
    loadEntry acc e = none := by
  obtain ⟨test, htest, hte⟩ := treeAt_node ht
  have key : ∀ kids, find (scopeName b) d = some (.node kids) → fromDataDict kids = none := by
    intro kids hfind
    obtain ⟨kids', hf', hkk⟩ := treeAt_node hk
    rw [hfind] at hf'
    simp only [Option.some.injEq, Tree.node.injEq] at hf'
    subst hf'
    obtain ⟨t, hft⟩ := find_head (d := kids) (k := k) (p := p) (by rw [hkk]; exact hk)
    exact mapM_unknown kids _ (find_mem _ _ _ hft) hf
  unfold loadEntry
  rw [if_neg (by simp [hh, hd]), he, Option.bind_some]
  have hsc : scopes d = none ∨ ∃ train, find wTrain d = some (.node train) ∧ scopes d = some (some (test, train)) := by
    unfold scopes
    rw [htest]
    cases test with
    | nil =>
      have := hs.2 _ (find_mem _ _ _ htest)
      cases this with
      | node _ h _ _ => exact absurd rfl h
    | cons a l =>
      simp only
      cases hr : find wTrain d with
      | none => exact Or.inl rfl
      | some t =>
        cases t with
        | leaf vs => exact Or.inl rfl
        | node train => exact Or.inr ⟨train, rfl, rfl⟩
  rcases hsc with hsc | ⟨train, hr, hsc⟩
  · rw [hsc]; rfl
  · rw [hsc, Option.bind_some]
    simp only
    cases b with
    | true => rw [key test htest]; rfl
    | false =>
      rw [key train hr]
      cases fromDataDict test <;> rfl

/-- Loading fails if one of the statistics in one of the scopes has standard deviations. -/
theorem loadEntry_dist (log : List (Item V)) (h : LogOk log) (ht : points true log ≠ [])
    (b : Bool) (x : Int × Stats V) (hx : x ∈ points b log) (s : Summary V) (l : List (Summary V)) (hs : x.2.stds = some (s :: l))
    (acc : Acc V) : loadEntry acc (runDir log) = none := by
  obtain ⟨d, hd, ⟨hsol, hv⟩, _⟩ := run_restored log h ⟨true, ht⟩
  have hat : x.2.dict.at? [wStdsStat, Nat.toDigits 10 0, wMean] = some s.mean := by
    obtain ⟨x1, x2⟩ := x
    obtain ⟨a1, a2, a3, a4, a5, a6, a7⟩ := x2
    simp only at hs
    subst hs
    simp only [Stats.dict, dimsDict, Dict.at?, Val.at?]
    simp [wStdsStat, wEpisodes, wSteps, wTime, wSpeed, wReturns, wReturnsStat, wLens, wLensStat, wStds, Summary.dict, Dict.at?, Val.at?,
      wMean]
  refine loadEntry_unknown (runDir log) rfl rfl d hd hsol wEnvStep [] ?_ b wStdsStat [Nat.toDigits 10 0, wMean] ?_ (by decide +kernel) acc
  · have := hv true [wEnvStep]
    rw [vals_env, if_neg (by simpa using ht)] at this
    show (treeAt d (scopeName true :: [wEnvStep])).isSome
    rw [this]; rfl
  · rw [hv, if_neg]
    · rfl
    · refine List.ne_nil_of_mem (a := s.mean) ?_
      exact List.mem_filterMap.2 ⟨x, hx, by rw [if_neg (by simp), hat]⟩

/-- Loading fails if there are test data but no training data. -/
theorem loadEntry_no_train (log : List (Item V)) (h : LogOk log) (ht : points true log ≠ []) (hr : points false log = []) (acc : Acc V) :
    loadEntry acc (runDir log) = none := by
  obtain ⟨d, hd, ⟨hsol, hv⟩, hk⟩ := run_restored log h ⟨true, ht⟩
  obtain ⟨test, htest, htn, _⟩ := hk true ht
  have hno : ∀ t, find wTrain d ≠ some t := by
    intro t hf
    obtain ⟨p, hp⟩ := (hsol.2 _ (find_mem _ _ _ hf)).path wTrain d hf
    have := hv false p
    rw [hr] at this
    have e : treeAt d (scopeName false :: p) = none := by simpa [vals] using this
    have e' : treeAt d (wTrain :: p) = none := e
    rw [e'] at hp
    simp at hp
  have hsc : scopes d = none := by
    unfold scopes
    have e1 : find wTest d = some (.node test) := htest
    rw [e1]
    cases test with
    | nil => exact absurd rfl htn
    | cons a l =>
      simp only
      cases hr : find wTrain d with
      | none => rfl
      | some t => exact absurd hr (hno t)
  unfold loadEntry
  rw [if_neg (by simp [runDir]), hd, Option.bind_some, hsc]
  rfl

omit [IntCast V] in
theorem loadEntries_none (es es' : List (Entry V)) (e : Entry V) (h : ∀ acc, loadEntry acc e = none) (acc : Acc V) :
    loadEntries acc (es ++ e :: es') = none := by
  induction es generalizing acc with
  | nil => simp [loadEntries, h]
  | cons a es ih =>
    simp only [List.cons_append, loadEntries]
    cases loadEntry acc a with
    | none => rfl
    | some acc => exact ih acc

/-- Loading runs without distributions. -/
theorem loadEntries_runs (runs : List (List (Item V))) (h : ∀ r ∈ runs, LogOk r ∧ Plain r) (acc : Acc V) :
    loadEntries acc (runs.map runDir) = some
      { testRows := acc.testRows ++ runs.map fun r => (points true r).map fun x => x.2.returns.mean
        testStep := (runs.getLast?.map fun r => Field.arr ((points true r).map fun x => (x.1 : V))).or acc.testStep
        trainRows := acc.trainRows ++ runs.map fun r => (points false r).map fun x => x.2.returns.mean
        trainStep := (runs.getLast?.map fun r => Field.arr ((points false r).map fun x => (x.1 : V))).or acc.trainStep } := by
  induction runs generalizing acc with
  | nil => simp [loadEntries]
  | cons r runs ih =>
    have hr := h r (List.mem_cons_self ..)
    rw [List.map_cons, loadEntries, loadEntry_run r hr.1 hr.2 acc, Option.bind_some, ih fun r' h' => h r' (List.mem_cons_of_mem _ h')]
    simp only [List.append_assoc, List.singleton_append, List.map_cons]
    cases runs with
    | nil => simp
    | cons a l => simp [List.getLast?_cons]

end Verif.Evaluation
