import Verif.Model.Experiment
import Mathlib.Data.List.Nodup
import Mathlib.Data.List.Induction
import Mathlib.Tactic.Linarith
import Mathlib.Tactic.Ring
import Std.Data.String.ToNat
import Std.Data.String.ToInt

/-! Properties of experiments, launchers and persistence (C156–C159). -/

set_option linter.unusedSectionVars false

namespace Verif.Experiment

/-! ### C156: seeds -/

/-- C156. `SamplingConfig` accepts exactly those settings that have test environments if there are test episodes, and one of `step_per_collect` and
`episode_per_collect`; the only change is that -1 training environments means one per CPU. -/
theorem C156_config (cpus : Int) (s : Sampling) :
    (∀ s', s.postInit cpus = .ok s' →
      (s.testEpisodes ≠ 0 → s.numTest ≠ 0) ∧ (s.stepPerCollect.isSome ↔ s.episodePerCollect = none) ∧
      s'.numTrain = (if s.numTrain = -1 then cpus else s.numTrain) ∧ { s' with numTrain := s.numTrain } = s) ∧
    ((s.testEpisodes ≠ 0 → s.numTest ≠ 0) → (s.stepPerCollect.isSome ↔ s.episodePerCollect = none) → ∃ s', s.postInit cpus = .ok s') := by
  obtain ⟨a, b, c, d, e, f⟩ := s
  constructor
  · intro s' h
    unfold Sampling.postInit at h
    by_cases h1 : b = -1 <;> by_cases h2 : d ≠ 0 ∧ c = 0 <;> cases e <;> cases f <;> simp [h1, h2] at h <;>
      (try subst h) <;> simp_all
  · intro h1 h2
    unfold Sampling.postInit
    have h3 : ¬ (d ≠ 0 ∧ c = 0) := fun h => h1 h.1 h.2
    by_cases h4 : b = -1 <;> cases e <;> cases f <;> simp [h4, h3] at h2 ⊢

example : (Sampling.mk 42 (-1) 1 1 (some 2048) none).postInit 8 = .ok (.mk 42 8 1 1 (some 2048) none) := by decide

private theorem mem_venvSeeds (f : EnvFactory) (n : Int) (m : Mode) (hm : m ≠ .watch) (x : Int) :
    x ∈ f.venvSeeds n m ↔ (if m = .train then f.trainSeed else f.testSeed) ≤ x ∧ x < (if m = .train then f.trainSeed else f.testSeed) + n := by
  unfold EnvFactory.venvSeeds
  simp only [if_neg hm, List.mem_map, List.mem_range]
  constructor
  · rintro ⟨i, hi, rfl⟩
    omega
  · rintro ⟨h1, h2⟩
    refine ⟨(x - (if m = .train then f.trainSeed else f.testSeed)).toNat, by omega, by omega⟩

private theorem nodup_venvSeeds (f : EnvFactory) (n : Int) (m : Mode) : (f.venvSeeds n m).Nodup := by
  unfold EnvFactory.venvSeeds
  refine List.Nodup.map ?_ List.nodup_range
  intro i j h
  have h' : (if m = .train then f.trainSeed else f.testSeed) + (i : Int) = (if m = .train then f.trainSeed else f.testSeed) + (j : Int) := h
  omega

/-- C156, one experiment. If the environment factory was given the seeds of the sampling configuration, all training and test environments have
seeds of their own, and the environment for watching has the seed of the first test environment. Missing: collections of experiments, see `C156_violated`. -/
theorem C156_experiment_partial (e : Exp) (h1 : e.env.trainSeed = e.sampling.trainSeed) (h2 : e.env.testSeed = e.sampling.testSeed) :
    (e.envSeeds .train ++ e.envSeeds .test).Nodup ∧
    (e.envSeeds .train).length = e.sampling.numTrain.toNat ∧ (e.envSeeds .test).length = e.sampling.numTest.toNat ∧
    e.envSeeds .watch = [e.sampling.testSeed] := by
  refine ⟨?_, by simp [Exp.envSeeds, EnvFactory.venvSeeds], by simp [Exp.envSeeds, EnvFactory.venvSeeds],
    by simp [Exp.envSeeds, EnvFactory.venvSeeds, h2]⟩
  rw [List.nodup_append]
  refine ⟨nodup_venvSeeds _ _ _, nodup_venvSeeds _ _ _, ?_⟩
  intro x hx y hy hxy
  unfold Exp.envSeeds at hx hy
  rw [mem_venvSeeds _ _ _ (by decide)] at hx hy
  simp only [if_true, h1, h2, Sampling.testSeed, reduceCtorEq, if_false] at hx hy
  omega

example : ((Exp.mk 42 ⟨42, 3, 2, 2, some 5, none⟩ ⟨42, 45⟩ []).envSeeds .train ++
    (Exp.mk 42 ⟨42, 3, 2, 2, some 5, none⟩ ⟨42, 45⟩ []).envSeeds .test) = [42, 43, 44, 45, 46] := by decide

private theorem no_underscore (i : Int) : '_' ∉ (Int.repr i).toList := by
  have h : ∀ n : Nat, '_' ∉ (Nat.repr n).toList := by
    intro n
    rw [Nat.toList_repr]
    exact Nat.underscore_not_in_toDigits
  unfold Int.repr
  cases i with
  | ofNat n => exact h n
  | negSucc n =>
    intro hm
    simp only [String.toList_append] at hm
    rcases List.mem_append.1 hm with hm | hm
    · simp at hm
    · exact h _ hm

private theorem append_sep_inj {c : Char} : ∀ {a b x y : List Char}, c ∉ a → c ∉ b → a ++ c :: x = b ++ c :: y → a = b ∧ x = y
  | [], [], _, _, _, _, h => ⟨rfl, by simpa using h⟩
  | [], b :: bs, _, _, _, hb, h => by
    simp only [List.nil_append, List.cons_append, List.cons.injEq] at h
    exact absurd (by rw [h.1]; exact List.mem_cons_self) hb
  | a :: as, [], _, _, ha, _, h => by
    simp only [List.nil_append, List.cons_append, List.cons.injEq] at h
    exact absurd (by rw [← h.1]; exact List.mem_cons_self) ha
  | a :: as, b :: bs, x, y, ha, hb, h => by
    simp only [List.cons_append, List.cons.injEq] at h
    obtain ⟨h1, h2⟩ := append_sep_inj (fun hm => ha (List.mem_cons_of_mem _ hm)) (fun hm => hb (List.mem_cons_of_mem _ hm)) h.2
    exact ⟨by rw [h.1, h1], h2⟩

/-- C156, names. In a collection all experiments have different names and different seeds for the random number generators, starting from the seed of
the builder; the numbers of environments and everything else are those of the builder. -/
theorem C156_names (b : Exp) (n : Nat) :
    (b.collection n).length = n ∧ ((b.collection n).map Exp.name).Nodup ∧
    (b.collection n).map Exp.seed = (List.range n).map (fun i : Nat => b.seed + (i : Int)) ∧
    ∀ e ∈ b.collection n, e.sampling = { b.sampling with trainSeed := e.sampling.trainSeed } ∧ b.name <+: e.name := by
  refine ⟨by simp [Exp.collection], ?_, by simp [Exp.collection, Exp.seeded], ?_⟩
  · unfold Exp.collection
    rw [List.map_map]
    refine List.Nodup.map ?_ List.nodup_range
    intro i j h
    simp only [Function.comp_apply, Exp.seeded, Exp.seedingInfo, List.append_cancel_left_eq, List.cons.injEq, true_and,
      List.append_assoc] at h
    obtain ⟨h1, _⟩ := append_sep_inj (no_underscore _) (no_underscore _) h
    have h2 := Int.repr_injective (String.toList_injective h1)
    omega
  · intro e he
    obtain ⟨i, _, rfl⟩ := List.mem_map.1 he
    exact ⟨rfl, ⟨_, rfl⟩⟩

/-- C156, in full: no two experiments of a collection use the same seed for an environment. -/
def C156 (b : Exp) (n : Nat) : Prop :=
  ∀ (i j : Nat) (e e' : Exp), i ≠ j → (b.collection n)[i]? = some e → (b.collection n)[j]? = some e' →
    ∀ m m' x, x ∈ e.envSeeds m → x ∉ e'.envSeeds m'

/-- C156 is violated by every collection of at least two experiments with at least one training environment: the environment factory is not touched,
so all experiments use the very same seeds for their environments. Nor would the seeds in the configurations help: the seed for the test environments
of each experiment is the seed for the training environments of the next. -/
theorem C156_violated (b : Exp) (n : Nat) (hn : 2 ≤ n) (hb : 1 ≤ b.sampling.numTrain) :
    (∀ e ∈ b.collection n, ∀ m, e.envSeeds m = b.envSeeds m) ∧ ¬ C156 b n ∧
    ∀ (i : Nat) (e e' : Exp), (b.collection n)[i]? = some e → (b.collection n)[i + 1]? = some e' → e.sampling.testSeed = e'.sampling.trainSeed := by
  have hsame : ∀ e ∈ b.collection n, ∀ m, e.envSeeds m = b.envSeeds m := by
    intro e he m
    obtain ⟨i, _, rfl⟩ := List.mem_map.1 he
    cases m <;> rfl
  refine ⟨hsame, ?_, ?_⟩
  · intro hc
    have h0 : (b.collection n)[0]? = some (b.seeded 0) := by
      simp [Exp.collection, List.getElem?_range (show 0 < n by omega)]
    have h1 : (b.collection n)[1]? = some (b.seeded 1) := by
      simp [Exp.collection, List.getElem?_range (show 1 < n by omega)]
    have hm : b.env.trainSeed ∈ b.envSeeds .train := by
      unfold Exp.envSeeds
      rw [mem_venvSeeds _ _ _ (by decide)]
      simp only [if_true]
      omega
    exact hc 0 1 _ _ (by decide) h0 h1 .train .train b.env.trainSeed (by rw [hsame _ (List.mem_of_getElem? h0)]; exact hm)
      (by rw [hsame _ (List.mem_of_getElem? h1)]; exact hm)
  · intro i e e' he he'
    simp only [Exp.collection, List.getElem?_map, Option.map_eq_some_iff] at he he'
    obtain ⟨k, hk, rfl⟩ := he
    obtain ⟨k', hk', rfl⟩ := he'
    have e1 : k = i := by
      have := List.getElem?_eq_some_iff.1 hk
      obtain ⟨_, h⟩ := this
      simpa using h.symm
    have e2 : k' = i + 1 := by
      have := List.getElem?_eq_some_iff.1 hk'
      obtain ⟨_, h⟩ := this
      simpa using h.symm
    subst e1 e2
    simp only [Exp.seeded, Sampling.testSeed]
    push_cast
    ring

example : ((Exp.mk 42 ⟨42, 3, 2, 2, some 5, none⟩ ⟨42, 45⟩ []).collection 2).map (fun e => (e.seed, e.envSeeds .train, e.envSeeds .test)) =
    [(42, [42, 43, 44], [45, 46]), (43, [42, 43, 44], [45, 46])] := by decide +kernel

/-! ### C157: running an experiment -/

section
variable {W R : Type}

/-- C157. An experiment that trains first collects the initial steps (if there are any), then trains, closes the logger (with persistence) and then lets
the agent be watched (if asked to); one that does not train does only the latter and returns no result. -/
theorem C157_order_partial (a : Acts W R) (c : RunCfg) (w : W) :
    (c.train = false → (run a c w) = (if c.watch then a.watch c.watchEpisodes w else w, none)) ∧
    (c.train = true → ∃ w0 w1 w2, w0 = (if 0 < c.startTimesteps then a.collect c.startTimesteps c.startRandom w else w) ∧
      w1 = (a.trainRun w0).1 ∧ w2 = (if c.persistence then a.finalize w1 else w1) ∧
      (run a c w).1 = if c.watch then a.watch c.watchEpisodes w2 else w2) := by
  constructor
  · intro h
    simp [run, h]
  · intro h
    refine ⟨_, _, _, rfl, rfl, rfl, ?_⟩
    simp [run, h]

/-- C157, in full: the result of an experiment that trains is the one of the trainer. -/
def C157 (a : Acts W R) (c : RunCfg) (w : W) : Prop :=
  c.train = true → (run a c w).2 = some (a.trainRun (if 0 < c.startTimesteps then a.collect c.startTimesteps c.startRandom w else w)).2

/-- C157 is violated by every experiment that trains: the result of the trainer is dropped and `trainer_result` is `None`. -/
theorem C157_violated (a : Acts W R) (c : RunCfg) (w : W) (h : c.train = true) : (run a c w).2 = none ∧ ¬ C157 a c w := by
  refine ⟨rfl, fun hc => ?_⟩
  have := hc h
  simp [run] at this

/-- The calls in order. -/
example : run (W := List String) (R := Nat) ⟨fun _ _ w => w ++ ["collect"], fun w => (w ++ ["train"], 7), fun w => w ++ ["finalize"], fun _ w => w ++ ["watch"]⟩
    ⟨true, true, 10, true, 500, true⟩ [] = (["collect", "train", "finalize", "watch"], none) := by decide +kernel

end

/-! ### C158: launching experiments -/

section
variable {E X R : Type}

private theorem seqLoop_eq (runner : E → Except X R) (eq : R → Bool) : ∀ (es : List E) (succ : List (Safe R)) (fail : List E),
    seqLoop runner eq es succ fail = (succ ++ (es.map (safeExecute runner)).filter (fun s => !s.isFailed eq),
      fail ++ es.filter (fun e => (safeExecute runner e).isFailed eq))
  | [], _, _ => by simp [seqLoop]
  | e :: es, succ, fail => by
    rw [seqLoop]
    by_cases h : (safeExecute runner e).isFailed eq = true
    · simp only [h, if_true]
      rw [seqLoop_eq runner eq es]
      simp [h]
    · rw [if_neg h, seqLoop_eq runner eq es]
      simp [h]

private theorem jobLoop_eq (runner : E → Except X R) (eq : R → Bool) : ∀ (es : List E) (succ : List (Safe R)) (fail : List E),
    jobLoop eq es (es.map (safeExecute runner)) succ fail = seqLoop runner eq es succ fail
  | [], _, _ => rfl
  | e :: es, succ, fail => by
    rw [List.map_cons, jobLoop, seqLoop, jobLoop_eq runner eq es, jobLoop_eq runner eq es]

/-- C158. Launching several experiments (or none), one after the other or in parallel, gives the results of those that did not fail, in the order of the
experiments, and raises a `RuntimeError` exactly if no experiment succeeded. (No result is equal to the string "failed".) -/
theorem C158_results (l : Launcher) (runner : E → Except X R) (eq : R → Bool) (heq : ∀ r, eq r = false) (es : List E) (hn : es.length ≠ 1) :
    ((∀ e ∈ es, ∃ x, runner e = .error x) → l.launch runner eq es = .error .runtime) ∧
    ((∃ e ∈ es, ∃ r, runner e = .ok r) →
      l.launch runner eq es = .ok ((es.filterMap fun e => (runner e).toOption).map Safe.result)) := by
  have hall : l.launch runner eq es =
      returnFrom ((es.map (safeExecute runner)).filter (fun s => !s.isFailed eq)) (es.filter (fun e => (safeExecute runner e).isFailed eq)) := by
    have h1 : l.launch runner eq es = l.launchAll runner eq es := by
      match es, hn with
      | [], _ => rfl
      | [e], hn => simp at hn
      | e :: e' :: es, _ => rfl
    rw [h1]
    cases l with
    | sequential => simp only [Launcher.launchAll, seqLoop_eq, List.nil_append]
    | joblib => simp only [Launcher.launchAll, jobLoop_eq, seqLoop_eq, List.nil_append]
  have hres : ∀ es : List E, (es.map (safeExecute runner)).filter (fun s => !s.isFailed eq) =
      (es.filterMap fun e => (runner e).toOption).map Safe.result := by
    intro es
    induction es with
    | nil => rfl
    | cons e es ih =>
      rw [List.map_cons, List.filter_cons, List.filterMap_cons, ih]
      cases hr : runner e <;> simp [safeExecute, hr, Safe.isFailed, heq, Except.toOption]
  rw [hall, hres]
  constructor
  · intro h
    have : (es.filterMap fun e => (runner e).toOption) = [] := by
      rw [List.filterMap_eq_nil_iff]
      intro e he
      obtain ⟨x, hx⟩ := h e he
      simp [hx, Except.toOption]
    simp [this, returnFrom]
  · rintro ⟨e, he, r, hr⟩
    have : r ∈ es.filterMap fun e => (runner e).toOption := List.mem_filterMap.2 ⟨e, he, by simp [hr, Except.toOption]⟩
    have hne : (es.filterMap fun e => (runner e).toOption) ≠ [] := List.ne_nil_of_mem this
    simp [returnFrom, hne]

/-- C158. A single experiment is run by itself: its result is returned, and its exception, whatever it is, comes out as it is. -/
theorem C158_single (l : Launcher) (runner : E → Except X R) (eq : R → Bool) (e : E) :
    (∀ r, runner e = .ok r → l.launch runner eq [e] = .ok [.result r]) ∧ ∀ x, runner e = .error x → l.launch runner eq [e] = .error (.raised x) := by
  constructor
  · intro r hr
    simp [Launcher.launch, hr]
  · intro x hx
    simp [Launcher.launch, hx]

/-- The second of three experiments fails. -/
example : (Launcher.joblib.launch (fun e : Nat => if e = 1 then .error "oops" else .ok (10 * e)) (fun _ => false) [0, 1, 2]).toOption.map
    (fun l => l.map fun s => match s with | .result r => r | .failed => 99) = some [0, 20] := by decide +kernel

end

/-! ### C159: persistence -/

section
variable {S V : Type}

private theorem stem_dot (m : PMode) : '.' ∉ m.stem := by cases m <;> decide

private theorem digits_dot (n : Nat) : '.' ∉ (Nat.repr n).toList := by
  rw [Nat.toList_repr]
  intro h
  have := Nat.isDigit_of_mem_toDigits (b := 10) (by decide) (by decide) h
  exact absurd this (by decide)

private theorem checkpoint_ne (m : PMode) (n : Nat) : m.checkpoint n ≠ m.filename := by
  unfold PMode.checkpoint PMode.filename
  intro h
  rw [List.append_assoc, List.append_assoc] at h
  have := List.append_cancel_left h
  simp at this

private theorem checkpoint_inj (m : PMode) (a b : Nat) (h : m.checkpoint a = m.checkpoint b) : a = b := by
  unfold PMode.checkpoint at h
  have h := List.append_cancel_left (by simpa [List.append_assoc] using h : m.stem ++ (['_', 'e', 'p', 'o', 'c', 'h', '_'] ++ ((Nat.repr a).toList ++ ['.', 'p', 't'])) =
    m.stem ++ (['_', 'e', 'p', 'o', 'c', 'h', '_'] ++ ((Nat.repr b).toList ++ ['.', 'p', 't'])))
  have h := List.append_cancel_left h
  obtain ⟨h1, _⟩ := append_sep_inj (digits_dot a) (digits_dot b) h
  exact Nat.repr_injective (String.toList_injective h1)

/-- The handlers' files are not those of the policy. -/
def Persistence.Apart (p : Persistence) : Prop := p.mode.filename ∉ p.items ∧ ∀ n, p.mode.checkpoint n ∉ p.items

private theorem group_apply (w : World S V) : ∀ (items : List (List Char)) (d : Dir S V) (n : List Char),
    items.foldl (fun d n => d.write n (.other (w.data n))) d n = if n ∈ items then some (.other (w.data n)) else d n
  | [], d, n => by simp
  | i :: items, d, n => by
    rw [List.foldl_cons, group_apply w items]
    by_cases h : n ∈ items
    · simp [h]
    · by_cases h2 : n = i
      · simp [h, h2, Dir.write]
      · simp [h, h2, Dir.write]

/-- The last call for the best policy. -/
def lastBest (xs : List (Save × World S V)) : Option (World S V) := ((xs.filter fun x => x.1 = .best).getLast?).map Prod.snd

/-- The last checkpoint of an epoch. -/
def lastCheckpoint (n : Nat) (xs : List (Save × World S V)) : Option (World S V) :=
  ((xs.filter fun x => x.1 = .checkpoint n).getLast?).map Prod.snd

private theorem saves_files (p : Persistence) (hen : p.enabled = true) (hap : p.Apart) (d : Dir S V) (xs : List (Save × World S V)) :
    p.saves d xs p.mode.filename = (match lastBest xs with | some w => some (p.mode.file w.policy) | none => d p.mode.filename) ∧
    (∀ n, p.saves d xs (p.mode.checkpoint n) =
      match lastCheckpoint n xs with | some w => some (p.mode.file w.policy) | none => d (p.mode.checkpoint n)) ∧
    ∀ i ∈ p.items, p.saves d xs i = match xs.getLast? with | some x => some (.other (x.2.data i)) | none => d i := by
  induction xs using List.reverseRecOn with
  | nil => simp [Persistence.saves, lastBest, lastCheckpoint]
  | append_singleton xs x ih =>
    obtain ⟨ih1, ih2, ih3⟩ := ih
    obtain ⟨k, w⟩ := x
    have hs : p.saves d (xs ++ [(k, w)]) = p.save (p.saves d xs) (k, w) := by simp [Persistence.saves]
    have hne := hap.1
    have hnc := hap.2
    rw [hs]
    cases k with
    | best =>
      refine ⟨?_, ?_, ?_⟩
      · simp [Persistence.save, Persistence.persist, Persistence.persistGroup, hen, group_apply, hne, Dir.write, lastBest]
      · intro n
        simp only [Persistence.save, Persistence.persist, Persistence.persistGroup, hen, if_true, group_apply, if_neg (hnc n), Dir.write,
          if_neg (checkpoint_ne p.mode n), ih2 n]
        simp [lastCheckpoint]
      · intro i hi
        simp [Persistence.save, Persistence.persist, Persistence.persistGroup, hen, group_apply, hi]
    | checkpoint e =>
      refine ⟨?_, ?_, ?_⟩
      · simp only [Persistence.save, Persistence.checkpoint, Persistence.persistGroup, hen, if_true, group_apply, if_neg hne, Dir.write,
          if_neg (Ne.symm (checkpoint_ne p.mode e)), ih1]
        simp [lastBest]
      · intro n
        simp only [Persistence.save, Persistence.checkpoint, Persistence.persistGroup, hen, if_true, group_apply, if_neg (hnc n), Dir.write]
        by_cases h : n = e
        · subst h
          simp [lastCheckpoint]
        · rw [if_neg fun hh => h (checkpoint_inj _ _ _ hh), ih2 n]
          have : ¬ (e = n) := fun hh => h hh.symm
          simp [lastCheckpoint, this]
      · intro i hi
        simp [Persistence.save, Persistence.checkpoint, Persistence.persistGroup, hen, group_apply, hi]

private theorem restoreGroup_ok (d : Dir S V) (f : List Char → V) : ∀ (items : List (List Char)) (w : World S V), (∀ i ∈ items, d i = some (.other (f i))) →
    ∃ w', restoreGroup items d w = .ok w' ∧ w'.policy = w.policy ∧ (∀ i ∈ items, w'.data i = f i) ∧ ∀ i, i ∉ items → w'.data i = w.data i
  | [], w, _ => ⟨w, rfl, rfl, by simp, by simp⟩
  | i :: items, w, h => by
    obtain ⟨w', h1, h2, h3, h4⟩ := restoreGroup_ok d f items { w with data := fun m => if m = i then f i else w.data m }
      fun j hj => h j (List.mem_cons_of_mem _ hj)
    refine ⟨w', ?_, h2, ?_, ?_⟩
    · rw [restoreGroup, h i List.mem_cons_self]
      exact h1
    · intro j hj
      by_cases hm : j ∈ items
      · exact h3 j hm
      · rcases List.mem_cons.1 hj with rfl | hj
        · rw [h4 j hm]; simp
        · exact absurd hj hm
    · intro j hj
      rw [List.mem_cons, not_or] at hj
      rw [h4 j hj.2]
      simp [hj.1]

/-- C159. After any sequence of saves, restoring from the directory gives the policy as it was at the last save of a best policy, in both modes. Other
data are as they were at the last save of any kind. Missing: the other data should be those of the best policy, see `C159_violated`. -/
theorem C159_restore_partial (p : Persistence) (hen : p.enabled = true) (hap : p.Apart) (d : Dir S V) (xs : List (Save × World S V)) (w : World S V)
    (hw : lastBest xs = some w) (w0 : World S V) :
    ∃ w', p.restore (some (p.saves d xs)) w0 = .ok w' ∧ w'.policy = w.policy ∧
      (∀ x, xs.getLast? = some x → ∀ i ∈ p.items, w'.data i = x.2.data i) ∧
      ∀ i, i ∉ p.items → w'.data i = w0.data i := by
  obtain ⟨h1, _, h3⟩ := saves_files p hen hap d xs
  rw [hw] at h1
  have hne : xs ≠ [] := by
    intro h
    rw [h] at hw
    simp [lastBest] at hw
  have hlast := List.getLast?_eq_getLast_of_ne_nil hne
  rw [hlast] at h3 ⊢
  obtain ⟨w', g1, g2, g3, g4⟩ := restoreGroup_ok (p.saves d xs) (xs.getLast hne).2.data p.items { w0 with policy := w.policy } h3
  refine ⟨w', ?_, g2, ?_, g4⟩
  · unfold Persistence.restore
    simp only [h1]
    cases hm : p.mode <;> simpa [PMode.file] using g1
  · intro x hx i hi
    cases hx
    exact g3 i hi

/-- C159. The file of a checkpoint holds the policy at the last checkpoint of that epoch; other saves do not touch it. -/
theorem C159_checkpoints (p : Persistence) (hen : p.enabled = true) (hap : p.Apart) (d : Dir S V) (xs : List (Save × World S V)) (n : Nat)
    (w : World S V) (hw : lastCheckpoint n xs = some w) : p.saves d xs (p.mode.checkpoint n) = some (p.mode.file w.policy) := by
  rw [(saves_files p hen hap d xs).2.1 n, hw]

/-- C159. With persistence disabled no file is written, and restoring works all the same: it is the same with and without. Without a directory for
restoration, or without the file in it, restoring raises an error. -/
theorem C159_disabled (p : Persistence) (d : Dir S V) (w0 : World S V) :
    (p.enabled = false → ∀ xs : List (Save × World S V), p.saves d xs = d) ∧
    (∀ b dir, ({ p with enabled := b }).restore dir w0 = p.restore dir w0) ∧
    p.restore none w0 = .error .value ∧ (d p.mode.filename = none → p.restore (some d) w0 = .error .fileNotFound) := by
  refine ⟨?_, fun b dir => rfl, rfl, ?_⟩
  · intro hd xs
    induction xs using List.reverseRecOn with
    | nil => rfl
    | append_singleton xs x ih =>
      obtain ⟨k, w⟩ := x
      have hs : p.saves d (xs ++ [(k, w)]) = p.save (p.saves d xs) (k, w) := by simp [Persistence.saves]
      rw [hs, ih]
      cases k <;> simp [Persistence.save, Persistence.persist, Persistence.checkpoint, hd]
  · intro h
    unfold Persistence.restore
    simp only [h]

/-- C159. If the data of some handler are missing in the directory, restoring raises an error: it never succeeds with a part of the data. -/
theorem C159_missing (p : Persistence) (d : Dir S V) (w0 : World S V) (i : List Char) (hi : i ∈ p.items) (hd : d i = none) :
    ∃ e, p.restore (some d) w0 = .error e := by
  have key : ∀ (ns : List (List Char)) (w : World S V), i ∈ ns → ∃ e, restoreGroup ns d w = .error e := by
    intro ns
    induction ns with
    | nil => intro w h; simp at h
    | cons n ns ih =>
      intro w h
      unfold restoreGroup
      rcases List.mem_cons.1 h with rfl | h
      · rw [hd]; exact ⟨_, rfl⟩
      · cases hn : d n with
        | none => exact ⟨_, rfl⟩
        | some f => cases f with
          | other v => exact ih _ h
          | stateDict s => exact ⟨_, rfl⟩
          | policy s => exact ⟨_, rfl⟩
  unfold Persistence.restore
  dsimp only
  split <;> first | exact key _ _ hi | exact ⟨_, rfl⟩

/-- C159, in full: restoring gives the policy and the data at the last save of a best policy. -/
def C159 (p : Persistence) (d : Dir S V) (xs : List (Save × World S V)) (w0 : World S V) : Prop :=
  ∀ w, lastBest xs = some w → ∃ w', p.restore (some (p.saves d xs)) w0 = .ok w' ∧ w'.policy = w.policy ∧ ∀ i ∈ p.items, w'.data i = w.data i

/-- C159 is violated whenever the last save is a checkpoint at which the data of some handler were different from those at the last save of a best policy:
checkpoints overwrite the data, so the best policy is restored with data that are not its own. -/
theorem C159_violated (p : Persistence) (hen : p.enabled = true) (hap : p.Apart) (d : Dir S V) (xs : List (Save × World S V)) (w w1 w0 : World S V)
    (hw : lastBest xs = some w) (n : Nat) (i : List Char) (hi : i ∈ p.items) (hne : w1.data i ≠ w.data i) :
    ¬ C159 p d (xs ++ [(.checkpoint n, w1)]) w0 := by
  intro hc
  have hw' : lastBest (xs ++ [(.checkpoint n, w1)]) = some w := by
    simpa [lastBest] using hw
  obtain ⟨w', h1, _, h3⟩ := hc w hw'
  obtain ⟨w'', g1, _, g3, _⟩ := C159_restore_partial p hen hap d (xs ++ [(.checkpoint n, w1)]) w hw' w0
  rw [g1] at h1
  cases h1
  have := g3 _ (by simp : (xs ++ [(Save.checkpoint n, w1)]).getLast? = some (.checkpoint n, w1)) i hi
  rw [h3 i hi] at this
  exact hne this.symm

/-- One handler: the best policy 1 was saved with data 10, then came a checkpoint with policy 2 and data 20. -/
example : let p : Persistence := ⟨true, .policy, [['r']]⟩
    ((p.restore (some (p.saves (fun _ => none) [(.best, ⟨1, fun _ => 10⟩), (.checkpoint 3, ⟨2, fun _ => 20⟩)])) ⟨0, fun _ => 0⟩).toOption.map
      fun (w : World Nat Nat) => (w.policy, w.data ['r'])) = some (1, 20) := by decide +kernel

example : Persistence.Apart ⟨true, .policy, [['r']]⟩ := by
  refine ⟨by decide, fun n h => ?_⟩
  have := congrArg List.length (List.mem_singleton.1 h)
  simp [PMode.checkpoint, PMode.stem] at this

end

end Verif.Experiment
