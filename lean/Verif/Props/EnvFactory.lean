import Verif.Model.EnvFactory

/-! C218: environments made by a factory of the high-level interface. -/

namespace Verif.EnvFactory

variable {E K : Type}

/-- The observation space has a shape: it is not a dictionary, and an array space has at least one axis. -/
def HasShape : Space K → Prop
  | .discrete _ => True
  | .box shape _ => shape ≠ []
  | .multiDiscrete nvec => nvec ≠ []
  | .dict => False

/-- The action space is discrete, or a box with at least one axis. -/
def Supported : Space K → Prop
  | .discrete _ => True
  | .box _ highs => highs ≠ []
  | _ => False

/-- `n` environments for the mode, environment `i` seeded with `seed + i`. -/
def Made (f : Factory E) (mode : Mode) (n : Nat) (seed : Int) (v : Venv E) : Prop :=
  v.envs.length = n ∧ v.seeds.length = n ∧ (∀ i, i < n → v.envs[i]? = some (f.createEnv mode)) ∧
    ∀ i : Nat, i < n → v.seeds[i]? = some (some (seed + i))

theorem made_envpool (f : Factory E) (h : f.envpool = true) (mode : Mode) (n : Nat) :
    Made f mode n (if mode = .train then f.trainSeed else f.testSeed) (f.createVenv n mode) := by
  unfold Factory.createVenv
  simp only [h, if_true]
  refine ⟨by simp, by simp, fun i hi => by simp [hi], fun i hi => ?_⟩
  rw [List.getElem?_map, List.getElem?_range hi]
  rfl

theorem made_watch (f : Factory E) (h : f.envpool = false) (n : Nat) : Made f .watch 1 f.testSeed (f.createVenv n .watch) := by
  unfold Factory.createVenv Factory.createVenvBase
  simp only [h]
  refine ⟨rfl, rfl, fun i hi => ?_, fun i hi => ?_⟩ <;>
  · obtain rfl : i = 0 := by omega
    simp

theorem made_other (f : Factory E) (h : f.envpool = false) (n : Nat) (mode : Mode) (hm : mode ≠ .watch) :
    Made f mode n (if mode = .train then f.trainSeed else f.testSeed) (f.createVenv n mode) := by
  unfold Factory.createVenv Factory.createVenvBase
  simp only [h, hm, if_false, Bool.false_eq_true]
  refine ⟨by simp, by simp, fun i hi => by simp [hi], fun i hi => ?_⟩
  rw [List.getElem?_map, List.getElem?_range (by simpa using hi)]
  rfl

theorem made_any (f : Factory E) (n : Nat) (mode : Mode) (hm : mode ≠ .watch) :
    Made f mode n (if mode = .train then f.trainSeed else f.testSeed) (f.createVenv n mode) := by
  cases h : f.envpool with
  | true => exact made_envpool f h mode n
  | false => exact made_other f h n mode hm

/-- C218, what is made: whenever `create_envs` returns, there are as many training and test environments as asked for, each
made for its mode; training environment `i` has the seed `train_seed + i` and test environment `i` the seed `test_seed + i`; a
watch environment is there if asked for, a single one; the kind of environments is that of the action space. -/
theorem C218_made (f : Factory E) (obsSpace actSpace : E → Space K) (numTrain numTest : Nat) (createWatch : Bool)
    (r : Environments E K) (h : f.createEnvs obsSpace actSpace numTrain numTest createWatch = .ok r) :
    Made f .train numTrain f.trainSeed r.trainEnvs ∧ Made f .test numTest f.testSeed r.testEnvs ∧
    r.env = f.createEnv .train ∧
    (createWatch = false → r.watchEnv = none) ∧
    (createWatch = true → ∃ w, r.watchEnv = some w ∧ Made f .watch 1 f.testSeed w) ∧
    (r.discrete = true ↔ ∃ n, actSpace (f.createEnv .train) = .discrete n) ∧
    (r.discrete = false ↔ ∃ shape highs, actSpace (f.createEnv .train) = .box shape highs) := by
  have h1 := made_any f numTrain .train (by decide)
  have h2 := made_any f numTest .test (by decide)
  rw [if_pos rfl] at h1
  rw [if_neg (by decide)] at h2
  have h3 : Made f .watch 1 f.testSeed (f.createVenv 1 .watch) := by
    cases he : f.envpool with
    | true => exact made_envpool f he .watch 1
    | false => exact made_watch f he 1
  unfold Factory.createEnvs at h
  simp only at h
  cases ha : actSpace (f.createEnv .train) with
  | discrete n =>
    rw [ha] at h
    cases hs : shapeOrN (obsSpace (f.createEnv .train)) with
    | error e => rw [hs] at h; cases h
    | ok state =>
      rw [hs] at h
      simp only [Except.ok.injEq] at h
      subst h
      refine ⟨h1, h2, rfl, ?_, ?_, by simp, by simp⟩
      · rintro rfl; rfl
      · rintro rfl; exact ⟨_, rfl, h3⟩
  | box shape highs =>
    rw [ha] at h
    simp only at h
    cases hs : continuousInfo (obsSpace (f.createEnv .train)) (Space.box shape highs) with
    | error e => rw [hs] at h; cases h
    | ok p =>
      rw [hs] at h
      simp only [Except.ok.injEq] at h
      subst h
      refine ⟨h1, h2, rfl, ?_, ?_, by simp, by simp⟩
      · rintro rfl; rfl
      · rintro rfl; exact ⟨_, rfl, h3⟩
  | multiDiscrete nvec => rw [ha] at h; cases h
  | dict => rw [ha] at h; cases h

theorem shapeOrN_ok {s : Space K} (h : HasShape s) : ∃ l, shapeOrN s = .ok l := by
  cases s with
  | discrete n => exact ⟨_, rfl⟩
  | box shape highs =>
    cases shape with
    | nil => exact absurd rfl h
    | cons d ds => exact ⟨_, rfl⟩
  | multiDiscrete nvec =>
    cases nvec with
    | nil => exact absurd rfl h
    | cons d ds => exact ⟨_, rfl⟩
  | dict => exact absurd h (by simp [HasShape])

theorem shapeOrN_error {s : Space K} (h : ¬ HasShape s) : shapeOrN s = .error .attribute := by
  cases s with
  | discrete n => exact absurd trivial h
  | box shape highs =>
    cases shape with
    | nil => rfl
    | cons d ds => exact absurd (by simp [HasShape]) h
  | multiDiscrete nvec =>
    cases nvec with
    | nil => rfl
    | cons d ds => exact absurd (by simp [HasShape]) h
  | dict => rfl

/-- The types as their documentation describes them: which one runs sequentially, which use ray, processes, shared memory, and the fork
context (the automatic one everywhere but on windows). -/
structure RunsAs (t : VenvType) (windows : Bool) (r : Run) : Prop where
  sequential : r = .sequential ↔ t = .dummy
  ray : r = .ray ↔ t = .ray
  processes : (∃ b c, r = .processes b c) ↔ t ≠ .dummy ∧ t ≠ .ray
  memory : ∀ b c, r = .processes b c → (b = true ↔ t ≠ .subproc)
  fork : ∀ b c, r = .processes b c → (c = true ↔ t = .shmemFork ∨ (t = .shmemAuto ∧ windows = false))

theorem runsAs_run (t : VenvType) (windows : Bool) : RunsAs t windows (t.run windows) := by
  constructor <;> cases t <;> cases windows <;> simp [VenvType.run]

/-- C218, what holds of the way the environments run: without envpool, the watch environment runs in the process itself and
the others as the chosen type says; and `create_envs` returns for discrete or box actions and observations with a shape. Missing:
envpool, other observation spaces (`C218_violated`). -/
theorem C218_partial (f : Factory E) (hp : f.envpool = false) (obsSpace actSpace : E → Space K) (numTrain numTest : Nat)
    (createWatch : Bool) (ho : HasShape (obsSpace (f.createEnv .train))) (ha : Supported (actSpace (f.createEnv .train))) :
    ∃ r, f.createEnvs obsSpace actSpace numTrain numTest createWatch = .ok r ∧
      RunsAs f.venvType f.windows r.trainEnvs.run ∧ RunsAs f.venvType f.windows r.testEnvs.run ∧
      ∀ w, r.watchEnv = some w → w.run = .sequential := by
  obtain ⟨state, hs⟩ := shapeOrN_ok ho
  have hrun : ∀ n mode, mode ≠ Mode.watch → RunsAs f.venvType f.windows (f.createVenv n mode).run := by
    intro n mode hm
    have : (f.createVenv n mode).run = f.venvType.run f.windows := by simp [Factory.createVenv, Factory.createVenvBase, hp, hm]
    rw [this]
    exact runsAs_run _ _
  have hw : (f.createVenv 1 .watch).run = .sequential := by
    simp [Factory.createVenv, Factory.createVenvBase, hp]
  unfold Factory.createEnvs
  simp only
  cases hA : actSpace (f.createEnv .train) with
  | discrete n =>
    simp only [hs]
    refine ⟨_, rfl, hrun _ _ (by decide), hrun _ _ (by decide), ?_⟩
    intro w h
    cases createWatch with
    | false => cases h
    | true => cases h; exact hw
  | box shape highs =>
    cases hh : highs with
    | nil => rw [hA, hh] at ha; exact absurd rfl ha
    | cons x xs =>
      simp only [continuousInfo, hs]
      refine ⟨_, rfl, hrun _ _ (by decide), hrun _ _ (by decide), ?_⟩
      intro w h
      cases createWatch with
      | false => cases h
      | true => cases h; exact hw
  | multiDiscrete nvec => rw [hA] at ha; exact absurd ha (by simp [Supported])
  | dict => rw [hA] at ha; exact absurd ha (by simp [Supported])

/-- Boxes of two numbers as actions, of three as observations, in processes with shared memory. -/
def exFactory : Factory Mode := ⟨.shmemAuto, id, 42, 100, false, false⟩

example : HasShape (Space.box (K := Int) [3] [1, 1, 1]) ∧ Supported (Space.box [2] [(1 : Int), 2]) := by
  simp [HasShape, Supported]

example : exFactory.createEnvs (fun _ => .box [3] [1, 1, 1]) (fun _ => .box [2] [(1 : Int), 2]) 2 1 true =
    .ok ⟨false, .train, ⟨.processes true true, [.train, .train], [some 42, some 43]⟩,
      ⟨.processes true true, [.test], [some 100]⟩, some ⟨.sequential, [.watch], [some 100]⟩, [3], [2], some 1⟩ := by
  decide +kernel

/-- C218 violated: with envpool the watch environment does not run in the process itself; and for observation spaces without a shape
(dictionaries, numbers) `create_envs` raises `AttributeError` although the action space is supported. -/
theorem C218_violated (f : Factory E) (obsSpace actSpace : E → Space K) (numTrain numTest : Nat) :
    (f.envpool = true → ∀ r w, f.createEnvs obsSpace actSpace numTrain numTest true = .ok r → r.watchEnv = some w →
      w.run = .envpool) ∧
    (¬ HasShape (obsSpace (f.createEnv .train)) → Supported (actSpace (f.createEnv .train)) →
      f.createEnvs obsSpace actSpace numTrain numTest false = .error .attribute) := by
  constructor
  · intro hp r w h hw
    have hrun : (f.createVenv 1 .watch).run = .envpool := by simp [Factory.createVenv, hp]
    unfold Factory.createEnvs at h
    simp only at h
    cases hA : actSpace (f.createEnv .train) with
    | discrete n =>
      rw [hA] at h
      cases hs : shapeOrN (obsSpace (f.createEnv .train)) with
      | error e => rw [hs] at h; cases h
      | ok state => rw [hs] at h; cases h; cases hw; exact hrun
    | box shape highs =>
      rw [hA] at h
      simp only at h
      cases hs : continuousInfo (obsSpace (f.createEnv .train)) (Space.box shape highs) with
      | error e => rw [hs] at h; cases h
      | ok p => rw [hs] at h; cases h; cases hw; exact hrun
    | multiDiscrete nvec => rw [hA] at h; cases h
    | dict => rw [hA] at h; cases h
  · intro ho ha
    unfold Factory.createEnvs
    simp only
    cases hA : actSpace (f.createEnv .train) with
    | discrete n => simp only [shapeOrN_error ho]
    | box shape highs => simp only [continuousInfo, shapeOrN_error ho]
    | multiDiscrete nvec => rw [hA] at ha; exact absurd ha (by simp [Supported])
    | dict => rw [hA] at ha; exact absurd ha (by simp [Supported])

example : ({ exFactory with envpool := true }.createEnvs (fun _ => .box [3] [1, 1, 1]) (fun _ => .discrete (K := Int) 4) 0 0 true).map
      (fun r : Environments Mode Int => r.watchEnv.map Venv.run) = .ok (some Run.envpool) ∧
    exFactory.createEnvs (fun _ => .dict) (fun _ => .discrete (K := Int) 4) 1 1 false = .error .attribute := by decide +kernel

/-- C218, the shapes: they are those of the spaces of the training environment, and the maximum action of continuous environments
is the upper bound of the first component. -/
theorem C218_shapes (f : Factory E) (obsSpace actSpace : E → Space K) (numTrain numTest : Nat) (createWatch : Bool)
    (r : Environments E K) (h : f.createEnvs obsSpace actSpace numTrain numTest createWatch = .ok r) :
    (∀ n, actSpace (f.createEnv .train) = .discrete n → r.actionShape = [n] ∧ r.maxAction = none) ∧
    (∀ shape m highs, actSpace (f.createEnv .train) = .box shape (m :: highs) → r.actionShape = shape ∧ r.maxAction = some m) ∧
    (∀ n, obsSpace (f.createEnv .train) = .discrete n → r.stateShape = [n]) ∧
    (∀ shape highs, obsSpace (f.createEnv .train) = .box shape highs → r.stateShape = shape) := by
  unfold Factory.createEnvs at h
  simp only at h
  have hstate : ∀ state, shapeOrN (obsSpace (f.createEnv .train)) = .ok state →
      (∀ n, obsSpace (f.createEnv .train) = .discrete n → state = [n]) ∧
      (∀ shape highs, obsSpace (f.createEnv .train) = .box shape highs → state = shape) := by
    intro state hs
    constructor
    · intro n hn; rw [hn] at hs; cases hs; rfl
    · intro shape highs hb
      rw [hb] at hs
      cases shape with
      | nil => cases hs
      | cons d ds => cases hs; rfl
  cases hA : actSpace (f.createEnv .train) with
  | discrete n =>
    rw [hA] at h
    cases hs : shapeOrN (obsSpace (f.createEnv .train)) with
    | error e => rw [hs] at h; cases h
    | ok state =>
      rw [hs] at h
      simp only [Except.ok.injEq] at h
      subst h
      refine ⟨?_, ?_, hstate state hs⟩
      · intro n' hn; cases hn; exact ⟨rfl, rfl⟩
      · intro shape m highs hb; cases hb
  | box shape highs =>
    rw [hA] at h
    simp only [continuousInfo] at h
    cases hs : shapeOrN (obsSpace (f.createEnv .train)) with
    | error e => rw [hs] at h; cases h
    | ok state =>
      rw [hs] at h
      cases highs with
      | nil => cases h
      | cons m highs =>
        simp only [Except.ok.injEq] at h
        subst h
        refine ⟨?_, ?_, hstate state hs⟩
        · intro n hn; cases hn
        · intro shape' m' highs' hb; cases hb; exact ⟨rfl, rfl⟩
  | multiDiscrete nvec => rw [hA] at h; cases h
  | dict => rw [hA] at h; cases h

end Verif.EnvFactory
