import Mathlib.Data.List.Basic

/-!
Model of experiments in the high-level interface: `tianshou/highlevel/config.py` (seeds and checks), `env.py` (seeds of environments),
`experiment.py` (collections of experiments, `run`), `persistence.py`, `world.py`, and of `tianshou/evaluation/launcher.py`.

Simplifications. Environments are known by their seeds; what policies, trainers and loggers do is given by arbitrary functions; log messages are
left out. Strings are lists of characters.
-/

namespace Verif.Experiment

/-- Exceptions raised in highlevel/experiment.py, highlevel/persistence.py and highlevel/trainer.py. -/
inductive Err
  | zeroDivision
  | assertion
  | value
  | runtime
  | fileNotFound
  | attribute
deriving DecidableEq, Repr

/-! ### Seeds -/

/-- The fields of `SamplingConfig` that matter here, `config.py` lines 10-120. -/
structure Sampling where
  trainSeed : Int
  numTrain : Int
  numTest : Int
  testEpisodes : Int
  stepPerCollect : Option Int
  episodePerCollect : Option Int
deriving DecidableEq, Repr

/-- `SamplingConfig.__post_init__`, `config.py` lines 172-192; `cpus` is `multiprocessing.cpu_count()`. The remainder in line 183 raises a
`ZeroDivisionError` for zero test environments. -/
def Sampling.postInit (cpus : Int) (s : Sampling) : Except Err Sampling :=
  let s := if s.numTrain = -1 then { s with numTrain := cpus } else s
  if s.testEpisodes ≠ 0 ∧ s.numTest = 0 then .error .zeroDivision
  else if (if s.stepPerCollect.isSome then 1 else 0) + (if s.episodePerCollect.isSome then 1 else 0) = (1 : Nat) then .ok s
  else .error .assertion

/-- `SamplingConfig.test_seed`, `config.py` lines 168-170. -/
def Sampling.testSeed (s : Sampling) : Int := s.trainSeed + s.numTrain

/-- `EnvMode`, `env.py` lines 58-63. -/
inductive Mode
  | train
  | test
  | watch
deriving DecidableEq, Repr

/-- The seeds in `EnvFactoryRegistered`, `env.py` lines 447-448. -/
structure EnvFactory where
  trainSeed : Int
  testSeed : Int
deriving DecidableEq, Repr

/-- The seeds that the environments get in `EnvFactoryRegistered.create_venv`, `env.py` lines 488-501 (one environment for watching, lines
386-389), where `venv.seed` hands `seed + i` to environment `i` (`venvs.py` lines 335-341). Pools of envpool are not modelled. -/
def EnvFactory.venvSeeds (f : EnvFactory) (n : Int) (m : Mode) : List Int :=
  let seed := if m = .train then f.trainSeed else f.testSeed
  (List.range (if m = .watch then 1 else n.toNat)).map fun i : Nat => seed + (i : Int)

/-- A builder and the experiment it builds (`experiment.py` lines 184-200, 511-523 and 645-662), as far as seeds and names go. -/
structure Exp where
  seed : Int
  sampling : Sampling
  env : EnvFactory
  name : List Char
deriving DecidableEq, Repr

/-- `get_seeding_info_as_str`, `experiment.py` lines 216-228. -/
def Exp.seedingInfo (e : Exp) : List Char :=
  ['e', 'x', 'p', '_', 's', 'e', 'e', 'd', '='] ++ (Int.repr e.seed).toList ++
    '_' :: (['t', 'r', 'a', 'i', 'n', '_', 's', 'e', 'e', 'd', '='] ++ (Int.repr e.sampling.trainSeed).toList ++
      '_' :: (['t', 'e', 's', 't', '_', 's', 'e', 'e', 'd', '='] ++ (Int.repr e.sampling.testSeed).toList))

/-- One experiment of `build_seeded_collection`, `experiment.py` lines 679-683. The deep copy of the builder holds its own copies of the
configurations and of the environment factory. -/
def Exp.seeded (b : Exp) (i : Nat) : Exp :=
  let e := { b with seed := b.seed + i, sampling := { b.sampling with trainSeed := b.sampling.trainSeed + i * b.sampling.numTrain } }
  { e with name := e.name ++ '_' :: e.seedingInfo }

/-- `build_seeded_collection`, `experiment.py` lines 664-685. -/
def Exp.collection (b : Exp) (n : Nat) : List Exp := (List.range n).map b.seeded

/-- The seeds of the environments of an experiment, `experiment.py` lines 297-301. -/
def Exp.envSeeds (e : Exp) (m : Mode) : List Int :=
  e.env.venvSeeds (match m with | .train => e.sampling.numTrain | .test => e.sampling.numTest | .watch => 1) m

/-! ### Running an experiment -/

/-- What happens in `Experiment.run` apart from logging; `W` is the world (environments, policy, collectors, buffers, trainer), `R` the statistics
that the trainer returns. -/
structure Acts (W R : Type) where
  collect : Int → Bool → W → W
  trainRun : W → W × R
  finalize : W → W
  watch : Nat → W → W

/-- The fields of `ExperimentConfig` and `SamplingConfig` that `run` uses. -/
structure RunCfg where
  train : Bool
  watch : Bool
  watchEpisodes : Nat
  persistence : Bool
  startTimesteps : Int
  startRandom : Bool
deriving DecidableEq, Repr

/-- `Experiment.run` after the world was created, `experiment.py` lines 420-454: the world and `trainer_result`. The variable `trainer_result` is
not assigned to after line 420. -/
def run {W R : Type} (a : Acts W R) (c : RunCfg) (w : W) : W × Option R :=
  let trainerResult : Option R := none
  let w :=
    if c.train then
      let w := if c.startTimesteps > 0 then a.collect c.startTimesteps c.startRandom w else w
      let w := (a.trainRun w).1
      if c.persistence then a.finalize w else w
    else w
  let w := if c.watch then a.watch c.watchEpisodes w else w
  (w, trainerResult)

/-! ### Launchers -/

section
variable {E X R : Type}

/-- What `_safe_execute` returns: a result or the string "failed", `launcher.py` lines 53-58. -/
inductive Safe (R : Type)
  | result (r : R)
  | failed

/-- `_safe_execute`, `launcher.py` lines 53-58. -/
def safeExecute (runner : E → Except X R) (e : E) : Safe R :=
  match runner e with
  | .ok r => .result r
  | .error _ => .failed

/-- `result == "failed"`; `eq` compares a result with the string. -/
def Safe.isFailed (eq : R → Bool) : Safe R → Bool
  | .result r => eq r
  | .failed => true

/-- The exceptions that come out of `launch`. -/
inductive LaunchErr (X : Type)
  | raised (x : X)
  | runtime
deriving DecidableEq, Repr

/-- `_return_from_successful_and_failed_exps`, `launcher.py` lines 60-74 (without the messages). -/
def returnFrom (successful : List (Safe R)) (_failed : List E) : Except (LaunchErr X) (List (Safe R)) :=
  if successful.isEmpty then .error .runtime else .ok successful

/-- The loop of `SequentialExpLauncher._launch`, `launcher.py` lines 93-101. -/
def seqLoop (runner : E → Except X R) (eq : R → Bool) : List E → List (Safe R) → List E → List (Safe R) × List E
  | [], succ, fail => (succ, fail)
  | e :: es, succ, fail =>
    let s := safeExecute runner e
    if s.isFailed eq then seqLoop runner eq es succ (fail ++ [e]) else seqLoop runner eq es (succ ++ [s]) fail

/-- The loop of `JoblibExpLauncher._launch` over experiments and results, `launcher.py` lines 130-136. -/
def jobLoop (eq : R → Bool) : List E → List (Safe R) → List (Safe R) → List E → List (Safe R) × List E
  | e :: es, r :: rs, succ, fail => if r.isFailed eq then jobLoop eq es rs succ (fail ++ [e]) else jobLoop eq es rs (succ ++ [r]) fail
  | _, _, succ, fail => (succ, fail)

/-- The two launchers. -/
inductive Launcher
  | sequential
  | joblib
deriving DecidableEq, Repr

/-- `_launch`, `launcher.py` lines 93-103 and 126-137. `Parallel` returns the results in the order of the tasks; the copies of the experiments in
the worker processes are taken to behave like the experiments. -/
def Launcher.launchAll (l : Launcher) (runner : E → Except X R) (eq : R → Bool) (es : List E) : Except (LaunchErr X) (List (Safe R)) :=
  match l with
  | .sequential => let p := seqLoop runner eq es [] []; returnFrom p.1 p.2
  | .joblib => let p := jobLoop eq es (es.map (safeExecute runner)) [] []; returnFrom p.1 p.2

/-- `ExpLauncher.launch`, `launcher.py` lines 76-87, and `ExperimentCollection.run`, `experiment.py` lines 479-487. -/
def Launcher.launch (l : Launcher) (runner : E → Except X R) (eq : R → Bool) (es : List E) : Except (LaunchErr X) (List (Safe R)) :=
  match es with
  | [e] => match runner e with
    | .ok r => .ok [.result r]
    | .error x => .error (.raised x)
  | es => l.launchAll runner eq es

end

/-! ### Persistence -/

/-- `PolicyPersistence.Mode`, `persistence.py` lines 61-74. -/
inductive PMode
  | policyStateDict
  | policy
deriving DecidableEq, Repr

/-- The stem of `get_filename`, `persistence.py` lines 64, 68 and 76-77. -/
def PMode.stem : PMode → List Char
  | .policyStateDict => ['p', 'o', 'l', 'i', 'c', 'y', '_', 's', 't', 'a', 't', 'e', '_', 'd', 'i', 'c', 't']
  | .policy => ['p', 'o', 'l', 'i', 'c', 'y']

/-- `get_filename`, `persistence.py` lines 76-77. -/
def PMode.filename (m : PMode) : List Char := m.stem ++ ['.', 'p', 't']

/-- The name of a checkpoint, `persistence.py` lines 138-140. -/
def PMode.checkpoint (m : PMode) (epoch : Nat) : List Char :=
  m.stem ++ (['_', 'e', 'p', 'o', 'c', 'h', '_'] ++ (Nat.repr epoch).toList) ++ ['.', 'p', 't']

section
variable {S V : Type}

/-- What is in a file: a state dictionary, a whole policy with its state, or the data of another persistence handler. -/
inductive File (S V : Type)
  | stateDict (s : S)
  | policy (s : S)
  | other (v : V)

/-- The files in the persistence directory, by name. -/
abbrev Dir (S V : Type) := List Char → Option (File S V)

/-- The parts of a world that are persisted: the state of the policy, and the data of other handlers (statistics of observations, for example), which
are known by the names of their files. -/
structure World (S V : Type) where
  policy : S
  data : List Char → V

/-- Writing a file. -/
def Dir.write (d : Dir S V) (n : List Char) (f : File S V) : Dir S V := fun m => if m = n then some f else d m

/-- `PolicyPersistence` with its `PersistenceGroup`, `persistence.py` lines 45-47 and 79-94, `experiment.py` lines 305-310: both are enabled or
disabled together. `items` are the files of the handlers in the group. -/
structure Persistence where
  enabled : Bool
  mode : PMode
  items : List (List Char)

/-- `PersistenceGroup.persist`, `persistence.py` lines 49-53. -/
def Persistence.persistGroup (p : Persistence) (w : World S V) (d : Dir S V) : Dir S V :=
  if p.enabled then p.items.foldl (fun d n => d.write n (.other (w.data n))) d else d

/-- The file with the policy, `persistence.py` lines 100-106 and 141-147. -/
def PMode.file (m : PMode) (s : S) : File S V :=
  match m with
  | .policyStateDict => .stateDict s
  | .policy => .policy s

/-- `PolicyPersistence.persist`, `persistence.py` lines 96-110, which is the function for saving the best policy, lines 127-131. -/
def Persistence.persist (p : Persistence) (w : World S V) (d : Dir S V) : Dir S V :=
  if p.enabled then p.persistGroup w (d.write p.mode.filename (p.mode.file w.policy)) else d

/-- The function for checkpoints, `persistence.py` lines 133-154; there is none when persistence is disabled. -/
def Persistence.checkpoint (p : Persistence) (epoch : Nat) (w : World S V) (d : Dir S V) : Dir S V :=
  if p.enabled then p.persistGroup w (d.write (p.mode.checkpoint epoch) (p.mode.file w.policy)) else d

/-- `PersistenceGroup.restore`, `persistence.py` lines 55-57. -/
def restoreGroup : List (List Char) → Dir S V → World S V → Except Err (World S V)
  | [], _, w => .ok w
  | n :: ns, d, w =>
    match d n with
    | some (.other v) => restoreGroup ns d { w with data := fun m => if m = n then v else w.data m }
    | some _ => .error .value
    | none => .error .fileNotFound

/-- `PolicyPersistence.restore`, `persistence.py` lines 112-125, with `World.restore_path`, `world.py` lines 29-34; `dir` is the directory to restore
from, if any. Loading the state is taken to succeed: the policy has the structure of the saved one. -/
def Persistence.restore (p : Persistence) (dir : Option (Dir S V)) (w : World S V) : Except Err (World S V) :=
  match dir with
  | none => .error .value
  | some d =>
    match p.mode, d p.mode.filename with
    | _, none => .error .fileNotFound
    | .policyStateDict, some (.stateDict s) => restoreGroup p.items d { w with policy := s }
    | .policy, some (.policy s) => restoreGroup p.items d { w with policy := s }
    | .policyStateDict, some _ => .error .value
    | .policy, some _ => .error .attribute

/-- What the trainer asks to be saved during a run. -/
inductive Save
  | best
  | checkpoint (epoch : Nat)
deriving DecidableEq, Repr

/-- One call of `save_best_fn` or `save_checkpoint_fn`. -/
def Persistence.save (p : Persistence) (d : Dir S V) (x : Save × World S V) : Dir S V :=
  match x.1 with
  | .best => p.persist x.2 d
  | .checkpoint e => p.checkpoint e x.2 d

/-- All calls during a run. -/
def Persistence.saves (p : Persistence) (d : Dir S V) (xs : List (Save × World S V)) : Dir S V := xs.foldl p.save d

end

end Verif.Experiment
