import Verif.Model.NetOut
import Verif.Model.ActorCritic
import Verif.Model.Policy

/-!
# Factories of the high-level interface

Models `tianshou/highlevel/module/actor.py` and `critic.py` (which networks the default factories make, and how the critic gets hold of the actor),
`highlevel/params/dist_fn.py`, `alpha.py`, `noise.py`, `env_param.py`, `highlevel/agent.py` (arguments of trainers, collectors and buffers) and
`highlevel/logger.py`.

A network made by a factory is described by its kind and the arguments it is made with; initialisation of weights is left out.
-/

namespace Verif.Factories

/-- Python exceptions. -/
inductive Err where
  | value
  | assertion
  | index
deriving DecidableEq, Repr

/-- `EnvType`, highlevel/env.py 28-49 (there are no others). -/
inductive EnvType where
  | continuous | discrete
deriving DecidableEq, Repr

/-! ### Networks -/

/-- `ContinuousActorType`, module/actor.py 33-36. -/
inductive ActorType where
  | gaussian | deterministic | unsupported
deriving DecidableEq, Repr

/-- `ActorFactoryDefault`, module/actor.py 104-119. `A`: activation functions. -/
structure ActorDefault (A : Type) where
  actorType : ActorType
  hidden : List Nat
  activation : A
  unbounded : Bool
  conditionedSigma : Bool
  softmax : Bool
deriving DecidableEq, Repr

/-- The actor networks made by the factories, module/actor.py 156-261. -/
inductive ActorNet (A : Type) where
  /-- `ActorFactoryContinuousDeterministicNet`, 156-183 -/
  | deterministic (hidden : List Nat) (activation : A)
  /-- `ActorFactoryContinuousGaussianNet`, 186-229 -/
  | gaussian (hidden : List Nat) (activation : A) (unbounded conditionedSigma : Bool)
  /-- `ActorFactoryDiscreteNet`, 232-261 -/
  | discrete (hidden : List Nat) (activation : A) (softmax : Bool)
deriving DecidableEq, Repr

/-- `ActorFactoryDefault._create_factory` and `create_module`, module/actor.py 121-153. `relu` is the default of the parameter `activation` of
`ActorFactoryDiscreteNet` (line 237); `DEFAULT_HIDDEN_SIZES` is at line 102. -/
def ActorDefault.create {A : Type} (relu : A) (f : ActorDefault A) : EnvType → Except Err (ActorNet A)
  | .continuous =>
    match f.actorType with
    | .gaussian => .ok (.gaussian f.hidden f.activation f.unbounded f.conditionedSigma)
    | .deterministic => .ok (.deterministic f.hidden f.activation)
    | .unsupported => .error .value
  | .discrete => .ok (.discrete [64, 64] relu f.softmax)

/-- Functions from outputs of the actor to distributions, params/dist_fn.py 22-57. -/
inductive DistFn where
  /-- `Categorical(probs=...)` -/
  | probs
  /-- `Categorical(logits=...)` -/
  | logits
  /-- `Independent(Normal(loc, scale), 1)` -/
  | gaussians
deriving DecidableEq, Repr

/-- `create_dist_fn`, module/actor.py 182-183, 228-229 and 258-261, with params/dist_fn.py 29-34 and 49-51 (`assert_discrete`, `assert_continuous`). -/
def ActorNet.distFn {A : Type} (env : EnvType) : ActorNet A → Except Err (Option DistFn)
  | .deterministic _ _ => .ok none
  | .gaussian _ _ _ _ => if env = .continuous then .ok (some .gaussians) else .error .assertion
  | .discrete _ _ softmax => if env = .discrete then .ok (some (if softmax then .probs else .logits)) else .error .assertion

/-- `ActorFactoryDefault.create_dist_fn`, module/actor.py 154-156. -/
def ActorDefault.distFn {A : Type} (relu : A) (f : ActorDefault A) (env : EnvType) : Except Err (Option DistFn) :=
  match f.create relu env with
  | .ok n => n.distFn env
  | .error e => .error e

/-- The critic networks: hidden sizes, activation, whether they get the action, and the size of the output. -/
structure CriticNet (A : Type) where
  hidden : List Nat
  activation : A
  withAction : Bool
  out : Nat
deriving DecidableEq, Repr

/-- `CriticFactoryDefault.create_module`, module/critic.py 79-106, with `CriticFactoryContinuousNet` and `CriticFactoryDiscreteNet`, 109-166. `actions` is
`int(np.prod(envs.get_action_shape()))`. -/
def criticDefault {A : Type} (hidden : List Nat) (activation : A) (env : EnvType) (actions : Nat) (useAction lastSizeActions : Bool) : CriticNet A :=
  match env with
  | .continuous => ⟨hidden, activation, useAction, 1⟩
  | .discrete => ⟨hidden, activation, useAction, if lastSizeActions then actions else 1⟩

/-! ### Distributions over discrete actions -/

/-- The output of `discrete.Actor` for one observation, utils/net/discrete.py 70-80, where `x` are the outputs of its last layer. -/
noncomputable def actorOut (softmax : Bool) (x : List ℝ) : List ℝ := if softmax then NetOut.softmax x else x

/-- The probabilities of the distribution made from the output of the actor: `Categorical(probs=p)` divides by the sum. -/
noncomputable def DistFn.probabilities : DistFn → List ℝ → List ℝ
  | .probs, y => y.map fun p => p / y.sum
  | .logits, y => NetOut.softmax y
  | .gaussians, y => y

/-- The probabilities of actions in the policies that use `dist_fn` (PG, A2C, PPO, NPG, TRPO; policy/modelfree/pg.py 172-190), with the actor and the
function made by the default factory (experiment.py 741-748; agent.py 293 and 350) in an environment with discrete actions. -/
noncomputable def policyProbs {A : Type} (relu : A) (f : ActorDefault A) (x : List ℝ) : Option (List ℝ) :=
  match f.create relu .discrete, f.distFn relu .discrete with
  | .ok (.discrete _ _ s), .ok (some d) => some (d.probabilities (actorOut s x))
  | _, _ => none

/-- The probabilities of actions in `DiscreteSACPolicy.forward`, policy/modelfree/discrete_sac.py 108-109, which takes the outputs of the actor as
logits, with the actor made by the default factory (experiment.py 1356-1384; agent.py 566-612). -/
noncomputable def discreteSacProbs {A : Type} (relu : A) (f : ActorDefault A) (x : List ℝ) : Option (List ℝ) :=
  match f.create relu .discrete with
  | .ok (.discrete _ _ s) => some (NetOut.softmax (actorOut s x))
  | _ => none

/-- The factory the builders use if none is given, experiment.py 741-748, or after `with_actor_factory_default`, 714-736: `discrete_softmax` keeps its
default (module/actor.py 111). -/
def builderActor {A : Type} (t : ActorType) (hidden : List Nat) (activation : A) (unbounded conditionedSigma : Bool) : ActorDefault A :=
  ⟨t, hidden, activation, unbounded, conditionedSigma, true⟩

/-! ### The actor future -/

/-- The memory: how many actors have been made or copied so far, and the contents of the actor futures (module/actor.py 39-43), which are known by
their positions. Actors are known by their numbers. -/
structure Heap where
  actors : Nat
  futures : List (Option Nat)
deriving DecidableEq, Repr

/-- An experiment with an actor and a critic: the future of `ActorFactoryTransientStorageDecorator` (module/actor.py 264-289), and that of
`CriticFactoryReuseActor` (module/critic.py 169-212) if the critic reuses the actor. -/
structure Exp where
  actorFuture : Nat
  criticFuture : Option Nat
deriving DecidableEq, Repr

/-- `_BuilderMixinActorFactory` and `_BuilderMixinCriticsFactory`, experiment.py 696-700 and 826-858: after `with_critic_factory_use_actor` the critic
factory has the future of the builder. -/
structure Builder where
  future : Nat
  reuse : Option Nat
deriving DecidableEq, Repr

/-- The constructor of a builder: a new, empty future (experiment.py 699). -/
def newBuilder (h : Heap) : Builder × Heap := (⟨h.futures.length, none⟩, { h with futures := h.futures ++ [none] })

/-- `with_critic_factory_use_actor`, experiment.py 847-851 and 893-895. -/
def Builder.useActor (b : Builder) : Builder := { b with reuse := some b.future }

/-- A deep copy of what a future holds: the actor is copied too. -/
def copyContents (h : Heap) (r : Nat) : Option Nat × Nat :=
  match h.futures.getD r none with
  | some _ => (some h.actors, h.actors + 1)
  | none => (none, h.actors)

/-- `ExperimentBuilder.copy`, experiment.py 525-526: a deep copy. Objects referred to twice are copied once, so the two futures stay one object if
they are. -/
def Builder.copy (h : Heap) (b : Builder) : Builder × Heap :=
  let (c, n) := copyContents h b.future
  let h1 : Heap := ⟨n, h.futures ++ [c]⟩
  match b.reuse with
  | none => (⟨h.futures.length, none⟩, h1)
  | some r =>
    if r = b.future then (⟨h.futures.length, some h.futures.length⟩, h1)
    else
      let (c', n') := copyContents h1 r
      (⟨h.futures.length, some h1.futures.length⟩, ⟨n', h1.futures ++ [c']⟩)

/-- `build`, experiment.py 645-662 with 741-748 and 847-850. -/
def Builder.build (b : Builder) : Exp := ⟨b.future, b.reuse⟩

/-- Pickling and unpickling (`Experiment.save`, `from_directory`, experiment.py 208-222 and 249-255; also the transfer to the processes of
`JoblibExpLauncher`): `__getstate__` of the decorator leaves the future out and `__setstate__` makes a new, empty one (module/actor.py 271-278); the
critic factory is pickled with its future. -/
def Exp.pickle (h : Heap) (e : Exp) : Exp × Heap :=
  let h1 : Heap := { h with futures := h.futures ++ [none] }
  match e.criticFuture with
  | none => (⟨h.futures.length, none⟩, h1)
  | some r =>
    let (c, n) := copyContents h r
    (⟨h.futures.length, some h1.futures.length⟩, ⟨n, h1.futures ++ [c]⟩)

/-- The critic made: a network of its own, or on top of that of an actor. -/
inductive Critic where
  | own
  | onActor (actor : Nat)
deriving DecidableEq, Repr

/-- Making actor and critic, agent.py 329-330 and 567-590, with module/actor.py 283-286 and module/critic.py 184-212: the actor and the critic. If the
future is empty a `ValueError` is raised (lines 191-195). -/
def Exp.create (h : Heap) (e : Exp) : Except Err (Nat × Critic) × Heap :=
  let a := h.actors
  let h' : Heap := ⟨a + 1, h.futures.set e.actorFuture (some a)⟩
  match e.criticFuture with
  | none => (.ok (a, .own), h')
  | some r =>
    match h'.futures.getD r none with
    | none => (.error .value, h')
    | some b => (.ok (a, .onActor b), h')

/-! ### Trainers and collectors -/

/-- The fields of `SamplingConfig` used in agent.py 94-251 (highlevel/config.py 88-166). -/
structure Sampling where
  numEpochs : Int
  stepPerEpoch : Int
  batchSize : Option Int
  testEpisodes : Int
  stepPerCollect : Option Int
  episodePerCollect : Option Int
  repeatPerCollect : Option Int
  updatePerStep : ℚ
  bufferSize : Int
  stackNum : Int
  saveOnlyLastObs : Bool
  ignoreObsNext : Bool
deriving DecidableEq, Repr

/-- Arguments of the constructors of the trainers that depend on the configuration (trainer/base.py 150-178); `none` also stands for arguments that are
not given. `F`: callbacks. -/
structure TrainerArgs (F : Type) where
  maxEpoch : Int
  stepPerEpoch : Int
  repeatPerCollect : Option Int
  episodePerTest : Int
  batchSize : Option Int
  stepPerCollect : Option Int
  episodePerCollect : Option Int
  updatePerStep : Option ℚ
  saveBest : Option F
  saveCheckpoint : Option F
  trainFn : Option F
  testFn : Option F
  stopFn : Option F
  testInTrain : Bool

/-- The callbacks: those of the user, and those for saving made by the persistence (agent.py 173-190; persistence.py). -/
structure Callbacks (F : Type) where
  saveBest : F
  saveCheckpoint : F
  train : Option F
  test : Option F
  stop : Option F

/-- `OnPolicyAgentFactory.create_trainer`, agent.py 166-207. -/
def onPolicyTrainer {F : Type} (s : Sampling) (c : Callbacks F) : TrainerArgs F :=
  { maxEpoch := s.numEpochs, stepPerEpoch := s.stepPerEpoch, repeatPerCollect := s.repeatPerCollect, episodePerTest := s.testEpisodes,
    batchSize := s.batchSize, stepPerCollect := s.stepPerCollect, episodePerCollect := none, updatePerStep := none,
    saveBest := some c.saveBest, saveCheckpoint := some c.saveCheckpoint, trainFn := c.train, testFn := c.test, stopFn := c.stop, testInTrain := false }

/-- `OffPolicyAgentFactory.create_trainer`, agent.py 211-251. -/
def offPolicyTrainer {F : Type} (s : Sampling) (c : Callbacks F) : TrainerArgs F :=
  { maxEpoch := s.numEpochs, stepPerEpoch := s.stepPerEpoch, repeatPerCollect := none, episodePerTest := s.testEpisodes,
    batchSize := s.batchSize, stepPerCollect := s.stepPerCollect, episodePerCollect := none, updatePerStep := some s.updatePerStep,
    saveBest := some c.saveBest, saveCheckpoint := none, trainFn := c.train, testFn := c.test, stopFn := c.stop, testInTrain := false }

/-- The buffer of the training collector: its size and number of parts, and the options. -/
structure BufferArgs where
  size : Int
  /-- `none`: `ReplayBuffer`; `some n`: `VectorReplayBuffer` with `n` parts -/
  parts : Option Nat
  stackNum : Int
  saveOnlyLastObs : Bool
  ignoreObsNext : Bool
deriving DecidableEq, Repr

/-- `create_train_test_collector`, agent.py 94-134: the buffer for `n` training environments. -/
def trainBuffer (s : Sampling) (n : Nat) : BufferArgs :=
  ⟨s.bufferSize, if n > 1 then some n else none, s.stackNum, s.saveOnlyLastObs, s.ignoreObsNext⟩

/-! ### Loggers -/

/-- The values of `logger_type` that are documented, highlevel/logger.py 39. -/
inductive LoggerType where
  | tensorboard | wandb | pandas
deriving DecidableEq, Repr

/-- `LoggerFactoryDefault`, highlevel/logger.py 36-56: the type, whether a project is given, and `save_interval`. -/
structure LoggerFactory where
  type : LoggerType
  project : Option String
  saveInterval : Int
deriving DecidableEq, Repr

/-- The constructor, highlevel/logger.py 47-56. -/
def LoggerFactory.new (type : LoggerType) (project : Option String) (saveInterval : Int) : Except Err LoggerFactory :=
  if type = .wandb ∧ project = none then .error .value else .ok ⟨type, project, saveInterval⟩

/-- Loggers: `WandbLogger` with its interval and `TensorboardLogger`, whose interval has the default 1 (utils/logger/tensorboard.py 21-32). -/
inductive Logger where
  | wandb (saveInterval : Int)
  | tensorboard (saveInterval : Int)
deriving DecidableEq, Repr

/-- The interval between saves. -/
def Logger.saveInterval : Logger → Int
  | .wandb n | .tensorboard n => n

/-- `create_logger`, highlevel/logger.py 58-86. -/
def LoggerFactory.create (f : LoggerFactory) : Except Err Logger :=
  match f.type with
  | .wandb => .ok (.wandb f.saveInterval)
  | .tensorboard => .ok (.tensorboard 1)
  | .pandas => .error .value

/-! ### Entropy coefficient and noise -/

/-- Shapes of actions, highlevel/env.py 257 (`action_space.shape`) and 310 (`action_space.n`). -/
inductive ActionShape where
  | box (shape : List Nat)
  | discrete (n : Nat)
deriving DecidableEq, Repr

/-- `np.prod(envs.get_action_shape())`. -/
def ActionShape.prod : ActionShape → Nat
  | .box s => s.prod
  | .discrete n => n

/-- `AutoAlphaFactoryDefault.create_auto_alpha`, params/alpha.py 27-36: the target entropy and `log_alpha`; the optimizer is part of the steps. -/
def autoAlpha {K : Type} [Ring K] (s : ActionShape) : ActorCritic.Alpha K := .auto (-(s.prod : K)) 0

section noise

variable {K : Type} [Field K]

/-- `max_action`, highlevel/env.py 258, for a box of one axis with the upper bounds `high`. -/
def maxAction (high : List K) : Except Err K :=
  match high with
  | [] => .error .index
  | h :: _ => .ok h

/-- The standard deviation of `NoiseFactoryMaxActionScaledGaussian`, params/noise.py 26-29, and the value of `FloatEnvValueFactoryMaxActionScaled`,
params/env_param.py 27-29. -/
def scaled (env : EnvType) (fraction : K) (high : List K) : Except Err K :=
  if env = .continuous then (maxAction high).map (· * fraction) else .error .assertion

/-- An action of the policy with noise, policy/modelfree/ddpg.py 214-223, as the environment gets it (`map_action`, policy/base.py 367-400) if it is
within bounds: `sigma` times the standard normal numbers `z` is added before the action is scaled to the bounds. -/
def noisyAction (scaling : Bool) (lh : List (K × K)) (sigma : K) (act z : List K) : List K :=
  let act := List.zipWith (fun a z => a + sigma * z) act z
  if scaling then List.zipWith Policy.scale1 lh act else act

end noise

end Verif.Factories
