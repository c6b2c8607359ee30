# Design

Formal model of tianshou (pinned commit in /repo) in Lean 4 with Mathlib.

## Method

* `lean/Verif/Model/*.lean` : the code, function by function, as total computable functions. Each
  definition cites file and lines under `/repo/tianshou` and states its simplifications.
* `lean/Verif/Spec/*.lean` : small independent specifications (histories, sums, episodes). Where a specification
  speaks of "any sequence of calls" it is an inductive relation over the model's public operations; apart from
  that the specifications do not use the model's definitions.
* `lean/Verif/Lemmas/*.lean` : helper lemmas, invariants.
* `lean/Verif/Props/*.lean` : the property theorems, one block per property, with `example`s meeting the
  hypotheses beside each theorem.

Conventions. Python exceptions are values (`Option`/`Except`). Random draws, environments, networks and
completion schedules are function parameters, universally quantified. Real-valued data lives in an
arbitrary commutative ring / linearly ordered field (or `ℝ` where powers, exp, tanh are needed).
Vectorised numpy statements are modelled as maps/folds with numpy's semantics (for duplicate
indices in an assignment the last one wins). Loops are structural recursion or folds.
Where the code does not satisfy the property, the negation is proved on a concrete witness and the part
that does hold is proved in a theorem suffixed `_partial`.

## Trusted base

* Lean's kernel, and the axioms `propext`, `Classical.choice`, `Quot.sound` only (AXIOMS.md
  lists the axioms of every theorem of the manifest).
* The correspondence between the Python source and the Lean model (read by hand, cited line by line).
* numpy/torch primitives used by the code behave as documented (`searchsorted`, fancy indexing, `roll`,
  `where`, `%` on negative integers, ...).
* Not modelled: floating-point rounding and overflow, integer dtype overflow, numba compilation, neural
  networks (arbitrary functions), GPU placement, performance, logging backends, gymnasium itself,
  operating-system processes below the level of pipe messages.

## Where the code is modelled

The header of each module and the comment of each definition cite the lines and state the simplifications.

<!-- coverage -->
| file in `tianshou/` | modules in `lean/Verif/Model/` |
|---|---|
| `data/batch.py` | ApplyValues, Batch, BatchOps, BatchTree, Dist, EpisodeHook, Hdf5, InfoStore, PolicyGradient |
| `data/buffer/base.py` | BatchOps, Buffer, EpisodeHook, FromData, InfoStore, Offline |
| `data/buffer/cached.py` | BufferCopy, Manager |
| `data/buffer/her.py` | Her, HerManager |
| `data/buffer/manager.py` | BatchOps, BufferCopy, HerManager, InfoStore, Manager, Prio, Returns, SampleDist |
| `data/buffer/prio.py` | Prio |
| `data/buffer/vecbuf.py` | HerManager, Manager, Prio |
| `data/collector.py` | AsyncCollector, AsyncPipeline, CachedPipeline, Collector, ComputeAction, Dist, EnvAttr, EpisodeHook, Evaluation, InfoBatch, InfoStore, Net, Pipeline, Returns, Timing, VecCollector |
| `data/stats.py` | Dist, Evaluation, Stats, Timing |
| `data/utils/converter.py` | BatchTree, Hdf5 |
| `data/utils/segtree.py` | SegTree |
| `env/gym_wrappers.py` | EnvWrappers, Wrappers |
| `env/pettingzoo_env.py` | PettingZoo |
| `env/venv_wrappers.py` | Stats, VecCollector |
| `env/venvs.py` | AsyncCollector, EnvAttr, EnvClose, EnvFactory, Experiment, ShMem, VecCollector, VecEnv |
| `env/worker/base.py` | EnvClose |
| `env/worker/dummy.py` | EnvAttr, EnvClose, VecEnv |
| `env/worker/ray.py` | EnvAttr |
| `env/worker/subproc.py` | Collector, EnvAttr, EnvClose, ShMem, VecEnv |
| `evaluation/launcher.py` | Experiment |
| `evaluation/rliable_evaluation_hl.py` | Evaluation |
| `exploration/random.py` | ActorCritic |
| `highlevel/agent.py` | Builder, Factories, Params |
| `highlevel/config.py` | Experiment, Factories |
| `highlevel/env.py` | EnvFactory, Experiment, Factories |
| `highlevel/experiment.py` | Builder, Experiment, Factories |
| `highlevel/logger.py` | Factories |
| `highlevel/module/actor.py` | Factories |
| `highlevel/module/critic.py` | Factories |
| `highlevel/params/alpha.py` | Factories |
| `highlevel/params/dist_fn.py` | Factories |
| `highlevel/params/env_param.py` | Factories |
| `highlevel/params/lr_scheduler.py` | Schedule |
| `highlevel/params/noise.py` | Factories |
| `highlevel/params/policy_params.py` | Params |
| `highlevel/persistence.py` | Experiment, Factories |
| `highlevel/trainer.py` | Builder, Evaluation, Experiment, Schedule |
| `highlevel/world.py` | Experiment |
| `policy/base.py` | ActorCritic, ComputeAction, Factories, LossStats, Modules, MultiAgentTargets, Offline, Policy, PrioUpdate, Returns, SacLoss, Schedule, Timing |
| `policy/imitation/base.py` | Imitation, Learn, Modules |
| `policy/imitation/bcq.py` | Learn, Modules, Offline, PrioUpdate, Vae |
| `policy/imitation/cql.py` | CqlLagrange, Learn, Modules, Offline, PrioUpdate, SacLoss |
| `policy/imitation/discrete_bcq.py` | DiscreteBcq, Imitation, Learn, Modules, PrioUpdate, QTarget |
| `policy/imitation/discrete_cql.py` | DiscreteCql, Imitation, Learn, Modules, PrioUpdate |
| `policy/imitation/discrete_crr.py` | Learn, Modules, Offline, PrioUpdate |
| `policy/imitation/gail.py` | Learn, Modules, Offline |
| `policy/imitation/td3_bc.py` | Learn, Modules, Offline, PrioUpdate, Td3Bc |
| `policy/modelbased/icm.py` | ActorCritic, Imitation, Learn, LossStats, Modules, Offline, Schedule |
| `policy/modelbased/psrl.py` | Psrl |
| `policy/modelfree/a2c.py` | Learn, Modules, MultiAgentTargets, Offline, OnPolicy, Params, PolicyGradient, Ppo, Trainer |
| `policy/modelfree/bdq.py` | ActorCritic, Bdq, Learn, Modules, PrioUpdate, QTarget |
| `policy/modelfree/c51.py` | Learn, Modules, Policy, PrioUpdate, QLearning, QTarget, Rainbow |
| `policy/modelfree/ddpg.py` | ActorCritic, Critics, Factories, Learn, Modules, NetOut, Optim, Params, PrioUpdate, QTarget, SoftQ |
| `policy/modelfree/discrete_sac.py` | ActorCritic, Factories, Learn, Modules, Params, PrioUpdate, QTarget, SoftQ |
| `policy/modelfree/dqn.py` | ActorCritic, DiscreteBcq, Learn, Modules, MultiAgentTargets, NetOut, Params, Policy, PrioUpdate, QLearning, QTarget, Rainbow |
| `policy/modelfree/fqf.py` | Fraction, Learn, Modules, PrioUpdate, QTarget |
| `policy/modelfree/iqn.py` | Learn, Modules, Params, PrioUpdate, QTarget |
| `policy/modelfree/npg.py` | Learn, Modules, Natural, OnPolicy, Params, PolicyGradient, Ppo, TrustRegion |
| `policy/modelfree/pg.py` | Factories, Learn, Modules, OnPolicy, Params, PolicyGradient, Trainer |
| `policy/modelfree/ppo.py` | Learn, Modules, OnPolicy, Params, PolicyGradient, Ppo, Trainer |
| `policy/modelfree/qrdqn.py` | ActorCritic, Learn, Modules, PrioUpdate, QTarget |
| `policy/modelfree/rainbow.py` | Modules, Rainbow |
| `policy/modelfree/redq.py` | ActorCritic, Learn, Modules, Params, PrioUpdate, Redq, SacLoss, Squash |
| `policy/modelfree/sac.py` | ActorCritic, Learn, Modules, Optim, Params, PrioUpdate, SacLoss, SoftQ, Squash |
| `policy/modelfree/td3.py` | ActorCritic, Critics, Learn, Modules, Optim, Params, PrioUpdate |
| `policy/modelfree/trpo.py` | Learn, Modules, Natural, Params, PolicyGradient, TrustRegion |
| `policy/multiagent/mapolicy.py` | ActorCritic, LossStats, Modules, MultiAgent, MultiAgentTargets, Policy, PrioUpdate, Schedule |
| `policy/random.py` | Offline |
| `trainer/base.py` | Evaluation, Factories, LossStats, Timing, Trainer |
| `trainer/utils.py` | Evaluation, Timing, Trainer |
| `utils/logger/base.py` | Logger |
| `utils/logger/tensorboard.py` | Factories, Logger |
| `utils/logger/wandb.py` | Logger |
| `utils/lr_scheduler.py` | Optim |
| `utils/net/common.py` | ComputeAction, Net, NetOut |
| `utils/net/continuous.py` | Net, NetOut |
| `utils/net/discrete.py` | Factories, Fraction, Imitation, Net, NetOut, Rainbow |
| `utils/optim.py` | Optim |
| `utils/space_info.py` | NetOut |
| `utils/statistics.py` | Stats |
| `utils/torch_utils.py` | ActorCritic, Modules, NetOut, Policy, Trainer, UniformAction |

Files without a model: `data/types.py`, `env/utils.py`, `highlevel/module/core.py`, `highlevel/module/intermediate.py`, `highlevel/module/module_opt.py`, `highlevel/module/special.py`, `highlevel/optim.py`, `highlevel/params/policy_wrapper.py`, `utils/conversion.py`, `utils/logging.py`, `utils/print.py`, `utils/progress_bar.py`, `utils/warning.py`.
<!-- /coverage -->

## Plan per property

| id | model | proof |
|----|-------|-------|
| C01-C04 | `SegTree`: array of 2*bound values as `Nat → R`, `_setitem`, `_reduce`, `_get_prefix_sum_idx` as fuel-free recursions on the index | invariant "internal node = sum of children", induction on level; C04 negated by witness |
| C05-C19 | `Buffer`: index state + store + operations as in base.py | refinement to the history list received since last reset; simulation relation preserved by all operations; every read operation is characterised on the abstract history |
| C20-C24 | `Manager`: global store, offsets, per-child states, `lengths`, `last_index` | relation to a family of independent `Buffer`s, preserved by add/reset |
| C25 | `Cached` on top of `Manager` | abstract machine (main history, cached histories) |
| C26-C30, C70, C71 | `Prio`: buffer + segment tree over ℝ | invariant: weights positive exactly on live slots (no reset), bounded by max_prio^alpha; witnesses for C26 (vector), C27, C30, C70, C71 |
| C31, C32, C72-C74 | `Her`: buffer + saved originals | invariant: restore(current) = added data; goals from the episode's future; witnesses for C73, C74 |
| C33-C37 | `Returns` | induction on batch length; closed forms over an arbitrary commutative ring |
| C38-C42, C45 | `Policy`: map_action, mask, target sync, soft update, flags | direct, ordered field/real analysis |
| C43 | `MultiAgent` | list permutation reasoning |
| C44 | `C51` | sum over atoms of triangular kernel |
| C46-C49 | `Batch`: trees of arrays (List rows) | structural induction |
| C50-C53 | `VecEnv`: workers with pending requests, schedule as parameter | invariant over call histories |
| C54-C55 | `Wrappers` | mixed radix induction; linear interpolation |
| C56-C57, C75, C76, C85 | `Stats` | pooled variance algebra; window lemma; induction over calls |
| C86 | `EnvWrappers` | induction on trajectories, both directions |
| C58-C61, C63, C64, C77 | `Collector`: loop as step function with arbitrary env behaviour | loop invariants |
| C62, C78, C79 | `AsyncCollector`: same with pending steps and an arbitrary completion schedule | loop invariants per schedule |
| C65-C69, C80-C84 | `Trainer`: epoch machine with arbitrary collect/test results | induction on epochs; witnesses for C65, C66, C68, C80; general negations for C69, C83, C84 |
| C87, C88 | `TrustRegion`: conjugate gradients, line search and parameter writing over an ordered field, loss/divergence/curvature as arbitrary functions | Krylov invariant (conjugate directions, orthogonal residuals) for termination of CG; induction on candidates; witness over ℝ with the default parameters |
| C89-C91 | `Ppo`: loss of a minibatch, normalisation | ordered-field algebra; a minibatch of one transition refutes C91 |
| C92-C99 | `QTarget`: target and loss functions on top of `Returns` and `Policy`; networks are arbitrary functions of `buffer[i].obs_next` | C36 composed with the argmax lemmas; witnesses on a three-step buffer; softmax over ℝ for C99 |
| C100-C106 | `ActorCritic`: `learn` of TD3, DDPG, REDQ as a transition on abstract network weights with optimizers as parameters; targets, priorities and alpha steps as functions of the numbers involved; `OUNoise` with its shape test; the `is_within_training_step` flags of nested policies | induction over the calls; C36 for the returns; witnesses for the violations |
| C107 | the trainer model of C65 | progress lemma for every function of the model, with the invariant that `test_in_train` implies a test collector |
| C108 | the trainer model of C65 with outsides whose buffers remember the version of the policy | invariant of the outside through every function of the model, also past exceptions |
| C109-C113 | `Psrl`: counts, posterior, value iteration with fuel, the `updated` flag; random numbers as parameters, NaN as `none` | fold invariants; contraction of the Bellman operator; witnesses for the violations |
| C114-C127 | `Offline`: losses, targets, rewards and actions of discrete CRR, CQL, BCQ, GAIL, TD3+BC, ICM and the random policy, with the broadcasts of torch spelled out; network outputs as parameters | sums over lists; C33/C35/C46 for returns and splits; witnesses for the violations |
| C128-C132 | `Logger`: the four intervals, nested dictionaries with slash-joined keys (characters), event files as lists of scalars, checkpoints, the positional arguments of `WandbLogger.load` | induction over calls; mutual induction over dictionaries; witnesses for the violations |
| C133-C141 | `Net`: lists of layers with sizes, sizes in `Net.__init__`, dueling streams over a field, LSTM as an arbitrary step function on rows, actors and critics around an arbitrary network, ensembles over a semiring, arrays as shape and flat data | inductions over layers, sequences, rows; calculation; witnesses or general refutations for the violations |
| C142-C146 | `NetOut`: last lines of actors, perturbation and VAE over the reals around arbitrary networks; quantile networks with views as chunks; noisy layers over a commutative ring; spaces; trees of modules | real analysis (tanh, exp); lists; mutual induction over trees; general refutations for the violations |
| C147-C150 | `Optim`: values and gradients as functions on parameters, arbitrary derivative and optimizer; schedulers as attributes and functions; twin critics around an arbitrary training step | real analysis (norms); induction over lists of schedulers and of training steps; general refutations for the violations |
| C151-C155 | `Schedule` (learning rate, epsilon, stopping callbacks; trees of policies) on top of `Trainer` | counting lemmas about the events of an epoch (`Lemmas/TrainerCount`), ordered field arithmetic, mutual induction over nested policies |
| C156-C159 | `Experiment` (sampling configuration, seeds of environments, `run`, launchers, persistence as a map from file names to contents) | arithmetic on seeds, induction over the list of experiments and over the sequence of saves |
| C160-C164, C166-C168 | `Factories` (networks made by the default factories, actor futures in a memory of references, arguments of trainers, buffers and loggers, target entropy, noise), `NetOut.softmax`, `ActorCritic.Alpha`, `Collector.collect`, `Ppo` | case analysis; real analysis for the double softmax; induction over copies of builders and over updates |
| C165 | `Params` (parameter classes, transformers and constructor signatures of all twelve algorithms, dictionaries as lists) | the result is computed for arbitrary values by rewriting; the statements about keys do not depend on the values and are decided for the twelve algorithms |
| C169-C171 | `Evaluation` (what collectors log, what is read back, the loop over directories, cutting) on `Logger` | the content of the nested dictionaries follows from C131 and from the fact that no dictionary in them is empty; induction over runs |
| C172, C178, C179 | `BatchTree` (nested batches over arbitrary values: arithmetic, state restoring, conversion) | values by path; induction over the nested batch |
| C173-C177, C180 | `BatchOps` on `Batch` (merging into a batch, iterating, missing values, emptying, setting, allocating) | comparison with C47 key by key; values by path; the buffer write through the same abstraction of places as C47/C48, including an assignment that fails half-way |
| C181 | `FromData` on `Buffer` | exact results of `prev`/`next` for every row |
| C182-C185 | `OnPolicy` (evaluation in chunks, returns with normalisation, the repetitions of PPO, log-ratios with broadcasting) on `Returns`, `Stats`, `Batch` | chunks through C46, GAE through C33/C35; pooled statistics by induction over updates; induction over repetitions with parameters, optimizer and permutations arbitrary |
| C186 | `Squash` (tanh of the sample, correction of the log-probability) | change of variables for the tanh in n dimensions, by Mathlib's formula with the determinant of the derivative; bounds on logarithms for the constant |
| C187, C189 | `Imitation` (log-likelihood, regression, CQL penalty, BCQ loss, curiosity module) | against the softmax probabilities and their product; sums of squares |
| C188, C192 | `PrioUpdate` (what each `learn` leaves in `batch.weight`, `post_process_fn`) on `Prio` | values stored by `update_weight` for repeated indices too, through the segment tree; monotonicity of powers for the reversed order; expectation as a finite sum over the sampling intervals of C26 |
| C190, C191 | `Modules` (networks made by the constructors, `train`, `learn` and `update`, `state_dict`, `load_state_dict`; wrappers and managers) | invariants by induction over the calls and the nesting of policies |
| C193, C194 | `Pipeline` (what the collector adds to the vector buffer and takes from what `add` returns) on `Collector`, `Manager` and `Returns` | C61 for the streams of the environments, C20 for the sub-buffers, C12, C13 for the results of `add`, C36 and C33 for the targets; suffixes of streams |
| C195-C197 | `PettingZoo` (`PettingZooEnv` over an arbitrary AEC environment) | case analysis of one step, invariant of the list of rewards over all sequences of calls, concrete environments for the failures |
| C198 | `Timing` (`gather_info`, clocks of collectors and trainers, sequences of events) | sums over the events of a run, induction on the events |
| C199-C201 | `Dist` (categorical, normal and independent distributions given by their parameters; slices, standard deviations, `CollectStats`) | case analysis; induction on the steps of a collection |
| C202 | `InfoBatch` (`_HACKY_create_info_batch`) on `Batch` | C47 for the stacked infos, induction on the batch for clearing the rows of empty infos |
| C203 | `HerManager` (`HERReplayBufferManager`, `HERVectorReplayBuffer`) on `Her` and `Manager` | invariant relating the shared storage to separate hindsight buffers; induction on the calls |
| C204, C205 | any use of the collector (`Collector.Uses`), on `Collector` and `Pipeline` | invariant of the loop with records that start anew at every reset; C36 for the targets; targets depend on a prefix of the stream only |
| C206 | the rounds of `AsyncCollector` and the buffer (`AsyncPipeline`), on `AsyncCollector`, `Manager`, `Returns` | the theorems behind C193 hold for any log of rounds; C62 for the environments; induction on the rounds for the statistics |
| C207 | the rounds of both collectors and a `CachedReplayBuffer` (`CachedPipeline`), on `Manager`, `Collector`, `AsyncCollector`, `Returns` | what each part has received, by induction on the rounds (the environments of a round are distinct); the rest of an episode in the buffer is the rest of the episode in the stream, and targets depend only on it |
| C208 | the same, with the slots `add` returns for a finished episode | the slots are a run of the main part whose length is that of the episode cut to the cache; asynchronous: the numbers `add` returns |
| C209 | the workers of `SubprocVectorEnv`/`ShmemVectorEnv` with their shared arrays: allocation from the space, encoding in the process, decoding in the parent, stacking (`ShMem`) | simulation between workers with and without shared memory, by induction on spaces and calls |
| C210 | the same; a result is a value of its own or a view of the shared arrays | stacked arrays are copies; views show the latest encoded observation |
| C211 | attribute dictionaries, wrappers and multi-agent statistics, `get_loss_stats_dict` (`LossStats`) | characterisation of dictionary updates, mutual induction on statistics and agents |
| C212 | `__getattr__`, `__setattr__` and the constructor of the wrapper | induction on the depth of wrappers |
| C213 | the averages of the trainer for each name, on `MovAvg` of C57 | the averages track the history of each name |
| C214 | the fields that `dataclasses.asdict` sees | reading off the fields |
| C215, C216 | attributes of environments inside wrappers, `get_env_attr` and `set_env_attr` of the three kinds of workers (`EnvAttr`) | induction on the wrappers and on the ids; exact condition under which a name reaches the environment |
| C217 | the generators of the action spaces in environments, workers and collectors (`EnvAttr`) | induction on the actions; the effect of seeding on each copy |
| C218 | `create_envs` with the vector environments, seeds, spaces and shapes (`EnvFactory`) | case analysis |
| C219 | closing the workers, for processes after all commands in the pipe (`EnvClose`) | invariant over arbitrary lists of calls and turns of the processes |
| C220 | the hook at the end of an episode, the arrays added to the vector buffer, the check for NaN (`EpisodeHook`) | invariant over the rounds of the collector, on top of C61, C20 and the stream of each sub-buffer |
| C221 | the search for missing values at the end of a collection (`InfoStore`) | invariant of the arrays over the rounds; the listed slots are those of the transitions held (C23, C06) |
| C222 | arrays for the keys of the information, their types, assignment with conversion (`InfoStore`) | invariant over the rounds of the collector: every array has one type, every slot held has the value of its transition |
| C223 | builders, experiments, and the objects they share (`Builder`) | invariant: every object belongs to one builder; induction over the actions |
| C224 | copied vector buffers whose sub-buffers own their arrays (`BufferCopy`) | bookkeeping is independent of the rows; the newest slot from the history invariant; simulation for `cachedAdd` |
| C225 | `process_fn` of the multi-agent policy around `compute_nstep_return` (`MultiAgentTargets`) | blocks of C36 with one reward column; iteration of the turns along the episode |
| C226 | `process_fn` of the multi-agent policy around `compute_episodic_return` (`MultiAgentTargets`) | blocks of C33 filtered by agent; ends of the filtered episodes |
| C227 | `ReplayBuffer.sample_indices`, `ReplayBufferManager.sample_indices` with the weighted draw of sub-buffers (`SampleDist`) | random numbers on a probability space (`Draws`): probability of the interval of each sub-buffer, expectation of the number of occurrences; `exists_draws` builds such a space |
| C228 | `PrioritizedReplayBuffer.sample_indices` (`Prio`) | the intervals of C26 and their probability |
| C229 | `DQNPolicy.exploration_noise` (`Policy`), `MARLRandomPolicy.forward` (`Offline`) | independent uniform random numbers as a product measure: ties have probability 0 (a proper subspace), exchanging two positions preserves the measure, so each allowed position has the largest number with the same probability |
| C230 | `HERReplayBuffer.rewrite_transitions` (`Her`) | the set of random numbers that lead to each step is an interval up to its ends; its length is 1/e for the steps in between, but 1/(2e) for the first and the last (`C230_goal_partial`, `C230_violated`) |
| C231 | `RainbowPolicy.learn` with `sync_weight` (`Rainbow`) | exact positions in the stream of draws by induction over the updates; independence of blocks that do not overlap. `sync_weight` comes after the draw and copies the noise too: `C231_violated` |
| C232 | `BaseVectorEnv.step` over both kinds of workers (`VecEnv`) | position in the waiting list: the loop over the dummy workers halves it; subprocesses: invariant of the polling loop, given that `connection.wait` reports all readable connections |
| C233 | `RandomActionPolicy` and `map_action` (`ComputeAction`, `Policy`) | the sampled actions arrive iff all components are in [-1, 1]; length of the part of the interval that is sent as 1 |
| C234 | `compute_action`, `map_action` with shapes, squeezing and broadcasting (`ComputeAction`) | exact characterisation of the shapes for which the result has the shape of the space, by induction on the reversed shapes |
| C235 | losses of the actors over real numbers (`PolicyGradient`), `process_fn` of PG (`OnPolicy`) and the backward loop (`Returns`) | finite environments as probability tables, expectations as nested sums; likelihood-ratio identity by induction on the time limit; two environments in which descent makes the policy worse |
| C236 | `compute_returns` of A2C, `clip_loss` of PPO, actor losses of NPG and TRPO (`PolicyGradient`) | the advantages telescope to the return minus the value of the first state; clipping is inactive near ratio 1 |
| C237 | `process_fn` and `learn` of DQN composed (`QLearning`, from `QTarget`, `Returns`) over real numbers; environments as in C235 | the expected residual vanishes by the law of total expectation; derivative of the loss for any parametrisation; Banach fixed point theorem; two environments in which clipped gradients or two steps lower an optimal value |
| C238 | the same | bias-variance decomposition of the expected loss shows that its minimiser is the Bellman backup; contraction in the maximum norm |
| C239 | `sample_indices` of `Buf`, `PBuf`, `PMgr`; the random numbers are an independent family (`Draws`, `iIndepFun`), such families exist (`exists_indep_draws`) | entry k depends on random number k only: the event is an intersection of independent events |
| C240 | `sample_indices` and the `weight` key of `__getitem__` composed | the expectation as a finite sum over minibatches; with normalisation the transition of the smallest priority always gets its share, others of larger priority strictly more |
| C241 | `computeReturns` (A2C), `a2cLoss`, `a2cVfLoss`; environments and expectations as in C235 | induction on the number of steps: the expected temporal difference is the advantage, the expected rest of the sum is 0 by Bellman's equation |
| C242 | `SoftQ`: `targetQ`, `returns`, `criticLoss`, `actorLoss` of `DiscreteSACPolicy`; environments and batches as in C237 | Gibbs' inequality for the actor; expectation of the critic's gradient; the soft backup is a contraction |
| C243 | `c51LearnLoss` (`c51Targets`, `c51Loss`); environments and batches as in C237 | C44 for the mean of a projection; first-order condition of the cross entropy with `eps` by comparing with mixtures; contraction |
| C244 | `gailDiscLoss`, `gailReward` (Model/Offline); random minibatches as a finite probability space | Gibbs' inequality for two outcomes at each pair; for the return, `log x ≤ x - 1` |
| C245 | `nll`, `mse`, `imitationAct` (Model/Imitation) | Gibbs' inequality; bias and variance |
| C246 | `quantileLoss`, `quantileRow`, `huber` (Model/QTarget); random minibatches as in C244 | upper and lower quadratic bounds of the loss turn the minimum into a balance of clipped differences; intermediate value theorem for existence |
| C247 | `Model.new`, `Model.learn` (Model/Psrl); outcomes of an action as independent random variables | closed forms of C109 and the strong law of large numbers (Mathlib) |
| C248 | `ddpgTargetQ`, `td3TargetQ`, `returns`, `loss` (Model/Critics), `ddpgLearn`, `td3Learn` (Model/ActorCritic), `softUpdate` (Model/Policy) | least squares, contraction by gamma, mixture by tau; values as limits of expected returns |
| C249 | `explorationNoise`, `randAct` (Model/Policy) | conditional form of the Borel-Cantelli lemma (Lévy) with the probabilities behind C229; reachability by induction; first Borel-Cantelli lemma |
| C250 | `Lagrange`, `Adam` (Model/CqlLagrange) | **violated**: on a device other than the cpu the policy reads a copy of the number that the optimiser changes, so that the multiplier stays at 1; beyond alpha_max the gradient of clamp is 0, and it never comes back. Within the bounds on the cpu: sign of the first moment of Adam by induction |
| C251 | `Vae.loss` (Model/Vae) over `Vae.forward` (Model/NetOut) | normal densities and product measures of Mathlib: change of measure from the encoder's law to the standard normal one, Gibbs' inequality; the identity gives the gap of the bound exactly |
| C252 | `WandbRun` (Model/Logger) | simulation of the `TensorboardLogger` call by call; **violated** for runs without a checkpoint: `restore_data` raises |
| C253 | `RMS`, `NormObs` (Model/Stats), with `Real.sqrt` | the statistics are those of the pooled observations (C56), limits of averages; strong law of large numbers |
| C254 | `redqTarget` (Model/ActorCritic), `np.random.choice` without replacement as the first members of a uniformly random permutation | symmetry of permutations; pointwise comparison of draws |
| C255 | `npgMini`, `trpoMini`, `DRow`, `CRow`, `gradOf`, `hvpOf` (Model/Natural), with C87/C88's `npgStep`, `trpoStep` | automatic differentiation is Mathlib's `fderiv`; second derivatives along lines; Gaussian integrals; the second-derivative test at a minimum |
| C256 | `fractionGrad`, `fractionLoss`, `fractionEntropyLoss`, `entropy` (Model/Fraction), `propose` (Model/NetOut), `fqfValue` (Model/QTarget) | closed form of the distance with an antiderivative of the quantile function; fundamental theorem of calculus; chain rule through softmax and cumsum |
| C257 | `dqnLearn`, `discreteBcqLearn`, `pgLearn`, `a2cLearn`, `npgLearn`, `fqfLearn`, `ddpgLearn`, `td3Learn`, `redqLearn`, `sacLearn`, `cqlLearn`, `bcqLearn`, `gailLearn`, `icmLearn` (Model/Learn, over Model/Optim) | a step after clearing and one backward pass sees that gradient only; chains of such steps; two worlds with equal values stay equal |
| C258 | `crrActorLoss`, `crrLoss`, `crrCoef` (Model/Offline) | derivative of the product form of the loss (C114) along straight lines of critic outputs; local constancy of the indicator; witness for mode "exp" |
| C259 | `crrLoss`, `crrCriticLoss`, `crrMinQ`, `crrActorLoss` (Model/Offline) | derivative of the whole loss in every direction (C258 for the actor, log-sum-exp for the conservative term); frequencies and mean targets as a specification of the dataset |
| C260 | `OU.new`, `OU.call`, `OU.run` (Model/ActorCritic) | closed form of C105; sums of independent normal variables (Mathlib: `gaussianReal`, `iIndepFun`, covariance); geometric series |
| C261 | `entries`, `applyInPlace`, `applyCopy` (Model/ApplyValues) on batches in memory with addresses | induction on the content; frame lemma for the memory; fails for nested batches one keeps (`C261_violated`) |
| C262 | `toAtLeast2d`, `fixDists`, `mapV` (Model/ApplyValues), `Dist.atLeast2d` (Model/Dist) | values at paths of keys; fails for distributions in nested batches (`C262_violated`) |
| C263 | `computeReturns` (Model/OnPolicy), `a2cVfLoss` (Model/PolicyGradient) on the environments of C235 | returns computed with two critics compared step by step; the expected loss as a square; C241 for the exact critic; induction on the rounds |
| C264 | `sacActorLoss`, `redqActorLoss`, `normalDist` (Model/SacLoss), `forward` (Model/Squash) | the Radon-Nikodym derivative of two laws on the cube, Gibbs inequality of Mathlib (`klDiv_eq_zero_iff`); C186 for what `forward` returns; improvement by looking at the state with the least gain |
| C265 | `sacTargetQ`, `sacLearn` (Model/SacLoss), `forward` (Model/Squash), `loss` (Model/Critics), `softUpdate` (Model/Policy) | regression in L2: the expected loss is that of the conditional expectation plus the mean square distance; contraction in the essential supremum; Banach for the values. The example has normal actors and linear critics |
| C266 | `ddpgActorLoss` (Model/Critics), `sacActorLoss` (Model/SacLoss) | policy iteration: the actor with the smallest loss takes the best action in every state of the batch (or follows the Boltzmann law), comparison at the state with the least gain; existence by compactness and Banach. Partial for SAC: `log_prob` is taken to be the log-density of the action, which it is not quite (C264) |
| C267 | `ddpgActorLoss` (Model/Critics) | the deterministic policy gradient theorem, without assuming that the values are differentiable: the change of the return is the visits times the direct effect plus a remainder of second order. Partial: for rows distributed like the discounted visits; for rows drawn uniformly from the buffer it is false, `C267_violated` |
| C268 | `createUniform`, `sampleUniform`, `chance` (Model/UniformAction) | the image of the unit cube under scaling is the uniform law on the box; partial for a Box with one dimension and bounds in order and for Discrete with start 0, the rest is violated (`C268_violated_*`) |
| C269 | `HBuf` (Model/Her) against `GoalEnv.Step`, `GoalEnv.Optimal` (Props/HerBias) | from C32; partial for environments without chance whose episodes do not end by reaching the goal, with `obs_next` stored; violated otherwise (`C269_violated_chance`, `C269_violated_end`) |
| C270 | `targetQ`, `returns`, `learnLoss` (Model/DiscreteBcq), `bcqAct`, `bcqLoss` against `World`, `Log` (Props/DiscreteBcq) | closeness of probabilities to frequencies from closeness of losses (Hellinger distance); zero Huber loss iff the equation for frequent actions, induction over steps; partial for penalty weight 0 and environments without chance; violated otherwise (`C270_violated_penalty`, `C270_violated_chance`) |
| C271 | `trpoStep`, `trpoLearn`, `trpoMini` against `Exact`, `expectedReturn` (Props/TrpoReturn) | performance difference by telescoping (`expect_telescope`), change of the state distribution bounded by induction over the steps, distance of policies by the divergence (Hellinger and Cauchy-Schwarz), triangle inequality over the updates |
| C272 | `Bdq.learnLoss`, `bdqReturns`, `bdqLoss` against `Data.Settled`, `Data.Means` (Props/Bdq) | the loss regrouped by state, branch and action is a sum of squares (`Data.settled_iff`); contraction with factor 0.99; differences of values by exchanging one coordinate of the joint action; violations by computation of the values |
| C273 | `Td3Bc.actorLoss` (the function that is differentiated, `lmbda` detached) against `Task.Settled`, `Task.value`, `Task.distance` (Props/Td3Bc) | comparison of the loss with that of other parameters; violations: the settled actions for a linear critic are the solutions of a quadratic equation |
| C274 | `QLearning.learnLoss`, `dqnReturns`, `computeNstepReturn` against `World.Optimal`, `World.Follows`, `Record.Settled` (Props/Nstep) | the target is a sum along the record (`Record.loop`, by induction over the steps); settled tables are means of the targets (`least_squares`); comparison at the pair with the largest difference; existence by contraction |
| C275 | `dqnReturns`, `Critics.returns` with `td3TargetQ` against `Law.mean` (Props/TargetBias) | targets are affine in the values with non-negative factors that depend on the buffer only (`affine`); Jensen for the maximum and the minimum; violations by computation |
| C276 | `Ppo.loss`, `Ppo.surrogate`, `Ppo.normalise` against `Minimal`, `Faithful`, `expectedReturn` (Props/PpoReturn) | the loss as a sum over the states (`Faithful.compare`, `expect_visits`); exchange in one state; policy improvement along episodes (`expect_reach`, telescoping of C271); the set of minimisers by equality in C89 |
| C277 | `DiscreteCql.learnLoss` with `cqlTotal`, `quantileLoss`, `tauHat` against `Data.Settled`, `softmax`, `Data.freq` (Props/DiscreteCql) | the loss as a sum over rows; the change of the loss when one quantile moves, by derivatives of log-sum-exp and of the quantile loss (`balance` of C246); sum of the conditions over the quantiles; compactness for existence |
| C278 | `crrActorLoss`, `crrCoef` against `Data.Settled`, `Data.freq`, `expected` (Props/CrrActor) | the loss as a product (C114); exchange of the policy in one observation by the frequencies, Gibbs' inequality; monotony of the weights in the expected value |
| C279 | `Collector.collect`, `Pipeline.record`, `Mgr.sampleIndices`, `computeNstepReturn`, `QLearning.learnLoss` against `Plays`, `World.Optimal` (Props/EndToEnd) | composition: trajectories (C61), targets of a sampled batch (C193), least squares; induction along the rest of an episode for several steps; contraction for uniqueness |
| C280 | `Icm.row`, `Icm.loss` against group means and frequencies (Props/Curiosity) | orthogonality of deviations from group means; Gibbs' inequality per group |
| C281 | `Ppo.loss`, `Ppo.valueLoss` against `Data.Settled` (Props/ValueClip) | closed form of the clipped loss as a floor; comparison with the exact critic; induction on the updates |
| C282 | `Collector.acollect`, `asyncRecord`, `cachedRecord`, `asyncCachedRecord`, sampling, n-step returns and the loss of DQN, composed (Props/EndToEndMore) | the trajectories and answers of C62, the streams of C206 and C207, and the argument of C279 for batches whose rows are steps of the world |
| C283 | `pgLoss`, `a2cLoss` against `Settled`, `Unbounded` (Props/Repeat) | loss as a sum over observations and actions; Gibbs inequality; moving probability from one action to another |
| C284 | `RedqLoss.targetQ`, `RedqLoss.criticLoss`, `RedqLoss.loss` (Model/Redq) with `computeNstepReturn` against `Data.Soft` (Props/RedqCritics) | weighted least squares for groups of rows; equal members make minimum and mean equal; contraction |
| C285 | training as in C279; `Collector.reset`, `Collector.collect`, `dqnAct`, against `obtained`, `discounted` (Props/Tested) | C279 gives the optimal table; in a collection without random actions all rounds are decided by the policy; telescoping along the stream of an environment |
| C286 | `PMgr.add`, `PMgr.updateWeight`, `PMgr.setBeta`, `PMgr.sampleIndices`, `PMgr.weightAt` interleaved with the rounds of `Collector.collect`, then `dqnTarget`, `computeNstepReturn`, `dqnLoss` with weights (Props/PrioEndToEnd) | the weights of live rows are positive (C29) and only live rows are drawn (C26); a weighted sum of squares with positive weights vanishes iff all residuals do; then as C279 |
| C287 | the collector over an arbitrary vector environment (`VecCollector.collect`, `VecCollector.reset`, `VecCollector.iter`), `VecEnv.observing` for the wrapper, `NormObs.observe` with `RMS.update` and `RMS.norm` (Model/VecCollector, Props/VecCollector) | `C287_same`: over plain environments it is the collector of C01 ff; simulation between the wrapped run and a run without the wrapper whose policy replays the chosen actions; statistics by induction over the calls |
| C288 | `VecCollector.collect` over an arbitrary `VecEnv` (Model/VecCollector, Props/VecCollectorAny) | each run is the run with independent environments which return what the vector environment returned in it (`C288_independent`, scripts constructed backwards); then C58-C61 and C193 apply |
| C289 | training and tests as in C285, undiscounted sums of rewards (Props/TestedReturns) | counterexample (`C289_violated`): training maximises discounted returns, tests report undiscounted ones; with a single positive reward for reaching a goal it holds and tests are also the fastest (`C289_goal_partial`, from C285); in general the loss is bounded by a term that vanishes as the discount tends to 1 (`C289_loss_partial`), so with whole rewards nothing is lost for discounts close to 1 (`C289_whole_partial`) |
| C290 | rounds of training on collected data followed by tests, the models of C279 and C285 (Props/TestedSoon) | fitting gives the optimality backup for all pairs of the batch, a contraction (`trained_near`); nearly greedy behaviour by induction along the episode (`C290_near`, `C290_return`), and the smallest advantage of a best action over finitely many pairs (`C290_finally`) |
| C291 | `Collector.iter`, `surplus`, `run` (Model/Collector, Props/CollectorEven) | counterexample when episodes end in the same step (`C291_violated`); otherwise true in the sense that once an environment is done with, each of the others ends at most the episode it is in (`C291_last_partial`, by the exact number of environments left at each moment); bounds for the shares (`C291_shares_partial`), which need not be equal (`C291_shares_violated`) |
| C292 | `Collector.iter`, `surplus`, `run`, `collect` (Model/Collector, Props/CollectorUnseen) | two runs that differ in the state of one environment are compared round by round (`iter_put`); from the start of the episode in question, each environment still taking part ends an episode (`run_rest`), so the episode is collected if and only if the environment takes part then |
| C293 | `acollect`, `arun`, `aiter` (Model/AsyncCollector, Props/AsyncUnseen) | counterexample with two environments and two episodes, all pending steps returned at once (`C293_violated`) |
| C294 | `Collector.iter`, `surplus`, `run`, `collect` (Model/Collector, Props/CollectorUnbiased) | the rewards of an environment are the returns of its first episodes (`seeded_rewards`, invariant of the loop); whether an episode is taken does not depend on its seed (C292), so its return has the same mean when it is taken (`sum_unseen`); sum over episodes |
| C295 | `acollect`, `arun`, `aiter` (Model/AsyncCollector, Props/AsyncBiased) | counterexample: with two environments and episodes of one step (return 0) or two steps (return 1), the mean return reported is 1/4 instead of 1/2 on average (`C295_violated`, sum over all seeds) |
| C296 | `updateBest`, `testStep`, `reset`, `next` (Model/Trainer, Props/BestOptimistic) | counterexample with two tests of policies that are both worth 1, where the best reward is 3/2 on average (`C296_violated`); in general the expectation of the best score is at least that of each test (`C296_optimistic_partial`, from C66), and equal to it exactly if no other test can score higher (`C296_equal_partial`); it exceeds the worth of the best policy by at most the sum of the mean absolute errors of the tests (`C296_bound_partial`) |

## How to read seeded/LOG.jsonl

Each line is one wrong program, tried in a scratch copy. Every proof that no longer compiled was replaced by `sorry`, until everything built; `theorems_failed` are the theorems
that then depended on `sorry`.

* So a theorem is listed if its proof, or that of a lemma it uses, no longer compiles. This does not show that its statement is false of the wrong program. For example, with "the best
  reward stays that of the first test", `C296_optimistic_partial` is listed although it only speaks of the score; it uses a lemma that also speaks of the reward. The lists were not
  checked theorem by theorem.
* Usually only the modules with the theorems of the claim in `breaks` were built. Then theorems elsewhere that fail are not listed. Examples are never listed.
* In 188 attempts the axioms of some theorems could not be printed (mostly in the batches on the trainer, on batches and on policies; sometimes as a module did not build even with `sorry`).
  A theorem missing from such a list may have failed as well.
* `breaks` is what was expected when the wrong program was written. In some lines the theorems that failed are those of another,
  mostly neighbouring, property (for example with C112, C115, C121, C129, C131 and C174); these numbers look wrong and were left as logged.
* An empty list means that nothing was found to fail at that time (with the reservations above; for "smoothed losses are no longer synchronised" the proof of `C212_sync` no longer compiles). Some of these edits change nothing that is claimed (then `breaks` says so); some were caught after theorems were strengthened,
  not always with a second line.
* Attempts in which the tool itself failed (an edit that did not apply, memory) were not logged at first. All but two of them (`MultiAgent.agentView`
  and `MultiAgent.agentIds`, for C225) were repeated and then logged.
* Lines marked "(repeated)" are early edits with an empty list, tried again on the last theorems, in the modules of the claim only. Eleven are caught now. Five are not:
  `twinPrio` not halved (C104), `icmProcess` and `icmPostProcess` without the original rewards (C124), `Exp.pickle` (C162) and `Entry.restored` with several subdirectories (C169).
  Either theorems elsewhere catch them or the theorems on these definitions are too weak; this was not settled. Three more attempts had no usable result (`observing`, `nonLoss`, `mvp`).

## Disagreements between code and property (found while reading)

* C04: `_get_prefix_sum_idx` executes `value -= lsons * direct` on the caller's array.
* C13: an episode that fills its (sub-)buffer exactly but does not start at slot 0 makes
  `get_buffer_indices` raise; the start slot of an episode longer than the buffer is stale.
* C19: the check uses `and` instead of `or`.
* C27: weights survive `reset`.
* C26: for a vector buffer the random number 0.0 selects slot 0 even if the first sub-buffer is empty.
* C30: `set_beta` of the vector buffer only reaches the children; weights are computed by the manager.
* C73: with observations not stored (`ignore_obs_next`) rewards are recomputed from the unmodified goal.
* C74: `update` reads the source's rows while they are relabelled (only the target is restored).
* C45: `updating` stays true when `learn` raises.
* C50: repeated ids in one asynchronous step call break the partition.
* C52: `seed` on an asynchronous subprocess vector env with pending steps consumes a step result.
* C57: NaN values that are not the identical `np.nan` object are averaged in.
* C63: `set(new_entries).difference(result)` raises on new keys and misses real overlaps.
* C64: giving both n_step and n_episode is not rejected by the validation.
* C65: the check for `max_epoch` is skipped in the first iteration (`iter_num > 1`), so a training resumed at `max_epoch` runs one more epoch.
* C66: the early stop during training overwrites best_score with a possibly lower score.
* C68: the on-policy counter ignores `repeat` and counts 2 for a single full batch.
* C69: `__iter__` resets anyway.
* C70: the manager is built from `buffer_list[0].options`, which does not contain `weight_norm`.
* C71: `get_weight` divides `priority ** alpha` by the smallest priority *without* the exponent.
* C61: environments left out of `collect(n_episode)` keep half an episode in the buffer; observations handed out by reference.
* C77: `_reset_hidden_state_based_on_type` zeroes a copy for tensors (`last_hidden_state_RH[env_ind_local_D].zero_()` with an index array).
* C78: AsyncCollector indexes the (empty) policy batch and the (missing) hidden state; actions go through `np.empty(env_num)`.
* C79: `reset_env` fetches pending results once only; if some are outstanding, `env.reset` raises AssertionError.
* C80: the test before an early stop calls `test_episode` without `reward_metric`.
* C83: `reset` does not set `_gradient_step` and `env_episode`.
* C84: `run` calls `reset`, and the iteration calls it again through `__iter__`.
* C85: the constructor stores the argument `std` as the variance; `if self.clip_max` skips clipping for 0.
* C87: when every candidate is rejected the line search leaves the last one in the actor and reports step size 0.
* C88: a zero gradient gives 0/0 in the conjugate gradient loop, the parameters become NaN.
* C91: `std()` of a single advantage is NaN; NPG and TRPO divide by the standard deviation without an epsilon.
* C92: QRDQN, IQN, FQF, C51 and discrete BCQ accept `is_double` and never read it.
* C93: without `is_double` DQN takes the maximum over all actions, legal or not.
* C94: with `clip_loss_grad` DQN's Huber loss ignores the weights.
* C95: `_target_dist` evaluates the network at `batch.obs_next` (one step ahead) for every estimation step.
* C96: `process_fn` does not pass `discount_factor` on; `squeeze()` removes the batch axis of a single row; truncated transitions are not bootstrapped.
* C97: the mask is added to the random action numbers.
* C101: the noise is added to the target action after the actor's squashing and not clipped to the action range.
* C103: an integer alpha (e.g. `alpha=0`) is taken for a tuple and raises a TypeError; `REDQPolicy.learn` reads `self._log_alpha`, which is never set (redq.py:221), so a tuned alpha raises an AttributeError at the first actor update.
* C104: TD3, SAC, discrete SAC, REDQ and BDQ average signed errors, so errors of opposite sign cancel and the transition gets priority 0.
* C105: `OUNoise` compares `x.shape` (a tuple) with the given size; with a list the comparison always fails and the state is reset to 0 in every call.
* C106: only the outermost policy's flag is set in a training step, so policies wrapped in MultiAgentPolicyManager or ICMPolicy act deterministically during training when `deterministic_eval=True` (the default of SAC).
* C109: the prior mean keeps the weight `epsilon` (0.01) although the documentation says it is replaced by the mean of the observations.
* C110: `rew_square_sum` starts at 0 while the mean starts at the prior mean, so the variance estimate can be negative and the standard deviation NaN, e.g. with prior mean 0.01 and standard deviation 1 for pairs never observed; the values then never converge.
* C111: with discount factor 1 (accepted by the constructor) value iteration may not end.
* C113: `self.trans_count += trans_count` changes the array given as `trans_count_prior` in place.
* C114: `dist.log_prob(act)` has the shape (B,) and the weights (B, 1), so the product is (B, B) and the loss is the product of the means: the advantages do not select which actions are imitated.
* C116: discrete CRR, CQL and BCQ mask with `done`, so truncated transitions do not bootstrap.
* C117: `uniform_(-self.min_action, self.max_action)` with the defaults -1 and 1 draws 1 always, raises for -2 and 1, and leaves the interval for positive `min_action`; the density 0.5 per dimension fits intervals of length 2 only.
* C118: the results of `value.reshape(...)` are not used, so logsumexp runs over three values per repetition.
* C119: the returns are stored in the order of `sample(0)` and read by slot, so they belong to other transitions in wrapped buffers, and vector buffers may raise an index error.
* C121: the targets of BCQ use unperturbed actions; `actor_perturbation_target` is never used.
* C123: ten transitions and four updates give five updates; a batch smaller than `disc_update_num` raises an assertion error.
* C124: policies that use compute_nstep_return read `buffer.rew`, so ICM has no effect on what they learn from.
* C125: `orig_rew` is the same array that `+=` changes, so restoring has no effect.
* C130: `restore_data` sets the last test step to the epoch although test data are logged by environment step, and does not restore the last info step.
* C132: `WandbLogger.load` passes save_interval and write_flush in the places of info_interval and save_interval, so `write_flush=False` has no effect.
* C134: with `concat=True` and several atoms, `Net` makes its first layer for an action per atom, since `action_dim` already includes `num_atoms`.
* C137: `ActorProb.forward` returns the state it was given instead of the one returned by its network, so a recurrent network never remembers anything.
* C138: for a module without the attribute `output_dim`, `preprocess_net_output_dim` is of no use: `getattr` raises AttributeError.
* C139: with `apply_preprocess_net_to_obs_only`, the last layers are made for the output of the network without the action, so that every call with an action raises an error.
* C141: single observations as dictionaries work only if all shapes are given as tuples and are equal; with other forms of shapes they are taken for a batch.
* C145: `RandomActor.compute_action_batch` and `create_uniform_action_dist` ignore `Discrete.start`; `create_uniform_action_dist` raises an error for boxes with more than one dimension.
* C146: `torch_train_mode` sets all modules inside to the previous mode of the outermost one, so a module frozen in evaluation mode inside a module in training mode does not stay so.
* C147: `optim_step` with `max_grad_norm=0.0` does not clip; gradients of parameters of `module` that the optimizer does not hold pile up and count in the norm.
* C148: `MultipleLRSchedulers.load_state_dict` updates `__dict__` instead of calling the `load_state_dict` of each scheduler, so a `LambdaLR` has no functions afterwards and the next step raises a TypeError; a list of states that is refused has already changed the first schedulers.
* C149: `clone_optimizer` takes the defaults of the construction, not the options in use (learning rates changed by schedulers, groups).
* C150: if `critic2` is left out it is a deep copy of the first critic with a clone of its optimizer, and both get the same targets: the critics stay equal for ever and the minimum has no effect.
* C152: `LRSchedulerFactoryLinear` counts one update per collection; off-policy training makes `update_per_step` updates per environment step, so with the default configuration the learning rate is negative from the first epoch on.
* C153: `ICMPolicy` and `MultiAgentPolicyManager` call `learn` of the inner policies, not `update`, so the schedulers of these never advance.
* C154: `EpochTrainCallbackDQNEpsLinearDecay` with `decay_steps=0` raises a ZeroDivisionError; callbacks documented as called at the beginning of each epoch are called before each collection.
* C156: `build_seeded_collection` changes the seeds in the sampling configuration, but the environment factory keeps its own, so all experiments use the same environment seeds; also the test seed of each experiment is the training seed of the next.
* C157: `Experiment.run` drops the result of the trainer and always returns `trainer_result=None`.
* C159: checkpoints overwrite the additional data saved with the best policy.
* C160: `ActorFactoryDefault` ignores `hidden_sizes` and `hidden_activation` if the actions are discrete (also in `with_model_factory_default` of DQN).
* C161: `DiscreteSACExperimentBuilder` makes an actor with softmax, whose output `DiscreteSACPolicy` takes as logits: no action can be more than e times as likely as another.
* C162: stored experiments with `with_critic_factory_use_actor` cannot be run after loading (also with `JoblibExpLauncher`): the actor factory forgets the future, the critic factory keeps its own.
* C163: `episode_per_collect` is not passed to any trainer; with it the first collection raises an error.
* C164: `LoggerFactoryDefault("pandas")` is documented but raises an error; `save_interval` is ignored for Tensorboard.
* C166: for `n` discrete actions the target entropy is `-n`, which no policy can reach: alpha falls in every update.
* C167: the noise is added to the action before scaling; for a box `[-h, h]` the deviation is `h` times the documented one. Only the first component of the upper bound is used.
* C168: all documented values of `PPOParams.dual_clip` are rejected by `PPOPolicy`.
* C169: the environment steps in the table are those of the run which is read last.
* C170: points at exactly `max_env_step` steps are left out.
* C171: `from_data_dict` removes unknown keys while iterating over the dictionary, which raises an error; so runs of all policies with a distribution over actions (`pred_dist_std_array_stat` is logged), runs with the epsilon callback of DQN and offline runs (no training data) cannot be evaluated.
* C172: `+` of two batches pairs the values in the order of insertion, not by key; division of an integer array raises an error (in-place true division), as does adding a float to one.
* C173: a key that only some of the batches have keeps its old length in `cat_` and fails in `stack_`, although `Batch.cat` and `Batch.stack` pad it.
* C174: a batch with a nested batch of length 0 has the length of its other entries, but its rows cannot be read.
* C175: `dropnull` flattens rows with more than one entry, and gives an empty batch without keys if no row is complete.
* C177: if the assignment of `set_array_at_key` with a new key fails, the key stays with default values.
* C178: keys named `self`, `copy` or `batch_dict` are lost or raise errors when a batch is copied or unpickled.
* C179: `Batch.to_torch(dtype)` does not apply the type to NumPy arrays (only to tensors); arrays of objects and `None` raise errors.
* C181: `from_data` leaves `last_index` at 0: `next(0)` is 0, `prev(1)` is 1, and if the dataset does not end an episode the last row is followed by the first one.
* C183: with `recompute_advantage`, every repetition of a PPO update counts the returns of the batch again in the running statistics (and scales the values with the statistics changed in this way).
* C185: for distributions with one log-probability per component (e.g. `Normal` without `Independent`), the old log-probabilities are flattened: with one column every row is compared with every row of the minibatch, with several columns the subtraction fails or pairs wrong entries.
* C188: CQL, BCQ, discrete BCQ and CRR write the importance weights back as priorities: updates reverse the order of the priorities in the batch. With two critics errors of opposite sign cancel. Managers of several agents never update priorities.
* C190: `policy.eval()` does not reach `fraction_model` of FQF, and the autoencoder of BCQ; target networks of BCQ are never put in evaluation mode; those of CRR follow `train`; after an update of a manager of several agents its policies are in training mode even if it had been in evaluation mode.
* C191: the state dictionary of a `MultiAgentPolicyManager` is empty (the policies are in a plain dictionary) and loading it silently does nothing. Attributes such as `log_alpha` of SAC and `ret_rms` are not part of state dictionaries.
* C192: with `clip_loss_grad` DQN ignores the importance weights.
* C194: the collector takes the length of a finished episode from the transitions it reads back from the buffer, so that an episode longer than its sub-buffer is reported with a wrong length; an episode that fills its sub-buffer and does not begin at its first slot makes `collect` raise `ValueError` (see C13). The returns are right.
* C196: an agent that is absent from the rewards of the wrapped environment (for example an agent that is out of the game) gets its last reward again at every step, as the list of rewards is only overwritten.
* C197: every step returns the same list object, so that rewards returned earlier read as those of the last step.
* C198: the synchronous collector never writes `collect_time`, so that `test_time` and `train_time_collect` are always 0 with it and testing is counted as training; the update time of a trainer that is reset and run again includes the earlier runs; if no time passes by the clock, gathering raises `ZeroDivisionError`.
* C199: for a normal distribution of single numbers with batch shape (n,) the standard deviations of the n environments become the columns of one row, and the next step with another number of environments raises `ValueError`.
* C201: a single vector-valued distribution (`Independent` of a normal distribution of a vector) is returned without a batch dimension, as its base already has a dimension.
* C204: resetting the environments in the middle of an episode while keeping the buffer (`trainer.run()` after filling the buffer, `collect(reset_before_collect=True)`) leaves the last stored transition neither done nor the newest, so that n-step targets and advantages go on into the next episode.
* C205: the buffer keeps the running return and length of the broken off episode, so that the first episode after the reset is reported with the rewards and steps of both.
* **C208** (`data/collector.py`, `data/buffer/cached.py`). `Collector` takes the lengths of episodes from the slots of the main part that `add` reports, so an episode longer than `max_episode_length` is reported with that length, and if a main part is not larger than a cache, an episode that fills it without beginning at its first slot makes the collection raise. The returns are right, and with `AsyncCollector`, which takes the lengths from `add`, the lengths too.
* **C209** (`env/worker/subproc.py`). A `Discrete` part of an observation space is allocated with its shape `()`, but observations that are not arrays or dictionaries are never written: with shared memory all such observations are 0. In a call that names an environment twice both observations can be the later one, as the process may answer the second request before the first answer is read.
* **C210** (`env/worker/subproc.py`, `env/venvs.py`). With shared memory the observations of dictionary spaces are arrays of objects that hold views of the shared arrays: the next call changes them. (Observations that are plain arrays are copied by `np.stack`.)
* **C211** (`policy/base.py`, `policy/multiagent/mapolicy.py`). Nested wrappers with the same names (curiosity twice) report only the outer losses; a wrapper around a `MultiAgentPolicyManager` reports none of the losses of the agents, as `_get_self_dict` knows only the attributes; agents 1 and "1" share their names.
* **C212** (`policy/base.py`). The docstring of `__setattr__` says that an attribute of the wrapper itself is set there, but a name that exists in both is set in the wrapped statistics, and reading it still gives the old value.
* **C213** (`trainer/base.py`). `reset` ("yield a new iterator from zero") does not clear the averages.
* **C214** (`trainer/base.py`). `asdict` sees only dataclass fields; `TrainingStatsWrapper`, `ICMTrainingStats` and `MapTrainingStats` are no dataclasses, so of wrapped policies and of several agents only `train_time` and `smoothed_loss` are logged.
* **C215** (`env/worker/*.py`). Attributes are set in the innermost environment and read from the outermost: an attribute that a wrapper has itself (the limit of `TimeLimit`) still reads as before, and names that begin with an underscore cannot be read through a wrapper.
* **C216** (`env/worker/subproc.py`). For an attribute that does not exist, `DummyVectorEnv` and `RayVectorEnv` raise `AttributeError`, `SubprocVectorEnv` returns `None`.
* **C217** (`env/worker/*.py`, `data/collector.py`). A collector keeps the action spaces it got when it was made; for environments in other processes these are copies, so that seeding afterwards has no effect on random actions; with ray workers seeding never has; `reset(seed=...)` never seeds the action spaces of the environments.
* **C218** (`highlevel/env.py`). With an envpool factory the watch environment is an envpool, although the documentation of `create_venv` says it is always `DUMMY`; environments with dictionary observations raise `AttributeError` (`space.shape or space.n`).
* **C141** (`utils/net/common.py`). An empty batch of dictionaries raises an error: an empty array cannot be reshaped to `(0, -1)`.
* **C220** (`data/collector.py`). An episode longer than its sub-buffer is cut silently: the hook sees only a part of the episode, and a transition of it can carry 0 instead of a value of the hook.
* **C221** (`data/collector.py:1032-1045`). The synchronous collector searches for missing values whatever `raise_on_nan_in_buffer` says, and raises. An environment that returns a text (or another object) with some of its steps only makes every collection raise, because the others are filled with `None`.
* **C222** (`data/batch.py:150-248, 777-801`). The type of an array is that of the first value stored: after an integer 0, a value of 1/2 is stored as 0, silently. Within one round the same happens if one of the environments does not return the key.
* **C223** (`highlevel/experiment.py:592-662`). An experiment shares its callbacks and configurations with its builder. A callback given to the builder later is called by experiments built before; editing the seed between two calls of `build` gives both experiments the second seed.
* **C224** (`data/buffer/manager.py:77-79`, `base.py:233-234`). The arrays of the sub-buffers are views of the arrays of the vector buffer; copying, pickling or loading a buffer that holds data separates them. Afterwards `add` writes to the vector buffer only, and whatever asks the sub-buffers sees the rows of the time of the copy: `unfinished_index` (used by `compute_episodic_return` and `compute_nstep_return`, so targets at open ends go wrong), `sample_indices` with stacked frames and `sample_avail`, and the move of finished episodes in `CachedReplayBuffer.add`, whose main part never receives anything again while its length and the returned slots say it does. `HERReplayBufferManager` is affected likewise (its relabelling writes into the arrays of the sub-buffers; not modelled for copies). `buf.set_batch(buf._meta)` repairs the copy.
* **C225** (`policy/multiagent/mapolicy.py:145-158` with `policy/base.py:629-721`). The n steps are transitions of the buffer, not moves of the agent: with one-step targets (the default `estimation_step=1`) and alternating moves the agent's network is asked for the value of a state in which the opponent is to move (`C225_violated`). With n a multiple of the number of agents it is the agent's turn (`C225_turns_partial`), as in the tic-tac-toe example's `n_step=3`, which with two agents is not.
* **C226** (`policy/multiagent/mapolicy.py:145-158` with `policy/base.py:611-626`). The agent's policy gets only the rows of its own moves, and the end of an episode is read from these rows. If another agent makes the last move, no row of the agent is marked: the advantages run on into the next episode, and from the last episode of one environment into the first of the next (`C226_crosses`, `C226_violated`, `C226_environments_violated`). Rewards received in the moves of others, such as the prize of a lost game, do not enter at all (`C226_lost`).
* **C230** (`data/buffer/her.py:128-129`). `np.round(np.random.uniform(size) * episodes_len)` gives the first and the last step of the remaining episode only half the probability of each step in between (`C230_violated`: 1/4, 1/2, 1/4 for three steps).
* **C231** (`policy/modelfree/rainbow.py:56-59`, `c51.py:120-121`). The noise of both networks is drawn first; then, in every `target_update_freq`-th update, `sync_weight` copies the whole state dictionary, and `eps_p`, `eps_q` are registered buffers. In these updates (the first one included, and all with `target_update_freq=1`) the target distribution is computed with the noise of the online network (`C231_violated`).
* **C233**: a `RandomActionPolicy` keeps the defaults `action_scaling=False`, `action_bound_method="clip"`, so the action sampled from the box is clipped to [-1, 1] before it is sent. In Box(-2, 2) a quarter of the actions each arrive as exactly 1 and -1 and none is larger; in Box(2, 3) all actions are 1, which is not in the space (`C233_violated`, `C233_outside_violated`).
* **C234**: `compute_action` removes all dimensions of size one from the action, not only that of the batch. Without action scaling the result for a Box of shape (1,) has shape () and is not an element of the space; with scaling a Box of shape (2, 1) gives an array of shape (2, 2) (`C234_violated`). For observations that are single numbers (Discrete observation spaces) it raises an IndexError (`C234_scalar_violated`).
* **C235**: `PGPolicy` multiplies the score of step t by the return discounted from t on but not by gamma^t. With gamma = 1/2 there is an environment with two steps in which the expected gradient points away from that of the expected discounted return (`C235_discount_violated`). The loss is the mean over all collected transitions, so short episodes count more: with gamma = 1 and episodes of length 1 or 2 the expected gradient of one episode has the wrong sign (`C235_length_violated`). With gamma = 1 the identity holds for episodes of fixed length, and in general if the loss is weighted by the number of transitions (`C235_fixed_partial`, `C235_partial`).
* **C237**: with `clip_loss_grad=True` the loss is a Huber loss, whose minimum is not at the mean: for a reward of 8 with probability 1/4 and 0 otherwise, the correct value 2 is lowered (`C237_clip_violated`). With `n_step=2` an optimal value is lowered by an episode in the buffer in which a worse action was taken in the second step; there is no correction for the policy that collected the data (`C237_nstep_violated`).
* **C240**: with the default `weight_norm=True` (forced for vector buffers, C70) the weights are divided by the largest weight of the minibatch, which depends on the draws. The correction is then biased for every size of the minibatch and every buffer with two different priorities (`C240_violated`, `C240_vector_violated`): transitions with large priorities keep too much weight. For minibatches of one transition all weights are 1.
* **C246** (`policy/modelfree/qrdqn.py:117-122`, also `iqn.py:144-151`, `fqf.py:166-173`). The loss is the Huber loss with threshold 1, weighted asymmetrically. For targets that differ by less than 1 its minimum is an expectile (for tau = 1/2 the mean), not a quantile (`C246_violated`); it is within 1 of a quantile (`C246_partial`). With rewards of the order of 1 or less, all returns can lie within this distance.
* **C247** (`policy/modelbased/psrl.py:247-250`). With `add_done_loop` a self-loop without reward is added whenever `done` is set, also by a time limit. In a state in which episodes are cut off the estimates then tend to wrong values (`C247_violated`).
* - **C250**: `self.cql_log_alpha = self.cql_log_alpha.to(device)` after the optimiser was given the tensor makes a copy unless `device` is the cpu; the copy is never updated. And `torch.clamp` passes no gradient outside its bounds, so that a multiplier which has grown beyond `alpha_max` does not come down again.
* - **C252**: `WandbLogger.restore_data` asks for the artifact of the run and raises if there is none, so that `resume_from_log=True` cannot be given from the start (with a `TensorboardLogger` it can).
* C258: in mode "exp" the weights of discrete CRR are not detached (discrete_crr.py:136), so that the loss of the actor moves the critic: `C258_rate` gives the rate, and `C258_violated` a critic at its target that is moved away from it.
* C261 (`data/batch.py:1379`): with `inplace=True` nested batches are replaced by new ones instead of being transformed; a reference kept to one, for example `o = batch.obs` before `batch.to_torch_()`, still sees the old values (`C261_violated`).
* C262 (`data/batch.py:1360-1363`): a distribution in a nested batch is not given a batch dimension but put into an array of objects (`C262_violated`).
* C264 holds only if `log_prob` is the log-density of the action. The code adds `eps` to `1 - act ** 2`; with it the `actor_loss` of SAC, CQL and REDQ falls below every bound when `scale` grows (`C264_violated`), so there is no best actor and `-log_prob` is not an entropy. With `ActorProb(unbounded, conditioned_sigma=False)` the parameter `scale` has no upper bound.
* C267: the loss of the actor is averaged over observations drawn from the buffer, where a state occurs as often as it was visited, while the critic discounts. In an episode of two steps with rewards 3a and -4a and discount 1/2 the return grows with the parameter a and the loss as well, so the optimiser makes the return smaller. (A known property of the method; with discount 1, or if the actor can choose its actions in different states independently as in C266, it does not matter.)
* C268: `create_uniform_action_dist` ignores `start` of a Discrete space, is refused by torch for a Box with two or more dimensions or with an entry whose bounds are equal, and gives infinite numbers or NaN for a Box without bounds. `space.sample()` has none of these problems.
* C269: in an environment with chance, relabelling with a goal achieved later selects the outcomes that reached it: with `future_k = 2` the mean reward of the sampled transitions with a goal that is reached with probability 1/2 is 3/4. This is a property of the method that the class implements. Also `terminated` is kept when the goal is replaced: if the environment ends an episode upon success, a relabelled success is not marked as terminal, and its target continues with the value of the next observation.
* C270: the penalty on the logits of discrete BCQ pulls the imitator towards equal probabilities, so with a large `imitation_logits_penalty` actions that do not occur in the data are considered. The values are fitted with the smooth L1 loss, whose minimum is not the mean: with rewards 0, 0, 0, 8 for the same action the value becomes 1/3, not 2.
* **C272 violated**: each branch of BDQ averages over the actions that the other branches took in the dataset. If rewards do not add up over the branches, the best actions of the branches need not be the best joint action (`C272_violated`: 3 instead of 5). In longer episodes this happens even if rewards add up, because the value of a state is understated (`C272_violated_later`). Proved for one branch (`C272_single_partial`) and for one-step episodes with rewards that add up and all combinations equally often (`C272_additive_partial`).
* **C273 violated**: the weight of the critic in TD3+BC is divided by the mean absolute value, which depends on the zero of the rewards. Adding a constant to all values makes the actor repeat the dataset (`C273_violated`), and with negative values near zero the distance from the dataset is not bounded in terms of alpha (`C273_violated_far`). Proved: `C273_trade` without further hypotheses; the bound alpha if the actions of the dataset have a mean value of at least 0 (`C273_alpha_partial`).
* **C274 violated**: with n-step returns the recorded actions of the next n - 1 steps count as if they had to be taken. In `C274_violated` each action was recorded in each state, yet the values settle such that the worse action is preferred (worth 1 instead of 2). Proved: bounds from both sides (`C274_le`, `C274_ge`); the optimal values for n = 1 (`C274_one_partial`) or if the recorded later actions are optimal (`C274_optimal_partial`).
* **C275 violated**: targets are not unbiased, in the direction that the other theorems state: `C275_violated` (too large without double Q-learning) and `C275_violated_double` (too small with it). Unbiased if it is certain which action is the best (`C275_certain_partial`).
* **C276 violated**: the clipping of PPO does not keep the policy near the old one. The loss is flat outside the range and states with more bad than good actions have no minimiser inside it: `C276_minimal_partial` describes the set of all minimisers, with `eps_clip` a lower bound of the change, and in `C276_violated` every minimiser multiplies a probability by at least 1.6 with `eps_clip = 0.2`. A lower loss alone, even with all ratios inside the range, can come with a lower return (`C276_violated_return`); a minimal loss cannot (`C276_return`).
* **C277 violated**: the values of discrete CQL order the actions by their frequencies, not by their targets. The slope of the quantile loss is at most 1/2 per row whatever the targets are, the one of the penalty is `min_q_weight` (10 by default) times the difference between the softmax of the values and the frequencies, so the softmax is within 5 % of the frequencies (`C277_clone`, `C277_order`). In `C277_violated` every settled table prefers an action with the result 0, taken three times, to one with the result 100. With an action that was never taken there is no settled table at all (`C277_unlogged`): its values fall without bound.
* **C278 violated**: in mode "binary" the actor of discrete CRR does not prefer better actions. Because of the shapes (C114) the weights of the rows are averaged before they meet the log-probabilities, and `C278_binary` shows what remains: a policy with the frequencies of the data has settled whatever the values of the actions are. `C278_violated` has an action of value 0 with probability 3/4 and one of value 1 with 1/4; with a weight for each row this policy would not have settled. The policy is not worse than the data in any mode (`C278_improves`); in mode "exp" that is so only because the gradient also goes through the advantages.
* **C281** (`policy/modelfree/ppo.py:202-210`). Value clipping does not keep the values within `eps_clip` of the old values. The clipped loss is the squared error with a floor: once the error is as small as the distance of the return from the interval around the old value, the loss is flat, and critics that move much further than `eps_clip` (even past the return) have the same, least loss.
* **C283** (`policy/modelfree/pg.py:209-225`, `a2c.py:167-190`). Repeating updates with one batch (`repeat` > 1) does not lead to the actions with the higher returns. The returns are weights of an imitation loss: with positive returns an action that was taken often is preferred to a better one that was taken once, and adding a constant to all returns changes the outcome; with a negative sum of returns or advantages for some action the loss has no lower bound (nothing like the clipping of PPO limits the change).
* **C289**: training maximises discounted returns while tests report undiscounted ones, so a test of perfectly trained values can report less than another policy reaches: with discount 1/2, an action with reward 1 that ends the episode is preferred to two steps with rewards 0 and 3/2 (`C289_violated`). `best_reward` and `stop_fn` of the trainer are based on the reported returns.
* **C291**: the docstring of `collect` says that the last `env_num` episodes are collected evenly from each environment. If several environments end an episode in the same step, this is not so for the order in which the episodes are stored and reported: with two environments, episodes of one step and `n_episode=3`, the last two episodes are from the second environment (`C291_violated`).
* **C293**: `AsyncCollector.collect(n_episode=n)` lets all environments go on until `n` episodes have ended, without the rule of the synchronous collector that drops surplus environments. Episodes that end early are preferred, and the statistics of returns and lengths are those of a biased sample (`C293_violated`).
* **C295**: the mean return reported by `AsyncCollector.collect(n_episode=n)` is biased towards short episodes. With two environments, episodes of one step and return 0 or of two steps and return 1 with equal chances, and `n_episode=1`, its expectation is 1/4 and not 1/2 (`C295_violated`). The synchronous collector is unbiased (C294). The trainers refuse an `AsyncCollector` for tests (trainer/base.py:287), so this concerns direct evaluation with it and training statistics.
* **C296**: `best_reward` is the maximum over random test results and overestimates what the saved policy is worth: with two tests of policies worth 1, each giving 0 or 2 with equal chances, it is 3/2 on average (`C296_violated`). It never is too low on average if training is not stopped early (`C296_optimistic_partial`), and is right for a test only if no other one can score higher (`C296_equal_partial`). The excess is at most the sum of the mean absolute errors of the tests (`C296_bound_partial`).
