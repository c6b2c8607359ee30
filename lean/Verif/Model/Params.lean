/-!
# Parameters of the high-level interface

Models `tianshou/highlevel/params/policy_params.py` and the constructor calls in `tianshou/highlevel/agent.py`: how the parameter object of an algorithm
becomes the keyword arguments of its policy.

A dictionary is a list of pairs of a key and a value without repeated keys. Values are modelled as far as the code looks at them: `None`, the string
`"default"`, factories, what factories make, and everything else (`other`). What a factory makes is recorded as a value that names the factory and
the optimizer for which it was called; the calls themselves (learning rate schedulers, noise, `alpha`) are modelled elsewhere (`Schedule`, `Factories`).
-/

namespace Verif.Params

/-- The optimizers an agent factory can have: `data.optim`, `data.actor.optim`, `data.critic1.optim`, `data.critic2.optim`
(policy_params.py 32-38). -/
inductive Opt where
  | single | actor | critic1 | critic2
deriving DecidableEq, Repr

/-- Values of parameters, as far as they are told apart (policy_params.py 83-213). `V` holds all other objects; a factory is known by a number. -/
inductive Val (V : Type) where
  | absent
  | default
  | bool (b : Bool)
  | other (v : V)
  | lrFactory (i : Nat)
  | alphaFactory (i : Nat)
  | noiseFactory (i : Nat)
  | envFactory (i : Nat)
  | scheduler (i : Nat) (o : Opt)
  | schedulers (l : List (Nat × Opt))
  | alphaOf (i : Nat)
  | noiseOf (i : Nat)
  | envOf (i : Nat)
deriving DecidableEq, Repr

/-- Python exceptions. -/
inductive Err where
  | key
  | attribute
  | assertion
deriving DecidableEq, Repr

variable {V : Type}

/-- A dictionary of keyword arguments. -/
abbrev Dict (V : Type) := List (String × Val V)

/-- `d[k]`. -/
def Dict.get : Dict V → String → Except Err (Val V)
  | [], _ => .error .key
  | (a, v) :: d, k => if a = k then .ok v else Dict.get d k

/-- `del d[k]`. -/
def Dict.del : Dict V → String → Except Err (Dict V)
  | [], _ => .error .key
  | (a, v) :: d, k => if a = k then .ok d else (Dict.del d k).map ((a, v) :: ·)

/-- `d[k] = v`: replaces the value in place or adds the key at the end. -/
def Dict.set : Dict V → String → Val V → Dict V
  | [], k, v => [(k, v)]
  | (a, w) :: d, k, v => if a = k then (a, v) :: d else (a, w) :: Dict.set d k v

/-- The keys of a dictionary. -/
def Dict.keys (d : Dict V) : List String := d.map Prod.fst

/-- `ParamTransformerData`, policy_params.py 24-38, as far as the transformers look at it: which of the optimizers are set, and whether the type of the
environments is continuous (`data.envs.get_type().is_continuous()`). -/
structure Data where
  optims : List Opt
  continuous : Bool

/-- The transformers, policy_params.py 62-213. -/
inductive Trans where
  /-- `ParamTransformerDrop`, 62-68 -/
  | drop (keys : List String)
  /-- `ParamTransformerLRScheduler`, 83-99 -/
  | lr (factory scheduler : String)
  /-- `ParamTransformerMultiLRScheduler`, 102-132, as called by 135-155 and 158-181: the optimizers come from the data, which must have them -/
  | multiLr (l : List (Opt × String)) (scheduler : String)
  /-- `ParamTransformerAutoAlpha`, 184-191 -/
  | alpha (key : String)
  /-- `ParamTransformerNoiseFactory`, 194-198 -/
  | noise (key : String)
  /-- `ParamTransformerFloatEnvParamFactory`, 201-205 -/
  | envParam (key : String)
  /-- `ParamTransformerActionScaling`, 208-213 -/
  | scaling (key : String)
deriving Repr

/-- `for k in self.keys: del kwargs[k]`, policy_params.py 67-68. -/
def dropAll : List String → Dict V → Except Err (Dict V)
  | [], d => .ok d
  | k :: ks, d => (d.del k).bind (dropAll ks)

/-- `factory.create_scheduler(optim) if factory is not None`, policy_params.py 96-99 and 122-123: the schedulers made by the value of a key that should
hold a factory. Anything else has no method `create_scheduler`. -/
def schedulersOf (o : Opt) : Val V → Except Err (List (Nat × Opt))
  | .absent => .ok []
  | .lrFactory i => .ok [(i, o)]
  | _ => .error .attribute

/-- The loop at policy_params.py 115-123: takes the factories out of the dictionary and collects the schedulers they make. -/
def multiLoop : List (Opt × String) → Dict V → Except Err (List (Nat × Opt) × Dict V)
  | [], d => .ok ([], d)
  | (o, k) :: l, d =>
    (d.get k).bind fun v => (d.del k).bind fun d' => (schedulersOf o v).bind fun s => (multiLoop l d').map fun r => (s ++ r.1, r.2)

/-- policy_params.py 124-132: none, the scheduler, or a `MultipleLRSchedulers`. -/
def combine : List (Nat × Opt) → Val V
  | [] => .absent
  | [(i, o)] => .scheduler i o
  | l => .schedulers l

/-- `change_value` of `ParamTransformerAutoAlpha`, policy_params.py 188-191. -/
def changeAlpha : Val V → Val V
  | .alphaFactory i => .alphaOf i
  | v => v

/-- `change_value` of `ParamTransformerNoiseFactory`, policy_params.py 194-198. -/
def changeNoise : Val V → Val V
  | .noiseFactory i => .noiseOf i
  | v => v

/-- `change_value` of `ParamTransformerFloatEnvParamFactory`, policy_params.py 201-205. -/
def changeEnv : Val V → Val V
  | .envFactory i => .envOf i
  | v => v

/-- `change_value` of `ParamTransformerActionScaling`, policy_params.py 208-213. -/
def changeScaling (continuous : Bool) : Val V → Val V
  | .default => .bool continuous
  | v => v

/-- `transform` of the transformers, policy_params.py 62-213. -/
def Trans.apply (data : Data) : Trans → Dict V → Except Err (Dict V)
  | .drop ks, d => dropAll ks d
  | .lr f s, d =>
    if data.optims.contains .single then
      (d.get f).bind fun v => (d.del f).bind fun d' => (schedulersOf .single v).map fun l => d'.set s (combine l)
    else .error .assertion
  | .multiLr l s, d =>
    if l.all fun x => data.optims.contains x.1 then (multiLoop l d).map fun r => r.2.set s (combine r.1)
    else .error .assertion
  | .alpha k, d => (d.get k).map fun v => d.set k (changeAlpha v)
  | .noise k, d => (d.get k).map fun v => d.set k (changeNoise v)
  | .envParam k, d => (d.get k).map fun v => d.set k (changeEnv v)
  | .scaling k, d => (d.get k).map fun v => d.set k (changeScaling data.continuous v)

/-- The loop of `Params.create_kwargs`, policy_params.py 223-227. -/
def applyAll (data : Data) : List Trans → Dict V → Except Err (Dict V)
  | [], d => .ok d
  | t :: ts, d => (t.apply data d).bind (applyAll data ts)

/-- The algorithms with parameters (policy_params.py 297-636; agent.py 259-627). -/
inductive Algo where
  | pg | a2c | ppo | npg | trpo | sac | discreteSac | dqn | iqn | ddpg | redq | td3
deriving DecidableEq, Repr

/-- Fields of `ParamsMixinLearningRateWithScheduler` (234-238), `ParamsMixinActionScaling` (270-276) and `PGParams` (297-311), policy_params.py. -/
def pgFields : List String :=
  ["lr", "lr_scheduler_factory", "action_scaling", "action_bound_method", "discount_factor", "reward_normalization", "deterministic_eval"]

/-- Fields of `ParamsMixinGeneralAdvantageEstimation`, policy_params.py 324-332. -/
def gaeFields : List String := ["gae_lambda", "max_batchsize"]

/-- Fields of `ParamsMixinActorAndDualCritics`, policy_params.py 430-442, with those of `_SACParams`, 457-475. -/
def sacFields : List String :=
  ["actor_lr", "critic1_lr", "critic2_lr", "actor_lr_scheduler_factory", "critic1_lr_scheduler_factory", "critic2_lr_scheduler_factory",
   "tau", "gamma", "alpha", "estimation_step"]

/-- Fields of `DQNParams`, policy_params.py 504-519, with those of its mixin (234-238). -/
def dqnFields : List String :=
  ["lr", "lr_scheduler_factory", "discount_factor", "estimation_step", "target_update_freq", "reward_normalization", "is_double", "clip_loss_grad"]

/-- Fields of `DDPGParams`, policy_params.py 549-564, with those of its mixins (248-256, 270-290). -/
def ddpgFields : List String :=
  ["actor_lr", "critic_lr", "actor_lr_scheduler_factory", "critic_lr_scheduler_factory", "exploration_noise", "action_scaling", "action_bound_method",
   "tau", "gamma", "estimation_step"]

/-- The fields of the parameter classes, policy_params.py 297-636 (`asdict(self)`, line 224). -/
def Algo.fields : Algo → List String
  | .pg => pgFields
  | .a2c => pgFields ++ gaeFields ++ ["vf_coef", "ent_coef", "max_grad_norm"]
  | .ppo => pgFields ++ gaeFields ++ ["vf_coef", "ent_coef", "max_grad_norm"] ++
      ["eps_clip", "dual_clip", "value_clip", "advantage_normalization", "recompute_advantage"]
  | .npg => pgFields ++ gaeFields ++ ["optim_critic_iters", "actor_step_size", "advantage_normalization"]
  | .trpo => pgFields ++ gaeFields ++ ["optim_critic_iters", "actor_step_size", "advantage_normalization"] ++ ["max_kl", "backtrack_coeff", "max_backtracks"]
  | .sac => sacFields ++ ["exploration_noise", "action_scaling", "action_bound_method", "deterministic_eval"]
  | .discreteSac => sacFields
  | .dqn => dqnFields
  | .iqn => dqnFields ++ ["sample_size", "online_sample_size", "target_sample_size", "num_quantiles", "hidden_sizes", "num_cosines"]
  | .ddpg => ddpgFields
  | .redq => ddpgFields ++ ["ensemble_size", "subset_size", "alpha", "actor_delay", "deterministic_eval", "target_mode"]
  | .td3 =>
    ["actor_lr", "critic1_lr", "critic2_lr", "actor_lr_scheduler_factory", "critic1_lr_scheduler_factory", "critic2_lr_scheduler_factory",
     "exploration_noise", "action_scaling", "action_bound_method", "tau", "gamma", "policy_noise", "noise_clip", "update_actor_freq", "estimation_step"]

/-- `ParamsMixinLearningRateWithScheduler._get_param_transformers`, policy_params.py 240-244. -/
def lrTrans : List Trans := [.drop ["lr"], .lr "lr_scheduler_factory" "lr_scheduler"]

/-- `ParamsMixinActorAndCritic._get_param_transformers`, policy_params.py 258-266. -/
def actorCriticTrans : List Trans :=
  [.drop ["actor_lr", "critic_lr"],
   .multiLr [(.actor, "actor_lr_scheduler_factory"), (.critic1, "critic_lr_scheduler_factory")] "lr_scheduler"]

/-- `ParamsMixinActorAndDualCritics._get_param_transformers`, policy_params.py 444-453. -/
def dualTrans : List Trans :=
  [.drop ["actor_lr", "critic1_lr", "critic2_lr"],
   .multiLr [(.actor, "actor_lr_scheduler_factory"), (.critic1, "critic1_lr_scheduler_factory"), (.critic2, "critic2_lr_scheduler_factory")] "lr_scheduler"]

/-- `_get_param_transformers` of the parameter classes, policy_params.py 316-320 (PG), 347-350 (A2C; PPO inherits it), 409-412 (NPG; TRPO inherits it),
477-481 (discrete SAC), 491-495 (SAC), 521-524 (DQN), 542-545 (IQN), 566-571 (DDPG), 599-602 (REDQ), 629-636 (TD3). -/
def Algo.transformers : Algo → List Trans
  | .pg | .a2c | .ppo | .npg | .trpo => .scaling "action_scaling" :: lrTrans
  | .sac => dualTrans ++ [.alpha "alpha", .noise "exploration_noise", .scaling "action_scaling"]
  | .discreteSac => dualTrans ++ [.alpha "alpha"]
  | .dqn => lrTrans
  | .iqn => lrTrans ++ [.drop ["hidden_sizes", "num_cosines"]]
  | .ddpg => actorCriticTrans ++ [.noise "exploration_noise", .scaling "action_scaling"]
  | .redq => actorCriticTrans ++ [.noise "exploration_noise", .scaling "action_scaling", .alpha "alpha"]
  | .td3 => dualTrans ++ [.noise "exploration_noise", .scaling "action_scaling", .envParam "policy_noise", .envParam "noise_clip"]

/-- The optimizers the agent factories put into the data: agent.py 272-296 (PG), 336-355 (the on-policy actor critics, with one optimizer for both),
399-419 (DQN, IQN), 447-478 (DDPG), 496-530 (REDQ), 566-612 (SAC, discrete SAC, TD3). -/
def Algo.optims : Algo → List Opt
  | .pg | .a2c | .ppo | .npg | .trpo | .dqn | .iqn => [.single]
  | .ddpg | .redq => [.actor, .critic1]
  | .sac | .discreteSac | .td3 => [.actor, .critic1, .critic2]

/-- The arguments the agent factories add to those from the parameters, same lines as above. The on-policy actor critics put `actor`, `critic`, `optim`,
`action_space` and `dist_fn` into the dictionary; no difference is made here between this and passing them in the call. -/
def Algo.added : Algo → List String
  | .pg => ["actor", "optim", "action_space", "observation_space", "dist_fn"]
  | .a2c | .ppo | .npg | .trpo => ["actor", "critic", "optim", "action_space", "dist_fn"]
  | .dqn | .iqn => ["model", "optim", "action_space", "observation_space"]
  | .ddpg | .redq => ["actor", "actor_optim", "critic", "critic_optim", "action_space", "observation_space"]
  | .sac | .discreteSac | .td3 =>
    ["actor", "actor_optim", "critic", "critic_optim", "critic2", "critic2_optim", "action_space", "observation_space"]

/-- The arguments without default value of the constructors of the policies: policy/modelfree/pg.py 85, a2c.py 64, ppo.py 92, npg.py 60, trpo.py 58,
sac.py 95, discrete_sac.py 54, dqn.py 60, iqn.py 58, ddpg.py 60, redq.py 62, td3.py 63. -/
def Algo.required : Algo → List String
  | .pg => ["actor", "optim", "dist_fn", "action_space"]
  | .a2c | .ppo | .npg | .trpo => ["actor", "critic", "optim", "dist_fn", "action_space"]
  | .dqn | .iqn => ["model", "optim", "action_space"]
  | .sac | .discreteSac | .ddpg | .redq | .td3 => ["actor", "actor_optim", "critic", "critic_optim", "action_space"]

/-- The arguments with default value of the same constructors. -/
def Algo.optional : Algo → List String
  | .pg => ["discount_factor", "reward_normalization", "deterministic_eval", "observation_space", "action_scaling", "action_bound_method", "lr_scheduler"]
  | .a2c => ["vf_coef", "ent_coef", "max_grad_norm", "gae_lambda", "max_batchsize", "discount_factor", "reward_normalization", "deterministic_eval",
      "observation_space", "action_scaling", "action_bound_method", "lr_scheduler"]
  | .ppo => ["eps_clip", "dual_clip", "value_clip", "advantage_normalization", "recompute_advantage", "vf_coef", "ent_coef", "max_grad_norm",
      "gae_lambda", "max_batchsize", "discount_factor", "reward_normalization", "deterministic_eval", "observation_space", "action_scaling",
      "action_bound_method", "lr_scheduler"]
  | .npg => ["optim_critic_iters", "actor_step_size", "advantage_normalization", "gae_lambda", "max_batchsize", "discount_factor",
      "reward_normalization", "deterministic_eval", "observation_space", "action_scaling", "action_bound_method", "lr_scheduler"]
  | .trpo => ["max_kl", "backtrack_coeff", "max_backtracks", "optim_critic_iters", "actor_step_size", "advantage_normalization", "gae_lambda",
      "max_batchsize", "discount_factor", "reward_normalization", "deterministic_eval", "observation_space", "action_scaling", "action_bound_method",
      "lr_scheduler"]
  | .sac => ["critic2", "critic2_optim", "tau", "gamma", "alpha", "estimation_step", "exploration_noise", "deterministic_eval", "action_scaling",
      "action_bound_method", "observation_space", "lr_scheduler"]
  | .discreteSac => ["critic2", "critic2_optim", "tau", "gamma", "alpha", "estimation_step", "observation_space", "lr_scheduler"]
  | .dqn => ["discount_factor", "estimation_step", "target_update_freq", "reward_normalization", "is_double", "clip_loss_grad", "observation_space",
      "lr_scheduler"]
  | .iqn => ["discount_factor", "sample_size", "online_sample_size", "target_sample_size", "num_quantiles", "estimation_step", "target_update_freq",
      "reward_normalization", "is_double", "clip_loss_grad", "observation_space", "lr_scheduler"]
  | .ddpg => ["tau", "gamma", "exploration_noise", "estimation_step", "observation_space", "action_scaling", "action_bound_method", "lr_scheduler"]
  | .redq => ["ensemble_size", "subset_size", "tau", "gamma", "alpha", "estimation_step", "actor_delay", "exploration_noise", "deterministic_eval",
      "target_mode", "action_scaling", "action_bound_method", "observation_space", "lr_scheduler"]
  | .td3 => ["critic2", "critic2_optim", "tau", "gamma", "exploration_noise", "policy_noise", "update_actor_freq", "noise_clip", "estimation_step",
      "observation_space", "action_scaling", "action_bound_method", "lr_scheduler"]

/-- `Params.create_kwargs`, policy_params.py 223-227, for the parameter object with value `v k` in field `k`. -/
def Algo.createKwargs (a : Algo) (continuous : Bool) (v : String → Val V) : Except Err (Dict V) :=
  applyAll ⟨a.optims, continuous⟩ a.transformers (a.fields.map fun k => (k, v k))

end Verif.Params
