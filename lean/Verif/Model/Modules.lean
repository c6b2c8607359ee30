import Mathlib.Data.List.Basic
import Mathlib.Data.Option.Basic

/-!
Model of the policies as trees of PyTorch modules: the networks that they make in their constructors, training and evaluation modes, and their
state dictionaries.

Simplifications. A network is given by its parameters (with buffers, a value of any type) and the modes of the modules in it; a network in which no
mode can be read has no modules. Aliases (a second attribute for the same network, `_actor_critic` of PPO) are left out. Optimizers, schedulers and all
other attributes that are not modules are the value `extra`.
-/

namespace Verif.Modules

/-- A network. `noisy`: it has `NoisyLinear` modules. -/
structure Net (P : Type) where
  params : P
  modes : List Bool
  noisy : Bool

variable {P X : Type}

/-- `nn.Module.train(mode)` of a network: all modules in it. -/
def Net.train (n : Net P) (mode : Bool) : Net P := { n with modes := n.modes.map fun _ => mode }

/-- The classes of policies, those with the same networks taken together. The flag: there are target networks (`target_update_freq > 0`). -/
inductive Kind
  /-- dqn.py 83-115; also c51.py, qrdqn.py, iqn.py, bdq.py, discrete_cql.py. -/
  | dqn (target : Bool)
  /-- rainbow.py 50-59. -/
  | rainbow (target : Bool)
  /-- fqf.py 68-103: `train` is that of DQN. -/
  | fqf (target : Bool)
  /-- discrete_bcq.py 67-118. -/
  | discreteBcq
  /-- ddpg.py 61-129; also redq.py. -/
  | ddpg
  /-- td3.py 60-121; also td3_bc.py. -/
  | td3
  /-- sac.py 96-179; also discrete_sac.py and cql.py 83-165. -/
  | sac
  /-- bcq.py 60-123: the target networks are not switched to evaluation mode. -/
  | bcq
  /-- discrete_crr.py 58-101: `train` is that of `nn.Module`. -/
  | crr (target : Bool)
  /-- pg.py 86-126; also imitation/base.py 54-73. -/
  | pg
  /-- a2c.py 64-114; also ppo.py, npg.py, trpo.py. -/
  | a2c
  /-- gail.py 80-146. -/
  | gail
deriving DecidableEq

/-- The networks of a policy itself, in the order of registration. -/
def Kind.own : Kind → List String
  | .dqn _ => ["model"]
  | .rainbow _ => ["model"]
  | .fqf _ => ["model", "fraction_model"]
  | .discreteBcq => ["model", "imitator"]
  | .ddpg => ["actor", "critic"]
  | .td3 => ["actor", "critic", "critic2"]
  | .sac => ["actor", "critic", "critic2"]
  | .bcq => ["actor_perturbation", "critic", "critic2", "vae"]
  | .crr _ => ["actor", "critic"]
  | .pg => ["actor"]
  | .a2c => ["actor", "critic"]
  | .gail => ["actor", "critic", "disc_net"]

/-- The target networks, with the networks that they are copied from. -/
def Kind.targets : Kind → List (String × String)
  | .dqn t => if t then [("model_old", "model")] else []
  | .rainbow t => if t then [("model_old", "model")] else []
  | .fqf t => if t then [("model_old", "model")] else []
  | .discreteBcq => [("model_old", "model")]
  | .ddpg => [("actor_old", "actor"), ("critic_old", "critic")]
  | .td3 => [("actor_old", "actor"), ("critic_old", "critic"), ("critic2_old", "critic2")]
  | .sac => [("actor_old", "actor"), ("critic_old", "critic"), ("critic2_old", "critic2")]
  | .bcq => [("actor_perturbation_target", "actor_perturbation"), ("critic_target", "critic"), ("critic2_target", "critic2")]
  | .crr t => if t then [("actor_old", "actor"), ("critic_old", "critic")] else []
  | .pg => []
  | .a2c => []
  | .gail => []

/-- Whether the constructor switches the target networks to evaluation mode. -/
def Kind.evalTargets : Kind → Bool
  | .bcq => false
  | _ => true

/-- Whether `train` of the class switches the network of the given name. -/
def Kind.switches : Kind → String → Bool
  | .dqn _, n => n = "model"
  | .rainbow _, n => n = "model"
  | .fqf _, n => n = "model"
  | .discreteBcq, n => n = "model" || n = "imitator"
  | .ddpg, n => n = "actor" || n = "critic"
  | .td3, n => n = "actor" || n = "critic" || n = "critic2"
  | .sac, n => n = "actor" || n = "critic" || n = "critic2"
  | .bcq, n => n = "actor_perturbation" || n = "critic" || n = "critic2"
  | .crr _, _ => true
  | .pg, _ => true
  | .a2c, _ => true
  | .gail, _ => true

mutual
/-- A policy: of one of the classes above, a curiosity wrapper around a policy (icm.py), or a manager of several policies (mapolicy.py). -/
inductive Pol (P X : Type)
  | base (kind : Kind) (training : Bool) (nets : List (String × Net P)) (extra : X)
  | icm (training : Bool) (inner : Pol P X) (model : Net P) (extra : X)
  | multi (training : Bool) (agents : Pols P X) (extra : X)

/-- The dictionary of policies of a manager. -/
inductive Pols (P X : Type)
  | nil
  | cons (agent : String) (p : Pol P X) (rest : Pols P X)
end

/-- The networks after the constructor: the given ones and the deep copies. -/
def Kind.build (k : Kind) (given : String → Net P) : List (String × Net P) :=
  (k.own.map fun n => (n, given n)) ++
    k.targets.map fun t => (t.1, if k.evalTargets then (given t.2).train false else given t.2)

/-- A new policy: `nn.Module.__init__` sets `training`. -/
def Pol.new (k : Kind) (given : String → Net P) (extra : X) : Pol P X := .base k true (k.build given) extra

/-- `policy.training`. -/
def Pol.training : Pol P X → Bool
  | .base _ t _ _ => t
  | .icm t _ _ _ => t
  | .multi t _ _ => t

mutual
/-- `policy.train(mode)`; `policy.eval()` is `train(False)`. `ICMPolicy`: icm.py 86-91; `MultiAgentPolicyManager`: mapolicy.py 282-286 (it does not set
its own attribute). -/
def Pol.train : Pol P X → Bool → Pol P X
  | .base k _ nets e, mode => .base k mode (nets.map fun n => (n.1, if k.switches n.1 then n.2.train mode else n.2)) e
  | .icm _ inner model e, mode => .icm mode (inner.train mode) (model.train mode) e
  | .multi t agents e, mode => .multi t (agents.train mode) e

/-- `train` of the policies of several agents, multiagent/mapolicy.py 282-286. -/
def Pols.train : Pols P X → Bool → Pols P X
  | .nil, _ => .nil
  | .cons a p rest, mode => .cons a (p.train mode) (rest.train mode)
end

/-- What `learn` does to one network: new parameters (`step`); `RainbowPolicy.learn`, rainbow.py 51-60, switches a noisy target network to training mode. -/
def Kind.learnNet (k : Kind) (step : P → P) (name : String) (n : Net P) : Net P :=
  if k = .rainbow true ∧ name = "model_old" ∧ n.noisy then { n with params := step n.params, modes := n.modes.map fun _ => true }
  else { n with params := step n.params }

mutual
/-- `policy.learn(...)`, as far as the networks and the other attributes (`stepX`) go. `ICMPolicy.learn` and `MultiAgentPolicyManager.learn` call those of the policies
inside. -/
def Pol.learn (step : P → P) (stepX : X → X) : Pol P X → Pol P X
  | .base k t nets e => .base k t (nets.map fun n => (n.1, k.learnNet step n.1 n.2)) (stepX e)
  | .icm t inner model e => .icm t (inner.learn step stepX) { model with params := step model.params } (stepX e)
  | .multi t agents e => .multi t (agents.learn step stepX) (stepX e)

/-- `learn` of the policies of several agents, multiagent/mapolicy.py 262-280. -/
def Pols.learn (step : P → P) (stepX : X → X) : Pols P X → Pols P X
  | .nil => .nil
  | .cons a p rest => .cons a (p.learn step stepX) (rest.learn step stepX)
end

/-- `policy.update(...)`, policy/base.py 548-549 with `torch_train_mode`, utils/torch_utils.py 14-22, as far as modes and parameters go. -/
def Pol.update (step : P → P) (stepX : X → X) (p : Pol P X) : Pol P X := ((p.train true).learn step stepX).train p.training

/-- What users and trainers do with a policy. -/
inductive Event (P X : Type)
  | train (mode : Bool)
  | update (step : P → P) (stepX : X → X)

/-- One event. -/
def Pol.apply (p : Pol P X) : Event P X → Pol P X
  | .train mode => p.train mode
  | .update step stepX => p.update step stepX

mutual
/-- `policy.state_dict()`: the networks that are registered, with their names in front. `policies` of a manager is a dictionary (mapolicy.py 110), so the policies
in it are not registered. -/
def Pol.stateDict : Pol P X → List (List String × P)
  | .base _ _ nets _ => nets.map fun n => ([n.1], n.2.params)
  | .icm _ inner model _ => (inner.stateDict.map fun e => ("policy" :: e.1, e.2)) ++ [(["model"], model.params)]
  | .multi _ _ _ => []
end

/-- The entry of a state dictionary. -/
def entry (d : List (List String × P)) (path : List String) : Option P := (d.find? fun e => e.1 = path).map Prod.snd

/-- The entries below a name. -/
def below (name : String) (d : List (List String × P)) : List (List String × P) :=
  d.filterMap fun e => match e.1 with
    | n :: path => if n = name ∧ path ≠ [] then some (path, e.2) else none
    | [] => none

/-- The loop of `load_state_dict` over the networks of a policy; `none` is the error for a missing key. -/
def loadNets (d : List (List String × P)) : List (String × Net P) → Option (List (String × Net P))
  | [] => some []
  | n :: ns => (entry d [n.1]).bind fun p => (loadNets d ns).map fun r => (n.1, { n.2 with params := p }) :: r

/-- `policy.load_state_dict(d)`, for the keys that are there; `none`: a key is missing. -/
def Pol.loadKeys : Pol P X → List (List String × P) → Option (Pol P X)
  | .base k t nets e, d => (loadNets d nets).map fun ns => .base k t ns e
  | .icm t inner model e, d =>
    (inner.loadKeys (below "policy" d)).bind fun i => (entry d ["model"]).map fun p => .icm t i { model with params := p } e
  | .multi t agents e, _ => some (.multi t agents e)

/-- `policy.load_state_dict(d)`: unexpected keys are errors too. -/
def Pol.load (p : Pol P X) (d : List (List String × P)) : Option (Pol P X) :=
  if ∀ e ∈ d, e.1 ∈ p.stateDict.map Prod.fst then p.loadKeys d else none

end Verif.Modules
