import Verif.Model.Returns
import Verif.Model.Policy
import Verif.Model.Ppo
import Verif.Model.QTarget
import Mathlib.Algebra.Field.Basic
import Mathlib.Algebra.Order.Ring.Abs

/-! Model of the off-policy actor-critic policies: tianshou/policy/modelfree/ddpg.py, td3.py, sac.py, discrete_sac.py,
redq.py, and of tianshou/exploration/random.py.

Networks are functions, optimizer steps are arbitrary functions of the weights; numbers are elements of an ordered
field. -/

namespace Verif.ActorCritic

open Verif.Policy Verif.Returns

/-! ### Updates -/

/-- Exceptions raised by constructors and `learn`. -/
inductive Err
  | typeError
  | attributeError
  deriving DecidableEq, Repr

/-- Weights of DDPG and TD3 (`critic2` is not used by DDPG) and TD3's counter `_cnt`. -/
structure Nets (W : Type) where
  actor : W
  actorOld : W
  critic : W
  criticOld : W
  critic2 : W
  critic2Old : W
  cnt : Nat

/-- Construction: target networks are copies, ddpg.py:100-107, td3.py:104-114. -/
def Nets.new {W : Type} (actor critic critic2 : W) : Nets W := ⟨actor, actor, critic, critic, critic2, critic2, 0⟩

/-- The optimizer steps of one `learn` call: `critic`, `critic2` from all networks, `actor` from all networks after
the critics' steps. -/
structure Opt (W : Type) where
  critic : Nets W → W
  critic2 : Nets W → W
  actor : Nets W → W

/-- `DDPGPolicy.learn`, ddpg.py:199-208, with `sync_weight`, ddpg.py:131-134; `soft old new` is `soft_update` with the
policy's `tau`. -/
def ddpgLearn {W : Type} (soft : W → W → W) (o : Opt W) (s : Nets W) : Nets W :=
  let s := { s with critic := o.critic s }
  let s := { s with actor := o.actor s }
  { s with actorOld := soft s.actorOld s.actor, criticOld := soft s.criticOld s.critic }

/-- `TD3Policy.sync_weight`, td3.py:123-126. -/
def td3Sync {W : Type} (soft : W → W → W) (s : Nets W) : Nets W :=
  { s with
    criticOld := soft s.criticOld s.critic
    critic2Old := soft s.critic2Old s.critic2
    actorOld := soft s.actorOld s.actor }

/-- `TD3Policy.learn`, td3.py:143-158, for `update_actor_freq > 0` (0 raises a `ZeroDivisionError`). -/
def td3Learn {W : Type} (soft : W → W → W) (freq : Nat) (o : Opt W) (s : Nets W) : Nets W :=
  let s := { s with critic := o.critic s }
  let s := { s with critic2 := o.critic2 s }
  let s := if s.cnt % freq = 0 then td3Sync soft { s with actor := o.actor s } else s
  { s with cnt := s.cnt + 1 }

/-- The states after each of a sequence of `learn` calls, the first one included. -/
def td3Run {W : Type} (soft : W → W → W) (freq : Nat) (s : Nets W) : List (Opt W) → List (Nets W)
  | [] => [s]
  | o :: os => s :: td3Run soft freq (td3Learn soft freq o s) os

/-- The argument `alpha` of SAC and REDQ, and what `isinstance(alpha, float)` tells: a float, an integer, or a tuple
with the target entropy and the initial `log_alpha`. -/
inductive AlphaArg (K : Type)
  | float (a : K)
  | int (a : K)
  | tuple (targetEntropy logAlpha : K)

/-- The entropy coefficient: fixed, or tuned (target entropy and `log_alpha`). -/
inductive Alpha (K : Type)
  | fixed (a : K)
  | auto (targetEntropy logAlpha : K)
  deriving DecidableEq

/-- Constructor, sac.py:138-158 and redq.py:120-139: everything that is not a float is indexed like a tuple
(`alpha[1]` of an integer raises a `TypeError`). -/
def Alpha.new {K : Type} : AlphaArg K → Except Err (Alpha K)
  | .float a => .ok (.fixed a)
  | .int _ => .error .typeError
  | .tuple h l => .ok (.auto h l)

/-- `self.alpha`. -/
def Alpha.value {K : Type} (exp : K → K) : Alpha K → K
  | .fixed a => a
  | .auto _ l => exp l

section alpha

variable {K : Type} [Field K]

/-- Derivative of `alpha_loss = -(log_alpha * log_prob).mean()` by `log_alpha`, sac.py:246-248, where `log_prob` are the
log-probabilities plus the target entropy. -/
def alphaGrad (targetEntropy : K) (logProb : List K) : K := -(Ppo.mean (logProb.map (· + targetEntropy)))

/-- The tuning of the coefficient in `SACPolicy.learn`, sac.py:245-252, with plain gradient descent of rate `lr` as
`alpha_optim`. -/
def Alpha.sacStep (lr : K) (logProb : List K) : Alpha K → Alpha K
  | .fixed a => .fixed a
  | .auto h l => .auto h (l - lr * alphaGrad h logProb)

/-- Discrete SAC, discrete_sac.py:166-172: minus the entropies take the place of the log-probabilities. -/
def Alpha.discreteStep (lr : K) (entropy : List K) (a : Alpha K) : Alpha K := a.sacStep lr (entropy.map Neg.neg)

/-- REDQ, redq.py:216-222: the attributes `_target_entropy` and `_log_alpha` do not exist. -/
def Alpha.redqStep : Alpha K → Except Err (Alpha K)
  | .fixed a => .ok (.fixed a)
  | .auto _ _ => .error .attributeError

end alpha

/-- State of `REDQPolicy`: weights of the actor, the critics and their targets, `critic_gradient_step`, `alpha`. -/
structure Redq (W K : Type) where
  actor : W
  critic : W
  criticOld : W
  step : Nat
  alpha : Alpha K

/-- `REDQPolicy.learn`, redq.py:191-224, for `actor_delay > 0`. -/
def redqLearn {W K : Type} (soft : W → W → W) (delay : Nat) (optC optA : Redq W K → W) (s : Redq W K) :
    Except Err (Redq W K) :=
  let s := { s with critic := optC s, step := s.step + 1 }
  if s.step % delay = 0 then
    let s := { s with actor := optA s }
    match s.alpha.redqStep with
    | .error e => .error e
    | .ok a => .ok { s with alpha := a, criticOld := soft s.criticOld s.critic }
  else .ok { s with criticOld := soft s.criticOld s.critic }

/-- A sequence of `learn` calls. -/
def redqRun {W K : Type} (soft : W → W → W) (delay : Nat) (s : Redq W K) :
    List ((Redq W K → W) × (Redq W K → W)) → Except Err (Redq W K)
  | [] => .ok s
  | o :: os =>
    match redqLearn soft delay o.1 o.2 s with
    | .error e => .error e
    | .ok s => redqRun soft delay s os

/-! ### Targets -/

section target

variable {X K : Type} [Field K] [LinearOrder K]

/-- The smoothed action of TD3's target, td3.py:133-137, one row: `rand` are the standard normal numbers. -/
def td3Act (policyNoise noiseClip : K) (act rand : List K) : List K :=
  List.zipWith (fun a r =>
    let noise := r * policyNoise
    a + if 0 < noiseClip then Ppo.clamp (-noiseClip) noiseClip noise else noise) act rand

/-- `TD3Policy._target_q`, td3.py:128-141, one row. -/
def td3Target (critic1 critic2 : X → List K → K) (actorOld : X → List K) (policyNoise noiseClip : K) (rand : List K)
    (x : X) : K :=
  let act := td3Act policyNoise noiseClip (actorOld x) rand
  min (critic1 x act) (critic2 x act)

/-- `SACPolicy._target_q`, sac.py:211-224, one row: `act`, `logProb` are what `forward` returns for the next
observation. -/
def sacTarget (critic1 critic2 : X → List K → K) (alpha : K) (act : List K) (logProb : K) (x : X) : K :=
  min (critic1 x act) (critic2 x act) - alpha * logProb

/-- `DiscreteSACPolicy._target_q`, discrete_sac.py:117-128, one row. -/
def discreteSacTarget (critic1 critic2 : X → List K) (alpha : K) (probs : List K) (entropy : K) (x : X) : K :=
  (List.zipWith (· * ·) probs (List.zipWith min (critic1 x) (critic2 x))).sum + alpha * entropy

/-- `REDQPolicy._target_q`, redq.py:173-189, one row: `qs` are the values of the ensemble, `subset` the sampled
members. -/
def redqTarget (useMin : Bool) (alpha : K) (qs : List K) (subset : List Nat) (logProb : K) : K :=
  let vs := subset.map fun i => qs.getD i 0
  (if useMin then minOf vs else Ppo.mean vs) - alpha * logProb

/-- The action of SAC, REDQ and discrete SAC, sac.py:194-197, redq.py:153-156, discrete_sac.py:110-114: the mode or a
sample of the distribution. -/
def sacAct {V : Type} (deterministicEval withinTrainingStep : Bool) (mode sample : V) : V :=
  if deterministicEval && !withinTrainingStep then mode else sample

/-- The attributes `is_within_training_step` (policy/base.py:231) of a policy and of the policies it wraps: those of
`MultiAgentPolicyManager` or `ICMPolicy`. -/
structure Within where
  self : Bool
  wrapped : Nat → Bool

/-- What code running in `with policy_within_training_step(policy)` sees, torch_utils.py:25-43. -/
def Within.enter (w : Within) : Within := { w with self := true }

/-- The flag read by the `forward` that computes the action: that of the policy itself, or of wrapped policy `j`
(mapolicy.py:236, icm.py:107). -/
def Within.seen (w : Within) (wrapped : Option Nat) : Bool :=
  match wrapped with
  | none => w.self
  | some j => w.wrapped j

/-! ### Priorities -/

/-- New weights of DQN (dqn.py:220 and 229) and DDPG (ddpg.py:191 and 202), one row. -/
def dqnPrio (q ret : K) : K := ret - q

/-- Of TD3, SAC (td3.py:147, sac.py:230), discrete SAC (discrete_sac.py:152). -/
def twinPrio (q1 q2 ret : K) : K := ((q1 - ret) + (q2 - ret)) / 2

/-- Of REDQ, redq.py:202. -/
def redqPrio (qs : List K) (ret : K) : K := Ppo.mean (qs.map (· - ret))

/-- Of QRDQN, IQN, FQF, qrdqn.py:126. -/
def quantilePrio (cur target : List K) : K :=
  Ppo.mean (cur.map fun c => (target.map fun t => |QTarget.huber (t - c)|).sum)

/-- Of BDQ, bdq.py:179: per branch the difference at the taken action. -/
def bdqPrio (q : List K) (ret : K) : K := (q.map (ret - ·)).sum

end target

/-! ### Noise -/

section noise

variable {K : Type} [Field K]

/-- How a size was given: a tuple, or another sequence of integers (such as a list). -/
inductive Size
  | tuple (dims : List Nat)
  | other (dims : List Nat)
  deriving DecidableEq

/-- The numbers in a size. -/
def Size.dims : Size → List Nat
  | .tuple d => d
  | .other d => d

/-- The internal state `_x` of `OUNoise`: nothing, a number, or an array with its shape. -/
inductive OUState (K : Type)
  | none
  | num (x : K)
  | arr (shape : List Nat) (x : List K)
  deriving DecidableEq

/-- `OUNoise`, random.py:52-65. -/
structure OU (K : Type) where
  mu : K
  alpha : K
  beta : K
  x0 : OUState K
  x : OUState K

/-- Constructor and `reset`, random.py:52-69; `sqrtDt` is `np.sqrt(dt)`. -/
def OU.new (mu sigma theta dt sqrtDt : K) (x0 : OUState K) : OU K := ⟨mu, theta * dt, sigma * sqrtDt, x0, x0⟩

/-- `reset`. -/
def OU.reset (o : OU K) : OU K := { o with x := o.x0 }

/-- Lines 76-77: the state used by a call. An array is kept if its shape (a tuple) compares equal to the size. -/
def OU.start (o : OU K) (size : Size) : OUState K :=
  match o.x with
  | .none => .num 0
  | .num x => .num x
  | .arr shape x => if size = .tuple shape then .arr shape x else .num 0

/-- One component of lines 80-81. -/
def OU.next (o : OU K) (x r : K) : K := x + o.alpha * (o.mu - x) + o.beta * r

/-- `__call__`, random.py:71-82 without the argument `mu`; `rand` are the standard normal numbers, as many as the size
asks for. The returned array is the second component. -/
def OU.call (o : OU K) (size : Size) (rand : List K) : OU K × List K :=
  let new := match o.start size with
    | .arr _ x => List.zipWith o.next x rand
    | .num x => rand.map (o.next x)
    | .none => rand.map (o.next 0)
  ({ o with x := .arr size.dims new }, new)

/-- A sequence of calls with the same size. -/
def OU.run (o : OU K) (size : Size) : List (List K) → OU K × List (List K)
  | [] => (o, [])
  | r :: rs =>
    let s := o.call size r
    let t := s.1.run size rs
    (t.1, s.2 :: t.2)

end noise

end Verif.ActorCritic
