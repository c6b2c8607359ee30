import Verif.Model.Batch
import Verif.Model.Returns
import Verif.Model.Policy
import Verif.Model.Ppo
import Mathlib.Analysis.SpecialFunctions.Log.Basic
import Mathlib.Order.WithBot

/-! Model of the offline and imitation policies and of the reward-shaping policies: tianshou/policy/imitation/
discrete_crr.py, cql.py, bcq.py, gail.py, td3_bc.py, tianshou/policy/modelbased/icm.py and tianshou/policy/random.py.

Network outputs are given as numbers, or networks as functions; numbers are elements of an ordered field, or real
numbers where logarithms occur. Gradients and optimiser steps are not modelled: the model gives the targets, rewards,
losses and actions. A tensor of shape `(B, 1)` and one of shape `(B,)` are both lists; where the code combines the two
the model spells out the broadcast to `(B, B)`. -/

namespace Verif.Offline

open Verif.Policy Verif.Returns Verif.Ppo

/-! ### Broadcasting -/

section Field
variable {K : Type} [Field K] [LinearOrder K]

/-- An elementwise operation on a tensor `xs` of shape `(B,)` and a tensor `ys` of shape `(B, 1)`: the result has the
shape `(B, B)` (broadcasting of torch). -/
def outer (f : K → K → K) (xs ys : List K) : List (List K) := ys.map fun y => xs.map fun x => f x y

/-- `.mean()` of a tensor with two axes. -/
def mean2 (m : List (List K)) : K := mean m.flatten

/-! ### Discrete CRR -/

/-- A row of the batch with the network outputs for it: `q = critic(obs)`, `probs` and `logp = log_prob(act)` of the
actor's distribution, `qNext = critic_old(obs_next)`, `probsNext` of the old actor's distribution. `act` lies below
`q.length` (`gather` raises otherwise). -/
structure CrrRow (K : Type) where
  q : List K
  act : Nat
  probs : List K
  logp : K
  rew : K
  terminated : Bool
  truncated : Bool
  qNext : List K
  probsNext : List K

/-- `(q * probs).sum(-1)`. -/
def dot (a b : List K) : K := (List.zipWith (· * ·) a b).sum

/-- `qa_t`, discrete_crr.py:118. -/
def CrrRow.qa (r : CrrRow K) : K := r.q.getD r.act 0

/-- `advantage`, discrete_crr.py:131-133. -/
def CrrRow.advantage (r : CrrRow K) : K := r.qa - dot r.q r.probs

/-- `policy_improvement_mode`. -/
inductive CrrMode
  | exp
  | binary
  | all

/-- `actor_loss_coef` of one row, discrete_crr.py:134-139; `e` is the exponential function. -/
def crrCoef (e : K → K) (mode : CrrMode) (beta bound adv : K) : K :=
  match mode with
  | .binary => if 0 < adv then 1 else 0
  | .exp => min (max (e (adv / beta)) 0) bound
  | .all => 1

/-- `actor_loss`, discrete_crr.py:140: `dist.log_prob(act)` has the shape `(B,)`, the coefficients `(B, 1)`, except in
mode "all", where the coefficient is the number 1. -/
def crrActorLoss (e : K → K) (mode : CrrMode) (beta bound : K) (rows : List (CrrRow K)) : K :=
  match mode with
  | .all => mean (rows.map fun r => -r.logp * 1)
  | _ => mean2 (outer (· * ·) (rows.map fun r => -r.logp) (rows.map fun r => crrCoef e mode beta bound r.advantage))

/-- `target`, discrete_crr.py:125-127 (`batch.done` is `terminated` or `truncated`). -/
def crrTarget (gamma : K) (r : CrrRow K) : K :=
  r.rew + gamma * (if r.terminated || r.truncated then 0 else dot r.qNext r.probsNext)

/-- `critic_loss`, discrete_crr.py:128. -/
def crrCriticLoss (gamma : K) (rows : List (CrrRow K)) : K :=
  1 / 2 * mean (rows.map fun r => (r.qa - crrTarget gamma r) ^ 2)

/-- `min_q_loss`, discrete_crr.py:142: `q_t.logsumexp(1)` has the shape `(B,)`, `qa_t` the shape `(B, 1)`. `lse` is the
logarithm of the sum of the exponentials. -/
def crrMinQ (lse : List K → K) (rows : List (CrrRow K)) : K :=
  mean2 (outer (· - ·) (rows.map fun r => lse r.q) (rows.map CrrRow.qa))

/-- `loss`, discrete_crr.py:143. -/
def crrLoss (e : K → K) (lse : List K → K) (mode : CrrMode) (beta bound gamma minQWeight : K) (rows : List (CrrRow K)) :
    K :=
  crrActorLoss e mode beta bound rows + crrCriticLoss gamma rows + minQWeight * crrMinQ lse rows

/-! ### CQL -/

/-- The target of one row, cql.py:275-283: `q1`, `q2`, `logp` belong to an action sampled for `obs_next`. -/
def cqlTarget (gamma alpha rew : K) (terminated truncated : Bool) (q1 q2 logp : K) : K :=
  rew + (if terminated || truncated then 0 else 1) * gamma * (min q1 q2 - alpha * logp)

/-- `tensor.uniform_(lo, hi)` for one entry; `u` in `[0, 1)` is the random number, `none` the exception raised if
`lo > hi`. -/
def uniform (lo hi u : K) : Option K := if lo ≤ hi then some (lo + u * (hi - lo)) else none

/-- An entry of `random_actions`, cql.py:296-300. -/
def cqlRandom (minAction maxAction u : K) : Option K := uniform (-minAction) maxAction u

/-- `tmp_obs`, `tmp_obs_next` and `returns`, cql.py:302-305 and 324-330: `unsqueeze(1)`, `repeat`, `view`. Also
`repeat_interleave` in bcq.py:178. -/
def repeatRows {α : Type} (n : Nat) (l : List α) : List α := l.flatMap fun x => List.replicate n x

end Field

/-- `calibration_returns` as written by `process_buffer`, cql.py:219-234: the Monte-Carlo returns of `buffer.sample(0)`,
in the order of its indices, become a column of the buffer. -/
def calibrationColumn {R : Type} [Ring R] (w : View R) (batch : List (BRow R)) (indices : List Nat) (gamma : R) :
    Option (List R) :=
  (computeEpisodicReturn w batch indices none none gamma 1 true).map Prod.fst

/-- `buffer[i].calibration_returns`, data/buffer/base.py:625-627: the entry with the index of the row; `none` is the
index error. -/
def calibrationAt {R : Type} (column : List R) (i : Nat) : Option R := column[i]?

/-- `value - log_prob` of a random action, cql.py:199-210: `dim` is the number of entries of an action. -/
noncomputable def randomValue (dim : Nat) (q : ℝ) : ℝ := q - Real.log ((1 / 2) ^ dim)

/-- `torch.logsumexp(x / temperature)` of a list. -/
noncomputable def lseT (temperature : ℝ) (l : List ℝ) : ℝ := Real.log (l.map fun x => Real.exp (x / temperature)).sum

/-- The rows of `cat_q`, cql.py:341-343. The three tensors keep the shape `(B * num_repeat, 1)`, because the results of
the calls of `reshape` in lines 314-322 are not used. -/
def catQ (random pi next : List ℝ) : List (List ℝ) :=
  List.zipWith (fun x yz => x :: yz) random (List.zipWith (fun y z => [y, z]) pi next)

/-- `cql_scaled_loss`, cql.py:346-351. -/
noncomputable def cqlPenalty (temperature weight : ℝ) (cat : List (List ℝ)) (current : List ℝ) : ℝ :=
  mean (cat.map (lseT temperature)) * weight * temperature - mean current * weight

/-- The penalty of `learn` from the values of the repeated rows, cql.py:307-351; `returns` are the calibration returns
of the batch if `calibrated`. -/
noncomputable def cqlLoss (temperature weight : ℝ) (numRepeat : Nat) (returns : Option (List ℝ))
    (random pi next current : List ℝ) : ℝ :=
  match returns with
  | none => cqlPenalty temperature weight (catQ random pi next) current
  | some ret =>
    let r := repeatRows numRepeat ret
    cqlPenalty temperature weight
      (catQ (List.zipWith max random r) (List.zipWith max pi r) (List.zipWith max next r)) current

/-! ### BCQ -/

section Bcq
variable {K : Type} [Field K] [LinearOrder K] {O A : Type}

/-- `BCQPolicy.forward` for one observation, bcq.py:136-147: `decode j obs` is the action the VAE generates for the
`j`-th copy of `obs`, `perturb` the perturbation network. -/
def bcqAct [Inhabited A] (decode : Nat → O → A) (perturb : O → A → A) (critic : O → A → K) (times : Nat) (obs : O) : A :=
  let act := (List.range times).map fun j => perturb obs (decode j obs)
  act.getD (argmax (act.map (critic obs))) default

/-- `target_Q.reshape(batch_size, -1)`. -/
def reshapeRows {α : Type} (rows : Nat) (l : List α) : List (List α) :=
  (List.range rows).map fun i => (l.drop (i * (l.length / rows))).take (l.length / rows)

/-- The target of `learn`, bcq.py:176-201. `decode j obs` is the action the VAE generates for the `j`-th row of the
repeated observations, `q1`, `q2` the target critics. -/
def bcqTarget (decode : Nat → O → A) (q1 q2 : O → A → K) (lmbda gamma : K) (numSampled : Nat) (rew : List K)
    (done : List Bool) (obsNext : List O) : List K :=
  let obs := repeatRows numSampled obsNext
  let act := (List.range obs.length).zip obs |>.map fun p => decode p.1 p.2
  let t := List.zipWith (fun o a => lmbda * min (q1 o a) (q2 o a) + (1 - lmbda) * max (q1 o a) (q2 o a)) obs act
  let t := (reshapeRows obsNext.length t).map maxOf
  List.zipWith (fun (rd : K × Bool) x => rd.1 + (if rd.2 then 0 else 1) * gamma * x) (rew.zip done) t

end Bcq

/-! ### GAIL -/

/-- `F.logsigmoid`. -/
noncomputable def logSigmoid (x : ℝ) : ℝ := Real.log (1 / (1 + Real.exp (-x)))

/-- The reward of one transition, gail.py:153; `d` is the output of the discriminator. -/
noncomputable def gailReward (d : ℝ) : ℝ := -logSigmoid (-d)

/-- `process_fn`, gail.py:141-154, up to the computation of returns in a2c.py: the batch with its rewards replaced. -/
noncomputable def gailRows (disc : List ℝ) (batch : List (BRow ℝ)) : List (BRow ℝ) :=
  List.zipWith (fun (r : BRow ℝ) d => { r with rew := gailReward d }) batch disc

/-- The loss of the discriminator for a minibatch, gail.py:174-179. -/
noncomputable def gailDiscLoss (logitsPi logitsExp : List ℝ) : ℝ :=
  mean (logitsPi.map fun d => -logSigmoid (-d)) + mean (logitsExp.map fun d => -logSigmoid d)

/-- The discriminator updates of `learn`, gail.py:172-182: for each the indices of the policy's transitions and the
number of expert transitions. `perm` is the permutation drawn by `split`; `none` stands for the exceptions
(`ZeroDivisionError`, the assertion of `split`). -/
def gailUpdates (n discUpdateNum : Nat) (perm : List Nat) : Option (List (List Nat × Nat)) :=
  if discUpdateNum = 0 then none
  else
    let bsz := n / discUpdateNum
    match Batch.split n bsz perm true with
    | .ok parts => some (parts.map fun p => (p, bsz))
    | .error _ => none

/-! ### TD3+BC -/

section Field
variable {K : Type} [Field K] [LinearOrder K]

/-- `actor_loss`, td3_bc.py:115-118; `q` are the values of the actor's actions, `mse` is the squared distance from the
actions of the data. `none` stands for the NaN if all values are zero. -/
def td3bcLoss (alpha : K) (q : List K) (mse : K) : Option K :=
  let m := mean (q.map fun x => |x|)
  if m = 0 then none else some (-(alpha / m) * mean q + mse)

/-! ### ICM -/

/-- The arrays of a batch that matter here, with their identity: `arrays` are the arrays in memory, `rew` and
`origRew` (`batch.policy.orig_rew`) are references to them. -/
structure IcmBatch (K : Type) where
  arrays : List (List K)
  rew : Nat
  origRew : Option Nat

/-- `batch.rew`. -/
def IcmBatch.rewards (b : IcmBatch K) : List K := b.arrays.getD b.rew []

/-- `ICMPolicy.process_fn`, icm.py:134-136, before the inner policy's `process_fn`: `Batch(orig_rew=batch.rew)` keeps a
reference and `+=` changes the array in place. -/
def icmProcess (scale : K) (mse : List K) (b : IcmBatch K) : IcmBatch K :=
  { b with
    origRew := some b.rew
    arrays := b.arrays.set b.rew (List.zipWith (fun r m => r + m * scale) b.rewards mse) }

/-- `ICMPolicy.post_process_fn`, icm.py:151; the inner policy's `post_process_fn` does not touch rewards. -/
def icmPostProcess (b : IcmBatch K) : IcmBatch K :=
  match b.origRew with
  | some a => { b with rew := a }
  | none => b

/-- The rows of the batch with the rewards of `b`. -/
def withRewards (batch : List (BRow K)) (rewards : List K) : List (BRow K) :=
  List.zipWith (fun (r : BRow K) x => { r with rew := x }) batch rewards

/-- `process_fn` of ICM around a policy that uses `compute_episodic_return` (PG, A2C, PPO, NPG, TRPO). -/
def icmEpisodic (scale : K) (mse : List K) (w : View K) (batch : List (BRow K)) (indices : List Nat)
    (vNext v : Option (List K)) (gamma lam : K) (isClose : Bool) : Option (List K × List K) :=
  let b := icmProcess scale mse { arrays := [batch.map BRow.rew], rew := 0, origRew := none }
  computeEpisodicReturn w (withRewards batch b.rewards) indices vNext v gamma lam isClose

/-- `process_fn` of ICM around a policy that uses `compute_nstep_return` (DQN and its relatives, DDPG, TD3, SAC, REDQ):
policy/base.py:705-711 reads `buffer.rew`, and only the length of the batch matters. -/
def icmNstep (scale : K) (mse : List K) (w : View K) (batch : List (BRow K)) (indices : List Nat)
    (targetQ : List Nat → List (List K)) (gamma : K) (N : Nat) : Option (List (List K)) :=
  let b := icmProcess scale mse { arrays := [batch.map BRow.rew], rew := 0, origRew := none }
  computeNstepReturn w (withRewards batch b.rewards).length indices targetQ gamma N

end Field

/-! ### MARL random policy -/

/-- `logits.argmax(axis=-1)` of a row in which some entries are minus infinity. -/
def argmaxBot {K : Type} [LinearOrder K] : List (WithBot K) → Nat
  | [] => 0
  | x :: xs => if ∀ y ∈ xs, y ≤ x then 0 else argmaxBot xs + 1

/-- `MARLRandomPolicy.forward`, random.py:46-49, for one row; `u` are the random numbers. -/
def randomAct {K : Type} [LinearOrder K] (mask : List Bool) (u : List K) : Nat :=
  argmaxBot (List.zipWith (fun m x => if m then (x : WithBot K) else ⊥) mask u)

end Verif.Offline
