import Verif.Model.Buffer
import Verif.Model.Returns
import Verif.Model.Policy
import Verif.Model.Ppo

/-! Model of the targets and losses of the Q-learning policies: tianshou/policy/modelfree/dqn.py, qrdqn.py, iqn.py,
fqf.py, c51.py, bdq.py and tianshou/policy/imitation/discrete_bcq.py.

A network is a function from one network input to its row of outputs; recurrent states, dropout and the training mode
are not modelled. Numbers are elements of an ordered field. `View` stands for the replay buffer, `inputs i` for the
network input made from `buffer[i].obs_next` (the observation without its mask), `masks i` for the mask stored in
`buffer[i].obs_next`, if observations carry masks. -/

namespace Verif.QTarget

open Verif.Policy Verif.Returns

variable {X K : Type} [Field K] [LinearOrder K]

/-- The networks of a Q-learning policy at the moment of the call: `model`, `model_old`, and whether there is a target
network (`self._target`, dqn.py:93-94); `V` is the type of the output for one action. -/
structure Nets (X V : Type) where
  online : X → List V
  old : X → List V
  hasTarget : Bool

/-- `x[np.arange(len(act)), act]`. -/
def pick {V : Type} (d : V) (rows : List (List V)) (act : List Nat) : List V :=
  List.zipWith (fun row a => row.getD a d) rows act

/-- `DQNPolicy._target_q`, dqn.py:121-135, on the network inputs `xs` with their masks. -/
def dqnTarget (isDouble : Bool) (n : Nets X K) (xs : List X) (mask : Option (List (List Bool))) : List K :=
  let result := xs.map n.online
  let act := dqnAct result mask
  let targetQ := if n.hasTarget then xs.map n.old else result
  if isDouble then pick 0 targetQ act else targetQ.map maxOf

/-- `DQNPolicy.process_fn`, dqn.py:137-156 (without `rew_norm`): `batch.returns`. -/
def dqnReturns (isDouble : Bool) (n : Nets X K) (w : View K) (inputs : Nat → X) (masks : Option (Nat → List Bool))
    (indices : List Nat) (gamma : K) (N : Nat) : Option (List (List K)) :=
  computeNstepReturn w indices.length indices
    (fun l => (dqnTarget isDouble n (l.map inputs) (masks.map fun m => l.map m)).map fun x => [x]) gamma N

/-- `_target_q` of the policies whose networks output a distribution (a list of numbers) per action: qrdqn.py:90-102
(also used by iqn.py), fqf.py:97-110, and the first part of `_target_dist` of C51, c51.py:101-110. `value x d` is the
Q-value they compute from the distribution `d` for the input `x`: qrdqn.py:104-105, fqf.py:139-140, c51.py:98-99. The
parameter `is_double` is accepted by all constructors and not read. -/
def distTarget (_isDouble : Bool) (value : X → List K → K) (n : Nets X (List K)) (xs : List X)
    (mask : Option (List (List Bool))) : List (List K) :=
  let act := dqnAct (xs.map fun x => (n.online x).map (value x)) mask
  let nextDist := if n.hasTarget then xs.map n.old else xs.map n.online
  pick [] nextDist act

/-- `process_fn` of QRDQN, IQN and FQF: `batch.returns`. -/
def distReturns (isDouble : Bool) (value : X → List K → K) (n : Nets X (List K)) (w : View K) (inputs : Nat → X)
    (masks : Option (Nat → List Bool)) (indices : List Nat) (gamma : K) (N : Nat) : Option (List (List K)) :=
  computeNstepReturn w indices.length indices
    (fun l => distTarget isDouble value n (l.map inputs) (masks.map fun m => l.map m)) gamma N

/-- The Q-value of QRDQN and IQN, qrdqn.py:104-105. -/
def quantileValue (d : List K) : K := Ppo.mean d

/-- The Q-value of C51, c51.py:98-99. -/
def c51Value (p : C51 K) (d : List K) : K := (d.zipIdx.map fun x => x.1 * p.atom x.2).sum

/-- The Q-value of FQF, fqf.py:139-140, from the fractions `taus`. -/
def fqfValue (taus : List K) (d : List K) : K :=
  (List.zipWith (fun w x => w * x) (List.zipWith (fun hi lo => hi - lo) taus.tail taus) d).sum

/-- `C51Policy`: `process_fn` (inherited, with `_target_q` c51.py:95-96) followed by `_target_dist`, c51.py:101-117:
the target distributions of a batch. The distribution is taken at `batch.obs_next`, the row of the sampled index. -/
def c51Targets (p : C51 K) (isDouble : Bool) (n : Nets X (List K)) (w : View K) (inputs : Nat → X)
    (masks : Option (Nat → List Bool)) (indices : List Nat) (gamma : K) (N : Nat) : Option (List (List K)) :=
  (computeNstepReturn w indices.length indices
    (fun l => l.map fun _ => (List.range p.numAtoms).map p.atom) gamma N).map fun returns =>
      let nextDist := distTarget isDouble (fun _ => c51Value p) n (indices.map inputs)
        (masks.map fun m => indices.map m)
      List.zipWith p.targetDist returns nextDist

/-! ### BDQ -/

/-- Target of one row, bdq.py:103-114: per branch the value of the chosen action; `q`, `tq` are the outputs of `model`
and of the network used for the target, branches × actions. -/
def bdqRow (isDouble : Bool) (q tq : List (List K)) : List K :=
  pick 0 tq (if isDouble then q.map argmax else tq.map argmax)

/-- `mean_target_q`, bdq.py:114 and 130: `squeeze()` removes every axis of length 1, so that an array with one row or
one branch has one axis left (or none) and is not averaged. The remaining axis is the list; a number is a list of one
entry. -/
def bdqMean (rows : List (List K)) : List K :=
  if rows.length = 1 ∨ (∀ row ∈ rows, row.length = 1) then rows.flatten else rows.map Ppo.mean

/-- `rew + gamma * mean_target_q * (1 - end_flag)`, bdq.py:131, with broadcasting of a single row; `none` if the
lengths do not fit. -/
def bdqBroadcast (gamma : K) (rew : List K) (ends : List Bool) (m : List K) : Option (List K) :=
  let row := fun (r : K) (e : Bool) (x : K) => r + gamma * x * (if e then 0 else 1)
  if m.length = rew.length then
    some (List.zipWith (fun (re : K × Bool) x => row re.1 re.2 x) (rew.zip ends) m)
  else match rew, ends, m with
    | [r], [e], m => some (m.map (row r e))
    | r, e, [x] => some (List.zipWith (fun r e => row r e x) r e)
    | _, _, _ => none

/-- `BranchingDQNPolicy.process_fn`, bdq.py:116-147: the targets (`batch.returns` repeats each of them for all branches
and actions). `discount` is the policy's `discount_factor`; line 147 calls `_compute_return` without it, so its default
0.99 is used. -/
def bdqReturns (isDouble : Bool) (n : Nets X (List K)) (w : View K) (inputs : Nat → X) (indices : List Nat)
    (_discount : K) : Option (List K) :=
  let targetQ := indices.map fun i =>
    bdqRow isDouble (n.online (inputs i)) (if n.hasTarget then n.old (inputs i) else n.online (inputs i))
  let ends := indices.map fun i => w.done i || w.unfinished.contains i
  bdqBroadcast (99 / 100) (indices.map w.rew) ends (bdqMean targetQ)

/-- `exploration_noise`, bdq.py:188-204, on a numpy array of actions (one row per observation, one entry per branch).
`u` are the numbers of `np.random.rand(bsz)`, `rand` those of `np.random.randint(0, action_per_branch)`; a mask in the
observation (of the same shape, entries 0 or 1) is added to them. -/
def bdqExplore (eps : K) (isClose : Bool) (u : Nat → K) (rand : Nat → Nat → Nat) (mask : Option (Nat → Nat → Bool))
    (act : List (List Nat)) : List (List Nat) :=
  if isClose then act
  else act.zipIdx.map fun p =>
    if u p.2 < eps then
      p.1.zipIdx.map fun q =>
        rand p.2 q.2 + (match mask with
          | none => 0
          | some m => if m p.2 q.2 then 1 else 0)
    else p.1

/-! ### Losses -/

/-- `huber_loss(delta=1)` and `smooth_l1_loss(beta=1)` on one entry. -/
def huber (x : K) : K := if |x| < 1 then x ^ 2 / 2 else |x| - 1 / 2

/-- Loss of DQN, dqn.py:216-227: rows are the Q-value of the taken action and the return, `ws` the importance weights
(all 1 without prioritised replay). -/
def dqnLoss (clipLossGrad : Bool) (rows : List (K × K)) (ws : List K) : K :=
  if clipLossGrad then Ppo.mean (rows.map fun r => huber (r.1 - r.2))
  else Ppo.mean (List.zipWith (fun (r : K × K) w => (r.2 - r.1) ^ 2 * w) rows ws)

/-- Loss of one row of QRDQN, qrdqn.py:113-122, IQN, iqn.py:140-152, FQF, fqf.py:162-174: `taus` are the fractions of
the quantiles, `cur` the quantiles of the taken action, `target` the returns. -/
def quantileRow (taus cur target : List K) : K :=
  Ppo.mean (List.zipWith (fun tau c =>
    (target.map fun t => huber (t - c) * |tau - if t - c ≤ 0 then 1 else 0|).sum) taus cur)

/-- Loss of QRDQN, IQN and FQF (`quantile_loss`), qrdqn.py:123, iqn.py:153, fqf.py:175. -/
def quantileLoss (rows : List (List K × List K × List K)) (ws : List K) : K :=
  Ppo.mean (List.zipWith (fun (r : List K × List K × List K) w => quantileRow r.1 r.2.1 r.2.2 * w) rows ws)

/-- `tau_hat`, qrdqn.py:83-87: midpoints of `torch.linspace(0, 1, n + 1)`. -/
def tauHat (n : Nat) : List K :=
  let tau := (List.range (n + 1)).map fun (i : Nat) => ((i : Nat) : K) / (n : K)
  List.zipWith (fun a b => (a + b) / 2) tau tau.tail

/-- Loss of C51, c51.py:119-130: rows are the distribution of the taken action and the target distribution. -/
def c51Loss (log : K → K) (eps : K) (rows : List (List K × List K)) (ws : List K) : K :=
  Ppo.mean (List.zipWith (fun (r : List K × List K) w =>
    -(List.zipWith (fun t c => t * log (c + eps)) r.2 r.1).sum * w) rows ws)

/-- Loss of BDQ, bdq.py:165-178, for batches of at least two rows: rows are the outputs of the network (branches ×
actions), the taken action per branch, and the target; the masked entries of both vanish in the difference. -/
def bdqLoss (rows : List (List (List K) × List Nat × K)) (ws : List K) : K :=
  Ppo.mean (List.zipWith (fun (r : List (List K) × List Nat × K) w =>
    Ppo.mean (List.zipWith (fun row a => (row.zipIdx.map fun x => if x.2 = a then (r.2.2 - x.1) ^ 2 else 0).sum)
      r.1 r.2.1) * w) rows ws)

/-- `_mse_optimizer`, ddpg.py:181-197 (DDPG, TD3, SAC, CQL), and the critics of discrete SAC, discrete_sac.py:131-147:
the loss of one critic. -/
def criticLoss (rows : List (K × K)) (ws : List K) : K :=
  Ppo.mean (List.zipWith (fun (r : K × K) w => (r.1 - r.2) ^ 2 * w) rows ws)

/-! ### Discrete BCQ -/

/-- `DiscreteBCQPolicy.forward`, discrete_bcq.py:137-145, one row: `q` the Q-values, `logits` the output of the
imitator, `logTau` the logarithm of `unlikely_action_threshold` (`none` is minus infinity), `inf` the largest float32 (line 21). -/
def bcqAct (inf : K) (logTau : Option K) (q logits : List K) : Nat :=
  argmax (List.zipWith (fun x l => x - inf * (match logTau with
    | none => 0
    | some t => if l - maxOf logits < t then 1 else 0)) q logits)

end Verif.QTarget
