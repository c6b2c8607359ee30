import Mathlib.Algebra.Order.Floor.Ring
import Mathlib.Data.Rat.Floor

/-!
Model of the schedules of the high-level interface: the linear learning rate (`tianshou/highlevel/params/lr_scheduler.py`), the callbacks of
`tianshou/highlevel/trainer.py`, and when `policy.update` makes a learning rate scheduler advance.

Simplifications. Numbers are rationals or elements of an ordered field and are not rounded. Logging is not modelled here.
-/

namespace Verif.Schedule

/-- The exceptions: `AssertionError`, `ZeroDivisionError`. -/
inductive Err
  | assertion
  | zeroDivision
deriving DecidableEq, Repr

/-- `_LRLambda.__init__`, `lr_scheduler.py` lines 27-32: `max_update_num` from `step_per_epoch`, `step_per_collect` and `num_epochs`. -/
def maxUpdateNum (stepPerEpoch : Int) (stepPerCollect : Option Int) (numEpochs : Int) : Except Err Int :=
  match stepPerCollect with
  | none => .error .assertion
  | some n => if n = 0 then .error .zeroDivision else .ok (⌈(stepPerEpoch : ℚ) / n⌉ * numEpochs)

/-- `_LRLambda.compute`, lines 34-35. (`max_update_num` is a numpy float, so a division by zero does not raise; it gives NaN or an infinite
number, here `none`.) -/
def factor (maxUpdates : Int) (k : Nat) : Option ℚ := if maxUpdates = 0 then none else some (1 - (k : ℚ) / maxUpdates)

/-- `LambdaLR` (a part of torch): the learning rate after `k` calls of `step`. -/
def rate (base : ℚ) (maxUpdates : Int) (k : Nat) : Option ℚ := (factor maxUpdates k).map (base * ·)

/-- `EpochTrainCallbackDQNEpsLinearDecay.callback`, `highlevel/trainer.py` lines 107-116: the value given to `set_eps`. -/
def decayedEps {K : Type} [Field K] (train final : K) (decaySteps envStep : Int) : Except Err K :=
  if envStep ≤ decaySteps then
    if decaySteps = 0 then .error .zeroDivision else .ok (train - (envStep : K) / (decaySteps : K) * (train - final))
  else .ok final

/-- `EpochStopCallbackRewardThreshold.should_stop`, `highlevel/trainer.py` lines 145-153; `spec` is the threshold of the environment. -/
def shouldStop {K : Type} [LE K] [DecidableRel (α := K) (· ≤ ·)] (threshold spec : Option K) (mean : K) : Except Err Bool :=
  match threshold with
  | some x => .ok (decide (x ≤ mean))
  | none =>
    match spec with
    | none => .error .assertion
    | some x => .ok (decide (x ≤ mean))

mutual
/-- A policy with the number of steps its learning rate scheduler has made (`none` if it has no scheduler) and the policies inside:
one in an `ICMPolicy`, any number in a `MultiAgentPolicyManager`, none in others. -/
inductive Pol
  | node (sched : Option Nat) (inner : Pols)

/-- Policies inside a policy; the flag says whether there is data for the policy in the batch. -/
inductive Pols
  | nil
  | cons (data : Bool) (p : Pol) (rest : Pols)
end

mutual
/-- `learn`: `ICMPolicy.learn` (`policy/modelbased/icm.py` line 160) and `MultiAgentPolicyManager.learn`
(`policy/multiagent/mapolicy.py` lines 273-277) call `learn` of the policies inside; no `learn` makes a scheduler advance. -/
def Pol.learn : Pol → Pol
  | .node s inner => .node s inner.learn

/-- `learn` of all policies with data. -/
def Pols.learn : Pols → Pols
  | .nil => .nil
  | .cons data p rest => .cons data (if data then p.learn else p) rest.learn
end

/-- `update`, `policy/base.py` lines 546-550: `learn`, then `lr_scheduler.step()`. -/
def Pol.update (p : Pol) : Pol :=
  match p.learn with
  | .node s inner => .node (s.map (· + 1)) inner

/-- A number of updates. -/
def Pol.updates : Nat → Pol → Pol
  | 0, p => p
  | n + 1, p => Pol.updates n p.update

end Verif.Schedule
