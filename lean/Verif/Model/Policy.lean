import Mathlib.Algebra.Order.Field.Basic
import Mathlib.Order.Lattice

/-!
Model of `tianshou/policy/base.py` (action mapping, soft update, update), `tianshou/policy/modelfree/dqn.py`
(masking, exploration, target network), `tianshou/policy/modelfree/c51.py` (projection),
`tianshou/utils/torch_utils.py` (mode switches).

Simplifications: numbers are elements of a linearly ordered field (no rounding, no NaN or infinities); arrays
are lists of rows.
-/

namespace Verif.Policy

/-- Exceptions raised in policy/base.py, and by the functions a policy is built from (`user`). -/
inductive Err
  | assertionError
  | valueError
  | runtimeError
  | user (n : Nat)
deriving DecidableEq, Repr

section action

variable {K : Type} [Field K] [LinearOrder K]

/-- `action_bound_method`, policy/base.py:201-214. -/
inductive Bound
  | unbounded
  | clip
  | tanh
deriving DecidableEq

/-- What `map_action` reads from a policy with a `Box` action space: `low`, `high` have one entry per action
component. -/
structure BoxPolicy (K : Type) where
  bound : Bound
  scaling : Bool
  low : List K
  high : List K

/-- `np.clip(x, -1.0, 1.0)`. -/
def clip1 (x : K) : K := min (max x (-1)) 1

/-- Bounding, policy/base.py:388-391; `tanh` is numpy's function. -/
def bound1 (tanh : K → K) (b : Bound) (x : K) : K :=
  match b with
  | .unbounded => x
  | .clip => clip1 x
  | .tanh => tanh x

/-- Scaling of one component, policy/base.py:397. -/
def scale1 (lh : K × K) (x : K) : K := lh.1 + (lh.2 - lh.1) * (x + 1) / 2

/-- `map_action`, policy/base.py:367-400, on a batch of actions (a single action is a batch of one row). `np.min`
of an empty array raises a `ValueError`. -/
def mapAction (tanh : K → K) (p : BoxPolicy K) (act : List (List K)) : Except Err (List (List K)) :=
  let act := act.map fun row => row.map (bound1 tanh p.bound)
  if p.scaling then
    if act.flatten = [] then .error .valueError
    else if (∀ row ∈ act, ∀ x ∈ row, -1 ≤ x) ∧ (∀ row ∈ act, ∀ x ∈ row, x ≤ 1) then
      .ok (act.map fun row => List.zipWith scale1 (p.low.zip p.high) row)
    else .error .assertionError
  else .ok act

/-- `scale[scale < eps] += eps`, policy/base.py:420-422. -/
def safeScale (eps : K) (lh : K × K) : K :=
  let s := lh.2 - lh.1
  if s < eps then s + eps else s

/-- Inverse scaling of one component, policy/base.py:423. -/
def unscale1 (eps : K) (lh : K × K) (a : K) : K := (a - lh.1) * 2 / safeScale eps lh - 1

/-- Inverse bounding, policy/base.py:424-425; `log` is numpy's function. -/
def unbound1 (log : K → K) (b : Bound) (a : K) : K :=
  match b with
  | .tanh => (log (1 + a) - log (1 - a)) / 2
  | _ => a

/-- `map_action_inverse`, policy/base.py:402-428; `eps` is the float32 machine epsilon. -/
def mapActionInverse (log : K → K) (eps : K) (p : BoxPolicy K) (act : List (List K)) : List (List K) :=
  let act := if p.scaling then act.map fun row => List.zipWith (unscale1 eps) (p.low.zip p.high) row else act
  act.map fun row => row.map (unbound1 log p.bound)

/-- `soft_update` on one parameter tensor (flattened), policy/base.py:290. -/
def softUpdate1 (tau : K) (tgt src : List K) : List K := List.zipWith (fun t s => tau * s + (1 - tau) * t) tgt src

/-- `soft_update`, policy/base.py:287-290: new target parameters; with different numbers of parameters the
`zip(strict=True)` raises after the common ones were updated (`false`). Parameters paired have the same shape. -/
def softUpdate (tau : K) : List (List K) → List (List K) → List (List K) × Bool
  | [], [] => ([], true)
  | t :: ts, s :: ss => let r := softUpdate tau ts ss; (softUpdate1 tau t s :: r.1, r.2)
  | ts, _ => (ts, false)

end action

section dqn

variable {K : Type} [Field K] [LinearOrder K]

/-- Smallest entry (`logits.min()`) of a non-empty list. -/
def minOf : List K → K
  | [] => 0
  | [x] => x
  | x :: xs => min x (minOf xs)

/-- Largest entry (`logits.max()`) of a non-empty list. -/
def maxOf : List K → K
  | [] => 0
  | [x] => x
  | x :: xs => max x (maxOf xs)

/-- `argmax` along the last axis: the first position of the largest entry. -/
def argmax : List K → Nat
  | [] => 0
  | x :: xs => if ∀ y ∈ xs, y ≤ x then 0 else argmax xs + 1

/-- `compute_q_value`, dqn.py:158-164; mask entries `True` are allowed actions. -/
def computeQ (logits : List (List K)) (mask : Option (List (List Bool))) : List (List K) :=
  match mask with
  | none => logits
  | some m =>
    let minValue := minOf logits.flatten - maxOf logits.flatten - 1
    List.zipWith (fun row mrow => List.zipWith (fun x (b : Bool) => x + (1 - (if b then 1 else 0)) * minValue) row mrow)
      logits m

/-- The action of `DQNPolicy.forward`, dqn.py:166-210, from the network's output. -/
def dqnAct (logits : List (List K)) (mask : Option (List (List Bool))) : List Nat := (computeQ logits mask).map argmax

/-- The random action of one row, dqn.py:250-253: `rand` is the row of `np.random.rand(bsz, max_action_num)`. -/
def randAct (rand : List K) (mask : Option (List Bool)) : Nat :=
  match mask with
  | none => argmax rand
  | some m => argmax (List.zipWith (fun x (b : Bool) => x + if b then 1 else 0) rand m)

/-- `exploration_noise`, dqn.py:238-254, on a numpy array of actions. `isClose` is the outcome of
`np.isclose(self.eps, 0.0)`, `u` the numbers of `np.random.rand(bsz)`, `rand` the matrix of line 249;
`maxActionNum` is set by the first `forward`. -/
def explorationNoise (eps : K) (isClose : Bool) (maxActionNum : Option Nat) (u : Nat → K) (rand : Nat → Nat → K)
    (mask : Option (List (List Bool))) (act : List Nat) : Except Err (List Nat) :=
  if isClose then .ok act
  else match maxActionNum with
    | none => .error .assertionError
    | some n => .ok (act.zipIdx.map fun p =>
        if u p.2 < eps then
          randAct ((List.range n).map (rand p.2)) (mask.map fun m => m.getD p.2 [])
        else p.1)

end dqn

/-! ### Target network -/

/-- The weights and counter of a DQN policy, dqn.py:81-100; `freq` is `target_update_freq`. -/
structure DQN (W : Type) where
  model : W
  modelOld : W
  iter : Nat
  freq : Nat

/-- Construction, dqn.py:95-100 (without a target network `model_old` does not exist; it is never read then). -/
def DQN.new {W : Type} (w : W) (freq : Nat) : DQN W := ⟨w, w, 0, freq⟩

/-- `sync_weight`, dqn.py:117-119. -/
def DQN.sync {W : Type} (s : DQN W) : DQN W := { s with modelOld := s.model }

/-- The state in which the loss of a `learn` call is computed, dqn.py:213-214 (same in c51.py:120-121 and the
other descendants). -/
def DQN.learnStart {W : Type} (s : DQN W) : DQN W := if 0 < s.freq ∧ s.iter % s.freq = 0 then s.sync else s

/-- `learn`, dqn.py:212-234; `opt` maps online and target weights to the online weights after the optimizer
step. -/
def DQN.learn {W : Type} (opt : W → W → W) (s : DQN W) : DQN W :=
  let s := s.learnStart
  { s with model := opt s.model s.modelOld, iter := s.iter + 1 }

/-- The weights evaluated for the target Q-values: dqn.py:127-131. -/
def DQN.targetWeights {W : Type} (s : DQN W) : W := if 0 < s.freq then s.modelOld else s.model

/-- A sequence of `learn` calls. -/
def DQN.run {W : Type} (s : DQN W) (opts : List (W → W → W)) : DQN W := opts.foldl (fun s opt => s.learn opt) s

/-! ### C51 -/

section c51

variable {K : Type} [Field K] [LinearOrder K]

/-- `C51Policy` parameters, c51.py:71-93. -/
structure C51 (K : Type) where
  numAtoms : Nat
  vMin : K
  vMax : K

/-- `delta_z`, c51.py:93. -/
def C51.deltaZ (p : C51 K) : K := (p.vMax - p.vMin) / ((p.numAtoms : K) - 1)

/-- `support[i]`, c51.py:89-92 (`torch.linspace`). -/
def C51.atom (p : C51 K) (i : Nat) : K := p.vMin + (i : K) * p.deltaZ

/-- `x.clamp(lo, hi)`. -/
def clamp (lo hi x : K) : K := min (max x lo) hi

/-- The weight with which mass at `x` goes to atom `i`, c51.py:114-116. -/
def C51.kernel (p : C51 K) (x : K) (i : Nat) : K := clamp 0 1 (1 - |x - p.atom i| / p.deltaZ)

/-- `_target_dist`, c51.py:101-117, for one row of the batch: `returns` are the shifted atoms, `nextDist` the
distribution of the next state's best action. -/
def C51.targetDist (p : C51 K) (returns nextDist : List K) : List K :=
  (List.range p.numAtoms).map fun i =>
    (List.zipWith (fun r d => p.kernel (clamp p.vMin p.vMax r) i * d) returns nextDist).sum

end c51

/-! ### Mode switches -/

/-- Flags of a policy: `training` of the policy itself and of its submodules, `is_within_training_step`,
`updating`. -/
structure Flags where
  training : Bool
  subs : Nat → Bool
  within : Bool
  updating : Bool

/-- What a policy's `train(mode)` sets: itself, and which submodules. `nn.Module`: everything;
`DQNPolicy.train` (dqn.py:111-115), `DDPGPolicy`, `SACPolicy`, `TD3Policy`, ...: itself and all but the target
networks; `MultiAgentPolicyManager.train` (mapolicy.py:282-286): the agents' policies but not itself. -/
structure TrainImpl where
  setsSelf : Bool
  sets : Nat → Bool

/-- `train(mode)`. -/
def TrainImpl.train (impl : TrainImpl) (mode : Bool) (s : Flags) : Flags :=
  { s with
    training := if impl.setsSelf then mode else s.training
    subs := fun i => if impl.sets i then mode else s.subs i }

/-- `nn.Module.train`. -/
def moduleTrain : TrainImpl := ⟨true, fun _ => true⟩

/-- `DQNPolicy.train`, dqn.py:111-115: submodule 0 is `model`, submodule 1 is `model_old`. -/
def dqnTrain : TrainImpl := ⟨true, fun i => i == 0⟩

/-- `MultiAgentPolicyManager.train`, mapolicy.py:282-286: submodules are the agents' policies. -/
def multiAgentTrain : TrainImpl := ⟨false, fun _ => true⟩

/-- A piece of code acting on the flags: it returns or raises. -/
abbrev Code := Flags → Flags × Option Err

/-- `with torch_train_mode(policy, enabled): body`, torch_utils.py:14-22. -/
def torchTrainMode (impl : TrainImpl) (enabled : Bool) (body : Code) : Code := fun s =>
  let original := s.training
  let r := body (impl.train enabled s)
  (impl.train original r.1, r.2)

/-- `with policy_within_training_step(policy, enabled): body`, torch_utils.py:25-43. -/
def withinTrainingStep (enabled : Bool) (body : Code) : Code := fun s =>
  let original := s.within
  let r := body { s with within := enabled }
  ({ r.1 with within := original }, r.2)

/-- Sequential composition. -/
def Code.andThen (c d : Code) : Code := fun s =>
  match c s with
  | (s', none) => d s'
  | (s', some e) => (s', some e)

/-- `self.updating = b`, policy/base.py:544, 551. -/
def setUpdating (b : Bool) : Code := fun s => ({ s with updating := b }, none)

/-- `update`, policy/base.py:506-553, with a buffer; `sample`, `processFn`, `learn`, `postProcess` and
`schedulerStep` are arbitrary code. -/
def update (impl : TrainImpl) (sample processFn learn postProcess schedulerStep : Code) : Code := fun s =>
  if s.within = false then (s, some .runtimeError)
  else
    (sample.andThen <|
      (setUpdating true).andThen <|
      processFn.andThen <|
      (torchTrainMode impl true learn).andThen <|
      postProcess.andThen <|
      schedulerStep.andThen <| setUpdating false) s

/-- `update` without a buffer, policy/base.py:540-541. -/
def updateNoBuffer : Code := fun s => if s.within = false then (s, some .runtimeError) else (s, none)

end Verif.Policy
