import Verif.Model.Prio

/-!
Model of what an update of a policy does to the priorities of a `PrioritizedReplayBuffer`: `BasePolicy.update` (policy/base.py 540-553), `post_process_fn` (base.py 482-504)
and the lines of the `learn` methods that read and write `batch.weight`.

Simplifications: the temporal differences that `learn` computes for the rows of the batch are given; `none` stands for any exception.
-/

namespace Verif.Buffer

noncomputable section

variable {O A R : Type}

/-- What `learn` has computed for a row: a temporal difference for each critic (or each branch), the cross entropy of the distributional methods, and the Huber distances
between quantiles and target quantiles. -/
structure RowErr where
  td : List ℝ
  ce : ℝ
  diff : List (List ℝ)

/-- Policies based on Q-functions. -/
inductive Algo
  | dqn | c51 | rainbow | qrdqn | iqn | fqf | bdq | ddpg | td3 | sac | discreteSac | redq | discreteCql | td3bc
  | cql | bcq | discreteBcq | crr
deriving DecidableEq

/-- `batch.weight` after `learn`; `w` is the value before. dqn.py 229, c51.py 132, qrdqn.py 126, iqn.py 156, fqf.py 178, bdq.py 179, ddpg.py 202, td3.py 147, sac.py 230,
discrete_sac.py 152, redq.py 205, discrete_cql.py 109, td3_bc.py 111. `learn` of cql.py, bcq.py, discrete_bcq.py and discrete_crr.py leave it. -/
def Algo.written (a : Algo) (w : ℝ) (r : RowErr) : ℝ :=
  match a with
  | .dqn | .ddpg => r.td.getD 0 0
  | .td3 | .sac | .discreteSac | .td3bc => (r.td.getD 0 0 + r.td.getD 1 0) / 2
  | .redq => r.td.sum / r.td.length
  | .bdq => r.td.sum
  | .c51 | .rainbow => r.ce
  | .qrdqn | .iqn | .fqf | .discreteCql => (r.diff.map fun d => (d.map fun x => |x|).sum).sum / r.diff.length
  | .cql | .bcq | .discreteBcq | .crr => w

/-- `post_process_fn`, base.py 498-506; `weight` is `batch.weight` if there is such a key. -/
def PBuf.postProcess (p : PBuf O A R) (indices : List Nat) (weight : Option (List ℝ)) : Option (PBuf O A R) :=
  match weight with
  | none => some p
  | some ws => p.updateWeight (indices.zip ws)

/-- `policy.update`, base.py 541-548, for the batch of the given indices: the weights of `buffer[indices]`, `learn`, `post_process_fn`. -/
def PBuf.policyUpdate (a : Algo) (p : PBuf O A R) (indices : List Nat) (errs : List RowErr) : Option (PBuf O A R) :=
  (p.weightAt indices).bind fun ws => p.postProcess indices (some (List.zipWith a.written ws errs))

/-- The same for a `MultiAgentPolicyManager`: its `process_fn` (mapolicy.py 154) returns a batch with the agents as keys, so that there is no key `weight`. -/
def PBuf.managerUpdate (p : PBuf O A R) (indices : List Nat) : Option (PBuf O A R) :=
  (p.weightAt indices).bind fun _ => p.postProcess indices none

/-- The critic loss of a batch: dqn.py 221-227; ddpg.py 188-193 (for each critic of td3.py and sac.py). `clipGrad` is `clip_loss_grad` of DQN; `huber` the Huber loss of a row. -/
def criticLoss (clipGrad : Bool) (huber : ℝ → ℝ) (weights td : List ℝ) : ℝ :=
  if clipGrad then (td.map huber).sum / td.length
  else (List.zipWith (fun w d => d ^ 2 * w) weights td).sum / td.length

end

end Verif.Buffer
