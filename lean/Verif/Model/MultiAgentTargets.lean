import Verif.Model.MultiAgent
import Verif.Model.Returns
import Mathlib.Algebra.Ring.Pi

/-!
Targets and advantages of the agents of a `MultiAgentPolicyManager`: what `process_fn` of
`tianshou/policy/multiagent/mapolicy.py`, lines 120-161, makes of `compute_nstep_return` and `compute_episodic_return` of
`policy/base.py`, which the policies of the agents call on what they are given.

Observations carry the agent to move (`agentOf`, `obs.agent_id`); rewards are vectors, functions of the column;
`column` is `agent_idx`. The batch is `buffer[indices]`. An agent without a move in the batch gets an empty `Batch`
(lines 146-148); here empty lists. Stored observations are not stacked and next observations are
stored.
-/

namespace Verif.MultiAgent

open Verif.Buffer Verif.Returns

variable {Id J O A R : Type} [DecidableEq Id]

/-- `buffer._meta.rew = save_rew[:, agent_idx[agent]]`, mapolicy.py:152: all rows of the buffer, the rewards of one
agent. -/
def agentView (w : View (J → R)) (j : J) : View R :=
  { rew := fun i => w.rew i j, terminated := w.terminated, done := w.done, unfinished := w.unfinished, next := w.next }

/-- `batch.obs.agent_id` for `batch = buffer[indices]`, mapolicy.py:145. -/
def agentIds (agentOf : O → Id) (data : Nat → Option (Trans O A (J → R))) (indices : List Nat) : List (Option Id) :=
  indices.map fun i => (data i).map fun t => agentOf t.obs

/-- `tmp_indice = indice[agent_index]`, mapolicy.py:145-149. -/
def ownIndices (agentOf : O → Id) (data : Nat → Option (Trans O A (J → R))) (indices : List Nat) (a : Id) : List Nat :=
  gather indices (agentIndex (agentIds agentOf data indices) (some a))

/-- The rows of `tmp_batch` with the rewards of the agent, mapolicy.py:149-151. -/
def agentRows (data : Nat → Option (Trans O A (J → R))) (own : List Nat) (j : J) : List (BRow R) :=
  own.filterMap fun i => (data i).map fun t => ⟨t.rew j, t.terminated, t.truncated⟩

/-- The targets of an agent whose policy uses `n`-step returns (such as `DQNPolicy`, dqn.py:142-156): mapolicy.py:145-158
with policy/base.py:629-721. -/
def nstepTargets [Ring R] (m : Mgr O A (J → R)) (agentOf : O → Id) (column : Id → J) (indices : List Nat) (a : Id)
    (targetQ : List Nat → List (List R)) (gamma : R) (N : Nat) : Option (List (List R)) :=
  let own := ownIndices agentOf m.data indices a
  computeNstepReturn (agentView (ofMgr m) (column a)) own.length own targetQ gamma N

/-- Returns and advantages of an agent whose policy estimates advantages (such as `PPOPolicy`, a2c.py:130-163):
mapolicy.py:145-158 with policy/base.py:576-626; `v'` and `v` are the values of the critic, by row. -/
def agentAdvantages [Ring R] (m : Mgr O A (J → R)) (agentOf : O → Id) (column : Id → J) (indices : List Nat) (a : Id)
    (v v' : Nat → R) (gamma lam : R) (isClose : Bool) : Option (List R × List R) :=
  let own := ownIndices agentOf m.data indices a
  computeEpisodicReturn (agentView (ofMgr m) (column a)) (agentRows m.data own (column a)) own
    (some ((List.range own.length).map v')) (some ((List.range own.length).map v)) gamma lam isClose

end Verif.MultiAgent
