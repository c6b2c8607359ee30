import Mathlib.Data.List.Basic

/-!
Model of `tianshou/policy/multiagent/mapolicy.py`: dispatch of batches to the agents' policies.

Simplifications: a policy is an arbitrary function on batches (of its own rows); hidden states are left out.
-/

namespace Verif.MultiAgent

variable {Id Row Act R Out : Type} [DecidableEq Id]

/-- `np.nonzero(batch.obs.agent_id == agent)[0]`, mapolicy.py:145, 176, 222. -/
def agentIndex (ids : List Id) (a : Id) : List Nat :=
  (ids.zipIdx.filter fun p => decide (p.1 = a)).map Prod.snd

/-- `x[index]` for an array of positions inside the array. -/
def gather {α : Type} (x : List α) (index : List Nat) : List α := index.filterMap fun i => x[i]?

/-- `x[index] = y`: `none` is the `IndexError` for a position outside the array, and the `ValueError` if the
numbers of positions and values differ. -/
def scatter {α : Type} (x : List α) (index : List Nat) (y : List α) : Option (List α) :=
  if index.length = y.length ∧ ∀ i ∈ index, i < x.length then
    some ((index.zip y).foldl (fun x p => x.set p.1 p.2) x)
  else none

/-- A row of the batch: the agent to act and the reward vector (one entry per agent). -/
structure MRow (Id Row R : Type) where
  agent : Id
  data : Row
  rew : List R

/-- The first loop of `forward`, mapolicy.py:214-243: for each agent its positions and the actions its policy
computes for its rows, whose reward is the agent's column. -/
def dispatch [Zero R] (agents : List (Id × (List (Row × R) → List Act))) (column : Id → Nat)
    (batch : List (MRow Id Row R)) : List (List Nat × List Act) :=
  agents.map fun p =>
    let index := agentIndex (batch.map MRow.agent) p.1
    if index = [] then ([], [])
    else (index, p.2 ((gather batch index).map fun r => (r.data, r.rew.getD (column p.1) 0)))

/-- `forward`, mapolicy.py:182-259: the actions. The holder is the concatenation of all results (line 244-246);
then each agent's actions are written to its positions (line 253-254). -/
def forward [Zero R] (agents : List (Id × (List (Row × R) → List Act))) (column : Id → Nat)
    (batch : List (MRow Id Row R)) : Option (List Act) :=
  let results := dispatch agents column batch
  results.foldl (fun holder r => holder.bind fun h => scatter h r.1 r.2) (some (results.map Prod.snd).flatten)

/-- What one agent's `process_fn` is called with: its rows with their rewards, the buffer's rewards as they read
at that moment, and the buffer indices of the rows. -/
structure ProcessArgs (Row R : Type) where
  rows : List (Row × R)
  bufferRew : List R
  indices : List Nat

/-- `buffer._meta.rew`: the reward vectors of all slots, or one agent's column, or an empty batch. -/
inductive BufRew (R : Type)
  | full (m : List (List R))
  | column (c : List R)
  | empty
deriving DecidableEq

/-- The loop of `process_fn`, mapolicy.py:144-158, from a given state of `buffer._meta.rew`; an agent without rows
gets an empty batch (`none`). An agent's `process_fn` may raise (`none`), which ends the loop. -/
def processLoop [Zero R] (column : Id → Nat) (batch : List (MRow Id Row R)) (indices : List Nat)
    (saveRew : List (List R)) : List (Id × (ProcessArgs Row R → Option Out)) → BufRew R →
    BufRew R × Option (List (Id × Option Out))
  | [], rew => (rew, some [])
  | (a, f) :: rest, rew =>
    let index := agentIndex (batch.map MRow.agent) a
    if index = [] then
      let r := processLoop column batch indices saveRew rest rew
      (r.1, r.2.map fun l => (a, none) :: l)
    else
      let col := saveRew.map fun r => r.getD (column a) 0
      match f { rows := (gather batch index).map fun r => (r.data, r.rew.getD (column a) 0)
                bufferRew := col
                indices := gather indices index } with
      | none => (.column col, none)
      | some out =>
        let r := processLoop column batch indices saveRew rest (.column col)
        (r.1, r.2.map fun l => (a, some out) :: l)

/-- `process_fn`, mapolicy.py:120-161, for a buffer that holds rewards (`has_rew`): the buffer's rewards
afterwards and the results per agent. -/
def processFn [Zero R] (agents : List (Id × (ProcessArgs Row R → Option Out))) (column : Id → Nat)
    (batch : List (MRow Id Row R)) (indices : List Nat) (bufferRew : List (List R)) :
    BufRew R × Option (List (Id × Option Out)) :=
  match processLoop column batch indices bufferRew agents .empty with
  | (rew, none) => (rew, none)
  | (_, some results) => (.full bufferRew, some results)

/-- `exploration_noise`, mapolicy.py:165-180. -/
def explorationNoise [Zero R] (agents : List (Id × (List Act → List (MRow Id Row R) → List Act)))
    (batch : List (MRow Id Row R)) (act : List Act) : Option (List Act) :=
  agents.foldl (fun act p => act.bind fun act =>
    let index := agentIndex (batch.map MRow.agent) p.1
    if index = [] then some act
    else scatter act index (p.2 (gather act index) (gather batch index))) (some act)

end Verif.MultiAgent
