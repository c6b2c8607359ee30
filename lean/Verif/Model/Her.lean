import Verif.Model.Buffer
import Mathlib.Data.List.Sort
import Mathlib.Algebra.Order.Floor.Ring
import Mathlib.Data.Rat.Floor
import Mathlib.Order.Interval.Set.Defs

/-!
Model of `tianshou/data/buffer/her.py` (`HERReplayBuffer`).

Simplifications: `stack_num = 1` (with frame stacking the shape assertions of her.py:177-180 concern stacked
arrays; not modelled). `compute_reward_fn` acts on each (achieved goal, desired goal) pair separately. Rewards
are not rounded to float32. Random numbers are parameters: `u k` the `k`-th `np.random.uniform` value (a
rational, as every float is), `pick n s` the outcome of `np.random.choice(n, size=s, replace=False)`.
-/

namespace Verif.Buffer

/-- Dictionary observation of a goal environment, her.py:14-16. -/
structure GObs (P G : Type) where
  observation : P
  achieved : G
  desired : G
deriving DecidableEq, Repr

variable {P G A R : Type}

/-- `HERReplayBuffer`; `saved` pairs `_altered_indices` with `_original_meta` in row-major order,
her.py:33-46. -/
structure HBuf (P G A R : Type) where
  base : Buf (GObs P G) A R
  computeReward : G → G → R
  horizon : Nat
  futureP : ℚ
  saved : List (Nat × Option (Trans (GObs P G) A R))

/-- `__init__`, her.py:33-46. -/
def HBuf.new [Zero R] (size : Nat) (computeReward : G → G → R) (horizon : Nat) (futureK : ℚ)
    (opts : Opts (GObs P G)) : HBuf P G A R :=
  ⟨Buf.new size opts, computeReward, horizon, 1 - 1 / futureK, []⟩

/-- `_restore_cache`, her.py:48-61. -/
def HBuf.restore (h : HBuf P G A R) : HBuf P G A R :=
  { h with base := { h.base with data := scatter h.base.data h.saved }, saved := [] }

/-- `reset`, her.py:63-65. -/
def HBuf.reset [Zero R] (h : HBuf P G A R) (keepStatistics : Bool) : HBuf P G A R :=
  let h := h.restore
  { h with base := h.base.reset keepStatistics }

/-- `update` from a plain `ReplayBuffer`, her.py:75-77. -/
def HBuf.update (h : HBuf P G A R) (src : Buf (GObs P G) A R) : HBuf P G A R × List Nat :=
  let h := h.restore
  let r := h.base.update src
  ({ h with base := r.1 }, r.2)

/-- `update` from another `HERReplayBuffer`, her.py:75-77: the source's `_meta` is read as it is. -/
def HBuf.updateHer (h src : HBuf P G A R) : HBuf P G A R × List Nat := h.update src.base

/-- `add`, her.py:79-85. -/
def HBuf.add [Zero R] [Add R] (h : HBuf P G A R) (t : Trans (GObs P G) A R) :
    Except Err (HBuf P G A R × AddResult R) :=
  let h := h.restore
  match h.base.add t with
  | .error e => .error e
  | .ok (b, r) => .ok ({ h with base := b }, r)

/-- her.py:113-116: sort chronologically. -/
def sortChron (x : Idx R) (indices : List Nat) : List Nat :=
  ((indices.map fun i => if i < x.ins then i + x.maxsize else i).insertionSort (· ≤ ·)).map
    fun i => if i ≥ x.maxsize then i - x.maxsize else i

/-- `np.round` (half to even) of a non-negative number. -/
def roundEven (x : ℚ) : Nat :=
  let f := ⌊x⌋.toNat
  if x - f < 1 / 2 then f else if x - f > 1 / 2 then f + 1 else if f % 2 = 0 then f else f + 1

/-- her.py:135, `np.sort(np.unique(terminal, return_index=True)[1])`: positions of first occurrences. -/
def openPositions (n : Nat) (terminal : Nat → Nat) : List Nat :=
  (List.range n).filter fun k => (List.range k).all fun j => terminal j != terminal k

/-- her.py:138. -/
def closePositions (n : Nat) (opens : List Nat) : List Nat := (opens.drop 1).map (· - 1) ++ [n - 1]

/-- Last row of the trajectory starting in a slot, her.py:119-126. -/
def HBuf.terminal (h : HBuf P G A R) (i : Nat) : Nat := h.base.next^[h.horizon - 1] i

/-- her.py:127-130 for the `k`-th sampled slot `i`. -/
def HBuf.futureT (h : HBuf P G A R) (u : Nat → ℚ) (k i : Nat) : Nat :=
  let episodesLen := (h.terminal i + h.base.idx.maxsize - i) % h.base.idx.maxsize
  (i + roundEven (u k * episodesLen)) % h.base.idx.maxsize

/-- her.py:112-138 and `future_t[unique_ep_close_indices]`: for each unique episode its first slot and the slot
of the future step. -/
def HBuf.episodes (h : HBuf P G A R) (u : Nat → ℚ) (indices : List Nat) : List (Nat × Nat) :=
  let cur := sortChron h.base.idx indices
  let opens := openPositions cur.length fun k => h.terminal (cur.getD k 0)
  let closes := closePositions cur.length opens
  opens.zipWith (fun o c => (cur.getD o 0, h.futureT u c (cur.getD c 0))) closes

/-- `future_obs.achieved_goal`, her.py:159-162. -/
def HBuf.goalAt (h : HBuf P G A R) (future : Nat) : Option G :=
  if h.base.opts.ignoreObsNext then (h.base.data (h.base.next future)).map fun t => t.obs.achieved
  else (h.base.data future).bind fun t => t.obsNext.map fun o => o.achieved

/-- her.py:165-177 for one slot of an altered episode. With `obs_next` stored, the reward is recomputed from
the altered `obs_next`; otherwise from the stored (unaltered) observation at `next`. -/
def HBuf.relabel (h : HBuf P G A R) (goal : G) (slot : Nat) (t : Trans (GObs P G) A R) : Trans (GObs P G) A R :=
  { t with
    obs := { t.obs with desired := goal }
    obsNext := t.obsNext.map fun o => { o with desired := goal }
    rew :=
      if h.base.opts.ignoreObsNext then
        match h.base.data (h.base.next slot) with
        | some t' => h.computeReward t'.obs.achieved t'.obs.desired
        | none => t.rew
      else match t.obsNext with
        | some o => h.computeReward o.achieved goal
        | none => t.rew }

/-- The cells of `unique_ep_indices`, row by row: slot, column, future slot of the column. -/
def HBuf.cells (h : HBuf P G A R) (eps : List (Nat × Nat)) : List (Nat × Nat × Nat) :=
  (List.range (h.horizon - 1 + 1)).flatMap fun r =>
    eps.zipIdx.map fun e => (h.base.next^[r] e.1.1, e.2, e.1.2)

/-- The row written to one cell, her.py:164-188; `her` are the altered columns. -/
def HBuf.newValue (h : HBuf P G A R) (her : List Nat) (x : Nat × Nat × Nat) : Option (Trans (GObs P G) A R) :=
  if x.2.1 ∈ her then
    match h.goalAt x.2.2 with
    | some goal => (h.base.data x.1).map (h.relabel goal x.1)
    | none => h.base.data x.1
  else h.base.data x.1

/-- `rewrite_transitions`, her.py:100-188. -/
def HBuf.rewrite (h : HBuf P G A R) (u : Nat → ℚ) (pick : Nat → Nat → List Nat) (indices : List Nat) :
    HBuf P G A R :=
  if indices = [] then h
  else
    let eps := h.episodes u indices
    let her := pick eps.length ⌊(eps.length : ℚ) * h.futureP⌋.toNat
    let cells := h.cells eps
    { h with
      base := { h.base with data := scatter h.base.data (cells.map fun x => (x.1, h.newValue her x)) }
      saved := cells.map fun x => (x.1, h.base.data x.1) }

/-- `sample_indices`, her.py:87-98. `np.random.choice` rejects a negative number of altered episodes
(`future_k < 1`). -/
def HBuf.sampleIndices (h : HBuf P G A R) (rng : Nat → Nat) (u : Nat → ℚ) (pick : Nat → Nat → List Nat)
    (batchSize : Option Int) : Except Err (HBuf P G A R × List Nat) :=
  let h := h.restore
  match h.base.sampleIndices rng batchSize with
  | .error e => .error e
  | .ok l =>
    if l ≠ [] ∧ h.futureP < 0 then .error .valueError
    else .ok (h.rewrite u pick l, l)

end Verif.Buffer
