import Verif.Model.Manager
import Verif.Model.SegTree
import Mathlib.Analysis.SpecialFunctions.Pow.Real

/-!
Model of `tianshou/data/buffer/prio.py` (`PrioritizedReplayBuffer`), `manager.py`
(`PrioritizedReplayBufferManager`) and `vecbuf.py` (`PrioritizedVectorReplayBuffer`).

Simplifications: weights are real numbers and `**` is the real power; `none` stands for any exception.
Non-negative indices.
-/

namespace Verif.Buffer

open Verif

variable {O A R : Type}

noncomputable section

/-- `alpha` and `__eps`, prio.py:37-41. -/
structure PrioOpts where
  alpha : ℝ
  eps : ℝ

/-- `weight`, `_max_prio`, `_min_prio`, prio.py:38-40. -/
structure Weights where
  tree : SegTree.Tree ℝ
  maxPrio : ℝ
  minPrio : ℝ

/-- prio.py:38-40. -/
def Weights.new (size : Nat) : Weights := ⟨SegTree.init size, 1, 1⟩

/-- `init_weight`, prio.py:46-47. -/
def Weights.initWeight (o : PrioOpts) (w : Weights) (slots : List Nat) : Option Weights :=
  (SegTree.setitem w.tree (slots.map fun (i : Nat) => ((i : Int), w.maxPrio ^ o.alpha))).map
    fun t => { w with tree := t }

/-- prio.py:87: `np.abs(new_weight) + eps`. -/
def prioOf (o : PrioOpts) (x : ℝ) : ℝ := |x| + o.eps

/-- `update_weight`, prio.py:81-90; `kv` pairs indices with new weights. -/
def Weights.updateWeight (o : PrioOpts) (w : Weights) (kv : List (Nat × ℝ)) : Option Weights :=
  (SegTree.setitem w.tree (kv.map fun p => ((p.1 : Int), prioOf o p.2 ^ o.alpha))).map fun t =>
    { tree := t
      maxPrio := (kv.map fun p => prioOf o p.2).foldl max w.maxPrio
      minPrio := (kv.map fun p => prioOf o p.2).foldl min w.minPrio }

/-- `get_weight`, prio.py:69-79, on one index. -/
def Weights.getWeight (w : Weights) (beta : ℝ) (i : Nat) : ℝ :=
  (SegTree.getitem w.tree i / w.minPrio) ^ (-beta)

/-- The `weight` key set by `__getitem__`, prio.py:104-106. `np.max` of an empty array raises. -/
def Weights.batchWeight (w : Weights) (beta : ℝ) (weightNorm : Bool) (indices : List Nat) : Option (List ℝ) :=
  let ws := indices.map (w.getWeight beta)
  if weightNorm then
    match ws with
    | [] => none
    | x :: rest => some (ws.map fun y => y / rest.foldl max x)
  else some ws

/-- The draw of `sample_indices`, prio.py:64-66; `u k` is the `k`-th random number in `[0, 1)`. -/
def Weights.sample (w : Weights) (u : Nat → ℝ) (n : Nat) : Option (List Nat) :=
  (SegTree.getPrefixSumIdx w.tree ((List.range n).map fun k => u k * SegTree.reduce w.tree 0 none)).map Prod.fst

/-- A `PrioritizedReplayBuffer`. -/
structure PBuf (O A R : Type) where
  base : Buf O A R
  w : Weights
  popts : PrioOpts
  beta : ℝ
  weightNorm : Bool

/-- `__init__`, prio.py:25-44. `none`: a failed assertion. -/
def PBuf.new [Zero R] (size : Nat) (opts : Opts O) (popts : PrioOpts) (beta : ℝ) (weightNorm : Bool) :
    Option (PBuf O A R) :=
  if 0 < popts.alpha ∧ 0 ≤ beta then some ⟨Buf.new size opts, Weights.new size, popts, beta, weightNorm⟩
  else none

/-- `add`, prio.py:54-61. -/
def PBuf.add [Zero R] [Add R] (p : PBuf O A R) (t : Trans O A R) : Option (PBuf O A R × AddResult R) :=
  match p.base.add t with
  | .error _ => none
  | .ok (b, r) => (p.w.initWeight p.popts [r.slot]).map fun w => ({ p with base := b, w := w }, r)

/-- `update`, prio.py:49-52. -/
def PBuf.update (p : PBuf O A R) (src : Buf O A R) : Option (PBuf O A R × List Nat) :=
  let r := p.base.update src
  (p.w.initWeight p.popts r.2).map fun w => ({ p with base := r.1, w := w }, r.2)

/-- `reset` is inherited from `ReplayBuffer`, base.py:285-291: the weights are not touched. -/
def PBuf.reset [Zero R] (p : PBuf O A R) (keepStatistics : Bool) : PBuf O A R :=
  { p with base := p.base.reset keepStatistics }

/-- `update_weight`, prio.py:81-90. -/
def PBuf.updateWeight (p : PBuf O A R) (kv : List (Nat × ℝ)) : Option (PBuf O A R) :=
  (p.w.updateWeight p.popts kv).map fun w => { p with w := w }

/-- `set_beta`, prio.py:112-113. -/
def PBuf.setBeta (p : PBuf O A R) (beta : ℝ) : PBuf O A R := { p with beta := beta }

/-- `sample_indices`, prio.py:63-67. -/
def PBuf.sampleIndices (p : PBuf O A R) (u : Nat → ℝ) (rng : Nat → Nat) (batchSize : Option Int) :
    Option (List Nat) :=
  match batchSize with
  | some n =>
    if 0 < n ∧ 0 < p.base.len then p.w.sample u n.toNat
    else (p.base.sampleIndices rng batchSize).toOption
  | none => (p.base.sampleIndices rng none).toOption

/-- `buffer[indices].weight`, prio.py:92-107. -/
def PBuf.weightAt (p : PBuf O A R) (indices : List Nat) : Option (List ℝ) :=
  p.w.batchWeight p.beta p.weightNorm indices

/-- A `PrioritizedVectorReplayBuffer`: the manager with its own weights (manager.py:245-255 deletes the
children's); the children keep a `_beta` each. -/
structure PMgr (O A R : Type) where
  base : Mgr O A R
  w : Weights
  popts : PrioOpts
  beta : ℝ
  weightNorm : Bool
  childBeta : List ℝ

/-- `PrioritizedVectorReplayBuffer.__init__`, vecbuf.py:58-62, with manager.py:245-262: the children are made
with all arguments, the manager itself with `buffer_list[0].options`, which contains `alpha` and `beta`
(prio.py:42) but not `weight_norm`, hence the default `True`. -/
def PMgr.new [Zero R] (totalSize bufferNum : Nat) (opts : Opts O) (popts : PrioOpts) (beta : ℝ)
    (_weightNorm : Bool) : Option (PMgr O A R) :=
  if 0 < popts.alpha ∧ 0 ≤ beta ∧ 0 < bufferNum then
    let m : Mgr O A R := Mgr.newVector totalSize bufferNum opts
    some ⟨m, Weights.new m.total, popts, beta, true, List.replicate bufferNum beta⟩
  else none

/-- `add`, prio.py:54-61 on top of manager.py:131-193. -/
def PMgr.add [Zero R] [Add R] (p : PMgr O A R) (ids : List Nat) (rows : List (Trans O A R)) :
    Option (PMgr O A R × List (AddResult R)) :=
  match p.base.add ids rows with
  | .error _ => none
  | .ok (m, rs) => (p.w.initWeight p.popts (rs.map AddResult.slot)).map fun w => ({ p with base := m, w := w }, rs)

/-- `update_weight`, prio.py:81-90. -/
def PMgr.updateWeight (p : PMgr O A R) (kv : List (Nat × ℝ)) : Option (PMgr O A R) :=
  (p.w.updateWeight p.popts kv).map fun w => { p with w := w }

/-- `PrioritizedVectorReplayBuffer.set_beta`, vecbuf.py:64-66. -/
def PMgr.setBeta (p : PMgr O A R) (beta : ℝ) : PMgr O A R :=
  { p with childBeta := p.childBeta.map fun _ => beta }

/-- `sample_indices`, prio.py:63-67. -/
def PMgr.sampleIndices (p : PMgr O A R) (u : Nat → ℝ) (draw : Nat → Nat) (rng : Nat → Nat → Nat)
    (batchSize : Option Int) : Option (List Nat) :=
  match batchSize with
  | some n =>
    if 0 < n ∧ 0 < p.base.len then p.w.sample u n.toNat
    else (p.base.sampleIndices draw rng batchSize).toOption
  | none => (p.base.sampleIndices draw rng none).toOption

/-- `buffer[indices].weight`, prio.py:92-107. -/
def PMgr.weightAt (p : PMgr O A R) (indices : List Nat) : Option (List ℝ) :=
  p.w.batchWeight p.beta p.weightNorm indices

end

end Verif.Buffer
