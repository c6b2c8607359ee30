import Verif.Model.Manager
import Mathlib.Algebra.Ring.Defs

/-!
Model of the return computations in `tianshou/policy/base.py` and of the Monte-Carlo hook in
`tianshou/data/collector.py`.

Simplifications: numbers are elements of an arbitrary ring (no rounding, no float32/float64 conversion);
numpy arrays of one axis are lists, arrays combined elementwise have the same length.
-/

namespace Verif.Returns

open Verif.Buffer

variable {O A R : Type}

/-- What the functions below read from a buffer: `buffer.rew`, `buffer.terminated`, `buffer.done` (for every
slot), `buffer.unfinished_index()` and `buffer.next` on one index. -/
structure View (R : Type) where
  rew : Nat → R
  terminated : Nat → Bool
  done : Nat → Bool
  unfinished : List Nat
  next : Nat → Nat

/-- `buffer.rew`: rows never written read 0. -/
def rewAt [Zero R] (data : Nat → Option (Trans O A R)) (i : Nat) : R :=
  match data i with
  | some t => t.rew
  | none => 0

/-- `buffer.terminated`: rows never written read `False`. -/
def terminatedAt (data : Nat → Option (Trans O A R)) (i : Nat) : Bool :=
  match data i with
  | some t => t.terminated
  | none => false

/-- A `ReplayBuffer` that has been written to, base.py:302-322. -/
def ofBuf [Zero R] (b : Buf O A R) : View R where
  rew := rewAt b.data
  terminated := terminatedAt b.data
  done := doneAt b.data
  unfinished := match b.unfinishedIndex true with | .ok l => l | .error _ => []
  next := b.next

/-- A `ReplayBufferManager` that has been written to, manager.py:85-125. -/
def ofMgr [Zero R] (m : Mgr O A R) : View R where
  rew := rewAt m.data
  terminated := terminatedAt m.data
  done := doneAt m.data
  unfinished := match m.unfinishedIndex with | .ok l => l | .error _ => []
  next := fun i => m.next (i : Int)

/-- `BasePolicy.value_mask`, policy/base.py:556-573. -/
def valueMask (w : View R) (indices : List Nat) : List Bool := indices.map fun i => !w.terminated i

/-- Multiplication of a number with a boolean array entry. -/
def mask [Zero R] (b : Bool) (x : R) : R := if b then x else 0

/-- The backward loop of `_gae_return`, policy/base.py:802-805, over the pairs `(delta[i], discount[i])`. -/
def gaeLoop [Zero R] [Add R] [Mul R] : List (R × R) → List R
  | [] => []
  | (delta, discount) :: rest =>
    let r := gaeLoop rest
    (delta + discount * r.headD 0) :: r

/-- `_gae_return`, policy/base.py:761-806. -/
def gaeReturn [Ring R] (vs vs' rew : List R) (endFlag : List Bool) (gamma lam : R) : List R :=
  let delta := List.zipWith (fun p v => p - v) (List.zipWith (fun r v' => r + v' * gamma) rew vs') vs
  let discount := endFlag.map fun e => mask (!e) (gamma * lam)
  gaeLoop (delta.zip discount)

/-- `np.roll(v, 1)`. -/
def roll {α : Type} : List α → List α
  | [] => []
  | x :: l => (x :: l).getLast (by simp) :: (x :: l).dropLast

/-- A row of the batch as far as it is read here. -/
structure BRow (R : Type) where
  rew : R
  terminated : Bool
  truncated : Bool

/-- `v_s_`, policy/base.py:613-618. -/
def nextValues [Zero R] (w : View R) (indices : List Nat) (rew : List R) (vNext : Option (List R)) : List R :=
  match vNext with
  | none => rew.map fun _ => 0
  | some x => List.zipWith mask (valueMask w indices) x

/-- `v_s`, policy/base.py:619. -/
def curValues (vs' : List R) (v : Option (List R)) : List R :=
  match v with
  | none => roll vs'
  | some x => x

/-- `compute_episodic_return`, policy/base.py:576-626; result `(returns, advantage)`. `vNext`, `v` are the
optional arguments `v_s_`, `v_s`; `isClose` is the outcome of `np.isclose(gae_lambda, 1.0)`; `none` is the
assertion error. -/
def computeEpisodicReturn [Ring R] (w : View R) (batch : List (BRow R)) (indices : List Nat)
    (vNext v : Option (List R)) (gamma lam : R) (isClose : Bool) : Option (List R × List R) :=
  let rew := batch.map BRow.rew
  if vNext.isNone ∧ ¬ isClose then none
  else
    let vs' := nextValues w indices rew vNext
    let vs := curValues vs' v
    let endFlag := List.zipWith (fun (r : BRow R) i => (r.terminated || r.truncated) || w.unfinished.contains i)
      batch indices
    let advantage := gaeReturn vs vs' rew endFlag gamma lam
    some (List.zipWith (· + ·) advantage vs, advantage)

/-- `gamma_buffer_N`, policy/base.py:869-871. -/
def gammaBuffer [One R] [Mul R] (gamma : R) : Nat → R
  | 0 => 1
  | i + 1 => gammaBuffer gamma i * gamma

/-- `_indices_to_stack`, policy/base.py:679-683, one index at a time: the column of the stacked indices that
starts with `i` (`N` entries, at least one). -/
def stackedColumn (next : Nat → Nat) (i : Nat) : Nat → List Nat
  | 0 => [i]
  | n + 1 => i :: stackedColumn next (next i) n

/-- The loop of `_nstep_return`, policy/base.py:878-883, for one index: `column` are the remaining entries of
the stacked indices from step `n` on; state `(gammas_IN, n_step_mc_returns_IA)` (one entry per action). -/
def nstepLoop [Ring R] (rew : Nat → R) (endFlag : Nat → Bool) (gamma : R) (N A : Nat) :
    Nat → List Nat → Nat × List R
  | _, [] => (N, List.replicate A 0)
  | n, now :: rest =>
    let s := nstepLoop rew endFlag gamma N A (n + 1) rest
    let g := if endFlag now then n + 1 else s.1
    let mc := if endFlag now then s.2.map fun _ => 0 else s.2
    (g, mc.map fun x => rew now + gamma * x)

/-- `compute_nstep_return`, policy/base.py:629-721 and 827-888, without `rew_norm`; the new `batch.returns`,
one row per index. `targetQ` gives one row of values per index it is called on. `none` is the `ValueError` on
line 662. -/
def computeNstepReturn [Ring R] (w : View R) (batchLen : Nat) (indices : List Nat)
    (targetQ : List Nat → List (List R)) (gamma : R) (N : Nat) : Option (List (List R)) :=
  if indices.length ≠ batchLen then none
  else
    let stacked := indices.map fun i => stackedColumn w.next i (N - 1)
    let after := stacked.map fun col => col.getLastD 0
    let q := List.zipWith (fun m row => row.map (mask m)) (valueMask w after) (targetQ after)
    let endFlag := fun i => w.done i || w.unfinished.contains i
    some (List.zipWith (fun col row =>
      let s := nstepLoop w.rew endFlag gamma N row.length 0 (col.take N)
      List.zipWith (fun x mc => x * gammaBuffer gamma s.1 + mc) row s.2) stacked q)

/-- `episode_mc_return_to_go`, policy/base.py:810-823; on an empty array the code indexes out of bounds
(`none`). -/
def mcReturnToGo [Mul R] [Add R] (gamma : R) : List R → Option (List R)
  | [] => none
  | [r] => some [r]
  | r :: rest =>
    match mcReturnToGo gamma rest with
    | some (x :: xs) => some ((r + gamma * x) :: x :: xs)
    | _ => none

/-- `EpisodeRolloutHookMCReturn`, collector.py:1443-1472: construction and call;
`(mc_return_to_go, full_episode_mc_return)`. -/
def mcHook [LE R] [Zero R] [One R] [Mul R] [Add R] [DecidableLE R] (gamma : R) (rew : List R) :
    Option (List R × List R) :=
  if 0 ≤ gamma ∧ gamma ≤ 1 then
    match mcReturnToGo gamma rew with
    | some (x :: xs) => some (x :: xs, List.replicate (xs.length + 1) x)
    | _ => none
  else none

end Verif.Returns
