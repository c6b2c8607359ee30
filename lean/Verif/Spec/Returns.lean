import Verif.Spec.Buffer
import Verif.Model.Returns
import Mathlib.Algebra.BigOperators.Group.Finset.Basic

/-! Specification vocabulary for returns: rewards of a stored history. -/

namespace Verif.Returns

open Verif.Buffer Verif.Spec

variable {O A R : Type}

/-- Reward of step `j` of the content `c`. -/
def rewOf [Zero R] (c : List (Trans O A R)) (j : Nat) : R := ((c[j]?).map Trans.rew).getD 0

/-- Did step `j` of the content `c` terminate (not just truncate) its episode? -/
def termOf (c : List (Trans O A R)) (j : Nat) : Bool := ((c[j]?).map Trans.terminated).getD false

/-- The value of the state after step `j`, as far as it counts: nothing after a termination. -/
def bootstrap [Zero R] (c : List (Trans O A R)) (j : Nat) (x : R) : R := if termOf c j then 0 else x

/-- The rows `buffer[indices]` hands to the policy, as far as they are read. -/
def rowOf (t : Trans O A R) : BRow R := ⟨t.rew, t.terminated, t.truncated⟩

/-- `buffer[indices]`, as far as it is read. -/
def rowsAt (data : Nat → Option (Trans O A R)) (indices : List Nat) : List (BRow R) :=
  indices.filterMap fun i => (data i).map rowOf

/-- The transitions stored in a buffer, oldest first (by C05, the last `maxsize` transitions it received). -/
def stored (b : Buf O A R) : List (Trans O A R) := b.idx.allIndices.filterMap b.data

/-- A batch of `n` rows given by its entries. -/
def rows (n : Nat) (rew : Nat → R) (term trunc : Nat → Bool) : List (BRow R) :=
  (List.range n).map fun k => ⟨rew k, term k, trunc k⟩

/-- Which rows of the batch end an episode: done, or the newest step of an unfinished episode. -/
def endsAt (w : View R) (n : Nat) (term trunc : Nat → Bool) (slotOf : Nat → Nat) : List Bool :=
  (List.range n).map fun k => (term k || trunc k) || w.unfinished.contains (slotOf k)

/-- The generalised advantage estimate of step `k` of the content `c`: sum over the rest of its episode of the
discounted temporal differences; `v`, `v'` are the values of the states and next states. -/
def gaeSum [CommRing R] (c : List (Trans O A R)) (gamma lam : R) (v v' : Nat → R) (k : Nat) : R :=
  ∑ l ∈ Finset.range (epLast Trans.done c k - k + 1),
    (gamma * lam) ^ l * (rewOf c (k + l) + gamma * bootstrap c (k + l) (v' (k + l)) - v (k + l))

/-- Discounted sum of the rewards from step `k` of the content `c` to the end of its episode. -/
def mcSum [CommRing R] (c : List (Trans O A R)) (gamma : R) (k : Nat) : R :=
  ∑ l ∈ Finset.range (epLast Trans.done c k - k + 1), gamma ^ l * rewOf c (k + l)

/-- Number of steps an `N`-step return covers: fewer if the stored episode ends before. -/
def nstepLen (c : List (Trans O A R)) (N k : Nat) : Nat := min N (epLast Trans.done c k - k + 1)

/-- The `N`-step return of step `k`, bootstrapped with the value `x` of the state after its last step. -/
def nstepValue [CommRing R] (c : List (Trans O A R)) (gamma : R) (N k : Nat) (x : R) : R :=
  (∑ j ∈ Finset.range (nstepLen c N k), gamma ^ j * rewOf c (k + j)) +
    gamma ^ nstepLen c N k * bootstrap c (k + (nstepLen c N k - 1)) x

/-- Position in the batch of the oldest transition of sub-buffer `b`. -/
def offset (sep : List (Buf O A R)) (b : Nat) : Nat := ((sep.map fun c => (stored c).length).take b).sum

end Verif.Returns
