import Verif.Model.Manager
import Mathlib.Algebra.Order.Field.Basic

/-!
Which transitions a vector buffer draws: `ReplayBufferManager.sample_indices`, manager.py:195-229, with the weighted
draw of sub-buffers spelled out. `Model/Manager.lean` leaves the draw of the sub-buffers open (any outcome of
positive probability); here it is computed from the random numbers in `[0, 1)`.
-/

namespace Verif.Buffer

open Verif

variable {O A R : Type} {K : Type} [Field K] [LinearOrder K]

/-- `np.cumsum`, from `acc` on. -/
def cumsum (acc : K) : List K → List K
  | [] => []
  | x :: xs => (acc + x) :: cumsum (acc + x) xs

/-- One draw of `np.random.choice(len(p), p=p)`: the random number `u` of `[0, 1)` is looked up in the cumulative
sums of `p` divided by the last of them (`searchsorted(u, side="right")`). -/
def choiceP (p : List K) (u : K) : Nat :=
  let cdf := cumsum 0 p
  (cdf.map (· / cdf.getLastD 0)).countP (fun c => c ≤ u)

/-- `sample_indices`, manager.py:195-229; `u k` is the `k`-th random number in `[0, 1)` of the draw of sub-buffers
(lines 213-217), `draw` the draw of line 210 and `rng b` the randomness used by child `b`. Without any transition the
probabilities are NaN, and numpy raises `ValueError`. -/
def Mgr.sampleWith (m : Mgr O A R) (u : Nat → K) (draw : Nat → Nat) (rng : Nat → Nat → Nat) (batchSize : Option Int) :
    Except Err (List Nat) :=
  if batchSize.getD 0 < 0 then .ok []
  else if m.opts.sampleAvail ∧ 1 < m.opts.stackNum then
    match m.concatSamples rng (fun _ => 0) with
    | .error e => .error e
    | .ok all =>
      if batchSize = some 0 then .ok all
      else choice draw all (batchSize.getD all.length).toNat
  else if batchSize.getD 0 = 0 then m.concatSamples rng (fun _ => 0)
  else
    let lengths := m.subs.map Sub.length
    if lengths.sum = 0 then .error .valueError
    else
      let p : List K := lengths.map fun (x : Nat) => (x : K) / (lengths.sum : K)
      let bufferIdx := (List.range (batchSize.getD 0).toNat).map fun k => choiceP p (u k)
      m.concatSamples rng fun b => if bufferIdx.count b = 0 then -1 else (bufferIdx.count b : Int)

end Verif.Buffer
