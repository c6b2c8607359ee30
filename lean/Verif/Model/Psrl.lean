import Mathlib.Algebra.BigOperators.Fin
import Mathlib.Algebra.Order.Field.Basic
import Mathlib.Algebra.Order.BigOperators.Group.Finset
import Mathlib.Data.Finset.Lattice.Fold
import Mathlib.Data.Fintype.Basic
import Verif.Model.Policy

/-!
Model of posterior sampling: `tianshou/policy/modelbased/psrl.py`.

Simplifications: numbers are elements of an ordered field and not rounded, `none` stands for a number that is not finite.
Arrays over states and actions are functions of the indices; indices outside the arrays (which raise) do not occur.
Random numbers are parameters.
-/

namespace Verif.Psrl

variable {K : Type} [Field K] [LinearOrder K]

/-- A transition of a batch, as `PSRLPolicy.learn` reads it (psrl.py:237-248). -/
structure Row (K : Type) where
  obs : Nat
  act : Nat
  obsNext : Nat
  rew : K
  done : Bool

/-- The four arrays of psrl.py:232-235. -/
structure Counts (K : Type) where
  trans : Nat → Nat → Nat → K
  rewSum : Nat → Nat → K
  rewSquareSum : Nat → Nat → K
  rewCount : Nat → Nat → K

/-- Lines 225-228. -/
def Counts.zero : Counts K := ⟨fun _ _ _ => 0, fun _ _ => 0, fun _ _ => 0, fun _ _ => 0⟩

/-- Lines 235-238. -/
def Counts.add (c : Counts K) (r : Row K) : Counts K where
  trans := fun s a s' => c.trans s a s' + if s = r.obs ∧ a = r.act ∧ s' = r.obsNext then 1 else 0
  rewSum := fun s a => c.rewSum s a + if s = r.obs ∧ a = r.act then r.rew else 0
  rewSquareSum := fun s a => c.rewSquareSum s a + if s = r.obs ∧ a = r.act then r.rew ^ 2 else 0
  rewCount := fun s a => c.rewCount s a + if s = r.obs ∧ a = r.act then 1 else 0

/-- Lines 241-242. -/
def Counts.loop (c : Counts K) (r : Row K) : Counts K where
  trans := fun s a s' => c.trans s a s' + if s = r.obsNext ∧ s' = r.obsNext then 1 else 0
  rewSum := c.rewSum
  rewSquareSum := c.rewSquareSum
  rewCount := fun s a => c.rewCount s a + if s = r.obsNext then 1 else 0

/-- The body of the loop, psrl.py:237-247. -/
def Counts.step (addDoneLoop : Bool) (c : Counts K) (r : Row K) : Counts K :=
  if addDoneLoop && r.done then (c.add r).loop r else c.add r

/-- `PSRLModel`, psrl.py:39-59, without the policy. `rewVar` is the square of `rew_std`. -/
structure Model (K : Type) where
  trans : Nat → Nat → Nat → K
  rewMean : Nat → Nat → K
  rewVar : Nat → Nat → Option K
  rewSquareSum : Nat → Nat → K
  stdPrior : Nat → Nat → K
  rewCount : Nat → Nat → K
  eps : K
  tiny : K

/-- `PSRLModel.__init__`, psrl.py:39-59; `tiny` is `np.finfo(np.float32).eps`. -/
def Model.new (transPrior : Nat → Nat → Nat → K) (meanPrior stdPrior : Nat → Nat → K) (eps tiny : K) : Model K :=
  { trans := transPrior
    rewMean := meanPrior
    rewVar := fun s a => some (stdPrior s a ^ 2)
    rewSquareSum := fun _ _ => 0
    stdPrior := stdPrior
    rewCount := fun _ _ => eps
    eps := eps
    tiny := tiny }

/-- The square of psrl.py:91-93, for a positive `count`. Dividing by a zero variance gives infinity, and its reciprocal 0; the root
of a negative number is NaN, and the reciprocal of 0 infinity. -/
def postVar (count rawVar tiny std : K) : Option K :=
  if rawVar + tiny = 0 then some 0
  else
    let q := count / (rawVar + tiny) + 1 / std ^ 2
    if 0 < q then some (1 / q) else none

/-- `observe`, psrl.py:61-94. -/
def Model.observe (m : Model K) (c : Counts K) : Model K :=
  let sumCount := fun s a => m.rewCount s a + c.rewCount s a
  let mean := fun s a => (m.rewMean s a * m.rewCount s a + c.rewSum s a) / sumCount s a
  let square := fun s a => m.rewSquareSum s a + c.rewSquareSum s a
  { m with
    trans := fun s a s' => m.trans s a s' + c.trans s a s'
    rewMean := mean
    rewSquareSum := square
    rewVar := fun s a => postVar (sumCount s a) (square s a / sumCount s a - mean s a ^ 2) m.tiny (m.stdPrior s a)
    rewCount := sumCount }

/-- `PSRLPolicy.learn`, psrl.py:230-248, on the rows of a batch in the order in which `batch.split` gives them. -/
def Model.learn (addDoneLoop : Bool) (m : Model K) (batch : List (Row K)) : Model K :=
  m.observe (batch.foldl (Counts.step addDoneLoop) Counts.zero)

/-- The arrays the user gave as priors, as they are now: `trans_count_prior` is the array `self.trans_count` (psrl.py:47), which
psrl.py:86 changes in place; `self.rew_mean` is replaced in psrl.py:88. -/
def Model.givenTrans (m : Model K) : Nat → Nat → Nat → K := m.trans

/-! ### Value iteration -/

variable {n m : Nat}

/-- Line 131: `rew + discount_factor * trans_prob.dot(value)`. -/
def qValues (P : Fin n → Fin (m + 1) → Fin n → K) (R : Fin n → Fin (m + 1) → K) (gamma : K) (value : Fin n → K) :
    Fin n → Fin (m + 1) → K :=
  fun s a => R s a + gamma * ∑ s', P s a s' * value s'

/-- Line 132: `Q.max(axis=1)`. (With no action, `max` raises.) -/
def best (Q : Fin n → Fin (m + 1) → K) : Fin n → K := fun s => Finset.univ.sup' Finset.univ_nonempty (Q s)

/-- `np.allclose(new, value, rtol, atol)`. -/
def AllClose (atol rtol : K) (new value : Fin n → K) : Prop := ∀ s, |new s - value s| ≤ atol + rtol * |value s|

instance (atol rtol : K) (new value : Fin n → K) : Decidable (AllClose atol rtol new value) :=
  inferInstanceAs (Decidable (∀ _, _))

/-- Lines 131-136, for at most `fuel` evaluations of the condition; `atol` is `1e-8`, the default of `np.allclose`. -/
def valueLoop (P : Fin n → Fin (m + 1) → Fin n → K) (R : Fin n → Fin (m + 1) → K) (gamma atol eps : K) :
    Nat → (Fin n → K) → Option ((Fin n → Fin (m + 1) → K) × (Fin n → K))
  | 0, _ => none
  | fuel + 1, value =>
    let Q := qValues P R gamma value
    let new := best Q
    if AllClose atol eps new value then some (Q, new) else valueLoop P R gamma atol eps fuel new

/-- `value_iteration`, psrl.py:112-140. -/
def valueIteration (P : Fin n → Fin (m + 1) → Fin n → K) (R : Fin n → Fin (m + 1) → K) (gamma atol eps : K)
    (noise : Fin n → Fin (m + 1) → K) (fuel : Nat) (value : Fin n → K) : Option ((Fin n → Nat) × (Fin n → K)) :=
  (valueLoop P R gamma atol eps fuel value).map fun r =>
    (fun s => Policy.argmax (List.ofFn fun a => r.1 s a + eps * noise s a), r.2)

/-! ### The policy -/

/-- The part of the model that decides about actions, psrl.py:56-58: `policy` and `updated`. -/
structure Solver (π : Type) where
  policy : Option π
  updated : Bool

/-- What is done to the model: it is asked for actions (`__call__`, psrl.py:142-150), where `solved` is the policy
`solve_policy` would give, or shown data (`observe`). -/
inductive Use (π : Type)
  | act (solved : π)
  | observe

/-- One such use; the result is the policy the actions were read from. -/
def Solver.use {π : Type} (s : Solver π) : Use π → Solver π × Option π
  | .act solved =>
    let s := if s.updated then s else ⟨some solved, true⟩
    (s, s.policy)
  | .observe => ({ s with updated := false }, none)

/-- Uses one after the other, from construction on. -/
def Solver.run {π : Type} (s : Solver π) : List (Use π) → List (Option π)
  | [] => []
  | u :: us => (s.use u).2 :: Solver.run (s.use u).1 us

end Verif.Psrl
