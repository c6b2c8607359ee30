import Mathlib.Algebra.Field.Defs
import Mathlib.Data.Nat.Cast.Defs

/-!
Model of the action wrappers in `tianshou/env/gym_wrappers.py`.

Simplifications. Integers do not overflow and floating point numbers are elements of an arbitrary field. Discrete actions
are natural numbers; the negative indices numpy would accept are not modelled. What the wrapped environment does with
the converted action is not modelled.
-/

namespace Verif.Wrappers

/-- Lines 48-50: the loop over `self.bases`, which starts with ones; `nvec[-i]` is the entry at `len(nvec) - i`. -/
def bases (nvec : List Nat) : List Nat :=
  (List.range' 1 (nvec.length - 1)).foldl
    (fun bs i => bs.set i (bs.getD (i - 1) 0 * nvec.getD (nvec.length - i) 0))
    (List.replicate nvec.length 1)

/-- Line 51: the number of discrete actions, `np.prod(nvec)`. -/
def discreteSize (nvec : List Nat) : Nat := nvec.foldl (· * ·) 1

/-- Lines 54-57: the loop over the flipped bases, for one action. -/
def convert : List Nat → Nat → List Nat
  | [], _ => []
  | b :: bs, act => act / b :: convert bs (act % b)

/-- Lines 53-58: `MultiDiscreteToDiscrete.action` for a single action. -/
def toMulti (nvec : List Nat) (act : Nat) : List Nat := convert (bases nvec).reverse act

/-- Lines 54-57 for an array of actions: one array per component. -/
def convertArray : List Nat → List Nat → List (List Nat)
  | [], _ => []
  | b :: bs, acts => acts.map (· / b) :: convertArray bs (acts.map (· % b))

/-- Lines 53-58 for an array of `n` actions: the transposed array has `n` rows. -/
def toMultiArray (nvec : List Nat) (acts : List Nat) : List (List Nat) :=
  (List.range acts.length).map fun k => (convertArray (bases nvec).reverse acts).map fun col => col.getD k 0

section

variable {F : Type} [Field F]

/-- `np.linspace(lo, hi, n)`: `n` points at equal distance, the last of which is set to `hi`. -/
def linspace (lo hi : F) (n : Nat) : List F :=
  (List.range n).map fun i : Nat => if 1 < n ∧ i = n - 1 then hi else (i : F) * ((hi - lo) / ((n : F) - 1)) + lo

/-- The argument `action_per_dim`. -/
inductive PerDim
  | same (n : Nat)
  | each (ns : List Nat)

/-- Lines 20-21. -/
def PerDim.list (dim : Nat) : PerDim → List Nat
  | .same n => List.replicate dim n
  | .each ns => ns

/-- Lines 16-27: the mesh of `ContinuousToDiscrete`; `none` if the assertion on the number of entries fails. That there is
at least one point per dimension is asserted by `MultiDiscrete`. -/
def makeMesh (low high : List F) (perDim : PerDim) : Option (List (List F)) :=
  let ns := perDim.list low.length
  if ns.length = low.length ∧ ns.all (fun n => decide (0 < n)) then
    some (((low.zip high).zip ns).map fun p => linspace p.1.1 p.1.2 p.2)
  else none

/-- Lines 32-33: `ContinuousToDiscrete.action` for one action; `none` is an `IndexError`. -/
def toPoint (mesh : List (List F)) (act : List Nat) : Option (List F) :=
  act.zipIdx.mapM fun p => mesh[p.2]?.bind fun points => points[p.1]?

/-- Line 34: several actions at once. -/
def toPoints (mesh : List (List F)) (acts : List (List Nat)) : Option (List (List F)) := acts.mapM (toPoint mesh)

end

/-- Lines 77-80: what `TruncatedAsTerminated.step` returns for `(terminated, truncated)`. -/
def truncatedAsTerminated (terminated truncated : Bool) : Bool × Bool := (terminated || truncated, truncated)

end Verif.Wrappers
