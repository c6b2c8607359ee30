import Verif.Model.Policy

/-!
Model of `BasePolicy.compute_action` (`tianshou/policy/base.py` lines 292-315) with the shapes of arrays, and of
`RandomActionPolicy` (`tianshou/policy/base.py` lines 735-753) as the collector uses it.

Simplifications: numbers are elements of a linearly ordered field; tensors and numpy arrays are not distinguished (lines 309-310
convert one into the other); the network is not modelled, what `forward` returns is a parameter.
-/

namespace Verif.ComputeAction

open Verif.Policy

/-- An array: its shape and the number at each multi-index (numbers at indices outside of the shape do not matter). -/
structure NArr (K : Type) where
  shape : List Nat
  at' : List Nat → K

/-- The multi-indices of an array of the given shape. -/
def indices : List Nat → List (List Nat)
  | [] => [[]]
  | d :: s => (List.range d).flatMap fun i => (indices s).map (i :: ·)

/-- `np.squeeze`, `torch.Tensor.squeeze`: the position in the array of an entry of the squeezed one. -/
def expand : List Nat → List Nat → List Nat
  | [], _ => []
  | d :: s, idx =>
    if d = 1 then 0 :: expand s idx
    else
      match idx with
      | [] => 0 :: expand s []
      | i :: rest => i :: expand s rest

/-- `act.squeeze()`, base.py:308: all dimensions of size one are removed. -/
def NArr.squeeze {K : Type} (a : NArr K) : NArr K := ⟨a.shape.filter (· ≠ 1), fun idx => a.at' (expand a.shape idx)⟩

/-- Broadcasting of shapes, from the last dimension on. -/
def brev : List Nat → List Nat → Option (List Nat)
  | [], t => some t
  | s, [] => some s
  | d :: s, e :: t =>
    if d = e ∨ e = 1 then (brev s t).map (d :: ·)
    else if d = 1 then (brev s t).map (e :: ·)
    else none

/-- The shape numpy gives to the result of an operation on two arrays. -/
def bshape (s t : List Nat) : Option (List Nat) := (brev s.reverse t.reverse).map List.reverse

/-- The entry of an array of shape `s` that is used for the entry `idx` of the result. -/
def align (s idx : List Nat) : List Nat :=
  List.zipWith (fun d i => if d = 1 then 0 else i) s (idx.drop (idx.length - s.length))

/-- Action spaces. `low` and `high` of a box have its shape; a `MultiDiscrete` or `MultiBinary` space has a shape as well. -/
inductive Space (K : Type)
  | box (low high : NArr K)
  | discrete (n : Nat)
  | multi (shape : List Nat)

/-- Exceptions raised while an action is computed, policy/base.py 282-440. -/
inductive Err
  | index
  | assertion
  | value
  | type
deriving DecidableEq, Repr

section

variable {K : Type} [Field K] [LinearOrder K]

/-- `map_action`, base.py:388-400, for arrays of any shape. -/
def mapAction (tanh : K → K) (sp : Space K) (bound : Bound) (scaling : Bool) (act : NArr K) : Except Err (NArr K) :=
  match sp with
  | .box low high =>
    let act : NArr K := ⟨act.shape, fun idx => bound1 tanh bound (act.at' idx)⟩
    if scaling then
      if indices act.shape = [] then .error .value
      else if ∀ idx ∈ indices act.shape, -1 ≤ act.at' idx ∧ act.at' idx ≤ 1 then
        match bshape low.shape act.shape with
        | none => .error .value
        | some s =>
          .ok ⟨s, fun idx =>
            scale1 (low.at' (align low.shape idx), high.at' (align high.shape idx)) (act.at' (align act.shape idx))⟩
      else .error .assertion
    else .ok act
  | _ => .ok act

/-- `compute_action`, base.py:305-315: `obs` is the shape of the observation, `fwd` the actions that `forward` returns for the
batch of one. `obs[None, :]` raises an `IndexError` for an array without dimensions; `int` of an array with several entries
raises a `TypeError`. -/
def computeAction (tanh : K → K) (sp : Space K) (bound : Bound) (scaling : Bool) (obs : List Nat) (fwd : NArr K) :
    Except Err (NArr K) :=
  if obs = [] then .error .index
  else
    match mapAction tanh sp bound scaling fwd.squeeze with
    | .error e => .error e
    | .ok act =>
      match sp with
      | .discrete _ => if (indices act.shape).length = 1 then .ok ⟨[], fun _ => act.at' (act.shape.map fun _ => 0)⟩ else .error .type
      | _ => .ok act

/-- `RandomActionPolicy`, base.py:735-744: a policy with the default `action_scaling=False` and `action_bound_method="clip"`
(base.py:198-199), for a box. -/
def randomPolicy (low high : List K) : BoxPolicy K := ⟨.clip, false, low, high⟩

/-- The actions environments receive from a collector with a `RandomActionPolicy` (base.py:746-751, `RandomActor.forward`,
utils/net/common.py:664-676; data/collector.py:706-711; `exploration_noise` does nothing, base.py:268-285): `samples` are the
results of `action_space.sample()`. -/
def randomActions (tanh : K → K) (low high : List K) (samples : List (List K)) : Except Policy.Err (List (List K)) :=
  Policy.mapAction tanh (randomPolicy low high) samples

end

end Verif.ComputeAction
