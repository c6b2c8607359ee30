import Mathlib.Data.EReal.Basic

/-!
Model of `create_uniform_action_dist`, `tianshou/utils/torch_utils.py`.
-/

namespace Verif.UniformAction

/-- The spaces that `create_uniform_action_dist` tells apart, torch_utils.py:70-79. The bounds of a `Box` are listed in the order of its flattened entries; `start` is the smallest
element of a `Discrete`. A `Box` without dimensions is not modelled. -/
inductive Space where
  | box (shape : List Nat) (low high : List EReal)
  | discrete (n : Nat) (start : Int)
  | other

/-- The distributions of torch, torch_utils.py:73, 76: `Uniform` with its bounds, `Categorical` with the weights it was given. -/
inductive Dist where
  | uniform (low high : List (List EReal))
  | categorical (weights : List (List ℝ))

/-- The exceptions. -/
inductive Err where
  | value
  | runtime
  deriving DecidableEq

open Classical in
/-- `create_uniform_action_dist`, torch_utils.py:58-79. `unsqueeze(0)` gives a tensor with one more dimension than the `Box`, and `repeat` with two arguments is refused for
tensors with more than two dimensions; `Uniform` refuses bounds that are not in order. -/
noncomputable def createUniform (space : Space) (batchSize : Nat) : Except Err Dist :=
  match space with
  | .box shape low high =>
    if shape.length + 1 > 2 then .error .runtime
    else if batchSize = 0 ∨ ∀ p ∈ List.zip low high, p.1 < p.2 then
      .ok (.uniform (List.replicate batchSize low) (List.replicate batchSize high))
    else .error .value
  | .discrete n _ => .ok (.categorical (List.replicate batchSize (List.replicate n 1)))
  | .other => .error .value

/-- An entry of a sample of `Uniform`: `low + u * (high - low)` with `u` between 0 and 1; `none` stands for a number that is infinite or NaN. -/
noncomputable def entry (low high : EReal) (u : ℝ) : Option ℝ :=
  if low = ⊥ ∨ low = ⊤ ∨ high = ⊥ ∨ high = ⊤ then none else some (low.toReal + u * (high.toReal - low.toReal))

/-- `sample` of `Uniform` for the random numbers `u`. -/
noncomputable def sampleUniform (low high : List (List EReal)) (u : List (List ℝ)) : List (List (Option ℝ)) :=
  List.zipWith (fun (b : List EReal × List EReal) r => List.zipWith (fun (p : EReal × EReal) x => entry p.1 p.2 x) (List.zip b.1 b.2) r) (List.zip low high) u

/-- The probability that a row of `Categorical` with weights `w` is `k`. -/
noncomputable def chance (w : List ℝ) (k : Int) : ℝ := if 0 ≤ k then w.getD k.toNat 0 / w.sum else 0

end Verif.UniformAction
