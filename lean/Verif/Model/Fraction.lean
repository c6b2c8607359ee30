import Verif.Model.NetOut
import Verif.Model.Ppo
import Mathlib.Analysis.SpecialFunctions.Log.Basic

/-!
Model of the loss of the fraction proposal network in `FQFPolicy.learn`, `tianshou/policy/modelfree/fqf.py` lines 179-212.

Simplifications: real numbers. `gradient_of_taus` is computed under `torch.no_grad`: for the optimizer it is a constant.
-/

namespace Verif.Fraction

section

variable {K : Type} [Field K] [LinearOrder K]

/-- `torch.where(signs, values, -values)`. -/
def signed (signs : List Bool) (values : List K) : List K := List.zipWith (fun s v => if s then v else -v) signs values

/-- `gradient_of_taus` for one row, fqf.py:185-205, from `sa_quantiles` (at the inner fractions) and `sa_quantile_hats` (between the
fractions). -/
def fractionGrad (quantiles hats : List K) : List K :=
  let values1 := List.zipWith (· - ·) quantiles hats.dropLast
  let signs1 := List.zipWith (fun a b => decide (a > b)) quantiles (hats.take 1 ++ quantiles.dropLast)
  let values2 := List.zipWith (· - ·) quantiles hats.tail
  let signs2 := List.zipWith (fun a b => decide (a < b)) quantiles (quantiles.tail ++ hats.drop (hats.length - 1))
  List.zipWith (· + ·) (signed signs1 values1) (signed signs2 values2)

/-- `fraction_loss`, fqf.py:206, from `gradient_of_taus` and `taus`. -/
def fractionLoss (grads taus : List (List K)) : K :=
  Ppo.mean (List.zipWith (fun g t => (List.zipWith (· * ·) g t.tail.dropLast).sum) grads taus)

/-- `fraction_entropy_loss`, fqf.py:208-209. -/
def fractionEntropyLoss (entCoef : K) (grads taus : List (List K)) (entropies : List K) : K :=
  fractionLoss grads taus - entCoef * Ppo.mean entropies

end

/-- `Categorical(logits=x).entropy()`, the entropies of `FractionProposalNetwork.forward` for one row, discrete.py:243 and 251. -/
noncomputable def entropy (x : List ℝ) : ℝ :=
  -((List.zipWith (· * ·) (x.map fun y => y - Real.log (x.map Real.exp).sum) (NetOut.softmax x)).sum)

end Verif.Fraction
