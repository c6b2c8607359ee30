import Mathlib.Analysis.SpecialFunctions.Log.Basic
import Mathlib.Analysis.Complex.Trigonometric

/-!
Model of the stochastic actors of SAC and REDQ: the squashed action and the correction of its log-probability.

Simplifications. Numbers are real numbers without rounding. The distribution of a row (`Independent(Normal(loc, scale), 1)`) is given by its mode and
its log-density, the draw of `rsample` is a parameter.
-/

namespace Verif.Squash

/-- `correct_log_prob_gaussian_tanh`, modelfree/sac.py 24-38, for one row. -/
noncomputable def correct (eps : ℝ) (logp : ℝ) (squashed : List ℝ) : ℝ := logp - (squashed.map fun y => Real.log (1 - y ^ 2 + eps)).sum

/-- What the actor says about one observation: the mode and the log-density of the distribution. -/
structure Dist where
  mode : List ℝ
  logProb : List ℝ → ℝ

/-- One row of the output of `forward`. -/
structure Out where
  act : List ℝ
  logProb : ℝ

/-- `SACPolicy.forward`, modelfree/sac.py 186-209, and `REDQPolicy.forward`, modelfree/redq.py 148-176, for all rows; `draw` is what `rsample` gives
for each row. -/
noncomputable def forward (eps : ℝ) (deterministicEval withinTrainingStep : Bool) (dists : List Dist) (draw : Nat → List ℝ) : List Out :=
  dists.zipIdx.map fun d =>
    let act := if deterministicEval && !withinTrainingStep then d.1.mode else draw d.2
    let squashed := act.map Real.tanh
    ⟨squashed, correct eps (d.1.logProb act) squashed⟩

end Verif.Squash
