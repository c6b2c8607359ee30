import Verif.Model.TrustRegion
import Mathlib.Analysis.Calculus.FDeriv.Basic
import Mathlib.Analysis.SpecialFunctions.Log.Basic
import Mathlib.Analysis.SpecialFunctions.Trigonometric.Basic

/-!
Model of the minibatches of `tianshou/policy/modelfree/npg.py` and `trpo.py` for actors whose outputs depend on the parameters in a
differentiable way: what `torch` computes for the losses, the divergences and their derivatives.

Simplifications: real numbers; automatic differentiation is the derivative. The distributions are `Categorical(logits=...)` and
`Independent(Normal(loc, scale), 1)`; their densities and divergences are those of torch.
-/

namespace Verif.TrustRegion

open Matrix

variable {n A D N : ℕ}

/-- `_get_flat_grad`, npg.py:217-219: the gradient. -/
noncomputable def gradOf (f : (Fin n → ℝ) → ℝ) (w : Fin n → ℝ) : Fin n → ℝ := fun i => fderiv ℝ f w (Pi.single i 1)

/-- `_MVP` without the damping, npg.py:188-190: the gradient of the product of the gradient and `v`. -/
noncomputable def hvpOf (f : (Fin n → ℝ) → ℝ) (w v : Fin n → ℝ) : Fin n → ℝ := gradOf (fun x => gradOf f x ⬝ᵥ v) w

/-- A row of a minibatch: the log-probability of the action taken and the divergence between the actors with two parameters. -/
structure Row (n : ℕ) where
  logp : (Fin n → ℝ) → ℝ
  kl : (Fin n → ℝ) → (Fin n → ℝ) → ℝ
  adv : ℝ
  logpOld : ℝ

/-- Discrete actions: the logits of an observation as a function of the parameters, the action, the advantage and `logp_old`. -/
structure DRow (n A : ℕ) where
  logits : (Fin n → ℝ) → Fin A → ℝ
  act : Fin A
  adv : ℝ
  logpOld : ℝ

/-- `Categorical(logits=...).log_prob(a)`: the constructor subtracts `logsumexp`. -/
noncomputable def DRow.logProb (r : DRow n A) (theta : Fin n → ℝ) (a : Fin A) : ℝ :=
  r.logits theta a - Real.log (∑ b, Real.exp (r.logits theta b))

/-- A row with discrete actions: `log_prob(act)` and `kl_divergence(Categorical, Categorical)`. -/
noncomputable def DRow.row (r : DRow n A) : Row n where
  logp := fun theta => r.logProb theta r.act
  kl := fun theta w => ∑ a, Real.exp (r.logProb theta a) * (r.logProb theta a - r.logProb w a)
  adv := r.adv
  logpOld := r.logpOld

/-- Continuous actions: mean and standard deviation as functions of the parameters. -/
structure CRow (n D : ℕ) where
  mu : (Fin n → ℝ) → Fin D → ℝ
  sigma : (Fin n → ℝ) → Fin D → ℝ
  act : Fin D → ℝ
  adv : ℝ
  logpOld : ℝ

/-- A row with continuous actions: `log_prob(act)` and `kl_divergence` of independent normal distributions. -/
noncomputable def CRow.row (r : CRow n D) : Row n where
  logp := fun theta => ∑ d, (-((r.act d - r.mu theta d) ^ 2) / (2 * r.sigma theta d ^ 2) - Real.log (r.sigma theta d) -
    Real.log (Real.sqrt (2 * Real.pi)))
  kl := fun theta w => ∑ d, 1 / 2 * ((r.sigma theta d / r.sigma w d) ^ 2 + ((r.mu theta d - r.mu w d) / r.sigma w d) ^ 2 - 1 -
    Real.log ((r.sigma theta d / r.sigma w d) ^ 2))
  adv := r.adv
  logpOld := r.logpOld

/-- What a minibatch of NPG gives, npg.py:141-151. -/
noncomputable def npgMini (rows : Fin N → Row n) : Mini ℝ n where
  loss := fun theta => -((∑ k, (rows k).logp theta * (rows k).adv) / N)
  kl := fun theta w => (∑ k, (rows k).kl theta w) / N
  grad := gradOf fun theta => -((∑ k, (rows k).logp theta * (rows k).adv) / N)
  hvp := fun theta => hvpOf (fun w => (∑ k, (rows k).kl theta w) / N) theta

/-- What a minibatch of TRPO gives, trpo.py:119-131. -/
noncomputable def trpoMini (rows : Fin N → Row n) : Mini ℝ n where
  loss := fun theta => -((∑ k, Real.exp ((rows k).logp theta - (rows k).logpOld) * (rows k).adv) / N)
  kl := fun theta w => (∑ k, (rows k).kl theta w) / N
  grad := gradOf fun theta => -((∑ k, Real.exp ((rows k).logp theta - (rows k).logpOld) * (rows k).adv) / N)
  hvp := fun theta => hvpOf (fun w => (∑ k, (rows k).kl theta w) / N) theta

end Verif.TrustRegion
