import Verif.Model.OnPolicy
import Verif.Model.Ppo
import Mathlib.Analysis.SpecialFunctions.Log.Basic

/-!
Model of the losses of the actors in `tianshou/policy/modelfree/pg.py`, `a2c.py`, `ppo.py`, `npg.py` and `trpo.py`.

Simplifications: numbers are real; the distribution of actions is given by the log-probabilities `logp`, one per row, as a function
of observation and action; one minibatch with all rows (`batch_size` is `None`), in the order `perm` of the random permutation of
`batch.split` (data/batch.py 1208-1224).
-/

namespace Verif.PolicyGradient

open Verif.OnPolicy Verif.Returns Verif.Stats

variable {O A : Type}

/-- The entries of `log_prob * x` for the minibatch, with one number `x` per row. -/
def products (rows : List (Row O A)) (x : List ℝ) (perm : List Nat) (f : Row O A → ℝ → ℝ) : List ℝ :=
  perm.filterMap fun i =>
    match rows[i]?, x[i]? with
    | some r, some g => some (f r g)
    | _, _ => none

/-- `loss = -(log_prob * ret).mean()`, pg.py 222; `actor_loss = -(log_prob * minibatch.adv).mean()`, a2c.py 176 and npg.py 146. -/
noncomputable def weightedLogLoss (rows : List (Row O A)) (x : List ℝ) (perm : List Nat) (logp : O → A → ℝ) : ℝ :=
  -(Ppo.mean (products rows x perm fun r g => logp r.obs r.act * g))

/-- The first loss of an update of `PGPolicy`, pg.py 128-176 and 209-225. -/
noncomputable def pgLoss (c : Cfg) (w : View ℝ) (rows : List (Row O A)) (indices : List Nat) (rms : RMS Unit ℝ) (perm : List Nat)
    (logp : O → A → ℝ) : Option ℝ :=
  (pgReturns c w (rows.map Row.step) indices rms).map fun r => weightedLogLoss rows r.1 perm logp

/-- The first `actor_loss` of an update of `A2CPolicy`, a2c.py 115-156 and 167-176. -/
noncomputable def a2cLoss (c : Cfg) (critic : List O → List ℝ) (w : View ℝ) (rows : List (Row O A)) (indices : List Nat) (rms : RMS Unit ℝ)
    (perm : List Nat) (logp : O → A → ℝ) : Option ℝ :=
  (computeReturns c critic w rows indices rms).map fun r => weightedLogLoss rows r.1.adv perm logp

/-- `vf_loss` of the first update of `A2CPolicy`, a2c.py 115-156 and 178-179: the returns are computed with the outputs of `critic`, without gradients;
`value` is what the critic says when the loss is evaluated. -/
noncomputable def a2cVfLoss (c : Cfg) (critic : List O → List ℝ) (w : View ℝ) (rows : List (Row O A)) (indices : List Nat) (rms : RMS Unit ℝ)
    (perm : List Nat) (value : O → ℝ) : Option ℝ :=
  (computeReturns c critic w rows indices rms).map fun r =>
    Ppo.mean (products rows r.1.returns perm fun x g => (g - value x.obs) * (g - value x.obs))

/-- `clip_loss` of PPO, ppo.py 191-200: `logpOld` are the log-probabilities at the time the data were processed (ppo.py 160-165). -/
noncomputable def ppoLoss (c : Ppo.Cfg ℝ) (rows : List (Row O A)) (adv : List ℝ) (perm : List Nat) (logpOld logp : O → A → ℝ) : ℝ :=
  -(Ppo.mean (products rows adv perm fun r g =>
    Ppo.surrogate c (Real.exp (logp r.obs r.act - logpOld r.obs r.act)) g))

/-- `actor_loss` of TRPO, trpo.py 119-121. -/
noncomputable def trpoLoss (rows : List (Row O A)) (adv : List ℝ) (perm : List Nat) (logpOld logp : O → A → ℝ) : ℝ :=
  -(Ppo.mean (products rows adv perm fun r g => Real.exp (logp r.obs r.act - logpOld r.obs r.act) * g))

end Verif.PolicyGradient
