import Verif.Model.Imitation

/-!
Model of the loss of `DiscreteCQLPolicy.learn`, `tianshou/policy/imitation/discrete_cql.py`.

Simplification: the network is a function from observations to a list of quantiles per action, as in `QTarget`; the gradient step is not part of it.
-/

namespace Verif.DiscreteCql

open Verif.QTarget Verif.Imitation

variable {X : Type}

/-- The loss of `learn`, discrete_cql.py 95-115, as a function of the network `net` that is being trained: `quantiles` is `num_quantiles`, `returns` are the
target distributions of the batch (`batch.returns`, of `QRDQNPolicy`), `ws` the importance weights (all 1 without prioritised replay). An action that is
not an index of its row is an error. -/
noncomputable def learnLoss (minQWeight : ℝ) (quantiles : Nat) (net : X → List (List ℝ)) (obs : List X) (acts : List Nat) (returns : List (List ℝ))
    (ws : List ℝ) : Option ℝ :=
  let allDist := obs.map net
  ((allDist.zip acts).mapM fun r => r.1[r.2]?).bind fun curr =>
    let qrLoss := quantileLoss (List.zipWith (fun c r => (tauHat quantiles, c, r)) curr returns) ws
    cqlTotal minQWeight qrLoss (allDist.map fun d => d.map quantileValue) acts

end Verif.DiscreteCql
