import Verif.Model.Critics

/-!
Model of the training of the critics of `REDQPolicy`, `tianshou/policy/modelfree/redq.py`. `process_fn` is that of `DDPGPolicy` (`Critics.returns`), how the
networks are updated is in `Verif.Model.ActorCritic`.

Simplifications: as in `Verif.Model.Critics`; the ensemble is a list of critics, one for each member.
-/

namespace Verif.RedqLoss

open Verif.Returns Verif.ActorCritic Verif.Critics

variable {X K : Type} [Field K] [LinearOrder K]

/-- `REDQPolicy._target_q`, redq.py:173-189: `drawn` are the actions and log-probabilities that `forward` returns for the next observations, `subset` is
`sample_ensemble_idx`. -/
def targetQ (useMin : Bool) (alpha : K) (ensembleOld : List (X → List K → K)) (subset : List Nat) (drawn : List (List K × K)) (xs : List X) : List K :=
  List.zipWith (fun d x => redqTarget useMin alpha (ensembleOld.map fun c => c x d.1) subset d.2) drawn xs

/-- `critic_loss`, redq.py:193-197: `td` has one row for each member of the ensemble, the weights are the same for all of them. -/
def criticLoss (currentQs : List (List K)) (target ws : List K) : K :=
  Ppo.mean (currentQs.map fun q => List.zipWith (fun td w => td ^ 2 * w) (List.zipWith (· - ·) q target) ws).flatten

/-- The loss of the critics as a function of the ensemble that is being trained, redq.py:191-197 with `batch.returns` of `process_fn`. -/
def loss (useMin : Bool) (alpha : K) (ensembleOld : List (X → List K → K)) (subset : List Nat) (drawn : List (List K × K)) (ensemble : List (X → List K → K))
    (w : View K) (inputs : Nat → X) (obs : List X) (acts : List (List K)) (indices : List Nat) (gamma : K) (N : Nat) (ws : List K) : Option K :=
  (returns (targetQ useMin alpha ensembleOld subset drawn) w inputs indices gamma N).map fun ret =>
    criticLoss (ensemble.map fun c => List.zipWith c obs acts) ret.flatten ws

end Verif.RedqLoss
