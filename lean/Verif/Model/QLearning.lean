import Verif.Model.QTarget

/-!
Model of the loss of a step of `DQNPolicy.update`, `tianshou/policy/modelfree/dqn.py`, and of `C51Policy.update`,
`tianshou/policy/modelfree/c51.py`: `process_fn` and then `learn`.

Simplification: the network is a function from observations to rows of values, as in `QTarget`.
-/

namespace Verif.QLearning

open Verif.QTarget Verif.Returns

variable {X K : Type} [Field K] [LinearOrder K]

/-- The loss of `DQNPolicy.learn`, dqn.py 216-227, as a function of the network `net` that is being trained, for a batch with the observations
`obs` and actions `acts` whose returns were computed by `process_fn` (dqn.py 137-156) with the networks `nets`. -/
def learnLoss (clipLossGrad isDouble : Bool) (nets : Nets X K) (net : X → List K) (w : View K) (inputs : Nat → X)
    (masks : Option (Nat → List Bool)) (obs : List X) (acts : List Nat) (indices : List Nat) (gamma : K) (N : Nat) (ws : List K) : Option K :=
  (dqnReturns isDouble nets w inputs masks indices gamma N).map fun ret =>
    dqnLoss clipLossGrad (List.zip (pick 0 (obs.map net) acts) ret.flatten) ws

/-- The loss of `C51Policy.learn`, c51.py 119-130, as a function of the network `net` that is being trained, for a batch with the observations `obs` and actions `acts`; the
target distributions are computed with the networks `nets`. The number 1e-8 of line 129 is the parameter `eps`, the logarithm the parameter `log`. -/
def c51LearnLoss (p : Policy.C51 K) (log : K → K) (eps : K) (isDouble : Bool) (nets : Nets X (List K)) (net : X → List (List K)) (w : View K) (inputs : Nat → X)
    (masks : Option (Nat → List Bool)) (obs : List X) (acts : List Nat) (indices : List Nat) (gamma : K) (N : Nat) (ws : List K) : Option K :=
  (c51Targets p isDouble nets w inputs masks indices gamma N).map fun t => c51Loss log eps (List.zip (pick [] (obs.map net) acts) t) ws

end Verif.QLearning
