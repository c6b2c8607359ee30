import Verif.Model.QTarget

/-!
Model of a whole update of `BranchingDQNPolicy`, bdq.py:116-182: targets of a batch and the loss of the network that is trained. The gradient step is not
part of it.
-/

namespace Verif.Bdq

open Verif.QTarget Verif.Returns

variable {K X : Type} [Field K] [LinearOrder K]

/-- The loss of `learn`, bdq.py:165-178, with the targets of `process_fn`, bdq.py:116-147, as a function of the network that is trained. `obs` and `acts` are
the observations and actions of the batch; the weights are 1 without prioritised replay. -/
def learnLoss (isDouble : Bool) (n : Nets X (List K)) (net : X → List (List K)) (w : View K) (inputs : Nat → X) (obs : List X) (acts : List (List Nat))
    (indices : List Nat) (discount : K) (ws : List K) : Option K :=
  (bdqReturns isDouble n w inputs indices discount).map fun returns =>
    bdqLoss (List.zipWith (fun o (ar : List Nat × K) => (net o, ar.1, ar.2)) obs (acts.zip returns)) ws

end Verif.Bdq
