import Verif.Model.Offline

/-!
Model of the actor's update of `TD3BCPolicy`, `policy/imitation/td3_bc.py` 113-125, up to the gradient step.
-/

namespace Verif.Td3Bc

open Verif.Offline Verif.Ppo

variable {K X : Type} [Field K] [LinearOrder K]

/-- `F.mse_loss` of two arrays of actions, td3_bc.py:118: the mean over all entries. -/
def mseLoss (act data : List (List K)) : K :=
  mean (List.zipWith (fun a b => List.zipWith (fun x y => (x - y) ^ 2) a b) act data).flatten

/-- `q_value`, td3_bc.py:116. -/
def values (critic : X → List K → K) (obs : List X) (act : List (List K)) : List K := List.zipWith critic obs act

/-- `lmbda`, td3_bc.py:117. `none` stands for a division by zero. -/
def lmbda (alpha : K) (q : List K) : Option K :=
  let m := mean (q.map fun x => |x|)
  if m = 0 then none else some (alpha / m)

/-- `actor_loss`, td3_bc.py:115-118, as the function that is differentiated in line 120: `lmbda` is detached, so it is the number for the actions `now` of the
actor before the update, while `act` are the actions as functions of the actor's parameters. -/
def actorLoss (alpha : K) (critic : X → List K → K) (obs : List X) (data now act : List (List K)) : Option K :=
  (lmbda alpha (values critic obs now)).map fun l => -l * mean (values critic obs act) + mseLoss act data

end Verif.Td3Bc
