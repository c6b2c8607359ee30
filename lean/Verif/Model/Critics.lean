import Verif.Model.QTarget
import Verif.Model.ActorCritic

/-!
Model of the training of the critics of `DDPGPolicy` and `TD3Policy`: `tianshou/policy/modelfree/ddpg.py` and `td3.py`. How the networks are updated in `learn` is
in `Verif.Model.ActorCritic`; here are the targets and the losses.

Simplifications: numbers are elements of an ordered field; an actor is a function from observations to actions, a critic a function from observations and actions
to numbers; recurrent states are left out.
-/

namespace Verif.Critics

open Verif.QTarget Verif.Returns Verif.ActorCritic

variable {X K : Type} [Field K] [LinearOrder K]

/-- `DDPGPolicy._target_q`, ddpg.py:136-141, with `forward`, ddpg.py:177-179, of the target actor. -/
def ddpgTargetQ (actorOld : X → List K) (criticOld : X → List K → K) (xs : List X) : List K := xs.map fun x => criticOld x (actorOld x)

/-- `TD3Policy._target_q`, td3.py:128-141; `rand p` are the standard normal numbers for row `p`. -/
def td3TargetQ (actorOld : X → List K) (criticOld critic2Old : X → List K → K) (policyNoise noiseClip : K) (rand : List (List K)) (xs : List X) : List K :=
  List.zipWith (td3Target criticOld critic2Old actorOld policyNoise noiseClip) rand xs

/-- `batch.returns`: `process_fn`, ddpg.py:143-156. `inputs i` is the observation `buffer[i].obs_next`. -/
def returns (targetQ : List X → List K) (w : View K) (inputs : Nat → X) (indices : List Nat) (gamma : K) (N : Nat) : Option (List (List K)) :=
  computeNstepReturn w indices.length indices (fun l => (targetQ (l.map inputs)).map fun x => [x]) gamma N

/-- The loss in `_mse_optimizer`, ddpg.py:181-193, as a function of the critic that is being trained. -/
def loss (targetQ : List X → List K) (critic : X → List K → K) (w : View K) (inputs : Nat → X) (obs : List X) (acts : List (List K)) (indices : List Nat)
    (gamma : K) (N : Nat) (ws : List K) : Option K :=
  (returns targetQ w inputs indices gamma N).map fun ret => criticLoss (List.zip (List.zipWith critic obs acts) ret.flatten) ws

/-- `actor_loss` of `DDPGPolicy.learn`, ddpg.py:204, and of `TD3Policy.learn`, td3.py:151, as a function of the actor that is being trained. -/
def ddpgActorLoss (critic : X → List K → K) (actor : X → List K) (obs : List X) : K := -Ppo.mean (List.zipWith critic obs (obs.map actor))

end Verif.Critics
