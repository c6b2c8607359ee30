import Verif.Model.QTarget
import Verif.Model.ActorCritic
import Verif.Model.NetOut
import Mathlib.Analysis.SpecialFunctions.Log.Basic

/-!
Model of the losses of `DiscreteSACPolicy`, `tianshou/policy/modelfree/discrete_sac.py`.

Simplifications: numbers are real; a network is a function from observations to rows of outputs, one number per action; recurrent states are left out.
-/

namespace Verif.SoftQ

open Verif.QTarget Verif.Returns Verif.NetOut

variable {X : Type}

/-- The networks at the moment of the call, discrete_sac.py 75-90 and sac.py 96-160. -/
structure Nets (X : Type) where
  actor : X → List ℝ
  critic : X → List ℝ
  critic2 : X → List ℝ
  criticOld : X → List ℝ
  critic2Old : X → List ℝ

/-- `Categorical.entropy` of PyTorch, from the probabilities. -/
noncomputable def entropy (probs : List ℝ) : ℝ := -(probs.map fun p => Real.log p * p).sum

/-- `_target_q`, discrete_sac.py 117-128: the distribution is that of the actor. -/
noncomputable def targetQ (n : Nets X) (alpha : ℝ) (xs : List X) : List ℝ :=
  xs.map fun x => ActorCritic.discreteSacTarget n.criticOld n.critic2Old alpha (softmax (n.actor x)) (entropy (softmax (n.actor x))) x

/-- `batch.returns`: `process_fn` of `DDPGPolicy`, ddpg.py 143-156. `inputs i` is the observation `buffer[i].obs_next`. -/
noncomputable def returns (n : Nets X) (alpha : ℝ) (w : View ℝ) (inputs : Nat → X) (indices : List Nat) (gamma : ℝ) (N : Nat) :
    Option (List (List ℝ)) :=
  computeNstepReturn w indices.length indices (fun l => (targetQ n alpha (l.map inputs)).map fun x => [x]) gamma N

/-- `critic1_loss` and `critic2_loss`, discrete_sac.py 131-154, as functions of the critic that is being trained; the returns were computed with the networks
`n`. -/
noncomputable def criticLoss (n : Nets X) (alpha : ℝ) (critic : X → List ℝ) (w : View ℝ) (inputs : Nat → X) (obs : List X) (acts : List Nat)
    (indices : List Nat) (gamma : ℝ) (N : Nat) (ws : List ℝ) : Option ℝ :=
  (returns n alpha w inputs indices gamma N).map fun ret =>
    Ppo.mean (List.zipWith (fun (r : ℝ × ℝ) x => (r.1 - r.2) ^ 2 * x) (List.zip (pick 0 (obs.map critic) acts) ret.flatten) ws)

/-- `actor_loss`, discrete_sac.py 157-164, as a function of the actor. -/
noncomputable def actorLoss (n : Nets X) (alpha : ℝ) (actor : X → List ℝ) (obs : List X) : ℝ :=
  -(Ppo.mean (obs.map fun x => alpha * entropy (softmax (actor x)) +
    (List.zipWith (· * ·) (softmax (actor x)) (List.zipWith min (n.critic x) (n.critic2 x))).sum))

end Verif.SoftQ
