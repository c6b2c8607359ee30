import Verif.Model.Squash
import Verif.Model.Ppo
import Verif.Model.Critics
import Mathlib.Analysis.SpecialFunctions.Trigonometric.Basic
import Mathlib.Analysis.SpecialFunctions.Pow.Real

/-!
Model of the actor losses of `SACPolicy`, `REDQPolicy` and `CQLPolicy` as functions of what `forward` returns for the batch, and of the targets of the critics of
`SACPolicy`.

Simplifications. Numbers are real numbers without rounding. A critic is a function of an observation and an action; recurrent states are left out.
-/

namespace Verif.SacLoss

open Verif.Squash

variable {X : Type}

/-- `Independent(Normal(loc, scale), 1)` for one row, modelfree/sac.py 193 and redq.py 155; `log_prob` of `torch.distributions.Normal` is
`-((value - loc) ** 2) / (2 * var) - log_scale - math.log(math.sqrt(2 * math.pi))`, summed over the components. -/
noncomputable def normalDist (loc scale : List ℝ) : Dist where
  mode := loc
  logProb x := (((loc.zip scale).zip x).map fun t =>
    -((t.2 - t.1.1) ^ 2) / (2 * t.1.2 ^ 2) - Real.log t.1.2 - Real.log (Real.sqrt (2 * Real.pi))).sum

/-- `actor_loss` of `SACPolicy.learn`, modelfree/sac.py 233-239, and of `CQLPolicy.calc_actor_loss`, imitation/cql.py 177-185: `outs` is what `forward`
returns for the observations. -/
noncomputable def sacActorLoss (critic1 critic2 : X → List ℝ → ℝ) (alpha : ℝ) (obs : List X) (outs : List Out) : ℝ :=
  Ppo.mean (List.zipWith (fun x o => alpha * o.logProb - min (critic1 x o.act) (critic2 x o.act)) obs outs)

/-- `actor_loss` of `REDQPolicy.learn`, modelfree/redq.py 211-214: the mean over the ensemble. -/
noncomputable def redqActorLoss (critics : List (X → List ℝ → ℝ)) (alpha : ℝ) (obs : List X) (outs : List Out) : ℝ :=
  Ppo.mean (List.zipWith (fun x o => alpha * o.logProb - Ppo.mean (critics.map fun q => q x o.act)) obs outs)

/-- `SACPolicy._target_q`, modelfree/sac.py 211-224, for all rows: `xs` are the next observations, `dist` is what the actor says about them, `draw` what `rsample`
gives (`update` refuses to run outside of a training step, policy/base.py 533-538). -/
noncomputable def sacTargetQ (eps : ℝ) (deterministicEval : Bool) (dist : X → Dist) (criticOld critic2Old : X → List ℝ → ℝ) (alpha : ℝ) (draw : Nat → List ℝ)
    (xs : List X) : List ℝ :=
  List.zipWith (fun x o => ActorCritic.sacTarget criticOld critic2Old alpha o.act o.logProb x) xs (forward eps deterministicEval true (xs.map dist) draw)

/-- `SACPolicy.learn`, modelfree/sac.py 226-254, with `sync_weight`, sac.py 181-183: what happens to the networks. The target actor that `DDPGPolicy` creates is never
updated. The tuning of `alpha` is left out (`ActorCritic.Alpha.sacStep`). -/
def sacLearn {W : Type} (soft : W → W → W) (o : ActorCritic.Opt W) (s : ActorCritic.Nets W) : ActorCritic.Nets W :=
  let s := { s with critic := o.critic s }
  let s := { s with critic2 := o.critic2 s }
  let s := { s with actor := o.actor s }
  { s with criticOld := soft s.criticOld s.critic, critic2Old := soft s.critic2Old s.critic2 }

end Verif.SacLoss
