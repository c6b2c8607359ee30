import Verif.Model.Imitation
import Verif.Model.Returns

/-!
Model of a step of `DiscreteBCQPolicy.update`, `tianshou/policy/imitation/discrete_bcq.py`: `process_fn` and the loss of `learn`.

Simplification: the networks are functions from observations to rows, as in `QTarget`; `rew_norm` off.
-/

namespace Verif.DiscreteBcq

open Verif.QTarget Verif.Returns Verif.Imitation

variable {X : Type}

/-- `_target_q`, discrete_bcq.py 120-126: the action is that of `forward` (137-145) with the network `online`, its value that of `old`. -/
noncomputable def targetQ (inf : ℝ) (logTau : Option ℝ) (online old imitator : X → List ℝ) (xs : List X) : List ℝ :=
  pick 0 (xs.map old) (xs.map fun x => bcqAct inf logTau (online x) (imitator x))

/-- `process_fn`, inherited from `DQNPolicy`, dqn.py 137-156. -/
noncomputable def returns (inf : ℝ) (logTau : Option ℝ) (online old imitator : X → List ℝ) (w : View ℝ) (inputs : Nat → X) (indices : List Nat) (gamma : ℝ)
    (N : Nat) : Option (List (List ℝ)) :=
  computeNstepReturn w indices.length indices (fun l => (targetQ inf logTau online old imitator (l.map inputs)).map fun x => [x]) gamma N

/-- The loss of `learn` with its parts (values, imitation, size of the logits), discrete_bcq.py 160-168, as a function of the networks `net` and `imit`
that are being trained; the returns were computed before with the networks `online`, `old` and `imitator`. -/
noncomputable def learnLoss (weightReg inf : ℝ) (logTau : Option ℝ) (online old imitator net imit : X → List ℝ) (w : View ℝ) (inputs : Nat → X)
    (obs : List X) (acts indices : List Nat) (gamma : ℝ) (N : Nat) : Option (ℝ × ℝ × ℝ × ℝ) :=
  (returns inf logTau online old imitator w inputs indices gamma N).bind fun ret =>
    bcqLoss weightReg (obs.map net) (obs.map imit) acts ret.flatten

end Verif.DiscreteBcq
