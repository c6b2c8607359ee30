import Mathlib.Analysis.SpecialFunctions.Log.Basic
import Verif.Model.Policy
import Verif.Model.Ppo
import Verif.Model.QTarget

/-!
Model of the losses of imitation learning, discrete BCQ and discrete CQL, and of the intrinsic curiosity module.

Simplifications. Numbers are real numbers without rounding; outputs of networks are parameters; a row of logits is a list. An action that is not
an index of its row is an error (`none`).
-/

namespace Verif.Imitation

open Verif.Policy Verif.Ppo

/-- `torch.logsumexp` of a row. -/
noncomputable def lse (row : List ℝ) : ℝ := Real.log (row.map Real.exp).sum

/-- `F.log_softmax(row)[a]`. -/
noncomputable def logSoftmax (row : List ℝ) (a : Nat) : Option ℝ := row[a]?.map fun x => x - lse row

/-- `F.nll_loss(F.log_softmax(logits, dim=-1), act)`, imitation/base.py 107-109, discrete_bcq.py 167; also `F.cross_entropy(logits, act)`, icm.py 163.
(The means of empty tensors, NaN, are 0 here.) -/
noncomputable def nll (logits : List (List ℝ)) (act : List Nat) : Option ℝ :=
  ((logits.zip act).mapM fun r => logSoftmax r.1 r.2).map fun l => -mean l

/-- `ImitationPolicy.forward` with discrete actions, imitation/base.py 82-85. -/
noncomputable def imitationAct (logits : List (List ℝ)) : List Nat := logits.map argmax

/-- `F.mse_loss(act, act_target)`, imitation/base.py 101-104: the mean over all entries. -/
noncomputable def mse (pred target : List (List ℝ)) : ℝ :=
  mean ((List.zipWith (fun p t => List.zipWith (fun x y => (x - y) ^ 2) p t) pred target).flatten)

/-- `q.gather(1, act.unsqueeze(1)).mean()` and `q.logsumexp(1).mean()`, discrete_cql.py 111-114: the conservative penalty. -/
noncomputable def cqlPenalty (q : List (List ℝ)) (act : List Nat) : Option ℝ :=
  ((q.zip act).mapM fun r => r.1[r.2]?).map fun l => mean (q.map lse) - mean l

/-- `DiscreteCQLPolicy.learn`, discrete_cql.py 115: the loss from the loss of QRDQN. -/
noncomputable def cqlTotal (weight qrLoss : ℝ) (q : List (List ℝ)) (act : List Nat) : Option ℝ := (cqlPenalty q act).map fun x => qrLoss + x * weight

/-- `DiscreteBCQPolicy.learn`, discrete_bcq.py 161-169: `F.smooth_l1_loss` of the values of the actions, the imitation loss, and the mean square of the
logits. -/
noncomputable def bcqLoss (weightReg : ℝ) (q logits : List (List ℝ)) (act : List Nat) (returns : List ℝ) : Option (ℝ × ℝ × ℝ × ℝ) :=
  ((q.zip act).mapM fun r => r.1[r.2]?).bind fun cur =>
    (nll logits act).map fun iLoss =>
      let qLoss := mean (List.zipWith (fun x y => QTarget.huber (x - y)) cur returns)
      let reg := mean (logits.flatten.map (· ^ 2))
      (qLoss + iLoss + weightReg * reg, qLoss, iLoss, reg)

/-- `F.one_hot(act, num_classes)`. -/
def oneHot (n a : Nat) : Option (List ℝ) := if a < n then some ((List.range n).map fun i => if i = a then 1 else 0) else none

/-- The networks of `IntrinsicCuriosityModule`, utils/net/discrete.py 377-408. -/
structure Icm (O : Type) where
  feature : O → List ℝ
  forward : List ℝ → List ℝ
  inverse : List ℝ → List ℝ
  actionDim : Nat

/-- `IntrinsicCuriosityModule.forward`, utils/net/discrete.py 410-427, for one row: the bonus and the logits of the inverse model. -/
noncomputable def Icm.row {O : Type} (m : Icm O) (s1 : O) (act : Nat) (s2 : O) : Option (ℝ × List ℝ) :=
  (oneHot m.actionDim act).map fun h =>
    (0.5 * (List.zipWith (fun x y => (x - y) ^ 2) (m.forward (m.feature s1 ++ h)) (m.feature s2)).sum, m.inverse (m.feature s1 ++ m.feature s2))

/-- All rows. -/
noncomputable def Icm.rows {O : Type} (m : Icm O) (l : List (O × Nat × O)) : Option (List (ℝ × List ℝ)) := l.mapM fun r => m.row r.1 r.2.1 r.2.2

/-- `ICMPolicy.learn`, icm.py 153-176: the loss of the module with its parts (forward, inverse). -/
noncomputable def Icm.loss {O : Type} (m : Icm O) (weight lrScale : ℝ) (l : List (O × Nat × O)) : Option (ℝ × ℝ × ℝ) :=
  (m.rows l).bind fun out => (nll (out.map Prod.snd) (l.map fun r => r.2.1)).map fun inv =>
    let fwd := mean (out.map Prod.fst)
    (((1 - weight) * inv + weight * fwd) * lrScale, fwd, inv)

end Verif.Imitation
