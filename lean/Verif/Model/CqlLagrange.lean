import Mathlib.Analysis.SpecialFunctions.Exp
import Mathlib.Analysis.SpecialFunctions.Sqrt

/-!
Model of the Lagrange multiplier of `CQLPolicy`, `tianshou/policy/imitation/cql.py`, with `with_lagrange=True`.

Simplifications: numbers are real numbers. The optimiser is `torch.optim.Adam` on one number, as it is documented (the betas and `eps` are parameters). The two
penalties of a call of `learn` are parameters; how they are computed is in `Verif.Model.Offline`.
-/

namespace Verif.Cql

/-- The state of `torch.optim.Adam` for one number `x`: the two moments and the number of steps. -/
structure Adam where
  x : ℝ
  m : ℝ
  v : ℝ
  t : Nat

/-- The constants of `torch.optim.Adam`. -/
structure AdamOpts where
  lr : ℝ
  beta1 : ℝ
  beta2 : ℝ
  eps : ℝ

/-- `Adam.step` with the gradient `g`. -/
noncomputable def Adam.step (o : AdamOpts) (s : Adam) (g : ℝ) : Adam :=
  let m := o.beta1 * s.m + (1 - o.beta1) * g
  let v := o.beta2 * s.v + (1 - o.beta2) * g ^ 2
  let t := s.t + 1
  ⟨s.x - o.lr * (m / (1 - o.beta1 ^ t)) / (Real.sqrt (v / (1 - o.beta2 ^ t)) + o.eps), m, v, t⟩

/-- What `__init__` makes, cql.py:141-143: the optimiser holds the tensor made in line 141; `self.cql_log_alpha` is afterwards this tensor if `device` is the
cpu, and otherwise a copy, `some` of its value. -/
structure Lagrange where
  optim : Adam
  copy : Option ℝ

/-- `__init__`, cql.py:141-143. -/
def Lagrange.new (cpu : Bool) : Lagrange := ⟨⟨0, 0, 0, 0⟩, if cpu then none else some 0⟩

/-- `self.cql_log_alpha`. -/
def Lagrange.logAlpha (s : Lagrange) : ℝ := s.copy.getD s.optim.x

/-- `torch.clamp(self.cql_log_alpha.exp(), alpha_min, alpha_max)`, cql.py:362-366. -/
noncomputable def Lagrange.multiplier (alphaMin alphaMax : ℝ) (s : Lagrange) : ℝ := min (max (Real.exp s.logAlpha) alphaMin) alphaMax

/-- The gradient of `cql_alpha_loss`, cql.py:367-372, with respect to `cql_log_alpha` (and, through the copy, to the tensor the optimiser holds): the gradient
of `torch.clamp` is 1 between the bounds and 0 outside. `p1` and `p2` are the penalties before line 367. -/
noncomputable def Lagrange.grad (alphaMin alphaMax threshold : ℝ) (s : Lagrange) (p1 p2 : ℝ) : ℝ :=
  let d := if alphaMin ≤ Real.exp s.logAlpha ∧ Real.exp s.logAlpha ≤ alphaMax then Real.exp s.logAlpha else 0
  (1 / 2) * -(d * (p1 - threshold) + d * (p2 - threshold))

/-- What `learn` adds to the losses of the critics, cql.py:362-368 and 376-377. -/
noncomputable def Lagrange.scaled (alphaMin alphaMax threshold : ℝ) (s : Lagrange) (p1 p2 : ℝ) : ℝ × ℝ :=
  (s.multiplier alphaMin alphaMax * (p1 - threshold), s.multiplier alphaMin alphaMax * (p2 - threshold))

/-- `learn`, cql.py:361-374. -/
noncomputable def Lagrange.learn (o : AdamOpts) (alphaMin alphaMax threshold : ℝ) (s : Lagrange) (p1 p2 : ℝ) : Lagrange :=
  { s with optim := s.optim.step o (s.grad alphaMin alphaMax threshold p1 p2) }

end Verif.Cql
