import Mathlib.Algebra.Order.Field.Basic
import Mathlib.Algebra.BigOperators.Group.List.Defs
import Mathlib.Data.Nat.Cast.Basic

/-!
Model of the losses of `tianshou/policy/modelfree/ppo.py` and of the normalisation of advantages there and in
`npg.py`.

Simplifications: numbers are elements of an ordered field, without rounding; a number that is not finite is `none`;
`sqrt` is a parameter; the ratio of probabilities, the values of the critic and the entropies are given; one number per
transition.
-/

namespace Verif.Ppo

variable {K : Type} [Field K] [LinearOrder K]

/-- `x.clamp(lo, hi)`. -/
def clamp (lo hi x : K) : K := min (max x lo) hi

/-- `PPOPolicy` parameters, ppo.py:142-145 and a2c.py:103-105; `dualClip = none` is `None`. -/
structure Cfg (K : Type) where
  epsClip : K
  dualClip : Option K
  valueClip : Bool
  vfCoef : K
  entCoef : K

/-- Construction succeeds, ppo.py:119-121. -/
def Cfg.valid (c : Cfg K) : Bool :=
  match c.dualClip with
  | none => true
  | some d => decide (1 < d)

/-- The clipped objective of one transition, ppo.py:193-200 without the sign. -/
def surrogate (c : Cfg K) (ratio adv : K) : K :=
  let surr1 := ratio * adv
  let surr2 := clamp (1 - c.epsClip) (1 + c.epsClip) ratio * adv
  let clip1 := min surr1 surr2
  match c.dualClip with
  | none => clip1
  | some d => if adv < 0 then max clip1 (d * adv) else clip1

/-- `.mean()` of a tensor with one axis. -/
def mean (l : List K) : K := l.sum / l.length

/-- The clipped value of the critic, ppo.py:204-207. -/
def clippedValue (eps vOld value : K) : K := vOld + clamp (-eps) eps (value - vOld)

/-- The critic's loss of one transition, ppo.py:203-212. -/
def valueLoss (c : Cfg K) (ret vOld value : K) : K :=
  if c.valueClip then max ((ret - value) ^ 2) ((ret - clippedValue c.epsClip vOld value) ^ 2)
  else (ret - value) ^ 2

/-- One transition of a minibatch as far as the loss reads it: advantage (normalised or not), probability ratio,
return, old value, value, entropy. -/
structure Row (K : Type) where
  adv : K
  ratio : K
  ret : K
  vOld : K
  value : K
  entropy : K

/-- The loss of a minibatch, ppo.py:191-215. -/
def loss (c : Cfg K) (rows : List (Row K)) : K :=
  -(mean (rows.map fun r => surrogate c r.ratio r.adv)) +
    c.vfCoef * mean (rows.map fun r => valueLoss c r.ret r.vOld r.value) -
    c.entCoef * mean (rows.map fun r => r.entropy)

/-- `.std()` of a tensor with one axis: the unbiased deviation, not a number for a single entry. -/
def std (sqrt : K → K) (l : List K) : Option K :=
  if l.length ≤ 1 then none
  else some (sqrt ((l.map fun x => (x - mean l) ^ 2).sum / ((l.length : K) - 1)))

/-- Quotients of the entries by a number. -/
def divAll (l : List K) (d : K) : Option (List K) := if d = 0 then none else some (l.map (· / d))

/-- Normalisation of advantages in PPO, ppo.py:188-190 (`eps` is `1e-8`). -/
def normalise (sqrt : K → K) (eps : K) (l : List K) : Option (List K) :=
  match std sqrt l with
  | none => none
  | some s => divAll (l.map (· - mean l)) (s + eps)

/-- Normalisation of advantages in NPG and TRPO, npg.py:122-123. -/
def normaliseNpg (sqrt : K → K) (l : List K) : Option (List K) :=
  match std sqrt l with
  | none => none
  | some s => divAll (l.map (· - mean l)) s

end Verif.Ppo
