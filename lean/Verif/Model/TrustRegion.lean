import Mathlib.Data.Matrix.Mul
import Mathlib.Algebra.Order.Field.Basic

/-!
Model of the natural gradient policies `tianshou/policy/modelfree/npg.py` and `trpo.py`.

Simplifications: numbers are elements of an ordered field, without rounding; a non-finite number (the quotient by
zero) is `none`. The parameters of the actor are the one flat vector of lines npg.py:156-158 and trpo.py:146-148.
Automatic differentiation is not modelled: a minibatch gives the surrogate loss, its gradient, the divergence and
the product of the divergence's second derivative with a vector.
-/

namespace Verif.TrustRegion

variable {K : Type} [Field K] [LinearOrder K] {n : Nat}

/-- Quotient; `none` where floating point gives `inf` or `nan`. -/
def fdiv (a b : K) : Option K := if b = 0 then none else some (a / b)

/-- `_MVP`, npg.py:186-191: `hvp v` is the second derivative of the divergence applied to `v`. -/
def mvp (hvp : (Fin n → K) → Fin n → K) (damping : K) (v : Fin n → K) : Fin n → K := hvp v + damping • v

/-- The loop of `_conjugate_gradients`, npg.py:204-214, with the remaining number of steps. -/
def cgLoop (B : (Fin n → K) → Fin n → K) (tol : K) : Nat → (x r p : Fin n → K) → K → Option (Fin n → K)
  | 0, x, _, _, _ => some x
  | k + 1, x, r, p, rdotr =>
    let z := B p
    match fdiv rdotr (p ⬝ᵥ z) with
    | none => none
    | some alpha =>
      let x := x + alpha • p
      let r := r - alpha • z
      let newRdotr := r ⬝ᵥ r
      if newRdotr < tol then some x
      else match fdiv newRdotr rdotr with
        | none => none
        | some beta => cgLoop B tol k x r (r + beta • p) newRdotr

/-- `_conjugate_gradients`, npg.py:193-215. -/
def conjugateGradients (B : (Fin n → K) → Fin n → K) (b : Fin n → K) (nsteps : Nat) (tol : K) : Option (Fin n → K) :=
  cgLoop B tol nsteps 0 b b (b ⬝ᵥ b)

/-- `_set_from_flat_params`, npg.py:221-227, on the parameter tensors of a model, each flattened. -/
def setFromFlat : List (List K) → List K → List (List K)
  | [], _ => []
  | p :: ps, flat => flat.take p.length :: setFromFlat ps (flat.drop p.length)

/-- What a minibatch gives, npg.py:141-151 and trpo.py:117-132. -/
structure Mini (K : Type) (n : Nat) where
  /-- `actor_loss` at given parameters. -/
  loss : (Fin n → K) → K
  /-- `kl_divergence(old_dist, dist).mean()` at the old and the new parameters. -/
  kl : (Fin n → K) → (Fin n → K) → K
  /-- `flat_grads`. -/
  grad : (Fin n → K) → Fin n → K
  /-- The second derivative of the divergence at the given parameters, applied to a vector. -/
  hvp : (Fin n → K) → (Fin n → K) → Fin n → K

/-- `search_direction`, npg.py:152 and trpo.py:132; `nsteps` is 10, `tol` is `1e-10`, `damping` is 0.1. -/
def direction (m : Mini K n) (damping tol : K) (nsteps : Nat) (theta : Fin n → K) : Option (Fin n → K) :=
  (conjugateGradients (mvp (m.hvp theta) damping) (m.grad theta) nsteps tol).map (-·)

/-- The actor after one minibatch of `NPGPolicy.learn`, npg.py:141-162. -/
def npgStep (m : Mini K n) (damping tol : K) (nsteps : Nat) (stepSize : K) (theta : Fin n → K) :
    Option (Fin n → K) :=
  (direction m damping tol nsteps theta).map fun d => theta + stepSize • d

/-- The variables of the line search: the actor's parameters, `step_size` and `kl`. -/
structure Search (K : Type) (n : Nat) where
  actor : Fin n → K
  step : K
  kl : K

/-- `TRPOPolicy` parameters, trpo.py:100-102. -/
structure Trpo (K : Type) where
  maxBacktracks : Nat
  maxKl : K
  backtrackCoeff : K

/-- One round of the line search, trpo.py:150-173: the variables after it and whether it was left by `break`. -/
def tryStep (c : Trpo K) (loss kl : (Fin n → K) → K) (actorLoss : K) (theta d : Fin n → K) (i : Nat)
    (s : Search K n) : Search K n × Bool :=
  let new := theta + s.step • d
  let k := kl new
  if k < c.maxKl ∧ loss new < actorLoss then (⟨new, s.step, k⟩, true)
  else if i + 1 < c.maxBacktracks then (⟨new, s.step * c.backtrackCoeff, k⟩, false)
  else (⟨new, 0, k⟩, false)

/-- The loop over `range(self.max_backtracks)`, trpo.py:149, from round `i` on. -/
def searchFrom (c : Trpo K) (loss kl : (Fin n → K) → K) (actorLoss : K) (theta d : Fin n → K) :
    Nat → Nat → Search K n → Search K n
  | 0, _, s => s
  | k + 1, i, s =>
    let r := tryStep c loss kl actorLoss theta d i s
    if r.2 then r.1 else searchFrom c loss kl actorLoss theta d k (i + 1) r.1

/-- The line search of one minibatch, trpo.py:145-173: `d` is `search_direction`, `step` the step size of lines
135-143. -/
def lineSearch (c : Trpo K) (m : Mini K n) (theta d : Fin n → K) (step : K) : Search K n :=
  searchFrom c m.loss (m.kl theta) (m.loss theta) theta d c.maxBacktracks 0 ⟨theta, step, m.kl theta theta⟩

/-- The step size before the line search, trpo.py:135-143; `sqrt` is `torch.sqrt`. -/
def maxStep (sqrt : K → K) (c : Trpo K) (m : Mini K n) (damping : K) (theta d : Fin n → K) : Option K :=
  (fdiv (2 * c.maxKl) (d ⬝ᵥ mvp (m.hvp theta) damping d)).map sqrt

/-- One minibatch of `TRPOPolicy.learn`, trpo.py:117-173, without the critic. With a direction or step size that is
not finite no comparison of the line search holds, and the actor is left with parameters that are not finite. -/
def trpoStep (sqrt : K → K) (c : Trpo K) (damping tol : K) (nsteps : Nat) (m : Mini K n) (theta : Fin n → K) :
    Option (Search K n) :=
  match direction m damping tol nsteps theta with
  | none => none
  | some d => (maxStep sqrt c m damping theta d).map fun step => lineSearch c m theta d step

/-- The actors of a call of `TRPOPolicy.learn`, trpo.py:115-190, one after each minibatch (of all repetitions), and
the reported step sizes. -/
def trpoLearn (sqrt : K → K) (c : Trpo K) (damping tol : K) (nsteps : Nat) :
    List (Mini K n) → (Fin n → K) → Option (List (Search K n))
  | [], _ => some []
  | m :: ms, theta =>
    match trpoStep sqrt c damping tol nsteps m theta with
    | none => none
    | some s => (trpoLearn sqrt c damping tol nsteps ms s.actor).map (s :: ·)

end Verif.TrustRegion
