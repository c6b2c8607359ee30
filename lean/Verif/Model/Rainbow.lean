import Mathlib.Data.Nat.Basic

/-!
Model of `tianshou/policy/modelfree/rainbow.py` with `learn` of c51.py: which noise the online and the target network use in an update.

Simplifications: a network is its parameters and the noise of its `NoisyLinear` layers (`eps_p`, `eps_q`, one value per layer); the `k`-th draw of noise is `eps k`. The
gradient step is the parameter `step`, which may depend on everything that the loss depends on.
-/

namespace Verif.Rainbow

variable {P E : Type} {m : Nat}

/-- A network with `m` noisy layers. `eps_p` and `eps_q` are buffers (discrete.py:343-345), hence part of the state dictionary. -/
structure Net (P E : Type) (m : Nat) where
  params : P
  noise : Fin m → E
  training : Bool

/-- `NoisyLinear.sample` of all layers, rainbow.py:13-27, discrete.py:366-368; `k` draws were made before. -/
def Net.sample (n : Net P E m) (eps : Nat → E) (k : Nat) : Net P E m := { n with noise := fun j => eps (k + j) }

/-- `load_state_dict(state_dict())`, dqn.py:117-119: parameters and buffers, not the mode. -/
def Net.load (n src : Net P E m) : Net P E m := { n with params := src.params, noise := src.noise }

/-- The policy: `freq` is `target_update_freq`, `drawn` the number of draws so far. -/
structure Pol (P E : Type) (m : Nat) where
  online : Net P E m
  old : Net P E m
  freq : Nat
  iter : Nat
  drawn : Nat

/-- A new policy, dqn.py:82-99: the target network is a deep copy in evaluation mode. -/
def Pol.new (params : P) (noise : Fin m → E) (freq : Nat) : Pol P E m :=
  ⟨⟨params, noise, true⟩, ⟨params, noise, false⟩, freq, 0, 0⟩

/-- `learn` up to the computation of the loss, rainbow.py:56-58 and c51.py:120-121: the networks that are used for the target distribution (c51.py:101-109)
and the current distribution. -/
def Pol.prepare (p : Pol P E m) (eps : Nat → E) : Pol P E m :=
  let p := { p with online := p.online.sample eps p.drawn, drawn := p.drawn + m }
  let p :=
    if 0 < p.freq then
      { p with
        old := if 0 < m then { p.old.sample eps p.drawn with training := true } else p.old
        drawn := p.drawn + m }
    else p
  if 0 < p.freq ∧ p.iter % p.freq = 0 then { p with old := p.old.load p.online } else p

/-- `learn`, rainbow.py:50-59, c51.py:119-138. -/
def Pol.learn (p : Pol P E m) (eps : Nat → E) (step : Pol P E m → P) : Pol P E m :=
  let p := p.prepare eps
  { p with online := { p.online with params := step p }, iter := p.iter + 1 }

/-- The policy after `t` updates; `step t` is the gradient step of update `t`. -/
def Pol.after (p : Pol P E m) (eps : Nat → E) (step : Nat → Pol P E m → P) : Nat → Pol P E m
  | 0 => p
  | t + 1 => (p.after eps step t).learn eps (step t)

end Verif.Rainbow
