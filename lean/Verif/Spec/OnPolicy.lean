import Verif.Spec.Returns
import Verif.Spec.Stats
import Verif.Model.OnPolicy

/-! Specification for the preparation of data of on-policy algorithms. -/

namespace Verif.OnPolicy

open Verif.Returns Verif.Spec

/-- A batch by its entries: reward, flags, observations, action and position in the buffer of each of `n` rows. -/
structure Data (O A : Type) where
  n : Nat
  rew : Nat → ℝ
  term : Nat → Bool
  trunc : Nat → Bool
  obs : Nat → O
  obsNext : Nat → O
  act : Nat → A
  slot : Nat → Nat

variable {O A : Type}

/-- Row `k`. -/
def Data.row (d : Data O A) (k : Nat) : Row O A := ⟨⟨d.rew k, d.term k, d.trunc k⟩, d.obs k, d.obsNext k, d.act k⟩

/-- All rows. -/
def Data.rows (d : Data O A) : List (Row O A) := (List.range d.n).map d.row

/-- The positions in the buffer. -/
def Data.indices (d : Data O A) : List Nat := (List.range d.n).map d.slot

/-- The last row of the batch that belongs to the episode of row `t`. -/
def Data.last (d : Data O A) (w : View ℝ) (t : Nat) : Nat := epLast id (endsAt w d.n d.term d.trunc d.slot) t

/-- The generalised advantage estimate of row `t` for the value function `v`. -/
noncomputable def Data.gae (d : Data O A) (w : View ℝ) (gamma lam : ℝ) (v : O → ℝ) (t : Nat) : ℝ :=
  ∑ l ∈ Finset.range (d.last w t - t + 1), (gamma * lam) ^ l *
    (d.rew (t + l) + gamma * (if w.terminated (d.slot (t + l)) then 0 else v (d.obsNext (t + l))) - v (d.obs (t + l)))

/-- The Monte-Carlo return of row `t`, with the value `b` for what comes after the last row unless it is terminal. -/
noncomputable def Data.monteCarlo (d : Data O A) (w : View ℝ) (gamma b : ℝ) (t : Nat) : ℝ :=
  (∑ l ∈ Finset.range (d.last w t - t + 1), gamma ^ l * d.rew (t + l)) +
    gamma ^ (d.last w t - t + 1) * (if w.terminated (d.slot (d.last w t)) then 0 else b)

/-- A network that treats every row by itself: `f` gives what it says about a row. -/
def Rowwise {X B : Type} (net : List X → List B) (f : X → List B) : Prop := ∀ l, net l = (l.map f).flatten

/-- A minibatch size that is allowed: at least one, or -1 for the whole batch. -/
def SizeOk (m : Int) : Prop := 1 ≤ m ∨ m = -1

/-- The factor between the outputs of the critic and values: with `reward_normalization` the standard deviation of returns. -/
noncomputable def factor (c : Cfg) (rms : Stats.RMS Unit ℝ) : ℝ := if c.rewNorm then Real.sqrt (rms.var () + c.eps) else 1

/-- What row `k` of a minibatch should be: the values come from the critic `f`, advantages and returns from the values (outputs of the critic times
the factor), returns are divided by the factor again. -/
noncomputable def Data.used (d : Data O A) (c : Cfg) (w : View ℝ) (f : O → ℝ) (rms : Stats.RMS Unit ℝ) (logp : ℝ) (k : Nat) : Used O A :=
  { row := d.row k
    v := f (d.obs k)
    ret := (d.gae w c.gamma c.lam (fun o => factor c rms * f o) k + factor c rms * f (d.obs k)) / factor c rms
    adv := d.gae w c.gamma c.lam (fun o => factor c rms * f o) k
    logp := logp }

/-- The variance of the returns seen so far, 1 at first. -/
noncomputable def varSoFar (l : List ℝ) : ℝ := if l = [] then 1 else Stats.varOf l

/-- The mean of the returns seen so far, 0 at first. -/
noncomputable def meanSoFar (l : List ℝ) : ℝ := if l = [] then 0 else Stats.meanOf l

end Verif.OnPolicy
