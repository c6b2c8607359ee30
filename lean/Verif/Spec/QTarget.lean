import Mathlib.Algebra.Order.Field.Basic

/-! Specification vocabulary for Q-learning targets and importance weighted losses. -/

namespace Verif.QTarget

variable {K : Type} [Field K] [LinearOrder K]

/-- Action `a` is legal: allowed by the mask, if there is one. -/
def Legal (mask : Option (List Bool)) (a : Nat) : Prop := ∀ m, mask = some m → m[a]? = some true

/-- `a` is a legal action of the largest value. -/
def Greedy (q : List K) (mask : Option (List Bool)) (a : Nat) : Prop :=
  Legal mask a ∧ ∃ v, q[a]? = some v ∧ ∀ (b : Nat) (x : K), Legal mask b → q[b]? = some x → x ≤ v

/-- Double Q-learning: the action is chosen by one network and evaluated by the other. -/
def DoubleTarget {V : Type} (q : List K) (old : List V) (mask : Option (List Bool)) (x : V) : Prop :=
  ∃ a, Greedy q mask a ∧ old[a]? = some x

/-- Q-learning with a target network: the largest value of a legal action. -/
def PlainTarget (old : List K) (mask : Option (List Bool)) (x : K) : Prop := DoubleTarget old old mask x

/-- Importance weighting: the loss of a batch is the mean of the losses of its rows, each taken alone with weight 1,
times their weights. -/
def ImportanceWeighted {ρ : Type} (loss : List ρ → List K → K) : Prop :=
  ∀ (rows : List ρ) (ws : List K), ws.length = rows.length → rows ≠ [] →
    loss rows ws = (List.zipWith (fun r w => w * loss [r] [1]) rows ws).sum / rows.length

end Verif.QTarget
