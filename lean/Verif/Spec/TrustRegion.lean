import Verif.Model.TrustRegion

/-! Specification vocabulary for the natural gradient policies. -/

namespace Verif.TrustRegion

variable {K : Type} [Field K] [LinearOrder K] {n : Nat}

/-- Linear, symmetric and positive definite. -/
structure Spd (B : (Fin n → K) → Fin n → K) : Prop where
  add : ∀ u v, B (u + v) = B u + B v
  smul : ∀ (c : K) v, B (c • v) = c • B v
  symm : ∀ u v, u ⬝ᵥ B v = v ⬝ᵥ B u
  pos : ∀ v, v ≠ 0 → 0 < v ⬝ᵥ B v

/-- Linear, symmetric and positive semidefinite: what the second derivative of a divergence is at its minimum. -/
structure Psd (B : (Fin n → K) → Fin n → K) : Prop where
  add : ∀ u v, B (u + v) = B u + B v
  smul : ∀ (c : K) v, B (c • v) = c • B v
  symm : ∀ u v, u ⬝ᵥ B v = v ⬝ᵥ B u
  nonneg : ∀ v, 0 ≤ v ⬝ᵥ B v

/-- The new parameters satisfy the bound on the divergence, and the surrogate loss went down. -/
def Improves (m : Mini K n) (maxKl : K) (old new : Fin n → K) : Prop :=
  m.kl old new < maxKl ∧ m.loss new < m.loss old

/-- What a trust region update promises: an improvement inside the region, or no change at all. -/
def Trusted (m : Mini K n) (maxKl : K) (old new : Fin n → K) : Prop := new = old ∨ Improves m maxKl old new

end Verif.TrustRegion
