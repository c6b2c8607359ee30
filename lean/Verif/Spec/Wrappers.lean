import Verif.Model.Wrappers

/-! Vocabulary for the properties of the action wrappers. -/

namespace Verif.Wrappers

/-- `ns` are the numbers of points per dimension meant by the argument `action_per_dim` for a box with `dim` dimensions. -/
def Points (perDim : PerDim) (dim : Nat) (ns : List Nat) : Prop :=
  (∃ n, perDim = .same n ∧ ns.length = dim ∧ ∀ x ∈ ns, x = n) ∨ perDim = .each ns

end Verif.Wrappers
