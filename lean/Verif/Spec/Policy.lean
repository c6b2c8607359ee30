import Verif.Model.Policy

/-! Specification vocabulary for policies. -/

namespace Verif.Policy

/-- Two arrays of the same shape. -/
def SameShape {α β : Type} (x : List (List α)) (y : List (List β)) : Prop :=
  x.map List.length = y.map List.length

/-- Every row of `act` has one entry per component of the box, and the entry lies between the bounds. -/
def InBox {K : Type} [LE K] (low high : List K) (act : List (List K)) : Prop :=
  ∀ row ∈ act, row.length = low.length ∧ row.length = high.length ∧
    ∀ (j : Nat) (lo hi x : K), low[j]? = some lo → high[j]? = some hi → row[j]? = some x → lo ≤ x ∧ x ≤ hi

/-- A box with at least one component. -/
def IsBox {K : Type} [LE K] (low high : List K) : Prop :=
  low ≠ [] ∧ low.length = high.length ∧
    ∀ (j : Nat) (lo hi : K), low[j]? = some lo → high[j]? = some hi → lo ≤ hi

/-- Entrywise comparison of two arrays of the same shape. -/
def Below {K : Type} [LE K] (x y : List (List K)) : Prop :=
  List.Forall₂ (List.Forall₂ (· ≤ ·)) x y

end Verif.Policy
