import Verif.Model.Stats

/-! Specification vocabulary for statistics. -/

namespace Verif.Stats

variable {F : Type} [Field F]

/-- Mean of some numbers. -/
def meanOf (l : List F) : F := l.sum / (l.length : F)

/-- Population variance of some numbers. -/
def varOf (l : List F) : F := (l.map fun x => (x - meanOf l) ^ 2).sum / (l.length : F)

/-- The finite numbers in a list. -/
def finite : List (Num F) → List F
  | [] => []
  | .fin x :: l => x :: finite l
  | _ :: l => finite l

/-- The last `n` entries. -/
def lastN {α : Type} (n : Nat) (l : List α) : List α := l.drop (l.length - n)

end Verif.Stats
