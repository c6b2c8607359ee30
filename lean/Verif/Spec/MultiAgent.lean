import Verif.Model.MultiAgent

/-! Specification notions for the multi-agent properties: rows of an agent, independent of index arrays. -/

namespace Verif.MultiAgent

variable {Id Row R : Type} [DecidableEq Id]

/-- The rows of agent `a`, in batch order. -/
def ownRows (batch : List (MRow Id Row R)) (a : Id) : List (MRow Id Row R) := batch.filter fun r => r.agent = a

/-- How many earlier rows of the batch belong to the same agent as row `i`. -/
def rank (batch : List (MRow Id Row R)) (a : Id) (i : Nat) : Nat := (ownRows (batch.take i) a).length

/-- What a policy sees of its own rows: the data and its own entry of the reward vector. -/
def view [Zero R] (column : Id → Nat) (batch : List (MRow Id Row R)) (a : Id) : List (Row × R) :=
  (ownRows batch a).map fun r => (r.data, r.rew.getD (column a) 0)

/-- The entries of `x` (one per row of the batch) at the rows of agent `a`. -/
def ownOf {α : Type} (batch : List (MRow Id Row R)) (x : List α) (a : Id) : List α :=
  ((batch.zip x).filter fun p => p.1.agent = a).map Prod.snd

end Verif.MultiAgent
