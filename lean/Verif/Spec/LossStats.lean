import Verif.Model.LossStats
import Verif.Spec.Stats

/-! Specification vocabulary for the statistics of updates. -/

namespace Verif.LossStats

open Verif.Stats (Num)

variable {F : Type}

/-- An attribute with name `k` and a number `x` as its value (for a summary of a sequence: its mean). -/
def Shows (a : Dict (Val F)) (k : String) (x : Num F) : Prop :=
  k ≠ "train_time" ∧ k ≠ "smoothed_loss" ∧ ((k, .loss x) ∈ a ∨ (k, .summary x) ∈ a)

mutual
/-- The loss `x` is among the statistics under the name `k`: the statistics of a wrapper contain its own and those of the
wrapped statistics, those of several agents contain those of the agents with the agent in front of the name. -/
def Stats.Has : Stats F → String → Num F → Prop
  | .plain a, k, x => Shows a k x
  | .wrapper a i, k, x => Shows a k x ∨ i.Has k x
  | .agents _ p, k, x => p.Has k x
/-- The same for the agents. -/
def Parts.Has : Parts F → String → Num F → Prop
  | .nil, _, _ => False
  | .cons id s r, k, x => (∃ j, k = id ++ "/" ++ j ∧ s.Has j x) ∨ r.Has k x
end

/-- The agents. -/
def Parts.ids : Parts F → List String
  | .nil => []
  | .cons id _ r => id :: r.ids

/-- Statistics of one policy, possibly wrapped any number of times. -/
def Stats.Single : Stats F → Prop
  | .plain _ => True
  | .wrapper _ i => i.Single
  | .agents _ _ => False

mutual
/-- The attributes of every object form a dictionary: no name occurs twice. -/
def Stats.Dicts : Stats F → Prop
  | .plain a => (a.map Prod.fst).Nodup
  | .wrapper a i => (a.map Prod.fst).Nodup ∧ i.Dicts
  | .agents a p => (a.map Prod.fst).Nodup ∧ p.Dicts
/-- The same for the agents. -/
def Parts.Dicts : Parts F → Prop
  | .nil => True
  | .cons _ s r => s.Dicts ∧ r.Dicts
end

/-- The attributes that a wrapper adds are not attributes of what it wraps. -/
def Stats.Apart : Stats F → Prop
  | .plain _ => True
  | .agents _ _ => True
  | .wrapper a i => i.Apart ∧
    ∀ p ∈ a, p.1 ≠ "train_time" → p.1 ≠ "smoothed_loss" → i.attr? p.1 = none

mutual
/-- No names clash: wrappers add new names and wrap statistics of one policy, and the agents have different names without a
slash. -/
def Stats.Clear : Stats F → Prop
  | .plain _ => True
  | .wrapper a i => i.Single ∧ Stats.Apart (.wrapper a i)
  | .agents _ p => p.Clear
/-- The same for the agents. -/
def Parts.Clear : Parts F → Prop
  | .nil => True
  | .cons id s r => s.Clear ∧ '/' ∉ id.toList ∧ id ∉ r.ids ∧ r.Clear
end

/-- The values of the loss `k` in a series of loss dictionaries. -/
def history (k : String) (ds : List (Dict (Num F))) : List (Num F) :=
  ds.flatMap fun d => (d.filter fun p => p.1 = k).map Prod.snd

end Verif.LossStats
