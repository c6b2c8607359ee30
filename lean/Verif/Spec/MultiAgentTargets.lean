import Verif.Spec.Returns
import Verif.Spec.Manager

/-! Specification vocabulary for the targets and advantages of several agents. -/

namespace Verif.MultiAgent

open Verif.Buffer Verif.Spec Verif.Returns

variable {Id J O A R S : Type} [DecidableEq Id]

/-- A transition with the reward of column `j` only. -/
def ownReward (j : J) (t : Trans O A (J → R)) : Trans O A R :=
  ⟨t.obs, t.act, t.rew j, t.terminated, t.truncated, t.obsNext⟩

/-- The moves of the agent `a`: what is observed names the agent to move. -/
def moveOf (agentOf : O → Id) (a : Id) (t : Trans O A S) : Bool := decide (agentOf t.obs = a)

/-- Within an episode the agents move in turn: after the agent `x` it is the turn of `rot x`. -/
def Turns (agentOf : O → Id) (rot : Id → Id) (c : List (Trans O A S)) : Prop :=
  (∀ t ∈ c, ∀ o, t.obsNext = some o → agentOf o = rot (agentOf t.obs)) ∧
  ∀ (k : Nat) (t t' : Trans O A S), c[k]? = some t → c[k + 1]? = some t' → t.done = false →
    agentOf t'.obs = rot (agentOf t.obs)

/-- The agent `a` makes the last stored move of every episode. -/
def MovesLast (agentOf : O → Id) (a : Id) (c : List (Trans O A S)) : Prop :=
  ∀ (k : Nat) (t : Trans O A S), c[k]? = some t → (t.done = true ∨ k + 1 = c.length) → agentOf t.obs = a

/-- The moves of an agent among the transitions `c`, with its own rewards. -/
def ownMoves (agentOf : O → Id) (a : Id) (j : J) (c : List (Trans O A (J → R))) : List (Trans O A R) :=
  (c.filter (moveOf agentOf a)).map (ownReward j)

/-- How many of the first `k` transitions are moves of the agent. -/
def movesBefore (agentOf : O → Id) (a : Id) (c : List (Trans O A S)) (k : Nat) : Nat :=
  (c.take k).countP (moveOf agentOf a)

/-- The generalised advantage estimate of the agent's move at step `k`: sum over its own moves from `k` to the end of
the episode of step `k`; `v`, `v'` are the values of the states and next states of its moves. -/
def ownAdvantage [CommRing R] (agentOf : O → Id) (a : Id) (j : J) (c : List (Trans O A (J → R))) (gamma lam : R)
    (v v' : Nat → R) (k : Nat) : R :=
  let r := movesBefore agentOf a c k
  ∑ l ∈ Finset.range (movesBefore agentOf a c (epLast Trans.done c k + 1) - r),
    (gamma * lam) ^ l * (rewOf (ownMoves agentOf a j c) (r + l) +
      gamma * bootstrap (ownMoves agentOf a j c) (r + l) (v' (r + l)) - v (r + l))

/-- Number of moves of the agent in the sub-buffers before `b`. -/
def ownOffset (agentOf : O → Id) (a : Id) (sep : List (Buf O A S)) (b : Nat) : Nat :=
  ((sep.map fun c => (stored c).countP (moveOf agentOf a)).take b).sum

end Verif.MultiAgent
